/-
The types of values that are written by hand and take all that they should: which they are.
-/
import Verif.Lemmas.CompleteHand

namespace Hdx
open Spec Prog

section
variable {src : List Char} {M : Meaning}

/-! ### Functions -/

theorem function_closes {f : Cursor} {w : List Cursor} {close : Option Cursor} (hf : IsKind .function f) (hcl : Closes .rightParen close) (h : closings w ≤ opens w) :
    closings (f :: (w ++ close.toList)) ≤ opens (f :: (w ++ close.toList)) := by
  have h3 := count_function hf
  have h4 := count_cons f (w ++ close.toList)
  rw [h4.1, h4.2, closings_append, opens_append, h3.1, h3.2]
  cases close with
  | none => simp [closings, opens] at h ⊢; omega
  | some k =>
    have h5 := count_close (hcl k rfl)
    simp only [Option.toList_some, h5.1, h5.2]
    omega

theorem namedFunction_yields {name : List Char} (hp : plainName name = true) {f : Cursor} {rest : List Cursor} (hf : IsKind .function f) (hn : Named src f name)
    (hc : Clear src f) : Yields src (f :: rest) (namedFunction name) rest fun x => x = f := by
  obtain ⟨s, hs, he, _⟩ := hc (.inr (.inl hf))
  unfold namedFunction
  refine Yields.bind (Yields.tok (P' := fun x => x = f) (Tests.kind.congr hf) rfl) fun x hx => ?_
  subst hx
  refine Yields.test (Tests.eqCase (he _ (plainName_spec hp))) ?_
  rw [hs.same hn, decide_eq_true rfl]
  exact Yields.neg (by decide) (Yields.pure rfl)

/-! ### `<color>` -/

/-- The names of colors. -/
def colorWords : List (List Char) := [c!"currentcolor", c!"transparent"] ++ (NAMED_COLORS ++ SYSTEM_COLORS)

/-- What is known of colors. -/
def colorInfo : Info := ⟨[.kind .hash] ++ ([.kind .function] ++ [.kind .ident]), .kind .hash :: (colorWords.map .word ++ COLOR_FUNCTIONS.map .func), []⟩

theorem color_words : ∀ d ∈ (match colorDef with | .comb ds _ => ds | _ => []), (∃ n d', d = .function n d') ∨
    chooses [c!"currentcolor", c!"transparent"] d = true ∨ chooses NAMED_COLORS d = true ∨ chooses SYSTEM_COLORS d = true := by
  intro d hd
  simp only [colorDef, alts, List.mem_cons, List.not_mem_nil, or_false] at hd
  rcases hd with rfl | rfl | rfl | rfl | rfl | rfl | rfl | rfl | rfl | rfl | rfl | rfl | rfl
  · exact .inr (.inl (by decide +kernel))
  · exact .inr (.inr (.inl (by decide +kernel)))
  · exact .inr (.inr (.inr (by decide +kernel)))
  all_goals exact .inl ⟨_, _, rfl⟩

theorem color_inv {w : List Cursor} (h : (∃ c, w = [c] ∧ IsKind .hash c) ∨ Matches src M colorDef w) (hd : Decent src w) :
    (∃ c, w = [c] ∧ IsKind .hash c) ∨
    (∃ c names, names ∈ [[c!"currentcolor", c!"transparent"], NAMED_COLORS, SYSTEM_COLORS] ∧ w = [c] ∧ Among src (names.map .word) c) ∨
    ∃ n d ss f v close, ColorFn src M n d ss ∧ w = f :: (v ++ Option.toList close) ∧ IsKind .function f ∧ Named src f n ∧ Matches src M d v ∧ Closes .rightParen close := by
  rcases h with h | h
  · exact .inl h
  · refine .inr ?_
    have : ∃ d ∈ (match colorDef with | .comb ds _ => ds | _ => []), Matches src M d w := by
      unfold colorDef alts at h
      cases h with
      | one hm hw => exact ⟨_, hm, hw⟩
    obtain ⟨d, hm, hw⟩ := this
    rcases color_words d hm with ⟨n, d', rfl⟩ | h | h | h
    · obtain ⟨ss, hs⟩ := color_functions (src := src) (M := M) hm
      obtain ⟨f, v, close, rfl, h1, h2, h3, h4⟩ := function_inv hw
      exact .inr ⟨n, d', ss, f, v, close, hs, rfl, h1, hs.named h1 h2 hd.cons.1, h3, h4⟩
    · obtain ⟨c, rfl, ha⟩ := One.words h hw hd
      exact .inl ⟨c, _, by simp, rfl, ha⟩
    · obtain ⟨c, rfl, ha⟩ := One.words h hw hd
      exact .inl ⟨c, _, by simp, rfl, ha⟩
    · obtain ⟨c, rfl, ha⟩ := One.words h hw hd
      exact .inl ⟨c, _, by simp, rfl, ha⟩

theorem color_exactly : Exactly src isColor colorInfo.acc := .either .kind (.either .kind .kind)

theorem colorWords_of {names : List (List Char)} (h : names ∈ [[c!"currentcolor", c!"transparent"], NAMED_COLORS, SYSTEM_COLORS]) {c : Cursor}
    (ha : Among src (names.map .word) c) : Among src (colorWords.map .word) c := by
  obtain ⟨h1, s, hs, hn⟩ := Among.words.mp ha
  refine Among.words.mpr ⟨h1, s, ?_, hn⟩
  simp only [List.mem_cons, List.not_mem_nil, or_false] at h
  unfold colorWords
  rcases h with rfl | rfl | rfl
  · exact List.mem_append_left _ hs
  · exact List.mem_append_right _ (List.mem_append_left _ hs)
  · exact List.mem_append_right _ (List.mem_append_right _ hs)

theorem not_hash {c : Cursor} {k : Kind} (h : IsKind k c) (h1 : k ≠ .eof) (h2 : k ≠ .hash) : ¬ c.token.isKind .hash = true := by
  have := IsKind.other h h1 (k' := .hash) (by decide) h2
  simpa using this

theorem color_word {c : Cursor} {rest : List Cursor} (hc : Clear src c) (hw : Among src (colorWords.map .word) c) :
    Yields src (c :: rest) color rest fun v => v.cursors = [c] := by
  have hk : IsKind .ident c := (Among.words.mp hw).1
  unfold color
  refine Yields.peek (Yields.neg (not_hash hk (by decide) (by decide)) (Yields.peek (Yields.pos hk ?_)))
  by_cases h1 : Among src ([c!"currentcolor", c!"transparent"].map .word) c
  · refine Yields.bind (Yields.ifPeek_some (Exactly.words.yes hc h1) (keyword_yields hc h1)) fun o ⟨a, ho, ha⟩ => ?_
    subst ho
    obtain ⟨s, x⟩ := a
    replace ha : x = c := ha
    subst ha
    exact Yields.pure rfl
  · refine Yields.bind (Yields.ifPeek_none (Exactly.words.no hc h1)) fun o ho => ?_
    subst ho
    by_cases h2 : Among src (NAMED_COLORS.map .word) c
    · refine Yields.bind (Yields.ifPeek_some (Exactly.words.yes hc h2) (keyword_yields hc h2)) fun o ⟨a, ho, ha⟩ => ?_
      subst ho
      obtain ⟨s, x⟩ := a
      replace ha : x = c := ha
      subst ha
      exact Yields.pure rfl
    · refine Yields.bind (Yields.ifPeek_none (Exactly.words.no hc h2)) fun o ho => ?_
      subst ho
      have h3 : Among src (SYSTEM_COLORS.map .word) c := by
        unfold colorWords at hw
        rw [List.map_append, List.map_append, Among.append, Among.append] at hw
        rcases hw with h | h | h
        · exact absurd h h1
        · exact absurd h h2
        · exact h
      refine Yields.bind (keyword_yields hc h3) fun a ha => ?_
      obtain ⟨s, x⟩ := a
      replace ha : x = c := ha
      subst ha
      exact Yields.pure rfl

theorem color_complete : Complete src ⟨isColor, color⟩ colorInfo fun w => (∃ c, w = [c] ∧ IsKind .hash c) ∨ Matches src M colorDef w where
  total c hc := by
    obtain ⟨b, h1, h2⟩ := color_exactly (src := src) hc
    exact ⟨b, h1, h2.mp⟩
  starts w hw hd := by
    have first : ∀ {c}, Clear src c → Among src colorInfo.acc c → Tests src (isColor c) true := fun h1 h2 => color_exactly.yes h1 h2
    rcases color_inv hw hd with ⟨c, rfl, hk⟩ | ⟨c, names, hm, rfl, ha⟩ | ⟨n, d, ss, f, v, close, hs, rfl, hf, hn, _, _⟩
    · exact ⟨c, [], rfl, first (hd.clear c (.head _)) ⟨.kind .hash, by simp [colorInfo], hk⟩, ⟨.kind .hash, by simp [colorInfo], hk⟩⟩
    · refine ⟨c, [], rfl, first (hd.clear c (.head _)) ⟨.kind .ident, by simp [colorInfo], (Among.words.mp ha).1⟩, ?_⟩
      exact Among.cons.mpr (.inr (Among.append.mpr (.inl (colorWords_of hm ha))))
    · refine ⟨f, _, rfl, first (hd.clear f (.head _)) ⟨.kind .function, by simp [colorInfo], hf⟩, ?_⟩
      exact Among.cons.mpr (.inr (Among.append.mpr (.inr (Among.funcs.mpr ⟨hf, n, hs.mem, hn⟩))))
  closes w hw hd := by
    rcases color_inv hw hd with ⟨c, rfl, hk⟩ | ⟨c, names, hm, rfl, ha⟩ | ⟨n, d, ss, f, v, close, hs, rfl, hf, hn, hv, hcl⟩
    · rw [closings_one (hd.clear c (.head _)) (hs := [.kind .hash]) (Among.one.mpr hk) (by decide)]
      exact Nat.zero_le _
    · rw [closings_one (hd.clear c (.head _)) (hs := [.kind .ident]) (Among.one.mpr (Among.words.mp ha).1) (by decide)]
      exact Nat.zero_le _
    · exact function_closes hf hcl (hs.closes hv hd.cons.2.left)
  parse w c rest hw ht _ _ := by
    show Yields src _ color _ _
    rcases color_inv hw ht.decent with ⟨c, rfl, hk⟩ | ⟨c, names, hm, rfl, ha⟩ | ⟨n, d, ss, f, v, close, hs, rfl, hf, hn, hv, hcl⟩
    · unfold color
      refine Yields.peek (Yields.pos hk (Yields.bind ((piece_ok .kind).take (ht.clear c (.head _)) (Among.one.mpr hk)) fun v hv => Yields.pure ?_))
      simp [Val.cursors, hv]
    · exact (color_word (ht.clear c (.head _)) (colorWords_of hm ha)).mono fun v hv => by rw [hv]
    · obtain ⟨k, rfl, hk, htv, hfc⟩ := closed_function hf hcl (fun hd => hs.closes hv hd) ht
      rw [show f :: (v ++ (some k).toList) ++ c :: rest = f :: (v ++ k :: (c :: rest)) by simp]
      unfold color
      refine Yields.peek (Yields.neg (not_hash hf (by decide) (by decide)) (Yields.peek (Yields.neg ?_ (Yields.peek ?_))))
      · have := IsKind.other hf (by decide) (k' := .ident) (by decide) (by decide)
        simpa using this
      refine Yields.test (Exactly.funcs.yes hfc (Among.funcs.mpr ⟨hf, n, hs.mem, hn⟩)) (Yields.pos rfl (Yields.bind (hs.parse hf hn hv htv hfc hk) fun x hx => Yields.pure ?_))
      simpa [Val.cursors] using hx

/-! ### Keywords -/

theorem keywords_complete {names : List (List Char)} {d : Def} (h : chooses names d = true) : Complete src (.keywords names) ⟨names.map .word, names.map .word, []⟩ (Matches src M d) where
  total c hc := by
    obtain ⟨b, h1, h2⟩ := Exactly.words (src := src) (names := names) hc
    exact ⟨b, h1, h2.mp⟩
  starts w hw hd := by
    obtain ⟨c, rfl, ha⟩ := One.words h hw hd
    exact ⟨c, [], rfl, Exactly.words.yes (hd.clear c (.head _)) ha, ha⟩
  closes w hw hd := by
    obtain ⟨c, rfl, ha⟩ := One.words h hw hd
    rw [closings_one (hd.clear c (.head _)) (hs := [.kind .ident]) (Among.one.mpr (Among.words.mp ha).1) (by decide)]
    exact Nat.zero_le _
  parse w c rest hw ht _ _ := by
    obtain ⟨c, rfl, ha⟩ := One.words h hw ht.decent
    unfold Leaf.keywords
    refine Yields.bind (keyword_yields (ht.clear c (.head _)) ha) fun x hx => ?_
    obtain ⟨s, x⟩ := x
    replace hx : x = c := hx
    subst hx
    exact Yields.pure (.refl _)

/-! ### Types of one token -/

theorem lineWidth_complete : Complete src (.single isLineWidth)
    ⟨(.zero :: lengthUnits.map .unit) ++ [c!"thin", c!"medium", c!"thick"].map .word, (.zero :: lengthUnits.map .unit) ++ [c!"thin", c!"medium", c!"thick"].map .word, []⟩
    (Matches src M (alts [.type (.length .none), oneOf c!"thin medium thick"])) := by
  refine .single (.either .length .words) (fun w hw hd => ?_) (by decide +kernel)
  have h1 : One src M (.type (.length .none)) (.zero :: lengthUnits.map .unit) := fun w hw hd => noRange (length_lang (type_inv hw) hd)
  have h2 : One src M (oneOf c!"thin medium thick") ([c!"thin", c!"medium", c!"thick"].map .word) := One.words (by decide +kernel)
  refine One.alts (fun d hd => ?_) hw hd
  simp only [List.mem_cons, List.not_mem_nil, or_false] at hd
  rcases hd with rfl | rfl
  · exact h1.mono fun x hx => List.mem_append_left _ hx
  · exact h2.mono fun x hx => List.mem_append_right _ hx

theorem opacity_inv {w : List Cursor} (h : Matches src M (alts [.type (.number (.range 0 1)), .type (.percentage (.range 0 100))]) w) (hd : Decent src w) :
    ∃ c, w = [c] ∧ Among src [.kind .number, .unit c!"%"] c ∧ Tests src (isOpacityValue c) true := by
  unfold alts at h
  cases h with
  | one hm hw =>
    simp only [List.mem_cons, List.not_mem_nil, or_false] at hm
    rcases hm with rfl | rfl
    · obtain ⟨c, rfl, hk, hr⟩ := type_inv hw
      refine ⟨c, rfl, ⟨_, .head _, hk⟩, ?_⟩
      unfold isOpacityValue
      refine Tests.pos ?_ Tests.pure
      rw [Bool.and_eq_true]
      exact ⟨hk, upTo_of (by decide) hr⟩
    · obtain ⟨c, rfl, hk, hr⟩ := type_inv hw
      have hu := hk.has (hd.clear c (.head _)) (plainName_spec (s := c!"%") (by decide))
      refine ⟨c, rfl, ⟨_, .tail _ (.head _), hu⟩, ?_⟩
      unfold isOpacityValue
      refine Tests.neg ?_ ?_
      · have := IsKind.other hu.base (by decide) (k' := .number) (by decide) (by decide)
        simp [this]
      · refine Tests.bind (Exactly.percent.yes (hd.clear c (.head _)) (Among.one.mpr hu)) (Tests.pos rfl ?_)
        exact Tests.pure.congr (upTo_of (by decide) hr)

theorem opacity_complete : Complete src (.single isOpacityValue) ⟨[.kind .number, .unit c!"%"], [.kind .number, .unit c!"%"], []⟩
    (Matches src M (alts [.type (.number (.range 0 1)), .type (.percentage (.range 0 100))])) where
  total c hc := by
    show ∃ b, Tests src (isOpacityValue c) b ∧ _
    unfold isOpacityValue
    by_cases h : (c.token.isKind .number && f32UpTo 1 c.token.value) = true
    · exact ⟨true, Tests.pos h Tests.pure, fun _ => ⟨_, .head _, (Bool.and_eq_true _ _ ▸ h).1⟩⟩
    · obtain ⟨b, h1, h2⟩ := Exactly.percent (src := src) hc
      cases b
      · exact ⟨false, Tests.neg h (Tests.bind h1 (Tests.neg (by decide) Tests.pure)), nofun⟩
      · exact ⟨_, Tests.neg h (Tests.bind h1 (Tests.pos rfl Tests.pure)), fun _ => Among.cons.mpr (.inr (h2.mp rfl))⟩
  starts w hw hd := by
    obtain ⟨c, rfl, ha, h⟩ := opacity_inv hw hd
    exact ⟨c, [], rfl, h, ha⟩
  closes w hw hd := by
    obtain ⟨c, rfl, ha, h⟩ := opacity_inv hw hd
    rw [closings_one (hd.clear c (.head _)) ha (by decide)]
    exact Nat.zero_le _
  parse w c rest hw ht _ _ := by
    obtain ⟨c, rfl, ha, h⟩ := opacity_inv hw ht.decent
    unfold Leaf.single
    refine Yields.bind (Yields.tok (P' := fun x => x = c) h rfl) fun x hx => Yields.pure ?_
    subst hx
    exact .refl _

/-! ### Optional tokens -/

/-- A program for a token that may be missing. -/
structure OptTok (src : List Char) (x : Prog (Option Cursor)) (acc : List Head) : Prop where
  take : ∀ ⦃c rest⦄, Clear src c → Among src acc c → Yields src (c :: rest) x rest fun o => o = some c
  skip : ∀ ⦃c rest⦄, Clear src c → ¬ Among src acc c → Yields src (c :: rest) x (c :: rest) fun o => o = none

theorem OptTok.tok {test : Cursor → Prog Bool} {acc : List Head} (h : Exactly src test acc) : OptTok src (ifPeek test (Prog.tok test)) acc where
  take c rest hc ha := (Yields.ifPeek_some (h.yes hc ha) (Yields.tok (P' := fun x => x = c) (h.yes hc ha) rfl)).mono fun o ⟨a, ho, ha⟩ => by rw [ho, ha]
  skip c rest hc ha := Yields.ifPeek_none (h.no hc ha)
theorem OptTok.keyword {names : List (List Char)} : OptTok src (optKeyword names) (names.map .word) where
  take c rest hc ha := by
    refine Yields.bind (Yields.ifPeek_some (Exactly.words.yes hc ha) (keyword_yields hc ha)) fun o ⟨a, ho, ha⟩ => Yields.pure ?_
    subst ho
    simpa using ha
  skip c rest hc ha := Yields.bind (Yields.ifPeek_none (Exactly.words.no hc ha)) fun o ho => Yields.pure (by rw [ho]; rfl)

/-- The token is there or not, and what follows is not taken for it. -/
theorem OptTok.opt {x : Prog (Option Cursor)} {acc : List Head} (h : OptTok src x acc) {o : Option Cursor} {ts : List Cursor} (ho : ∀ c ∈ o, Clear src c ∧ Among src acc c)
    (hf : ∃ d rest, ts = d :: rest ∧ Clear src d ∧ ¬ Among src acc d) : Yields src (o.toList ++ ts) x ts fun r => r = o := by
  cases o with
  | some c => exact h.take (ho c rfl).1 (ho c rfl).2
  | none =>
    obtain ⟨d, rest, rfl, hd, ha⟩ := hf
    exact h.skip hd ha

theorem optional_inv {d : Def} {acc : List Head} (h : One src M d acc) {w : List Cursor} (hw : Matches src M (.optional d) w) (hd : Decent src w) :
    ∃ o : Option Cursor, w = o.toList ∧ ∀ c ∈ o, Clear src c ∧ Among src acc c := by
  cases hw with
  | absent => exact ⟨none, rfl, nofun⟩
  | present hw =>
    obtain ⟨c, rfl, ha⟩ := h hw hd
    refine ⟨some c, rfl, fun x hx => ?_⟩
    cases hx
    exact ⟨hd.clear c (.head _), ha⟩

/-! ### `<repeat-style>` -/

/-- The words of `<repetition>`. -/
def repetitions : List (List Char) := [c!"repeat", c!"space", c!"round", c!"no-repeat"]

theorem repeatStyle_inv {w : List Cursor} (h : Matches src M (alts [oneOf c!"repeat-x repeat-y", .mult (oneOf c!"repeat space round no-repeat") (.range (.range 1 2))]) w)
    (hd : Decent src w) : (∃ c, w = [c] ∧ Among src ([c!"repeat-x", c!"repeat-y"].map .word) c) ∨
      ∃ c o, w = c :: Option.toList o ∧ Among src (repetitions.map .word) c ∧ ∀ c ∈ o, Clear src c ∧ Among src (repetitions.map .word) c := by
  unfold alts at h
  cases h with
  | one hm hw =>
    simp only [List.mem_cons, List.not_mem_nil, or_false] at hm
    rcases hm with rfl | rfl
    · exact .inl (One.words (by decide +kernel) hw hd)
    · refine .inr ?_
      have hone : One src M (oneOf c!"repeat space round no-repeat") (repetitions.map .word) := One.words (by decide +kernel)
      cases hw with
      | times hw hr =>
        obtain ⟨h1, h2⟩ : 1 ≤ _ ∧ _ ≤ 2 := hr
        have hw := times_of hw
        cases hw with
        | none => omega
        | more hw1 hw2 =>
          obtain ⟨c, rfl, ha⟩ := hone hw1 hd.left
          cases hw2 with
          | none => exact ⟨c, none, rfl, ha, nofun⟩
          | more hw3 hw4 =>
            obtain ⟨c', rfl, ha'⟩ := hone hw3 hd.right.left
            cases hw4 with
            | none =>
              refine ⟨c, some c', rfl, ha, fun x hx => ?_⟩
              cases hx
              exact ⟨hd.clear c' (by simp), ha'⟩
            | more => omega

/-- What is known of it. -/
def repeatStyleInfo : Info := ⟨repetitions.map .word ++ [c!"repeat-x", c!"repeat-y"].map .word, repetitions.map .word ++ [c!"repeat-x", c!"repeat-y"].map .word, repetitions.map .word⟩

theorem repeatStyle_complete : Complete src ⟨isRepeatStyle, repeatStyle⟩ repeatStyleInfo
    (Matches src M (alts [oneOf c!"repeat-x repeat-y", .mult (oneOf c!"repeat space round no-repeat") (.range (.range 1 2))])) where
  total c hc := by
    obtain ⟨b, h1, h2⟩ := Exactly.either (src := src) (.words (names := repetitions)) (.words (names := [c!"repeat-x", c!"repeat-y"])) hc
    exact ⟨b, h1, h2.mp⟩
  starts w hw hd := by
    have e := Exactly.either (src := src) (.words (names := repetitions)) (.words (names := [c!"repeat-x", c!"repeat-y"]))
    rcases repeatStyle_inv hw hd with ⟨c, rfl, ha⟩ | ⟨c, o, rfl, ha, _⟩
    · have := Among.append (a := repetitions.map .word).mpr (.inr ha)
      exact ⟨c, [], rfl, e.yes (hd.clear c (.head _)) this, this⟩
    · have := Among.append (b := [c!"repeat-x", c!"repeat-y"].map .word).mpr (.inl ha)
      exact ⟨c, _, rfl, e.yes (hd.clear c (.head _)) this, this⟩
  closes w hw hd := by
    rcases repeatStyle_inv hw hd with ⟨c, rfl, ha⟩ | ⟨c, o, rfl, ha, ho⟩
    · rw [closings_one (hd.clear c (.head _)) ha (by decide)]
      exact Nat.zero_le _
    · rw [(count_cons _ _).1, closings_one (hd.clear c (.head _)) ha (by decide)]
      cases o with
      | none => exact Nat.zero_le _
      | some x =>
        rw [Option.toList_some, closings_one (ho x rfl).1 (ho x rfl).2 (by decide)]
        exact Nat.zero_le _
  parse w c rest hw ht hc hm := by
    show Yields src _ repeatStyle _ _
    unfold repeatStyle
    rcases repeatStyle_inv hw ht.decent with ⟨d, rfl, ha⟩ | ⟨d, o, rfl, ha, ho⟩
    · obtain ⟨hk, s, hs, hn⟩ := Among.words.mp ha
      refine Yields.bind (Yields.tok (P' := fun x => x = d) (Tests.kind.congr hk) rfl) fun x hx => ?_
      subst hx
      refine Yields.bind (P := fun t => t = s) (ts1 := c :: rest) (fun p hp => ⟨s, p, [], Tests.lower hn hp.source, hp, rfl⟩) fun t ht => ?_
      subst ht
      simp only [List.mem_cons, List.not_mem_nil, or_false] at hs
      rcases hs with rfl | rfl
      · exact Yields.pos (by decide) (Yields.pure (.refl _))
      · exact Yields.neg (by decide) (Yields.pos (by decide) (Yields.pure (.refl _)))
    · obtain ⟨hk, s, hs, hn⟩ := Among.words.mp ha
      rw [List.cons_append]
      refine Yields.bind (Yields.tok (P' := fun x => x = d) (Tests.kind.congr hk) rfl) fun x hx => ?_
      subst hx
      refine Yields.bind (P := fun t => t = s) (ts1 := o.toList ++ c :: rest) (fun p hp => ⟨s, p, [], Tests.lower hn hp.source, hp, rfl⟩) fun t ht => ?_
      subst ht
      have hne : ∀ s ∈ repetitions, ¬ (s == c!"repeat-x") = true ∧ ¬ (s == c!"repeat-y") = true := by decide
      refine Yields.neg (hne t hs).1 (Yields.neg (hne t hs).2 (Yields.test ((Exactly.words (names := repetitions)).yes (ht.clear x (.head _)) ha) (Yields.pos rfl ?_)))
      refine Yields.bind ((OptTok.keyword (names := repetitions)).opt ho ⟨c, rest, rfl, hc, hm⟩) fun r hr => Yields.pure ?_
      subst hr
      cases r <;> exact .refl _

/-! ### `snap-block()`, `snap-inline()` -/

/-- What is known of them. -/
def snapInfo (name : List Char) : Info := ⟨[.func name], [.func name], []⟩

theorem snap_inv {name : List Char} {names : List (List Char)} {key : Def} (hk : chooses names key = true) (hl : name.map asciiLower = name) (hp : plainName name = true) {w : List Cursor}
    (h : Matches src M (.function name (inTurn [.type (.lengthPercentage .none), maybeComma, .optional key])) w) (hd : Decent src w) :
    ∃ (f l : Cursor) (oc ok close : Option Cursor), w = f :: ([l] ++ oc.toList ++ ok.toList ++ close.toList) ∧ IsKind .function f ∧ Named src f name ∧ Clear src f ∧ Closes .rightParen close ∧
      (Clear src l ∧ Among src (.zero :: .unit c!"%" :: lengthUnits.map .unit) l) ∧
      (∀ c ∈ oc, Clear src c ∧ Among src [.kind .comma] c) ∧ (∀ c ∈ ok, Clear src c ∧ Among src (names.map .word) c) := by
  obtain ⟨f, v, close, rfl, h1, h2, h3, h4⟩ := function_inv h
  have hn : Named src f name := by
    rw [hl] at h2
    exact h2.named hd.cons.1 (.inr (.inl h1)) (plainName_spec hp)
  have hdv : Decent src v := hd.cons.2.left
  unfold inTurn at h3
  cases h3 with
  | ordered hs =>
    cases hs with
    | cons ha hs =>
      cases hs with
      | cons hb hs =>
        cases hs with
        | cons hc hs =>
          cases hs
          obtain ⟨l, rfl, hla⟩ := One.lengthPercentage ha hdv.left
          obtain ⟨oc, rfl, hoc⟩ := optional_inv One.comma hb hdv.right.left
          obtain ⟨ok, rfl, hok⟩ := optional_inv (One.words hk) hc hdv.right.right.left
          exact ⟨f, l, oc, ok, close, by simp, h1, hn, hd.cons.1, h4, ⟨hdv.clear l (by simp), hla⟩, hoc, hok⟩

theorem snap_complete {name : List Char} {names : List (List Char)} {key : Def} (hk : chooses names key = true) (hl : name.map asciiLower = name) (hp : plainName name = true)
    (hnames : apartAll [.kind .comma] (names.map .word) = true) (hw : apartAll (names.map .word) [.kind .rightParen] = true) :
    Complete src ⟨isNamed name, snap name names⟩ (snapInfo name)
      (Matches src M (.function name (inTurn [.type (.lengthPercentage .none), maybeComma, .optional key]))) where
  total c hc := by
    obtain ⟨b, h1, h2⟩ := Exactly.func (src := src) (plainName_spec hp) hc
    exact ⟨b, h1, h2.mp⟩
  starts w h hd := by
    obtain ⟨f, l, oc, ok, close, rfl, hf, hn, hc, _⟩ := snap_inv hk hl hp h hd
    exact ⟨f, _, rfl, (Exactly.func (plainName_spec hp)).yes hc (Among.one.mpr ⟨hf, hn⟩), Among.one.mpr ⟨hf, hn⟩⟩
  closes w h hd := by
    obtain ⟨f, l, oc, ok, close, rfl, hf, hn, hc, hcl, hla, hoc, hok⟩ := snap_inv hk hl hp h hd
    refine function_closes hf hcl ?_
    rw [closings_append, closings_append, closings_one hla.1 hla.2 (by decide +kernel)]
    have h1 : closings oc.toList = 0 := by
      cases oc with
      | none => rfl
      | some x => exact closings_one (hoc x rfl).1 (hoc x rfl).2 (by decide)
    have h2 : closings ok.toList = 0 := by
      cases ok with
      | none => rfl
      | some x => exact closings_one (hok x rfl).1 (hok x rfl).2 hw
    rw [h1, h2]
    exact Nat.zero_le _
  parse w c rest h ht _ _ := by
    obtain ⟨f, l, oc, ok, close, rfl, hf, hn, hc, hcl, hla, hoc, hok⟩ := snap_inv hk hl hp h ht.decent
    have h1 : closings oc.toList = 0 := by
      cases oc with
      | none => rfl
      | some x => exact closings_one (hoc x rfl).1 (hoc x rfl).2 (by decide)
    have h2 : closings ok.toList = 0 := by
      cases ok with
      | none => rfl
      | some x => exact closings_one (hok x rfl).1 (hok x rfl).2 hw
    obtain ⟨k, rfl, hkk, _, _⟩ := closed_function hf hcl (fun _ => by
      rw [closings_append, closings_append, closings_one hla.1 hla.2 (by decide +kernel), h1, h2]; exact Nat.zero_le _) ht
    have hkc : Clear src k := clear_of_kind hkk (by decide) (by decide) (by decide) (by decide)
    have close_not : ∀ {acc}, apartAll acc [.kind .rightParen] = true → ¬ Among src acc k := fun ha h => apartAll_spec hkc ha h (Among.one.mpr hkk)
    rw [show f :: ([l] ++ oc.toList ++ ok.toList ++ (some k).toList) ++ c :: rest = f :: l :: (oc.toList ++ (ok.toList ++ k :: (c :: rest))) by simp]
    show Yields src _ (snap name names) _ _
    unfold snap
    refine Yields.bind (namedFunction_yields hp hf hn hc) fun x hx => ?_
    subst hx
    refine Yields.bind (Yields.tok (P' := fun x => x = l) (Exactly.lengthPercentage.yes hla.1 hla.2) rfl) fun y hy => ?_
    subst hy
    refine Yields.bind (P := fun r => r = oc) (ts1 := ok.toList ++ k :: (c :: rest)) ((OptTok.tok .kind).opt hoc ?_) fun r hr => ?_
    · cases ok with
      | none => exact ⟨k, _, rfl, hkc, close_not (by decide)⟩
      | some d => exact ⟨d, _, rfl, (hok d rfl).1, fun h => apartAll_spec (hok d rfl).1 hnames h (hok d rfl).2⟩
    subst hr
    refine Yields.bind (P := fun r => r = ok) (ts1 := k :: (c :: rest)) (OptTok.keyword.opt hok ⟨k, _, rfl, hkc, close_not hw⟩) fun s hs => ?_
    subst hs
    refine Yields.bind (P := fun r => r = some k) (ts1 := c :: rest) ((OptTok.tok .kind).take hkc (Among.one.mpr hkk)) fun t ht => Yields.pure ?_
    subst ht
    cases r <;> cases s <;> simp [Val.cursors, Val.cursorsOf, Val.opt]

/-! ### `<image>`, `<image-1D>` -/

theorem image_complete : Complete src ⟨isImage, image⟩ ⟨[.kind .url] ++ (GRADIENTS.map .func ++ [.func c!"url"]), [.kind .url], []⟩ (IsImage src) := by
  have inv : ∀ {w}, IsImage src w → Decent src w → ∃ c, w = [c] ∧ IsKind .url c := by
    rintro w (h | ⟨f, v, rfl, hf, n, hn, hcall⟩) hd
    · exact h
    · refine absurd hcall (hd.plain f (.head _) hf n ?_)
      simp only [List.mem_cons, List.not_mem_nil, or_false] at hn
      rcases hn with rfl | rfl | rfl | rfl | rfl <;> decide
  have e : Exactly src isImage ([.kind .url] ++ (GRADIENTS.map .func ++ [.func c!"url"])) := .either .kind (.either .funcs (.func (plainName_spec (by decide))))
  refine ⟨fun c hc => ?_, fun w hw hd => ?_, fun w hw hd => ?_, fun w c rest hw ht _ _ => ?_⟩
  · obtain ⟨b, h1, h2⟩ := e hc
    exact ⟨b, h1, h2.mp⟩
  · obtain ⟨c, rfl, h⟩ := inv hw hd
    exact ⟨c, [], rfl, e.yes (hd.clear c (.head _)) ⟨_, .head _, h⟩, Among.one.mpr h⟩
  · obtain ⟨c, rfl, h⟩ := inv hw hd
    rw [closings_one (hd.clear c (.head _)) (hs := [.kind .url]) (Among.one.mpr h) (by decide)]
    exact Nat.zero_le _
  · obtain ⟨d, rfl, h⟩ := inv hw ht.decent
    show Yields src _ image _ _
    unfold image
    refine Yields.peek (Yields.pos h (Yields.bind ((piece_ok .kind).take (ht.clear d (.head _)) (Among.one.mpr h)) fun v hv => Yields.pure ?_))
    simp [Val.cursors, hv]

/-- Nothing is said of its values. -/
theorem Complete.nothing {l : Leaf} {acc : List Head} {L : List Cursor → Prop} (h : Exactly src l.test acc) (hl : ∀ w, Decent src w → ¬ L w) :
    Complete src l ⟨acc, [], []⟩ L where
  total c hc := by
    obtain ⟨b, h1, h2⟩ := h hc
    exact ⟨b, h1, h2.mp⟩
  starts w hw hd := (hl w hd hw).elim
  closes w hw hd := (hl w hd hw).elim
  parse w c rest hw ht _ _ := (hl w ht.decent hw).elim

theorem image1D_complete : Complete src ⟨isNamed c!"stripes", image1D⟩ ⟨[.func c!"stripes"], [], []⟩ (IsImage1D src) :=
  .nothing (.func (plainName_spec (by decide))) fun w hd ⟨f, v, c, e, hf, hcall, _⟩ => by
    subst e
    exact hd.plain f (.head _) hf _ (by decide) hcall

/-! ### `dynamic-range-limit-mix()` -/

/-- A part of it: a name, a percentage, and perhaps a comma. -/
inductive LimitPart (src : List Char) : List Cursor → Prop
  | part {n p : Cursor} {o : Option Cursor} : IsKind .ident n → Clear src p → (Head.unit c!"%").Has src p → f32UpTo 100 p.token.value = true →
      (∀ c ∈ o, Clear src c ∧ Among src [.kind .comma] c) → LimitPart src (n :: p :: o.toList)

theorem limit_part {w : List Cursor} (h : Matches src M (inTurn [.type .customIdent, .type (.percentage (.range 0 100)), maybeComma]) w) (hd : Decent src w) : LimitPart src w := by
  unfold inTurn at h
  cases h with
  | ordered hs =>
    cases hs with
    | cons ha hs =>
      cases hs with
      | cons hb hs =>
        cases hs with
        | cons hc hs =>
          cases hs
          obtain ⟨n, rfl, hn⟩ := type_inv ha
          obtain ⟨p, rfl, hp, hr⟩ := type_inv hb
          obtain ⟨o, rfl, ho⟩ := optional_inv One.comma hc hd.right.right.left
          have hpc : Clear src p := hd.clear p (by simp)
          simpa using LimitPart.part hn hpc (hp.has hpc (plainName_spec (by decide))) (upTo_of (by decide) hr) ho

theorem limit_parts {n : Nat} {w : List Cursor} (h : Times (Matches src M (inTurn [.type .customIdent, .type (.percentage (.range 0 100)), maybeComma])) n w)
    (hd : Decent src w) : Times (LimitPart src) n w := by
  induction h with
  | none => exact .none
  | more hw _ ih => exact .more (limit_part hw hd.left) (ih hd.right)

theorem limit_closings {n : Nat} {w : List Cursor} (h : Times (LimitPart src) n w) (hd : Decent src w) : closings w = 0 := by
  induction h with
  | none => rfl
  | more hw _ ih =>
    rw [closings_append, ih hd.right]
    cases hw with
    | @part n p o h1 h2 h3 _ h5 =>
      have hn := hd.clear n (by simp)
      rw [(count_cons n _).1, (count_cons p _).1, closings_one hn (hs := [.kind .ident]) (Among.one.mpr h1) (by decide), closings_one h2 (Among.one.mpr h3) (by decide)]
      cases o with
      | none => rfl
      | some x => rw [Option.toList_some, closings_one (h5 x rfl).1 (h5 x rfl).2 (by decide)]

theorem limit_loop {k : Cursor} {rest : List Cursor} (hk : IsKind .rightParen k) : ∀ (m n : Nat) (w : List Cursor) (vs : List Val), w.length < m → Times (LimitPart src) n w → Decent src w →
    Yields src (w ++ k :: rest) (rangeLimitLoop m vs) rest fun r => ∃ us, r = (vs ++ us, some k) ∧ Val.cursorsOf us = w := by
  have hkc : Clear src k := clear_of_kind hk (by decide) (by decide) (by decide) (by decide)
  intro m
  induction m with
  | zero => intro n w vs h; omega
  | succ m ih =>
    intro n w vs hm h hd
    unfold rangeLimitLoop
    cases h with
    | none =>
      refine Yields.atEnd (Yields.neg (by decide) (Yields.peek (Yields.pos hk ?_)))
      refine Yields.bind (Yields.tok (P' := fun x => x = k) (Tests.kind.congr hk) rfl) fun x hx => Yields.pure ?_
      subst hx
      exact ⟨[], by simp, rfl⟩
    | @more w0 n v hw hv =>
      cases hw with
      | @part a p o h1 h2 h3 h4 h5 =>
        have ha := hd.clear a (by simp)
        have hnr : ¬ a.token.isKind .rightParen = true := by
          have := IsKind.other h1 (by decide) (k' := .rightParen) (by decide) (by decide)
          simpa using this
        rw [show a :: p :: o.toList ++ v ++ k :: rest = a :: p :: (o.toList ++ (v ++ k :: rest)) by simp]
        refine Yields.atEnd (Yields.neg (by decide) (Yields.peek (Yields.neg hnr ?_)))
        refine Yields.bind (Yields.tok (P' := fun x => x = a) (Tests.kind.congr h1) rfl) fun x hx => ?_
        subst hx
        refine Yields.bind (Yields.tok (P' := fun x => x = p) (Exactly.percent.yes h2 (Among.one.mpr h3)) rfl) fun y hy => ?_
        subst hy
        refine Yields.neg (by simp [h4]) ?_
        refine Yields.bind (P := fun r => r = o) (ts1 := v ++ k :: rest) ((OptTok.tok .kind).opt h5 ?_) fun r hr => ?_
        · cases hv with
          | none => exact ⟨k, _, rfl, hkc, fun h => apartAll_spec (a := [.kind .comma]) (b := [.kind .rightParen]) hkc (by decide) h (Among.one.mpr hk)⟩
          | more hw' _ =>
            cases hw' with
            | @part b q o' g1 _ _ _ _ =>
              have hb := hd.clear b (by simp)
              exact ⟨b, _, rfl, hb, fun h => apartAll_spec (a := [.kind .comma]) (b := [.kind .ident]) hb (by decide) h (Among.one.mpr g1)⟩
        subst hr
        refine (ih n v _ (by simp at hm; omega) hv hd.right).mono fun r' ⟨us, hr, hu⟩ => ⟨[.fields [.tok x, .tok y, .opt (r.map .tok)]] ++ us, by rw [hr, List.append_assoc], ?_⟩
        cases r <;> simp [Val.cursorsOf, Val.cursors, Val.opt, hu]

theorem limit_inv {w : List Cursor} (h : Matches src M (.function c!"dynamic-range-limit-mix"
      (.mult (inTurn [.type .customIdent, .type (.percentage (.range 0 100)), maybeComma]) .zeroOrMore)) w) (hd : Decent src w) :
    ∃ f v close n, w = f :: (v ++ Option.toList close) ∧ IsKind .function f ∧ Named src f c!"dynamic-range-limit-mix" ∧ Times (LimitPart src) n v ∧ Closes .rightParen close := by
  obtain ⟨f, v, close, rfl, h1, h2, h3, h4⟩ := function_inv h
  have hdv : Decent src v := hd.cons.2.left
  cases h3 with
  | star h3 =>
    exact ⟨f, v, close, _, rfl, h1, h2.named (s := c!"dynamic-range-limit-mix") hd.cons.1 (.inr (.inl h1)) (plainName_spec (by decide)), limit_parts (times_of h3) hdv, h4⟩

theorem limit_complete : Complete src ⟨isNamed c!"dynamic-range-limit-mix", rangeLimitMix⟩ (snapInfo c!"dynamic-range-limit-mix")
    (Matches src M (.function c!"dynamic-range-limit-mix" (.mult (inTurn [.type .customIdent, .type (.percentage (.range 0 100)), maybeComma]) .zeroOrMore))) where
  total c hc := by
    obtain ⟨b, h1, h2⟩ := Exactly.func (src := src) (name := c!"dynamic-range-limit-mix") (plainName_spec (by decide)) hc
    exact ⟨b, h1, h2.mp⟩
  starts w h hd := by
    obtain ⟨f, v, close, n, rfl, hf, hn, _, _⟩ := limit_inv h hd
    exact ⟨f, _, rfl, (Exactly.func (plainName_spec (by decide))).yes hd.cons.1 (Among.one.mpr ⟨hf, hn⟩), Among.one.mpr ⟨hf, hn⟩⟩
  closes w h hd := by
    obtain ⟨f, v, close, n, rfl, hf, hn, hv, hcl⟩ := limit_inv h hd
    refine function_closes hf hcl ?_
    rw [limit_closings hv hd.cons.2.left]
    exact Nat.zero_le _
  parse w c rest h ht _ _ := by
    obtain ⟨f, v, close, n, rfl, hf, hn, hv, hcl⟩ := limit_inv h ht.decent
    obtain ⟨k, rfl, hkk, htv, hfc⟩ := closed_function hf hcl (fun hd => by rw [limit_closings hv hd]; exact Nat.zero_le _) ht
    rw [show f :: (v ++ (some k).toList) ++ c :: rest = f :: (v ++ k :: (c :: rest)) by simp]
    show Yields src _ rangeLimitMix _ _
    unfold rangeLimitMix
    refine Yields.bind (namedFunction_yields (by decide) hf hn hfc) fun x hx => ?_
    subst hx
    refine Yields.read fun p hp => Yields.bind (limit_loop hkk p.fuel n v [] (by simp at hp; omega) hv htv.decent) fun r ⟨us, hr, hu⟩ => ?_
    subst hr
    refine Yields.pure ?_
    simp [Val.cursors, Val.cursorsOf, Val.opt, hu]

end
end Hdx

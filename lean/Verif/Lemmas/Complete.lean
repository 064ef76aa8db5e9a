/-
Types of values that take all that their definitions allow: the parts.
-/
import Verif.Lemmas.Heads

namespace Hdx
open Spec Prog

/-- What is known of a type: the tokens that its `Peek` may accept, those that its values begin with, and those after a value that it may
still take. -/
structure Info where
  acc : List Head
  firsts : List Head
  more : List Head

/-- The names are clear, and there are no images. -/
structure Decent (src : List Char) (w : List Cursor) : Prop where
  clear : ∀ c ∈ w, Clear src c
  plain : ∀ c ∈ w, IsKind .function c → ∀ n ∈ imageFunctions, ¬ Called src c n

section
variable {src : List Char}

theorem Spec.Tidy.decent {w : List Cursor} (h : Tidy src w) : Decent src w := ⟨h.clear, h.plain⟩
theorem Decent.left {v w : List Cursor} (h : Decent src (v ++ w)) : Decent src v :=
  ⟨fun c hc => h.clear c (List.mem_append_left _ hc), fun c hc => h.plain c (List.mem_append_left _ hc)⟩
theorem Decent.right {v w : List Cursor} (h : Decent src (v ++ w)) : Decent src w :=
  ⟨fun c hc => h.clear c (List.mem_append_right _ hc), fun c hc => h.plain c (List.mem_append_right _ hc)⟩
theorem Decent.cons {c : Cursor} {w : List Cursor} (h : Decent src (c :: w)) : Clear src c ∧ Decent src w := ⟨h.clear c (.head _), h.right (v := [c])⟩

theorem opens_append (v w : List Cursor) : opens (v ++ w) = opens v + opens w := List.countP_append
theorem closings_append (v w : List Cursor) : closings (v ++ w) = closings v + closings w := List.countP_append

theorem Spec.Tidy.split {v w : List Cursor} (h : Tidy src (v ++ w)) (hv : closings v ≤ opens v) (hw : closings w ≤ opens w) : Tidy src v ∧ Tidy src w := by
  have := h.closed
  rw [opens_append, closings_append] at this
  exact ⟨⟨h.decent.left.clear, by omega, h.decent.left.plain⟩, ⟨h.decent.right.clear, by omega, h.decent.right.plain⟩⟩
theorem Decent.tidy {w : List Cursor} (h : Decent src w) (hc : opens w ≤ closings w) : Tidy src w := ⟨h.clear, hc, h.plain⟩

/-- The type takes all values of the language. -/
structure Complete (src : List Char) (l : Leaf) (I : Info) (L : List Cursor → Prop) : Prop where
  total : ∀ ⦃c⦄, Clear src c → ∃ b, Tests src (l.test c) b ∧ (b = true → Among src I.acc c)
  starts : ∀ ⦃w⦄, L w → Decent src w → ∃ c w', w = c :: w' ∧ Tests src (l.test c) true ∧ Among src I.firsts c
  closes : ∀ ⦃w⦄, L w → Decent src w → closings w ≤ opens w
  parse : ∀ ⦃w c rest⦄, L w → Tidy src w → Clear src c → ¬ Among src I.more c → Yields src (w ++ c :: rest) l.parser (c :: rest) fun v => v.cursors.Perm w

theorem closings_one {c : Cursor} {hs : List Head} (hc : Clear src c) (h : Among src hs c) (ha : apartAll hs [.kind .rightParen] = true) : closings [c] = 0 := by
  have : c.token.isKind .rightParen = false := by
    cases hk : c.token.isKind .rightParen
    · rfl
    · exact (apartAll_spec hc ha h (Among.one.mpr hk)).elim
  simp [closings, this]

theorem Complete.mono {l : Leaf} {I : Info} {L L' : List Cursor → Prop} (h : Complete src l I L) (hl : ∀ w, L' w → L w) : Complete src l I L' :=
  ⟨h.total, fun _ hw => h.starts (hl _ hw), fun _ hw => h.closes (hl _ hw), fun _ _ _ hw => h.parse (hl _ hw)⟩

/-- Tokens that the test does not accept. -/
theorem Complete.no {l : Leaf} {I : Info} {L : List Cursor → Prop} (h : Complete src l I L) {c : Cursor} (hc : Clear src c) (ha : ¬ Among src I.acc c) :
    Tests src (l.test c) false := by
  obtain ⟨b, hb, hi⟩ := h.total hc
  cases b
  · exact hb
  · exact absurd (hi rfl) ha

/-- Types of one token. -/
theorem Complete.single {test : Cursor → Prog Bool} {acc : List Head} {L : List Cursor → Prop} (h : Exactly src test acc)
    (hl : ∀ w, L w → Decent src w → ∃ c, w = [c] ∧ Among src acc c) (ha : apartAll acc [.kind .rightParen] = true) : Complete src (.single test) ⟨acc, acc, []⟩ L where
  total c hc := by
    obtain ⟨b, h1, h2⟩ := h hc
    exact ⟨b, h1, h2.mp⟩
  starts w hw hd := by
    obtain ⟨c, rfl, hc⟩ := hl w hw hd
    exact ⟨c, [], rfl, h.yes (hd.clear c (.head _)) hc, hc⟩
  closes w hw hd := by
    obtain ⟨c, rfl, hc⟩ := hl w hw hd
    rw [closings_one (hd.clear c (.head _)) hc ha]
    exact Nat.zero_le _
  parse w c rest hw ht _ _ := by
    obtain ⟨d, rfl, hd⟩ := hl w hw ht.decent
    unfold Leaf.single
    refine Yields.bind (Yields.tok (P' := fun x => x = d) (h.yes (ht.clear d (.head _)) hd) rfl) fun x hx => Yields.pure ?_
    subst hx
    exact .refl _

/-! ### Basic types -/

/-- The range is checked as it is meant. -/
def checkedRange : DefRange → Bool
  | .none => true
  | .from n | .to n => n ≤ 2 ^ 24
  | _ => false

/-- The type of one token `test`, with the range `r` checked afterwards. -/
theorem Complete.steps {env : List Char → Leaf} {t : DefType} {test : Cursor → Prog Bool} {acc : List Head} {L : List Cursor → Prop} {r : DefRange}
    (ht : t.leaf env = .single test) (hr : t.checks = r) (h : Exactly src test acc)
    (hl : ∀ w, L w → Decent src w → ∃ c, w = [c] ∧ Among src acc c ∧ InRange r c) (ha : apartAll acc [.kind .rightParen] = true) (hc : checkedRange r = true) :
    Complete src ⟨(t.leaf env).test, t.steps env⟩ ⟨acc, acc, []⟩ L := by
  have hs : Complete src (.single test) ⟨acc, acc, []⟩ L := .single h (fun w hw hd => by obtain ⟨c, h1, h2, _⟩ := hl w hw hd; exact ⟨c, h1, h2⟩) ha
  refine ⟨by rw [ht]; exact hs.total, by rw [ht]; exact hs.starts, hs.closes, fun w c rest hw hti _ _ => ?_⟩
  obtain ⟨d, rfl, hd, hin⟩ := hl w hw hti.decent
  show Yields src ([d] ++ c :: rest) (t.steps env) _ _
  unfold DefType.steps
  refine Yields.offset fun n => Yields.bind (P := fun v => v = .tok d) (ts1 := c :: rest) ?_ fun v hv => ?_
  · rw [ht]
    refine Yields.bind (Yields.tok (P' := fun x => x = d) (h.yes (hti.clear d (.head _)) hd) rfl) fun x hx => Yields.pure ?_
    rw [hx]
  · subst hv
    rw [hr]
    cases r with
    | none => exact Yields.pure (.refl _)
    | range => cases hc
    | «from» n => exact Yields.neg (not_below (by simpa [checkedRange] using hc) hin) (Yields.pure (.refl _))
    | to n => exact Yields.neg (not_above (by simpa [checkedRange] using hc) hin) (Yields.pure (.refl _))
    | fixed => cases hc

/-- A description for the type. -/
def typeInfo (E : List Char → Option Info) : DefType → Option Info
  | .length r => if checkedRange r then some ⟨.zero :: lengthUnits.map .unit, .zero :: lengthUnits.map .unit, []⟩ else none
  | .lengthPercentage r => if checkedRange r then some ⟨.zero :: .unit c!"%" :: lengthUnits.map .unit, .zero :: .unit c!"%" :: lengthUnits.map .unit, []⟩ else none
  | .angle r => if checkedRange r then some ⟨[c!"grad", c!"rad", c!"turn", c!"deg"].map .unit, [c!"grad", c!"rad", c!"turn", c!"deg"].map .unit, []⟩ else none
  | .time r => if checkedRange r then some ⟨.zero :: [c!"s", c!"ms"].map .unit, .zero :: [c!"s", c!"ms"].map .unit, []⟩ else none
  | .integer r => if checkedRange r then some ⟨[.int], [.int], []⟩ else none
  | .dashedIdent => some ⟨[.dashed], [.dashed], []⟩
  | .customIdent => some ⟨[.kind .ident], [.kind .ident], []⟩
  | .color => E c!"Color"
  | .image => E c!"Image"
  | .image1D => E c!"Image1D"
  | .custom name => E name
  | _ => none

theorem length_among {c : Cursor} (hc : Clear src c) (h : IsLength src c) : Among src (.zero :: lengthUnits.map .unit) c := by
  rcases h with h | ⟨u, hu, h⟩
  · exact ⟨.zero, .head _, h⟩
  · refine ⟨.unit u, .tail _ (List.mem_map.mpr ⟨u, hu, rfl⟩), h.has hc ?_⟩
    have : ∀ u ∈ lengthUnits, plainName u = true := by decide
    exact plainName_spec (this u hu)
theorem unit_among {c : Cursor} {names : List (List Char)} (hc : Clear src c) (hn : ∀ u ∈ names, plainName u = true) (h : ∃ u ∈ names, HasUnit src u c) :
    Among src (names.map .unit) c := by
  obtain ⟨u, hu, h⟩ := h
  exact ⟨.unit u, List.mem_map.mpr ⟨u, hu, rfl⟩, h.has hc (plainName_spec (hn u hu))⟩

/-- The named types. -/
def EnvComplete (src : List Char) (env : List Char → Leaf) (E : List Char → Option Info) (M : Meaning) : Prop :=
  ∀ name I, E name = some I → Complete src (env name) I (M name)

variable {env : List Char → Leaf} {E : List Char → Option Info} {M : Meaning}

theorem length_lang {r : DefRange} {w : List Cursor} (h : MatchesType src M (.length r) w) (hd : Decent src w) :
    ∃ c, w = [c] ∧ Among src (.zero :: lengthUnits.map .unit) c ∧ InRange r c := by
  obtain ⟨c, rfl, h, hr⟩ := h
  exact ⟨c, rfl, length_among (hd.clear c (.head _)) h, hr⟩
theorem lengthPercentage_lang {r : DefRange} {w : List Cursor} (h : MatchesType src M (.lengthPercentage r) w) (hd : Decent src w) :
    ∃ c, w = [c] ∧ Among src (.zero :: .unit c!"%" :: lengthUnits.map .unit) c ∧ InRange r c := by
  obtain ⟨c, rfl, h, hr⟩ := h
  refine ⟨c, rfl, ?_, hr⟩
  rcases h with h | h
  · obtain ⟨x, hx, hh⟩ := length_among (hd.clear c (.head _)) h
    refine ⟨x, ?_, hh⟩
    rcases List.mem_cons.mp hx with rfl | hx
    · exact .head _
    · exact .tail _ (.tail _ hx)
  · exact ⟨_, .tail _ (.head _), h.has (hd.clear c (.head _)) (plainName_spec (by decide))⟩
theorem angle_lang {r : DefRange} {w : List Cursor} (h : MatchesType src M (.angle r) w) (hd : Decent src w) :
    ∃ c, w = [c] ∧ Among src ([c!"grad", c!"rad", c!"turn", c!"deg"].map .unit) c ∧ InRange r c := by
  obtain ⟨c, rfl, ⟨u, hu, h⟩, hr⟩ := h
  refine ⟨c, rfl, unit_among (hd.clear c (.head _)) (by decide) ⟨u, ?_, h⟩, hr⟩
  simp only [List.mem_cons, List.not_mem_nil, or_false] at hu ⊢
  rcases hu with h | h | h | h <;> simp [h]
theorem time_lang {r : DefRange} {w : List Cursor} (h : MatchesType src M (.time r) w) (hd : Decent src w) :
    ∃ c, w = [c] ∧ Among src (.zero :: [c!"s", c!"ms"].map .unit) c ∧ InRange r c := by
  obtain ⟨c, rfl, h, hr⟩ := h
  refine ⟨c, rfl, Among.cons.mpr ?_, hr⟩
  rcases h with h | h
  · exact .inr (unit_among (hd.clear c (.head _)) (by decide) h)
  · exact .inl h
theorem integer_lang {r : DefRange} {w : List Cursor} (h : MatchesType src M (.integer r) w) : ∃ c, w = [c] ∧ Among src [.int] c ∧ InRange r c := by
  obtain ⟨c, rfl, h, hr⟩ := h
  exact ⟨c, rfl, Among.one.mpr h, hr⟩

theorem noRange {w : List Cursor} {acc : List Head} {r : DefRange} (h : ∃ c, w = [c] ∧ Among src acc c ∧ InRange r c) : ∃ c, w = [c] ∧ Among src acc c := by
  obtain ⟨c, h1, h2, _⟩ := h
  exact ⟨c, h1, h2⟩

/-- The type itself, without its range. -/
theorem typeInfo_leaf (hE : EnvComplete src env E M) {t : DefType} {I : Info} (h : typeInfo E t = some I) : Complete src (t.leaf env) I (MatchesType src M t) := by
  unfold typeInfo at h
  split at h
  · split at h
    · cases h; exact .single .length (fun w hw hd => noRange (length_lang hw hd)) (by decide +kernel)
    · cases h
  · split at h
    · cases h; exact .single .lengthPercentage (fun w hw hd => noRange (lengthPercentage_lang hw hd)) (by decide +kernel)
    · cases h
  · split at h
    · cases h; exact .single .angle (fun w hw hd => noRange (angle_lang hw hd)) (by decide +kernel)
    · cases h
  · split at h
    · cases h; exact .single .time (fun w hw hd => noRange (time_lang hw hd)) (by decide +kernel)
    · cases h
  · split at h
    · cases h; exact .single .int (fun w hw hd => noRange (integer_lang hw)) (by decide +kernel)
    · cases h
  · cases h
    refine .single .dashed (fun w hw _ => ?_) (by decide)
    obtain ⟨c, rfl, h⟩ := hw
    exact ⟨c, rfl, Among.one.mpr h⟩
  · cases h
    refine .single .kind (fun w hw _ => ?_) (by decide)
    obtain ⟨c, rfl, h⟩ := hw
    exact ⟨c, rfl, Among.one.mpr h⟩
  · exact hE _ _ h
  · exact hE _ _ h
  · exact hE _ _ h
  · exact hE _ _ h
  · cases h

/-- The code for a type without a range is the type. -/
theorem Complete.unchecked {t : DefType} {I : Info} {L : List Cursor → Prop} (h : Complete src (t.leaf env) I L) (hr : t.checks = .none) :
    Complete src ⟨(t.leaf env).test, t.steps env⟩ I L := by
  refine ⟨h.total, h.starts, h.closes, fun w c rest hw ht hc hm => ?_⟩
  show Yields src _ (t.steps env) _ _
  unfold DefType.steps
  refine Yields.offset fun n => Yields.bind (h.parse hw ht hc hm) fun v hv => ?_
  rw [hr]
  exact Yields.pure hv

theorem typeInfo_steps (hE : EnvComplete src env E M) {t : DefType} {I : Info} (h : typeInfo E t = some I) :
    Complete src ⟨(t.leaf env).test, t.steps env⟩ I (MatchesType src M t) := by
  have hleaf := typeInfo_leaf hE h
  unfold typeInfo at h
  split at h
  · split at h
    · next hc => cases h; exact .steps rfl rfl .length (fun w hw hd => length_lang hw hd) (by decide +kernel) hc
    · cases h
  · split at h
    · next hc => cases h; exact .steps rfl rfl .lengthPercentage (fun w hw hd => lengthPercentage_lang hw hd) (by decide +kernel) hc
    · cases h
  · split at h
    · next hc => cases h; exact .steps rfl rfl .angle (fun w hw hd => angle_lang hw hd) (by decide +kernel) hc
    · cases h
  · split at h
    · next hc => cases h; exact .steps rfl rfl .time (fun w hw hd => time_lang hw hd) (by decide +kernel) hc
    · cases h
  · split at h
    · next hc => cases h; exact .steps rfl rfl .int (fun w hw hd => integer_lang hw) (by decide +kernel) hc
    · cases h
  · exact hleaf.unchecked rfl
  · exact hleaf.unchecked rfl
  · exact hleaf.unchecked rfl
  · exact hleaf.unchecked rfl
  · exact hleaf.unchecked rfl
  · exact hleaf.unchecked rfl
  · cases h

/-! ### Repetitions -/

theorem cursorsOf_append (a b : List Val) : Val.cursorsOf (a ++ b) = Val.cursorsOf a ++ Val.cursorsOf b := by
  induction a with
  | nil => rfl
  | cons v a ih => simp [Val.cursorsOf, ih]

/-- Values of a language, one after the other. -/
inductive Times (L : List Cursor → Prop) : Nat → List Cursor → Prop
  | none : Times L 0 []
  | more : L w → Times L n v → Times L (n + 1) (w ++ v)

theorem times_of {d : Def} {n : Nat} {w : List Cursor} (h : MatchesTimes src M d n w) : Times (Matches src M d) n w := by
  induction n generalizing w with
  | zero => cases h; exact .none
  | succ n ih => cases h with | more h1 h2 => exact .more h1 (ih h2)

section
variable {l : Leaf} {I : Info} {L : List Cursor → Prop}

theorem Times.closes (hI : Complete src l I L) {n : Nat} {w : List Cursor} (h : Times L n w) (hd : Decent src w) : closings w ≤ opens w := by
  induction h with
  | none => exact Nat.le_refl _
  | more hw _ ih =>
    rw [closings_append, opens_append]
    have := hI.closes hw hd.left
    have := ih hd.right
    omega

/-- What follows a value: the next value, or what is behind them all. -/
theorem Times.follow (hI : Complete src l I L) (ha : apartAll I.more I.firsts = true) {n : Nat} {w rest : List Cursor} {c : Cursor} (h : Times L n w) (hd : Decent src w)
    (hc : Clear src c) (hm : ¬ Among src I.more c) : ∃ c' rest', w ++ c :: rest = c' :: rest' ∧ Clear src c' ∧ ¬ Among src I.more c' := by
  cases h with
  | none => exact ⟨c, rest, rfl, hc, hm⟩
  | more hw hv =>
    obtain ⟨c', w', rfl, _, hf⟩ := hI.starts hw hd.left
    have hc' := hd.clear c' (by simp)
    exact ⟨c', _, rfl, hc', fun hn => apartAll_spec hc' ha hn hf⟩

/-- So many parts that may be missing. -/
theorem optionals (hI : Complete src l I L) (ha : apartAll I.more I.firsts = true) {x : Prog Val}
    (hx : x = (do let v ← ifPeek l.test l.parser; pure (.opt v))) {c : Cursor} {rest : List Cursor} (hc : Clear src c) (hm : ¬ Among src I.more c) (hacc : ¬ Among src I.acc c) :
    ∀ (k n : Nat) (w : List Cursor), n ≤ k → Times L n w → Tidy src w →
      Yields src (w ++ c :: rest) (sequence (List.replicate k x)) (c :: rest) fun vs => (Val.cursorsOf vs).Perm w := by
  intro k
  induction k with
  | zero =>
    intro n w hn h ht
    cases h with
    | none => exact Yields.pure (.refl _)
    | more => omega
  | succ k ih =>
    intro n w hn h ht
    rw [List.replicate_succ]
    unfold sequence
    cases h with
    | none =>
      refine Yields.bind (P := fun v => v = .opt none) (ts1 := c :: rest) ?_ fun v hv => ?_
      · rw [hx]
        exact Yields.bind (Yields.ifPeek_none (hI.no hc hacc)) fun o ho => Yields.pure (by rw [ho])
      · subst hv
        exact Yields.bind (ih 0 [] (Nat.zero_le _) .none ht) fun vs hv => Yields.pure (by simpa [Val.cursorsOf, Val.cursors, Val.opt] using hv)
    | @more w0 n v hw hv =>
      have hd := ht.decent
      obtain ⟨t1, t2⟩ := ht.split (hI.closes hw hd.left) (hv.closes hI hd.right)
      obtain ⟨c', rest', e, hc', hm'⟩ := hv.follow (rest := rest) hI ha hd.right hc hm
      rw [List.append_assoc, e]
      refine Yields.bind (P := fun v => v.cursors.Perm w0) (ts1 := c' :: rest') ?_ fun v' hv' => ?_
      · rw [hx]
        obtain ⟨f, w', rfl, hf, _⟩ := hI.starts hw hd.left
        refine Yields.bind (Yields.ifPeek_some hf (hI.parse hw t1 hc' hm')) fun o ⟨a, ho, ha⟩ => Yields.pure ?_
        subst ho
        simpa [Val.opt, Val.cursors, Val.cursorsOf] using ha
      · rw [← e]
        exact Yields.bind (ih n v (by omega) hv t2) fun vs hvs => Yields.pure (by simpa [Val.cursorsOf] using hv'.append hvs)

/-- So many parts, and then such as may be missing. -/
theorem repeated (hI : Complete src l I L) (ha : apartAll I.more I.firsts = true) {x y : Prog Val} {I' : Info} (hx : Complete src ⟨l.test, x⟩ I' L) (he : I'.more = I.more)
    (hy : y = (do let v ← ifPeek l.test l.parser; pure (.opt v)))
    {c : Cursor} {rest : List Cursor} (hc : Clear src c) (hm : ¬ Among src I.more c) :
    ∀ (a k n : Nat) (w : List Cursor), (k = 0 ∨ ¬ Among src I.acc c) → a ≤ n → n ≤ a + k → Times L n w → Tidy src w →
      Yields src (w ++ c :: rest) (sequence (List.replicate a x ++ List.replicate k y)) (c :: rest) fun vs => (Val.cursorsOf vs).Perm w := by
  intro a
  induction a with
  | zero =>
    intro k n w hk _ hn h ht
    rw [List.replicate_zero, List.nil_append]
    rcases hk with rfl | hk
    · cases h with
      | none => exact Yields.pure (.refl _)
      | more => omega
    · exact optionals hI ha hy hc hm hk k n w (by omega) h ht
  | succ a ih =>
    intro k n w hk h1 h2 h ht
    rw [List.replicate_succ, List.cons_append]
    unfold sequence
    cases h with
    | none => omega
    | @more w0 n v hw hv =>
      have hd := ht.decent
      obtain ⟨t1, t2⟩ := ht.split (hI.closes hw hd.left) (hv.closes hI hd.right)
      obtain ⟨c', rest', e, hc', hm'⟩ := hv.follow (rest := rest) hI ha hd.right hc hm
      rw [List.append_assoc, e]
      refine Yields.bind (hx.parse hw t1 hc' (he ▸ hm')) fun v' hv' => ?_
      rw [← e]
      exact Yields.bind (ih k n v hk (by omega) (by omega) hv t2) fun vs hvs => Yields.pure (by simpa [Val.cursorsOf] using hv'.append hvs)

/-- Values of a language with commas between. -/
inductive Commas (L : List Cursor → Prop) : List Cursor → Prop
  | one : L w → Commas L w
  | more : L w → IsKind .comma c → Commas L v → Commas L (w ++ c :: v)

theorem commas_of {d : Def} {n : Nat} {w : List Cursor} (h : MatchesCommas src M d n w) : Commas (Matches src M d) w := by
  induction n generalizing w with
  | zero => cases h
  | succ n ih => cases h with
    | one h => exact .one h
    | more h1 h2 h3 => exact .more h1 h2 (ih h3)

theorem clear_of_kind {k : Kind} {c : Cursor} (hk : IsKind k c) (h1 : k ≠ .eof) (h2 : k ≠ .ident) (h3 : k ≠ .function) (h4 : k ≠ .dimension) : Clear src c := by
  rintro (h | h | h)
  · exact (IsKind.other hk h1 (by decide) h2 h).elim
  · exact (IsKind.other hk h1 (by decide) h3 h).elim
  · exact (IsKind.other hk h1 (by decide) h4 h).elim

theorem kind_count {c : Cursor} (hk : IsKind .comma c) (w : List Cursor) : closings (c :: w) = closings w ∧ opens (c :: w) = opens w := by
  have h1 := IsKind.other hk (by decide) (k' := .rightParen) (by decide) (by decide)
  have h2 := IsKind.other hk (by decide) (k' := .function) (by decide) (by decide)
  simp [closings, opens, h1, h2]

theorem Commas.closes (hI : Complete src l I L) {w : List Cursor} (h : Commas L w) (hd : Decent src w) : closings w ≤ opens w := by
  induction h with
  | one hw => exact hI.closes hw hd
  | more hw hk _ ih =>
    rw [closings_append, opens_append]
    have h1 := hI.closes hw hd.left
    have h2 := ih hd.right.cons.2
    obtain ⟨e1, e2⟩ := kind_count hk _
    rw [e1, e2]
    omega
theorem Commas.starts (hI : Complete src l I L) {w : List Cursor} (h : Commas L w) (hd : Decent src w) :
    ∃ c w', w = c :: w' ∧ Tests src (l.test c) true ∧ Among src I.firsts c := by
  cases h with
  | one hw => exact hI.starts hw hd
  | more hw hk _ =>
    obtain ⟨c, w', rfl, h⟩ := hI.starts hw hd.left
    exact ⟨c, _, rfl, h⟩

theorem commas (hI : Complete src l I L) (ha : apartAll I.more [.kind .comma] = true) {c : Cursor} {rest : List Cursor} (hc : Clear src c) (hm : ¬ Among src I.more c)
    (hk : ¬ IsKind .comma c) : ∀ (n : Nat) (w : List Cursor) (vs : List Val), w.length < n → Commas L w → Tidy src w →
      Yields src (w ++ c :: rest) (commaLoop l.parser n vs) (c :: rest) fun r => ∃ us, r = vs ++ us ∧ (Val.cursorsOf us).Perm w := by
  intro n
  induction n with
  | zero => intro w vs h; omega
  | succ n ih =>
    intro w vs hn h ht
    unfold commaLoop
    cases h with
    | one hw =>
      refine Yields.bind (hI.parse hw ht hc hm) fun v hv => Yields.bind (Yields.ifPeek_none (Tests.kind.congr ?_)) fun o ho => ?_
      · simpa [IsKind] using hk
      · subst ho
        refine Yields.pure ⟨_, rfl, ?_⟩
        simpa [Val.cursorsOf, Val.cursors, Val.opt] using hv
    | @more w0 k v hw hkk hv =>
      have hd := ht.decent
      have hk2 : closings (k :: v) ≤ opens (k :: v) := by
        obtain ⟨e1, e2⟩ := kind_count hkk v
        rw [e1, e2]
        exact hv.closes hI hd.right.cons.2
      obtain ⟨t1, t2⟩ := ht.split (hI.closes hw hd.left) hk2
      have t3 : Tidy src v := by
        refine t2.decent.cons.2.tidy ?_
        obtain ⟨e1, e2⟩ := kind_count hkk v
        have := t2.closed
        omega
      have hkc : Clear src k := hd.clear k (by simp)
      rw [List.append_assoc]
      refine Yields.bind (hI.parse hw t1 hkc fun h => apartAll_spec hkc ha h (Among.one.mpr hkk)) fun v' hv' => ?_
      refine Yields.bind (Yields.ifPeek_some (Tests.kind.congr hkk) (Yields.tok (P' := fun x => x = k) (Tests.kind.congr hkk) rfl)) fun o ⟨a, ho, ha'⟩ => ?_
      subst ho ha'
      refine Yields.neg (by simp) (Yields.mono (ih v _ (by simp at hn; omega) hv t3) fun r ⟨us, hr, hp⟩ => ?_)
      refine ⟨_ :: us, by rw [hr, List.append_assoc]; rfl, ?_⟩
      simp only [Val.cursorsOf, Val.cursors, Val.opt, Option.map_some, List.append_nil, List.append_assoc]
      exact hv'.append ((List.Perm.refl [a]).append hp)

end
end
end Hdx

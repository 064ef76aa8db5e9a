/-
Property C79 for css_ast's own definitions.
-/
import Verif.Props.ValueSound
import Verif.Spec.CssValues
import Verif.Lemmas.EveryDeclaration
import Verif.Props.CssRealValues

namespace Hdx
open Spec Prog

variable {src : List Char} {M : Meaning}

/-! ### Pieces -/

/-- A program that takes what a definition says. -/
abbrev Follows (src : List Char) (M : Meaning) (x : Prog Val) (d : Def) : Prop := Reads src x fun _ w => Matches src M d w

theorem piece_follows {test : Cursor → Prog Bool} (hi : Inspects test) {d : Def} (h : ∀ c, Says src (test c) fun b => b = true → Matches src M d [c]) :
    Follows src M (piece test) d := Reads.next (.tok hi h) fun c hc => .pure hc
theorem optPiece_follows {test : Cursor → Prog Bool} (hi : Inspects test) {d : Def} (h : ∀ c, Says src (test c) fun b => b = true → Matches src M d [c]) :
    Follows src M (optPiece test) (.optional d) :=
  Reads.bind (Reads.ifPeek hi (.tok hi h)) fun o w hw => .pure (by
    rw [List.append_nil]
    rcases hw with ⟨rfl, rfl⟩ | ⟨c, rfl, rfl, hc⟩
    · exact .absent
    · exact .present hc)

/-- A sequence of programs that take what a sequence of definitions says, and then something of `Q`. -/
def FollowAll (src : List Char) (M : Meaning) (xs : List (Prog Val)) (ds : List Def) (Q : List Cursor → Prop) : Prop :=
  Reads src (sequence xs) fun _ w => ∃ u v, w = u ++ v ∧ MatchesSeq src M ds u ∧ Q v
theorem FollowAll.nil : FollowAll src M [] [] (· = []) := .pure ⟨[], [], rfl, .nil, rfl⟩
theorem FollowAll.last {x : Prog Val} {Q : List Cursor → Prop} (h : Reads src x fun _ w => Q w) : FollowAll src M [x] [] Q := by
  unfold FollowAll sequence sequence
  exact Reads.bind h fun v w hw => .pure ⟨[], w, by simp, .nil, hw⟩
theorem FollowAll.cons {x : Prog Val} {xs : List (Prog Val)} {d : Def} {ds : List Def} {Q : List Cursor → Prop} (h : Follows src M x d)
    (h' : FollowAll src M xs ds Q) : FollowAll src M (x :: xs) (d :: ds) Q := by
  unfold FollowAll sequence
  refine Reads.bind h fun v w hw => Reads.bind h' fun vs t ht => .pure ?_
  obtain ⟨u, v, rfl, h1, h2⟩ := ht
  exact ⟨w ++ u, v, by simp, .cons hw h1, h2⟩

/-- The closing parenthesis that may be missing. -/
theorem close_reads : Reads src (optPiece (isKind .rightParen)) fun _ w => ∃ close : Option Cursor, w = close.toList ∧ Closes .rightParen close :=
  Reads.bind .optKind fun o w hw => .pure ⟨o, by rw [hw.1, List.append_nil], hw.2⟩

theorem oneOf_matches {names : List Char} {c : Cursor} {k : List Char} (hk : IsKind .ident c) (hn : Called src c k)
    (hm : k ∈ (wordsOf names).map (·.map asciiLower)) : Matches src M (oneOf names) [c] := by
  obtain ⟨n, h1, rfl⟩ := List.mem_map.mp hm
  exact .one (List.mem_map_of_mem h1) (.ident ⟨hk, hn⟩)

theorem isKeyword_says {names : List (List Char)} {words : List Char} (h : ∀ k ∈ names, k ∈ (wordsOf words).map (·.map asciiLower)) (c : Cursor) :
    Says src (isKeyword names c) fun b => b = true → Matches src M (oneOf words) [c] :=
  (Says.isKeyword c).mono fun b hb h' => by
    obtain ⟨hk, s, hs, hm⟩ := hb.1 h'
    exact oneOf_matches hk (.inl hs) (h s hm)

theorem isWordOf_says {name : List Char} (c : Cursor) : Says src (isWordOf name c) fun b => b = true → IsWord src name c := by
  unfold isWordOf
  exact Says.ite (fun h => Says.ask fun p a hp ha hb => ⟨h, .inr (by rw [hp] at ha; rw [ha, hb])⟩) fun _ => .pure (by simp)

theorem either_says {a b : Cursor → Prog Bool} {P : Cursor → Prop} {c : Cursor} (ha : Says src (a c) fun r => r = true → P c)
    (hb : Says src (b c) fun r => r = true → P c) : Says src (either a b c) fun r => r = true → P c := by
  unfold either
  exact Says.bind ha fun r hr => Says.ite (fun h => .pure fun _ => hr h) fun _ => hb

theorem isKind_says {k : Kind} (c : Cursor) : Says src (isKind k c) fun b => b = true → IsKind k c := .pure id
theorem comma_says (c : Cursor) : Says src (isKind .comma c) fun b => b = true → Matches src M (.punct ',') [c] := .pure fun h => .punct (.inr ⟨rfl, h⟩)
theorem isDelim_says {ch : Char} (hch : ch ≠ ',' := by decide) (c : Cursor) : Says src (isDelim ch c) fun b => b = true → Matches src M (.punct ch) [c] :=
  .pure fun h => .punct (.inl ⟨hch, by simpa [IsDelim] using h⟩)

theorem word_matches {name : List Char} {c : Cursor} (h : IsWord src name c) (hl : name.map asciiLower = name) : Matches src M (.ident name) [c] :=
  .ident (by rw [hl]; exact h)

/-! ### Colors -/

theorem isChannel_says (c : Cursor) : Says src (isChannel c) fun b => b = true → Matches src M channel [c] :=
  either_says (P := fun c => Matches src M channel [c])
    ((isKind_says c).mono fun _ h hb => Matches.one (List.mem_cons_self ..) (.type ⟨c, rfl, h hb, trivial⟩))
    (either_says (P := fun c => Matches src M channel [c])
      ((isPercent_says c).mono fun _ h hb => Matches.one (.tail _ (.head _)) (.type ⟨c, rfl, h hb, trivial⟩))
      ((isWordOf_says c).mono fun _ h hb => Matches.one (.tail _ (.tail _ (.head _))) (word_matches (h hb) rfl)))
theorem isHue_says (c : Cursor) : Says src (isHue c) fun b => b = true → Matches src M hue [c] :=
  either_says (P := fun c => Matches src M hue [c])
    ((isKind_says c).mono fun _ h hb => Matches.one (List.mem_cons_self ..) (.type ⟨c, rfl, h hb, trivial⟩))
    (either_says (P := fun c => Matches src M hue [c])
      ((isUnitOf_says c).mono fun _ h hb => Matches.one (.tail _ (.head _)) (.type ⟨c, rfl, by
        obtain ⟨u, hu, h⟩ := h hb
        exact ⟨u, by revert hu; simp; grind, h⟩, trivial⟩))
      ((isWordOf_says c).mono fun _ h hb => Matches.one (.tail _ (.tail _ (.head _))) (word_matches (h hb) rfl)))

/-- What closes a function. -/
def ClosesIt (w : List Cursor) : Prop := ∃ close : Option Cursor, w = close.toList ∧ Closes .rightParen close

theorem legacy_follow {first : Cursor → Prog Bool} {d : Def} (hi : Inspects first) (h : ∀ c, Says src (first c) fun b => b = true → Matches src M d [c]) :
    FollowAll src M (legacyChannels first ++ [optPiece (isKind .rightParen)]) ([d, maybeComma, channel, maybeComma, channel, maybeComma] ++ alpha) ClosesIt :=
  .cons (piece_follows hi h) <| .cons (optPiece_follows .kind comma_says) <| .cons (piece_follows .channel isChannel_says) <|
  .cons (optPiece_follows .kind comma_says) <| .cons (piece_follows .channel isChannel_says) <| .cons (optPiece_follows .kind comma_says) <|
  .cons (optPiece_follows .delim isDelim_says) <| .cons (optPiece_follows .channel isChannel_says) <| .last close_reads

theorem modern_follow {a b c : Cursor → Prog Bool} {da db dc : Def} (ha : Inspects a) (hb : Inspects b) (hc : Inspects c)
    (h1 : ∀ x, Says src (a x) fun r => r = true → Matches src M da [x]) (h2 : ∀ x, Says src (b x) fun r => r = true → Matches src M db [x])
    (h3 : ∀ x, Says src (c x) fun r => r = true → Matches src M dc [x]) :
    FollowAll src M (channels a b c ++ [optPiece (isKind .rightParen)]) ([da, db, dc] ++ alpha) ClosesIt :=
  .cons (piece_follows ha h1) <| .cons (piece_follows hb h2) <| .cons (piece_follows hc h3) <|
  .cons (optPiece_follows .delim isDelim_says) <| .cons (optPiece_follows .channel isChannel_says) <| .last close_reads

theorem functionOf_reads {names : List (List Char)} : Reads src (functionOf names) fun r w => w = [r.2] ∧ IsKind .function r.2 ∧ Named src r.2 r.1 ∧ r.1 ∈ names :=
  fun _ hp _ _ _ hg => ⟨functionOf_writes _ hg, functionOf_says hp hg⟩

theorem colorFunction_follows : Follows src M colorFunction colorDef := by
  unfold colorFunction
  refine Reads.bind functionOf_reads fun ⟨name, f⟩ w ⟨hw, hk, hn, hm⟩ => ?_
  subst hw
  have done : ∀ ds, FollowAll src M (colorArguments name ++ [optPiece (isKind .rightParen)]) ds ClosesIt → name.map asciiLower = name →
      .function name (inTurn ds) ∈ [
        Def.function c!"color" (inTurn ([oneOf c!"srgb srgb-linear display-p3 a98-rgb prophoto-rgb rec2020 xyz xyz-d50 xyz-d65", channel, channel, channel] ++ alpha)),
        .function c!"rgb" (legacy channel), .function c!"rgba" (legacy channel),
        .function c!"hsl" (legacy hue), .function c!"hsla" (legacy hue),
        .function c!"hwb" (modern hue channel channel),
        .function c!"lab" (modern channel channel channel), .function c!"oklab" (modern channel channel channel),
        .function c!"lch" (modern channel channel hue), .function c!"oklch" (modern channel channel hue)] →
      Reads src (sequence (colorArguments name ++ [optPiece (isKind .rightParen)]) >>= fun vs => pure (Val.fields (.tok f :: vs))) fun _ v =>
        Matches src M colorDef ([f] ++ v) := by
    intro ds hs hl hmem
    refine Reads.bind hs fun vs w ⟨u, v, e, h1, close, h2, h3⟩ => .pure ?_
    subst e h2
    refine .one (.tail _ (.tail _ (.tail _ hmem))) ?_
    simpa using .function hk (.inl (hl.symm ▸ hn)) (.ordered h1) h3
  simp only [COLOR_FUNCTIONS, List.mem_cons, List.not_mem_nil, or_false] at hm
  rcases hm with h | h | h | h | h | h | h | h | h | h <;> subst h
  · exact done _ (.cons (piece_follows .keyword (isKeyword_says (by decide))) (modern_follow .channel .channel .channel isChannel_says isChannel_says isChannel_says)) rfl (.head _)
  · exact done _ (legacy_follow .channel isChannel_says) rfl (.tail _ (.head _))
  · exact done _ (legacy_follow .channel isChannel_says) rfl (.tail _ (.tail _ (.head _)))
  · exact done _ (legacy_follow .hue isHue_says) rfl (.tail _ (.tail _ (.tail _ (.head _))))
  · exact done _ (legacy_follow .hue isHue_says) rfl (.tail _ (.tail _ (.tail _ (.tail _ (.head _)))))
  · exact done _ (modern_follow .hue .channel .channel isHue_says isChannel_says isChannel_says) rfl (.tail _ (.tail _ (.tail _ (.tail _ (.tail _ (.head _))))))
  · exact done _ (modern_follow .channel .channel .channel isChannel_says isChannel_says isChannel_says) rfl
      (.tail _ (.tail _ (.tail _ (.tail _ (.tail _ (.tail _ (.head _)))))))
  · exact done _ (modern_follow .channel .channel .hue isChannel_says isChannel_says isHue_says) rfl
      (.tail _ (.tail _ (.tail _ (.tail _ (.tail _ (.tail _ (.tail _ (.tail _ (.head _)))))))))
  · exact done _ (modern_follow .channel .channel .channel isChannel_says isChannel_says isChannel_says) rfl
      (.tail _ (.tail _ (.tail _ (.tail _ (.tail _ (.tail _ (.tail _ (.head _))))))))
  · exact done _ (modern_follow .channel .channel .hue isChannel_says isChannel_says isHue_says) rfl
      (.tail _ (.tail _ (.tail _ (.tail _ (.tail _ (.tail _ (.tail _ (.tail _ (.tail _ (.head _))))))))))

theorem namedColors_all : ∀ k ∈ NAMED_COLORS, k ∈ (wordsOf namedColors).map (·.map asciiLower) := by decide +kernel
theorem systemColors_all : ∀ k ∈ SYSTEM_COLORS, k ∈ (wordsOf systemColors).map (·.map asciiLower) := by decide +kernel

/-- A color is a hash, or what the definition says. -/
theorem color_reads : Reads src color fun _ w => (∃ c, w = [c] ∧ IsKind .hash c) ∨ Matches src M colorDef w := by
  unfold color
  refine Reads.look .peek fun c _ => Reads.ite (fun _ => ?_) fun _ => Reads.look .peek fun c _ => Reads.ite (fun _ => ?_) fun _ => ?_
  · unfold piece
    refine Reads.bind (P := fun _ w => ∃ c, w = [c] ∧ IsKind .hash c) (Reads.next .kind fun c hc => .pure ⟨c, rfl, hc⟩) fun v w hw => .pure ?_
    rw [List.append_nil]
    exact .inl hw
  · refine Reads.bind (Reads.ifPeek .keyword .keyword) fun o w h => ?_
    rcases h with ⟨rfl, rfl⟩ | ⟨⟨k, c⟩, rfl, rfl, hk, hn, hm⟩
    · simp only [List.nil_append]
      refine Reads.bind (Reads.ifPeek .keyword .keyword) fun o w h => ?_
      rcases h with ⟨rfl, rfl⟩ | ⟨⟨k, c⟩, rfl, rfl, hk, hn, hm⟩
      · simp only [List.nil_append]
        refine Reads.bind .keyword fun ⟨k, c⟩ w ⟨hw, hk, hn, hm⟩ => .pure (.inr ?_)
        subst hw
        exact .one (.tail _ (.tail _ (.head _))) (oneOf_matches hk (.inl hn) (systemColors_all _ hm))
      · exact .pure (.inr (.one (.tail _ (.head _)) (oneOf_matches hk (.inl hn) (namedColors_all _ hm))))
    · exact .pure (.inr (.one (.head _) (oneOf_matches hk (.inl hn) (by
      have h : ∀ k ∈ [c!"currentcolor", c!"transparent"], k ∈ (wordsOf c!"currentcolor transparent").map (·.map asciiLower) := by decide
      exact h _ hm))))
  · refine Reads.look .peek fun c _ => Reads.look (Reads.test .functionOf (T := fun _ => True) fun _ _ _ _ _ _ _ => trivial) fun b _ => Reads.ite (fun _ => ?_) fun _ => ?_
    · exact Reads.bind colorFunction_follows fun v w hw => .pure (.inr (by simpa using hw))
    · exact Reads.look .peekN fun c _ => .fail

/-! ### Images -/

theorem namedFunction_reads {name : List Char} : Reads src (namedFunction name) fun f w => w = [f] ∧ IsKind .function f ∧ Called src f name := by
  unfold namedFunction
  refine Reads.next .kind fun f hf => Reads.look .eqCase fun b hb => Reads.ite (fun _ => Reads.look .str fun _ _ => .fail) fun h => .pure ⟨rfl, hf, .inr ?_⟩
  rw [hb]
  simpa using h

/-- Any program takes some tokens. -/
theorem Reads.whatever {α : Type} {x : Prog α} : Reads src x fun _ _ => True := fun _ _ _ _ _ _ => trivial

theorem image_reads : Reads src image fun _ w => IsImage src w := by
  unfold image
  refine Reads.look .peek fun c _ => Reads.ite (fun _ => ?_) fun _ => Reads.look .peek fun c _ =>
    Reads.look (Reads.test .functionOf (T := fun _ => True) fun _ _ _ _ _ _ _ => trivial) fun b _ => Reads.ite (fun _ => ?_) fun _ => ?_
  · refine Reads.bind (P := fun _ w => ∃ c, w = [c] ∧ IsKind .url c) (Reads.next .kind fun c hc => .pure ⟨c, rfl, hc⟩) fun v w hw => .pure ?_
    rw [List.append_nil]
    exact .inl hw
  · refine Reads.bind (P := fun _ w => IsImage src w) ?_ fun v w hw => .pure (by simpa using hw)
    unfold gradient
    refine Reads.bind functionOf_reads fun ⟨name, f⟩ w ⟨hw, hk, hn, hm⟩ => ?_
    subst hw
    have : Reads src (if name == c!"linear-gradient" then do
    let v ← linearGradient f
    pure (.variant 0 v)
  else if name == c!"repeating-linear-gradient" then do
    let v ← linearGradient f
    pure (.variant 1 v)
  else if name == c!"radial-gradient" then do
    let v ← radialGradient f (do
      let c ← peekN 1
      isWordOf c!"at" c)
    pure (.variant 2 v)
  else do
    let v ← radialGradient f (isWordOf c!"at" f)
    pure (Val.variant 3 v)) fun _ _ => True := .whatever
    refine this.mono fun v w _ => .inr ⟨f, w, rfl, hk, name, ?_, .inl hn⟩
    simp only [GRADIENTS, List.mem_cons, List.not_mem_nil, or_false] at hm ⊢
    grind
  · exact Reads.bind namedFunction_reads fun f w ⟨hw, hk, hn⟩ => Reads.whatever.mono fun v t _ => .inr ⟨f, t, by rw [hw]; rfl, hk, _, .head _, hn⟩

theorem stripesLoop_reads : ∀ n vs, Reads src (stripesLoop n vs) fun r w => ∃ v, w = v ++ [r.2] ∧ IsKind .rightParen r.2
  | 0, _ => .panic
  | n + 1, vs => by
    unfold stripesLoop
    refine Reads.look .peek fun c _ => Reads.ite (fun _ => Reads.next .kind fun c hc => .pure ⟨[], rfl, hc⟩) fun _ => ?_
    refine Reads.bind .whatever fun v w _ => (stripesLoop_reads n _).mono fun r t ⟨v, e, h⟩ => ⟨w ++ v, by simp [e], h⟩

theorem image1D_reads : Reads src image1D fun _ w => IsImage1D src w := by
  unfold image1D
  refine Reads.bind namedFunction_reads fun f w ⟨hw, hk, hn⟩ => Reads.read fun p => Reads.bind (stripesLoop_reads _ _) fun ⟨vs, close⟩ t ⟨v, e, h⟩ => .pure ?_
  exact ⟨f, v, close, by rw [hw, e]; simp, hk, hn, h⟩

/-! ### The other types -/

theorem upTo {n : Nat} {w : BitVec 32} (hn : n ≤ 2 ^ 24) (h : f32UpTo n w = true) : AtLeast 0 w ∧ AtMost n w := by
  simp only [f32UpTo, Bool.or_eq_true, beq_iff_eq, Bool.and_eq_true, Bool.not_eq_true', decide_eq_true_eq] at h
  rcases h with rfl | ⟨hm, h⟩
  · exact ⟨.inr ⟨rfl, by decide⟩, .inl (by decide +kernel)⟩
  · refine ⟨.inl ⟨?_, by rw [Nat.zero_mul]; exact Nat.zero_le _⟩, .inr ?_⟩
    · rw [BitVec.msb_eq_false_iff_two_mul_lt] at hm
      omega
    · rw [← units_ofRat hn]
      exact units_mono h

theorem optKeyword_follows {names : List (List Char)} {words : List Char} (h : ∀ k ∈ names, k ∈ (wordsOf words).map (·.map asciiLower)) :
    Reads src (optKeyword names) fun o w => w = o.toList ∧ ∀ c, o = some c → Matches src M (oneOf words) [c] := by
  unfold optKeyword
  refine Reads.bind (Reads.ifPeek .keyword .keyword) fun o w hw => .pure ?_
  rcases hw with ⟨rfl, rfl⟩ | ⟨⟨k, c⟩, rfl, rfl, hk, hn, hm⟩
  · exact ⟨rfl, nofun⟩
  · exact ⟨rfl, fun c' e => by cases e; exact oneOf_matches hk (.inl hn) (h _ hm)⟩

theorem lineWidth_says (c : Cursor) : Says src (isLineWidth c) fun b => b = true → Matches src M (alts [.type (.length .none), oneOf c!"thin medium thick"]) [c] :=
  either_says (P := fun c => Matches src M (alts [.type (.length .none), oneOf c!"thin medium thick"]) [c])
    ((isLength_says c).mono fun _ h hb => Matches.one (.head _) (.type ⟨c, rfl, h hb, trivial⟩))
    ((isKeyword_says (by decide) c).mono fun _ h hb => Matches.one (.tail _ (.head _)) (h hb))

theorem opacity_says (c : Cursor) : Says src (isOpacityValue c) fun b => b = true →
    Matches src M (alts [.type (.number (.range 0 1)), .type (.percentage (.range 0 100))]) [c] := by
  unfold isOpacityValue
  refine Says.ite (fun h => .pure fun _ => ?_) fun _ => Says.bind (isPercent_says c) fun b hb => Says.ite (fun h => .pure fun hu => ?_) fun _ => .pure (by simp)
  · rw [Bool.and_eq_true] at h
    exact Matches.one (.head _) (.type ⟨c, rfl, h.1, upTo (by decide) h.2⟩)
  · exact Matches.one (.tail _ (.head _)) (.type ⟨c, rfl, hb h, upTo (by decide) hu⟩)

theorem infinite_says {p : Parser} (hp : p.lexer.source = src) (c : Cursor) :
    Succ (if c.token.isKind .ident then do
    let c ← peekN 1
    Prog.eqIgnoreAsciiCase c c!"infinite"
    else pure false) p fun b p' w => p' = p ∧ w = [] ∧ (b = true → ∀ d q, p.next = .ok (d, q) → d.eqIgnoreAsciiCase src c!"infinite" = .ok true) := by
  refine Succ.ite (fun _ => ?_) fun _ => Succ.pure ⟨rfl, rfl, nofun⟩
  intro b p' w hg
  obtain ⟨c2, p3, w3, w4, h3, h4, rfl⟩ := gives_bind_ok.mp hg
  obtain ⟨c3, hn, e, rfl, rfl⟩ := gives_peekN.mp h3
  cases e
  obtain ⟨b1, hb, e, rfl, rfl⟩ := gives_eqCase.mp h4
  cases e
  refine ⟨rfl, rfl, fun e d q hd => ?_⟩
  obtain ⟨q', hq⟩ := next_of_peekN1 hn
  rw [hq] at hd
  cases hd
  rw [← hp, hb, e]

theorem iterationCount_reads : Follows src M iterationCount (alts [.ident c!"infinite", .type (.number (.from 0))]) := by
  unfold iterationCount
  refine Reads.look .peek fun c _ => ?_
  intro p hp v p' w hg
  obtain ⟨b, p1, w1, w2, h1, h2, rfl⟩ := gives_bind_ok.mp hg
  obtain ⟨rfl, rfl, hb⟩ := infinite_says hp c h1
  rw [List.nil_append]
  by_cases hb' : b = true
  all_goals first | rw [if_pos hb'] at h2 | rw [if_neg hb'] at h2
  · obtain ⟨d, p2, w3, w4, h3, h4, rfl⟩ := gives_bind_ok.mp h2
    obtain ⟨hn, hk, rfl⟩ := (gives_tok_pure (fun h => Inspects.kind h)).mp h3
    obtain ⟨e1, e2, e3⟩ := gives_pure.mp h4
    subst e3
    refine Matches.one (.head _) (.ident ⟨?_, .inr (hb hb' _ _ hn)⟩)
    exact isKind_says (src := src) d hp hk rfl
  · refine (Reads.next (Q := fun _ w => Matches src M (alts [.ident c!"infinite", .type (.number (.from 0))]) w) (.tok isCssFloat_inspects (T := fun c => IsKind .number c) fun c => .pure fun h => ?_) fun c hc =>
      Reads.ite (fun _ => .fail) fun h => .pure ?_ : Reads src _ _) hp h2
    · rw [Bool.and_eq_true] at h
      exact h.1
    · exact Matches.one (.tail _ (.head _)) (.type ⟨c, rfl, hc, atLeast (by decide) h⟩)

theorem repeatStyle_reads : Follows src M repeatStyle (alts [oneOf c!"repeat-x repeat-y", .mult (oneOf c!"repeat space round no-repeat") (.range (.range 1 2))]) := by
  unfold repeatStyle
  refine Reads.next .kind fun c hc => Reads.look .strLower fun s hs => Reads.ite (fun h => .pure ?_) fun _ => Reads.ite (fun h => .pure ?_) fun _ => ?_
  · exact Matches.one (.head _) (oneOf_matches hc (.inl hs) (by rw [beq_iff_eq.mp h]; decide))
  · exact Matches.one (.head _) (oneOf_matches hc (.inl hs) (by rw [beq_iff_eq.mp h]; decide))
  · refine Reads.look (Reads.test (T := fun c => Matches src M (oneOf c!"repeat space round no-repeat") [c]) .keyword (isKeyword_says (M := M) (names := [c!"repeat", c!"space", c!"round", c!"no-repeat"]) (words := c!"repeat space round no-repeat") (by decide) c)) fun b hb => Reads.ite (fun h => ?_) fun _ =>
      Reads.look .str fun _ _ => .fail
    refine Reads.bind (optKeyword_follows (M := M) (names := [c!"repeat", c!"space", c!"round", c!"no-repeat"]) (words := c!"repeat space round no-repeat") (by decide)) fun o w ⟨hw, ho⟩ => .pure ?_
    refine Matches.one (.tail _ (.head _)) ?_
    subst hw
    cases o with
    | none => exact .times (.more (hb h) .none) ⟨by omega, by omega⟩
    | some d => exact .times (.more (hb h) (.more (ho d rfl) .none)) ⟨by omega, by omega⟩

theorem positionPair_follows {a b : List (List Char)} {va vb : List Char} {variant : Nat} {flipped : Bool} {otherwise : Prog Val} {d : Def}
    (ha : ∀ k ∈ a, k ∈ (wordsOf va).map (·.map asciiLower)) (hb : ∀ k ∈ b, k ∈ (wordsOf vb).map (·.map asciiLower))
    (h1 : ∀ x, Matches src M (oneOf va) [x] → Matches src M d [x])
    (h2 : ∀ x y, Matches src M (oneOf va) [x] → Matches src M (oneOf vb) [y] → Matches src M d [x, y])
    (ho : Follows src M otherwise d) : Follows src M (positionPair a b variant flipped otherwise) d := by
  unfold positionPair
  refine Reads.bind (optKeyword_follows (M := M) ha) fun o w ⟨hw, h⟩ => ?_
  subst hw
  cases o with
  | none => exact ho
  | some x =>
    refine Reads.bind (optKeyword_follows (M := M) hb) fun o w ⟨hw, h'⟩ => .pure ?_
    subst hw
    cases o with
    | none => exact h1 x (h x rfl)
    | some y => exact h2 x y (h x rfl) (h' y rfl)

theorem positionArea_follows : Follows src M positionArea positionAreaDef := by
  unfold positionArea
  have twice : ∀ {s : List Char}, (.mult (oneOf s) (.range (.range 1 2))) ∈ [
      Def.mult (oneOf c!"start center end span-start span-end span-all") (.range (.range 1 2)),
      .mult (oneOf c!"self-start center self-end span-self-start span-self-end span-all") (.range (.range 1 2))] →
      (∀ x, Matches src M (oneOf s) [x] → Matches src M positionAreaDef [x]) ∧
      (∀ x y, Matches src M (oneOf s) [x] → Matches src M (oneOf s) [y] → Matches src M positionAreaDef [x, y]) := fun hm =>
    ⟨fun x h => .one (.tail _ (.tail _ (.tail _ hm))) (.times (.more h .none) ⟨by omega, by omega⟩),
     fun x y h h' => .one (.tail _ (.tail _ (.tail _ hm))) (.times (.more h (.more h' .none)) ⟨by omega, by omega⟩)⟩
  have pair : ∀ {a b : Def}, (.comb [a, b] .options) ∈ (match positionAreaDef with | .comb ds _ => ds | _ => []) →
      (∀ x, Matches src M a [x] → Matches src M positionAreaDef [x]) ∧ (∀ x, Matches src M b [x] → Matches src M positionAreaDef [x]) ∧
      (∀ x y, Matches src M a [x] → Matches src M b [y] → Matches src M positionAreaDef [x, y]) ∧
      (∀ x y, Matches src M b [x] → Matches src M a [y] → Matches src M positionAreaDef [x, y]) := fun {a b} hm =>
    ⟨fun x h => .one hm (.some (es := [a]) (rest := [b]) (by simp) (.refl _) (.cons h .nil)),
     fun x h => .one hm (.some (es := [b]) (rest := [a]) (by simp) (.swap ..) (.cons h .nil)),
     fun x y h h' => .one hm (.some (es := [a, b]) (rest := []) (by simp) (.refl _) (.cons h (.cons h' .nil))),
     fun x y h h' => .one hm (.some (es := [b, a]) (rest := []) (by simp) (.swap ..) (.cons h (.cons h' .nil)))⟩
  obtain ⟨p1, p2, p3, p4⟩ := pair (.head _)
  obtain ⟨q1, q2, q3, q4⟩ := pair (.tail _ (.head _))
  obtain ⟨r1, r2, r3, r4⟩ := pair (.tail _ (.tail _ (.head _)))
  obtain ⟨s1, s2⟩ := twice (.head _)
  obtain ⟨t1, t2⟩ := twice (.tail _ (.head _))
  refine positionPair_follows (by decide) (by decide) s1 s2 <| positionPair_follows (by decide) (by decide) t1 t2 <|
    positionPair_follows (by decide) (by decide) q1 q3 <| positionPair_follows (by decide) (by decide) q2 q4 <|
    positionPair_follows (by decide) (by decide) r1 r3 <| positionPair_follows (by decide) (by decide) r2 r4 <|
    positionPair_follows (by decide) (by decide) p1 p3 <| positionPair_follows (by decide) (by decide) p2 p4 <| ?_
  exact Reads.next .any fun c _ => .fail

theorem optComma_reads : Reads src (ifPeek (isKind .comma) (tok (isKind .comma))) fun o w => w = o.toList ∧ Matches src M maybeComma o.toList :=
  Reads.optKind.mono fun o w h => ⟨h.1, by
    cases o with
    | none => exact .absent
    | some c => exact .present (.punct (.inr ⟨rfl, h.2 c rfl⟩))⟩

theorem snap_follows {name : List Char} {names : List (List Char)} {words : List Char} (hl : name.map asciiLower = name)
    (h : ∀ k ∈ names, k ∈ (wordsOf words).map (·.map asciiLower)) :
    Follows src M (snap name names) (.function name (inTurn [.type (.lengthPercentage .none), maybeComma, .optional (oneOf words)])) := by
  unfold snap
  refine Reads.bind namedFunction_reads fun f w ⟨hw, hk, hn⟩ => Reads.next (.tok .lengthPercentage isLengthPercentage_says) fun l hl' =>
    Reads.bind (optComma_reads (M := M)) fun comma w' ⟨hw', hc⟩ => Reads.bind (optKeyword_follows (M := M) h) fun key u ⟨hu, hk'⟩ =>
    Reads.bind .optKind fun close t ⟨ht, hcl⟩ => .pure ?_
  subst hw hw' hu ht
  have hkey : Matches src M (.optional (oneOf words)) key.toList := by
    cases key with
    | none => exact .absent
    | some c => exact .present (hk' c rfl)
  have := Matches.function (src := src) (M := M) hk (hl.symm ▸ hn) (.ordered (.cons (.type (t := .lengthPercentage .none) ⟨l, rfl, hl', trivial⟩) (.cons hc (.cons hkey .nil)))) hcl
  simpa [inTurn] using this

theorem rangeLimitLoop_reads : ∀ n vs, Reads src (rangeLimitLoop n vs) fun r w => ∃ k u, w = u ++ r.2.toList ∧
    MatchesTimes src M (inTurn [.type .customIdent, .type (.percentage (.range 0 100)), maybeComma]) k u ∧ Closes .rightParen r.2
  | 0, _ => .panic
  | n + 1, vs => by
    unfold rangeLimitLoop
    refine Reads.look (R := fun _ => True) (.ask fun _ _ _ _ => ⟨rfl, trivial⟩) fun b _ => Reads.ite (fun _ => .pure ⟨0, [], rfl, .none, nofun⟩) fun _ =>
      Reads.look .peek fun c _ => Reads.ite (fun _ => Reads.next .kind fun c hc => .pure ⟨0, [], rfl, .none, fun c' e => by cases e; exact hc⟩) fun _ => ?_
    refine Reads.next .kind fun name hn => Reads.next (.tok (isDimensionOf_inspects _) isPercent_says) fun part hp => Reads.ite (fun _ => .fail) fun hr =>
      Reads.bind (optComma_reads (M := M)) fun comma w' ⟨hw', hc⟩ => (rangeLimitLoop_reads n _).mono fun r t ⟨k, u, e, hm, hcl⟩ => ?_
    subst hw' e
    refine ⟨k + 1, ([name] ++ ([part] ++ (comma.toList ++ []))) ++ u, by simp, .more (.ordered (.cons (.type ⟨_, rfl, hn⟩) (.cons (.type ⟨_, rfl, hp, ?_⟩) (.cons hc .nil)))) hm, hcl⟩
    exact upTo (by decide) (by simpa using hr)

theorem rangeLimitMix_follows : Follows src M rangeLimitMix (.function c!"dynamic-range-limit-mix"
    (.mult (inTurn [.type .customIdent, .type (.percentage (.range 0 100)), maybeComma]) .zeroOrMore)) := by
  unfold rangeLimitMix
  refine Reads.bind namedFunction_reads fun f w ⟨hw, hk, hn⟩ => Reads.read fun p => Reads.bind (rangeLimitLoop_reads (M := M) _ _) fun ⟨vs, close⟩ t ⟨k, u, e, hm, hcl⟩ => .pure ?_
  subst hw e
  simpa using Matches.function (src := src) (M := M) (name := c!"dynamic-range-limit-mix") hk hn (.star hm) hcl

/-! ### All types -/

/-- The definition is a choice with the keyword among others. -/
def offers (k : List Char) : Def → Bool
  | .comb ds .alternatives => ds.any fun | .ident n => n.map asciiLower == k | _ => false
  | _ => false
theorem offers_matches {k : List Char} {d : Def} {c : Cursor} (h : offers k d = true) (hw : IsWord src k c) : Matches src M d [c] := by
  unfold offers at h
  split at h
  · next ds =>
    obtain ⟨e, he, h⟩ := List.any_eq_true.mp h
    split at h
    · next n => exact .one he (.ident (by rw [beq_iff_eq.mp h]; exact hw))
    · cases h
  · cases h
theorem keywordTypes_offer : ∀ row ∈ KEYWORD_TYPES, (handDefs.find? (·.1 == row.1)).any (fun r => row.2.all fun k => offers k r.2) = true ∧
    row.1 ≠ c!"Image" ∧ row.1 ≠ c!"Image1D" ∧ row.1 ≠ c!"Color" := by decide +kernel

theorem handWritten_reads (k : Nat) (name : List Char) : ∀ l, handWritten name = some l → Reads src l.parser fun _ w => MeaningAt src (k + 1) name w := by
  unfold handWritten
  have pick : ∀ {n : List Char} {x : Leaf} {y : Option Leaf}, (Reads src x.parser fun _ w => MeaningAt src (k + 1) n w) →
      (∀ l, y = some l → Reads src l.parser fun _ w => MeaningAt src (k + 1) name w) →
      ∀ l, (if name == n then some x else y) = some l → Reads src l.parser fun _ w => MeaningAt src (k + 1) name w := by
    intro n x y hx hy l e
    split at e
    · next h => cases e; rw [beq_iff_eq.mp h]; exact hx
    · exact hy l e
  have one : ∀ {n : List Char} {test : Cursor → Prog Bool} (_ : Inspects test) (_ : ∀ c, Says src (test c) fun b => b = true → MeaningAt src (k + 1) n [c]),
      Reads src (Leaf.single test).parser fun _ w => MeaningAt src (k + 1) n w := fun hi h =>
    (single_reads hi h).mono fun v w ⟨c, _, hw, hc⟩ => by rw [hw]; exact hc
  split
  · next row n names hf =>
    intro l e
    cases e
    have hm := List.mem_of_find?_eq_some hf
    have hn : n = name := by simpa using List.find?_some hf
    subst hn
    obtain ⟨ho, h1, h2, h3⟩ := keywordTypes_offer _ hm
    unfold Leaf.keywords
    refine Reads.bind .keyword fun ⟨s, c⟩ w ⟨hw, hk, hs, hms⟩ => .pure ?_
    subst hw
    rw [List.append_nil]
    rw [MeaningAt, if_neg h1, if_neg h2, if_neg h3]
    dsimp only at ho
    split
    · next r hr =>
      rw [hr] at ho
      exact offers_matches (List.all_eq_true.mp ho s hms) ⟨hk, .inl hs⟩
    · next hr => rw [hr] at ho; cases ho
  · refine pick (one .lineWidth lineWidth_says) <| pick (one .opacity opacity_says) <| pick iterationCount_reads <| pick repeatStyle_reads <|
      pick (one .dashed ?_) <| pick positionArea_follows <| pick (snap_follows rfl (by decide)) <| pick (snap_follows rfl (by decide)) <|
      pick rangeLimitMix_follows <| pick ?_ <| pick color_reads <| pick image_reads <| pick image1D_reads <| pick (one .kind ?_) ?_
    · exact fun c => .pure fun h => .type ⟨c, rfl, by simpa [IsDashedIdent, IsKind, isDashed] using h⟩
    · exact Reads.next .kind fun _ _ => .panic
    · exact fun c => .pure fun h => .type ⟨c, rfl, h⟩
    · intro l e; cases e

theorem handDefs_hand : ∀ row ∈ handDefs, (handWritten row.1).isSome = true := by decide +kernel

theorem definitions_env : ∀ k, Env src (FaithfulName k) (MeaningAt src k) (definitionLeaf k)
  | 0 => ⟨definitionLeaf_ok 0, nofun⟩
  | k + 1 => by
    refine ⟨definitionLeaf_ok _, fun name hg => ?_⟩
    unfold definitionLeaf
    split
    · next l hl => exact handWritten_reads k name l hl
    · next hn =>
      rw [FaithfulName, hn] at hg
      split
      · next d hd =>
        rw [hd] at hg
        refine (parser_reads (definitions_env k) d hg).mono fun v w h => ?_
        have other : ∀ n, (handWritten n).isSome = true → name ≠ n := by
          intro n h e
          rw [← e, hn] at h
          cases h
        rw [MeaningAt, if_neg (other _ rfl), if_neg (other _ rfl), if_neg (other _ rfl)]
        split
        · next row hr =>
          have := List.find?_some hr
          exact absurd (beq_iff_eq.mp this).symm (other _ (handDefs_hand _ (List.mem_of_find?_eq_some hr)))
        · rw [hd]
          exact h
      · exact .panic

/-! ### The values of declarations -/

/-- The properties whose definitions are not read as they should be: those with a `<percentage>`, a `<string>`, a `<time>`, or a range in `||` or
in `{1,2}`, and those that refer to them. -/
def Spec.misreadProperties : List (List Char) := [
  c!"border-top-left-radius", c!"border-top-right-radius", c!"border-bottom-right-radius", c!"border-bottom-left-radius",
  c!"border-start-start-radius", c!"border-start-end-radius", c!"border-end-start-radius", c!"border-end-end-radius",
  c!"font-width", c!"font-language-override",
  c!"overflow-clip-margin-top", c!"overflow-clip-margin-right", c!"overflow-clip-margin-bottom", c!"overflow-clip-margin-left",
  c!"overflow-clip-margin-block-start", c!"overflow-clip-margin-inline-start", c!"overflow-clip-margin-block-end",
  c!"overflow-clip-margin-inline-end", c!"overflow-clip-margin-inline", c!"overflow-clip-margin-block",
  c!"block-ellipsis", c!"text-size-adjust",
  c!"text-align", c!"text-align-all", c!"hyphenate-character", c!"zoom"]

/-- What may follow the value of a declaration: the end, `}`, `;` or `!`. -/
def Spec.EndsValue (c : Cursor) : Prop := IsKind .eof c ∨ IsKind .rightCurly c ∨ IsKind .semicolon c ∨ IsDelim '!' c

theorem misread_rows : ∀ row ∈ DEFINITIONS, propertyName row.1 ∈ misreadProperties ∨ FaithfulName 6 row.1 = true := by decide +kernel

theorem valueEnds_says {p : Parser} : Succ valueEnds p fun b p' w => p' = p ∧ w = [] ∧ (b = true → ∀ c q, p.next = .ok (c, q) → EndsValue c) := by
  intro b p' w hg
  unfold valueEnds at hg
  obtain ⟨e, p1, w1, w2, h1, h2, rfl⟩ := gives_bind_ok.mp hg
  obtain ⟨he, rfl, rfl⟩ := gives_atEnd.mp h1
  cases he
  by_cases ha : p1.atEnd = true
  · rw [if_pos ha] at h2
    obtain ⟨e1, e2, e3⟩ := gives_pure.mp h2
    subst e2 e3
    refine ⟨rfl, rfl, fun _ c q hn => .inl ?_⟩
    have := next_at_end hn ha
    simpa [notEof, IsKind] using this
  · rw [if_neg ha] at h2
    obtain ⟨c2, p3, w3, w4, h3, h4, rfl⟩ := gives_bind_ok.mp h2
    obtain ⟨c3, hn, e, rfl, rfl⟩ := gives_peekN.mp h3
    cases e
    obtain ⟨q, hq⟩ := next_of_peekN1 hn
    by_cases hs : c2.token.inSet KindSet.RIGHT_CURLY_OR_SEMICOLON = true
    · rw [if_pos hs] at h4
      obtain ⟨e1, e2, e3⟩ := gives_pure.mp h4
      subst e2 e3
      refine ⟨rfl, rfl, fun _ c q' hc => ?_⟩
      rw [hq] at hc
      cases hc
      have hall : ∀ n < 32, KindSet.RIGHT_CURLY_OR_SEMICOLON.containsBits n = true → (n == Kind.rightCurly.bits) = true ∨ (n == Kind.semicolon.bits) = true := by decide
      exact .inr ((hall _ (kindBits_lt _) hs).imp_right .inl)
    · rw [if_neg hs] at h4
      obtain ⟨c4, p4, w5, w6, h5, h6, rfl⟩ := gives_bind_ok.mp h4
      obtain ⟨c5, hc, e, rfl, rfl⟩ := gives_peek.mp h5
      cases e
      obtain ⟨rfl, rfl⟩ := Inspects.delim h6
      refine ⟨rfl, rfl, fun hb c q' hc' => .inr (.inr (.inr ?_))⟩
      rw [peek_of_next hc'] at hc
      cases hc
      have := (gives_pure.mp h6).1
      rw [hb] at this
      simpa [IsDelim] using this

/-- What is said of a typed value: the name of the declaration is the name of the property, its tokens match the definition, and what follows
may follow a value. -/
def Spec.TypedRight (src : List Char) (name : Cursor) (n : List Char) (w : List Cursor) (p' : Parser) : Prop :=
  IsKind .ident name ∧ Named src name n ∧ (∃ row ∈ DEFINITIONS, propertyName row.1 = n ∧ (n ∈ misreadProperties ∨ MeaningAt src 6 row.1 w)) ∧
  ∀ c q, p'.next = .ok (c, q) → EndsValue c

theorem realValues_reads {n : List Char} : Reads src (realValues.parser n) fun _ w => ∃ row ∈ DEFINITIONS, propertyName row.1 = n ∧
    (n ∈ misreadProperties ∨ MeaningAt src 6 row.1 w) := by
  unfold realValues
  dsimp only
  split
  · next row hr =>
    have hm := List.mem_of_find?_eq_some hr
    have hn : propertyName row.1 = n := by simpa using List.find?_some hr
    rcases misread_rows row hm with h | h
    · exact Reads.whatever.mono fun _ _ _ => ⟨row, hm, hn, .inl (hn ▸ h)⟩
    · exact ((definitions_env 6).reads row.1 h).mono fun _ w h => ⟨row, hm, hn, .inr h⟩
  · exact .panic

theorem typed_reads {name : Cursor} {p : Parser} (hp : p.lexer.source = src) : Succ (typedValue realValues name) p fun r p' w =>
    ∀ v, r = .inl v → ∃ n x, v = .typed n x ∧ TypedRight src name n w p' := by
  intro r p' w hg v hr
  subst hr
  unfold typedValue at hg
  obtain ⟨b, p1, w1, w2, h1, h2, rfl⟩ := gives_bind_ok.mp hg
  obtain ⟨rfl, rfl⟩ := Inspects.keyword h1
  have notHere : ∀ {p q : Parser} {w : List Cursor}, ¬ Gives (do
      let c ← peek
      let computed ← isComputed c
      pure (.inr computed : StyleValue Val ⊕ Bool)) p (.ok (.inl v)) q w := by
    intro p q w h
    obtain ⟨_, _, _, _, _, h, _⟩ := gives_bind_ok.mp h
    obtain ⟨_, _, _, _, _, h, _⟩ := gives_bind_ok.mp h
    cases (gives_pure.mp h).1
  by_cases hb : b = true
  · rw [if_pos hb] at h2
    obtain ⟨⟨n, c⟩, p2, w3, w4, h3, h4, rfl⟩ := gives_bind_ok.mp h2
    obtain ⟨hc, hn, hm⟩ := Says.buildKeyword hp h3
    obtain ⟨rfl, rfl, _⟩ := gives_buildKeyword.mp h3
    obtain ⟨hk, _⟩ := (Says.isKeyword (src := src) name hp h1).1 hb
    obtain ⟨o, p3, w5, w6, h5, h6, rfl⟩ := gives_bind_ok.mp h4
    obtain ⟨r1, h7, e⟩ := gives_result.mp h5
    cases e
    cases o with
    | error d => exact absurd h6 notHere
    | ok x =>
      obtain ⟨e, p4, w7, w8, h8, h9, rfl⟩ := gives_bind_ok.mp h6
      obtain ⟨rfl, rfl, he⟩ := valueEnds_says h8
      by_cases hv : e = true
      · rw [if_pos hv] at h9
        obtain ⟨e1, e2, e3⟩ := gives_pure.mp h9
        cases e1
        subst e2 e3
        refine ⟨n, x, rfl, hk, hn, ?_, he hv⟩
        simpa using realValues_reads hp h7
      · rw [if_neg hv] at h9
        exact absurd h9 notHere
  · rw [if_neg hb] at h2
    exact absurd h2 notHere

theorem raw_not {fuel : Nat} {n : List Char} {x : Val} {k : List ComponentValue → StyleValue Val} (hk : ∀ vs, k vs ≠ .typed n x) {p p' : Parser} {w : List Cursor} :
    ¬ Gives (rawValue fuel >>= fun vs => pure (k vs)) p (.ok (.typed n x)) p' w := by
  intro h
  obtain ⟨_, _, _, _, _, h, _⟩ := gives_bind_ok.mp h
  have := (gives_pure.mp h).1
  injection this with this
  exact hk _ this.symm

theorem styleValue_reads {fuel : Nat} {name : Cursor} {p p' : Parser} {n : List Char} {x : Val} {w : List Cursor} (hp : p.lexer.source = src)
    (h : Gives (styleValue realValues fuel name) p (.ok (.typed n x)) p' w) : TypedRight src name n w p' := by
  unfold styleValue at h
  by_cases hd : name.token.isDashedIdent = true
  · rw [if_pos hd] at h
    exact absurd h (raw_not (k := .custom) (by intro vs e; cases e))
  · rw [if_neg hd] at h
    obtain ⟨o, p1, w1, w2, h1, h2, rfl⟩ := gives_bind_ok.mp h
    have hw := Reads.ifPeek .keyword .keyword hp h1
    rcases hw with ⟨rfl, rfl⟩ | ⟨⟨k, c⟩, rfl, _⟩
    · have hp1 := (runLog_source _ h1).1.trans hp
      dsimp only at h2
      obtain ⟨c, p2, w3, w4, h3, h4, rfl⟩ := gives_bind_ok.mp h2
      obtain ⟨_, _, _, rfl, rfl⟩ := gives_peek.mp h3
      obtain ⟨b, p5, w5, w6, h5, h6, rfl⟩ := gives_bind_ok.mp h4
      obtain ⟨rfl, rfl⟩ := Inspects.functionOf h5
      by_cases hb : b = true
      · rw [if_pos hb] at h6
        exact absurd h6 (raw_not (k := .computed) (by intro vs e; cases e))
      · rw [if_neg hb] at h6
        obtain ⟨r1, p6, w7, w8, h7, ⟨hr, rfl, h8⟩ | ⟨hr, rfl, h8⟩⟩ := gives_attempt.mp h6
        · obtain ⟨y, p7, w9, w10, h9, h10, rfl⟩ := gives_bind_ok.mp h8
          obtain ⟨e1, e2, e3⟩ := gives_ofResult.mp h9
          subst e1 e2 e3
          cases y with
          | inr b => cases hr
          | inl v =>
            obtain ⟨e1, e2, e3⟩ := gives_pure.mp h10
            cases e1
            subst e2 e3
            obtain ⟨n', x', e, h⟩ := typed_reads hp1 h7 _ rfl
            cases e
            simpa using h
        · obtain ⟨y, p7, w9, w10, h9, h10, rfl⟩ := gives_bind_ok.mp h8
          obtain ⟨e1, e2, e3⟩ := gives_ofResult.mp h9
          subst e1
          match y with
          | .inl v => cases hr
          | .inr true => exact absurd h10 (raw_not (k := .computed) (by intro vs e; cases e))
          | .inr false => exact absurd h10 (raw_not (k := .unknown) (by intro vs e; cases e))
    · cases (gives_pure.mp h2).1

/-- The declaration has a typed value with good reason: its name and colon are tokens of the source, the name being an ident that reads as the name
of a property, and the tokens behind the colon, without the trivia among them, match the definition of that property. -/
def Spec.TypedFromSource (src : List Char) (f : Features) (d : Decl (StyleValue Val)) (n : List Char) : Prop :=
  IsKind .ident d.name ∧ Named src d.name n ∧ IsKind .colon d.colon ∧ ∃ (before blanks tokens trivia w : List Cursor) (stop : Nat),
    LexedUntil (Lexer.newWithFeatures src f) (before ++ d.name :: (blanks ++ d.colon :: tokens)) stop ∧ Dealt (w.filter notEof) trivia tokens ∧
    ∃ row ∈ DEFINITIONS, propertyName row.1 = n ∧ (n ∈ misreadProperties ∨ MeaningAt src 6 row.1 w)

theorem next_lexed {p q : Parser} {c : Cursor} (h : p.next = .ok (c, q)) (hc : notEof c = true) :
    ∃ ts, LexedUntil p.lexer (ts ++ [c]) q.lexer.offset ∧ q.lexer.source = p.lexer.source ∧ q.lexer.features = p.lexer.features := by
  unfold Parser.next at h
  cases hn : Parser.nextLoop p.skip p.lexer p.trivia with
  | error e => rw [hn] at h; cases h
  | ok r =>
    obtain ⟨c', l', tr'⟩ := r
    rw [hn] at h
    simp only [Except.map, Except.ok.injEq, Prod.mk.injEq] at h
    obtain ⟨rfl, rfl⟩ := h
    obtain ⟨ts, e1, e2, e3, e4, e5, e6, e7⟩ := Parser.nextLoop_moved hn
    refine ⟨ts, ?_, e3, e4⟩
    simpa [List.filter_cons, hc] using e2

theorem declaration_each {f : Features} : EachDeclaration (Reached src f) realValues fun d => ∀ n x, d.value = .typed n x → TypedFromSource src f d n := by
  intro valid hv k p hp d p' w hg n x hx
  unfold declarationOf at hg
  obtain ⟨name, p1, w1, w2, h1, h2, rfl⟩ := gives_bind_ok.mp hg
  have hp1 := Reached.run hp h1
  obtain ⟨hn, hk, rfl⟩ := (gives_tok_pure (fun h => Inspects.kind h)).mp h1
  obtain ⟨ok, p2, w3, w4, h3, h4, rfl⟩ := gives_bind_ok.mp h2
  obtain ⟨rfl, rfl⟩ := hv h3
  by_cases hok : (!ok) = true
  · rw [if_pos hok] at h4
    exact absurd h4 (fun h => by cases h)
  rw [if_neg hok] at h4
  obtain ⟨colon, p3, w5, w6, h5, h6, rfl⟩ := gives_bind_ok.mp h4
  have hp3 := hp1.run h5
  obtain ⟨hn', hk', rfl⟩ := (gives_tok_pure (fun h => Inspects.kind h)).mp h5
  obtain ⟨v, p4, w7, w8, h7, h8, rfl⟩ := gives_bind_ok.mp h6
  obtain ⟨i, p5, w9, w10, h9, h10, rfl⟩ := gives_bind_ok.mp h8
  have hd := (gives_pure.mp h10).1
  cases hd
  dsimp only at hx
  subst hx
  obtain ⟨t1, t2, t3, _⟩ := styleValue_reads hp3.source h7
  have hk2 : IsKind .colon colon := by
    have := (gives_pure.mp hk').1
    exact (Except.ok.inj this).symm
  obtain ⟨as, a1, a2, a3⟩ := next_lexed hn (isKind_notEof (by decide) t1)
  obtain ⟨bs, b1, b2, b3⟩ := next_lexed hn' (isKind_notEof (by decide) hk2)
  obtain ⟨trivia, tokens, _, m1, m2⟩ := (hp3.moved h7).tokens
  obtain ⟨_, v, hm⟩ := hp
  obtain ⟨_, before, _, c1, _⟩ := hm.tokens
  refine ⟨t1, t2, hk2, before ++ as, bs, tokens, trivia, w7, p4.lexer.offset, ?_, m2, t3⟩
  have r1 := c1.append hm.source hm.features rfl a1
  have r2 := r1.append (a2.trans hm.source) (a3.trans hm.features) rfl b1
  have r3 := r2.append (b2.trans (a2.trans hm.source)) (b3.trans (a3.trans hm.features)) rfl m1
  simp only [List.append_assoc, List.singleton_append, List.cons_append] at r3 ⊢
  exact r3

/-- C79. Every declaration of a style sheet that has got a typed value, however deep in nested rules it is, has it from tokens of the source that match the
definition of its property (see `misreadProperties` for the properties that are read otherwise). -/
theorem C79_style_sheet_partial {f : Features} {rules : List (CssRule Val)} {p' : Parser} (hs : utf8Len src < 65536)
    (h : (cssStyleSheet realValues).run (Parser.newWithFeatures src f) = .ok (.ok rules, p'))
    {d : Decl (StyleValue Val)} (hd : d ∈ declarationsOf rules) {n : List Char} {x : Val} (hv : d.value = .typed n x) :
    TypedFromSource src f d n := by
  obtain ⟨w, hg⟩ := gives_of_run h
  exact cssStyleSheet_each declaration_each (.new hs) hg d hd n x hv

/-- C79, for one value: after it comes only what may follow a value. -/
theorem C79_value_partial {fuel : Nat} {name : Cursor} {p p' : Parser} {n : List Char} {x : Val} {w : List Cursor} (hp : p.lexer.source = src)
    (h : Gives (styleValue realValues fuel name) p (.ok (.typed n x)) p' w) :
    IsKind .ident name ∧ Named src name n ∧ (∃ row ∈ DEFINITIONS, propertyName row.1 = n ∧ (n ∈ misreadProperties ∨ MeaningAt src 6 row.1 w)) ∧
    ∀ c q, p'.next = .ok (c, q) → EndsValue c := styleValue_reads hp h

/-- C79, for any value definition (not only those of css_ast): what its parser takes matches the definition, provided that this is so for the named types
it refers to (`Env`), and that it contains nothing that the macro reads otherwise (`Faithful`). -/
theorem C79_definitions_partial {M : Meaning} {env : List Char → Leaf} {good : List Char → Bool} (he : Env src good M env) {d : Def}
    (hf : Faithful good d = true) {p p' : Parser} {x : Val} {w : List Cursor} (hp : p.lexer.source = src)
    (h : Gives (d.parser env) p (.ok x) p' w) : Matches src M d w := parser_reads he d hf hp h

/-- `Env` is met by the definitions of css_ast: the type of each name that `FaithfulName` accepts takes only what the name stands for. -/
theorem C79_types_partial (k : Nat) {name : List Char} (hn : FaithfulName k name = true) {p p' : Parser} {x : Val} {w : List Cursor}
    (hp : p.lexer.source = src) (h : Gives (definitionLeaf k name).parser p (.ok x) p' w) : MeaningAt src k name w :=
  (definitions_env k).reads name hn hp h

/-! ### Examples -/

/-- The declarations of a style sheet: the text of the name, and if the value is typed, the texts of its tokens. -/
def Spec.typedIn (src : List Char) : Option (List (List Char × Option (List (List Char)))) :=
  match (cssStyleSheet realValues).run (Parser.new src) with
  | .ok (.ok rules, _) => some ((declarationsOf rules).map fun d => (text d.name, match d.value with
    | .typed _ x => some (x.cursors.map text)
    | _ => none))
  | _ => none
where
  /-- The text of a token in a source of ASCII characters. -/
  text (c : Cursor) : List Char := (src.drop c.offset).take c.token.len.toNat

/-- Style sheets with typed values: nested, in other case, with comments, with `!important`. -/
example : typedIn c!"@media screen{a{width:1px;b{/**/ COLOR : /**/ rEd /**/ !important}}}" = some
    [(c!"width", some [c!"1px"]), (c!"COLOR", some [c!"rEd"])] := by decide +kernel

/-- Two values of which the second is checked neither in `{1,2}` nor in `?`: CSS has no negative radius. -/
theorem C79_counterexample_radius : typedIn c!"a{border-top-left-radius:1px -1px}" = some [(c!"border-top-left-radius", some [c!"1px", c!"-1px"])] := by decide +kernel
/-- A length that is checked nowhere in `||`: CSS has no negative margin here. -/
theorem C79_counterexample_margin : typedIn c!"a{overflow-clip-margin-top:-1px}" = some [(c!"overflow-clip-margin-top", some [c!"-1px"])] := by decide +kernel
/-- A `<percentage>` is taken to be a number with a fraction. -/
theorem C79_counterexample_percentage : typedIn c!"a{font-width:1.5;font-width:50%}" = some [(c!"font-width", some [c!"1.5"]), (c!"font-width", none)] := by decide +kernel
/-- A `<string>` is taken to be an ident. -/
theorem C79_counterexample_string : typedIn c!"a{hyphenate-character:a;hyphenate-character:'a'}" =
    some [(c!"hyphenate-character", some [c!"a"]), (c!"hyphenate-character", none)] := by decide +kernel
/-- A `<time>` needs no unit if it is 0. -/
theorem C79_counterexample_time : typedIn c!"a{transition-delay:0}" = some [(c!"transition-delay", some [c!"0"])] := by decide +kernel
/-- A name is misspelled. -/
theorem C79_counterexample_word : typedIn c!"a{outline-style:doted;outline-style:dotted}" =
    some [(c!"outline-style", some [c!"doted"]), (c!"outline-style", none)] := by decide +kernel
/-- The width of a line may be negative. -/
theorem C79_counterexample_width : typedIn c!"a{border-top-width:-1px}" = some [(c!"border-top-width", some [c!"-1px"])] := by decide +kernel
/-- Commas may be missing in a color, and hexadecimal colors need no hexadecimal digits. -/
theorem C79_counterexample_color : typedIn c!"a{color:rgb(1,2 3);color:#ggg}" =
    some [(c!"color", some [c!"rgb(", c!"1", c!",", c!"2", c!"3", c!")"]), (c!"color", some [c!"#ggg"])] := by decide +kernel
/-- The parenthesis of a function may be missing, also where the source does not end: in CSS the function goes on to the end of it. -/
theorem C79_counterexample_unclosed : typedIn c!"a{width:fit-content(1px;color:red}" =
    some [(c!"width", some [c!"fit-content(", c!"1px"]), (c!"color", some [c!"red"])] := by decide +kernel

end Hdx

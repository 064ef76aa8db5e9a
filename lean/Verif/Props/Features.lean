/-
Properties C58 (features are written back), C59 (comparison operators).
-/
import Verif.Lemmas.Writes
import Verif.Props.ComponentValues
import Verif.Props.Nth
import Verif.Spec.Comparison

namespace Hdx
open Spec Prog

/-! ### Steps -/

theorem step {α β : Type} {x : Prog α} {f : α → Prog β} {p p' : Parser} {b : β} {w : List Cursor} (h : Gives (x >>= f) p (.ok b) p' w) :
    ∃ a p1 w1 w2, w = w1 ++ w2 ∧ Gives x p (.ok a) p1 w1 ∧ Gives (f a) p1 (.ok b) p' w2 := by
  obtain ⟨a, p1, w1, w2, h1, h2, e⟩ := gives_bind_ok.mp h
  exact ⟨a, p1, w1, w2, e, h1, h2⟩

theorem step_isKind {β : Type} {k : Kind} {f : Cursor → Prog β} {p p' : Parser} {b : β} {w : List Cursor} (h : Gives (tok (isKind k) >>= f) p (.ok b) p' w) :
    ∃ c p1 w2, w = c :: w2 ∧ p.next = .ok (c, p1) ∧ c.token.isKind k = true ∧ Gives (f c) p1 (.ok b) p' w2 := by
  obtain ⟨c, p1, w1, w2, h1, h2, rfl⟩ := gives_bind_ok.mp h
  obtain ⟨hn, rfl, hk⟩ := gives_isKind_ok.mp h1
  exact ⟨c, p1, w2, rfl, hn, hk, h2⟩

theorem step_peek {β : Type} {f : Cursor → Prog β} {p p' : Parser} {b : β} {w : List Cursor} (h : Gives (peek >>= f) p (.ok b) p' w) :
    ∃ c, p.peekNext = .ok c ∧ Gives (f c) p (.ok b) p' w := by
  obtain ⟨c, p1, w1, w2, h1, h2, rfl⟩ := gives_bind_ok.mp h
  obtain ⟨c', hc, e, rfl, rfl⟩ := gives_peek.mp h1
  cases e
  exact ⟨c, hc, h2⟩

theorem step_writes {α β : Type} {x : Prog α} {cur : α → List Cursor} (hx : Writes x cur) {f : α → Prog β} {p p' : Parser} {b : β} {w : List Cursor}
    (h : Gives (x >>= f) p (.ok b) p' w) : ∃ a p1 w2, w = cur a ++ w2 ∧ Gives x p (.ok a) p1 (cur a) ∧ Gives (f a) p1 (.ok b) p' w2 := by
  obtain ⟨a, p1, w1, w2, h1, h2, rfl⟩ := gives_bind_ok.mp h
  have := hx h1
  subst this
  exact ⟨a, p1, w2, rfl, h1, h2⟩

theorem not_fail {α : Type} {d : DiagCode} {c : Cursor} {a : α} {p p' : Parser} {w : List Cursor} : ¬ Gives (fail d c : Prog α) p (.ok a) p' w :=
  fun h => by cases (gives_fail.mp h).1

theorem comparison_writes : Writes comparison Comparison.cursors := by
  intro p p' a w h
  unfold comparison at h
  obtain ⟨c, hc, h⟩ := step_peek h
  cases hch : c.token.char with
  | none => rw [hch] at h; exact absurd h not_fail
  | some ch =>
    rw [hch] at h
    simp only at h
    have single : ∀ {ch : Char} {g : Cursor → Comparison}, (∀ c, (g c).cursors = [c]) → Gives (tok (isDelim ch) >>= fun c => pure (g c)) p (.ok a) p' w →
        w = a.cursors := by
      intro ch g hg h
      obtain ⟨c, p1, w2, rfl, _, h2⟩ := step_writes writes_isDelim h
      obtain ⟨e, rfl, rfl⟩ := gives_pure.mp h2
      cases e
      rw [hg]; rfl
    have double : ∀ {c1 c2 : Char} {g : Cursor → Cursor → Comparison}, (∀ c d, (g c d).cursors = [c, d]) →
        Gives (doubleDelim c1 c2 >>= fun x => match x with | (a, b) => pure (g a b)) p (.ok a) p' w → w = a.cursors := by
      intro c1 c2 g hg h
      obtain ⟨x, p1, w2, rfl, _, h2⟩ := step_writes doubleDelim_writes h
      obtain ⟨e, rfl, rfl⟩ := gives_pure.mp h2
      cases e
      rw [hg]; rfl
    have two : ∀ {c1 c2 : Char} {g : Cursor → Comparison} {g2 : Cursor → Cursor → Comparison}, (∀ c, (g c).cursors = [c]) → (∀ c d, (g2 c d).cursors = [c, d]) →
        Gives (isDoubleDelim c1 c2 c >>= fun b => if b then doubleDelim c1 c2 >>= fun x => match x with | (a, b) => pure (g2 a b)
          else tok (isDelim c1) >>= fun c => pure (g c)) p (.ok a) p' w → w = a.cursors := by
      intro c1 c2 g g2 hg hg2 h
      obtain ⟨b, p1, w1, w2, h1, h2, rfl⟩ := gives_bind_ok.mp h
      obtain ⟨rfl, rfl⟩ := isDoubleDelim_keeps h1
      rcases gives_ite.mp h2 with ⟨_, h3⟩ | ⟨_, h3⟩
      · exact double hg2 h3
      · exact single hg h3
    rcases gives_ite.mp h with ⟨_, h⟩ | ⟨_, h⟩
    · exact single (fun _ => rfl) h
    · rcases gives_ite.mp h with ⟨_, h⟩ | ⟨_, h⟩
      · exact two (fun _ => rfl) (fun _ _ => rfl) h
      · rcases gives_ite.mp h with ⟨_, h⟩ | ⟨_, h⟩
        · exact two (fun _ => rfl) (fun _ _ => rfl) h
        · exact absurd h not_fail

theorem discreteFeature_writes {ν : Type} {name : List Char} {value : Prog ν} {cur : ν → List Cursor} (hv : Writes value cur) :
    Writes (discreteFeature name value) (Feature.cursors cur) := by
  intro p p' a w h
  unfold discreteFeature at h
  replace h := step_isKind h; obtain ⟨o, p1, w1, rfl, _, _, h⟩ := h
  replace h := step_isKind h; obtain ⟨n, p2, w2, rfl, _, _, h⟩ := h
  replace h := step h; obtain ⟨b, p3, w3, w4, rfl, h3, h⟩ := h
  obtain ⟨_, _, e, rfl, rfl⟩ := gives_eqCase.mp h3
  replace h := gives_ite.mp h; rcases h with ⟨_, h⟩ | ⟨_, h⟩
  · exact absurd h not_fail
  · replace h := step_peek h; obtain ⟨c, hc, h⟩ := h
    replace h := gives_ite.mp h; rcases h with ⟨_, h⟩ | ⟨_, h⟩
    · replace h := step_isKind h; obtain ⟨c, p4, w5, rfl, _, _, h⟩ := h
      replace h := step_writes hv h; obtain ⟨v, p5, w6, rfl, _, h⟩ := h
      replace h := step_isKind h; obtain ⟨cl, p6, w7, rfl, _, _, h⟩ := h
      obtain ⟨e, rfl, rfl⟩ := gives_pure.mp h
      cases e; rfl
    · replace h := step_isKind h; obtain ⟨cl, p6, w7, rfl, _, _, h⟩ := h
      obtain ⟨e, rfl, rfl⟩ := gives_pure.mp h
      cases e; rfl

theorem rangedFeature_writes {ν : Type} {names : List (List Char)} {legacy : List Char → Bool} {value : Prog ν} {cur : ν → List Cursor}
    (hv : Writes value cur) : Writes (rangedFeature names legacy value) (Ranged.cursors cur) := by
  intro p p' a w h
  unfold rangedFeature at h
  replace h := step_isKind h; obtain ⟨o, p1, w1, rfl, _, _, h⟩ := h
  replace h := step_peek h; obtain ⟨c, hc, h⟩ := h
  replace h := step h; obtain ⟨nm, p2, w2, w3, rfl, h2, h⟩ := h
  obtain ⟨c', hc', ⟨s, rfl, hn, rfl, hw, hm⟩ | ⟨rfl, rfl, rfl, _⟩⟩ := gives_ifKeyword.mp h2
  · simp only at h
    replace h := step_peek h; obtain ⟨d, hd, h⟩ := h
    replace h := gives_ite.mp h; rcases h with ⟨_, h⟩ | ⟨_, h⟩
    · replace h := step_isKind h; obtain ⟨cl, p4, w5, rfl, _, _, h⟩ := h
      replace h := step_writes hv h; obtain ⟨v, p5, w6, rfl, _, h⟩ := h
      replace h := step_isKind h; obtain ⟨cl, p6, w7, rfl, _, _, h⟩ := h
      obtain ⟨e, rfl, rfl⟩ := gives_pure.mp h
      cases e; rfl
    · replace h := gives_ite.mp h; rcases h with ⟨_, h⟩ | ⟨_, h⟩
      · exact absurd h not_fail
      · replace h := step_writes comparison_writes h; obtain ⟨cm, p4, w5, rfl, _, h⟩ := h
        replace h := step_writes hv h; obtain ⟨v, p5, w6, rfl, _, h⟩ := h
        replace h := step_isKind h; obtain ⟨cl, p6, w7, rfl, _, _, h⟩ := h
        obtain ⟨e, rfl, rfl⟩ := gives_pure.mp h
        cases e; simp [Ranged.cursors]
  · simp only at h
    replace h := step_writes hv h; obtain ⟨v, p5, w6, rfl, _, h⟩ := h
    replace h := step_writes comparison_writes h; obtain ⟨cm, p4, w5, rfl, _, h⟩ := h
    replace h := step_peek h; obtain ⟨c2, hc2, h⟩ := h
    replace h := step h; obtain ⟨nm, p7, w8, w9, rfl, h3, h⟩ := h
    obtain ⟨hn, rfl, hw, hm⟩ := gives_keyword.mp h3
    replace h := gives_ite.mp h; rcases h with ⟨_, h⟩ | ⟨_, h⟩
    · exact absurd h not_fail
    · replace h := step_peek h; obtain ⟨d, hd, h⟩ := h
      replace h := gives_ite.mp h; rcases h with ⟨_, h⟩ | ⟨_, h⟩
      · replace h := step_isKind h; obtain ⟨cl, p6, w7, rfl, _, _, h⟩ := h
        obtain ⟨e, rfl, rfl⟩ := gives_pure.mp h
        cases e; simp [Ranged.cursors]
      · replace h := step_writes comparison_writes h; obtain ⟨rc, p6, w7, rfl, _, h⟩ := h
        replace h := step_writes hv h; obtain ⟨rv, p8, w10, rfl, _, h⟩ := h
        replace h := step_isKind h; obtain ⟨cl, p9, w11, rfl, _, _, h⟩ := h
        obtain ⟨e, rfl, rfl⟩ := gives_pure.mp h
        cases e; simp [Ranged.cursors]

/-! ### C58: features are written back unchanged -/

/-- A boolean feature: `name` is any name, the source any source below 64 KiB (`C34_counterexample`). -/
theorem C58_boolean {name src : List Char} {f : Features} {a : Feature Cursor} {p' : Parser} (hs : byteLen src < 65536)
    (h : (booleanFeature name).run (Parser.newWithFeatures src f) = .ok (.ok a, p')) : WrittenBack src f p' (a.cursors fun c => [c]) :=
  (discreteFeature_writes writes_any).written_back hs h

/-- A discrete feature with any value parser that writes back what it took. -/
theorem C58_discrete {ν : Type} {value : Prog ν} {cur : ν → List Cursor} (hv : Writes value cur) {name src : List Char} {f : Features} {a : Feature ν}
    {p' : Parser} (hs : byteLen src < 65536) (h : (discreteFeature name value).run (Parser.newWithFeatures src f) = .ok (.ok a, p')) :
    WrittenBack src f p' (a.cursors cur) := (discreteFeature_writes hv).written_back hs h

/-- A ranged feature, in all four forms, with any names and any value parser that writes back what it took. -/
theorem C58_ranged {ν : Type} {value : Prog ν} {cur : ν → List Cursor} (hv : Writes value cur) {names : List (List Char)} {legacy : List Char → Bool}
    {src : List Char} {f : Features} {a : Ranged ν} {p' : Parser} (hs : byteLen src < 65536)
    (h : (rangedFeature names legacy value).run (Parser.newWithFeatures src f) = .ok (.ok a, p')) : WrittenBack src f p' (a.cursors cur) :=
  (rangedFeature_writes hv).written_back hs h

/-- The hypotheses are met: `(1px <= width/**/< 2px)` with `width` as the name and dimensions as values. -/
example : ((rangedFeature [c!"width"] (fun _ => false) (tok (isKind .dimension))).run (Parser.new c!"(1px <= width/**/< 2px)")).map
    (fun r => r.1.toOption.map fun a => (a.cursors fun c => [c]).map fun c => (c.token.kind, c.offset))
    = .ok (some [(.leftParen, 0), (.dimension, 1), (.delim, 5), (.delim, 6), (.ident, 8), (.delim, 17), (.dimension, 19), (.rightParen, 22)]) := by
  decide +kernel
example : Writes (tok (isKind .dimension)) (fun c => [c]) := writes_isKind
example : ((booleanFeature c!"grid").run (Parser.new c!"( GRID : 1 )")).map
    (fun r => r.1.toOption.map fun a => (a.cursors fun c => [c]).map fun c => (c.token.kind, c.offset))
    = .ok (some [(.leftParen, 0), (.ident, 2), (.colon, 7), (.number, 9), (.rightParen, 11)]) := by decide +kernel

/-! ### C59: comparison operators -/

theorem peekN_two {p q r : Parser} {c d : Cursor} (h1 : p.next = .ok (c, q)) (h2 : q.next = .ok (d, r)) : p.peekN 2 = .ok d := by
  have := Parser.C32_peek_n 2 p (by decide)
  simp only [Parser.nextN, h1, h2, Except.map] at this
  cases hp : p.peekN 2 with
  | error e => rw [hp] at this; simp at this
  | ok x => rw [hp] at this; simpa using this.symm

/-- The end of the source is none of the characters. -/
theorem eof_char {l : Lexer} {ch : Char} (h : ch ≠ NUL) : (eofOf l).token.char ≠ some ch := by
  have : (eofOf l).token.char = some NUL ∨ (eofOf l).token.char = none := by
    show Token.EOF.char = some NUL ∨ Token.EOF.char = none
    decide
  rcases this with e | e <;> rw [e] <;> simp [Ne.symm h]

theorem delim_not_trivia {c : Cursor} (h : c.token.kind = .delim) : c.token.inSet KindSet.TRIVIA = false := by
  have := kindBits_of_kind (t := c.token) (by rw [h]; decide)
  rw [h] at this
  simp only [Token.inSet, this]
  decide

theorem skipWs_delim {c : Cursor} {cs : List Cursor} (h : c.token.kind = .delim) : skipWs (c :: cs) = c :: cs := by
  simp [skipWs, delim_not_trivia h]

/-- What `peek_next` returns. -/
theorem Ahead.peek_any {src : List Char} {p : Parser} {cs : List Cursor} (h : Ahead src p cs) :
    ∃ c, p.peekNext = .ok c ∧ ((∃ rest, skipWs cs = c :: rest) ∨ skipWs cs = [] ∧ c.token = Token.EOF) := by
  cases hc : skipWs cs with
  | nil => exact ⟨_, h.peek_nil hc, .inr ⟨rfl, rfl⟩⟩
  | cons c rest => exact ⟨c, h.peek hc, .inl ⟨rest, rfl⟩⟩

/-- What `peek_n(2)` returns. -/
theorem Ahead.peek_two {src : List Char} {p : Parser} {cs rest : List Cursor} {c : Cursor} (h : Ahead src p cs) (hc : skipWs cs = c :: rest) :
    ∃ d, p.peekN 2 = .ok d ∧ ((∃ rest', skipWs rest = d :: rest') ∨ skipWs rest = [] ∧ d.token = Token.EOF) := by
  obtain ⟨q, h1, h2⟩ := h.next hc
  cases hd : skipWs rest with
  | cons d rest' =>
    obtain ⟨q', h3, h4⟩ := h2.next hd
    exact ⟨d, peekN_two h1 h3, .inl ⟨rest', rfl⟩⟩
  | nil =>
    have h3 := h2.peek_nil hd
    rw [Parser.C32_peek_next] at h3
    cases hn : q.next with
    | error e => rw [hn] at h3; cases h3
    | ok x =>
      obtain ⟨d, q'⟩ := x
      rw [hn] at h3
      simp only [Except.map, Except.ok.injEq] at h3
      exact ⟨d, peekN_two h1 hn, .inr ⟨rfl, by rw [h3]; rfl⟩⟩

theorem Ahead.isDelim {src : List Char} {p : Parser} {cs rest : List Cursor} {c : Cursor} {ch : Char} (h : Ahead src p cs) (hc : skipWs cs = c :: rest)
    (hs : Sign c ch) : ∃ q, Gives (Prog.tok (Prog.isDelim ch)) p (.ok c) q [c] ∧ Ahead src q rest :=
  h.tok hc (g := fun c => c.token.isKind .delim && c.token.isChar ch) (by simp [(isKind_iff (show Kind.delim ≠ .eof by decide)).mpr hs.1, isChar_iff.mpr hs.2])

theorem isDoubleDelim_gives {src : List Char} {p : Parser} {cs rest : List Cursor} {c : Cursor} {a b : Char} (h : Ahead src p cs) (hc : skipWs cs = c :: rest)
    (ha : c.token.char = some a) (hb : b ≠ NUL) : ∃ r, Gives (isDoubleDelim a b c) p (.ok r) p [] ∧
      (r = true ↔ ∃ d rest', skipWs rest = d :: rest' ∧ d.token.char = some b) := by
  obtain ⟨d, hd, hd'⟩ := h.peek_two hc
  refine ⟨d.token.isChar b, ?_, ?_⟩
  · unfold isDoubleDelim
    rw [if_pos (isChar_iff.mpr ha)]
    exact gives_seq (w1 := []) (w2 := []) (gives_peekN.mpr ⟨d, hd, rfl, rfl, rfl⟩) (gives_pure.mpr ⟨rfl, rfl, rfl⟩)
  · rw [isChar_iff]
    rcases hd' with ⟨rest', e⟩ | ⟨e, he⟩
    · rw [e]
      constructor
      · exact fun h => ⟨d, rest', rfl, h⟩
      · rintro ⟨d', r', e', h⟩; cases e'; exact h
    · constructor
      · intro h
        rw [he] at h
        exact absurd h (eof_char (l := p.lexer) hb)
      · rintro ⟨d', r', e', _⟩; rw [e] at e'; cases e'

theorem tok_any_result {src : List Char} {p : Parser} {cs : List Cursor} (h : Ahead src p cs) {g : Cursor → Bool} :
    ∃ c q, p.next = .ok (c, q) ∧ p.peekNext = .ok c ∧ Gives (Prog.tok fun c => pure (g c)) p (if g c then .ok c else .error ⟨.unexpected, c.span⟩) q [c] := by
  obtain ⟨l', h1, _⟩ := next_stream h.stream
  exact ⟨_, _, h1, peek_of_next h1, gives_tok.mpr ⟨_, h1, rfl, rfl⟩⟩

/-- Two delimiters in a row are taken together. -/
theorem doubleDelim_ok {src : List Char} {p : Parser} {cs rest : List Cursor} {c d : Cursor} {a b : Char} (h : Ahead src p cs)
    (hc : skipWs cs = c :: d :: rest) (ha : Sign c a) (hb : Sign d b) : ∃ q, Gives (doubleDelim a b) p (.ok (c, d)) q [c, d] ∧ Ahead src q rest := by
  obtain ⟨q, h1, h2⟩ := h.tok hc (g := fun c => c.token.isKind .delim) ((isKind_iff (by decide)).mpr ha.1)
  obtain ⟨l', h3, h4, h5, h6⟩ := next_stream (p := { q with skip := KindSet.NONE }) h2.stream
  have hn : d.token.inSet KindSet.NONE = false := by
    have : (KindSet.new []).bits = 0#32 := by decide
    simp [Token.inSet, KindSet.containsBits, KindSet.NONE, this]
  simp only [hn, List.dropWhile_cons_of_neg, Bool.false_eq_true, not_false_eq_true, List.tail_cons] at h4
  have hf : firstOutside q.lexer KindSet.NONE (d :: rest) = d := by simp [firstOutside, hn]
  simp only [hf] at h3
  refine ⟨{ q with lexer := l', trivia := q.trivia ++ List.takeWhile (fun c => c.token.inSet KindSet.NONE) (d :: rest) }, ?_,
    ⟨h4, h2.skip, h5.trans h2.source⟩⟩
  · unfold doubleDelim
    refine gives_seq (w1 := [c]) (w2 := [d]) h1 ?_
    simp only [isChar_iff.mpr ha.2, Bool.not_true, Bool.false_eq_true, if_false]
    refine gives_setSkip.mpr ?_
    refine gives_seq (w1 := [d]) (w2 := []) (gives_result.mpr ⟨.ok d, gives_tok.mpr ⟨d, h3, rfl, ?_⟩, rfl⟩) ?_
    · rw [if_pos ((isKind_iff (by decide)).mpr hb.1)]
    · refine gives_setSkip.mpr ?_
      refine gives_seq (w1 := []) (w2 := []) (gives_ofResult.mpr ⟨rfl, rfl, rfl⟩) ?_
      simp only [isChar_iff.mpr hb.2, Bool.not_true, Bool.false_eq_true, if_false]
      exact gives_pure.mpr ⟨rfl, rfl, rfl⟩

/-- Otherwise there is an error. -/
theorem doubleDelim_error {src : List Char} {p : Parser} {cs rest : List Cursor} {c : Cursor} {a b : Char} (h : Ahead src p cs)
    (hc : skipWs cs = c :: rest) (hno : ¬ (c.token.kind = .delim ∧ ∃ d rest', rest = d :: rest' ∧ Sign d b)) :
    ∃ e q w, Gives (doubleDelim a b) p (.error e) q w := by
  unfold doubleDelim
  obtain ⟨c1, q1, h1, h2, h3⟩ := tok_any_result h (g := fun c => c.token.isKind .delim)
  rw [h.peek hc] at h2
  cases h2
  by_cases hk : c.token.isKind .delim = true
  · simp only [hk, if_true] at h3
    obtain ⟨q2, h4, h5⟩ := h.next hc
    rw [h1] at h4; cases h4
    by_cases ha : c.token.isChar a = true
    · obtain ⟨l', h6, h7, h8, h9⟩ := next_stream (p := { q1 with skip := KindSet.NONE }) h5.stream
      generalize hd : firstOutside ({ q1 with skip := KindSet.NONE } : Parser).lexer ({ q1 with skip := KindSet.NONE } : Parser).skip rest = d at h6
      have hrest : rest = [] ∧ d.token = Token.EOF ∨ ∃ rest', rest = d :: rest' := by
        have hn : ∀ x : Cursor, x.token.inSet KindSet.NONE = false := by
          intro x
          have : (KindSet.new []).bits = 0#32 := by decide
          simp [Token.inSet, KindSet.containsBits, KindSet.NONE, this]
        cases rest with
        | nil => left; refine ⟨rfl, ?_⟩; rw [← hd]; rfl
        | cons x xs => right; refine ⟨xs, ?_⟩; simp [firstOutside, hn] at hd; rw [hd]
      obtain ⟨q2, h6⟩ : ∃ q2, ({ q1 with skip := KindSet.NONE } : Parser).next = .ok (d, q2) := ⟨_, h6⟩
      by_cases hdk : d.token.isKind .delim = true
      · have hdb : d.token.isChar b = false := by
          cases hx : d.token.isChar b with
          | false => rfl
          | true =>
            exfalso
            refine hno ⟨(isKind_iff (by decide)).mp hk, ?_⟩
            rcases hrest with ⟨_, e⟩ | ⟨rest', e⟩
            · rw [e] at hdk; exact absurd hdk (by decide)
            · exact ⟨d, rest', e, (isKind_iff (by decide)).mp hdk, isChar_iff.mp hx⟩
        refine ⟨⟨.other, d.span⟩, { q2 with skip := q1.skip }, [c] ++ ([d] ++ ([] ++ [])), gives_seq h3 ?_⟩
        · simp only [ha, Bool.not_true, Bool.false_eq_true, if_false]
          refine gives_setSkip.mpr (gives_seq (gives_result.mpr ⟨.ok d, gives_tok.mpr ⟨d, h6, rfl, by rw [if_pos hdk]⟩, rfl⟩) ?_)
          refine gives_setSkip.mpr (gives_seq (gives_ofResult.mpr ⟨rfl, rfl, rfl⟩) ?_)
          simp only [hdb, Bool.not_false, if_true]
          exact gives_fail.mpr ⟨rfl, rfl, rfl⟩
      · refine ⟨⟨.unexpected, d.span⟩, { q2 with skip := q1.skip }, [c] ++ ([d] ++ []), gives_seq h3 ?_⟩
        · simp only [ha, Bool.not_true, Bool.false_eq_true, if_false]
          refine gives_setSkip.mpr (gives_seq (gives_result.mpr ⟨.error _, gives_tok.mpr ⟨d, h6, rfl, by rw [if_neg hdk]⟩, rfl⟩) ?_)
          refine gives_setSkip.mpr (gives_bind.mpr (.inr ⟨_, gives_ofResult.mpr ⟨rfl, rfl, rfl⟩, rfl⟩))
    · refine ⟨⟨.other, c.span⟩, q1, [c] ++ [], gives_seq h3 ?_⟩
      simp only [Bool.not_eq_true] at ha
      simp only [ha, Bool.not_false, if_true]
      exact gives_fail.mpr ⟨rfl, rfl, rfl⟩
  · simp only [hk, if_false] at h3
    exact ⟨_, q1, [c], gives_bind.mpr (.inr ⟨_, h3, rfl⟩)⟩

/-- The branch of `comparison` for `<` and `>`. -/
theorem twoWay {src : List Char} {p : Parser} {cs rest : List Cursor} {c : Cursor} {a : Char} {g : Cursor → Comparison} {g2 : Cursor → Cursor → Comparison}
    (h : Ahead src p cs) (hc : skipWs cs = c :: rest) (ha : c.token.char = some a) :
    let x : Prog Comparison := isDoubleDelim a '=' c >>= fun b => if b then doubleDelim a '=' >>= fun x => match x with | (a, b) => pure (g2 a b)
          else tok (isDelim a) >>= fun c => pure (g c)
    (∀ d rest', rest = d :: rest' → Sign c a → Sign d '=' → ∃ q, Gives x p (.ok (g2 c d)) q [c, d] ∧ Ahead src q rest') ∧
    (NoEq rest → Sign c a → ∃ q, Gives x p (.ok (g c)) q [c] ∧ Ahead src q rest) ∧
    ((¬ Sign c a ∨ ¬ NoEq rest ∧ ∀ d rest', rest = d :: rest' → ¬ Sign d '=') → ∃ e q w, Gives x p (.error e) q w) := by
  obtain ⟨r, h1, h2⟩ := isDoubleDelim_gives h hc ha (b := '=') (by decide)
  refine ⟨fun d rest' hd hs hs' => ?_, fun hne hs => ?_, fun hno => ?_⟩
  · have : r = true := h2.mpr ⟨d, rest', by rw [hd, skipWs_delim hs'.1], hs'.2⟩
    subst this
    obtain ⟨q, h3, h4⟩ := doubleDelim_ok h (hd ▸ hc) hs hs'
    refine ⟨q, gives_seq (w1 := []) (w2 := [c, d]) h1 ?_, h4⟩
    rw [if_pos rfl]
    exact gives_seq (w1 := [c, d]) (w2 := []) h3 (gives_pure.mpr ⟨rfl, rfl, rfl⟩)
  · have : r = false := by
      cases r
      · rfl
      · obtain ⟨d, rest', e, hd⟩ := h2.mp rfl
        exact absurd hd (hne d rest' e)
    subst this
    obtain ⟨q, h3, h4⟩ := h.isDelim hc hs
    refine ⟨q, gives_seq (w1 := []) (w2 := [c]) h1 ?_, h4⟩
    rw [if_neg (by simp)]
    exact gives_seq (w1 := [c]) (w2 := []) h3 (gives_pure.mpr ⟨rfl, rfl, rfl⟩)
  · cases r
    · -- no `=` follows
      have hne : NoEq rest := by
        intro d rest' e hd
        exact absurd (h2.mpr ⟨d, rest', e, hd⟩) (by simp)
      have hns : ¬ Sign c a := by
        rcases hno with h | h
        · exact h
        · exact absurd hne h.1
      obtain ⟨c1, q1, h3, h4, h5⟩ := tok_any_result h (g := fun c => c.token.isKind .delim && c.token.isChar a)
      rw [h.peek hc] at h4
      cases h4
      have hf : (c.token.isKind .delim && c.token.isChar a) = false := by
        cases hx : c.token.isKind .delim
        · rfl
        · exact absurd ⟨(isKind_iff (by decide)).mp hx, ha⟩ hns
      rw [hf, if_neg (by simp)] at h5
      refine ⟨⟨.unexpected, c.span⟩, q1, [] ++ [c], gives_seq h1 ?_⟩
      rw [if_neg (by simp)]
      exact gives_bind.mpr (.inr ⟨_, h5, rfl⟩)
    · obtain ⟨e, q, w, h3⟩ := doubleDelim_error (a := a) (b := '=') h hc (by
        rintro ⟨hk, d, rest', e, hd⟩
        rcases hno with h | h
        · exact h ⟨hk, ha⟩
        · exact h.2 d rest' e hd)
      refine ⟨e, q, [] ++ w, gives_seq h1 ?_⟩
      rw [if_pos rfl]
      exact gives_bind.mpr (.inr ⟨_, h3, rfl⟩)

/-- On every token stream: if the next tokens are an operator, that operator is returned, exactly its tokens are taken, and the rest
is left. -/
theorem C59_accepts {src : List Char} {p : Parser} {cs rest ws : List Cursor} {op : Op} (h : Ahead src p cs) (hop : OpAt cs op ws rest) :
    ∃ v q, Gives comparison p (.ok v) q ws ∧ opOf v = op ∧ v.cursors = ws ∧ Ahead src q rest := by
  unfold comparison
  cases hop with
  | eq hc hs =>
    obtain ⟨q, h1, h2⟩ := h.isDelim hc hs
    refine ⟨.equal _, q, gives_of_peek (h.peek hc) ?_, rfl, rfl, h2⟩
    rw [hs.2]
    exact gives_seq (w2 := []) h1 (gives_pure.mpr ⟨rfl, rfl, rfl⟩)
  | le hc hs hs' =>
    obtain ⟨q, h1, h2⟩ := (twoWay (g := .lessThan) (g2 := .lessThanEqual) h hc hs.2).1 _ rest rfl hs hs'
    refine ⟨.lessThanEqual _ _, q, gives_of_peek (h.peek hc) ?_, rfl, rfl, h2⟩
    rw [hs.2]
    exact h1
  | ge hc hs hs' =>
    obtain ⟨q, h1, h2⟩ := (twoWay (g := .greaterThan) (g2 := .greaterThanEqual) h hc hs.2).1 _ rest rfl hs hs'
    refine ⟨.greaterThanEqual _ _, q, gives_of_peek (h.peek hc) ?_, rfl, rfl, h2⟩
    rw [hs.2]
    exact h1
  | lt hc hs hne =>
    obtain ⟨q, h1, h2⟩ := (twoWay (g := .lessThan) (g2 := .lessThanEqual) h hc hs.2).2.1 hne hs
    refine ⟨.lessThan _, q, gives_of_peek (h.peek hc) ?_, rfl, rfl, h2⟩
    rw [hs.2]
    exact h1
  | gt hc hs hne =>
    obtain ⟨q, h1, h2⟩ := (twoWay (g := .greaterThan) (g2 := .greaterThanEqual) h hc hs.2).2.1 hne hs
    refine ⟨.greaterThan _, q, gives_of_peek (h.peek hc) ?_, rfl, rfl, h2⟩
    rw [hs.2]
    exact h1

/-- On every token stream: if the next tokens are no operator (this includes `<` and `=` with whitespace between them), the result is a
diagnostic; there is no panic. -/
theorem C59_rejects {src : List Char} {p : Parser} {cs : List Cursor} (h : Ahead src p cs) (hop : ¬ ∃ op ws rest, OpAt cs op ws rest) :
    ∃ e q w, Gives comparison p (.error e) q w := by
  unfold comparison
  obtain ⟨c, hp, hc⟩ := h.peek_any
  cases hch : c.token.char with
  | none =>
    refine ⟨⟨.unexpected, c.span⟩, p, [], gives_of_peek hp ?_⟩
    rw [hch]
    exact gives_fail.mpr ⟨rfl, rfl, rfl⟩
  | some ch =>
    suffices hs : ∃ e q w, Gives (if ch == '=' then do let c ← tok (isDelim '='); pure (.equal c)
        else if ch == '>' then do
          if ← isDoubleDelim '>' '=' c then do let (a, b) ← doubleDelim '>' '='; pure (.greaterThanEqual a b)
          else do let c ← tok (isDelim '>'); pure (.greaterThan c)
        else if ch == '<' then do
          if ← isDoubleDelim '<' '=' c then do let (a, b) ← doubleDelim '<' '='; pure (.lessThanEqual a b)
          else do let c ← tok (isDelim '<'); pure (.lessThan c)
        else fail .other c : Prog Comparison) p (.error e) q w by
      obtain ⟨e, q, w, h1⟩ := hs
      refine ⟨e, q, w, gives_of_peek hp ?_⟩
      rw [hch]
      exact h1
    have hc' : ch ≠ NUL → ∃ rest, skipWs cs = c :: rest := by
      intro hn
      rcases hc with h | ⟨_, e⟩
      · exact h
      · rw [e] at hch
        exact absurd hch (eof_char (l := p.lexer) hn)
    by_cases h1 : ch = '='
    · subst h1
      obtain ⟨rest, hc⟩ := hc' (by decide)
      obtain ⟨c1, q1, h3, h4, h5⟩ := tok_any_result h (g := fun c => c.token.isKind .delim && c.token.isChar '=')
      rw [h.peek hc] at h4
      cases h4
      have hf : (c.token.isKind .delim && c.token.isChar '=') = false := by
        cases hx : c.token.isKind .delim
        · rfl
        · exact absurd ⟨_, _, _, .eq hc ⟨(isKind_iff (by decide)).mp hx, hch⟩⟩ hop
      rw [hf, if_neg (by simp)] at h5
      refine ⟨⟨.unexpected, c.span⟩, q1, [c], ?_⟩
      rw [if_pos (by decide)]
      exact gives_bind.mpr (.inr ⟨_, h5, rfl⟩)
    · by_cases h2 : ch = '>'
      · subst h2
        obtain ⟨rest, hc⟩ := hc' (by decide)
        rw [if_neg (by decide), if_pos (by decide)]
        refine (twoWay (g := .greaterThan) (g2 := .greaterThanEqual) h hc hch).2.2 ?_
        by_cases hs : Sign c '>'
        · refine .inr ⟨fun hne => hop ⟨_, _, _, .gt hc hs hne⟩, fun d rest' e hd => hop ⟨_, _, _, .ge (e ▸ hc) hs hd⟩⟩
        · exact .inl hs
      · by_cases h3 : ch = '<'
        · subst h3
          obtain ⟨rest, hc⟩ := hc' (by decide)
          rw [if_neg (by decide), if_neg (by decide), if_pos (by decide)]
          refine (twoWay (g := .lessThan) (g2 := .lessThanEqual) h hc hch).2.2 ?_
          by_cases hs : Sign c '<'
          · refine .inr ⟨fun hne => hop ⟨_, _, _, .lt hc hs hne⟩, fun d rest' e hd => hop ⟨_, _, _, .le (e ▸ hc) hs hd⟩⟩
          · exact .inl hs
        · rw [if_neg (by simpa using h1), if_neg (by simpa using h2), if_neg (by simpa using h3)]
          exact ⟨_, p, [], gives_fail.mpr ⟨rfl, rfl, rfl⟩⟩

/-- Non-vacuous: `<=` and `< =`. -/
example : (comparison.run (Parser.new c!" <= 1")).map (fun r => (r.1.toOption.map opOf, r.2.offset)) = .ok (some .le, 3) := by decide +kernel
example : (comparison.run (Parser.new c!"< = 1")).map (fun r => r.1.toOption.map opOf) = .ok none := by decide +kernel
example : (comparison.run (Parser.new c!"> 1")).map (fun r => r.1.toOption.map opOf) = .ok (some .gt) := by decide +kernel

end Hdx

/-
Programs on a known list of tokens.
-/
import Verif.Props.ValueForms
import Verif.Spec.ValueAccepts

namespace Hdx
open Spec Prog

/-- The parser is in `src`, skips whitespace and comments, and the tokens ahead are `ts`. -/
structure On (src : List Char) (p : Parser) (ts : List Cursor) : Prop where
  source : p.lexer.source = src
  skip : p.skip = KindSet.TRIVIA
  stream : ∃ cs, Stream p.lexer cs ∧ solid cs = ts ∧ cs.length + 1 < p.fuel

section
variable {src : List Char} {α β : Type}

theorem On.next {p : Parser} {c : Cursor} {ts : List Cursor} (h : On src p (c :: ts)) : ∃ q, p.next = .ok (c, q) ∧ On src q ts := by
  obtain ⟨hsrc, hskip, cs, hst, hs, hf⟩ := h
  obtain ⟨pre, rest, rfl, h1, h2, h3⟩ := List.filter_eq_cons_iff.mp hs
  have hp : ∀ x ∈ pre, x.token.inSet p.skip = true := fun x hx => by simpa [hskip] using h1 x hx
  have hc : c.token.inSet p.skip = false := by simpa [hskip] using h2
  obtain ⟨l', a, b, c1, _⟩ := next_stream hst
  rw [firstOutside, dropWhile_pre hp hc] at a
  rw [dropWhile_pre hp hc] at b
  refine ⟨_, a, c1.trans hsrc, hskip, rest, b, h3, ?_⟩
  have : ({ p with lexer := l', trivia := p.trivia ++ (pre ++ c :: rest).takeWhile (fun c => c.token.inSet p.skip) } : Parser).fuel = p.fuel := by
    simp only [Parser.fuel, c1]
  rw [this]
  simp at hf
  omega

theorem peekN1_of_next {p q : Parser} {c : Cursor} (h : p.next = .ok (c, q)) : p.peekN 1 = .ok c := by
  have := Parser.C32_peek_n 1 p (by decide)
  simp only [Parser.nextN, h, Except.map] at this
  cases hp : p.peekN 1 with
  | error e => rw [hp] at this; cases this
  | ok x => rw [hp] at this; simpa using this.symm

theorem On.fuel {p : Parser} {ts : List Cursor} (h : On src p ts) : ts.length + 1 < p.fuel := by
  obtain ⟨cs, _, hs, hf⟩ := h.stream
  have := List.length_filter_le (fun c : Cursor => !c.token.inSet KindSet.TRIVIA) cs
  rw [← hs]
  unfold solid
  omega

theorem On.not_end {p : Parser} {c : Cursor} {ts : List Cursor} (h : On src p (c :: ts)) : p.atEnd = false := by
  obtain ⟨cs, hst, hs, _⟩ := h.stream
  rw [Parser.atEnd, hst.at_end]
  cases cs with
  | nil => cases hs
  | cons => rfl

/-- On the tokens `ts` the program succeeds, `ts'` are left, and `P` holds of the result. -/
def Yields (src : List Char) (ts : List Cursor) (x : Prog α) (ts' : List Cursor) (P : α → Prop) : Prop :=
  ∀ ⦃p : Parser⦄, On src p ts → ∃ a q w, Gives x p (.ok a) q w ∧ On src q ts' ∧ P a

/-- The answer of a test on a token of `src`. -/
def Tests (src : List Char) (x : Prog Bool) (b : Bool) : Prop := ∀ ⦃p : Parser⦄, p.lexer.source = src → Gives x p (.ok b) p []

namespace Yields
variable {ts ts1 ts' : List Cursor} {P : α → Prop} {Q : β → Prop}

theorem pure {a : α} (h : P a) : Yields src ts (Pure.pure a) ts P := fun p hp => ⟨a, p, [], gives_pure.mpr ⟨rfl, rfl, rfl⟩, hp, h⟩
theorem bind {x : Prog α} {f : α → Prog β} (hx : Yields src ts x ts1 P) (hf : ∀ a, P a → Yields src ts1 (f a) ts' Q) : Yields src ts (x >>= f) ts' Q := by
  intro p hp
  obtain ⟨a, q, w, h1, h2, h3⟩ := hx hp
  obtain ⟨b, q2, w2, g1, g2, g3⟩ := hf a h3 h2
  exact ⟨b, q2, _, gives_seq h1 g1, g2, g3⟩
theorem mono {x : Prog α} {P' : α → Prop} (h : Yields src ts x ts' P) (hp : ∀ a, P a → P' a) : Yields src ts x ts' P' := fun p hq => by
  obtain ⟨a, q, w, h1, h2, h3⟩ := h hq
  exact ⟨a, q, w, h1, h2, hp _ h3⟩
theorem peek {c : Cursor} {f : Cursor → Prog β} (h : Yields src (c :: ts) (f c) ts' Q) : Yields src (c :: ts) (Prog.peek >>= f) ts' Q := by
  intro p hp
  obtain ⟨q, hq, _⟩ := hp.next
  obtain ⟨b, q2, w2, g1, g2, g3⟩ := h hp
  exact ⟨b, q2, _, gives_of_peek (peek_of_next hq) g1, g2, g3⟩
theorem peekN1 {c : Cursor} {f : Cursor → Prog β} (h : Yields src (c :: ts) (f c) ts' Q) : Yields src (c :: ts) (Prog.peekN 1 >>= f) ts' Q := by
  intro p hp
  obtain ⟨q, hq, _⟩ := hp.next
  obtain ⟨b, q2, w2, g1, g2, g3⟩ := h hp
  exact ⟨b, q2, _, gives_seq (gives_peekN.mpr ⟨_, peekN1_of_next hq, rfl, rfl, rfl⟩) g1, g2, g3⟩
theorem test {x : Prog Bool} {b : Bool} {f : Bool → Prog β} (hx : Tests src x b) (h : Yields src ts (f b) ts' Q) : Yields src ts (x >>= f) ts' Q := by
  intro p hp
  obtain ⟨b, q2, w2, g1, g2, g3⟩ := h hp
  exact ⟨b, q2, _, gives_seq (hx hp.source) g1, g2, g3⟩
theorem take {c : Cursor} (h : P' c) : Yields src (c :: ts) Prog.take ts P' := by
  intro p hp
  obtain ⟨q, hq, ho⟩ := hp.next
  exact ⟨c, q, _, gives_take.mpr ⟨c, hq, rfl, rfl⟩, ho, h⟩
theorem tok {test : Cursor → Prog Bool} {c : Cursor} {P' : Cursor → Prop} (ht : Tests src (test c) true) (h : P' c) : Yields src (c :: ts) (Prog.tok test) ts P' := by
  unfold Prog.tok
  refine peek (Yields.test ht ?_)
  refine bind (take (P' := fun d => d = c) rfl) fun d hd => ?_
  subst hd
  exact pure h
theorem pos {b : Prop} [Decidable b] {x y : Prog α} (hb : b) (h : Yields src ts x ts' P) : Yields src ts (if b then x else y) ts' P := by rw [if_pos hb]; exact h
theorem neg {b : Prop} [Decidable b] {x y : Prog α} (hb : ¬ b) (h : Yields src ts y ts' P) : Yields src ts (if b then x else y) ts' P := by rw [if_neg hb]; exact h
theorem ifPeek_some {test : Cursor → Prog Bool} {body : Prog α} {c : Cursor} (ht : Tests src (test c) true) (h : Yields src (c :: ts) body ts' P) :
    Yields src (c :: ts) (Prog.ifPeek test body) ts' fun o => ∃ a, o = some a ∧ P a := by
  unfold Prog.ifPeek
  exact peek (Yields.test ht (pos rfl (bind h fun a ha => pure ⟨a, rfl, ha⟩)))
theorem ifPeek_none {test : Cursor → Prog Bool} {body : Prog α} {c : Cursor} (ht : Tests src (test c) false) :
    Yields src (c :: ts) (Prog.ifPeek test body) (c :: ts) fun o => o = none := by
  unfold Prog.ifPeek
  exact peek (Yields.test ht (neg (by decide) (pure rfl)))
theorem read {k : Parser → Prog α} (h : ∀ p, ts.length + 1 < p.fuel → Yields src ts (k p) ts' P) : Yields src ts (Prog.read k) ts' P := by
  intro p hp
  obtain ⟨a, q, w, h1, h2, h3⟩ := h p hp.fuel hp
  exact ⟨a, q, w, by simpa [Gives, runLog] using h1, h2, h3⟩
theorem offset {f : Nat → Prog β} (h : ∀ n, Yields src ts (f n) ts' Q) : Yields src ts (Prog.offset >>= f) ts' Q := by
  intro p hp
  obtain ⟨b, q2, w2, g1, g2, g3⟩ := h p.offset hp
  exact ⟨b, q2, _, gives_seq (gives_offset.mpr ⟨rfl, rfl, rfl⟩) g1, g2, g3⟩
theorem atEnd {c : Cursor} {f : Bool → Prog β} (h : Yields src (c :: ts) (f false) ts' Q) : Yields src (c :: ts) (Prog.atEnd >>= f) ts' Q := by
  intro p hp
  obtain ⟨b, q2, w2, g1, g2, g3⟩ := h hp
  exact ⟨b, q2, _, gives_seq (gives_atEnd.mpr ⟨by rw [hp.not_end], rfl, rfl⟩) g1, g2, g3⟩
theorem result {x : Prog α} (h : Yields src ts x ts' P) : Yields src ts (Prog.result x) ts' fun r => ∃ a, r = .ok a ∧ P a := by
  intro p hp
  obtain ⟨a, q, w, h1, h2, h3⟩ := h hp
  exact ⟨.ok a, q, w, gives_result.mpr ⟨_, h1, rfl⟩, h2, a, rfl, h3⟩

end Yields

namespace Tests

theorem pure {b : Bool} : Tests src (Pure.pure b) b := fun p _ => gives_pure.mpr ⟨rfl, rfl, rfl⟩
theorem bind {x : Prog α} {f : α → Prog Bool} {a : α} {b : Bool} (hx : ∀ ⦃p : Parser⦄, p.lexer.source = src → Gives x p (.ok a) p []) (hf : Tests src (f a) b) :
    Tests src (x >>= f) b := fun p hp => by
  have := gives_seq (hx hp) (hf hp)
  simpa using this
theorem kind {k : Kind} {c : Cursor} : Tests src (Prog.isKind k c) (c.token.isKind k) := pure
theorem ite {b : Prop} [Decidable b] {x y : Prog Bool} {r s : Bool} (hx : b → Tests src x r) (hy : ¬ b → Tests src y s) : Tests src (if b then x else y) (if b then r else s) := by
  by_cases h : b
  · rw [if_pos h, if_pos h]; exact hx h
  · rw [if_neg h, if_neg h]; exact hy h
theorem pos {b : Prop} [Decidable b] {x y : Prog Bool} {r : Bool} (h : b) (hx : Tests src x r) : Tests src (if b then x else y) r := by rw [if_pos h]; exact hx
theorem neg {b : Prop} [Decidable b] {x y : Prog Bool} {r : Bool} (h : ¬ b) (hx : Tests src y r) : Tests src (if b then x else y) r := by rw [if_neg h]; exact hx
theorem congr {x : Prog Bool} {r s : Bool} (h : Tests src x r) (e : r = s) : Tests src x s := e ▸ h
theorem same {x : Prog Bool} {r s : Bool} (h : Tests src x r) (h' : Tests src x s) : r = s := by
  have a := h (p := Parser.new src) rfl
  have b := h' (p := Parser.new src) rfl
  unfold Gives at a b
  rw [a] at b
  simpa using b
theorem lower {c : Cursor} {s : List Char} (h : Named src c s) ⦃p : Parser⦄ (hp : p.lexer.source = src) : Gives (Prog.strLower c) p (.ok s) p [] :=
  gives_strLower.mpr ⟨s, by rw [hp]; exact h, rfl, rfl, rfl⟩
theorem eqCase {c : Cursor} {k : List Char} {b : Bool} (h : c.eqIgnoreAsciiCase src k = .ok b) : Tests src (Prog.eqIgnoreAsciiCase c k) b := fun p hp =>
  gives_eqCase.mpr ⟨b, by rw [hp]; exact h, rfl, rfl, rfl⟩

end Tests
end
end Hdx

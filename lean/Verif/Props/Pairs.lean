/-
Property C49: bracket pairs.
-/
import Verif.Spec.Brackets
import Verif.Props.TokenFacts

namespace Hdx
open Spec

/-- A token belongs to a pair exactly when it is a bracket or a function; the pair is that of its own kind of bracket, parentheses for a function. -/
theorem C49_pair (t : Token) (p : PairWise) : t.toPairwise = some p ↔
    t.kind = p.start.kind ∨ t.kind = p.stop.kind ∨ (t.kind = .function ∧ p.start.kind = .leftParen) := by
  unfold Token.toPairwise
  generalize t.kind = k
  revert k p
  intro p k
  cases p <;> cases k <;> decide

/-- The two tokens of a pair are an opening bracket and the closing bracket that mirrors it. -/
theorem C49_mirror (p : PairWise) : Mirror p.start.kind p.stop.kind := by
  cases p
  · exact .paren
  · exact .curly
  · exact .square

/-- Each token of a pair leads back to the pair. -/
theorem C49_back (p : PairWise) : p.start.toPairwise = some p ∧ p.stop.toPairwise = some p := by cases p <;> decide

/-- Two mirroring brackets, whatever source they were lexed from, have the same pair, and two brackets that do not belong together have not. -/
theorem C49_same {o e : Token} : (∃ p, o.kind = p.start.kind ∧ o.toPairwise = some p ∧ e.kind = p.stop.kind ∧ e.toPairwise = some p) ↔ Mirror o.kind e.kind := by
  constructor
  · rintro ⟨p, h1, _, h2, _⟩
    rw [h1, h2]; exact C49_mirror p
  · intro h
    have key : ∀ p : PairWise, o.kind = p.start.kind → e.kind = p.stop.kind →
        ∃ p, o.kind = p.start.kind ∧ o.toPairwise = some p ∧ e.kind = p.stop.kind ∧ e.toPairwise = some p :=
      fun p h1 h2 => ⟨p, h1, (C49_pair o p).mpr (.inl h1), h2, (C49_pair e p).mpr (.inr (.inl h2))⟩
    generalize ho : o.kind = x at h
    generalize he : e.kind = y at h
    cases h
    · rw [← ho, ← he]; exact key .curly (ho.trans (by decide)) (he.trans (by decide))
    · rw [← ho, ← he]; exact key .square (ho.trans (by decide)) (he.trans (by decide))
    · rw [← ho, ← he]; exact key .paren (ho.trans (by decide)) (he.trans (by decide))

example : Token.LEFT_CURLY.toPairwise = some .curly ∧ (Token.newFunction false false false 4#32).toPairwise = some .paren
    ∧ Token.COMMA.toPairwise = none := by decide

end Hdx

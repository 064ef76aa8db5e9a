/-
Specification: the tokens of a part of the source, and how they are split between two receivers.
-/
import Verif.Model.Lexer

namespace Hdx.Spec

/-- `cs` are the cursors the lexer gives, one `advance()` after the other, on the way from the offset of `l` to `off`; none is EOF. -/
inductive LexedUntil : Lexer → List Cursor → Nat → Prop
  | done {l} : LexedUntil l [] l.offset
  | step {l l' t cs off} : l.advance = .ok (t, l') → t.kind ≠ .eof → LexedUntil l' cs off → LexedUntil l (⟨l.offset, t⟩ :: cs) off

/-- Every element of `cs` is in exactly one of `a` and `b`, in order. -/
inductive Dealt {α : Type} : List α → List α → List α → Prop
  | nil : Dealt [] [] []
  | left {a b cs x} : Dealt a b cs → Dealt (x :: a) b (x :: cs)
  | right {a b cs x} : Dealt a b cs → Dealt a (x :: b) (x :: cs)

end Hdx.Spec

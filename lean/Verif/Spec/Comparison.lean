/-
Specification: the comparison operators of media queries (Media Queries Level 4, section 2.4.3): `<`, `<=`, `>`, `>=`, `=`; no whitespace
between the two characters.
-/
import Verif.Spec.AnB
import Verif.Model.Features

namespace Hdx.Spec

inductive Op where
  | lt | le | gt | ge | eq
  deriving DecidableEq, Repr

/-- The cursor is this delimiter. -/
def Sign (c : Cursor) (ch : Char) : Prop := c.token.kind = .delim ∧ c.token.char = some ch

/-- No `=` comes next. -/
def NoEq (cs : List Cursor) : Prop := ∀ c rest, skipWs cs = c :: rest → c.token.char ≠ some '='

/-- `OpAt cs op ws rest`: after trivia, the tokens `cs` begin with the operator `op`, which are the tokens `ws`; `rest` follows. -/
inductive OpAt : List Cursor → Op → List Cursor → List Cursor → Prop
  | eq {cs c rest} : skipWs cs = c :: rest → Sign c '=' → OpAt cs .eq [c] rest
  | le {cs c d rest} : skipWs cs = c :: d :: rest → Sign c '<' → Sign d '=' → OpAt cs .le [c, d] rest
  | ge {cs c d rest} : skipWs cs = c :: d :: rest → Sign c '>' → Sign d '=' → OpAt cs .ge [c, d] rest
  | lt {cs c rest} : skipWs cs = c :: rest → Sign c '<' → NoEq rest → OpAt cs .lt [c] rest
  | gt {cs c rest} : skipWs cs = c :: rest → Sign c '>' → NoEq rest → OpAt cs .gt [c] rest

/-- What a parsed comparison says. -/
def opOf : Comparison → Op
  | .lessThan _ => .lt
  | .greaterThan _ => .gt
  | .greaterThanEqual _ _ => .ge
  | .lessThanEqual _ _ => .le
  | .equal _ => .eq

end Hdx.Spec

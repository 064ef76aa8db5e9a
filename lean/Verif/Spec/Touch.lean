/-
Tokens with nothing between them.
-/
import Verif.Model.Cursor

namespace Hdx.Spec

/-- Where the first token ends, the second begins: there is no whitespace and no comment between them. -/
def Touch (a b : Cursor) : Prop := b.offset = a.offset + a.token.len.toNat

end Hdx.Spec

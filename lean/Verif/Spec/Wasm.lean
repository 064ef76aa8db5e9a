/-
Specification: where the diagnostics of a source may point, and what a list of tokens is that covers a source.
-/
import Verif.Spec.Stream
import Verif.Spec.Limits

namespace Hdx.Spec

/-- The cursor is a token of the source, or its end. -/
def OfSource (src : List Char) (f : Features) (c : Cursor) : Prop :=
  (∃ tokens off, LexedUntil (Lexer.newWithFeatures src f) tokens off ∧ c ∈ tokens) ∨ c = ⟨byteLen src, Token.EOF⟩

/-- The tokens cut the text into pieces: each is as long as one piece, and not empty. -/
inductive Tiles : List Token → List Char → Prop
  | nil : Tiles [] []
  | cons {t ts piece rest} : t.len.toNat = byteLen piece → piece ≠ [] → Tiles ts rest → Tiles (t :: ts) (piece ++ rest)

end Hdx.Spec

/-
Specification: how the text a style sheet is built to is made of the tokens of its source.
-/
import Verif.Model.Sink
import Verif.Spec.Stream
import Verif.Spec.Limits
import Verif.Spec.Separate

namespace Hdx.Spec

/-- What is written for a token of the source: a number is written from its value, with a sign if it had one; a dimension with a unit that is known
from its value and the name of the unit; anything else as it stands in the source. -/
structure PieceOf (fmt : FloatFmt) (src : List Char) (c : Cursor) (text : List Char) : Prop where
  number : c.token.kind = .number → text = if c.token.hasSign then fmt.signed c.token.value else fmt.plain c.token.value
  dimension : c.token.kind = .dimension → c.token.dimensionUnit ≠ .unknown → text = fmt.plain c.token.value ++ c.token.dimensionUnit.str
  verbatim : c.token.kind ≠ .number → (c.token.kind = .dimension → c.token.dimensionUnit = .unknown) →
    ∃ before after, src = before ++ text ++ after ∧ c.offset = byteLen before ∧ c.token.len.toNat = byteLen text

/-- One piece for each token, in the same order. -/
inductive Pieces (fmt : FloatFmt) (src : List Char) : List Cursor → List (List Char) → Prop
  | nil : Pieces fmt src [] []
  | cons {c cs x xs} : PieceOf fmt src c x → Pieces fmt src cs xs → Pieces fmt src (c :: cs) (x :: xs)

/-- The pieces of the tokens one after the other, with a space between two tokens that need one. -/
def spread (needs : Token → Token → Bool) : List Cursor → List (List Char) → List Char
  | c :: d :: cs, x :: xs => x ++ (if needs c.token d.token then [' '] else []) ++ spread needs (d :: cs) xs
  | _, xs => xs.flatten

/-- The pieces are written one after the other, some of them followed by one space. -/
inductive Spaced : List (List Char) → List Char → Prop
  | nil : Spaced [] []
  | next {x xs out} : Spaced xs out → Spaced (x :: xs) (x ++ out)
  | space {x xs out} : Spaced xs out → Spaced (x :: xs) (x ++ ' ' :: out)

/-- Whitespace, a comment, a semicolon, `<!--` or `-->`. -/
def Meaningless (c : Cursor) : Prop :=
  c.token.kind = .whitespace ∨ c.token.kind = .comment ∨ c.token.kind = .semicolon ∨ c.token.kind = .cdcOrCdo

/-- A text up to a number of bytes, and the rest of it. -/
def splitBytes : Nat → List Char → List Char × List Char
  | 0, cs => ([], cs)
  | _, [] => ([], [])
  | n, c :: cs => (c :: (splitBytes (n - c.utf8Size) cs).1, (splitBytes (n - c.utf8Size) cs).2)

/-- A token of the source with its text in the source and what follows it there. -/
def Piece.cut (src : List Char) (c : Cursor) : Piece :=
  ⟨c.token, (splitBytes c.token.len.toNat (splitBytes c.offset src).2).1, (splitBytes c.token.len.toNat (splitBytes c.offset src).2).2⟩

end Hdx.Spec

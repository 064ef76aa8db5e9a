/-
Specification: the table of https://drafts.csswg.org/css-syntax/#serialization, as reproduced in the documentation of
`needs_separator_for` (css_lexer/src/token.rs:847-859), and what a sink writes.
-/
import Verif.Model.Sink

namespace Hdx.Spec

/-- The rows and columns of the table. -/
inductive TokenClass where
  | ident | function | url | badUrl | atKeyword | hashTok | number | percentage | dimension | cdc
  /-- a delim or punctuation character -/
  | chr (c : Char)
  | other
  deriving DecidableEq

open TokenClass

/-- The class of a token, from its public accessors. -/
def classOf (t : Token) : TokenClass :=
  match t.kind with
  | .ident => ident
  | .function => function
  | .url => url
  | .badUrl => badUrl
  | .atKeyword => atKeyword
  | .hash => hashTok
  | .number => number
  | .dimension => if t.dimensionUnit = .percent then percentage else dimension
  | .cdcOrCdo => if t.isCdc then cdc else other
  | _ => match t.char with
    | some c => chr c
    | none => other

/-- The columns marked in each row of the table. -/
def markedColumns : TokenClass → List TokenClass
  | ident => [ident, function, url, badUrl, chr '-', number, percentage, dimension, cdc, chr '(']
  | atKeyword => [ident, function, url, badUrl, chr '-', number, percentage, dimension, cdc]
  | hashTok => [ident, function, url, badUrl, chr '-', number, percentage, dimension, cdc]
  | dimension => [ident, function, url, badUrl, chr '-', number, percentage, dimension, cdc]
  | chr '#' => [ident, function, url, badUrl, chr '-', number, percentage, dimension, cdc]
  | chr '-' => [ident, function, url, badUrl, chr '-', number, percentage, dimension, cdc]
  | number => [ident, function, url, badUrl, number, percentage, dimension, cdc, chr '%']
  | chr '@' => [ident, function, url, badUrl, chr '-', cdc]
  | chr '.' => [number, percentage, dimension]
  | chr '+' => [number, percentage, dimension]
  | chr '/' => [chr '*']
  | _ => []

/-- The table marks the pair. -/
def Marked (a b : TokenClass) : Prop := b ∈ markedColumns a

/-- A numeric token with an explicit sign whose value is not negative. -/
def SignedNotNegative (t : Token) : Prop :=
  (t.kind = .number ∨ t.kind = .dimension) ∧ t.hasSign = true ∧ Token.f32LtZero t.value = false

/-- The rows that end like a name. -/
def NameRow (t : TokenClass) : Prop := t = ident ∨ t = atKeyword ∨ t = hashTok ∨ t = dimension

end Hdx.Spec

namespace Hdx.Spec
/-- The strings a sink should write for `cs`: those of each cursor, in order, and a single space between two neighbours for which
`needs` holds. -/
def joined (needs : Token → Token → Bool) (text : Cursor → List (List Char)) : List Cursor → List (List Char)
  | [] => []
  | [c] => text c
  | c :: d :: cs => text c ++ (if needs c.token d.token then [[' ']] else []) ++ joined needs text (d :: cs)
end Hdx.Spec

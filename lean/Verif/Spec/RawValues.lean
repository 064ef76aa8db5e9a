/-
Values that are kept as they are written: custom properties, unknown properties, values with `var()` and the like.
-/
import Verif.Spec.Brackets

namespace Hdx.Spec

/-- The kinds of tokens that are values of their own. -/
def valueKinds : List Kind := [.number, .dimension, .ident, .atKeyword, .hash, .string, .url, .delim, .colon, .semicolon, .comma]

/-- A sequence of tokens without whitespace and comments in which every bracket has its mirror, and no `;` is outside brackets. -/
inductive RawTokens : List Cursor → Prop
  | nil : RawTokens []
  | single {c : Cursor} {cs : List Cursor} : c.token.kind ∈ valueKinds → c.token.kind ≠ .semicolon → RawTokens cs → RawTokens (c :: cs)
  | block {o e : Cursor} {inner cs : List Cursor} : Mirror o.token.kind e.token.kind → Balanced inner → RawTokens cs → RawTokens (o :: (inner ++ e :: cs))
  | function {f e : Cursor} {inner cs : List Cursor} : f.token.kind = .function → e.token.kind = .rightParen → Balanced inner → RawTokens cs → RawTokens (f :: (inner ++ e :: cs))

/-- The values are those of the tokens, with some whitespace between them. -/
inductive ReadsAs : List Cursor → List ComponentValue → Prop
  | nil : ReadsAs [] []
  | space {c : Cursor} {ts : List Cursor} {vs : List ComponentValue} : c.token.kind = .whitespace → ReadsAs ts vs → ReadsAs ts (.token c :: vs)
  | single {c : Cursor} {ts : List Cursor} {vs : List ComponentValue} : c.token.kind ∈ valueKinds → ReadsAs ts vs → ReadsAs (c :: ts) (.token c :: vs)
  | block {o e : Cursor} {start : Nat} {inner ts : List Cursor} {as vs : List ComponentValue} : Mirror o.token.kind e.token.kind → ReadsAs inner as → ReadsAs ts vs →
      ReadsAs (o :: (inner ++ e :: ts)) (.simpleBlock start o.token as (some e.token) :: vs)
  | function {f e : Cursor} {inner ts : List Cursor} {as vs : List ComponentValue} : f.token.kind = .function → e.token.kind = .rightParen → ReadsAs inner as → ReadsAs ts vs →
      ReadsAs (f :: (inner ++ e :: ts)) (.function f as (some e) :: vs)

end Hdx.Spec

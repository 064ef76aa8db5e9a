/-
Specification: well-bracketed token sequences and trees.
-/
import Verif.Model.Grammar

namespace Hdx.Spec

/-- An opening bracket and the closing bracket of its own kind. -/
inductive Mirror : Kind → Kind → Prop
  | curly : Mirror .leftCurly .rightCurly
  | square : Mirror .leftSquare .rightSquare
  | paren : Mirror .leftParen .rightParen

/-- The kinds of tokens that stand for themselves in a component value list: all but brackets, functions, `<!--`, `-->`, EOF and the
two kinds of bad tokens. -/
def singles : List Kind :=
  [.whitespace, .comment, .number, .dimension, .ident, .atKeyword, .hash, .string, .url, .delim, .colon, .semicolon, .comma]

/-- Well-bracketed sequences of tokens, nested to any depth. -/
inductive Balanced : List Cursor → Prop
  | nil : Balanced []
  | single {c cs} : c.token.kind ∈ singles → Balanced cs → Balanced (c :: cs)
  | block {o inner e cs} : Mirror o.token.kind e.token.kind → Balanced inner → Balanced cs → Balanced (o :: (inner ++ e :: cs))
  | function {f inner e cs} : f.token.kind = .function → e.token.kind = .rightParen → Balanced inner → Balanced cs →
      Balanced (f :: (inner ++ e :: cs))

/-- Every block in a tree is closed by the bracket that mirrors its opening bracket, every function by `)`. -/
inductive Matched : ComponentValue → Prop
  | token {c} : Matched (.token c)
  | block {s o vs e} : Mirror o.kind e.kind → (∀ v ∈ vs, Matched v) → Matched (.simpleBlock s o vs (some e))
  | function {f vs e} : f.token.kind = .function → e.token.kind = .rightParen → (∀ v ∈ vs, Matched v) → Matched (.function f vs (some e))

/-- Whitespace and comments. -/
def IsTrivia (c : Cursor) : Prop := c.token.kind = .whitespace ∨ c.token.kind = .comment

end Hdx.Spec

/-
What form the value of a declaration takes: a CSS-wide keyword, a custom property, a computed value, a value of the grammar of the property, or
unknown tokens.
-/
import Verif.Spec.RuleLabels

namespace Hdx.Spec

variable {τ : Type}

/-- https://drafts.csswg.org/css-cascade-5/#defaulting-keywords -/
def wideWords : List (List Char) := [c!"initial", c!"inherit", c!"unset", c!"revert", c!"revert-layer"]

/-- `var()` (https://drafts.csswg.org/css-variables-2/#using-variables) and the math functions (https://drafts.csswg.org/css-values-4/#math), without
`acos()`, which hdx does not list. -/
def computing : List (List Char) := [c!"var", c!"calc", c!"min", c!"max", c!"clamp", c!"round", c!"mod", c!"rem", c!"sin", c!"cos", c!"tan", c!"asin", c!"atan",
  c!"atan2", c!"pow", c!"sqrt", c!"hypot", c!"log", c!"exp", c!"abs", c!"sign"]

/-- The token is the CSS-wide keyword `k`, in any case. -/
def IsWide (src : List Char) (k : List Char) (c : Cursor) : Prop := KeywordLabel src wideWords (k, c)
/-- The token opens `var()` or a math function. -/
def Computes (src : List Char) (c : Cursor) : Prop := IsKind .function c ∧ ∃ k ∈ computing, Named src c k

/-- What may follow the value of a property: the end of the source, or (behind blanks and comments) a `}`, a `;` or a `!`. -/
def MayEnd (p : Parser) : Prop := p.atEnd = true ∨ ∀ c q, p.next = .ok (c, q) → IsKind .rightCurly c ∨ IsKind .semicolon c ∨ IsDelim '!' c

/-- Parsed at `p`, the value of the property with this name is `x`, of the grammar of the property `n`, and ends at `p'`. -/
def HasValue (V : Values τ) (name : Cursor) (p : Parser) (n : List Char) (x : τ) (p' : Parser) : Prop :=
  n ∈ V.names ∧ IsKind .ident name ∧ Named p.lexer.source name n ∧ (V.parser n).run p = .ok (.ok x, p') ∧ MayEnd p'

/-- Where the grammar of the property stops at `p`, well or not, the next token opens `var()` or a math function. -/
def ComputesLater (V : Values τ) (name : Cursor) (p : Parser) : Prop := ∃ n ∈ V.names, IsKind .ident name ∧ Named p.lexer.source name n ∧
  ∃ r p1 c q, (V.parser n).run p = .ok (r, p1) ∧ p1.next = .ok (c, q) ∧ Computes p.lexer.source c

/-- The form of the value of a declaration of this name that is parsed at `p`, where `c` is the next token, and ends at `p'`. Whether a name begins with two
dashes is the subject of C11. -/
def FormAt (V : Values τ) (name : Cursor) (p : Parser) (c : Cursor) (p' : Parser) : StyleValue τ → Prop
  | .custom _ => name.token.isDashedIdent = true
  | .wide k c' => name.token.isDashedIdent = false ∧ IsWide p.lexer.source k c ∧ c' = c
  | .computed _ => name.token.isDashedIdent = false ∧ (∀ k, ¬ IsWide p.lexer.source k c) ∧
    (Computes p.lexer.source c ∨ ((∀ n x p1, ¬ HasValue V name p n x p1) ∧ ComputesLater V name p))
  | .typed n x => name.token.isDashedIdent = false ∧ (∀ k, ¬ IsWide p.lexer.source k c) ∧ ¬ Computes p.lexer.source c ∧ HasValue V name p n x p'
  | .unknown _ => name.token.isDashedIdent = false ∧ (∀ k, ¬ IsWide p.lexer.source k c) ∧ ¬ Computes p.lexer.source c ∧
    (∀ n x p1, ¬ HasValue V name p n x p1) ∧ ¬ ComputesLater V name p

/-- The token that a value begins with. -/
def leadOf : List ComponentValue → Option Cursor
  | .token c :: _ => some c
  | .function f _ _ :: _ => some f
  | .simpleBlock start t _ _ :: _ => some ⟨start, t⟩
  | [] => none

/-- The form of the value of a declaration, by the tokens in it. -/
def FormOf (src : List Char) (V : Values τ) (d : Decl (StyleValue τ)) : Prop :=
  match d.value with
  | .custom _ => d.name.token.isDashedIdent = true
  | .wide k c => d.name.token.isDashedIdent = false ∧ IsWide src k c
  | .computed vs => d.name.token.isDashedIdent = false ∧ ∀ c ∈ leadOf vs, ∀ k, ¬ IsWide src k c
  | .typed n _ => d.name.token.isDashedIdent = false ∧ n ∈ V.names ∧ IsKind .ident d.name ∧ Named src d.name n
  | .unknown vs => d.name.token.isDashedIdent = false ∧ ∀ c ∈ leadOf vs, (∀ k, ¬ IsWide src k c) ∧ ¬ Computes src c

end Hdx.Spec

/-
Specification: which sequences of tokens a tree of rules stands for.

`isBracket`/`strip` forget the position of brackets (the tree does not keep it, see C39). The relations below do not mention the parser: they
are read off the syntax diagrams in css_parse/src/traits/block.rs:8-14 and css_parse/src/syntax/at_rule.rs:10-14.
-/
import Verif.Model.Rules
import Verif.Props.Grammar

namespace Hdx.Spec
open Hdx

/-- The tokens of a list of component values. -/
def valuesText (vs : List ComponentValue) : List Cursor := (ComponentValue.cursorsOf vs).map strip
/-- The tokens of a declaration: name, colon, value, `!important`. -/
def declarationText (d : Declaration) : List Cursor :=
  [strip d.name, strip d.colon] ++ valuesText d.value ++ (match d.important with | some b => [strip b.bang, strip b.important] | none => [])

/-- A token that may be left out of a block: whitespace or a semicolon. -/
def Blank (c : Cursor) : Prop := c.token.kind = .whitespace ∨ c.token.kind = .semicolon
/-- A token that may be left out between the rules of a style sheet: whitespace, `<!--`, `-->`. -/
def SheetBlank (c : Cursor) : Prop := c.token.kind = .whitespace ∨ c.token.kind = .cdcOrCdo

/-- The parts of a declaration that are single tokens are of the right kind; `!important` is `!` and an identifier. -/
structure DeclarationKinds (d : Declaration) (semi : Option Cursor) : Prop where
  name : d.name.token.kind = .ident
  colon : d.colon.token.kind = .colon
  important : ∀ b ∈ d.important, b.bang.token.kind = .delim ∧ b.bang.token.isChar '!' = true ∧ b.important.token.kind = .ident
  semicolon : ∀ c ∈ semi, c.token.kind = .semicolon

/-- An opening and, unless the source ends before it, a closing curly bracket. -/
def Curlies (opening : Cursor) (close : Option Cursor) : Prop := opening.token.kind = .leftCurly ∧ ∀ c ∈ close, c.token.kind = .rightCurly

/-- At most one semicolon. -/
def Semicolon (extra : List Cursor) : Prop := extra = [] ∨ ∃ c, extra = [c] ∧ c.token.kind = .semicolon

mutual
/-- The rule stands for the tokens. -/
inductive RuleText : Rule → List Cursor → Prop
  | qualified {pre start opening ds rs close body} : BodyText ds rs body → Curlies opening close →
      RuleText (.qualified pre start opening ds rs close) (valuesText pre ++ [strip opening] ++ body ++ close.toList.map strip)
  /-- one semicolon after the block of an at-rule is not kept -/
  | atBlock {name pre start opening ds rs close body extra} : BodyText ds rs body → Curlies opening close → name.token.kind = .atKeyword →
      Semicolon extra → RuleText (.atBlock name pre start opening ds rs close)
        ([name] ++ (pre.map valuesText).getD [] ++ [strip opening] ++ body ++ close.toList.map strip ++ extra)
  /-- a second semicolon after an at-rule without a block is not kept -/
  | atStatement {name pre semi extra} : name.token.kind = .atKeyword → (∀ c ∈ semi, c.token.kind = .semicolon) → Semicolon extra →
      RuleText (.atStatement name pre semi) ([name] ++ (pre.map valuesText).getD [] ++ semi.toList ++ extra)
/-- Declarations, rules and blanks in any order: the declarations (each with the semicolon kept for it) and the rules. -/
inductive BodyText : List (Declaration × Option Cursor) → List Rule → List Cursor → Prop
  | nil : BodyText [] [] []
  | blank {ds rs c body} : Blank c → BodyText ds rs body → BodyText ds rs (c :: body)
  | declaration {d semi ds rs body} : DeclarationKinds d semi → BodyText ds rs body →
      BodyText ((d, semi) :: ds) rs (declarationText d ++ semi.toList ++ body)
  | rule {r t ds rs body} : RuleText r t → BodyText ds rs body → BodyText ds (r :: rs) (t ++ body)
end

/-- The rules stand for the tokens of a style sheet. -/
inductive SheetText : List Rule → List Cursor → Prop
  | nil : SheetText [] []
  | blank {rs c ts} : SheetBlank c → SheetText rs ts → SheetText rs (c :: ts)
  | rule {r t rs ts} : RuleText r t → SheetText rs ts → SheetText (r :: rs) (t ++ ts)

end Hdx.Spec

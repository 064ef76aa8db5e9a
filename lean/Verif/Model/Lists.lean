/-
The list traits of css_parse (css_parse/src/traits/lists) and the trait for declarations (css_parse/src/traits/declaration.rs), for any
item.
-/
import Verif.Model.Rules

namespace Hdx
open Prog

/-- The result of `parse_rule_list`, `parse_at_rule_list`, `parse_qualified_rule_list` and `parse_declaration_list`. -/
structure ListBlock (ρ : Type) where
  opening : Cursor
  items : List ρ
  close : Option Cursor
  deriving DecidableEq, Repr

/-- css_parse/src/traits/lists/rule_list.rs:35-44, at_rule_list.rs:27-36 and qualified_rule_list.rs:28-37: the loops of `parse_rule_list`,
`parse_at_rule_list` and `parse_qualified_rule_list` (their texts are the same). The semicolon is parsed and dropped. -/
def ruleListLoop {ρ : Type} (item : Prog ρ) : Nat → List ρ → Prog (List ρ × Option Cursor)
  | 0, _ => .panic .diverges
  | n + 1, items => do
    let _ ← result (ifPeek (isKind .semicolon) (tok (isKind .semicolon)))
    if ← atEnd then pure (items, none)
    else
      let c ← peek
      if c.token.isKind .rightCurly then do
        let close ← tok (isKind .rightCurly)
        pure (items, some close)
      else do
        let r ← item
        ruleListLoop item n (items ++ [r])

/-- css_parse/src/traits/lists/rule_list.rs:32-45 `parse_rule_list`, at_rule_list.rs:24-37 `parse_at_rule_list`,
qualified_rule_list.rs:23-38 `parse_qualified_rule_list`. -/
def ruleList {ρ : Type} (item : Prog ρ) (fuel : Nat) : Prog (ListBlock ρ) := do
  let opening ← tok (isKind .leftCurly)
  let (items, close) ← ruleListLoop item fuel []
  pure ⟨opening, items, close⟩

/-- css_parse/src/traits/lists/declaration_list.rs:28-38: the loop of `parse_declaration_list`. -/
def declarationListLoop {δ : Type} (item : Prog δ) : Nat → List (δ × Option Cursor) → Prog (List (δ × Option Cursor) × Option Cursor)
  | 0, _ => .panic .diverges
  | n + 1, items => do
    if ← atEnd then pure (items, none)
    else
      let c ← peek
      if c.token.isKind .rightCurly then do
        let close ← tok (isKind .rightCurly)
        pure (items, some close)
      else do
        let d ← item
        let semi ← ifPeek (isKind .semicolon) (tok (isKind .semicolon))
        declarationListLoop item n (items ++ [(d, semi)])

/-- css_parse/src/traits/lists/declaration_list.rs:23-39 `parse_declaration_list`. -/
def declarationList {δ : Type} (item : Prog δ) (fuel : Nat) : Prog (ListBlock (δ × Option Cursor)) := do
  let opening ← tok (isKind .leftCurly)
  let (items, close) ← declarationListLoop item fuel []
  pure ⟨opening, items, close⟩

/-- css_parse/src/traits/lists/declaration_rule_list.rs:33-50: the loop of `parse_declaration_rule_list`. -/
def declarationRuleListLoop {δ ρ : Type} (decl : Prog δ) (rule : Prog ρ) :
    Nat → List (δ × Option Cursor) → List ρ → Prog ((List (δ × Option Cursor) × List ρ) × Option Cursor)
  | 0, _, _ => .panic .diverges
  | n + 1, ds, rs => do
    if ← atEnd then pure ((ds, rs), none)
    else
      let c ← peek
      if c.token.isKind .rightCurly then do
        let close ← tok (isKind .rightCurly)
        pure ((ds, rs), some close)
      else if c.token.isKind .atKeyword then do
        let r ← rule
        declarationRuleListLoop decl rule n ds (rs ++ [r])
      else if c.token.isKind .ident then do
        let d ← decl
        let semi ← ifPeek (isKind .semicolon) (tok (isKind .semicolon))
        declarationRuleListLoop decl rule n (ds ++ [(d, semi)]) rs
      else do
        let c ← peekN 1
        fail .unexpected c

/-- css_parse/src/traits/lists/declaration_rule_list.rs:27-51 `parse_declaration_rule_list`. -/
def declarationRuleList {δ ρ : Type} (decl : Prog δ) (rule : Prog ρ) (fuel : Nat) : Prog (BlockParts δ ρ) := do
  let opening ← tok (isKind .leftCurly)
  let ((ds, rs), close) ← declarationRuleListLoop decl rule fuel [] []
  pure ⟨opening, ds, rs, close⟩

/-- css_parse/src/traits/lists/comma_separated_prelude_list.rs:29-36: the loop of `parse_prelude_list`. -/
def commaPreludeLoop {α : Type} (item : Prog α) : Nat → List (α × Option Cursor) → Prog (List (α × Option Cursor))
  | 0, _ => .panic .diverges
  | n + 1, items => do
    let a ← item
    let comma ← ifPeek (isKind .comma) (tok (isKind .comma))
    let c ← peek
    if c.token.inSet KindSet.LEFT_CURLY_OR_SEMICOLON then pure (items ++ [(a, comma)])
    else commaPreludeLoop item n (items ++ [(a, comma)])

/-- css_parse/src/traits/lists/comma_separated_prelude_list.rs:27-37 `parse_prelude_list`. -/
def commaPrelude {α : Type} (item : Prog α) (fuel : Nat) : Prog (List (α × Option Cursor)) := commaPreludeLoop item fuel []

/-- css_parse/src/traits/lists/prelude_list.rs:11-16: the loop of `parse_prelude_list`. -/
def preludeLoop {α : Type} (item : Prog α) : Nat → List α → Prog (List α)
  | 0, _ => .panic .diverges
  | n + 1, items => do
    let a ← item
    let c ← peek
    if c.token.inSet KindSet.LEFT_CURLY_OR_SEMICOLON then pure (items ++ [a])
    else preludeLoop item n (items ++ [a])

/-- css_parse/src/traits/lists/prelude_list.rs:9-17 `parse_prelude_list`. -/
def preludeList {α : Type} (item : Prog α) (fuel : Nat) : Prog (List α) := preludeLoop item fuel []

/-- css_parse/src/traits/rules/no_prelude_allowed.rs:9-18 `Parse for NoPreludeAllowed`. -/
def noPrelude : Prog Unit := do
  let c ← peek
  if c.token.isKind .leftCurly || c.token.isKind .semicolon then pure ()
  else fail .unexpected c

/-- The result of css_parse/src/traits/declaration.rs:39-51 `parse_declaration`, for any value: css_ast/src/properties/mod.rs:100-105
`Property`, css_ast/src/rules/font_face.rs:89-94 `FontFaceRuleProperty`. -/
structure Decl (ν : Type) where
  name : Cursor
  colon : Cursor
  value : ν
  important : Option BangImportant
  deriving DecidableEq, Repr

/-- css_parse/src/traits/declaration.rs:39-51 `parse_declaration`, for any value; `valid` is `valid_property`. -/
def declarationOf {ν : Type} (valid : Cursor → Prog Bool) (value : Cursor → Prog ν) : Prog (Decl ν) := do
  let name ← tok (isKind .ident)
  let ok ← valid name
  if !ok then fail .other name
  else
    let colon ← tok (isKind .colon)
    let v ← value name
    let important ← ifPeek isBangImportant bangImportant
    pure ⟨name, colon, v, important⟩

/-! ### `ToCursors` -/

/-- The cursors of a list of items. -/
def itemsCursors {ρ : Type} (cur : ρ → List Cursor) : List ρ → List Cursor
  | [] => []
  | r :: rs => cur r ++ itemsCursors cur rs

/-- Items with an optional token after each: css_ast/src/stylerule.rs:89-94, css_ast/src/rules/layer.rs:77-82, page.rs:76-81, ... -/
def pairsCursors {α : Type} (cur : α → List Cursor) : List (α × Option Cursor) → List Cursor
  | [] => []
  | (a, t) :: as => cur a ++ t.toList ++ pairsCursors cur as

/-- css_ast/src/rules/font_face.rs:66-76, keyframes.rs:114-124, ...: `{`, the items, `}`. -/
def ListBlock.cursors {ρ : Type} (cur : ρ → List Cursor) (b : ListBlock ρ) : List Cursor :=
  b.opening :: (itemsCursors cur b.items ++ b.close.toList)

/-- css_ast/src/rules/keyframes.rs:222-235, property.rs:77-90, ...: the same with a list of pairs. -/
def ListBlock.pairCursors {δ : Type} (cur : δ → List Cursor) (b : ListBlock (δ × Option Cursor)) : List Cursor :=
  b.opening :: (pairsCursors cur b.items ++ b.close.toList)

/-- css_ast/src/properties/mod.rs:124-133, css_ast/src/rules/font_face.rs:127-136: `ToCursors` of a declaration; `cur` writes the value. -/
def Decl.cursors {ν : Type} (cur : ν → List Cursor) (d : Decl ν) : List Cursor :=
  d.name :: d.colon :: (cur d.value ++ (d.important.map BangImportant.cursors).getD [])

end Hdx

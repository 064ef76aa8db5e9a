/-
The generic grammar of css_parse: declarations, blocks, rules, style sheets, and the list traits.
-/
import Verif.Model.Grammar

namespace Hdx
open Prog

/-- css_parse/src/syntax/bang_important.rs:27-30 `BangImportant`. -/
structure BangImportant where
  bang : Cursor
  important : Cursor
  deriving DecidableEq, Repr

/-- css_parse/src/syntax/bang_important.rs:32-41 `Peek for BangImportant`. -/
def isBangImportant (c : Cursor) : Prog Bool :=
  if c.token.isKind .delim && c.token.isChar '!' then
    ask fun p => match p.peekN 2 with
      | .error e => .error e
      | .ok c => if c.token.isKind .ident then c.eqIgnoreAsciiCase p.lexer.source "important".toList else .ok false
  else pure false

/-- css_parse/src/parser.rs:167-169 `eq_ignore_ascii_case`. -/
def Prog.eqIgnoreAsciiCase (c : Cursor) (other : List Char) : Prog Bool := ask fun p => c.eqIgnoreAsciiCase p.lexer.source other

/-- css_parse/src/syntax/bang_important.rs:43-52 `Parse for BangImportant`. -/
def bangImportant : Prog BangImportant := do
  let bang ← tok (isDelim '!')
  let important ← tok (isKind .ident)
  if ← Prog.eqIgnoreAsciiCase important "important".toList then pure ⟨bang, important⟩
  else fail .expectedIdent important

/-- css_parse/src/syntax/declaration.rs:11-16 `Declaration`. -/
structure Declaration where
  name : Cursor
  colon : Cursor
  value : List ComponentValue
  important : Option BangImportant
  deriving Repr

/-- css_parse/src/syntax/declaration.rs:22-26 `Peek for Declaration`. -/
def isDeclaration (c : Cursor) : Prog Bool :=
  if c.token.isKind .ident then do
    let c ← peekN 2
    pure (c.token.isKind .colon)
  else pure false

/-- css_parse/src/traits/declaration.rs:42-56 `parse_declaration`, with `ComponentValues` as the value and every name valid;
css_parse/src/syntax/declaration.rs:28-33 `Parse for Declaration`. -/
def declaration (fuel : Nat) : Prog Declaration := do
  let name ← tok (isKind .ident)
  let colon ← tok (isKind .colon)
  let value ← componentValues fuel
  let important ← ifPeek isBangImportant bangImportant
  pure ⟨name, colon, value, important⟩

/-- css_parse/src/syntax/bad_declaration.rs:12-44 `Parse for BadDeclaration`: its loop. -/
def badDeclarationLoop (item : Prog ComponentValue) : Nat → List ComponentValue → Prog (List ComponentValue)
  | 0, _ => .panic .diverges
  | n + 1, values => do
    if ← atEnd then pure values
    else
      let c ← peek
      if c.token.isKind .semicolon then do
        let v ← item
        pure (values ++ [v])
      else if c.token.isKind .rightCurly then do
        if ← isNested then pure values
        else
          let _ ← tok (isKind .rightCurly)
          let v ← item
          badDeclarationLoop item n (values ++ [v])
      else do
        let v ← item
        badDeclarationLoop item n (values ++ [v])

/-- css_parse/src/syntax/bad_declaration.rs:12-44 `Parse for BadDeclaration`. -/
def badDeclaration (fuel : Nat) : Prog (List ComponentValue) := badDeclarationLoop (componentValue fuel) fuel []

/-- What the `QualifiedRule` parser found after its first look at the input. -/
inductive Lead where
  | other | dashed | dashedColonNested | dashedColon
  deriving DecidableEq, Repr

/-- css_parse/src/token_macros.rs `Peek for DashedIdent`. -/
def isDashed (c : Cursor) : Bool := c.token.isKind .ident && c.token.isDashedIdent

/-- css_parse/src/traits/rules/qualified_rule.rs:45-65: between `checkpoint` and `rewind`. -/
def qualifiedLead : Prog Lead := do
  let c ← peek
  if isDashed c then do
    let _ ← result (tok fun c => pure (isDashed c))
    let c ← peek
    if c.token.isKind .colon then do
      if ← isNested then pure .dashedColonNested else pure .dashedColon
    else pure .dashed
  else pure .other

/-- css_parse/src/traits/rules/qualified_rule.rs:25-79 `parse_qualified_rule`, for any prelude, block and bad declaration. The
checkpoint is taken at qualified_rule.rs:46; the code rewinds in the cases `dashed` and `dashedColonNested`. -/
def qualifiedRule {α β γ : Type} (prelude : Prog α) (block : Prog β) (bad : Prog γ) : Prog (α × β) := do
  if ← atEnd then
    ofResult (.error ⟨.unexpectedEnd, ⟨DUMMY, DUMMY⟩⟩)
  else
    let nested ← isNested
    let c ← peek
    if nested && c.token.isKind .rightCurly then do
      let c ← peekN 1
      fail .unexpectedCloseCurly c
    else do
      let checkpoint ← ask fun p => .ok p.checkpoint
      attempt qualifiedLead (fun r => r == .ok .dashedColon || r == .ok .other) fun lead => do
        match ← ofResult lead with
        | .dashedColonNested => do
          let _ ← bad
          fail .badDeclaration checkpoint.cursor
        | .dashedColon => do
          let _ ← result block
          fail .badDeclaration checkpoint.cursor
        | _ =>
          setStop (KindSet.new [.leftCurly]) fun old => do
            let prelude ← result prelude
            setStop old fun _ => do
              let prelude ← ofResult prelude
              let block ← block
              pure (prelude, block)

/-- css_parse/src/traits/rules/at_rule.rs:90-106 `parse_at_rule`, for any prelude and block; `name` is `NAME`. -/
def atRule {α β : Type} (name : Option (List Char)) (prelude : Prog α) (block : Prog β) : Prog (Cursor × Option α × β) := do
  let at' ← tok (isKind .atKeyword)
  let ok ← match name with
    | some n => Prog.eqIgnoreAsciiCase at' n
    | none => pure true
  if !ok then fail .other at'
  else
    let c ← peek
    let e ← atEnd
    let pre ← if e || c.token.inSet KindSet.LEFT_CURLY_OR_SEMICOLON then pure none else do
      let a ← prelude
      pure (some a)
    let b ← block
    pure (at', pre, b)

/-- The parts of css_parse/src/traits/block.rs:23-56 `parse_block`. -/
structure BlockParts (δ ρ : Type) where
  opening : Cursor
  declarations : List (δ × Option Cursor)
  rules : List ρ
  close : Option Cursor

/-- css_parse/src/traits/block.rs:29-54: the loop of `parse_block`. -/
def blockLoop {δ ρ : Type} (isDecl : Cursor → Prog Bool) (decl : Prog δ) (rule : Prog ρ) :
    Nat → List (δ × Option Cursor) → List ρ → Prog (List (δ × Option Cursor) × List ρ)
  | 0, _, _ => .panic .diverges
  | n + 1, ds, rs => do
    let ws ← ifPeek isWs whitespace
    if ws.isSome then blockLoop isDecl decl rule n ds rs
    else
      let semi ← ifPeek (isKind .semicolon) (tok (isKind .semicolon))
      if semi.isSome then blockLoop isDecl decl rule n ds rs
      else if ← atEnd then pure (ds, rs)
      else
        let c ← peek
        if c.token.isKind .rightCurly then pure (ds, rs)
        else
          setState true fun old => do
            let c ← peek
            if c.token.isKind .atKeyword then do
              let r ← result rule
              setState old fun _ => do
                let r ← ofResult r
                blockLoop isDecl decl rule n ds (rs ++ [r])
            else do
              let d ← result (ifPeek isDecl (tryParse decl))
              match d with
              | .ok (some d) =>
                setState old fun _ => do
                  let semi ← ifPeek (isKind .semicolon) (tok (isKind .semicolon))
                  blockLoop isDecl decl rule n (ds ++ [(d, semi)]) rs
              | _ => do
                let r ← result rule
                setState old fun _ => do
                  let r ← ofResult r
                  blockLoop isDecl decl rule n ds (rs ++ [r])

/-- css_parse/src/traits/block.rs:23-56 `parse_block`. -/
def blockOf {δ ρ : Type} (isDecl : Cursor → Prog Bool) (decl : Prog δ) (rule : Prog ρ) (fuel : Nat) : Prog (BlockParts δ ρ) := do
  let opening ← tok (isKind .leftCurly)
  let (ds, rs) ← blockLoop isDecl decl rule fuel [] []
  let close ← ifPeek (isKind .rightCurly) (tok (isKind .rightCurly))
  pure ⟨opening, ds, rs, close⟩

/-- css_parse/src/syntax/rule.rs:8-11 `Rule`, qualified_rule.rs:10-13 `QualifiedRule`, at_rule.rs:28-32 `AtRule`, at_rule.rs:64-67
`OptionalBlock`, block.rs:9-15 `Block` (`start`, `open_curly`, `declarations`, `rules`, `close_curly`). -/
inductive Rule where
  | qualified (prelude : List ComponentValue) (start : Nat) (opening : Cursor) (declarations : List (Declaration × Option Cursor))
      (rules : List Rule) (close : Option Cursor)
  | atBlock (name : Cursor) (prelude : Option (List ComponentValue)) (start : Nat) (opening : Cursor)
      (declarations : List (Declaration × Option Cursor)) (rules : List Rule) (close : Option Cursor)
  | atStatement (name : Cursor) (prelude : Option (List ComponentValue)) (semicolon : Option Cursor)
  deriving Repr

/-- css_parse/src/syntax/block.rs:22-28 `Parse for Block`, given the parser for the rules in it: the start and the parts. -/
def block (rule : Prog Rule) (fuel : Nat) : Prog (Nat × BlockParts Declaration Rule) := do
  let start ← offset
  let b ← blockOf isDeclaration (declaration fuel) rule fuel
  pure (start, b)

/-- css_parse/src/syntax/at_rule.rs:69-78 `Parse for OptionalBlock`. -/
def optionalBlock (rule : Prog Rule) (fuel : Nat) : Prog ((Nat × BlockParts Declaration Rule) ⊕ Option Cursor) := do
  let b ← ifPeek (isKind .leftCurly) (block rule fuel)
  match b with
  | some b => pure (.inl b)
  | none => do
    let semi ← ifPeek (isKind .semicolon) (tok (isKind .semicolon))
    pure (.inr semi)

/-- css_parse/src/syntax/at_rule.rs:34-43 `Parse for AtRule`; the second semicolon is parsed and dropped. -/
def genericAtRule (rule : Prog Rule) (fuel : Nat) : Prog Rule :=
  setStop KindSet.LEFT_CURLY_OR_SEMICOLON fun stop => do
    let parsed ← result (atRule none (componentValues fuel) (optionalBlock rule fuel))
    setStop stop fun _ => do
      let (name, prelude, block) ← ofResult parsed
      let _ ← ifPeek (isKind .semicolon) (tok (isKind .semicolon))
      match block with
      | .inl (start, b) => pure (.atBlock name prelude start b.opening b.declarations b.rules b.close)
      | .inr semi => pure (.atStatement name prelude semi)

/-- css_parse/src/syntax/qualified_rule.rs:16-21 `Parse for QualifiedRule`. -/
def genericQualifiedRule (rule : Prog Rule) (fuel : Nat) : Prog Rule := do
  let (prelude, start, b) ← qualifiedRule (componentValues fuel) (block rule fuel) (badDeclaration fuel)
  pure (.qualified prelude start b.opening b.declarations b.rules b.close)

/-- css_parse/src/syntax/rule.rs:13-20 `Parse for Rule`. -/
def rule : Nat → Prog Rule
  | 0 => .panic .diverges
  | n + 1 => do
    let c ← peek
    if c.token.isKind .atKeyword then genericAtRule (rule n) (n + 1)
    else genericQualifiedRule (rule n) (n + 1)

/-- css_parse/src/traits/style_sheet.rs:27-43 `parse_stylesheet`, for any rule. -/
def styleSheetLoop {ρ : Type} (rule : Prog ρ) : Nat → List ρ → Prog (List ρ)
  | 0, _ => .panic .diverges
  | n + 1, rules => do
    let ws ← ifPeek isWs whitespace
    if ws.isSome then styleSheetLoop rule n rules
    else
      let cdc ← ifPeek (isKind .cdcOrCdo) (tok (isKind .cdcOrCdo))
      if cdc.isSome then styleSheetLoop rule n rules
      else if ← atEnd then pure rules
      else
        let c ← peek
        if c.token.isKind .eof then pure rules
        else
          let r ← rule
          styleSheetLoop rule n (rules ++ [r])

/-- css_parse/src/traits/style_sheet.rs:27-43 `parse_stylesheet` with the generic rules. -/
def styleSheet : Prog (List Rule) := .read fun p => styleSheetLoop (rule p.fuel) p.fuel []

/-! ### `ToCursors` -/

/-- css_parse/src/syntax/bang_important.rs:54-59. -/
def BangImportant.cursors (b : BangImportant) : List Cursor := [b.bang, b.important]
/-- css_parse/src/syntax/declaration.rs:35-44 `ToCursors for Declaration`. -/
def Declaration.cursors (d : Declaration) : List Cursor :=
  d.name :: d.colon :: (ComponentValue.cursorsOf d.value ++ (d.important.map BangImportant.cursors).getD [])
/-- css_parse/src/syntax/block.rs:39-44: the declarations of a block, each with its semicolon. -/
def declarationsCursors : List (Declaration × Option Cursor) → List Cursor
  | [] => []
  | (d, semi) :: ds => d.cursors ++ semi.toList ++ declarationsCursors ds
mutual
/-- `ToCursors for Rule`: css_parse/src/syntax/rule.rs:22-29, at_rule.rs:50-58, 80-91, qualified_rule.rs:29-34, block.rs:35-53 (all
declarations first, then all rules). -/
def Rule.cursors : Rule → List Cursor
  | .qualified prelude start opening ds rules close =>
    ComponentValue.cursorsOf prelude ++ (⟨start, opening.token⟩ :: (declarationsCursors ds ++ Rule.cursorsOf rules ++ close.toList))
  | .atBlock name prelude start opening ds rules close =>
    name :: ((prelude.map ComponentValue.cursorsOf).getD []
      ++ (⟨start, opening.token⟩ :: (declarationsCursors ds ++ Rule.cursorsOf rules ++ close.toList)))
  | .atStatement name prelude semi => name :: ((prelude.map ComponentValue.cursorsOf).getD [] ++ semi.toList)
/-- The cursors of a list of rules. -/
def Rule.cursorsOf : List Rule → List Cursor
  | [] => []
  | r :: rs => r.cursors ++ Rule.cursorsOf rs
end

end Hdx

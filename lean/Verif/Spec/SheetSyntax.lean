/-
Style sheets, from their tokens: what a rule, a declaration and a block look like, and what the parser makes of them.
-/
import Verif.Props.SelectorAccepts
import Verif.Spec.DeclSyntax
import Verif.Spec.AtRuleSyntax
import Verif.Spec.MediaSyntax

namespace Hdx.Spec

/-- What is between the at-keyword and the block of an at-rule with rules in it. -/
inductive GroupHead where
  /-- `@container a (width > 1px)` -/
  | container (conditions : List ContainerCondition)
  /-- `@layer a.b`, `@layer` -/
  | layer (name : Option LayerName)
  /-- `@document url(a)`, `@-moz-document url(a)` -/
  | document (moz : Bool) (matchers : List (DocumentMatcher × Option Cursor))

def GroupHead.tokens : GroupHead → List Cursor
  | .container qs => (qs.map ContainerCondition.cursors).flatten
  | .layer l => (l.map LayerName.cursors).getD []
  | .document _ ms => pairsCursors DocumentMatcher.cursors ms

def GroupHead.name : GroupHead → List Char
  | .container _ => c!"container"
  | .layer _ => c!"layer"
  | .document moz _ => if moz then c!"-moz-document" else c!"document"

def GroupHead.Fits (src : List Char) : GroupHead → Prop
  | .container qs => ContainersRead src qs
  | .layer l => ∀ x ∈ l, LayerNameLabel x
  | .document _ ms => Listed (fun m => MatcherFits src m) ms
where
  /-- A matcher as hdx labels it: `domain()`, `media-document()` and `regexp()` are made `url-prefix()`. -/
  MatcherFits (src : List Char) (m : DocumentMatcher) : Prop :=
    (∀ c ∈ m.cursors, Clear src c) ∧ MatcherLabel src m ∧ match m with
    | .url _ | .urlFunction .. | .urlPrefix .. => True
    | _ => False

def GroupHead.rule (g : GroupHead) (at' opening : Cursor) (rules : List (CssRule Val)) (close : Cursor) : CssRule Val :=
  match g with
  | .container qs => .container at' qs opening rules (some close)
  | .layer l => .layerBlock at' (l.map fun x => [(x, none)]) opening rules (some close)
  | .document moz ms => .document moz at' ms opening rules (some close)

mutual
/-- A rule. -/
inductive RuleTree where
  /-- the selectors, whitespace and comments, `{`, what is in the block, `}` -/
  | style (selectors : List Group) (gap : List Cursor) (opening : Cursor) (body : BlockTree) (close : Cursor)
  /-- an at-rule without rules in it; `tokens` are those of it with whitespace and comments -/
  | leaf (tokens : List Cursor) (l : LeafRule)
  /-- `@media` and a media query; `head` are the tokens before `{` with whitespace and comments -/
  | media (head : List Cursor) (at' : Cursor) (query : MediaQuery) (opening : Cursor) (body : BlockTree) (close : Cursor)
  /-- other at-rules with rules in them -/
  | group (head : List Cursor) (at' : Cursor) (g : GroupHead) (opening : Cursor) (body : ListTree) (close : Cursor)
/-- What is between `{` and `}`: declarations and rules. -/
inductive BlockTree where
  /-- only whitespace and comments -/
  | done (gap : List Cursor)
  /-- a semicolon that belongs to no declaration -/
  | semicolon (gap : List Cursor) (c : Cursor) (more : BlockTree)
  /-- a declaration; `tokens` are those of it with whitespace and comments -/
  | declaration (tokens : List Cursor) (d : DeclText) (more : BlockTree)
  | rule (r : RuleTree) (more : BlockTree)
/-- What is between `{` and `}`: rules. -/
inductive ListTree where
  | done (gap : List Cursor)
  | semicolon (gap : List Cursor) (c : Cursor) (more : ListTree)
  | rule (r : RuleTree) (more : ListTree)
end

mutual
def RuleTree.tokens : RuleTree → List Cursor
  | .style gs gap opening body close => groupTokens gs ++ (gap ++ opening :: (body.tokens ++ [close]))
  | .leaf cs _ => cs
  | .media head _ _ opening body close => head ++ opening :: (body.tokens ++ [close])
  | .group head _ _ opening body close => head ++ opening :: (body.tokens ++ [close])
def BlockTree.tokens : BlockTree → List Cursor
  | .done gap => gap
  | .semicolon gap c more => gap ++ c :: more.tokens
  | .declaration cs _ more => cs ++ more.tokens
  | .rule r more => r.tokens ++ more.tokens
def ListTree.tokens : ListTree → List Cursor
  | .done gap => gap
  | .semicolon gap c more => gap ++ c :: more.tokens
  | .rule r more => r.tokens ++ more.tokens
end

/-- The tokens do not begin like a declaration. -/
def NoDeclaration (cs : List Cursor) : Prop := ∀ a b more, solid cs = a :: b :: more → IsKind .ident a → ¬ IsKind .colon b

/-- Not a semicolon. -/
def ListTree.NoSemicolon : ListTree → Prop
  | .semicolon .. => False
  | _ => True

/-- The at-rules that hdx reads directly in the block of a style rule. (In CSS there is also `@supports`, see C80, and `@scope`, which hdx does not know.) -/
def nestedNames : List (List Char) := [c!"container", c!"layer", c!"media"]

def LeafRule.name : LeafRule → List Char
  | .layers .. => c!"layer"
  | .fontFace .. => c!"font-face"
  | .keyframes w .. => if w then c!"-webkit-keyframes" else c!"keyframes"
  | .page .. => c!"page"
  | .property .. => c!"property"

mutual
/-- The rule is right. A style rule: there is a selector, they do not begin with a dashed ident, and the brackets are brackets. `nested`: the rule is in the block of a style rule. -/
def RuleTree.Fits (src : List Char) (nested : Bool) : RuleTree → Prop
  | .style gs gap opening body close => gs ≠ [] ∧ GroupsFit src gs (gap ++ [opening]) ∧ (∀ c ∈ (solid (groupTokens gs)).head?, isDashed c = false) ∧ Gap gap ∧
      IsKind .leftCurly opening ∧ body.Fits src true ∧ IsKind .rightCurly close
  | .leaf cs l => solid cs = l.tokens ∧ l.Fits src ∧ (nested = true → l.name ∈ nestedNames)
  | .media head at' q opening body close => solid head = at' :: q.cursors ∧ AtCalled src c!"media" at' ∧ QueryRead src q ∧ IsKind .leftCurly opening ∧ body.Fits src false ∧ IsKind .rightCurly close
  | .group head at' g opening body close => solid head = at' :: g.tokens ∧ AtCalled src g.name at' ∧ g.Fits src ∧ (nested = true → g.name ∈ nestedNames) ∧ IsKind .leftCurly opening ∧
      body.Fits src ∧ IsKind .rightCurly close
/-- The block is right: declarations end with `;`, but for the last, and rules do not look like declarations. -/
def BlockTree.Fits (src : List Char) (nested : Bool) : BlockTree → Prop
  | .done gap => Gap gap
  | .semicolon gap c more => Gap gap ∧ IsKind .semicolon c ∧ more.Fits src nested
  | .declaration cs d more => solid cs = d.tokens ∧ d.Fits src ∧ (d.semicolon = none → solid more.tokens = []) ∧ more.Fits src nested
  | .rule r more => NoDeclaration r.tokens ∧ r.Fits src nested ∧ more.Fits src nested
/-- The list is right: there are no two semicolons together. -/
def ListTree.Fits (src : List Char) : ListTree → Prop
  | .done gap => Gap gap
  | .semicolon gap c more => Gap gap ∧ IsKind .semicolon c ∧ more.NoSemicolon ∧ more.Fits src
  | .rule r more => r.Fits src false ∧ more.Fits src
end

mutual
/-- What a rule becomes. -/
def RuleTree.Becomes : RuleTree → CssRule Val → Prop
  | .style gs _ opening body close, r => ∃ sels ds rs, r = .style sels opening ds rs (some close) ∧ GroupsBecome gs sels ∧ body.Becomes ds rs
  | .leaf _ l, r => l.Becomes r
  | .media _ at' q opening body close, r => ∃ ds rs, r = .media at' [q] opening ds rs (some close) ∧ body.Becomes ds rs
  | .group _ at' g opening body close, r => ∃ rs, r = g.rule at' opening rs close ∧ body.Becomes rs
/-- What a block becomes: its declarations, each with its semicolon, and its rules. -/
def BlockTree.Becomes : BlockTree → List (Decl (StyleValue Val) × Option Cursor) → List (CssRule Val) → Prop
  | .done _, ds, rs => ds = [] ∧ rs = []
  | .semicolon _ _ more, ds, rs => more.Becomes ds rs
  | .declaration _ d more, ds, rs => ∃ x ds', ds = (x, d.semicolon) :: ds' ∧ d.Becomes x ∧ more.Becomes ds' rs
  | .rule r more, ds, rs => ∃ x rs', rs = x :: rs' ∧ r.Becomes x ∧ more.Becomes ds rs'
/-- What a list becomes: its rules. -/
def ListTree.Becomes : ListTree → List (CssRule Val) → Prop
  | .done _, rs => rs = []
  | .semicolon _ _ more, rs => more.Becomes rs
  | .rule r more, rs => ∃ x rs', rs = x :: rs' ∧ r.Becomes x ∧ more.Becomes rs'
end

/-- A style sheet. -/
inductive SheetTree where
  | done (gap : List Cursor)
  /-- `<!--` or `-->` -/
  | comment (gap : List Cursor) (c : Cursor) (more : SheetTree)
  | rule (r : RuleTree) (more : SheetTree)

def SheetTree.tokens : SheetTree → List Cursor
  | .done gap => gap
  | .comment gap c more => gap ++ c :: more.tokens
  | .rule r more => r.tokens ++ more.tokens

def SheetTree.Fits (src : List Char) : SheetTree → Prop
  | .done gap => Gap gap
  | .comment gap c more => Gap gap ∧ IsKind .cdcOrCdo c ∧ more.Fits src
  | .rule r more => r.Fits src false ∧ more.Fits src

/-- What it becomes: one rule for each rule. -/
def SheetTree.Becomes : SheetTree → List (CssRule Val) → Prop
  | .done _, rs => rs = []
  | .comment _ _ more, rs => more.Becomes rs
  | .rule r more, rs => ∃ x rs', rs = x :: rs' ∧ r.Becomes x ∧ more.Becomes rs'

end Hdx.Spec

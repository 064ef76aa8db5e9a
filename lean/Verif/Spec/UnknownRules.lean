/-
Style sheets with at-rules in them that hdx does not know.
-/
import Verif.Spec.SheetSyntax
import Verif.Spec.RawValues

namespace Hdx.Spec

/-- The at-rules that hdx has a parser for, at the top of a style sheet. -/
def readNames : List (List Char) :=
  [c!"container", c!"layer", c!"media", c!"supports", c!"charset", c!"font-face", c!"keyframes", c!"page", c!"property", c!"document", c!"-webkit-keyframes", c!"-moz-document"]

/-- A sequence of tokens without whitespace and comments in which every bracket has its mirror, and no `;` and no `{` are outside brackets. -/
inductive PreludeTokens : List Cursor → Prop
  | nil : PreludeTokens []
  | single {c : Cursor} {cs : List Cursor} : c.token.kind ∈ valueKinds → c.token.kind ≠ .semicolon → PreludeTokens cs → PreludeTokens (c :: cs)
  | block {o e : Cursor} {inner cs : List Cursor} : Mirror o.token.kind e.token.kind → o.token.kind ≠ .leftCurly → Balanced inner → PreludeTokens cs → PreludeTokens (o :: (inner ++ e :: cs))
  | function {f e : Cursor} {inner cs : List Cursor} : f.token.kind = .function → e.token.kind = .rightParen → Balanced inner → PreludeTokens cs → PreludeTokens (f :: (inner ++ e :: cs))

/-- What is in the block of an unknown at-rule. -/
inductive GenericItem where
  /-- a semicolon that belongs to no declaration -/
  | semicolon (c : Cursor)
  /-- a declaration and its semicolon -/
  | declaration (name colon : Cursor) (value : List Cursor) (semicolon : Cursor)

def GenericItem.tokens : GenericItem → List Cursor
  | .semicolon c => [c]
  | .declaration n c v s => n :: c :: (v ++ [s])

def GenericItem.Fits : GenericItem → Prop
  | .semicolon c => IsKind .semicolon c
  | .declaration n c v s => IsKind .ident n ∧ IsKind .colon c ∧ PreludeTokens v ∧ IsKind .semicolon s

/-- The declarations, with their semicolons. -/
def GenericBecomes : List GenericItem → List (Declaration × Option Cursor) → Prop
  | [], ds => ds = []
  | .semicolon _ :: is, ds => GenericBecomes is ds
  | .declaration n c v s :: is, ds => ∃ vs ds', ds = (⟨n, c, vs, none⟩, some s) :: ds' ∧ ReadsAs v vs ∧ GenericBecomes is ds'

def itemsTokens (is : List GenericItem) : List Cursor := (is.map GenericItem.tokens).flatten

/-- A style sheet. -/
inductive MixedSheet where
  | done (gap : List Cursor)
  /-- `<!--` or `-->` -/
  | comment (gap : List Cursor) (c : Cursor) (more : MixedSheet)
  /-- a rule of the grammar -/
  | rule (r : RuleTree) (more : MixedSheet)
  /-- an at-rule of another name: the at-keyword, what comes up to the semicolon, the semicolon; `tokens` are those of it with whitespace and comments -/
  | unknown (tokens : List Cursor) (at' : Cursor) (prelude : List Cursor) (semicolon : Cursor) (more : MixedSheet)
  /-- the same with a block of declarations -/
  | unknownBlock (tokens : List Cursor) (at' : Cursor) (prelude : List Cursor) (opening : Cursor) (items : List GenericItem) (close : Cursor) (more : MixedSheet)

def MixedSheet.tokens : MixedSheet → List Cursor
  | .done gap => gap
  | .comment gap c more => gap ++ c :: more.tokens
  | .rule r more => r.tokens ++ more.tokens
  | .unknown ts _ _ _ more => ts ++ more.tokens
  | .unknownBlock ts _ _ _ _ _ more => ts ++ more.tokens

def MixedSheet.Fits (src : List Char) : MixedSheet → Prop
  | .done gap => Gap gap
  | .comment gap c more => Gap gap ∧ IsKind .cdcOrCdo c ∧ more.Fits src
  | .rule r more => r.Fits src false ∧ more.Fits src
  | .unknown ts at' pre semi more => solid ts = at' :: (pre ++ [semi]) ∧ IsKind .atKeyword at' ∧ (∃ name, Named src at' name ∧ name ∉ readNames) ∧ PreludeTokens pre ∧
      IsKind .semicolon semi ∧ more.Fits src
  | .unknownBlock ts at' pre o items close more => solid ts = at' :: (pre ++ o :: (itemsTokens items ++ [close])) ∧ IsKind .atKeyword at' ∧ (∃ name, Named src at' name ∧ name ∉ readNames) ∧
      PreludeTokens pre ∧ IsKind .leftCurly o ∧ (∀ i ∈ items, i.Fits) ∧ IsKind .rightCurly close ∧ more.Fits src

/-- What it becomes: one rule for each rule. An unknown at-rule keeps its parts; where there is nothing before the semicolon there is no prelude. -/
def MixedSheet.Becomes : MixedSheet → List (CssRule Val) → Prop
  | .done _, rs => rs = []
  | .comment _ _ more, rs => more.Becomes rs
  | .rule r more, rs => ∃ x rs', rs = x :: rs' ∧ r.Becomes x ∧ more.Becomes rs'
  | .unknown _ at' pre semi more, rs => ∃ vs rs', rs = .unknownAt (.atStatement at' vs (some semi)) :: rs' ∧ (vs = none ↔ pre = []) ∧ (∀ x ∈ vs, ReadsAs pre x) ∧ more.Becomes rs'
  | .unknownBlock _ at' pre o items close more, rs => ∃ vs start ds rs', rs = .unknownAt (.atBlock at' vs start o ds [] (some close)) :: rs' ∧ (vs = none ↔ pre = []) ∧ (∀ x ∈ vs, ReadsAs pre x) ∧
      GenericBecomes items ds ∧ more.Becomes rs'

/-- The sheet without the unknown at-rules. -/
def MixedSheet.known : MixedSheet → SheetTree
  | .done gap => .done gap
  | .comment gap c more => .comment gap c more.known
  | .rule r more => .rule r more.known
  | .unknown _ _ _ _ more => more.known
  | .unknownBlock _ _ _ _ _ _ more => more.known

end Hdx.Spec

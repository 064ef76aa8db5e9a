/-
At-rules without rules in them, from their tokens: what they look like, and what the parser makes of them.
-/
import Verif.Spec.DeclSyntax
import Verif.Spec.RuleLabels
import Verif.Spec.Touch

namespace Hdx.Spec

/-- The lists have the same length, and `R` holds of what is in the same place. -/
def Each {α β : Type} (R : α → β → Prop) : List α → List β → Prop
  | [], [] => True
  | a :: as, b :: bs => R a b ∧ Each R as bs
  | _, _ => False

/-- One or more, with commas between them. -/
def Listed {α : Type} (P : α → Prop) : List (α × Option Cursor) → Prop
  | [] => False
  | [(a, k)] => P a ∧ k = none
  | (a, k) :: more => P a ∧ (∃ c, k = some c ∧ IsKind .comma c) ∧ Listed P more

/-- An at-keyword of that name, however it is compared. -/
def AtCalled (src name : List Char) (c : Cursor) : Prop := IsKind .atKeyword c ∧ Named src c name ∧ c.eqIgnoreAsciiCase src name = .ok true

/-! ### Lists of declarations -/

def declsTokens (ds : List DeclText) : List Cursor := (ds.map DeclText.tokens).flatten

/-- Declarations, each with a semicolon, but for the last. -/
def DeclsFit (src : List Char) : List DeclText → Prop
  | [] => True
  | d :: ds => d.Fits src ∧ (d.semicolon = none → ds = []) ∧ DeclsFit src ds

/-- Each becomes a declaration, with its semicolon. -/
def DeclsBecome : List DeclText → List (Decl (StyleValue Val) × Option Cursor) → Prop := Each fun d x => d.Becomes x.1 ∧ x.2 = d.semicolon

/-! ### The parts of the at-rules -/

/-- A keyframe: selectors, `{`, declarations, `}`. -/
structure FrameText where
  selectors : List (KeyframeSelector × Option Cursor)
  opening : Cursor
  declarations : List DeclText
  close : Cursor

def FrameText.tokens (f : FrameText) : List Cursor :=
  pairsCursors (fun s => [s.cursor]) f.selectors ++ (f.opening :: (declsTokens f.declarations ++ [f.close]))

structure FrameText.Fits (src : List Char) (f : FrameText) : Prop where
  selectors : Listed (fun s => KeyframeSelectorLabel src s ∧ Clear src s.cursor) f.selectors
  opening : IsKind .leftCurly f.opening
  declarations : DeclsFit src f.declarations
  close : IsKind .rightCurly f.close

def FrameText.Becomes (f : FrameText) (k : Keyframe Val) : Prop :=
  k.selectors = f.selectors ∧ k.block.opening = f.opening ∧ DeclsBecome f.declarations k.block.items ∧ k.block.close = some f.close

/-- What is in a page rule. -/
inductive PagePart where
  | declaration (d : DeclText)
  /-- `@top-left {`, declarations, `}` -/
  | margin (at' opening : Cursor) (declarations : List DeclText) (close : Cursor)

def PagePart.tokens : PagePart → List Cursor
  | .declaration d => d.tokens
  | .margin a o ds c => a :: o :: (declsTokens ds ++ [c])

/-- The parts are right; a declaration without a semicolon is the last. -/
def PartsFit (src : List Char) : List PagePart → Prop
  | [] => True
  | .declaration d :: ps => d.Fits src ∧ (d.semicolon = none → ps = []) ∧ PartsFit src ps
  | .margin a o ds c :: ps => IsKind .atKeyword a ∧ (∃ n ∈ marginNames, Named src a n) ∧ IsKind .leftCurly o ∧ DeclsFit src ds ∧ IsKind .rightCurly c ∧ PartsFit src ps

/-- What they become: the declarations, and the margin rules. -/
def PartsBecome : List PagePart → List (Decl (StyleValue Val) × Option Cursor) → List (MarginRule Val) → Prop
  | [], ds, ms => ds = [] ∧ ms = []
  | .declaration d :: ps, ds, ms => ∃ x ds', ds = (x, d.semicolon) :: ds' ∧ d.Becomes x ∧ PartsBecome ps ds' ms
  | .margin a o body c :: ps, ds, ms => ∃ m ms', ms = m :: ms' ∧ m.atKeyword = a ∧ m.block.opening = o ∧ DeclsBecome body m.block.items ∧ m.block.close = some c ∧
      PartsBecome ps ds ms'

/-- A selector of a page rule: not empty, and no space after the colons. -/
def PageSelectorFits (src : List Char) (s : PageSel) : Prop :=
  PageSelectorLabel src s ∧ (s.pageType = none → s.pseudos ≠ []) ∧ ∀ x ∈ s.pseudos, Touch x.2.1 x.2.2 ∧ Clear src x.2.2

/-- A descriptor of `@property`. -/
inductive Descriptor where
  /-- `syntax: "<length>"` -/
  | syntax (string : Cursor)
  /-- `inherits: true` -/
  | inherits (keyword : List Char) (c : Cursor)

structure DescriptorText where
  name : Cursor
  colon : Cursor
  value : Descriptor
  semicolon : Option Cursor

def DescriptorText.tokens (d : DescriptorText) : List Cursor :=
  d.name :: d.colon :: (match d.value with | .syntax c | .inherits _ c => c) :: d.semicolon.toList

def DescriptorText.Fits (src : List Char) (d : DescriptorText) : Prop :=
  IsKind .ident d.name ∧ Clear src d.name ∧ IsKind .colon d.colon ∧ Closes .semicolon d.semicolon ∧
  match d.value with
  | .syntax c => Named src d.name c!"syntax" ∧ IsKind .string c
  | .inherits k c => Named src d.name c!"inherits" ∧ KeywordLabel src [c!"true", c!"false"] (k, c) ∧ Clear src c

def DescriptorsFit (src : List Char) : List DescriptorText → Prop
  | [] => True
  | d :: ds => d.Fits src ∧ (d.semicolon = none → ds = []) ∧ DescriptorsFit src ds

def DescriptorText.Becomes (d : DescriptorText) (x : Decl PropertyRuleValue × Option Cursor) : Prop :=
  x.2 = d.semicolon ∧ x.1.name = d.name ∧ x.1.colon = d.colon ∧ x.1.important = none ∧
  x.1.value = match d.value with
    | .syntax c => .syntax c
    | .inherits k c => .inherits k c

/-! ### At-rules -/

/-- At-rules without rules in them: their tokens without whitespace and comments. -/
inductive LeafRule where
  /-- `@layer a.b, c;` -/
  | layers (at' : Cursor) (names : List (LayerName × Option Cursor)) (semicolon : Cursor)
  /-- `@font-face { … }` -/
  | fontFace (at' opening : Cursor) (declarations : List DeclText) (close : Cursor)
  /-- `@keyframes a { … }`, `@-webkit-keyframes a { … }` -/
  | keyframes (webkit : Bool) (at' name opening : Cursor) (frames : List FrameText) (close : Cursor)
  /-- `@page a:left { … }`; there may be no selectors -/
  | page (at' : Cursor) (selectors : List (PageSel × Option Cursor)) (opening : Cursor) (parts : List PagePart) (close : Cursor)
  /-- `@property --a { … }` -/
  | property (at' name opening : Cursor) (descriptors : List DescriptorText) (close : Cursor)

def LeafRule.tokens : LeafRule → List Cursor
  | .layers a ns s => a :: (pairsCursors LayerName.cursors ns ++ [s])
  | .fontFace a o ds c => a :: o :: (declsTokens ds ++ [c])
  | .keyframes _ a n o fs c => a :: n :: o :: ((fs.map FrameText.tokens).flatten ++ [c])
  | .page a ss o ps c => a :: (pairsCursors PageSel.cursors ss ++ (o :: ((ps.map PagePart.tokens).flatten ++ [c])))
  | .property a n o ds c => a :: n :: o :: ((ds.map DescriptorText.tokens).flatten ++ [c])

def LeafRule.Fits (src : List Char) : LeafRule → Prop
  | .layers a ns s => AtCalled src c!"layer" a ∧ Listed LayerNameLabel ns ∧ IsKind .semicolon s
  | .fontFace a o ds c => AtCalled src c!"font-face" a ∧ IsKind .leftCurly o ∧ DeclsFit src ds ∧ (∀ d ∈ ds, d.property ∈ fontDescriptors) ∧ IsKind .rightCurly c
  | .keyframes webkit a n o fs c => AtCalled src (if webkit then c!"-webkit-keyframes" else c!"keyframes") a ∧ KeyframesNameLabel src n ∧ IsKind .leftCurly o ∧
      (∀ f ∈ fs, f.Fits src) ∧ IsKind .rightCurly c
  | .page a ss o ps c => AtCalled src c!"page" a ∧ (ss = [] ∨ Listed (PageSelectorFits src) ss) ∧ IsKind .leftCurly o ∧ PartsFit src ps ∧ IsKind .rightCurly c
  | .property a n o ds c => AtCalled src c!"property" a ∧ IsDashedIdent n ∧ IsKind .leftCurly o ∧ DescriptorsFit src ds ∧ IsKind .rightCurly c

/-- What they become. Of the declarations of `@font-face` the semicolons are lost. -/
def LeafRule.Becomes : LeafRule → CssRule Val → Prop
  | .layers a ns s, r => r = .layerStatement a (some ns) s
  | .fontFace a o ds c, r => ∃ xs, r = .fontFace a ⟨o, xs, some c⟩ ∧ Each DeclText.Becomes ds xs
  | .keyframes webkit a n o fs c, r => ∃ ks, r = (if webkit then .webkitKeyframes a n ⟨o, ks, some c⟩ else .keyframes a (some n) ⟨o, ks, some c⟩) ∧ Each FrameText.Becomes fs ks
  | .page a ss o ps c, r => ∃ ds ms, r = .page a (if ss.isEmpty then none else some ss) ⟨o, ds, ms, some c⟩ ∧ PartsBecome ps ds ms
  | .property a n o ds c, r => ∃ xs, r = .property a n ⟨o, xs, some c⟩ ∧ Each DescriptorText.Becomes ds xs

end Hdx.Spec

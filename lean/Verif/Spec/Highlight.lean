/-
What an editor shows of a style sheet: which tokens are highlighted, and as what. Written from csskit_highlight's documentation, its legend and the
protocol (Language Server Protocol 3.17, "Semantic Tokens").
-/
import Verif.Spec.RuleLabels
import Verif.Model.Highlight

namespace Hdx.Spec
open Lsp

variable {τ : Type}

/-- A part of the source that is shown as something. -/
structure Shown where
  type : String
  modifiers : List String
  span : Span
  deriving DecidableEq

/-- How a client reads a bit set by the legend: the names of the bits that are set. -/
def namesOf (legend : List String) (bits : Nat) : List String := (legend.zipIdx.filter fun x => bits.testBit x.2).map (·.1)

/-- How a client reads a highlight by the legend. -/
def show' (h : Highlight) : Shown := ⟨Highlighter.KINDS.getD h.kind "", namesOf Highlighter.MODIFIERS h.modifier, h.span⟩

/-! ### What is to be shown -/

/-- Tags that are obsolete, not standard, custom elements or not known at all are told apart. -/
def tagShows : TagKind → List String
  | .html _ | .svg _ | .mathml _ => []
  | .htmlNonConforming _ => ["Deprecated"]
  | .htmlNonStandard _ => ["Experimental"]
  | .customElement => ["Custom"]
  | .unknown => ["Unknown"]

/-- Tags and pseudo-classes of a selector. -/
def pieceShows : Sel → List Shown
  | .tag kind c => [⟨"Tag", tagShows kind, ⟨c.offset, c.endOffset⟩⟩]
  | .pseudoClass vendor _ colon ident => [⟨"PseudoClass", if vendor = .standard then [] else ["Deprecated"], ⟨colon.offset, ident.endOffset⟩⟩]
  | _ => []
/-- Those of a list of selectors. -/
def selectorsShow (ss : List (List Sel × Option Cursor)) : List Shown := ss.flatMap fun s => s.1.flatMap pieceShows

/-- The name and the colon of a declaration. -/
def declarationShows (name colon : Cursor) (unknown : Bool) : List Shown :=
  [⟨"Declaration", (if unknown then ["Unknown"] else []) ++ (if name.token.isDashedIdent then ["Custom"] else []), ⟨name.offset, name.endOffset⟩⟩,
   ⟨"Punctuation", [], ⟨colon.offset, colon.endOffset⟩⟩]
/-- The value of a property is not one that hdx knows. -/
def NotKnown : StyleValue τ → Bool
  | .unknown _ => true
  | .wide .. | .custom _ | .computed _ | .typed .. => false
/-- Declarations of properties. -/
def declarationsShow (ds : List (Decl (StyleValue τ) × Option Cursor)) : List Shown :=
  ds.flatMap fun d => declarationShows d.1.name d.1.colon (NotKnown d.1.value)
/-- A brace. -/
def braceShows (c : Cursor) : Shown := ⟨"Punctuation", [], ⟨c.offset, c.endOffset⟩⟩

/-- The value of a descriptor of `@property` is not one that hdx knows. -/
def NotKnownDescriptor : PropertyRuleValue → Bool
  | .unknown _ => true
  | .initialValue _ | .syntax _ | .inherits .. => false
/-- A feature of `@supports`. -/
def featureShows : SupportsFeature τ → List Shown
  | .selector _ _ ss _ _ => selectorsShow ss
  | .property _ d _ => declarationShows d.name d.colon (NotKnown d.value)

/-- What is shown of a rule, without the rules in it. (Nothing of `@font-face` and of the preludes of other at-rules.) -/
def ruleShows : CssRule τ → List Shown
  | .style ss o ds _ c => selectorsShow ss ++ braceShows o :: (c.toList.map braceShows ++ declarationsShow ds)
  | .keyframes _ _ b => b.items.flatMap fun k => declarationsShow k.block.items
  | .page _ _ b => declarationsShow b.declarations ++ b.rules.flatMap fun m => declarationsShow m.block.items
  | .property _ n b => ⟨"Declaration", ["Custom"], ⟨n.offset, n.endOffset⟩⟩ ::
      b.items.flatMap fun d => declarationShows d.1.name d.1.colon (NotKnownDescriptor d.1.value)
  | .supports _ q _ _ _ => (featuresOf q).flatMap featureShows
  | _ => []

mutual
/-- A rule and the rules in it that the highlighter looks at: all but those in `@media` (and it never gets beyond one) and in `@-moz-document`. -/
def walked : CssRule τ → List (CssRule τ)
  | r@(.container _ _ _ rules _) => r :: walkedAll rules
  | r@(.layerBlock _ _ _ rules _) => r :: walkedAll rules
  | r@(.supports _ _ _ rules _) => r :: walkedAll rules
  | r@(.document moz _ _ _ rules _) => r :: if moz then [] else walkedAll rules
  | r@(.style _ _ _ rules _) => r :: walkedAll rules
  | r => [r]
/-- The same for many rules. -/
def walkedAll : List (CssRule τ) → List (CssRule τ)
  | [] => []
  | r :: rs => walked r ++ walkedAll rs
end

/-- Rules whose visit is not written. -/
def Unfinished : CssRule τ → Bool
  | .media .. | .webkitKeyframes .. => true
  | _ => false

/-! ### What it says about the text -/

/-- What the modifiers of a tag say of its name. -/
def TagModifiers (s : List Char) (modifiers : List String) : Prop :=
  (modifiers = [] ∧ (s ∈ HTML_TAGS ∨ s ∈ SVG_TAGS ∨ s ∈ MATHML_TAGS)) ∨ (modifiers = ["Deprecated"] ∧ s ∈ HTML_NON_CONFORMING_TAGS) ∨
  (modifiers = ["Experimental"] ∧ s ∈ HTML_NON_STANDARD_TAGS) ∨ (modifiers = ["Custom"] ∧ CustomName s) ∨
  (modifiers = ["Unknown"] ∧ s ∉ HTML_TAGS ∧ s ∉ SVG_TAGS ∧ s ∉ MATHML_TAGS ∧ s ∉ HTML_NON_CONFORMING_TAGS ∧ s ∉ HTML_NON_STANDARD_TAGS ∧ ¬ CustomName s)

/-- What is shown is true of the tokens. -/
inductive ShownTruly (src : List Char) (tokens : List Cursor) : Shown → Prop
  /-- An ident, and the modifiers are those of its name. -/
  | tag {c s ms} : c ∈ tokens → IsKind .ident c → Named src c s → TagModifiers s ms → ShownTruly src tokens ⟨"Tag", ms, ⟨c.offset, c.endOffset⟩⟩
  /-- A colon directly before the name of a pseudo-class; deprecated are those with a vendor. -/
  | pseudoClass {c i s v ms} : c ∈ tokens → i ∈ tokens → IsKind .colon c → IsKind .ident i → Touch c i → Named src i s → s ∈ pseudoClassNames v →
      ms = (if v = .standard then [] else ["Deprecated"]) → ShownTruly src tokens ⟨"PseudoClass", ms, ⟨c.offset, i.endOffset⟩⟩
  /-- A brace or a colon. -/
  | punctuation {c} : c ∈ tokens → (IsKind .leftCurly c ∨ IsKind .rightCurly c ∨ IsKind .colon c) → ShownTruly src tokens ⟨"Punctuation", [], ⟨c.offset, c.endOffset⟩⟩
  /-- An ident; custom are those that begin with two dashes. -/
  | declaration {c ms} : c ∈ tokens → IsKind .ident c → ms ∈ [[], ["Unknown"], ["Custom"], ["Unknown", "Custom"]] → ("Custom" ∈ ms ↔ c.token.isDashedIdent = true) →
      ShownTruly src tokens ⟨"Declaration", ms, ⟨c.offset, c.endOffset⟩⟩

/-- Two parts of the source without a common character. -/
def Apart (a b : Span) : Prop := a.stop ≤ b.start ∨ b.stop ≤ a.start

end Hdx.Spec

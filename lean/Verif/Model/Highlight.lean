/-
Walking a style sheet (the `Visitable` implementations of css_ast) and the highlighter (csskit_highlight).

A call of a method of the visitor is an element of a list. The methods the highlighter implements have a constructor of their own, with the
parts of the node it looks at; all others have their name only (their default does nothing, css_ast/src/visit/mod.rs:21-31).
-/
import Verif.Model.AtRules
import Verif.Model.Lsp.Document

namespace Hdx

/-- A call of a method of `Visit`. -/
inductive Visit (τ : Type) where
  | tag (kind : TagKind) (c : Cursor)
  | pseudoClass (vendor : Vendor) (colon ident : Cursor)
  | styleDeclaration (opening : Cursor) (close : Option Cursor)
  | property (d : Decl (StyleValue τ))
  | propertyRule (name : Cursor)
  | propertyRuleProperty (d : Decl PropertyRuleValue)
  | other (method : String)

/-! ### Selectors -/

/-- css_ast/src/selector/tag.rs:70-78, 161-165, 302-306, 342-346, 360-364, 435-439, 604-608, 640-644: the visit of the kind of a tag. -/
def TagKind.method : TagKind → String
  | .html _ => "visit_html_tag"
  | .htmlNonConforming _ => "visit_html_non_conforming_tag"
  | .htmlNonStandard _ => "visit_html_non_standard_tag"
  | .svg _ => "visit_svg_tag"
  | .mathml _ => "visit_mathml_tag"
  | .customElement => "visit_custom_element_tag"
  | .unknown => "visit_unknown_tag"

section
variable {τ : Type}

/-- css_ast/src/selector/pseudo_class.rs:166-172, webkit.rs:228-232, moz.rs:195-199, ms.rs:37-41, o.rs:27-31. -/
def Vendor.classVisits : Vendor → List (Visit τ)
  | .standard => []
  | .webkit => [.other "visit_webkit_pseudo_class"]
  | .moz => [.other "visit_moz_pseudo_class"]
  | .ms => [.other "visit_ms_pseudo_class"]
  | .o => [.other "visit_o_pseudo_class"]

/-- css_ast/src/selector/pseudo_element.rs:117-123, webkit.rs:81-85, moz.rs:93-97, ms.rs:28-32, o.rs:18-22. -/
def Vendor.elementVisits : Vendor → List (Visit τ)
  | .standard => []
  | .webkit => [.other "visit_webkit_pseudo_element"]
  | .moz => [.other "visit_moz_pseudo_element"]
  | .ms => [.other "visit_ms_pseudo_element"]
  | .o => [.other "visit_o_pseudo_element"]

/-- css_ast/src/selector/mod.rs:143-147, 172-176, 227-244 `Visitable for SelectorComponent`, tag.rs:67-80, pseudo_class.rs:163-174,
pseudo_element.rs:114-125, 135-139, class.rs:36-40, combinator.rs:64-68, attribute.rs:68-72, namespace.rs:64-68,
functional_pseudo_element.rs:66-70, functional_pseudo_class.rs:93-104 (whose body is commented out). -/
def Sel.visits : Sel → List (Visit τ)
  | .id _ => [.other "visit_id"]
  | .cls _ _ => [.other "visit_class"]
  | .tag k c => [.tag k c, .other k.method]
  | .wildcard _ => [.other "visit_wildcard"]
  | .combinator _ => [.other "visit_combinator"]
  | .attr _ => [.other "visit_attribute"]
  | .pseudoClass v _ colon ident => .pseudoClass v colon ident :: v.classVisits
  | .pseudoElement v _ _ _ _ => .other "visit_pseudo_element" :: v.elementVisits
  | .legacyPseudoElement _ _ _ => [.other "visit_legacy_pseudo_element"]
  | .ns _ => [.other "visit_namespace"]
  | .fnToken .. | .fnSelectors .. | .fnLang .. | .fnNth .. => []
  | .highlight .. | .part .. | .slotted .. => [.other "visit_functional_pseudo_element"]

/-- css_ast/src/selector/mod.rs:75-82 `Visitable for SelectorList`, 107-114 `Visitable for CompoundSelector`. -/
def selectorVisits (selectors : List (List Sel × Option Cursor)) : List (Visit τ) :=
  .other "visit_selector_list" :: selectors.flatMap fun s => .other "visit_compound_selector" :: s.1.flatMap Sel.visits

/-! ### Declarations and parts of at-rules -/

/-- css_ast/src/properties/mod.rs:135-140 `Visitable for Property`, 253-257 `Visitable for StyleValue` (which does not look into the value). -/
def propertyVisits (d : Decl (StyleValue τ)) : List (Visit τ) := [.property d, .other "visit_style_value"]

/-- The declarations of a block: css_ast/src/stylerule.rs:107-109, css_ast/src/rules/keyframes.rs:237-243, page.rs:255-257, 357-363. -/
def declarationVisits (ds : List (Decl (StyleValue τ) × Option Cursor)) : List (Visit τ) := ds.flatMap fun d => propertyVisits d.1

/-- css_ast/src/rules/keyframes.rs:162-168 `Visitable for Keyframe`, 195-201, 237-243, 297-301. -/
def Keyframe.visits (k : Keyframe τ) : List (Visit τ) :=
  .other "visit_keyframe" :: (k.selectors.map (fun _ => .other "visit_keyframe_selector") ++ declarationVisits k.block.items)

/-- css_ast/src/rules/page.rs:315-320 `Visitable for MarginRule`, 357-363. -/
def MarginRule.visits (m : MarginRule τ) : List (Visit τ) := .other "visit_margin_rule" :: declarationVisits m.block.items

/-- css_ast/src/rules/supports.rs:294-303 `Visitable for SupportsFeature`. (The two variants whose visit is `todo!()` are never made.) -/
def SupportsFeature.visits : SupportsFeature τ → List (Visit τ)
  | .selector _ _ selectors _ _ => selectorVisits selectors
  | .property _ d _ => propertyVisits d

/-- css_ast/src/rules/supports.rs:184-201 `Visitable for SupportsCondition`, css_ast/src/rules/container/mod.rs:225-242 `Visitable for ContainerQuery`. -/
def Condition.visits {φ : Type} (visits : φ → List (Visit τ)) : Condition φ → List (Visit τ)
  | .is f => visits f
  | .not _ f => visits f
  | .and fs => fs.flatMap fun f => visits f.1
  | .or fs => fs.flatMap fun f => visits f.1

/-- css_ast/src/rules/container/mod.rs:318-331 `Visitable for ContainerFeature`, features.rs:16-79. -/
def ContainerFeature.visits : ContainerFeature → List (Visit τ)
  | .length k _ =>
    [.other (if k == c!"width" then "visit_width_container_feature" else if k == c!"height" then "visit_height_container_feature"
      else if k == c!"inline-size" then "visit_inline_size_container_feature" else "visit_block_size_container_feature")]
  | .ratio _ => [.other "visit_aspect_ratio_container_feature"]
  | .orientation _ => [.other "visit_orientation_container_feature"]

/-- css_ast/src/rules/container/mod.rs:152-158 `Visitable for ContainerCondition`. -/
def ContainerCondition.visits (q : ContainerCondition) : List (Visit τ) := (q.condition.map (Condition.visits ContainerFeature.visits)).getD []

/-! ### Rules -/

/-- One call after the other; a panic ends it. -/
def andThen (a : List (Visit τ)) (b : Except Panic (List (Visit τ))) : Except Panic (List (Visit τ)) := b.map fun b => a ++ b

mutual
/-- `Visitable for Rule`: css_ast/src/stylesheet.rs:100-104, 123-127, 200-216, css_ast/src/stylerule.rs:55-61, 104-114, 209-226,
css_ast/src/rules/charset.rs:51-55, container/mod.rs:51-61, document.rs:47-53, 80-86, 164-168, 202-208, font_face.rs:40-45, 78-84, 138-143,
keyframes.rs:44-49, 126-132, layer.rs:51-59, 86-92, 125-129, 159-165, 199-205, media/mod.rs:49-53 (`todo!()`), moz.rs:45-49,
page.rs:50-58, 85-91, 137-141, 253-262, property.rs:48-55, 124-128, supports.rs:75-81, 114-120, webkit.rs:45-49 (`todo!()`). -/
def CssRule.visits : CssRule τ → Except Panic (List (Visit τ))
  | .charset .. => .ok [.other "visit_charset_rule"]
  | .container _ query _ rules _ => andThen (.other "visit_container_rule" :: query.flatMap ContainerCondition.visits) (visitsOf rules)
  | .fontFace _ b =>
    .ok (.other "visit_font_face_rule" :: b.items.flatMap fun _ => [.other "visit_font_face_rule_property", .other "visit_style_value"])
  | .keyframes _ _ b => .ok (.other "visit_keyframes_rule" :: b.items.flatMap Keyframe.visits)
  | .layerStatement _ names _ => .ok (.other "visit_layer_rule" :: (names.getD []).map fun _ => .other "visit_layer_name")
  | .layerBlock _ names _ rules _ =>
    andThen (.other "visit_layer_rule" :: (names.getD []).map fun _ => .other "visit_layer_name") (visitsOf rules)
  | .media .. => .error .todo
  | .page _ selectors b =>
    .ok (.other "visit_page_rule" :: ((selectors.getD []).map (fun _ => .other "visit_page_selector")
      ++ declarationVisits b.declarations ++ b.rules.flatMap MarginRule.visits))
  | .property _ name b => .ok (.propertyRule name :: b.items.map fun d => .propertyRuleProperty d.1)
  | .supports _ cond _ rules _ => andThen (.other "visit_supports_rule" :: cond.visits SupportsFeature.visits) (visitsOf rules)
  | .document moz _ matchers _ rules _ =>
    if moz then .ok [.other "visit_moz_document_rule"]
    else andThen (.other "visit_document_rule" :: matchers.map fun _ => .other "visit_document_matcher") (visitsOf rules)
  | .webkitKeyframes .. => .error .todo
  | .unknownAt _ => .ok [.other "visit_unknown_at_rule"]
  | .style selectors opening ds rules close =>
    andThen (.other "visit_style_rule" :: (selectorVisits selectors ++ .styleDeclaration opening close :: declarationVisits ds)) (visitsOf rules)
  | .unknown _ => .ok [.other "visit_unknown_qualified_rule"]
  | .bad _ => .ok []
/-- The rules of a block. -/
def CssRule.visitsOf : List (CssRule τ) → Except Panic (List (Visit τ))
  | [] => .ok []
  | r :: rs =>
    match r.visits with
    | .error e => .error e
    | .ok vs => andThen vs (visitsOf rs)
end

/-- css_ast/src/stylesheet.rs:41-48 `Visitable for StyleSheet`: the style sheet is visited anew before each of its rules. -/
def sheetVisits : List (CssRule τ) → Except Panic (List (Visit τ))
  | [] => .ok []
  | r :: rs =>
    match r.visits with
    | .error e => .error e
    | .ok vs => andThen (.other "visit_style_sheet" :: vs) (sheetVisits rs)

end

/-! ### The highlighter -/

namespace Highlighter
open Lsp

/-- csskit_highlight/src/lib.rs:13-39 `SemanticKind`: the names of the variants, in order; the legend of the types that csskit_lsp/src/service.rs:201-204
sends to the client. -/
def KINDS : List String :=
  ["Id", "Tag", "Class", "Wildcard", "Attribute", "Namespace", "Combinator", "PseudoClass", "PseudoElement", "LegacyPseudoElement", "FunctionalPseudoClass",
   "FunctionalPseudoElement", "AtKeyword", "Prelude", "Declaration", "StyleValueKeyword", "StyleValueDimension", "StyleValueNumber", "Punctuation"]

/-- csskit_highlight/src/lib.rs:48-56 `SemanticModifier`: the names of the variants, in order; the legend of the modifiers, csskit_lsp/src/service.rs:205-208. -/
def MODIFIERS : List String := ["Unknown", "Deprecated", "Experimental", "Vendor", "Custom"]

/-- csskit_highlight/src/lib.rs:13-39 `SemanticKind`, 41-45 `bits`: the index of the variant. -/
def TAG : Nat := 1
def PSEUDO_CLASS : Nat := 7
def DECLARATION : Nat := 14
def PUNCTUATION : Nat := 18

/-- csskit_highlight/src/lib.rs:48-56 `SemanticModifier`: one bit for each variant. -/
def NO_MODIFIER : Nat := 0
def UNKNOWN : Nat := 1
def DEPRECATED : Nat := 2
def EXPERIMENTAL : Nat := 4
def CUSTOM : Nat := 16

/-- csskit_highlight/src/css.rs:10-31 `visit_tag`: the modifier. -/
def tagModifier : TagKind → Nat
  | .htmlNonConforming _ => DEPRECATED
  | .html _ => NO_MODIFIER
  | .htmlNonStandard _ => EXPERIMENTAL
  | .svg _ => NO_MODIFIER
  | .mathml _ => NO_MODIFIER
  | .customElement => CUSTOM
  | .unknown => UNKNOWN

/-- csskit_highlight/src/css.rs:37-42 `visit_pseudo_class`: the modifier. -/
def pseudoClassModifier : Vendor → Nat
  | .standard => NO_MODIFIER
  | .webkit | .moz | .ms | .o => DEPRECATED

/-- css_ast/src/properties/mod.rs:164: `matches!(value, StyleValue::Unknown(_))`. -/
def isUnknown {τ : Type} : StyleValue τ → Bool
  | .unknown _ => true
  | _ => false

/-- css_ast/src/rules/property.rs:136: `matches!(value, PropertyRuleStyleValue::Unknown(_))`. -/
def isUnknownDescriptor : PropertyRuleValue → Bool
  | .unknown _ => true
  | _ => false

/-- csskit_highlight/src/css.rs:53-63 and 70-79: what `visit_property` and `visit_property_rule_property` insert. -/
def declarationHighlights (name colon : Cursor) (unknown : Bool) : List Highlight :=
  [⟨DECLARATION, (if unknown then UNKNOWN else NO_MODIFIER) ||| (if name.token.isDashedIdent then CUSTOM else NO_MODIFIER), name.span⟩,
   ⟨PUNCTUATION, NO_MODIFIER, colon.span⟩]

/-- csskit_highlight/src/css.rs:9-82: what the highlighter inserts at a visit, in order. -/
def inserts {τ : Type} : Visit τ → List Highlight
  | .tag kind c => [⟨TAG, tagModifier kind, c.span⟩]
  | .pseudoClass vendor colon ident => [⟨PSEUDO_CLASS, pseudoClassModifier vendor, colon.span.add ident.span⟩]
  | .styleDeclaration opening close =>
    ⟨PUNCTUATION, NO_MODIFIER, opening.span⟩ :: (close.map fun c => ⟨PUNCTUATION, NO_MODIFIER, c.span⟩).toList
  | .property d => declarationHighlights d.name d.colon (isUnknown d.value)
  | .propertyRule name => [⟨DECLARATION, CUSTOM, name.span⟩]
  | .propertyRuleProperty d => declarationHighlights d.name d.colon (isUnknownDescriptor d.value)
  | .other _ => []

/-- csskit_highlight/src/lib.rs:123-125 `insert`: an earlier entry for the same span is lost. The hash map is a list of entries with different
spans; their order is of no meaning. -/
def insert (map : List Highlight) (h : Highlight) : List Highlight := h :: map.filter fun x => x.span != h.span

/-- csskit_highlight/src/lib.rs:106-121 and `accept`: the entries of the map after the visits. -/
def entries {τ : Type} (visits : List (Visit τ)) : List Highlight := (visits.flatMap inserts).foldl insert []

end Highlighter

/-- lsp_types' `SemanticToken`. -/
structure SemanticToken where
  deltaLine : Nat
  deltaStart : Nat
  length : Nat
  tokenType : Nat
  tokenModifiers : Nat
  deriving DecidableEq, Repr

/-- csskit_lsp/src/service.rs:239-249 `semantic_tokens_full_request`: the tokens that are sent. (`Span::len` cannot underflow here, see C87.) -/
def semanticTokens (data : List (Lsp.Highlight × Nat × Nat)) : List SemanticToken :=
  data.map fun x => ⟨x.2.1, x.2.2, x.1.span.stop - x.1.span.start, x.1.kind, x.1.modifier⟩

/-- csskit_lsp/src/service.rs:68-72: the style sheet that `parse_entirely` gives for a text, if there is one. -/
def parsedSheet {τ : Type} (V : Values τ) (source : List Char) : Except Panic (Option (List (CssRule τ))) :=
  ((Parser.new source).parseEntirely (cssStyleSheet V).run).map fun r => r.1.output

/-- csskit_lsp/src/service.rs:73-98: what is sent for the text that was parsed last; nothing if there is no style sheet. -/
def highlightReply {τ : Type} (V : Values τ) (source : List Char) : Except Panic (Option (List (Lsp.Highlight × Nat × Nat))) :=
  match parsedSheet V source with
  | .error e => .error e
  | .ok none => .ok none
  | .ok (some rules) =>
    match sheetVisits rules with
    | .error e => .error e
    | .ok visits => (Lsp.highlightData source (Highlighter.entries visits)).map some

end Hdx

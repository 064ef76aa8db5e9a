/-
The parsers of css_parse and css_ast, one by one, record nothing but whitespace and comments as trivia (see Lemmas/Tidy.lean).
-/
import Verif.Lemmas.Tidy

namespace Hdx
open Spec Prog

/-! ### css_parse -/
instance tidy_tok {test : Cursor → Prog Bool} [∀ c, Tidy (test c)] : Tidy (tok test) := by unfold tok; tidy
instance tidy_ifPeek {α : Type} {test : Cursor → Prog Bool} {body : Prog α} [∀ c, Tidy (test c)] [Tidy body] : Tidy (ifPeek test body) := by unfold ifPeek; tidy
instance tidy_isKind {k : Kind} {c : Cursor} : Tidy (isKind k c) := by unfold isKind; tidy
instance tidy_inSet {s : KindSet} {c : Cursor} : Tidy (inSet s c) := by unfold inSet; tidy
instance tidy_isDelim {ch : Char} {c : Cursor} : Tidy (isDelim ch c) := by unfold isDelim; tidy
instance tidy_isWs {c : Cursor} : Tidy (isWs c) := by unfold isWs; tidy
instance tidy_whitespace  : Tidy (whitespace ) := by unfold whitespace; tidy
instance tidy_componentValuesLoop {item : Prog ComponentValue} [Tidy item] : ∀ (x0 : Nat) (x1 : List ComponentValue), Tidy (componentValuesLoop item x0 x1)
  | 0, _ => by unfold componentValuesLoop; tidy
  | n + 1, _ => by have ih := tidy_componentValuesLoop (item := item) n; unfold componentValuesLoop; tidy
instance tidy_functionLoop {item : Prog ComponentValue} [Tidy item] : ∀ (x0 : Nat) (x1 : List ComponentValue), Tidy (functionLoop item x0 x1)
  | 0, _ => by unfold functionLoop; tidy
  | n + 1, _ => by have ih := tidy_functionLoop (item := item) n; unfold functionLoop; tidy
instance tidy_functionBlock {item : Prog ComponentValue} {fuel : Nat} [Tidy item] : Tidy (functionBlock item fuel) := by unfold functionBlock; tidy
instance tidy_simpleBlock {item : Prog ComponentValue} {fuel : Nat} [Tidy item] : Tidy (simpleBlock item fuel) := by unfold simpleBlock; tidy
instance tidy_componentValue  : ∀ (x0 : Nat), Tidy (componentValue x0)
  | 0 => by unfold componentValue; tidy
  | n + 1 => by have ih := tidy_componentValue  n; unfold componentValue; tidy
instance tidy_componentValues {fuel : Nat} : Tidy (componentValues fuel) := by unfold componentValues; tidy
instance tidy_isBangImportant {c : Cursor} : Tidy (isBangImportant c) := by unfold isBangImportant; tidy
instance tidy_Prog_eqIgnoreAsciiCase {c : Cursor} {other : List Char} : Tidy (Prog.eqIgnoreAsciiCase c other) := by unfold Prog.eqIgnoreAsciiCase; tidy
instance tidy_bangImportant  : Tidy (bangImportant ) := by unfold bangImportant; tidy
instance tidy_isDeclaration {c : Cursor} : Tidy (isDeclaration c) := by unfold isDeclaration; tidy
instance tidy_declaration {fuel : Nat} : Tidy (declaration fuel) := by unfold declaration; tidy
instance tidy_badDeclarationLoop {item : Prog ComponentValue} [Tidy item] : ∀ (x0 : Nat) (x1 : List ComponentValue), Tidy (badDeclarationLoop item x0 x1)
  | 0, _ => by unfold badDeclarationLoop; tidy
  | n + 1, _ => by have ih := tidy_badDeclarationLoop (item := item) n; unfold badDeclarationLoop; tidy
instance tidy_badDeclaration {fuel : Nat} : Tidy (badDeclaration fuel) := by unfold badDeclaration; tidy
instance tidy_qualifiedLead  : Tidy (qualifiedLead ) := by unfold qualifiedLead; tidy
instance tidy_qualifiedRule {α β γ : Type} {prelude : Prog α} {block : Prog β} {bad : Prog γ} [Tidy prelude] [Tidy block] [Tidy bad] : Tidy (qualifiedRule prelude block bad) := by unfold qualifiedRule; tidy
instance tidy_atRule {α β : Type} {name : Option (List Char)} {prelude : Prog α} {block : Prog β} [Tidy prelude] [Tidy block] : Tidy (atRule name prelude block) := by unfold atRule; tidy
instance tidy_blockLoop {δ ρ : Type} {isDecl : Cursor → Prog Bool} {decl : Prog δ} {rule : Prog ρ} [∀ c, Tidy (isDecl c)] [Tidy decl] [Tidy rule] : ∀ (x0 : Nat) (x1 : List (δ × Option Cursor)) (x2 : List ρ), Tidy (blockLoop isDecl decl rule x0 x1 x2)
  | 0, _, _ => by unfold blockLoop; tidy
  | n + 1, _, _ => by have ih := tidy_blockLoop (isDecl := isDecl) (decl := decl) (rule := rule) n; unfold blockLoop; tidy
instance tidy_blockOf {δ ρ : Type} {isDecl : Cursor → Prog Bool} {decl : Prog δ} {rule : Prog ρ} {fuel : Nat} [∀ c, Tidy (isDecl c)] [Tidy decl] [Tidy rule] : Tidy (blockOf isDecl decl rule fuel) := by unfold blockOf; tidy
instance tidy_block {rule : Prog Rule} {fuel : Nat} [Tidy rule] : Tidy (block rule fuel) := by unfold block; tidy
instance tidy_optionalBlock {rule : Prog Rule} {fuel : Nat} [Tidy rule] : Tidy (optionalBlock rule fuel) := by unfold optionalBlock; tidy
instance tidy_genericAtRule {rule : Prog Rule} {fuel : Nat} [Tidy rule] : Tidy (genericAtRule rule fuel) := by unfold genericAtRule; tidy
instance tidy_genericQualifiedRule {rule : Prog Rule} {fuel : Nat} [Tidy rule] : Tidy (genericQualifiedRule rule fuel) := by unfold genericQualifiedRule; tidy
instance tidy_rule  : ∀ (x0 : Nat), Tidy (rule x0)
  | 0 => by unfold rule; tidy
  | n + 1 => by have ih := tidy_rule  n; unfold rule; tidy
instance tidy_styleSheetLoop {ρ : Type} {rule : Prog ρ} [Tidy rule] : ∀ (x0 : Nat) (x1 : List ρ), Tidy (styleSheetLoop rule x0 x1)
  | 0, _ => by unfold styleSheetLoop; tidy
  | n + 1, _ => by have ih := tidy_styleSheetLoop (rule := rule) n; unfold styleSheetLoop; tidy
instance tidy_styleSheet  : Tidy (styleSheet ) := by unfold styleSheet; tidy

/-! ### Nth -/
instance tidy_Prog_strLower {c : Cursor} : Tidy (Prog.strLower c) := by unfold Prog.strLower; tidy
instance tidy_any  : Tidy (any ) := by unfold any; tidy
instance tidy_isCssInt {c : Cursor} : Tidy (isCssInt c) := by unfold isCssInt; tidy
instance tidy_nthNumber {a : Int} {bSign : Int} {cursors : List Cursor} : Tidy (nthNumber a bSign cursors) := by unfold nthNumber; tidy
instance tidy_nthSign {a : Int} {bSign : Int} {cursors : List Cursor} : Tidy (nthSign a bSign cursors) := by unfold nthSign; tidy
instance tidy_nthN {c : Cursor} {cursors : List Cursor} : Tidy (nthN c cursors) := by unfold nthN; tidy
instance tidy_nthFirst {c : Cursor} : Tidy (nthFirst c) := by unfold nthFirst; tidy
instance tidy_nth  : Tidy (nth ) := by unfold nth; tidy

/-! ### Features -/
instance tidy_isKeyword {names : List (List Char)} {c : Cursor} : Tidy (isKeyword names c) := by unfold isKeyword; tidy
instance tidy_buildKeyword {names : List (List Char)} {c : Cursor} : Tidy (buildKeyword names c) := by unfold buildKeyword; tidy
instance tidy_keyword {names : List (List Char)} : Tidy (keyword names) := by unfold keyword; tidy
instance tidy_isDoubleDelim {first second : Char} {c : Cursor} : Tidy (isDoubleDelim first second c) := by unfold isDoubleDelim; tidy
instance tidy_doubleDelim {first second : Char} : Tidy (doubleDelim first second) := by unfold doubleDelim; tidy
instance tidy_comparison  : Tidy (comparison ) := by unfold comparison; tidy
instance tidy_discreteFeature {ν : Type} {name : List Char} {value : Prog ν} [Tidy value] : Tidy (discreteFeature name value) := by unfold discreteFeature; tidy
instance tidy_booleanFeature {name : List Char} : Tidy (booleanFeature name) := by unfold booleanFeature; tidy
instance tidy_rangedFeature {ν : Type} {names : List (List Char)} {legacy : List Char → Bool} {value : Prog ν} [Tidy value] : Tidy (rangedFeature names legacy value) := by unfold rangedFeature; tidy
instance tidy_conditionLoop {φ : Type} {feature : Prog φ} [Tidy feature] : ∀ (x0 : Nat) (x1 : List (φ × Option Cursor)) (x2 : φ) (x3 : Cursor), Tidy (conditionLoop feature x0 x1 x2 x3)
  | 0, _, _, _ => by unfold conditionLoop; tidy
  | n + 1, _, _, _ => by have ih := tidy_conditionLoop (feature := feature) n; unfold conditionLoop; tidy
instance tidy_condition {φ : Type} {feature : Prog φ} {fuel : Nat} [Tidy feature] : Tidy (condition feature fuel) := by unfold condition; tidy

/-! ### Selectors -/
instance tidy_Prog_str {c : Cursor} : Tidy (Prog.str c) := by unfold Prog.str; tidy
instance tidy_buildTag {c : Cursor} : Tidy (buildTag c) := by unfold buildTag; tidy
instance tidy_combinator  : Tidy (combinator ) := by unfold combinator; tidy
instance tidy_adjacentPipe  : Tidy (adjacentPipe ) := by unfold adjacentPipe; tidy
instance tidy_namespacePrefix  : Tidy (namespacePrefix ) := by unfold namespacePrefix; tidy
instance tidy_isNamespaceTag {c : Cursor} : Tidy (isNamespaceTag c) := by unfold isNamespaceTag; tidy
instance tidy_namespaceTag  : Tidy (namespaceTag ) := by unfold namespaceTag; tidy
instance tidy_namespaceSelector  : Tidy (namespaceSelector ) := by unfold namespaceSelector; tidy
instance tidy_isAttributeOperator {c : Cursor} : Tidy (isAttributeOperator c) := by unfold isAttributeOperator; tidy
instance tidy_attributeOperator  : Tidy (attributeOperator ) := by unfold attributeOperator; tidy
instance tidy_isAttributeValue {c : Cursor} : Tidy (isAttributeValue c) := by unfold isAttributeValue; tidy
instance tidy_isAttributeModifier {c : Cursor} : Tidy (isAttributeModifier c) := by unfold isAttributeModifier; tidy
instance tidy_attributeModifier  : Tidy (attributeModifier ) := by unfold attributeModifier; tidy
instance tidy_attributeRest {opening : Cursor} {pre : Option NamespacePrefix} {name : Cursor} : Tidy (attributeRest opening pre name) := by unfold attributeRest; tidy
instance tidy_attributeName {opening name : Cursor} : Tidy (attributeName opening name) := by unfold attributeName; tidy
instance tidy_attributeSelector  : Tidy (attributeSelector ) := by unfold attributeSelector; tidy
instance tidy_colonColon  : Tidy (colonColon ) := by unfold colonColon; tidy
instance tidy_adjacentName {names : List (List Char)} : Tidy (adjacentName names) := by unfold adjacentName; tidy
instance tidy_pseudoClassOf {names : List (List Char)} : Tidy (pseudoClassOf names) := by unfold pseudoClassOf; tidy
instance tidy_isPseudoClassOf {names : List (List Char)} {c : Cursor} : Tidy (isPseudoClassOf names c) := by unfold isPseudoClassOf; tidy
instance tidy_pseudoElementOf {names : List (List Char)} : Tidy (pseudoElementOf names) := by unfold pseudoElementOf; tidy
instance tidy_tryVendors {α : Type} {parse : Vendor → Prog α} {otherwise : Prog (Vendor × α)} [∀ c, Tidy (parse c)] [Tidy otherwise] : ∀ (x0 : List Vendor), Tidy (tryVendors parse otherwise x0)
  | [] => by unfold tryVendors; tidy
  | v :: vs => by have ih := tidy_tryVendors (parse := parse) (otherwise := otherwise) vs; unfold tryVendors; tidy
instance tidy_failReading {α : Type} {c : Cursor} : Tidy (failReading (α := α) c) := by unfold failReading; tidy
instance tidy_pseudoClass  : Tidy (pseudoClass ) := by unfold pseudoClass; tidy
instance tidy_pseudoElementParts  : Tidy (pseudoElementParts ) := by unfold pseudoElementParts; tidy
instance tidy_pseudoElement  : Tidy (pseudoElement ) := by unfold pseudoElement; tidy
instance tidy_isFunctionOf {names : List (List Char)} {c : Cursor} : Tidy (isFunctionOf names c) := by unfold isFunctionOf; tidy
instance tidy_functionOf {names : List (List Char)} : Tidy (functionOf names) := by unfold functionOf; tidy
instance tidy_optionalClose  : Tidy (optionalClose ) := by unfold optionalClose; tidy
instance tidy_langValue  : Tidy (langValue ) := by unfold langValue; tidy
instance tidy_langValues  : ∀ (x0 : Nat) (x1 : List (Cursor × Option Cursor)), Tidy (langValues x0 x1)
  | 0, _ => by unfold langValues; tidy
  | n + 1, _ => by have ih := tidy_langValues  n; unfold langValues; tidy
instance tidy_functionalPseudoClassValue {list : Prog (List (List Sel × Option Cursor))} {fuel : Nat} {colon : Cursor} {name : List Char} {function : Cursor} [Tidy list] : Tidy (functionalPseudoClassValue list fuel colon name function) := by unfold functionalPseudoClassValue; tidy
instance tidy_functionalPseudoClass {list : Prog (List (List Sel × Option Cursor))} {fuel : Nat} [Tidy list] : Tidy (functionalPseudoClass list fuel) := by unfold functionalPseudoClass; tidy
instance tidy_partLoop  : ∀ (x0 : Nat) (x1 : List Cursor), Tidy (partLoop x0 x1)
  | 0, _ => by unfold partLoop; tidy
  | n + 1, _ => by have ih := tidy_partLoop  n; unfold partLoop; tidy
instance tidy_functionalPseudoElement {compound : Prog (List Sel)} {fuel : Nat} [Tidy compound] : Tidy (functionalPseudoElement compound fuel) := by unfold functionalPseudoElement; tidy
instance tidy_classSelector  : Tidy (classSelector ) := by unfold classSelector; tidy
instance tidy_selIdent {skip : KindSet} [Sweeps skip] : Tidy (selIdent skip) := by unfold selIdent; tidy
instance tidy_selHash {skip : KindSet} [Sweeps skip] : Tidy (selHash skip) := by unfold selHash; tidy
instance tidy_selDot {skip : KindSet} [Sweeps skip] : Tidy (selDot skip) := by unfold selDot; tidy
instance tidy_selStar {skip : KindSet} [Sweeps skip] : Tidy (selStar skip) := by unfold selStar; tidy
instance tidy_selDelim {skip : KindSet} [Sweeps skip] : Tidy (selDelim skip) := by unfold selDelim; tidy
instance tidy_selColonColon {compound : Prog (List Sel)} {fuel : Nat} {skip : KindSet} [Tidy compound] [Sweeps skip] : Tidy (selColonColon compound fuel skip) := by unfold selColonColon; tidy
instance tidy_selColonIdent {skip : KindSet} {c : Cursor} [Sweeps skip] : Tidy (selColonIdent skip c) := by unfold selColonIdent; tidy
instance tidy_selColon {compound : Prog (List Sel)} {list : Prog (List (List Sel × Option Cursor))} {fuel : Nat} {skip : KindSet} {c : Cursor} [Tidy compound] [Tidy list] [Sweeps skip] : Tidy (selColon compound list fuel skip c) := by unfold selColon; tidy
instance tidy_selOther {skip : KindSet} [Sweeps skip] : Tidy (selOther skip) := by unfold selOther; tidy
instance tidy_selectorComponent {compound : Prog (List Sel)} {list : Prog (List (List Sel × Option Cursor))} {fuel : Nat} [Tidy compound] [Tidy list] : Tidy (selectorComponent compound list fuel) := by unfold selectorComponent; tidy
instance tidy_compoundLoop {component : Prog Sel} [Tidy component] : ∀ (x0 : Nat) (x1 : List Sel), Tidy (compoundLoop component x0 x1)
  | 0, _ => by unfold compoundLoop; tidy
  | n + 1, _ => by have ih := tidy_compoundLoop (component := component) n; unfold compoundLoop; tidy
instance tidy_selectorListLoop {compound : Prog (List Sel)} [Tidy compound] : ∀ (x0 : Nat) (x1 : List (List Sel × Option Cursor)), Tidy (selectorListLoop compound x0 x1)
  | 0, _ => by unfold selectorListLoop; tidy
  | n + 1, _ => by have ih := tidy_selectorListLoop (compound := compound) n; unfold selectorListLoop; tidy
instance tidy_compoundSelector  : ∀ (x0 : Nat), Tidy (compoundSelector x0)
  | 0 => by unfold compoundSelector; tidy
  | n + 1 => by have ih := tidy_compoundSelector  n; unfold compoundSelector; tidy
instance tidy_selectorListFuel {n : Nat} : Tidy (selectorListFuel n) := by unfold selectorListFuel; tidy
instance tidy_selectorList  : Tidy (selectorList ) := by unfold selectorList; tidy

/-! ### Media -/
instance tidy_isDimensionOf {u : DimensionUnit} {c : Cursor} : Tidy (isDimensionOf u c) := by unfold isDimensionOf; tidy
instance tidy_isAnyDimension  : ∀ (x0 : List DimensionUnit) (x1 : Cursor), Tidy (isAnyDimension x0 x1)
  | [], _ => by unfold isAnyDimension; tidy
  | v :: vs, _ => by have ih := tidy_isAnyDimension  vs; unfold isAnyDimension; tidy
instance tidy_isLength {c : Cursor} : Tidy (isLength c) := by unfold isLength; tidy
instance tidy_isCssFloat {c : Cursor} : Tidy (isCssFloat c) := by unfold isCssFloat; tidy
instance tidy_ratio  : Tidy (ratio ) := by unfold ratio; tidy
instance tidy_MediaValue_parser  {x0 : MediaValue} : Tidy (MediaValue.parser x0) := by unfold MediaValue.parser; tidy
instance tidy_todoParser {α : Type} : Tidy (todoParser (α := α) ) := by unfold todoParser; tidy
instance tidy_mediaFeatureOf {variant : List Char} {x0 : MediaSpec} : Tidy (mediaFeatureOf variant x0) := by unfold mediaFeatureOf; tidy
instance tidy_hackFeature  : Tidy (hackFeature ) := by unfold hackFeature; tidy
instance tidy_mediaFeature  : Tidy (mediaFeature ) := by unfold mediaFeature; tidy
instance tidy_isMediaType {c : Cursor} : Tidy (isMediaType c) := by unfold isMediaType; tidy
instance tidy_buildMediaType {c : Cursor} : Tidy (buildMediaType c) := by unfold buildMediaType; tidy
instance tidy_mediaQueryRest {fuel : Nat} {pre : Option (List Char × Cursor)} {type : Option (Option (List Char) × Cursor)} : Tidy (mediaQueryRest fuel pre type) := by unfold mediaQueryRest; tidy
instance tidy_mediaQuery {fuel : Nat} : Tidy (mediaQuery fuel) := by unfold mediaQuery; tidy
instance tidy_containerFeatureOf {c : Cursor} : Tidy (containerFeatureOf c) := by unfold containerFeatureOf; tidy
instance tidy_containerFeature  : Tidy (containerFeature ) := by unfold containerFeature; tidy
instance tidy_containerCondition {fuel : Nat} : Tidy (containerCondition fuel) := by unfold containerCondition; tidy

/-! ### Lists -/
instance tidy_ruleListLoop {ρ : Type} {item : Prog ρ} [Tidy item] : ∀ (x0 : Nat) (x1 : List ρ), Tidy (ruleListLoop item x0 x1)
  | 0, _ => by unfold ruleListLoop; tidy
  | n + 1, _ => by have ih := tidy_ruleListLoop (item := item) n; unfold ruleListLoop; tidy
instance tidy_ruleList {ρ : Type} {item : Prog ρ} {fuel : Nat} [Tidy item] : Tidy (ruleList item fuel) := by unfold ruleList; tidy
instance tidy_declarationListLoop {δ : Type} {item : Prog δ} [Tidy item] : ∀ (x0 : Nat) (x1 : List (δ × Option Cursor)), Tidy (declarationListLoop item x0 x1)
  | 0, _ => by unfold declarationListLoop; tidy
  | n + 1, _ => by have ih := tidy_declarationListLoop (item := item) n; unfold declarationListLoop; tidy
instance tidy_declarationList {δ : Type} {item : Prog δ} {fuel : Nat} [Tidy item] : Tidy (declarationList item fuel) := by unfold declarationList; tidy
instance tidy_declarationRuleListLoop {δ ρ : Type} {decl : Prog δ} {rule : Prog ρ} [Tidy decl] [Tidy rule] : ∀ (x0 : Nat) (x1 : List (δ × Option Cursor)) (x2 : List ρ), Tidy (declarationRuleListLoop decl rule x0 x1 x2)
  | 0, _, _ => by unfold declarationRuleListLoop; tidy
  | n + 1, _, _ => by have ih := tidy_declarationRuleListLoop (decl := decl) (rule := rule) n; unfold declarationRuleListLoop; tidy
instance tidy_declarationRuleList {δ ρ : Type} {decl : Prog δ} {rule : Prog ρ} {fuel : Nat} [Tidy decl] [Tidy rule] : Tidy (declarationRuleList decl rule fuel) := by unfold declarationRuleList; tidy
instance tidy_commaPreludeLoop {α : Type} {item : Prog α} [Tidy item] : ∀ (x0 : Nat) (x1 : List (α × Option Cursor)), Tidy (commaPreludeLoop item x0 x1)
  | 0, _ => by unfold commaPreludeLoop; tidy
  | n + 1, _ => by have ih := tidy_commaPreludeLoop (item := item) n; unfold commaPreludeLoop; tidy
instance tidy_commaPrelude {α : Type} {item : Prog α} {fuel : Nat} [Tidy item] : Tidy (commaPrelude item fuel) := by unfold commaPrelude; tidy
instance tidy_preludeLoop {α : Type} {item : Prog α} [Tidy item] : ∀ (x0 : Nat) (x1 : List α), Tidy (preludeLoop item x0 x1)
  | 0, _ => by unfold preludeLoop; tidy
  | n + 1, _ => by have ih := tidy_preludeLoop (item := item) n; unfold preludeLoop; tidy
instance tidy_preludeList {α : Type} {item : Prog α} {fuel : Nat} [Tidy item] : Tidy (preludeList item fuel) := by unfold preludeList; tidy
instance tidy_noPrelude  : Tidy (noPrelude ) := by unfold noPrelude; tidy
instance tidy_declarationOf {ν : Type} {valid : Cursor → Prog Bool} {value : Cursor → Prog ν} [∀ c, Tidy (valid c)] [∀ c, Tidy (value c)] : Tidy (declarationOf valid value) := by unfold declarationOf; tidy

/-! ### Properties -/
instance tidy_rawValue {fuel : Nat} : Tidy (rawValue fuel) := by unfold rawValue; tidy
instance tidy_isComputed {c : Cursor} : Tidy (isComputed c) := by unfold isComputed; tidy
instance tidy_valueEnds  : Tidy (valueEnds ) := by unfold valueEnds; tidy
/-- The parsers of the values are such. -/
class TidyValues {τ : Type} (V : Values τ) : Prop where
  out : ∀ name, Tidy (V.parser name)
instance {τ : Type} {V : Values τ} [h : TidyValues V] {name : List Char} : Tidy (V.parser name) := h.out name
instance tidy_typedValue {τ : Type} {V : Values τ} [TidyValues V] {name : Cursor} : Tidy (typedValue V name) := by unfold typedValue; tidy
instance tidy_styleValue {τ : Type} {V : Values τ} [TidyValues V] {fuel : Nat} {name : Cursor} : Tidy (styleValue V fuel name) := by unfold styleValue; tidy
instance tidy_property {τ : Type} {V : Values τ} [TidyValues V] {fuel : Nat} : Tidy (property V fuel) := by unfold property; tidy

/-! ### AtRules -/

instance tidy_keyframesName  : Tidy (keyframesName ) := by unfold keyframesName; tidy
instance tidy_keyframeSelector  : Tidy (keyframeSelector ) := by unfold keyframeSelector; tidy
instance tidy_layerNameLoop  : ∀ (x0 : Nat) (x1 : List (Cursor × Cursor)), Tidy (layerNameLoop x0 x1)
  | 0, _ => by unfold layerNameLoop; tidy
  | n + 1, _ => by have ih := tidy_layerNameLoop  n; unfold layerNameLoop; tidy
instance tidy_layerName {fuel : Nat} : Tidy (layerName fuel) := by unfold layerName; tidy
instance tidy_pagePseudoClass  : Tidy (pagePseudoClass ) := by unfold pagePseudoClass; tidy
instance tidy_pagePseudosLoop  : ∀ (x0 : Nat) (x1 : List (List Char × Cursor × Cursor)), Tidy (pagePseudosLoop x0 x1)
  | 0, _ => by unfold pagePseudosLoop; tidy
  | n + 1, _ => by have ih := tidy_pagePseudosLoop  n; unfold pagePseudosLoop; tidy
instance tidy_pageSelector {fuel : Nat} : Tidy (pageSelector fuel) := by unfold pageSelector; tidy
instance tidy_documentMatcher  : Tidy (documentMatcher ) := by unfold documentMatcher; tidy
instance tidy_propertyRuleValue {fuel : Nat} {name : Cursor} : Tidy (propertyRuleValue fuel name) := by unfold propertyRuleValue; tidy
instance tidy_propertyRuleProperty {fuel : Nat} : Tidy (propertyRuleProperty fuel) := by unfold propertyRuleProperty; tidy
instance tidy_fontFaceProperty {τ : Type} {V : Values τ} [TidyValues V] {fuel : Nat} : Tidy (fontFaceProperty V fuel) := by unfold fontFaceProperty; tidy
instance tidy_keyframe {τ : Type} {V : Values τ} [TidyValues V] {fuel : Nat} : Tidy (keyframe V fuel) := by unfold keyframe; tidy
instance tidy_marginRule {τ : Type} {V : Values τ} [TidyValues V] {fuel : Nat} : Tidy (marginRule V fuel) := by unfold marginRule; tidy
instance tidy_supportsFeature {τ : Type} {V : Values τ} [TidyValues V] {fuel : Nat} : Tidy (supportsFeature V fuel) := by unfold supportsFeature; tidy
instance tidy_supportsCondition {τ : Type} {V : Values τ} [TidyValues V] {fuel : Nat} : Tidy (supportsCondition V fuel) := by unfold supportsCondition; tidy
instance tidy_charsetRule {τ : Type}  : Tidy (charsetRule (τ := τ) ) := by unfold charsetRule; tidy
instance tidy_missingPrelude {α : Type} {start : Nat} : Tidy (missingPrelude (α := α) start) := by unfold missingPrelude; tidy
instance tidy_containerRule {τ : Type} {rule : Prog (CssRule τ)} {fuel : Nat} [Tidy rule] : Tidy (containerRule rule fuel) := by unfold containerRule; tidy
instance tidy_fontFaceRule {τ : Type} {V : Values τ} [TidyValues V] {fuel : Nat} : Tidy (fontFaceRule V fuel) := by unfold fontFaceRule; tidy
instance tidy_keyframesRule {τ : Type} {V : Values τ} [TidyValues V] {fuel : Nat} : Tidy (keyframesRule V fuel) := by unfold keyframesRule; tidy
instance tidy_webkitKeyframesRule {τ : Type} {V : Values τ} [TidyValues V] {fuel : Nat} : Tidy (webkitKeyframesRule V fuel) := by unfold webkitKeyframesRule; tidy
instance tidy_layerBlock {τ : Type} {rule : Prog (CssRule τ)} {fuel : Nat} [Tidy rule] : Tidy (layerBlock rule fuel) := by unfold layerBlock; tidy
instance tidy_layerRule {τ : Type} {rule : Prog (CssRule τ)} {fuel : Nat} [Tidy rule] : Tidy (layerRule rule fuel) := by unfold layerRule; tidy
instance tidy_mediaRule {τ : Type} {V : Values τ} [TidyValues V] {rule : Prog (CssRule τ)} {fuel : Nat} [Tidy rule] : Tidy (mediaRule V rule fuel) := by unfold mediaRule; tidy
instance tidy_pageRule {τ : Type} {V : Values τ} [TidyValues V] {fuel : Nat} : Tidy (pageRule V fuel) := by unfold pageRule; tidy
instance tidy_propertyRule {τ : Type} {fuel : Nat} : Tidy (propertyRule (τ := τ) fuel) := by unfold propertyRule; tidy
instance tidy_supportsRule {τ : Type} {V : Values τ} [TidyValues V] {rule : Prog (CssRule τ)} {fuel : Nat} [Tidy rule] : Tidy (supportsRule V rule fuel) := by unfold supportsRule; tidy
instance tidy_documentRule {τ : Type} {moz : Bool} {rule : Prog (CssRule τ)} {fuel : Nat} [Tidy rule] : Tidy (documentRule moz rule fuel) := by unfold documentRule; tidy
/-- One step down a chain of tests. -/
theorem ite_some {α : Type u} {P : α → Prop} {b : Prop} [Decidable b] {y z : Option α} (hy : ∀ {x}, y = some x → P x)
    (hz : ∀ {x}, z = some x → P x) : ∀ {x}, (if b then y else z) = some x → P x := by
  intro x h
  split at h
  · exact hy h
  · exact hz h

theorem tidy_knownAtRule {τ : Type} {V : Values τ} [TidyValues V] {rule : Prog (CssRule τ)} {fuel : Nat} {nested : Bool} {name : List Char} [Tidy rule] {x : Prog (CssRule τ)}
    (h : knownAtRule V rule fuel nested name = some x) : Tidy x := by
  revert x
  unfold knownAtRule
  repeat' (refine ite_some ?_ ?_)
  all_goals (intro x e; cases e; try infer_instance)
instance tidy_unknownAtRule {τ : Type} {generic : Prog Rule} {fuel : Nat} [Tidy generic] : Tidy (unknownAtRule (τ := τ) generic fuel) := by unfold unknownAtRule; tidy
instance tidy_unknownQualifiedRule {τ : Type} {generic : Prog Rule} {fuel : Nat} [Tidy generic] : Tidy (unknownQualifiedRule (τ := τ) generic fuel) := by unfold unknownQualifiedRule; tidy
instance tidy_atCssRule {τ : Type} {V : Values τ} [TidyValues V] {rule : Prog (CssRule τ)} {generic : Prog Rule} {fuel : Nat} {nested : Bool} [Tidy rule] [Tidy generic] : Tidy (atCssRule V rule generic fuel nested) := by
  unfold atCssRule
  refine Tidy.bind inferInstance fun c => Tidy.bind inferInstance fun s => ?_
  split
  · tidy
  · next h => have := tidy_knownAtRule h; tidy
instance tidy_styleRule {τ : Type} {V : Values τ} [TidyValues V] {nestedRule : Prog (CssRule τ)} {fuel : Nat} [Tidy nestedRule] : Tidy (styleRule V nestedRule fuel) := by unfold styleRule; tidy
instance tidy_badRule {τ : Type} {fuel : Nat} : Tidy (badRule (τ := τ) fuel) := by unfold badRule; tidy
instance tidy_qualifiedCssRule {τ : Type} {V : Values τ} [TidyValues V] {nestedRule : Prog (CssRule τ)} {generic : Prog Rule} {fuel : Nat} {nested : Bool} [Tidy nestedRule] [Tidy generic] : Tidy (qualifiedCssRule V nestedRule generic fuel nested) := by unfold qualifiedCssRule; tidy
instance tidy_cssRule {τ : Type} {V : Values τ} [TidyValues V]  : ∀ (x0 : Nat) (x1 : Bool), Tidy (cssRule V x0 x1)
  | 0, _ => by unfold cssRule; tidy
  | n + 1, _ => by have ih := tidy_cssRule (V := V)  n; unfold cssRule; tidy
instance tidy_cssStyleSheet {τ : Type} {V : Values τ} [TidyValues V]  : Tidy (cssStyleSheet V ) := by unfold cssStyleSheet; tidy

end Hdx

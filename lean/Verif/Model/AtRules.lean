/-
The style sheets of css_ast: css_ast/src/stylesheet.rs, css_ast/src/stylerule.rs and the at-rules in css_ast/src/rules.

The at-rules that are declared as `Todo` (color-profile, counter-style, font-feature-values, font-palette-values, import, namespace,
scope, starting-style) have a parser that always fails.
-/
import Verif.Model.Media

namespace Hdx
open Prog

/-! ### Parts of at-rules -/

/-- css_ast/src/rules/keyframes.rs:60: the names `valid_ident` refuses. -/
def RESERVED_KEYFRAMES : List (List Char) := [c!"default", c!"initial", c!"inherit", c!"unset", c!"none"]

/-- css_ast/src/rules/keyframes.rs:71-84 `Parse for KeyframesName`; the kind of the cursor tells the variant. -/
def keyframesName : Prog Cursor := do
  let c ← peek
  if c.token.isKind .string then tok (isKind .string)
  else do
    let c ← tok (isKind .ident)
    let s ← Prog.str c
    if RESERVED_KEYFRAMES.contains s then fail .other c else pure c

/-- css_ast/src/rules/keyframes.rs:248-252 `KeyframeSelector`. -/
inductive KeyframeSelector where
  | from (c : Cursor)
  | to (c : Cursor)
  | percent (c : Cursor)
  deriving DecidableEq, Repr

/-- Rust's `(0.0..=100.0).contains(&f)`, on the bits of a float: the bits of floats that are not negative are in the order of the floats;
100.0 is 0x42c80000, and -0.0 is 0x80000000. -/
def f32UpTo100 (w : BitVec 32) : Bool := w.toNat ≤ 0x42c80000 || w == 0x80000000#32

/-- css_ast/src/rules/keyframes.rs:262-279 `Parse for KeyframeSelector`. -/
def keyframeSelector : Prog KeyframeSelector := do
  match ← ifPeek (isKeyword [c!"from", c!"to"]) (keyword [c!"from", c!"to"]) with
  | some (k, c) => if k == c!"from" then pure (.from c) else pure (.to c)
  | none => do
    let c ← tok (isDimensionOf .percent)
    if f32UpTo100 c.token.value then pure (.percent c) else fail .other c

/-- css_ast/src/rules/keyframes.rs:281-289 `From<KeyframeSelector> for Cursor`. -/
def KeyframeSelector.cursor : KeyframeSelector → Cursor
  | .from c => c
  | .to c => c
  | .percent c => c

/-- css_ast/src/rules/layer.rs:97 `LayerName`. -/
structure LayerName where
  first : Cursor
  parts : List (Cursor × Cursor)
  deriving DecidableEq, Repr

/-- css_ast/src/rules/layer.rs:103-111: the loop of `Parse for LayerName`. -/
def layerNameLoop : Nat → List (Cursor × Cursor) → Prog (List (Cursor × Cursor))
  | 0, _ => .panic .diverges
  | n + 1, parts => do
    let c ← peek
    if ← isDelim '.' c then do
      let dot ← tok (isDelim '.')
      let ident ← tok (isKind .ident)
      layerNameLoop n (parts ++ [(dot, ident)])
    else pure parts

/-- css_ast/src/rules/layer.rs:99-113 `Parse for LayerName`. -/
def layerName (fuel : Nat) : Prog LayerName := do
  let first ← tok (isKind .ident)
  let parts ← layerNameLoop fuel []
  pure ⟨first, parts⟩

/-- css_ast/src/rules/layer.rs:118-121. -/
def layerPartsCursors : List (Cursor × Cursor) → List Cursor
  | [] => []
  | (dot, ident) :: ps => dot :: ident :: layerPartsCursors ps
/-- css_ast/src/rules/layer.rs:115-123 `ToCursors for LayerName`. -/
def LayerName.cursors (l : LayerName) : List Cursor := l.first :: layerPartsCursors l.parts

/-- css_ast/src/rules/page.rs:96-99 `PageSelector`, 145-150 `PagePseudoClass`: the key of the keyword, the colon, the ident. -/
structure PageSel where
  pageType : Option Cursor
  pseudos : List (List Char × Cursor × Cursor)
  deriving DecidableEq, Repr

/-- css_ast/src/rules/page.rs:152 `PagePseudoClassKeyword`. -/
def PAGE_PSEUDO_CLASSES : List (List Char) := [c!"left", c!"right", c!"first", c!"blank"]

/-- css_ast/src/rules/page.rs:154-170 `Parse for PagePseudoClass`. -/
def pagePseudoClass : Prog (List Char × Cursor × Cursor) := do
  let colon ← tok (isKind .colon)
  setSkip KindSet.NONE fun skip => do
    let k ← result (keyword PAGE_PSEUDO_CLASSES)
    setSkip skip fun _ => do
      let (k, ident) ← ofResult k
      pure (k, colon, ident)

/-- css_ast/src/rules/page.rs:105-111: the loop of `Parse for PageSelector`. -/
def pagePseudosLoop : Nat → List (List Char × Cursor × Cursor) → Prog (List (List Char × Cursor × Cursor))
  | 0, _ => .panic .diverges
  | n + 1, pseudos => do
    let c ← peek
    if c.token.isKind .colon then do
      let x ← pagePseudoClass
      pagePseudosLoop n (pseudos ++ [x])
    else pure pseudos

/-- css_ast/src/rules/page.rs:101-113 `Parse for PageSelector`. -/
def pageSelector (fuel : Nat) : Prog PageSel := do
  let pageType ← ifPeek (isKind .ident) (tok (isKind .ident))
  let pseudos ← pagePseudosLoop fuel []
  pure ⟨pageType, pseudos⟩

/-- css_ast/src/rules/page.rs:120-122. -/
def pagePseudosCursors : List (List Char × Cursor × Cursor) → List Cursor
  | [] => []
  | (_, colon, ident) :: ps => colon :: ident :: pagePseudosCursors ps
/-- css_ast/src/rules/page.rs:115-124 `ToCursors for PageSelector`, 172-193 `ToCursors for PagePseudoClass`. -/
def PageSel.cursors (s : PageSel) : List Cursor := s.pageType.toList ++ pagePseudosCursors s.pseudos

/-- css_ast/src/rules/document.rs:99-106 `DocumentMatcher`. -/
inductive DocumentMatcher where
  | url (c : Cursor)
  | urlFunction (name string close : Cursor)
  | urlPrefix (name string close : Cursor)
  | domain (name string close : Cursor)
  | mediaDocument (name string close : Cursor)
  | regexp (name string close : Cursor)
  deriving DecidableEq, Repr

/-- css_ast/src/rules/document.rs:88-94 `DocumentMatcherFunctionKeyword`. -/
def DOCUMENT_FUNCTIONS : List (List Char) := [c!"url", c!"url-prefix", c!"domain", c!"media-document", c!"regexp"]

/-- css_ast/src/rules/document.rs:108-145 `Parse for DocumentMatcher`. The last three branches of the code make a `UrlPrefix`. -/
def documentMatcher : Prog DocumentMatcher := do
  let c ← peek
  if c.token.isKind .url then do
    let c ← tok (isKind .url)
    pure (.url c)
  else do
    let (k, name) ← functionOf DOCUMENT_FUNCTIONS
    let string ← tok (isKind .string)
    let close ← tok (isKind .rightParen)
    if k == c!"url" then pure (.urlFunction name string close)
    else if k == c!"url-prefix" then pure (.urlPrefix name string close)
    else if k == c!"domain" then pure (.urlPrefix name string close)
    else if k == c!"media-document" then pure (.urlPrefix name string close)
    else pure (.urlPrefix name string close)

/-- css_ast/src/rules/document.rs:147-162 `ToCursors for DocumentMatcher`. -/
def DocumentMatcher.cursors : DocumentMatcher → List Cursor
  | .url c => [c]
  | .urlFunction n s c | .urlPrefix n s c | .domain n s c | .mediaDocument n s c | .regexp n s c => [n, s, c]

/-- css_ast/src/rules/property.rs:132-137 `PropertyRuleStyleValue`. -/
inductive PropertyRuleValue where
  | initialValue (values : List ComponentValue)
  | syntax (c : Cursor)
  | inherits (keyword : List Char) (c : Cursor)
  | unknown (values : List ComponentValue)
  deriving Repr

/-- css_ast/src/rules/property.rs:139 `PropertyRulePropertyId`. -/
def PROPERTY_RULE_NAMES : List (List Char) := [c!"initial-value", c!"inherits", c!"syntax"]

/-- css_ast/src/rules/property.rs:143-155 `parse_declaration_value`. -/
def propertyRuleValue (fuel : Nat) (name : Cursor) : Prog PropertyRuleValue := do
  if ← isKeyword PROPERTY_RULE_NAMES name then do
    let (k, _) ← buildKeyword PROPERTY_RULE_NAMES name
    if k == c!"initial-value" then do
      let vs ← componentValues fuel
      pure (.initialValue vs)
    else if k == c!"inherits" then do
      let (k, c) ← keyword [c!"true", c!"false"]
      pure (.inherits k c)
    else do
      let c ← tok (isKind .string)
      pure (.syntax c)
  else do
    let vs ← componentValues fuel
    pure (.unknown vs)

/-- css_ast/src/rules/property.rs:101-110 `Parse for PropertyRuleProperty`. -/
def propertyRuleProperty (fuel : Nat) : Prog (Decl PropertyRuleValue) := do
  let d ← declarationOf (fun _ => pure true) (propertyRuleValue fuel)
  match d.important with
  | some i => fail .other i.bang
  | none => pure d

/-- css_ast/src/rules/property.rs:157-170 `ToCursors for PropertyRuleStyleValue`. -/
def PropertyRuleValue.cursors : PropertyRuleValue → List Cursor
  | .initialValue vs => ComponentValue.cursorsOf vs
  | .syntax c => [c]
  | .inherits _ c => [c]
  | .unknown vs => ComponentValue.cursorsOf vs

/-- css_ast/src/rules/font_face.rs:96-111 `FontFaceRulePropertyId`. -/
def FONT_FACE_NAMES : List (List Char) := [c!"ascent-override", c!"descent-override", c!"font-display", c!"font-family",
  c!"font-feature-settings", c!"font-language-override", c!"font-named-instance", c!"font-style", c!"font-variation-settings",
  c!"font-weight", c!"font-width", c!"line-gap-override", c!"src", c!"unicode-range"]

/-- css_ast/src/rules/page.rs:278-295 `MarginRuleKeyword`. -/
def MARGIN_NAMES : List (List Char) := [c!"top-left-corner", c!"top-left", c!"top-center", c!"top-right", c!"top-right-corner",
  c!"right-top", c!"right-middle", c!"right-bottom", c!"bottom-right-corner", c!"bottom-right", c!"bottom-center", c!"bottom-left",
  c!"bottom-left-corner", c!"left-bottom", c!"left-middle", c!"left-top"]

section
variable {τ : Type} (V : Values τ)

/-- css_ast/src/rules/font_face.rs:113-125 `Parse for FontFaceRuleProperty`. -/
def fontFaceProperty (fuel : Nat) : Prog (Decl (StyleValue τ)) := declarationOf (isKeyword FONT_FACE_NAMES) (styleValue V fuel)

/-- css_ast/src/rules/keyframes.rs:137-140 `Keyframe`. -/
structure Keyframe (τ : Type) where
  selectors : List (KeyframeSelector × Option Cursor)
  block : ListBlock (Decl (StyleValue τ) × Option Cursor)

/-- css_ast/src/rules/keyframes.rs:142-153 `Parse for Keyframe`, 178-182, 215-220. -/
def keyframe (fuel : Nat) : Prog (Keyframe τ) := do
  let (selectors, block) ← qualifiedRule (commaPrelude keyframeSelector fuel) (declarationList (property V fuel) fuel)
    (badDeclaration fuel)
  pure ⟨selectors, block⟩

/-- css_ast/src/rules/keyframes.rs:155-160 `ToCursors for Keyframe`, 184-193, 222-235. -/
def Keyframe.cursors (k : Keyframe τ) : List Cursor :=
  pairsCursors (fun s => [s.cursor]) k.selectors ++ k.block.pairCursors (Decl.cursors (StyleValue.cursors V))

/-- css_ast/src/rules/page.rs:268-271 `MarginRule`. -/
structure MarginRule (τ : Type) where
  atKeyword : Cursor
  block : ListBlock (Decl (StyleValue τ) × Option Cursor)

/-- css_ast/src/rules/page.rs:297-306 `Parse for MarginRule`; css_parse/src/token_macros.rs:632-636 `Peek` of an `atkeyword_set!`. -/
def marginRule (fuel : Nat) : Prog (MarginRule τ) := do
  let (name, _, block) ← atRule none noPrelude (declarationList (property V fuel) fuel)
  let s ← strLower name
  if name.token.isKind .atKeyword && MARGIN_NAMES.contains s then pure ⟨name, block⟩
  else do
    let _ ← Prog.str name
    fail .other name

/-- css_ast/src/rules/page.rs:308-313 `ToCursors for MarginRule`, 342-354. -/
def MarginRule.cursors (m : MarginRule τ) : List Cursor :=
  m.atKeyword :: m.block.pairCursors (Decl.cursors (StyleValue.cursors V))

/-- css_ast/src/rules/supports.rs:205-210 `SupportsFeature`. (`FontTech` and `FontFormat` are never made: their parser is `todo!()`.) -/
inductive SupportsFeature (τ : Type) where
  | selector (opening : Option Cursor) (function : Cursor) (selectors : List (List Sel × Option Cursor)) (close : Cursor)
      (openClose : Option Cursor)
  | property (opening : Cursor) (property : Decl (StyleValue τ)) (close : Option Cursor)

/-- css_ast/src/rules/supports.rs:212 `SupportsFeatureKeyword`. -/
def SUPPORTS_FUNCTIONS : List (List Char) := [c!"font-tech", c!"font-format", c!"selector"]

/-- css_ast/src/rules/supports.rs:214-245 `Parse for SupportsFeature`; css_ast/src/selector/mod.rs `ComplexSelector` is `SelectorList`. -/
def supportsFeature (fuel : Nat) : Prog (SupportsFeature τ) := do
  let opening ← ifPeek (isKind .leftParen) (tok (isKind .leftParen))
  let c ← peek
  if c.token.isKind .function then do
    let (k, function) ← functionOf SUPPORTS_FUNCTIONS
    if k == c!"selector" then do
      let selectors ← selectorListFuel fuel
      let close ← tok (isKind .rightParen)
      if opening.isSome then do
        let openClose ← tok (isKind .rightParen)
        pure (.selector opening function selectors close (some openClose))
      else pure (.selector opening function selectors close none)
    else .panic .todo
  else
    match opening with
    | some opening => do
      let p ← property V fuel
      let close ← ifPeek (isKind .rightParen) (tok (isKind .rightParen))
      pure (.property opening p close)
    | none => do
      let c ← peekN 1
      fail .unexpected c

/-- css_ast/src/rules/supports.rs:147-154 `Parse for SupportsCondition`. -/
def supportsCondition (fuel : Nat) : Prog (Condition (SupportsFeature τ)) := do
  let c ← peek
  if c.token.isKind .function || c.token.isKind .leftParen then do
    let f ← supportsFeature V fuel
    pure (.is f)
  else condition (supportsFeature V fuel) fuel

/-- css_ast/src/rules/supports.rs:247-292 `ToCursors for SupportsFeature`. -/
def SupportsFeature.cursors : SupportsFeature τ → List Cursor
  | .selector opening function selectors close openClose =>
    opening.toList ++ (function :: (Sel.listCursors selectors ++ (close :: openClose.toList)))
  | .property opening p close => opening :: (p.cursors (StyleValue.cursors V) ++ close.toList)

end

/-! ### Rules -/

/-- css_ast/src/stylesheet.rs:129-147 `Rule` and css_ast/src/stylerule.rs:129-147 `NestedGroupRule`: the second has the variants container,
layer, media, supports, `unknownAt`, `style`, `unknown` and `bad` only, the first all but `bad`. `document` has a flag for
`MozDocumentRule`. -/
inductive CssRule (τ : Type) where
  | charset (atKeyword space string : Cursor) (semicolon : Option Cursor)
  | container (atKeyword : Cursor) (query : List ContainerCondition) (opening : Cursor) (rules : List (CssRule τ)) (close : Option Cursor)
  | fontFace (atKeyword : Cursor) (block : ListBlock (Decl (StyleValue τ)))
  | keyframes (atKeyword : Cursor) (name : Option Cursor) (block : ListBlock (Keyframe τ))
  | layerStatement (atKeyword : Cursor) (names : Option (List (LayerName × Option Cursor))) (semicolon : Cursor)
  | layerBlock (atKeyword : Cursor) (names : Option (List (LayerName × Option Cursor))) (opening : Cursor) (rules : List (CssRule τ))
      (close : Option Cursor)
  | media (atKeyword : Cursor) (query : List MediaQuery) (opening : Cursor) (declarations : List (Decl (StyleValue τ) × Option Cursor))
      (rules : List (CssRule τ)) (close : Option Cursor)
  | page (atKeyword : Cursor) (selectors : Option (List (PageSel × Option Cursor))) (block : BlockParts (Decl (StyleValue τ)) (MarginRule τ))
  | property (atKeyword name : Cursor) (block : ListBlock (Decl PropertyRuleValue × Option Cursor))
  | supports (atKeyword : Cursor) (condition : Condition (SupportsFeature τ)) (opening : Cursor) (rules : List (CssRule τ))
      (close : Option Cursor)
  | document (moz : Bool) (atKeyword : Cursor) (matchers : List (DocumentMatcher × Option Cursor)) (opening : Cursor)
      (rules : List (CssRule τ)) (close : Option Cursor)
  | webkitKeyframes (atKeyword name : Cursor) (block : ListBlock (Keyframe τ))
  | unknownAt (rule : Rule)
  | style (selectors : List (List Sel × Option Cursor)) (opening : Cursor) (declarations : List (Decl (StyleValue τ) × Option Cursor))
      (rules : List (CssRule τ)) (close : Option Cursor)
  | unknown (rule : Rule)
  | bad (values : List ComponentValue)

section
variable {τ : Type} (V : Values τ)

/-- css_ast/src/rules/charset.rs:20-38 `Parse for CharsetRule`. -/
def charsetRule : Prog (CssRule τ) := do
  let at' ← tok (isKind .atKeyword)
  if !(← Prog.eqIgnoreAsciiCase at' c!"charset") then do
    let _ ← Prog.str at'
    fail .other at'
  else do
    let space ← whitespace
    let string ← tok (isKind .string)
    let semi ← result (tok (isKind .semicolon))
    pure (.charset at' space string (okOf semi))

/-- `Err(diagnostics::MissingAtRulePrelude(Span::new(start, p.offset())))?`. -/
def missingPrelude {α : Type} (start : Nat) : Prog α := do
  let stop ← offset
  ofResult (.error ⟨.missingAtRulePrelude, ⟨start, stop⟩⟩)

/-- css_ast/src/rules/container/mod.rs:25-35 `Parse for ContainerRule`; `rule` parses the rules in the block. -/
def containerRule (rule : Prog (CssRule τ)) (fuel : Nat) : Prog (CssRule τ) := do
  let start ← offset
  let (at', query, b) ← atRule (some c!"container") (preludeList (containerCondition fuel) fuel) (ruleList rule fuel)
  match query with
  | some query => pure (.container at' query b.opening b.items b.close)
  | none => missingPrelude start

/-- css_ast/src/rules/font_face.rs:20-31 `Parse for FontFaceRule`. -/
def fontFaceRule (fuel : Nat) : Prog (CssRule τ) := do
  let (at', _, b) ← atRule (some c!"font-face") noPrelude (ruleList (fontFaceProperty V fuel) fuel)
  pure (.fontFace at' b)

/-- css_ast/src/rules/keyframes.rs:21-32 `Parse for KeyframesRule`. -/
def keyframesRule (fuel : Nat) : Prog (CssRule τ) := do
  let (at', name, b) ← atRule (some c!"keyframes") keyframesName (ruleList (keyframe V fuel) fuel)
  pure (.keyframes at' name b)

/-- css_ast/src/rules/webkit.rs:19-35 `Parse for WebkitKeyframesRule`. -/
def webkitKeyframesRule (fuel : Nat) : Prog (CssRule τ) := do
  let start ← offset
  let (at', name, b) ← atRule (some c!"-webkit-keyframes") keyframesName (ruleList (keyframe V fuel) fuel)
  match name with
  | some name => pure (.webkitKeyframes at' name b)
  | none => missingPrelude start

/-- css_ast/src/rules/layer.rs:138-146 `Parse for OptionalLayerRuleBlock`. -/
def layerBlock (rule : Prog (CssRule τ)) (fuel : Nat) : Prog (Cursor ⊕ ListBlock (CssRule τ)) := do
  match ← ifPeek (isKind .semicolon) (tok (isKind .semicolon)) with
  | some semi => pure (.inl semi)
  | none => do
    let b ← ruleList rule fuel
    pure (.inr b)

/-- css_ast/src/rules/layer.rs:22-39 `Parse for LayerRule`. -/
def layerRule (rule : Prog (CssRule τ)) (fuel : Nat) : Prog (CssRule τ) := do
  let (at', names, b) ← atRule (some c!"layer") (commaPrelude (layerName fuel) fuel) (layerBlock rule fuel)
  match b, names with
  | .inl semi, names => pure (.layerStatement at' names semi)
  | .inr b, none => pure (.layerBlock at' none b.opening b.items b.close)
  | .inr b, some names =>
    match names with
    | (first, _) :: _ :: _ => fail .other first.first
    | _ => pure (.layerBlock at' (some names) b.opening b.items b.close)

/-- css_ast/src/rules/media/mod.rs:23-39 `Parse for MediaRule`, 64-74 `MediaRules`. -/
def mediaRule (rule : Prog (CssRule τ)) (fuel : Nat) : Prog (CssRule τ) := do
  let start ← offset
  let (at', query, b) ← atRule (some c!"media") (preludeList (mediaQuery fuel) fuel)
    (blockOf isDeclaration (Hdx.property V fuel) rule fuel)
  match query with
  | some query => pure (.media at' query b.opening b.declarations b.rules b.close)
  | none => missingPrelude start

/-- css_ast/src/rules/page.rs:27-38 `Parse for PageRule`, 223-233 `PageRuleBlock`. -/
def pageRule (fuel : Nat) : Prog (CssRule τ) := do
  let (at', selectors, b) ← atRule (some c!"page") (commaPrelude (pageSelector fuel) fuel)
    (declarationRuleList (Hdx.property V fuel) (marginRule V fuel) fuel)
  pure (.page at' selectors b)

/-- css_ast/src/rules/property.rs:22-38 `Parse for PropertyRule`. -/
def propertyRule (fuel : Nat) : Prog (CssRule τ) := do
  let (at', name, b) ← atRule (some c!"property") (tok fun c => pure (isDashed c)) (declarationList (propertyRuleProperty fuel) fuel)
  match name with
  | some name => pure (.property at' name b)
  | none => fail .missingAtRulePrelude at'

/-- css_ast/src/rules/supports.rs:49-65 `Parse for SupportsRule`. -/
def supportsRule (rule : Prog (CssRule τ)) (fuel : Nat) : Prog (CssRule τ) := do
  let start ← offset
  let (at', cond, b) ← atRule (some c!"supports") (supportsCondition V fuel) (ruleList rule fuel)
  match cond with
  | some cond => pure (.supports at' cond b.opening b.items b.close)
  | none => missingPrelude start

/-- css_ast/src/rules/document.rs:21-37 `Parse for DocumentRule`, css_ast/src/rules/moz.rs:19-35 `Parse for MozDocumentRule`. -/
def documentRule (moz : Bool) (rule : Prog (CssRule τ)) (fuel : Nat) : Prog (CssRule τ) := do
  let (at', matchers, b) ← atRule (some (if moz then c!"-moz-document" else c!"document")) (commaPrelude documentMatcher fuel)
    (ruleList rule fuel)
  match matchers with
  | some matchers => pure (.document moz at' matchers b.opening b.items b.close)
  | none => fail .missingAtRulePrelude at'

/-- css_ast/src/stylesheet.rs:50-81 and css_ast/src/stylerule.rs:117-127, `apply_rules!`: the parser for an at-rule of this name; `nested`
tells which of the two tables is meant. -/
def knownAtRule (rule : Prog (CssRule τ)) (fuel : Nat) (nested : Bool) (name : List Char) : Option (Prog (CssRule τ)) :=
  if name == c!"container" then some (containerRule rule fuel)
  else if name == c!"layer" then some (layerRule rule fuel)
  else if name == c!"media" then some (mediaRule V rule fuel)
  else if name == c!"scope" then some todoParser
  else if name == c!"supports" then some (supportsRule V rule fuel)
  else if nested then none
  else if name == c!"charset" then some charsetRule
  else if name == c!"color-profile" then some todoParser
  else if name == c!"counter-style" then some todoParser
  else if name == c!"font-face" then some (fontFaceRule V fuel)
  else if name == c!"font-feature-values" then some todoParser
  else if name == c!"font-palette-values" then some todoParser
  else if name == c!"import" then some todoParser
  else if name == c!"keyframes" then some (keyframesRule V fuel)
  else if name == c!"namespace" then some todoParser
  else if name == c!"page" then some (pageRule V fuel)
  else if name == c!"property" then some (propertyRule fuel)
  else if name == c!"starting-style" then some todoParser
  else if name == c!"document" then some (documentRule false rule fuel)
  else if name == c!"-webkit-keyframes" then some (webkitKeyframesRule V fuel)
  else if name == c!"-moz-document" then some (documentRule true rule fuel)
  else none

/-- css_ast/src/stylesheet.rs:88-92 `Parse for UnknownAtRule`. -/
def unknownAtRule (generic : Prog Rule) (fuel : Nat) : Prog (CssRule τ) := do
  let r ← genericAtRule generic fuel
  pure (.unknownAt r)

/-- css_ast/src/stylesheet.rs:111-115 `Parse for UnknownQualifiedRule`. -/
def unknownQualifiedRule (generic : Prog Rule) (fuel : Nat) : Prog (CssRule τ) := do
  let r ← genericQualifiedRule generic fuel
  pure (.unknown r)

/-- css_ast/src/stylesheet.rs:152-172 and css_ast/src/stylerule.rs:152-172: a rule that begins with an at-keyword. -/
def atCssRule (rule : Prog (CssRule τ)) (generic : Prog Rule) (fuel : Nat) (nested : Bool) : Prog (CssRule τ) := do
  let c ← peekN 1
  let s ← strLower c
  match knownAtRule V rule fuel nested s with
  | none => unknownAtRule generic fuel
  | some parser =>
    attempt parser (fun r => r.toBool) fun r =>
      match r with
      | .ok r => pure r
      | .error _ => unknownAtRule generic fuel

/-- css_ast/src/stylerule.rs:35-46 `Parse for StyleRule`, 74-84 `StyleDeclaration`; `nestedRule` parses the rules in the block. -/
def styleRule (nestedRule : Prog (CssRule τ)) (fuel : Nat) : Prog (CssRule τ) := do
  let (selectors, b) ← qualifiedRule (selectorListFuel fuel) (blockOf isDeclaration (Hdx.property V fuel) nestedRule fuel)
    (badDeclaration fuel)
  pure (.style selectors b.opening b.declarations b.rules b.close)

/-- css_ast/src/stylerule.rs:181-184: a bad declaration. -/
def badRule (fuel : Nat) : Prog (CssRule τ) :=
  setState true fun state => do
    let d ← result (badDeclaration fuel)
    setState state fun _ => do
      let d ← ofResult d
      pure (.bad d)

/-- css_ast/src/stylesheet.rs:173-178 and css_ast/src/stylerule.rs:173-186: a rule that does not begin with an at-keyword. -/
def qualifiedCssRule (nestedRule : Prog (CssRule τ)) (generic : Prog Rule) (fuel : Nat) (nested : Bool) : Prog (CssRule τ) :=
  attempt (styleRule V nestedRule fuel) (fun r => r.toBool) fun r =>
    match r with
    | .ok r => pure r
    | .error _ =>
      if nested then
        attempt (unknownQualifiedRule generic fuel) (fun r => r.toBool) fun r =>
          match r with
          | .ok r => pure r
          | .error _ => badRule fuel
      else unknownQualifiedRule generic fuel

/-- css_ast/src/stylesheet.rs:149-180 `Parse for Rule` (`nested` is false), css_ast/src/stylerule.rs:149-188 `Parse for NestedGroupRule`
(`nested` is true). -/
def cssRule : Nat → Bool → Prog (CssRule τ)
  | 0, _ => .panic .diverges
  | n + 1, nested => do
    let c ← peek
    if c.token.isKind .atKeyword then atCssRule V (cssRule n false) (rule n) (n + 1) nested
    else qualifiedCssRule V (cssRule n true) (rule n) (n + 1) nested

/-- css_ast/src/stylesheet.rs:23-31 `Parse for StyleSheet`. -/
def cssStyleSheet : Prog (List (CssRule τ)) := .read fun p => styleSheetLoop (cssRule V p.fuel false) p.fuel []

/-! ### `ToCursors` -/

mutual
/-- `ToCursors for Rule`: css_ast/src/stylesheet.rs:182-198, css_ast/src/stylerule.rs:48-53, 86-102, 190-207, css_ast/src/rules/charset.rs:40-49,
container/mod.rs:43-49, 82-92, 108-114, document.rs:39-45, 69-78, 190-200, font_face.rs:33-38, 66-76, keyframes.rs:34-42, 114-124,
layer.rs:41-49, 75-84, 148-157, 187-197, media/mod.rs:41-47, 76-92, 108-114, moz.rs:37-43, page.rs:40-48, 74-83, 235-251,
property.rs:40-46, 77-90, 116-122, supports.rs:67-73, 102-112, webkit.rs:37-43. -/
def CssRule.cursors : CssRule τ → List Cursor
  | .charset at' space string semi => at' :: space :: string :: semi.toList
  | .container at' query opening rules close =>
    at' :: (itemsCursors ContainerCondition.cursors query ++ (opening :: (cursorsOf rules ++ close.toList)))
  | .fontFace at' b => at' :: b.cursors (Decl.cursors (StyleValue.cursors V))
  | .keyframes at' name b => at' :: (name.toList ++ b.cursors (Keyframe.cursors V))
  | .layerStatement at' names semi => at' :: ((names.map (pairsCursors LayerName.cursors)).getD [] ++ [semi])
  | .layerBlock at' names opening rules close =>
    at' :: ((names.map (pairsCursors LayerName.cursors)).getD [] ++ (opening :: (cursorsOf rules ++ close.toList)))
  | .media at' query opening ds rules close =>
    at' :: (itemsCursors MediaQuery.cursors query
      ++ (opening :: (pairsCursors (Decl.cursors (StyleValue.cursors V)) ds ++ cursorsOf rules ++ close.toList)))
  | .page at' selectors b =>
    at' :: ((selectors.map (pairsCursors PageSel.cursors)).getD []
      ++ (b.opening :: (pairsCursors (Decl.cursors (StyleValue.cursors V)) b.declarations ++ itemsCursors (MarginRule.cursors V) b.rules
        ++ b.close.toList)))
  | .property at' name b => at' :: name :: b.pairCursors (Decl.cursors PropertyRuleValue.cursors)
  | .supports at' cond opening rules close =>
    at' :: (cond.cursors (SupportsFeature.cursors V) ++ (opening :: (cursorsOf rules ++ close.toList)))
  | .document _ at' matchers opening rules close =>
    at' :: (pairsCursors DocumentMatcher.cursors matchers ++ (opening :: (cursorsOf rules ++ close.toList)))
  | .webkitKeyframes at' name b => at' :: name :: b.cursors (Keyframe.cursors V)
  | .unknownAt r => r.cursors
  | .style selectors opening ds rules close =>
    Sel.listCursors selectors
      ++ (opening :: (pairsCursors (Decl.cursors (StyleValue.cursors V)) ds ++ cursorsOf rules ++ close.toList))
  | .unknown r => r.cursors
  | .bad vs => ComponentValue.cursorsOf vs
/-- The cursors of a list of rules: css_ast/src/stylesheet.rs:33-39 `ToCursors for StyleSheet`, ... -/
def CssRule.cursorsOf : List (CssRule τ) → List Cursor
  | [] => []
  | r :: rs => r.cursors ++ cursorsOf rs
end

end
end Hdx

/-
What the parts of the rules of a style sheet are labelled as in the syntax tree, and what the label says about the tokens. Written from the CSS
specifications of the at-rules; where hdx takes more than CSS allows, this says what it takes (marked so).
-/
import Verif.Spec.ValueSyntax
import Verif.Spec.Declarations
import Verif.Spec.Touch

namespace Hdx.Spec

variable {τ φ ν : Type}

/-! ### Tokens -/

/-- An at-keyword of this name. -/
def AtNamed (src : List Char) (name : List Char) (c : Cursor) : Prop := IsKind .atKeyword c ∧ Called src c name
/-- An ident that reads as `key`, one of `keys`. -/
def KeywordLabel (src : List Char) (keys : List (List Char)) (k : List Char × Cursor) : Prop := IsKind .ident k.2 ∧ Named src k.2 k.1 ∧ k.1 ∈ keys

/-- A comparison says what its tokens say. -/
def ComparisonLabel : Comparison → Prop
  | .lessThan c => IsDelim '<' c
  | .greaterThan c => IsDelim '>' c
  | .greaterThanEqual a b => IsDelim '>' a ∧ IsDelim '=' b
  | .lessThanEqual a b => IsDelim '<' a ∧ IsDelim '=' b
  | .equal c => IsDelim '=' c

/-! ### Features and conditions -/

/-- A feature `(name)` or `(name: value)`. -/
def FeatureLabel (src : List Char) (name : List Char) (V : ν → Prop) : Feature ν → Prop
  | .withValue o n c v cl => IsKind .leftParen o ∧ IsWord src name n ∧ IsKind .colon c ∧ V v ∧ IsKind .rightParen cl
  | .bare o n cl => IsKind .leftParen o ∧ IsWord src name n ∧ IsKind .rightParen cl

/-- A feature with a range: `(name < value)`, `(value < name)`, `(value < name < value)` or `(name: value)`; the name is one of `names`, and only
in the last form one of `legacy`. -/
def RangedLabel (src : List Char) (names legacy : List (List Char)) (V : ν → Prop) : Ranged ν → Prop
  | .left o n c v cl => IsKind .leftParen o ∧ Plain n ∧ ComparisonLabel c ∧ V v ∧ IsKind .rightParen cl
  | .right o v c n cl => IsKind .leftParen o ∧ V v ∧ ComparisonLabel c ∧ Plain n ∧ IsKind .rightParen cl
  | .range o l c n d r cl => IsKind .leftParen o ∧ V l ∧ ComparisonLabel c ∧ Plain n ∧ ComparisonLabel d ∧ V r ∧ IsKind .rightParen cl
  | .legacy o n c v cl => IsKind .leftParen o ∧ (∃ s, KeywordLabel src names (s, n)) ∧ IsKind .colon c ∧ V v ∧ IsKind .rightParen cl
where
  /-- The name of a feature, not a `min-` or `max-` one. -/
  Plain (n : Cursor) : Prop := ∃ s, KeywordLabel src names (s, n) ∧ s ∉ legacy

/-- A keyword of a condition. -/
def ConditionWord (src : List Char) (name : List Char) (c : Cursor) : Prop := IsKind .ident c ∧ Named src c name

/-- A condition. (In a chain of `or` the second keyword, if there is one, would be an `and`; see C40.) -/
def ConditionLabel (src : List Char) (F : φ → Prop) : Condition φ → Prop
  | .is f => F f
  | .not k f => ConditionWord src c!"not" k ∧ F f
  | .and fs => ∀ x ∈ fs, F x.1 ∧ ∀ k ∈ x.2, ConditionWord src c!"and" k
  | .or fs => ∃ f k rest, fs = (f, some k) :: rest ∧ F f ∧ ConditionWord src c!"or" k ∧ ∀ x ∈ rest, F x.1 ∧ ∀ k ∈ x.2, ConditionWord src c!"and" k

/-! ### Media queries -/

/-- The values of a media feature. -/
inductive MediaType where
  /-- one of these keywords -/
  | words (keys : List (List Char))
  /-- `<mq-boolean>`; hdx takes any token. -/
  | mqBoolean
  /-- a range of lengths -/
  | lengths
  /-- a range of integers -/
  | integers
  /-- a range of numbers; hdx takes only numbers with a fraction or an exponent. -/
  | numbers
  deriving DecidableEq

/-- https://drafts.csswg.org/mediaqueries-5/#media-descriptor-table, and the features with prefixes. -/
def mediaTypes : List (List Char × MediaType) := [
  (c!"any-hover", .words [c!"none", c!"hover"]),
  (c!"any-pointer", .words [c!"none", c!"coarse", c!"fine"]),
  (c!"color", .integers),
  (c!"color-gamut", .words [c!"srgb", c!"p3", c!"rec2020"]),
  (c!"color-index", .integers),
  (c!"device-height", .lengths),
  (c!"device-width", .lengths),
  (c!"display-mode", .words [c!"fullscreen", c!"standalone", c!"minimal-ui", c!"browser", c!"picture-in-picture"]),
  (c!"dynamic-range", .words [c!"standard", c!"high"]),
  (c!"environment-blending", .words [c!"opaque", c!"additive", c!"subtractive"]),
  (c!"forced-colors", .words [c!"none", c!"active"]),
  (c!"grid", .mqBoolean),
  (c!"height", .lengths),
  (c!"horizontal-viewport-segments", .integers),
  (c!"hover", .words [c!"none", c!"hover"]),
  (c!"inverted-colors", .words [c!"none", c!"inverted"]),
  (c!"monochrome", .integers),
  (c!"nav-controls", .words [c!"none", c!"back"]),
  (c!"orientation", .words [c!"portrait", c!"landscape"]),
  (c!"overflow-block", .words [c!"none", c!"scroll", c!"paged"]),
  (c!"overflow-inline", .words [c!"none", c!"scroll"]),
  (c!"pointer", .words [c!"none", c!"coarse", c!"fine"]),
  (c!"prefers-color-scheme", .words [c!"light", c!"dark"]),
  (c!"prefers-contrast", .words [c!"no-preference", c!"less", c!"more", c!"custom"]),
  (c!"prefers-reduced-data", .words [c!"no-preference", c!"reduce"]),
  (c!"prefers-reduced-motion", .words [c!"no-preference", c!"reduce"]),
  (c!"prefers-reduced-transparency", .words [c!"no-preference", c!"reduce"]),
  (c!"scan", .words [c!"interlace", c!"progressive"]),
  (c!"scripting", .words [c!"none", c!"initial-only", c!"enabled"]),
  (c!"vertical-viewport-segments", .integers),
  (c!"video-color-gamut", .words [c!"srgb", c!"p3", c!"rec2020"]),
  (c!"video-dynamic-range", .words [c!"standard", c!"high"]),
  (c!"width", .lengths),
  (c!"-webkit-animation", .words [c!"true", c!"false"]),
  (c!"-webkit-device-pixel-ratio", .numbers),
  (c!"-webkit-transform-2d", .words [c!"true", c!"false"]),
  (c!"-webkit-transform-3d", .words [c!"true", c!"false"]),
  (c!"-webkit-transition", .words [c!"true", c!"false"]),
  (c!"-webkit-video-playable-inline", .words [c!"true", c!"false"]),
  (c!"-moz-device-orientation", .words [c!"portrait", c!"landscape"]),
  (c!"-moz-device-pixel-ratio", .numbers),
  (c!"-ms-high-contrast", .words [c!"none", c!"active"]),
  (c!"-ms-view-state", .words [c!"snapped", c!"fullscreen-portrait", c!"fullscreen-landscape"]),
  (c!"-ms-ime-align", .words [c!"auto"]),
  (c!"-ms-device-pixel-ratio", .numbers),
  (c!"-ms-column-count", .integers),
  (c!"-o-device-pixel-ratio", .numbers)]

/-- The name of the label of a feature: `color-gamut` is `ColorGamut`, `-ms-ime-align` is `MsImeAlignMediaFeature`. -/
def labelOf (name : List Char) : List Char :=
  match name with
  | '-' :: _ => pascal name ++ c!"MediaFeature"
  | _ => pascal name

/-- `min-width`, `max-width`; `-ms-min-column-count`, `-ms-max-column-count`. -/
def minMax (name : List Char) : List (List Char) :=
  match name with
  | '-' :: rest =>
    let vendor := rest.takeWhile (· != '-')
    let base := rest.dropWhile (· != '-')
    ['-' :: (vendor ++ c!"-min" ++ base), '-' :: (vendor ++ c!"-max" ++ base)]
  | _ => [c!"min-" ++ name, c!"max-" ++ name]

/-- The values of a range. -/
def MediaType.Takes (src : List Char) : MediaType → Cursor → Prop
  | .lengths, c => IsLength src c
  | .integers, c => IsInteger c
  | .numbers, c => IsKind .number c
  | _, _ => False

/-- A label that hdx gives to what is another feature: see `Props/RuleLabels`. -/
def wrongLabels : List (List Char) :=
  [c!"MozMacGraphiteThemeMediaFeature", c!"MozMaemoClassicMediaFeature", c!"MozImagesInMenusMediaFeature", c!"MozOsVersionMenusMediaFeature"]

/-- A media feature: the label is that of a feature of the table, the tokens are those of such a feature. -/
def MediaFeatureLabel (src : List Char) : MediaFeature → Prop
  | .discrete label f => ∃ name keys, (name, MediaType.words keys) ∈ mediaTypes ∧ label = labelOf name ∧ FeatureLabel src name (KeywordLabel src keys) f
  | .boolean label f => ∃ name, (name, MediaType.mqBoolean) ∈ mediaTypes ∧ label = labelOf name ∧ FeatureLabel src name (fun _ => True) f
  | .ranged label f => label ∈ wrongLabels ∨
      ∃ name type, (name, type) ∈ mediaTypes ∧ label = labelOf name ∧ RangedLabel src (name :: minMax name) (minMax name) (type.Takes src) f
  | .hack o n c v cl => IsKind .leftParen o ∧ IsWord src c!"min-width" n ∧ IsKind .colon c ∧ IsKind .dimension v ∧ v.strSlice src = .ok c!"0\\0" ∧ IsKind .rightParen cl

/-- The type of a media query: a known one, or any other ident (not those that mean something else). -/
def MediaTypeLabel (src : List Char) : Option (List Char) × Cursor → Prop
  | (some k, c) => KeywordLabel src [c!"all", c!"print", c!"screen"] (k, c)
  | (none, c) => IsKind .ident c ∧ ∃ s, Named src c s ∧ s ∉ [c!"all", c!"print", c!"screen", c!"not", c!"only", c!"and", c!"or", c!"layer"]

/-- https://drafts.csswg.org/mediaqueries-5/#typedef-media-query: a condition alone, or a type (with `not` or `only`), and a condition after
`and`. (hdx also takes a `not` or `only` without a type.) -/
def MediaQueryLabel (src : List Char) (q : MediaQuery) : Prop :=
  (∀ k ∈ q.precondition, KeywordLabel src [c!"not", c!"only"] k) ∧ (∀ t ∈ q.mediaType, MediaTypeLabel src t) ∧ (∀ c ∈ q.and, IsWord src c!"and" c) ∧
  (∀ c ∈ q.condition, ConditionLabel src (MediaFeatureLabel src) c) ∧
  ((q.precondition = none ∧ q.mediaType = none) → q.condition.isSome) ∧ ((q.precondition.isSome ∨ q.mediaType.isSome) → (q.and.isSome ↔ q.condition.isSome))

/-! ### Containers -/

/-- A `<ratio>`: an integer, or two with a slash between. (In CSS these are numbers.) -/
def RatioLabel (r : Ratio) : Prop :=
  IsInteger r.numerator ∧ ((r.slash = none ∧ r.denominator = none) ∨ ∃ s d, r.slash = some s ∧ r.denominator = some d ∧ IsDelim '/' s ∧ IsInteger d)

/-- https://drafts.csswg.org/css-contain-3/#container-features -/
def ContainerFeatureLabel (src : List Char) : ContainerFeature → Prop
  | .length name f => name ∈ [c!"width", c!"height", c!"inline-size", c!"block-size"] ∧ RangedLabel src [name] [] (IsLength src) f
  | .ratio f => RangedLabel src [c!"aspect-ratio"] [] RatioLabel f
  | .orientation f => FeatureLabel src c!"orientation" (KeywordLabel src [c!"portrait", c!"landscape"]) f

/-- A container condition: a name, a query, or both; the name is not a word that means something else. -/
def ContainerLabel (src : List Char) (q : ContainerCondition) : Prop :=
  (∀ c ∈ q.name, IsKind .ident c ∧ ∃ s, Named src c s ∧ s ∉ [c!"none", c!"and", c!"not", c!"or"]) ∧
  (∀ c ∈ q.condition, ConditionLabel src (ContainerFeatureLabel src) c) ∧ (q.name = none → q.condition.isSome)

/-! ### Parts of at-rules -/

/-- https://drafts.csswg.org/css-animations-1/#keyframes: the name is a string or an ident, but for some. (In CSS these are in any case, and there are more.) -/
def KeyframesNameLabel (src : List Char) (c : Cursor) : Prop :=
  IsKind .string c ∨ (IsKind .ident c ∧ ∃ s, c.parseStr src = .ok s ∧ s ∉ [c!"default", c!"initial", c!"inherit", c!"unset", c!"none"])

/-- `from`, `to`, or a percentage from 0 to 100. -/
def KeyframeSelectorLabel (src : List Char) : KeyframeSelector → Prop
  | .from c => IsKind .ident c ∧ Named src c c!"from"
  | .to c => IsKind .ident c ∧ Named src c c!"to"
  | .percent c => HasUnit src c!"%" c ∧ AtLeast 0 c.token.value ∧ AtMost 100 c.token.value

/-- Idents with dots between. (In CSS there is no whitespace around the dots.) -/
def LayerNameLabel (l : LayerName) : Prop := IsKind .ident l.first ∧ ∀ x ∈ l.parts, IsDelim '.' x.1 ∧ IsKind .ident x.2

/-- https://drafts.csswg.org/css-page-3/#typedef-page-selector. (hdx also takes one that is empty.) -/
def PageSelectorLabel (src : List Char) (s : PageSel) : Prop :=
  Closes .ident s.pageType ∧ ∀ x ∈ s.pseudos, IsKind .colon x.2.1 ∧ KeywordLabel src [c!"left", c!"right", c!"first", c!"blank"] (x.1, x.2.2)

/-- A function with a string. -/
def StringFunction (src : List Char) (name : List Char) (f s c : Cursor) : Prop := IsKind .function f ∧ Named src f name ∧ IsKind .string s ∧ IsKind .rightParen c

/-- https://www.w3.org/TR/2012/WD-css3-conditional-20120911/#at-document. (hdx labels the last three as `url-prefix()`.) -/
def MatcherLabel (src : List Char) : DocumentMatcher → Prop
  | .url c => IsKind .url c
  | .urlFunction f s c => StringFunction src c!"url" f s c
  | .urlPrefix f s c => ∃ n ∈ [c!"url-prefix", c!"domain", c!"media-document", c!"regexp"], StringFunction src n f s c
  | .domain f s c => StringFunction src c!"domain" f s c
  | .mediaDocument f s c => StringFunction src c!"media-document" f s c
  | .regexp f s c => StringFunction src c!"regexp" f s c

/-- A descriptor of `@property`. -/
def PropertyValueLabel (src : List Char) (name : Cursor) : PropertyRuleValue → Prop
  | .initialValue _ => Named src name c!"initial-value"
  | .syntax c => Named src name c!"syntax" ∧ IsKind .string c
  | .inherits k c => Named src name c!"inherits" ∧ KeywordLabel src [c!"true", c!"false"] (k, c)
  | .unknown _ => ∀ s ∈ [c!"initial-value", c!"syntax", c!"inherits"], ¬ Named src name s

/-- A declaration: an ident, a colon, a value, and perhaps `!important`. -/
def DeclLabel (src : List Char) (d : Decl ν) : Prop :=
  IsKind .ident d.name ∧ IsKind .colon d.colon ∧ ∀ i ∈ d.important, IsDelim '!' i.bang ∧ IsWord src c!"important" i.important

/-- A component of a selector is what it is labelled as; nothing is between the colon and the name of a pseudo-class. (Not said: what `*` is
and what is in the functions. That depends on what the parser skips, see C73.) -/
def PieceLabel (src : List Char) : Sel → Prop
  | .pseudoClass vendor name colon ident => Label src (.pseudoClass vendor name colon ident) ∧ Touch colon ident
  | .wildcard _ | .fnToken .. | .fnSelectors .. | .fnLang .. | .fnNth .. | .highlight .. | .part .. | .slotted .. => True
  | s => Label src s

/-- A list of selectors, with commas. -/
def SelectorsLabel (src : List Char) (ss : List (List Sel × Option Cursor)) : Prop := ∀ s ∈ ss, (∀ x ∈ s.1, PieceLabel src x) ∧ Closes .comma s.2

/-- A feature of `@supports`: `selector(…)` with or without parentheses, or a declaration in parentheses. -/
def SupportsLabel (src : List Char) : SupportsFeature τ → Prop
  | .selector o f ss c oc => Closes .leftParen o ∧ IsKind .function f ∧ Named src f c!"selector" ∧ SelectorsLabel src ss ∧ IsKind .rightParen c ∧ Closes .rightParen oc ∧
      (oc.isSome ↔ o.isSome)
  | .property o d c => IsKind .leftParen o ∧ DeclLabel src d ∧ Closes .rightParen c

/-- https://drafts.csswg.org/css-page-3/#syntax-page-selector -/
def marginNames : List (List Char) := [
  c!"top-left-corner", c!"top-left", c!"top-center", c!"top-right", c!"top-right-corner",
  c!"bottom-left-corner", c!"bottom-left", c!"bottom-center", c!"bottom-right", c!"bottom-right-corner",
  c!"left-top", c!"left-middle", c!"left-bottom", c!"right-top", c!"right-middle", c!"right-bottom"]

/-- https://drafts.csswg.org/css-fonts-5/#font-resources (without size-adjust, sub- and superscript-*) -/
def fontDescriptors : List (List Char) := [
  c!"font-family", c!"src", c!"font-style", c!"font-weight", c!"font-width", c!"unicode-range", c!"font-feature-settings",
  c!"font-variation-settings", c!"font-named-instance", c!"font-display", c!"font-language-override", c!"ascent-override", c!"descent-override", c!"line-gap-override"]

/-! ### Rules -/

/-- `{` and `}`, of which the second may be missing. -/
def Braces (o : Cursor) (c : Option Cursor) : Prop := IsKind .leftCurly o ∧ Closes .rightCurly c

/-- Items, each with a comma (or semicolon) behind it that may be missing. (In CSS only the last comma or semicolon may be.) -/
def CommaLabel (P : φ → Prop) (k : Kind) (l : List (φ × Option Cursor)) : Prop := ∀ x ∈ l, P x.1 ∧ Closes k x.2

/-- A keyframe. -/
def KeyframeLabel (src : List Char) (k : Keyframe τ) : Prop :=
  k.selectors ≠ [] ∧ CommaLabel (KeyframeSelectorLabel src) .comma k.selectors ∧ Braces k.block.opening k.block.close ∧ CommaLabel (DeclLabel src) .semicolon k.block.items

/-- The parts of a rule are what they are labelled as (not what is inside the declarations and rules in it). -/
def RuleLabel (src : List Char) : CssRule τ → Prop
  | .charset a sp s semi => AtNamed src c!"charset" a ∧ IsKind .whitespace sp ∧ IsKind .string s ∧ Closes .semicolon semi
  | .container a q o _ c => AtNamed src c!"container" a ∧ q ≠ [] ∧ (∀ x ∈ q, ContainerLabel src x) ∧ Braces o c
  | .fontFace a b => AtNamed src c!"font-face" a ∧ Braces b.opening b.close ∧ ∀ d ∈ b.items, DeclLabel src d ∧ ∃ n ∈ fontDescriptors, ConditionWord src n d.name
  | .keyframes a n b => AtNamed src c!"keyframes" a ∧ (∀ c ∈ n, KeyframesNameLabel src c) ∧ Braces b.opening b.close ∧ ∀ k ∈ b.items, KeyframeLabel src k
  | .webkitKeyframes a n b => AtNamed src c!"-webkit-keyframes" a ∧ KeyframesNameLabel src n ∧ Braces b.opening b.close ∧ ∀ k ∈ b.items, KeyframeLabel src k
  | .layerStatement a ns semi => AtNamed src c!"layer" a ∧ (∀ l ∈ ns, CommaLabel LayerNameLabel .comma l) ∧ IsKind .semicolon semi
  | .layerBlock a ns o _ c => AtNamed src c!"layer" a ∧ (∀ l ∈ ns, CommaLabel LayerNameLabel .comma l ∧ l.length = 1) ∧ Braces o c
  | .media a q o ds _ c => AtNamed src c!"media" a ∧ q ≠ [] ∧ (∀ x ∈ q, MediaQueryLabel src x) ∧ Braces o c ∧ CommaLabel (DeclLabel src) .semicolon ds
  | .page a s b => AtNamed src c!"page" a ∧ (∀ l ∈ s, CommaLabel (PageSelectorLabel src) .comma l) ∧ Braces b.opening b.close ∧
      CommaLabel (DeclLabel src) .semicolon b.declarations ∧
      ∀ m ∈ b.rules, (∃ n ∈ marginNames, AtNamed src n m.atKeyword) ∧ Braces m.block.opening m.block.close ∧ CommaLabel (DeclLabel src) .semicolon m.block.items
  | .property a n b => AtNamed src c!"property" a ∧ IsDashedIdent n ∧ Braces b.opening b.close ∧
      CommaLabel (fun d : Decl PropertyRuleValue => DeclLabel src d ∧ PropertyValueLabel src d.name d.value ∧ d.important = none) .semicolon b.items
  | .supports a q o _ c => AtNamed src c!"supports" a ∧ ConditionLabel src (SupportsLabel src) q ∧ Braces o c
  | .document moz a ms o _ c => AtNamed src (if moz then c!"-moz-document" else c!"document") a ∧ ms ≠ [] ∧ CommaLabel (MatcherLabel src) .comma ms ∧ Braces o c
  | .style ss o ds _ c => SelectorsLabel src ss ∧ Braces o c ∧ CommaLabel (DeclLabel src) .semicolon ds
  | .unknownAt _ | .unknown _ | .bad _ => True

mutual
/-- A rule and all rules in it, however deep. -/
def rulesIn : CssRule τ → List (CssRule τ)
  | r@(.container _ _ _ rules _) => r :: rulesInAll rules
  | r@(.layerBlock _ _ _ rules _) => r :: rulesInAll rules
  | r@(.media _ _ _ _ rules _) => r :: rulesInAll rules
  | r@(.supports _ _ _ rules _) => r :: rulesInAll rules
  | r@(.document _ _ _ _ rules _) => r :: rulesInAll rules
  | r@(.style _ _ _ rules _) => r :: rulesInAll rules
  | r => [r]
/-- All rules in a list of rules. -/
def rulesInAll : List (CssRule τ) → List (CssRule τ)
  | [] => []
  | r :: rs => rulesIn r ++ rulesInAll rs
end

end Hdx.Spec

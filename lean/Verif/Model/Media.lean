/-
Media queries and container conditions: css_ast/src/rules/media, css_ast/src/rules/container, and the values they use
(css_ast/src/units/length.rs, float.rs, css_ast/src/types/ratio.rs).
-/
import Verif.Model.Properties
import Verif.Model.Features

namespace Hdx
open Prog

/-! ### Values -/

/-- css_parse/src/token_macros.rs:1255-1569: the name in each `custom_dimension!`, which is not always that of `DimensionUnit.str`.
(There is no such macro for `Unknown`.) -/
def DimensionUnit.macroName : DimensionUnit → List Char
  | .unknown => []
  | .inch => c!"in"
  | .percent => c!"%"
  | .cap => c!"cap"
  | .ch => c!"ch"
  | .cm => c!"cm"
  | .cqb => c!"cqb"
  | .cqh => c!"cqh"
  | .cqi => c!"cqi"
  | .cqmax => c!"cqmax"
  | .cqmin => c!"cqmin"
  | .cqw => c!"cqw"
  | .deg => c!"deg"
  | .dpcm => c!"dpcm"
  | .dpi => c!"dpi"
  | .dppx => c!"dppx"
  | .dvb => c!"dvb"
  | .dvh => c!"dvh"
  | .dvi => c!"dvi"
  | .dvmax => c!"dvmax"
  | .dvmin => c!"dvmin"
  | .dvw => c!"dvw"
  | .em => c!"em"
  | .ex => c!"ex"
  | .fr => c!"fr"
  | .grad => c!"grad"
  | .hz => c!"hz"
  | .ic => c!"ic"
  | .khz => c!"khz"
  | .lh => c!"lh"
  | .lvb => c!"lvb"
  | .lvh => c!"lvh"
  | .lvi => c!"lvi"
  | .lvmax => c!"lvmax"
  | .lvmin => c!"lvmin"
  | .lvw => c!"lvw"
  | .mm => c!"mm"
  | .ms => c!"ms"
  | .pc => c!"pc"
  | .pt => c!"pt"
  | .px => c!"px"
  | .q => c!"q"
  | .rad => c!"rad"
  | .rcap => c!"rcap"
  | .rch => c!"rch"
  | .rem => c!"rem"
  | .rex => c!"rex"
  | .ric => c!"ric"
  | .rlh => c!"rlh"
  | .s => c!"s"
  | .svb => c!"svb"
  | .svh => c!"svh"
  | .svi => c!"svi"
  | .svmax => c!"svmax"
  | .svmin => c!"svmin"
  | .svw => c!"svw"
  | .turn => c!"turn"
  | .vb => c!"vb"
  | .vh => c!"vh"
  | .vi => c!"vi"
  | .vmax => c!"vmax"
  | .vmin => c!"vmin"
  | .vw => c!"vw"
  | .x => c!"x"

/-- css_parse/src/token_macros.rs:268-273: `Peek` of a `custom_dimension!`. -/
def isDimensionOf (u : DimensionUnit) (c : Cursor) : Prog Bool :=
  if c.token.isKind .dimension then
    if c.token.dimensionUnit == u then pure true else Prog.eqIgnoreAsciiCase c u.macroName
  else pure false

/-- A chain of `||` over units. -/
def isAnyDimension : List DimensionUnit → Cursor → Prog Bool
  | [], _ => pure false
  | u :: us, c => do
    if ← isDimensionOf u c then pure true else isAnyDimension us c

/-- css_ast/src/units/length.rs:13-75: the units in `apply_lengths!`. -/
def LENGTH_UNITS : List DimensionUnit := [.em, .rem, .ex, .rex, .cap, .rcap, .ch, .rch, .ic, .ric, .lh, .rlh, .vw, .svw, .lvw, .dvw, .vh, .svh, .lvh, .dvh, .vi, .svi, .lvi, .dvi, .vb, .svb, .lvb, .dvb, .vmin, .svmin, .lvmin, .dvmin, .vmax, .svmax, .lvmax, .dvmax, .cm, .mm, .q, .inch, .pc, .pt, .px, .cqw, .cqh, .cqi, .cqb, .cqmin, .cqmax]

/-- Rust's `== 0.0` on the bits of a float. -/
def f32IsZero (w : BitVec 32) : Bool := w == 0#32 || w == 0x80000000#32

/-- css_ast/src/units/length.rs:130-140 `Peek for Length`. -/
def isLength (c : Cursor) : Prog Bool :=
  if c.token.isKind .number && f32IsZero c.token.value then pure true
  else isAnyDimension LENGTH_UNITS c

/-- css_ast/src/units/float.rs:26-30 `Peek for CSSFloat`. -/
def isCssFloat (c : Cursor) : Prog Bool := pure (c.token.isKind .number && c.token.isFloat)

/-- css_ast/src/types/ratio.rs:8-13 `Ratio`, without the start. -/
structure Ratio where
  numerator : Cursor
  slash : Option Cursor
  denominator : Option Cursor
  deriving DecidableEq, Repr

/-- css_ast/src/types/ratio.rs:21-29 `Parse for Ratio`. -/
def ratio : Prog Ratio := do
  let numerator ← tok isCssInt
  let slash ← ifPeek (isDelim '/') (tok (isDelim '/'))
  if slash.isSome then do
    let denominator ← tok isCssInt
    pure ⟨numerator, slash, some denominator⟩
  else pure ⟨numerator, slash, none⟩

/-- css_ast/src/types/ratio.rs:31-41 `ToCursors for Ratio`. -/
def Ratio.cursors (r : Ratio) : List Cursor := r.numerator :: (r.slash.toList ++ r.denominator.toList)

/-! ### Media features -/

/-- The types that ranged media features are declared with. -/
inductive MediaValue where
  | length | int | float
  deriving DecidableEq, Repr

/-- `Parse` of these types: css_parse/src/traits/parse.rs:27-40. -/
def MediaValue.parser : MediaValue → Prog Cursor
  | .length => tok isLength
  | .int => tok isCssInt
  | .float => tok isCssFloat

/-- How a media feature is declared in css_ast/src/rules/media/features: with `discrete_feature!`, `boolean_feature!`,
`ranged_feature!` (value, names of its keyword set, those that `is_legacy` is true of), or as `Todo`. -/
inductive MediaSpec where
  | discrete (name : List Char) (keys : List (List Char))
  | boolean (name : List Char)
  | ranged (value : MediaValue) (names legacy : List (List Char))
  | todo
  deriving DecidableEq, Repr

/-- css_ast/src/rules/media/mod.rs:369-439 `apply_medias!`: the variants, with the names that are dispatched to them; and the
declarations of their types in css_ast/src/rules/media/features/*.rs. -/
def MEDIA_FEATURES : List (List Char × List (List Char) × MediaSpec) := [
  (c!"AnyHover", [c!"any-hover"],
    .discrete c!"any-hover" [c!"none", c!"hover"]),
  (c!"AnyPointer", [c!"any-pointer"],
    .discrete c!"any-pointer" [c!"none", c!"coarse", c!"fine"]),
  (c!"AspectRatio", [c!"aspect-ratio", c!"max-aspect-ratio", c!"min-aspect-ratio"],
    .todo),
  (c!"Color", [c!"color", c!"max-color", c!"min-color"],
    .ranged .int [c!"color", c!"max-color", c!"min-color"] [c!"max-color", c!"min-color"]),
  (c!"ColorGamut", [c!"color-gamut"],
    .discrete c!"color-gamut" [c!"srgb", c!"p3", c!"rec2020"]),
  (c!"ColorIndex", [c!"color-index", c!"max-color-index", c!"min-color-index"],
    .ranged .int [c!"color-index", c!"max-color-index", c!"min-color-index"] [c!"max-color-index", c!"min-color-index"]),
  (c!"DeviceAspectRatio", [c!"device-aspect-ratio", c!"max-device-aspect-ratio", c!"min-device-aspect-ratio"],
    .todo),
  (c!"DeviceHeight", [c!"device-height", c!"max-device-height", c!"min-device-height"],
    .ranged .length [c!"device-height", c!"max-device-height", c!"min-device-height"] [c!"max-device-height", c!"min-device-height"]),
  (c!"DeviceWidth", [c!"device-width", c!"max-device-width", c!"min-device-width"],
    .ranged .length [c!"device-width", c!"max-device-width", c!"min-device-width"] [c!"max-device-width", c!"min-device-width"]),
  (c!"DisplayMode", [c!"display-mode"],
    .discrete c!"display-mode" [c!"fullscreen", c!"standalone", c!"minimal-ui", c!"browser", c!"picture-in-picture"]),
  (c!"DynamicRange", [c!"dynamic-range"],
    .discrete c!"dynamic-range" [c!"standard", c!"high"]),
  (c!"EnvironmentBlending", [c!"environment-blending"],
    .discrete c!"environment-blending" [c!"opaque", c!"additive", c!"subtractive"]),
  (c!"ForcedColors", [c!"forced-colors"],
    .discrete c!"forced-colors" [c!"none", c!"active"]),
  (c!"Grid", [c!"grid"],
    .boolean c!"grid"),
  (c!"Height", [c!"height", c!"max-height", c!"min-height"],
    .ranged .length [c!"height", c!"max-height", c!"min-height"] [c!"max-height", c!"min-height"]),
  (c!"HorizontalViewportSegments", [c!"horizontal-viewport-segments", c!"max-horizontal-viewport-segments", c!"min-horizontal-viewport-segments"],
    .ranged .int [c!"horizontal-viewport-segments", c!"max-horizontal-viewport-segments", c!"min-horizontal-viewport-segments"] [c!"max-horizontal-viewport-segments", c!"min-horizontal-viewport-segments"]),
  (c!"Hover", [c!"hover"],
    .discrete c!"hover" [c!"none", c!"hover"]),
  (c!"InvertedColors", [c!"inverted-colors"],
    .discrete c!"inverted-colors" [c!"none", c!"inverted"]),
  (c!"Monochrome", [c!"monochrome", c!"max-monochrome", c!"min-monochrome"],
    .ranged .int [c!"monochrome", c!"max-monochrome", c!"min-monochrome"] [c!"max-monochrome", c!"min-monochrome"]),
  (c!"NavControls", [c!"nav-controls"],
    .discrete c!"nav-controls" [c!"none", c!"back"]),
  (c!"Orientation", [c!"orientation"],
    .discrete c!"orientation" [c!"portrait", c!"landscape"]),
  (c!"OverflowBlock", [c!"overflow-block"],
    .discrete c!"overflow-block" [c!"none", c!"scroll", c!"paged"]),
  (c!"OverflowInline", [c!"overflow-inline"],
    .discrete c!"overflow-inline" [c!"none", c!"scroll"]),
  (c!"Pointer", [c!"pointer"],
    .discrete c!"pointer" [c!"none", c!"coarse", c!"fine"]),
  (c!"PrefersColorScheme", [c!"prefers-color-scheme"],
    .discrete c!"prefers-color-scheme" [c!"light", c!"dark"]),
  (c!"PrefersContrast", [c!"prefers-contrast"],
    .discrete c!"prefers-contrast" [c!"no-preference", c!"less", c!"more", c!"custom"]),
  (c!"PrefersReducedData", [c!"prefers-reduced-data"],
    .discrete c!"prefers-reduced-data" [c!"no-preference", c!"reduce"]),
  (c!"PrefersReducedMotion", [c!"prefers-reduced-motion"],
    .discrete c!"prefers-reduced-motion" [c!"no-preference", c!"reduce"]),
  (c!"PrefersReducedTransparency", [c!"prefers-reduced-transparency"],
    .discrete c!"prefers-reduced-transparency" [c!"no-preference", c!"reduce"]),
  (c!"Resolution", [c!"resolution", c!"max-resolution", c!"min-resolution"],
    .todo),
  (c!"Scan", [c!"scan"],
    .discrete c!"scan" [c!"interlace", c!"progressive"]),
  (c!"Scripting", [c!"scripting"],
    .discrete c!"scripting" [c!"none", c!"initial-only", c!"enabled"]),
  (c!"Update", [c!"update"],
    .todo),
  (c!"VerticalViewportSegments", [c!"vertical-viewport-segments", c!"max-vertical-viewport-segments", c!"min-vertical-viewport-segments"],
    .ranged .int [c!"vertical-viewport-segments", c!"max-vertical-viewport-segments", c!"min-vertical-viewport-segments"] [c!"max-vertical-viewport-segments", c!"min-vertical-viewport-segments"]),
  (c!"VideoColorGamut", [c!"video-color-gamut"],
    .discrete c!"video-color-gamut" [c!"srgb", c!"p3", c!"rec2020"]),
  (c!"VideoDynamicRange", [c!"video-dynamic-range"],
    .discrete c!"video-dynamic-range" [c!"standard", c!"high"]),
  (c!"Width", [c!"width", c!"max-width", c!"min-width"],
    .ranged .length [c!"width", c!"max-width", c!"min-width"] [c!"max-width", c!"min-width"]),
  (c!"WebkitAnimationMediaFeature", [c!"-webkit-animation"],
    .discrete c!"-webkit-animation" [c!"true", c!"false"]),
  (c!"WebkitDevicePixelRatioMediaFeature", [c!"-webkit-device-pixel-ratio"],
    .ranged .float [c!"-webkit-device-pixel-ratio", c!"-webkit-max-device-pixel-ratio", c!"-webkit-min-device-pixel-ratio"] [c!"-webkit-max-device-pixel-ratio", c!"-webkit-min-device-pixel-ratio"]),
  (c!"WebkitTransform2dMediaFeature", [c!"-webkit-transform-2d"],
    .discrete c!"-webkit-transform-2d" [c!"true", c!"false"]),
  (c!"WebkitTransform3dMediaFeature", [c!"-webkit-transform-3d"],
    .discrete c!"-webkit-transform-3d" [c!"true", c!"false"]),
  (c!"WebkitTransitionMediaFeature", [c!"-webkit-transition"],
    .discrete c!"-webkit-transition" [c!"true", c!"false"]),
  (c!"WebkitVideoPlayableInlineMediaFeature", [c!"-webkit-video-playable-inline"],
    .discrete c!"-webkit-video-playable-inline" [c!"true", c!"false"]),
  (c!"MozDeviceOrientationMediaFeature", [c!"-moz-device-orientation"],
    .discrete c!"-moz-device-orientation" [c!"portrait", c!"landscape"]),
  (c!"MozDevicePixelRatioMediaFeature", [c!"-moz-device-pixel-ratio", c!"max--moz-device-pixel-ratio", c!"min--moz-device-pixel-ratio"],
    .ranged .float [c!"-moz-device-pixel-ratio", c!"-moz-max-device-pixel-ratio", c!"-moz-min-device-pixel-ratio"] [c!"-moz-max-device-pixel-ratio", c!"-moz-min-device-pixel-ratio"]),
  (c!"MozMacGraphiteThemeMediaFeature", [c!"-moz-mac-graphite-theme"],
    .ranged .float [c!"-moz-device-pixel-ratio", c!"-moz-max-device-pixel-ratio", c!"-moz-min-device-pixel-ratio"] [c!"-moz-max-device-pixel-ratio", c!"-moz-min-device-pixel-ratio"]),
  (c!"MozMaemoClassicMediaFeature", [c!"-moz-maemo-classic"],
    .ranged .float [c!"-moz-device-pixel-ratio", c!"-moz-max-device-pixel-ratio", c!"-moz-min-device-pixel-ratio"] [c!"-moz-max-device-pixel-ratio", c!"-moz-min-device-pixel-ratio"]),
  (c!"MozImagesInMenusMediaFeature", [c!"-moz-images-in-menus"],
    .ranged .float [c!"-moz-device-pixel-ratio", c!"-moz-max-device-pixel-ratio", c!"-moz-min-device-pixel-ratio"] [c!"-moz-max-device-pixel-ratio", c!"-moz-min-device-pixel-ratio"]),
  (c!"MozOsVersionMenusMediaFeature", [c!"-moz-os-version"],
    .ranged .float [c!"-moz-device-pixel-ratio", c!"-moz-max-device-pixel-ratio", c!"-moz-min-device-pixel-ratio"] [c!"-moz-max-device-pixel-ratio", c!"-moz-min-device-pixel-ratio"]),
  (c!"MsHighContrastMediaFeature", [c!"-ms-high-contrast"],
    .discrete c!"-ms-high-contrast" [c!"none", c!"active"]),
  (c!"MsViewStateMediaFeature", [c!"-ms-view-state"],
    .discrete c!"-ms-view-state" [c!"snapped", c!"fullscreen-portrait", c!"fullscreen-landscape"]),
  (c!"MsImeAlignMediaFeature", [c!"-ms-ime-align"],
    .discrete c!"-ms-ime-align" [c!"auto"]),
  (c!"MsDevicePixelRatioMediaFeature", [c!"-ms-device-pixel-ratio"],
    .ranged .float [c!"-ms-device-pixel-ratio", c!"-ms-max-device-pixel-ratio", c!"-ms-min-device-pixel-ratio"] [c!"-ms-max-device-pixel-ratio", c!"-ms-min-device-pixel-ratio"]),
  (c!"MsColumnCountMediaFeature", [c!"-ms-column-count"],
    .ranged .int [c!"-ms-column-count", c!"-ms-max-column-count", c!"-ms-min-column-count"] [c!"-ms-max-column-count", c!"-ms-min-column-count"]),
  (c!"ODevicePixelRatioMediaFeature", [c!"-o-device-pixel-ratio"],
    .ranged .float [c!"-o-device-pixel-ratio", c!"-o-max-device-pixel-ratio", c!"-o-min-device-pixel-ratio"] [c!"-o-max-device-pixel-ratio", c!"-o-min-device-pixel-ratio"])]

/-- css_ast/src/rules/media/mod.rs:301-311 `MediaFeature`, css_ast/src/rules/media/features/hack.rs:6-8 `HackMediaFeature`. -/
inductive MediaFeature where
  | discrete (variant : List Char) (f : Feature (List Char × Cursor))
  | boolean (variant : List Char) (f : Feature Cursor)
  | ranged (variant : List Char) (f : Ranged Cursor)
  | hack (opening name colon value close : Cursor)
  deriving DecidableEq, Repr

/-- `ToCursors for MediaFeature`: css_ast/src/rules/media/mod.rs:355-367, features/hack.rs:29-41. -/
def MediaFeature.cursors : MediaFeature → List Cursor
  | .discrete _ f => f.cursors fun v => [v.2]
  | .boolean _ f => f.cursors fun v => [v]
  | .ranged _ f => f.cursors fun v => [v]
  | .hack o n c v cl => [o, n, c, v, cl]

/-- css_ast/src/lib.rs:34-38 `Parse for Todo`. -/
def todoParser {α : Type} : Prog α := do
  let n ← offset
  ofResult (.error ⟨.other, ⟨n, n⟩⟩)

/-- `$typ::parse(p).map(Self::$name)`, css_ast/src/rules/media/mod.rs:324. -/
def mediaFeatureOf (variant : List Char) : MediaSpec → Prog MediaFeature
  | .discrete name keys => do
    let f ← discreteFeature name (keyword keys)
    pure (.discrete variant f)
  | .boolean name => do
    let f ← booleanFeature name
    pure (.boolean variant f)
  | .ranged value names legacy => do
    let f ← rangedFeature names (fun s => legacy.contains s) value.parser
    pure (.ranged variant f)
  | .todo => todoParser

/-- css_ast/src/rules/media/mod.rs:323-326: which variant a name is dispatched to. -/
def mediaSpec (name : List Char) : Option (List Char × MediaSpec) :=
  (MEDIA_FEATURES.find? fun r => r.2.1.contains name).map fun r => (r.1, r.2.2)

/-- css_ast/src/rules/media/features/hack.rs:10-27 `Parse for HackMediaFeature`. -/
def hackFeature : Prog MediaFeature := do
  let opening ← tok (isKind .leftParen)
  let name ← tok (isKind .ident)
  if !(← Prog.eqIgnoreAsciiCase name c!"min-width") then do
    let _ ← Prog.str name
    fail .unexpectedIdent name
  else
    let colon ← tok (isKind .colon)
    let value ← tok (isKind .dimension)
    let s ← ask fun p => value.strSlice p.lexer.source
    if s != c!"0\\0" then fail .unexpected value
    else
      let close ← tok (isKind .rightParen)
      pure (.hack opening name colon value close)

/-- css_ast/src/rules/media/mod.rs:315-353 `Parse for MediaFeature`. -/
def mediaFeature : Prog MediaFeature := do
  let c ← peekN 2
  if c.token.isKind .ident then do
    let s ← strLower c
    match mediaSpec s with
    | none => fail .unexpectedIdent c
    | some (variant, spec) =>
      attempt (mediaFeatureOf variant spec) (fun r => r.toBool) fun r =>
        match r with
        | .ok f => pure f
        | .error e => do
          match ← result hackFeature with
          | .ok f => pure f
          | .error _ => ofResult (.error e)
  else do
    let c4 ← peekN 4
    let c ← if c4.token.isKind .ident then pure c4 else peekN 5
    if !c.token.isKind .ident then do
      let c ← any
      fail .unexpected c
    else do
      let s ← strLower c
      match mediaSpec s with
      | none => fail .unexpectedIdent c
      | some (variant, spec) => mediaFeatureOf variant spec

/-! ### Media queries -/

/-- css_ast/src/rules/media/mod.rs:116 `MediaPreCondition`. -/
def MEDIA_PRECONDITIONS : List (List Char) := [c!"not", c!"only"]
/-- css_ast/src/rules/media/mod.rs:128-132 `MediaType::MAP`. -/
def MEDIA_TYPES : List (List Char) := [c!"all", c!"print", c!"screen"]
/-- css_ast/src/rules/media/mod.rs:133-139 `MediaType::INVALID`. -/
def NOT_MEDIA_TYPES : List (List Char) := [c!"only", c!"not", c!"and", c!"or", c!"layer"]

/-- css_ast/src/rules/media/mod.rs:142-146 `Peek for MediaType`. -/
def isMediaType (c : Cursor) : Prog Bool :=
  if c.token.isKind .ident then do
    let s ← strLower c
    pure (!NOT_MEDIA_TYPES.contains s)
  else pure false

/-- css_ast/src/rules/media/mod.rs:148-160 `Build for MediaType`: the key of a known type, `none` for `Custom`, and the cursor. -/
def buildMediaType (c : Cursor) : Prog (Option (List Char) × Cursor) := do
  let s ← strLower c
  if MEDIA_TYPES.contains s then pure (some s, c)
  else if NOT_MEDIA_TYPES.contains s then .panic .unwrap
  else pure (none, c)

/-- css_ast/src/rules/media/mod.rs:181-186 `MediaQuery`. -/
structure MediaQuery where
  precondition : Option (List Char × Cursor)
  mediaType : Option (Option (List Char) × Cursor)
  and : Option Cursor
  condition : Option (Condition MediaFeature)
  deriving DecidableEq, Repr

/-- css_ast/src/rules/media/mod.rs:216-221: the last part of `Parse for MediaQuery`. -/
def mediaQueryRest (fuel : Nat) (pre : Option (List Char × Cursor)) (type : Option (Option (List Char) × Cursor)) : Prog MediaQuery := do
  let c ← peekN 1
  let isAnd ← if c.token.isKind .ident then Prog.eqIgnoreAsciiCase c c!"and" else pure false
  if isAnd then do
    let and ← tok (isKind .ident)
    let cond ← condition mediaFeature fuel
    pure ⟨pre, type, some and, some cond⟩
  else pure ⟨pre, type, none, none⟩

/-- css_ast/src/rules/media/mod.rs:188-223 `Parse for MediaQuery`. -/
def mediaQuery (fuel : Nat) : Prog MediaQuery := do
  let c ← peek
  if c.token.isKind .leftParen then do
    let cond ← condition mediaFeature fuel
    pure ⟨none, none, none, some cond⟩
  else do
    let c ← tok (isKind .ident)
    if ← isKeyword MEDIA_PRECONDITIONS c then do
      let pre ← buildKeyword MEDIA_PRECONDITIONS c
      let d ← peek
      if d.token.isKind .ident then do
        let c ← tok (isKind .ident)
        if ← isMediaType c then do
          let type ← buildMediaType c
          mediaQueryRest fuel (some pre) (some type)
        else do
          let _ ← Prog.str c
          fail .unexpectedIdent c
      else mediaQueryRest fuel (some pre) none
    else if ← isMediaType c then do
      let type ← buildMediaType c
      mediaQueryRest fuel none (some type)
    else do
      let _ ← Prog.str c
      fail .unexpectedIdent c

/-- css_ast/src/rules/media/mod.rs:225-240 `ToCursors for MediaQuery`. -/
def MediaQuery.cursors (q : MediaQuery) : List Cursor :=
  (q.precondition.map (·.2)).toList ++ ((q.mediaType.map (·.2)).toList ++
    (q.and.toList ++ (q.condition.map (Condition.cursors MediaFeature.cursors)).getD []))

/-! ### Containers -/

/-- css_ast/src/rules/container/mod.rs:244-256 `ContainerFeature`, by the type of the value. (`Style` and `ScrollState` are never made:
their parser is `todo!()`, container/mod.rs:270.) -/
inductive ContainerFeature where
  | length (variant : List Char) (f : Ranged Cursor)
  | ratio (f : Ranged Ratio)
  | orientation (f : Feature (List Char × Cursor))
  deriving DecidableEq, Repr

/-- css_ast/src/rules/container/mod.rs:333-345 `apply_container_features!`: the keys of `ContainerFeatureKeyword`. -/
def CONTAINER_FEATURES : List (List Char) := [c!"width", c!"height", c!"inline-size", c!"block-size", c!"aspect-ratio", c!"orientation"]

/-- css_ast/src/rules/container/mod.rs:274-288 `match_feature`; css_ast/src/rules/container/features.rs:10-81 (the default of `is_legacy` is
false, css_parse/src/traits/ranged_feature.rs). -/
def containerFeatureOf (c : Cursor) : Prog ContainerFeature := do
  if ← isKeyword CONTAINER_FEATURES c then do
    let (k, _) ← buildKeyword CONTAINER_FEATURES c
    if k == c!"aspect-ratio" then do
      let f ← rangedFeature [c!"aspect-ratio"] (fun _ => false) Hdx.ratio
      pure (.ratio f)
    else if k == c!"orientation" then do
      let f ← discreteFeature c!"orientation" (keyword [c!"portrait", c!"landscape"])
      pure (.orientation f)
    else do
      let f ← rangedFeature [k] (fun _ => false) (tok isLength)
      pure (.length k f)
  else do
    let _ ← Prog.str c
    fail .unexpectedIdent c

/-- css_ast/src/rules/container/mod.rs:267-301 `Parse for ContainerFeature`. -/
def containerFeature : Prog ContainerFeature := do
  let c ← peek
  if c.token.isKind .function then .panic .todo
  else do
    let c2 ← peekN 2
    if c2.token.isKind .ident then containerFeatureOf c2
    else do
      let c3 ← peekN 3
      let c ← if c3.token.isKind .ident then pure c3 else peekN 4
      containerFeatureOf c

/-- css_ast/src/rules/container/mod.rs:303-316 `ToCursors for ContainerFeature`. -/
def ContainerFeature.cursors : ContainerFeature → List Cursor
  | .length _ f => f.cursors fun v => [v]
  | .ratio f => f.cursors Ratio.cursors
  | .orientation f => f.cursors fun v => [v.2]

/-- css_ast/src/rules/container/mod.rs:116-121 `ContainerCondition`. -/
structure ContainerCondition where
  name : Option Cursor
  condition : Option (Condition ContainerFeature)
  deriving DecidableEq, Repr

/-- css_ast/src/rules/container/mod.rs:129: the idents that are no names. -/
def NOT_CONTAINER_NAMES : List (List Char) := [c!"none", c!"and", c!"not", c!"or"]

/-- css_ast/src/rules/container/mod.rs:123-139 `Parse for ContainerCondition`, 169-173 `Peek for ContainerQuery`. -/
def containerCondition (fuel : Nat) : Prog ContainerCondition := do
  let c ← peekN 1
  let named ← if c.token.isKind .ident then do
      let s ← strLower c
      pure (!NOT_CONTAINER_NAMES.contains s)
    else pure false
  if named then do
    let name ← tok (isKind .ident)
    let q ← ifPeek (fun c => pure (c.token.isKind .function || c.token.isKind .ident)) (condition containerFeature fuel)
    pure ⟨some name, q⟩
  else do
    let q ← condition containerFeature fuel
    pure ⟨none, some q⟩

/-- css_ast/src/rules/container/mod.rs:141-150 `ToCursors for ContainerCondition`. -/
def ContainerCondition.cursors (q : ContainerCondition) : List Cursor :=
  q.name.toList ++ (q.condition.map (Condition.cursors ContainerFeature.cursors)).getD []

end Hdx

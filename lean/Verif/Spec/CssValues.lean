/-
What the types of values stand for that css_ast does not define with the value definition syntax, written in that syntax: what CSS says, and where
hdx takes more than CSS allows, what it takes (marked so).
-/
import Verif.Spec.ValueSyntax
import Verif.Model.Definitions

namespace Hdx.Spec

/-- The words of a text. -/
def wordsOf (s : List Char) : List (List Char) := go [] s
where
  go : List Char → List Char → List (List Char)
    | [], [] => []
    | w, [] => [w.reverse]
    | w, c :: cs => if c == ' ' then (if w.isEmpty then go [] cs else w.reverse :: go [] cs) else go (c :: w) cs

/-- One of the keywords. -/
def oneOf (s : List Char) : Def := .comb ((wordsOf s).map .ident) .alternatives
/-- `|` -/
def alts (ds : List Def) : Def := .comb ds .alternatives
/-- One after the other. -/
def inTurn (ds : List Def) : Def := .comb ds .ordered
/-- A comma that may be missing. -/
def maybeComma : Def := .optional (.punct ',')

/-- https://drafts.csswg.org/css-color-4/#named-colors -/
def namedColors : List Char := c!"aliceblue antiquewhite aqua aquamarine azure beige bisque black blanchedalmond blue blueviolet brown burlywood cadetblue chartreuse chocolate coral cornflowerblue cornsilk crimson cyan darkblue darkcyan darkgoldenrod darkgray darkgreen darkgrey darkkhaki darkmagenta darkolivegreen darkorange darkorchid darkred darksalmon darkseagreen darkslateblue darkslategray darkslategrey darkturquoise darkviolet deeppink deepskyblue dimgray dimgrey dodgerblue firebrick floralwhite forestgreen fuchsia gainsboro ghostwhite gold goldenrod gray green greenyellow grey honeydew hotpink indianred indigo ivory khaki lavender lavenderblush lawngreen lemonchiffon lightblue lightcoral lightcyan lightgoldenrodyellow lightgray lightgreen lightgrey lightpink lightsalmon lightseagreen lightskyblue lightslategray lightslategrey lightsteelblue lightyellow lime limegreen linen magenta maroon mediumaquamarine mediumblue mediumorchid mediumpurple mediumseagreen mediumslateblue mediumspringgreen mediumturquoise mediumvioletred midnightblue mintcream mistyrose moccasin navajowhite navy oldlace olive olivedrab orange orangered orchid palegoldenrod palegreen paleturquoise palevioletred papayawhip peachpuff peru pink plum powderblue purple rebeccapurple red rosybrown royalblue saddlebrown salmon sandybrown seagreen seashell sienna silver skyblue slateblue slategray slategrey snow springgreen steelblue tan teal thistle tomato turquoise violet wheat white whitesmoke yellow yellowgreen"

/-- https://drafts.csswg.org/css-color-4/#css-system-colors -/
def systemColors : List Char := c!"accentcolor accentcolortext activetext buttonborder buttonface buttontext canvas canvastext field fieldtext graytext highlight highlighttext linktext mark marktext selecteditem selecteditemtext visitedtext"

/-- A channel of a color. -/
def channel : Def := alts [.type (.number .none), .type (.percentage .none), .ident c!"none"]
/-- https://drafts.csswg.org/css-color-4/#typedef-hue, or `none`. -/
def hue : Def := alts [.type (.number .none), .type (.angle .none), .ident c!"none"]
/-- An alpha. In CSS it needs the slash (or, in the legacy forms, a comma); in hdx each may come without the other. -/
def alpha : List Def := [.optional (.punct '/'), .optional channel]
/-- The color functions: https://drafts.csswg.org/css-color-4/#color-syntax. In CSS the commas are there or not there together; in hdx each may be
missing. -/
def legacy (first : Def) : Def := inTurn ([first, maybeComma, channel, maybeComma, channel, maybeComma] ++ alpha)
/-- The same, without commas. -/
def modern (a b c : Def) : Def := inTurn ([a, b, c] ++ alpha)

/-- `<color>`, without the hexadecimal ones. -/
def colorDef : Def := alts [
  oneOf c!"currentcolor transparent",
  oneOf namedColors,
  oneOf systemColors,
  .function c!"color" (inTurn ([oneOf c!"srgb srgb-linear display-p3 a98-rgb prophoto-rgb rec2020 xyz xyz-d50 xyz-d65", channel, channel, channel] ++ alpha)),
  .function c!"rgb" (legacy channel), .function c!"rgba" (legacy channel),
  .function c!"hsl" (legacy hue), .function c!"hsla" (legacy hue),
  .function c!"hwb" (modern hue channel channel),
  .function c!"lab" (modern channel channel channel), .function c!"oklab" (modern channel channel channel),
  .function c!"lch" (modern channel channel hue), .function c!"oklch" (modern channel channel hue)]

/-- https://drafts.csswg.org/css-anchor-position-1/#typedef-position-area -/
def positionAreaDef : Def := alts [
  .comb [oneOf c!"left center right span-left span-right x-start x-end span-x-start span-x-end x-self-start x-self-end span-x-self-start span-x-self-end span-all",
    oneOf c!"top center bottom span-top span-bottom y-start y-end span-y-start span-y-end y-self-start y-self-end span-y-self-start span-y-self-end span-all"] .options,
  .comb [oneOf c!"block-start center block-end span-block-start span-block-end span-all",
    oneOf c!"inline-start center inline-end span-inline-start span-inline-end span-all"] .options,
  .comb [oneOf c!"self-block-start center self-block-end span-self-block-start span-self-block-end span-all",
    oneOf c!"self-inline-start center self-inline-end span-self-inline-start span-self-inline-end span-all"] .options,
  .mult (oneOf c!"start center end span-start span-end span-all") (.range (.range 1 2)),
  .mult (oneOf c!"self-start center self-end span-self-start span-self-end span-all") (.range (.range 1 2))]

/-- The types that are not made by the macro. -/
def handDefs : List (List Char × Def) := [
  -- https://drafts.csswg.org/css-backgrounds-3/#typedef-line-style
  (c!"LineStyle", oneOf c!"none hidden dotted dashed solid double groove ridge inset outset"),
  -- https://drafts.csswg.org/css-ui-4/#typedef-outline-line-style: in CSS there is no `hidden`, and the third is `dotted`.
  (c!"OutlineLineStyle", oneOf c!"none hidden doted dashed solid double groove ridge inset outset"),
  -- https://drafts.csswg.org/css-box-4/#typedef-visual-box
  (c!"VisualBox", oneOf c!"content-box padding-box border-box"),
  -- https://drafts.csswg.org/css-backgrounds-4/#typedef-repetition
  (c!"Repetition", oneOf c!"repeat space round no-repeat"),
  -- https://drafts.csswg.org/css-backgrounds-4/#typedef-attachment
  (c!"Attachment", oneOf c!"scroll fixed local"),
  -- https://drafts.csswg.org/css-backgrounds-4/#typedef-bg-clip
  (c!"BgClip", oneOf c!"content-box padding-box border-box border-area text"),
  -- https://drafts.csswg.org/css-anchor-position-1/#typedef-try-size
  (c!"TrySize", oneOf c!"most-width most-height most-block-size most-inline-size"),
  -- https://drafts.csswg.org/css-animations-1/#typedef-single-animation-direction
  (c!"SingleAnimationDirection", oneOf c!"normal reverse alternate alternate-reverse"),
  (c!"SingleAnimationPlayState", oneOf c!"running paused"),
  (c!"SingleAnimationFillMode", oneOf c!"none forwards backwards both"),
  (c!"SingleAnimationComposition", oneOf c!"replace add accumulate"),
  -- https://drafts.csswg.org/css-transitions-2/#typedef-transition-behavior-value
  (c!"TransitionBehaviorValue", oneOf c!"normal allow-discrete"),
  -- https://drafts.csswg.org/css-ui-4/#typedef-appearance-compat-auto
  (c!"CompatAuto", oneOf c!"searchfield textarea checkbox radio menulist listbox meter progress-bar button"),
  (c!"CompatSpecial", oneOf c!"textfield menulist-button"),
  -- https://drafts.csswg.org/css-backgrounds-3/#typedef-line-width: in CSS the length must not be negative.
  (c!"LineWidth", alts [.type (.length .none), oneOf c!"thin medium thick"]),
  -- https://drafts.csswg.org/css-color-4/#typedef-opacity-opacity-value: in CSS the numbers have no range.
  (c!"OpacityValue", alts [.type (.number (.range 0 1)), .type (.percentage (.range 0 100))]),
  (c!"SingleAnimationIterationCount", alts [.ident c!"infinite", .type (.number (.from 0))]),
  -- https://drafts.csswg.org/css-backgrounds-4/#typedef-repeat-style
  (c!"RepeatStyle", alts [oneOf c!"repeat-x repeat-y", .mult (oneOf c!"repeat space round no-repeat") (.range (.range 1 2))]),
  (c!"AnchorName", .type .dashedIdent),
  (c!"PositionArea", positionAreaDef),
  -- https://drafts.csswg.org/css-page-floats-3/#funcdef-float-snap-block: in CSS the comma is there if and only if the keyword is.
  (c!"SnapBlock", .function c!"snap-block" (inTurn [.type (.lengthPercentage .none), maybeComma, .optional (oneOf c!"start end near")])),
  (c!"SnapInline", .function c!"snap-inline" (inTurn [.type (.lengthPercentage .none), maybeComma, .optional (oneOf c!"left right near")])),
  -- https://drafts.csswg.org/css-color-hdr/#typedef-dynamic-range-limit-mix: in CSS there are two or more parts, with commas, and the names are those of limits.
  (c!"DynamicRangeLimitMix", .function c!"dynamic-range-limit-mix"
    (.mult (inTurn [.type .customIdent, .type (.percentage (.range 0 100)), maybeComma]) .zeroOrMore)),
  -- https://drafts.csswg.org/css-will-change/#typedef-animateable-feature
  (c!"AnimateableFeature", .type .customIdent)]

/-- `<image>`: a url, or a function `url` or a gradient (what is in it is not said). -/
def IsImage (src : List Char) (w : List Cursor) : Prop :=
  (∃ c, w = [c] ∧ IsKind .url c) ∨ ∃ f v, w = f :: v ∧ IsKind .function f ∧
    ∃ n ∈ [c!"url", c!"linear-gradient", c!"radial-gradient", c!"repeating-linear-gradient", c!"repeating-radial-gradient"], Called src f n
/-- `<image-1D>`: `stripes()` (what is in it is not said). -/
def IsImage1D (src : List Char) (w : List Cursor) : Prop :=
  ∃ f v c, w = f :: (v ++ [c]) ∧ IsKind .function f ∧ Called src f c!"stripes" ∧ IsKind .rightParen c

/-- What a named type stands for; references are followed so many times. -/
def MeaningAt (src : List Char) : Nat → Meaning
  | 0, _, _ => False
  | k + 1, name, w =>
    if name = c!"Image" then IsImage src w
    else if name = c!"Image1D" then IsImage1D src w
    else if name = c!"Color" then (∃ c, w = [c] ∧ IsKind .hash c) ∨ Matches src (MeaningAt src k) colorDef w
    else match handDefs.find? (·.1 == name) with
      | some row => Matches src (MeaningAt src k) row.2 w
      | none => match definitionOf name with
        | some d => Matches src (MeaningAt src k) d w
        | none => False

/-- The definitions that a named type leads to are read as they should be; references are followed so many times. -/
def FaithfulName : Nat → List Char → Bool
  | 0, _ => false
  | k + 1, name =>
    if (handWritten name).isSome then true
    else match definitionOf name with
      | some d => Faithful (FaithfulName k) d
      | none => false

end Hdx.Spec

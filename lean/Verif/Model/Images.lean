/-
Colors, images, gradients and positions: css_ast/src/types/color, css_ast/src/types/{image,image_1d,gradient,position}.rs.
-/
import Verif.Model.ValueDef

namespace Hdx
open Prog

/-! ### Pieces -/

/-- `p.parse::<T>()?` for a type of one token. -/
def piece (test : Cursor → Prog Bool) : Prog Val := do
  let c ← tok test
  pure (.tok c)

/-- `p.parse_if_peek::<T>()?` for a type of one token. -/
def optPiece (test : Cursor → Prog Bool) : Prog Val := do
  let c ← ifPeek test (tok test)
  pure (.opt (c.map .tok))

/-- A chain of `||`. -/
def either (a b : Cursor → Prog Bool) (c : Cursor) : Prog Bool := do
  if ← a c then pure true else b c

/-- An ident with this text: `<T![Ident]>::peek(p, c) && p.eq_ignore_ascii_case(c, name)`. -/
def isWordOf (name : List Char) (c : Cursor) : Prog Bool := if c.token.isKind .ident then Prog.eqIgnoreAsciiCase c name else pure false

/-- A function of this name: `<T![Function]>::peek(p, c) && p.eq_ignore_ascii_case(c, name)`. -/
def isNamed (name : List Char) (c : Cursor) : Prog Bool := if c.token.isKind .function then Prog.eqIgnoreAsciiCase c name else pure false

/-- The opening of a function that must have this name. -/
def namedFunction (name : List Char) : Prog Cursor := do
  let f ← tok (isKind .function)
  if !(← Prog.eqIgnoreAsciiCase f name) then do
    let _ ← Prog.str f
    fail .other f
  else pure f

/-! ### Colors -/

/-- css_ast/src/types/color/color_function.rs:5-16 `ColorFunctionName`. -/
def COLOR_FUNCTIONS : List (List Char) := [c!"color", c!"rgb", c!"rgba", c!"hsl", c!"hsla", c!"hwb", c!"lab", c!"lch", c!"oklab", c!"oklch"]
/-- css_ast/src/types/color/color_function.rs:102-112 `ColorSpace`. -/
def COLOR_SPACES : List (List Char) := [c!"srgb", c!"srgb-linear", c!"display-p3", c!"a98-rgb", c!"prophoto-rgb", c!"rec2020", c!"xyz", c!"xyz-d50",
  c!"xyz-d65"]
/-- css_ast/src/types/color/system.rs:3-23 `SystemColor`. -/
def SYSTEM_COLORS : List (List Char) := [
  c!"accentcolor", c!"accentcolortext", c!"activetext", c!"buttonborder", c!"buttonface", c!"buttontext", c!"canvas",
  c!"canvastext", c!"field", c!"fieldtext", c!"graytext", c!"highlight", c!"highlighttext", c!"linktext", c!"mark", c!"marktext",
  c!"selecteditem", c!"selecteditemtext", c!"visitedtext"]
/-- css_ast/src/types/color/named.rs:3-152 `NamedColor`. -/
def NAMED_COLORS : List (List Char) := [
  c!"aliceblue", c!"antiquewhite", c!"aqua", c!"aquamarine", c!"azure", c!"beige", c!"bisque", c!"black", c!"blanchedalmond",
  c!"blue", c!"blueviolet", c!"brown", c!"burlywood", c!"cadetblue", c!"chartreuse", c!"chocolate", c!"coral", c!"cornflowerblue",
  c!"cornsilk", c!"crimson", c!"cyan", c!"darkblue", c!"darkcyan", c!"darkgoldenrod", c!"darkgray", c!"darkgreen", c!"darkgrey",
  c!"darkkhaki", c!"darkmagenta", c!"darkolivegreen", c!"darkorange", c!"darkorchid", c!"darkred", c!"darksalmon",
  c!"darkseagreen", c!"darkslateblue", c!"darkslategray", c!"darkslategrey", c!"darkturquoise", c!"darkviolet", c!"deeppink",
  c!"deepskyblue", c!"dimgray", c!"dimgrey", c!"dodgerblue", c!"firebrick", c!"floralwhite", c!"forestgreen", c!"fuchsia",
  c!"gainsboro", c!"ghostwhite", c!"gold", c!"goldenrod", c!"gray", c!"green", c!"greenyellow", c!"grey", c!"honeydew",
  c!"hotpink", c!"indianred", c!"indigo", c!"ivory", c!"khaki", c!"lavender", c!"lavenderblush", c!"lawngreen", c!"lemonchiffon",
  c!"lightblue", c!"lightcoral", c!"lightcyan", c!"lightgoldenrodyellow", c!"lightgray", c!"lightgreen", c!"lightgrey",
  c!"lightpink", c!"lightsalmon", c!"lightseagreen", c!"lightskyblue", c!"lightslategray", c!"lightslategrey", c!"lightsteelblue",
  c!"lightyellow", c!"lime", c!"limegreen", c!"linen", c!"magenta", c!"maroon", c!"mediumaquamarine", c!"mediumblue",
  c!"mediumorchid", c!"mediumpurple", c!"mediumseagreen", c!"mediumslateblue", c!"mediumspringgreen", c!"mediumturquoise",
  c!"mediumvioletred", c!"midnightblue", c!"mintcream", c!"mistyrose", c!"moccasin", c!"navajowhite", c!"navy", c!"oldlace",
  c!"olive", c!"olivedrab", c!"orange", c!"orangered", c!"orchid", c!"palegoldenrod", c!"palegreen", c!"paleturquoise",
  c!"palevioletred", c!"papayawhip", c!"peachpuff", c!"peru", c!"pink", c!"plum", c!"powderblue", c!"purple", c!"rebeccapurple",
  c!"red", c!"rosybrown", c!"royalblue", c!"saddlebrown", c!"salmon", c!"sandybrown", c!"seagreen", c!"seashell", c!"sienna",
  c!"silver", c!"skyblue", c!"slateblue", c!"slategray", c!"slategrey", c!"snow", c!"springgreen", c!"steelblue", c!"tan",
  c!"teal", c!"thistle", c!"tomato", c!"turquoise", c!"violet", c!"wheat", c!"white", c!"whitesmoke", c!"yellow", c!"yellowgreen"]

/-- css_ast/src/types/color/color_function.rs:26-30 `Peek for Hue`. -/
def isHue : Cursor → Prog Bool := either (isKind .number) (either isAngle (isWordOf c!"none"))
/-- css_ast/src/types/color/color_function.rs:69-75 `Peek for Channel`. -/
def isChannel : Cursor → Prog Bool := either (isKind .number) (either (isDimensionOf .percent) (isWordOf c!"none"))

/-- css_ast/src/types/color/color_function.rs:223-292 `parse_rgb`, `parse_hsl`: three numbers with commas or without, and an alpha. -/
def legacyChannels (first : Cursor → Prog Bool) : List (Prog Val) :=
  [piece first, optPiece (isKind .comma), piece isChannel, optPiece (isKind .comma), piece isChannel, optPiece (isKind .comma),
    optPiece (isDelim '/'), optPiece isChannel]
/-- css_ast/src/types/color/color_function.rs:294-324 `parse_hwb`, `parse_lch`, `parse_three_channel`. -/
def channels (a b c : Cursor → Prog Bool) : List (Prog Val) := [piece a, piece b, piece c, optPiece (isDelim '/'), optPiece isChannel]

/-- css_ast/src/types/color/color_function.rs:327-376: what follows the name of the function. -/
def colorArguments (name : List Char) : List (Prog Val) :=
  if name == c!"color" then piece (isKeyword COLOR_SPACES) :: channels isChannel isChannel isChannel
  else if name == c!"rgb" || name == c!"rgba" then legacyChannels isChannel
  else if name == c!"hsl" || name == c!"hsla" then legacyChannels isHue
  else if name == c!"hwb" then channels isHue isChannel isChannel
  else if name == c!"lch" || name == c!"oklch" then channels isChannel isChannel isHue
  else channels isChannel isChannel isChannel

/-- css_ast/src/types/color/color_function.rs:327-376 `Parse for ColorFunction`. -/
def colorFunction : Prog Val := do
  let (name, f) ← functionOf COLOR_FUNCTIONS
  let vs ← sequence (colorArguments name ++ [optPiece (isKind .rightParen)])
  pure (.fields (.tok f :: vs))

/-- css_ast/src/types/color/mod.rs:46-50 `Peek for Color`: any hash, any function and any ident. -/
def isColor : Cursor → Prog Bool := either (isKind .hash) (either (isKind .function) (isKind .ident))

/-- css_ast/src/types/color/mod.rs:52-79 `Parse for Color`. -/
def color : Prog Val := do
  let c ← peek
  if c.token.isKind .hash then do
    let v ← piece (isKind .hash)
    pure (.variant 3 v)
  else do
    let c ← peek
    if c.token.isKind .ident then do
      match ← ifPeek (isKeyword [c!"currentcolor", c!"transparent"]) (keyword [c!"currentcolor", c!"transparent"]) with
      | some (k, c) => pure (.variant (if k == c!"currentcolor" then 0 else 1) (.tok c))
      | none =>
        match ← ifPeek (isKeyword NAMED_COLORS) (keyword NAMED_COLORS) with
        | some (_, c) => pure (.variant 4 (.tok c))
        | none => do
          let (_, c) ← keyword SYSTEM_COLORS
          pure (.variant 2 (.tok c))
    else do
      let c ← peek
      if ← isFunctionOf COLOR_FUNCTIONS c then do
        let v ← colorFunction
        pure (.variant 5 v)
      else do
        let c ← peekN 1
        fail .other c

/-! ### Positions -/

/-- css_ast/src/types/position.rs:119 `PositionValueKeyword`. -/
def POSITION_KEYWORDS : List (List Char) := [c!"left", c!"right", c!"center", c!"top", c!"bottom"]

/-- css_ast/src/types/position.rs:121-131 `PositionSingleValue`: the key of a keyword, or a length or percentage. -/
structure PositionValue where
  key : Option (List Char)
  c : Cursor

/-- css_ast/src/types/position.rs:206-210 `Peek for PositionSingleValue`. -/
def isPositionValue : Cursor → Prog Bool := either isLengthPercentage (isKeyword POSITION_KEYWORDS)

/-- css_ast/src/types/position.rs:212-230 `Build for PositionSingleValue`, with `Parse`. -/
def positionValue : Prog PositionValue := do
  let c ← tok isPositionValue
  if c.token.isKind .ident then do
    let (k, c) ← buildKeyword POSITION_KEYWORDS c
    pure ⟨some k, c⟩
  else pure ⟨none, c⟩

/-- css_ast/src/types/position.rs:134-143 `to_horizontal`. -/
def PositionValue.isHorizontal (v : PositionValue) : Bool := v.key.all fun k => k == c!"left" || k == c!"right" || k == c!"center"
/-- css_ast/src/types/position.rs:145-154 `to_vertical`. -/
def PositionValue.isVertical (v : PositionValue) : Bool := v.key.all fun k => k == c!"top" || k == c!"bottom" || k == c!"center"
/-- css_ast/src/types/position.rs:156-163 `to_horizontal_keyword`. -/
def PositionValue.isHorizontalKeyword (v : PositionValue) : Bool := v.key.any fun k => k == c!"left" || k == c!"right"
/-- css_ast/src/types/position.rs:165-172 `to_vertical_keyword`. -/
def PositionValue.isVerticalKeyword (v : PositionValue) : Bool := v.key.any fun k => k == c!"top" || k == c!"bottom"

/-- css_ast/src/types/position.rs:57-92: from the third value of four. -/
def fourPosition (first second : PositionValue) : Prog Val := do
  if first.key.isNone || first.key == some c!"center" || second.key.isSome then fail .unexpected second.c
  else do
    let third ← positionValue
    if !third.isHorizontalKeyword && !third.isVerticalKeyword then do
      let _ ← Prog.str third.c
      fail .unexpectedIdent third.c
    else do
      let fourth ← tok isLengthPercentage
      if first.isHorizontalKeyword then
        if third.isVerticalKeyword then pure (.variant 2 (.fields [.tok first.c, .tok second.c, .tok third.c, .tok fourth]))
        else fail .unexpected third.c
      else if third.isHorizontalKeyword then
        if first.isVerticalKeyword then pure (.variant 2 (.fields [.tok third.c, .tok fourth, .tok first.c, .tok second.c]))
        else fail .unexpected third.c
      else fail .unexpected third.c

/-- css_ast/src/types/position.rs:34-93 `Parse for Position`. -/
def position : Prog Val := do
  let first ← positionValue
  let c ← peek
  if !(← isPositionValue c) then pure (.variant 0 (.tok first.c))
  else do
    let second ← positionValue
    let c ← peek
    if !(← isPositionValue c) then
      if first.isHorizontal then
        if second.isVertical then pure (.variant 1 (.fields [.tok first.c, .tok second.c]))
        else fourPosition first second
      else if second.isHorizontal then
        if first.isVertical then pure (.variant 1 (.fields [.tok second.c, .tok first.c]))
        else fail .unexpected second.c
      else fourPosition first second
    else fourPosition first second

/-! ### Gradients -/

/-- css_ast/src/types/gradient.rs:15-20 `GradientFunctionName`. -/
def GRADIENTS : List (List Char) := [c!"linear-gradient", c!"radial-gradient", c!"repeating-linear-gradient", c!"repeating-radial-gradient"]
/-- css_ast/src/types/gradient.rs:239 `NamedDirection`. -/
def DIRECTIONS : List (List Char) := [c!"bottom", c!"top", c!"left", c!"right"]
/-- css_ast/src/types/gradient.rs:300-305 `RadialSizeKeyword`. -/
def RADIAL_SIZES : List (List Char) := [c!"closest-corner", c!"closest-side", c!"farthest-corner", c!"farthest-side"]
/-- css_ast/src/types/gradient.rs:354 `RadialShape`. -/
def RADIAL_SHAPES : List (List Char) := [c!"circle", c!"ellipse"]

/-- css_ast/src/types/gradient.rs:51-78 `parse_stops`. -/
def gradientStops : Nat → Bool → List Val → Prog (List Val)
  | 0, _, _ => .panic .diverges
  | n + 1, allowHint, stops => do
    let hint ← (if allowHint then ifPeek isLengthPercentage (do
      let hint ← tok isLengthPercentage
      let comma ← tok (isKind .comma)
      pure (hint, comma)) else pure none)
    let stops := match hint with
      | some (hint, comma) => stops ++ [.variant 1 (.fields [.tok hint, .tok comma])]
      | none => stops
    let col ← color
    let hint ← ifPeek isLengthPercentage (tok isLengthPercentage)
    let comma ← ifPeek (isKind .comma) (tok (isKind .comma))
    let stops := stops ++ [.variant 0 (.fields [col, .opt (hint.map .tok), .opt (comma.map .tok)])]
    if comma.isNone then pure stops else gradientStops n (allowHint || hint.isSome) stops

/-- css_ast/src/types/gradient.rs:249-253 `Peek for LinearDirection`. -/
def isLinearDirection : Cursor → Prog Bool := either isAngle (isWordOf c!"to")
/-- css_ast/src/types/gradient.rs:255-270 `Parse for LinearDirection`. -/
def linearDirection : Prog Val := do
  let c ← peek
  if ← isAngle c then do
    let v ← piece isAngle
    pure (.variant 0 v)
  else do
    let to ← tok (isKind .ident)
    if !(← Prog.eqIgnoreAsciiCase to c!"to") then do
      let _ ← Prog.str to
      fail .unexpectedIdent to
    else do
      let vs ← sequence [piece (isKeyword DIRECTIONS), optPiece (isKeyword DIRECTIONS)]
      pure (.variant 1 (.fields (.tok to :: vs)))

/-- css_ast/src/types/gradient.rs:307-311 `Peek for RadialSize`. -/
def isRadialSize : Cursor → Prog Bool := either isLengthPercentage (isKeyword RADIAL_SIZES)
/-- css_ast/src/types/gradient.rs:313-335 `Parse for RadialSize`. A number that is followed by something else than a number is parsed, and
left out. -/
def radialSize : Prog Val := do
  match ← ifPeek (isKeyword RADIAL_SIZES) (keyword RADIAL_SIZES) with
  | some (_, c) => pure (.variant 0 (.tok c))
  | none => do
    let c ← peek
    if c.token.isKind .number then do
      let first ← tok isLengthPercentage
      let c ← peek
      if !c.token.isKind .number then do
        let v ← piece isLength
        pure (.circular v)
      else do
        let second ← tok isLengthPercentage
        pure (.variant 2 (.fields [.tok first, .tok second]))
    else do
      let vs ← sequence [piece isLengthPercentage, piece isLengthPercentage]
      pure (.variant 2 (.fields vs))

/-- css_ast/src/types/gradient.rs:91-95, 97-102: a linear gradient. -/
def linearGradient (f : Cursor) : Prog Val := do
  let dir ← ifPeek isLinearDirection linearDirection
  let comma ← (if dir.isSome then ifPeek (isKind .comma) (tok (isKind .comma)) else pure none)
  Prog.read fun p => do
    let stops ← gradientStops p.fuel false []
    let close ← optionalClose
    pure (.fields [.tok f, .opt dir, .opt (comma.map .tok), .fields stops, .opt (close.map .tok)])

/-- css_ast/src/types/gradient.rs:103-130, 131-157: a radial gradient; `at` is the test for the word `at`. (In a repeating one the code
looks at the function instead of the next token.) -/
def radialGradient (f : Cursor) (isAt : Prog Bool) : Prog Val := do
  let size ← ifPeek isRadialSize radialSize
  let shape ← ifPeek (isKeyword RADIAL_SHAPES) (tok (isKeyword RADIAL_SHAPES))
  let size ← (if size.isNone && shape.isNone then do
    let v ← radialSize
    pure (some v) else pure size)
  let at_ ← (if ← isAt then do
    let c ← tok (isKind .ident)
    pure (some c) else pure none)
  let place ← (if at_.isSome then ifPeek isPositionValue position else pure none)
  let comma ← (if size.isSome || shape.isSome then ifPeek (isKind .comma) (tok (isKind .comma)) else pure none)
  Prog.read fun p => do
    let stops ← gradientStops p.fuel false []
    let close ← optionalClose
    pure (.fields [.tok f, .opt size, .opt (shape.map .tok), .opt (at_.map .tok), .opt place, .opt (comma.map .tok), .fields stops,
      .opt (close.map .tok)])

/-- css_ast/src/types/gradient.rs:81-160: `Peek` and `Parse` of `Gradient`. -/
def isGradient : Cursor → Prog Bool := isFunctionOf GRADIENTS
/-- css_ast/src/types/gradient.rs:87-160 `Parse for Gradient`. -/
def gradient : Prog Val := do
  let (name, f) ← functionOf GRADIENTS
  if name == c!"linear-gradient" then do
    let v ← linearGradient f
    pure (.variant 0 v)
  else if name == c!"repeating-linear-gradient" then do
    let v ← linearGradient f
    pure (.variant 1 v)
  else if name == c!"radial-gradient" then do
    let v ← radialGradient f (do
      let c ← peekN 1
      isWordOf c!"at" c)
    pure (.variant 2 v)
  else do
    let v ← radialGradient f (isWordOf c!"at" f)
    pure (.variant 3 v)

/-! ### Images -/

/-- css_ast/src/types/image.rs:15-21 `Peek for Image`. -/
def isImage : Cursor → Prog Bool := either (isKind .url) (either isGradient (isNamed c!"url"))
/-- css_ast/src/types/image.rs:23-39 `Parse for Image`. -/
def image : Prog Val := do
  let c ← peek
  if c.token.isKind .url then do
    let v ← piece (isKind .url)
    pure (.variant 0 v)
  else do
    let c ← peek
    if ← isGradient c then do
      let v ← gradient
      pure (.variant 2 v)
    else do
      let f ← namedFunction c!"url"
      let vs ← sequence [piece (isKind .string), piece (isKind .rightParen)]
      pure (.variant 1 (.fields (.tok f :: vs)))

/-- css_ast/src/units/length.rs:343-347 `Peek for LengthPercentageOrFlex`. -/
def isThickness : Cursor → Prog Bool := either (isDimensionOf .fr) isLengthPercentage
/-- css_ast/src/types/image_1d.rs:66-76 `Parse for ColorStripe`. -/
def colorStripe : Prog Val := do
  let first ← ifPeek isColor color
  let thickness ← optPiece isThickness
  let col ← (match first with
    | some v => pure v
    | none => color)
  let comma ← optPiece (isKind .comma)
  pure (.fields [col, thickness, comma])

/-- css_ast/src/types/image_1d.rs:33-39: the loop of `Parse for Image1D`. -/
def stripesLoop : Nat → List Val → Prog (List Val × Cursor)
  | 0, _ => .panic .diverges
  | n + 1, vs => do
    let c ← peek
    if c.token.isKind .rightParen then do
      let close ← tok (isKind .rightParen)
      pure (vs, close)
    else do
      let v ← colorStripe
      stripesLoop n (vs ++ [v])

/-- css_ast/src/types/image_1d.rs:25-41 `Parse for Image1D`. -/
def image1D : Prog Val := do
  let f ← namedFunction c!"stripes"
  Prog.read fun p => do
    let (vs, close) ← stripesLoop p.fuel []
    pure (.fields [.tok f, .fields vs, .tok close])

end Hdx

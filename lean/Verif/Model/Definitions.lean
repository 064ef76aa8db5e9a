/-
The definitions of css_ast (css_ast/src/values/*/mod.rs, the arguments of `#[value]`), the reader of such definitions
(csskit_proc_macro/src/def.rs), and the hand-written types they name (css_ast/src/values/*/types.rs).
-/
import Verif.Model.Images

namespace Hdx
open Prog

/-! ### The reader of definitions -/

/-- Tokens of a definition. -/
inductive DefTok where
  | word (s : List Char)
  | quoted (s : List Char)
  | sym (s : List Char)
  deriving DecidableEq, Repr

/-- The characters of words. (To syn `-` is a token of its own, and `DefIdent` puts words and `-` together, csskit_proc_macro/src/def.rs:
235-261; blanks beside a `-` are not modelled.) -/
def isDefWord (c : Char) : Bool := c.isAlphanum || c == '-' || c == '_'

/-- The tokens of a definition: csskit_proc_macro/src/def.rs:19-26 `StrWrapped` leaves out `∞` and reads `'` as a quote. -/
def defTokens : Nat → List Char → List DefTok
  | 0, _ => []
  | _, [] => []
  | n + 1, c :: cs =>
    if c == '∞' || c == ' ' || c == '\n' || c == '\t' then defTokens n cs
    else if c == '\'' then .quoted (cs.takeWhile (· != '\'')) :: defTokens n ((cs.dropWhile (· != '\'')).drop 1)
    else if isDefWord c then .word (c :: cs.takeWhile isDefWord) :: defTokens n (cs.dropWhile isDefWord)
    else if (c == '|' || c == '&') && cs.head? == some c then .sym [c, c] :: defTokens n (cs.drop 1)
    else .sym [c] :: defTokens n cs

/-- `base10_parse` of an integer literal, without its suffix (`0s`). -/
def defNumber (s : List Char) : Nat := (s.takeWhile Char.isDigit).foldl (fun n c => n * 10 + (c.toNat - '0'.toNat)) 0

/-- An integer literal at the front. -/
def defLit : List DefTok → Option Nat × List DefTok
  | .word s :: ts => if s.head?.any Char.isDigit then (some (defNumber s), ts) else (none, .word s :: ts)
  | ts => (none, ts)

/-- csskit_proc_macro/src/def.rs:313-339 `Parse for DefRange`; floats are not modelled. -/
def readRange (ts : List DefTok) : DefRange × List DefTok :=
  match defLit ts with
  | (lhs, .sym [','] :: ts) =>
    match defLit ts with
    | (rhs, ts) =>
      (match lhs, rhs with
        | some a, some b => .range a b
        | none, some b => .to b
        | some a, none => .from a
        | none, none => .none, ts)
  | (some a, ts) => (.fixed a, ts)
  | (none, ts) => (.none, ts)

/-- A range in brackets, if one is at the front. -/
def readBracketed (opening closing : Char) (ts : List DefTok) : Option (DefRange × List DefTok) :=
  match ts with
  | .sym [c] :: rest =>
    if c == opening then
      match readRange rest with
      | (r, .sym [d] :: rest) => if d == closing then some (r, rest) else none
      | _ => none
    else some (.none, ts)
  | _ => some (.none, ts)

/-- csskit_proc_macro/src/def.rs:276-304: the type of this name. -/
def typeOf (name : List Char) (r : DefRange) : DefType :=
  if name == c!"length" then .length r
  else if name == c!"length-percentage" then .lengthPercentage r
  else if name == c!"angle" then .angle r
  else if name == c!"time" then .time r
  else if name == c!"resolution" then .resolution r
  else if name == c!"integer" then .integer r
  else if name == c!"number" then .number r
  else if name == c!"percentage" then .percentage r
  else if name == c!"string" then .string
  else if name == c!"color" then .color
  else if name == c!"image" then .image
  else if name == c!"image-1D" then .image1D
  else if name == c!"dashed-ident" then .dashedIdent
  else if name == c!"custom-ident" then .customIdent
  else .custom (pascal name)

/-- csskit_proc_macro/src/def.rs:263-311 `Parse for DefType`, after the `<`. -/
def readType (ts : List DefTok) : Option (DefType × List DefTok) :=
  match ts with
  | .quoted s :: .sym ['>'] :: rest => some (typeOf (s ++ c!"-style-value") .none, rest)
  | .word s :: .sym ['('] :: .sym [')'] :: .sym ['>'] :: rest => some (typeOf s .none, rest)
  | .word s :: rest =>
    match readBracketed '[' ']' rest with
    | some (r, .sym ['>'] :: rest) => some (typeOf s r, rest)
    | _ => none
  | _ => none

/-- csskit_proc_macro/src/def.rs:181-202: a definition, a combinator, and what follows. -/
def Def.combine (root : Def) (style : DefStyle) (next : Def) : Def :=
  match next with
  | .comb children s =>
    if s = style then .comb (root :: children) s
    else
      match root with
      | .comb rc rs =>
        if rs = style then .comb (rc ++ [next]) rs
        else if style.rank < s.rank then .comb (.comb ([root] ++ children.take 1) style :: children.drop 1) s
        else .comb [root, next] style
      | _ =>
        if style.rank < s.rank then .comb (.comb ([root] ++ children.take 1) style :: children.drop 1) s
        else .comb [root, next] style
  | _ =>
    match root with
    | .comb rc rs => if rs = style then .comb (rc ++ [next]) rs else .comb [root, next] style
    | _ => .comb [root, next] style

/-- csskit_proc_macro/src/def.rs:206-233 `Parse for DefMultiplierStyle` and 157-168: the postfixes. -/
def readPostfixes : Nat → Def → List DefTok → Def × List DefTok
  | 0, d, ts => (d, ts)
  | n + 1, d, ts =>
    match ts with
    | .sym ['?'] :: rest => readPostfixes n (.optional d) rest
    | .sym ['*'] :: rest => readPostfixes n (.mult d .zeroOrMore) rest
    | .sym ['+'] :: rest => readPostfixes n (.mult d .oneOrMore) rest
    | .sym ['#'] :: rest =>
      match readBracketed '{' '}' rest with
      | some (r, rest) => readPostfixes n (.mult d (.commas r)) rest
      | none => (d, ts)
    | .sym ['{'] :: _ =>
      match readBracketed '{' '}' ts with
      | some (r, rest) => readPostfixes n (.mult d (.range r)) rest
      | none => (d, ts)
    | _ => (d, ts)

/-- The combinator at the front: csskit_proc_macro/src/def.rs:170-179. -/
def readStyle : List DefTok → DefStyle × List DefTok
  | .sym ['|', '|'] :: ts => (.options, ts)
  | .sym ['|'] :: ts => (.alternatives, ts)
  | .sym ['&', '&'] :: ts => (.allMustOccur, ts)
  | ts => (.ordered, ts)

/-- At the end of the input: the end, or a closing bracket. -/
def defEnds : List DefTok → Bool
  | [] => true
  | .sym [']'] :: _ => true
  | .sym [')'] :: _ => true
  | _ => false

/-- csskit_proc_macro/src/def.rs:118-204 `Parse for Def`. The code is right recursive: after the first item and its postfixes, the rest of the
input is one definition. -/
def readDefFrom : Nat → List DefTok → Option (Def × List DefTok)
  | 0, _ => none
  | n + 1, ts => do
    let (root, ts) ←
      match ts with
      | .sym ['<'] :: ts => (readType ts).map fun (t, ts) => (.type t, ts)
      | .sym ['['] :: ts => do
        let (d, ts) ← readDefFrom n ts
        match ts with
        | .sym [']'] :: .sym ['!'] :: ts => some (.group d .oneMustOccur, ts)
        | .sym [']'] :: .sym ['#'] :: ts => some (.group d .oneOrMore, ts)
        | .sym [']'] :: .sym ['{'] :: ts =>
          (readBracketed '{' '}' (.sym ['{'] :: ts)).map fun (r, ts) => (.group d (.range r), ts)
        | .sym [']'] :: ts => some (.group d .none, ts)
        | _ => none
      | .word s :: .sym ['('] :: ts => do
        let (d, ts) ← readDefFrom n ts
        match ts with
        | .sym [')'] :: ts => some (.function s d, ts)
        | _ => none
      | .word s :: ts => some (.ident s, ts)
      | .sym [c] :: ts => some (.punct c, ts)
      | _ => none
    let (root, ts) := readPostfixes (n + 1) root ts
    if defEnds ts then some (root, ts)
    else
      let (style, ts) := readStyle ts
      let (rest, ts) ← readDefFrom n ts
      some (root.combine style rest, ts)

/-- The definition a text stands for. -/
def readDef (s : List Char) : Option Def :=
  match readDefFrom (s.length + 1) (defTokens (s.length + 1) s) with
  | some (d, []) => some d
  | _ => none

/-! ### Hand-written types -/

/-- The `keyword_set!`s that definitions name, with the keys: css_ast/src/types/line_style.rs:3-14 `LineStyle`, css_ast/src/values/ui/types.rs:14-25 `OutlineLineStyle`, css_ast/src/values/box/types.rs:9 `VisualBox`, css_ast/src/values/backgrounds/types.rs:88 `Repetition`, css_ast/src/values/backgrounds/types.rs:92 `Attachment`, css_ast/src/values/backgrounds/types.rs:98-104 `BgClip`, css_ast/src/values/anchor_position/types.rs:8-13 `TrySize`, css_ast/src/values/animations/types.rs:50-55 `SingleAnimationDirection`, css_ast/src/values/animations/types.rs:59 `SingleAnimationPlayState`, css_ast/src/values/animations/types.rs:63 `SingleAnimationFillMode`, css_ast/src/values/animations/types.rs:67 `SingleAnimationComposition`, css_ast/src/values/transitions/types.rs:7 `TransitionBehaviorValue`, css_ast/src/values/ui/types.rs:31-41 `CompatAuto`, css_ast/src/values/ui/types.rs:48 `CompatSpecial`. -/
def KEYWORD_TYPES : List (List Char × List (List Char)) := [
  (c!"LineStyle", [c!"none", c!"hidden", c!"dotted", c!"dashed", c!"solid", c!"double", c!"groove", c!"ridge", c!"inset", c!"outset"]),
  (c!"OutlineLineStyle", [c!"none", c!"hidden", c!"doted", c!"dashed", c!"solid", c!"double", c!"groove", c!"ridge", c!"inset", c!"outset"]),
  (c!"VisualBox", [c!"content-box", c!"padding-box", c!"border-box"]),
  (c!"Repetition", [c!"repeat", c!"space", c!"round", c!"no-repeat"]),
  (c!"Attachment", [c!"scroll", c!"fixed", c!"local"]),
  (c!"BgClip", [c!"content-box", c!"padding-box", c!"border-box", c!"border-area", c!"text"]),
  (c!"TrySize", [c!"most-width", c!"most-height", c!"most-block-size", c!"most-inline-size"]),
  (c!"SingleAnimationDirection", [c!"normal", c!"reverse", c!"alternate", c!"alternate-reverse"]),
  (c!"SingleAnimationPlayState", [c!"running", c!"paused"]),
  (c!"SingleAnimationFillMode", [c!"none", c!"forwards", c!"backwards", c!"both"]),
  (c!"SingleAnimationComposition", [c!"replace", c!"add", c!"accumulate"]),
  (c!"TransitionBehaviorValue", [c!"normal", c!"allow-discrete"]),
  (c!"CompatAuto", [c!"searchfield", c!"textarea", c!"checkbox", c!"radio", c!"menulist", c!"listbox", c!"meter", c!"progress-bar", c!"button"]),
  (c!"CompatSpecial", [c!"textfield", c!"menulist-button"])]

/-- css_ast/src/values/anchor_position/types.rs:126-219: a `keyword_set!` of `<position-area>`. -/
def AREA_HORIZONTAL : List (List Char) := [c!"left", c!"center", c!"right", c!"span-left", c!"span-right", c!"x-start", c!"x-end", c!"span-x-start", c!"span-x-end", c!"x-self-start", c!"x-self-end", c!"span-x-self-start", c!"span-x-self-end", c!"span-all"]
/-- css_ast/src/values/anchor_position/types.rs:126-219: a `keyword_set!` of `<position-area>`. -/
def AREA_VERTICAL : List (List Char) := [c!"top", c!"center", c!"bottom", c!"span-top", c!"span-bottom", c!"y-start", c!"y-end", c!"span-y-start", c!"span-y-end", c!"y-self-start", c!"y-self-end", c!"span-y-self-start", c!"span-y-self-end", c!"span-all"]
/-- css_ast/src/values/anchor_position/types.rs:126-219: a `keyword_set!` of `<position-area>`. -/
def AREA_BLOCK : List (List Char) := [c!"block-start", c!"center", c!"block-end", c!"span-block-start", c!"span-block-end", c!"span-all"]
/-- css_ast/src/values/anchor_position/types.rs:126-219: a `keyword_set!` of `<position-area>`. -/
def AREA_INLINE : List (List Char) := [c!"inline-start", c!"center", c!"inline-end", c!"span-inline-start", c!"span-inline-end", c!"span-all"]
/-- css_ast/src/values/anchor_position/types.rs:126-219: a `keyword_set!` of `<position-area>`. -/
def AREA_SELF_BLOCK : List (List Char) := [c!"self-block-start", c!"center", c!"self-block-end", c!"span-self-block-start", c!"span-self-block-end", c!"span-all"]
/-- css_ast/src/values/anchor_position/types.rs:126-219: a `keyword_set!` of `<position-area>`. -/
def AREA_SELF_INLINE : List (List Char) := [c!"self-inline-start", c!"center", c!"self-inline-end", c!"span-self-inline-start", c!"span-self-inline-end", c!"span-all"]
/-- css_ast/src/values/anchor_position/types.rs:126-219: a `keyword_set!` of `<position-area>`. -/
def AREA_POSITION : List (List Char) := [c!"start", c!"center", c!"end", c!"span-start", c!"span-end", c!"span-all"]
/-- css_ast/src/values/anchor_position/types.rs:126-219: a `keyword_set!` of `<position-area>`. -/
def AREA_SELF_POSITION : List (List Char) := [c!"self-start", c!"center", c!"self-end", c!"span-self-start", c!"span-self-end", c!"span-all"]

/-- An optional keyword. -/
def optKeyword (names : List (List Char)) : Prog (Option Cursor) := do
  let k ← ifPeek (isKeyword names) (keyword names)
  pure (k.map (·.2))

/-- css_ast/src/values/anchor_position/types.rs:52-63 `Peek for PositionArea`. -/
def isPositionArea : Cursor → Prog Bool :=
  either (isKeyword AREA_VERTICAL) <| either (isKeyword AREA_HORIZONTAL) <| either (isKeyword AREA_BLOCK) <| either (isKeyword AREA_INLINE) <|
  either (isKeyword AREA_SELF_BLOCK) <| either (isKeyword AREA_SELF_INLINE) <| either (isKeyword AREA_POSITION) (isKeyword AREA_SELF_POSITION)

/-- One branch of `Parse for PositionArea`: a keyword of the first set and perhaps one of the second; `flipped` if the second is the first
field. -/
def positionPair (first second : List (List Char)) (variant : Nat) (flipped : Bool) (otherwise : Prog (Val)) : Prog (Val) := do
  match ← optKeyword first with
  | some a => do
    let b ← optKeyword second
    let a : Val := .tok a
    let b : Val := .opt (b.map .tok)
    pure (.variant variant (.fields (if flipped then [b, a] else [a, b])))
  | none => otherwise

/-- css_ast/src/values/anchor_position/types.rs:65-88 `Parse for PositionArea`. -/
def positionArea : Prog (Val) :=
  positionPair AREA_POSITION AREA_POSITION 3 false <|
  positionPair AREA_SELF_POSITION AREA_SELF_POSITION 4 false <|
  positionPair AREA_BLOCK AREA_INLINE 1 false <|
  positionPair AREA_INLINE AREA_BLOCK 1 true <|
  positionPair AREA_SELF_BLOCK AREA_SELF_INLINE 2 false <|
  positionPair AREA_SELF_INLINE AREA_SELF_BLOCK 2 true <|
  positionPair AREA_HORIZONTAL AREA_VERTICAL 0 false <|
  positionPair AREA_VERTICAL AREA_HORIZONTAL 0 true <| do
    let c ← any
    fail .unexpected c

/-- css_ast/src/units/line_width.rs:17-35: `Peek` and `Build` of `LineWidth`. -/
def isLineWidth : Cursor → Prog Bool := either isLength (isKeyword [c!"thin", c!"medium", c!"thick"])

/-- Rust's `(0.0..=n).contains(&f)` for the float with these bits, if it is not a NaN. -/
def f32UpTo (n : Nat) (w : BitVec 32) : Bool := w == 0x80000000#32 || (!w.msb && w.toNat ≤ F32.ofRat n 1)

/-- css_ast/src/types/opacity_value.rs:34-39 `Peek for OpacityValue`. -/
def isOpacityValue (c : Cursor) : Prog Bool := do
  if c.token.isKind .number && f32UpTo 1 c.token.value then pure true
  else if ← isDimensionOf .percent c then pure (f32UpTo 100 c.token.value)
  else pure false

/-- css_ast/src/values/animations/types.rs:20-24 `Peek for SingleAnimationIterationCount`. -/
def isIterationCount : Cursor → Prog Bool := either isCssFloat (isWordOf c!"infinite")

/-- css_ast/src/values/animations/types.rs:26-39 `Parse for SingleAnimationIterationCount`. -/
def iterationCount : Prog (Val) := do
  let c ← peek
  let infinite ← (if c.token.isKind .ident then do
    let c ← peekN 1
    Prog.eqIgnoreAsciiCase c c!"infinite"
    else pure false)
  if infinite then do
    let c ← tok (isKind .ident)
    pure (.tok c)
  else do
    let c ← tok isCssFloat
    if f32Below 0 c.token.value then fail .numberTooSmall c else pure (.tok c)

/-- css_ast/src/values/backgrounds/types.rs:50-54 `Peek for RepeatStyle`. -/
def isRepeatStyle : Cursor → Prog Bool :=
  either (isKeyword [c!"repeat", c!"space", c!"round", c!"no-repeat"]) (isKeyword [c!"repeat-x", c!"repeat-y"])

/-- css_ast/src/values/backgrounds/types.rs:56-71 `Parse for RepeatStyle`. -/
def repeatStyle : Prog (Val) := do
  let c ← tok (isKind .ident)
  let s ← strLower c
  if s == c!"repeat-x" then pure (.variant 0 (.tok c))
  else if s == c!"repeat-y" then pure (.variant 1 (.tok c))
  else if ← isKeyword [c!"repeat", c!"space", c!"round", c!"no-repeat"] c then do
    let second ← optKeyword [c!"repeat", c!"space", c!"round", c!"no-repeat"]
    pure (.variant 2 (.fields [.tok c, .opt (second.map .tok)]))
  else do
    let _ ← Prog.str c
    fail .unexpectedIdent c

/-- css_ast/src/values/page_floats/types.rs:16-34 `SnapBlock`, 69-86 `SnapInline`. -/
def snap (name : List Char) (names : List (List Char)) : Prog (Val) := do
  let f ← namedFunction name
  let length ← tok isLengthPercentage
  let comma ← ifPeek (isKind .comma) (tok (isKind .comma))
  let key ← optKeyword names
  let close ← ifPeek (isKind .rightParen) (tok (isKind .rightParen))
  pure (.fields [.tok f, .tok length, .opt (comma.map .tok), .opt (key.map .tok), .opt (close.map .tok)])

/-- css_ast/src/values/color_hdr/types.rs:27-43: the loop of `Parse for DynamicRangeLimitMix`. -/
def rangeLimitLoop : Nat → List (Val) → Prog (List (Val) × Option Cursor)
  | 0, _ => .panic .diverges
  | n + 1, vs => do
    if ← atEnd then pure (vs, none)
    else do
      let c ← peek
      if c.token.isKind .rightParen then do
        let close ← tok (isKind .rightParen)
        pure (vs, some close)
      else do
        let name ← tok (isKind .ident)
        let part ← tok (isDimensionOf .percent)
        if !f32UpTo 100 part.token.value then fail .other part
        else do
          let comma ← ifPeek (isKind .comma) (tok (isKind .comma))
          rangeLimitLoop n (vs ++ [.fields [.tok name, .tok part, .opt (comma.map .tok)]])

/-- css_ast/src/values/color_hdr/types.rs:19-44 `Parse for DynamicRangeLimitMix`. -/
def rangeLimitMix : Prog (Val) := do
  let f ← namedFunction c!"dynamic-range-limit-mix"
  Prog.read fun p => do
    let (vs, close) ← rangeLimitLoop p.fuel []
    pure (.fields [.tok f, .fields vs, .opt (close.map .tok)])

/-- css_ast/src/values/sizing/types.rs:16-21 `Parse for CalcSize`. -/
def calcSize : Prog (Val) := do
  let _ ← tok (isKind .function)
  .panic .todo

/-- The hand-written types that definitions name. `AnchorName` is css_ast/src/values/anchor_position/types.rs:4, `AnimateableFeature`
css_ast/src/values/will_change/types.rs:94-140 (which variant it is is not kept). -/
def handWritten (name : List Char) : Option (Leaf) :=
  match KEYWORD_TYPES.find? (·.1 == name) with
  | some (_, names) => some (.keywords names)
  | none =>
    if name == c!"LineWidth" then some (.single isLineWidth)
    else if name == c!"OpacityValue" then some (.single isOpacityValue)
    else if name == c!"SingleAnimationIterationCount" then some ⟨isIterationCount, iterationCount⟩
    else if name == c!"RepeatStyle" then some ⟨isRepeatStyle, repeatStyle⟩
    else if name == c!"AnchorName" then some (.single fun c => pure (isDashed c))
    else if name == c!"PositionArea" then some ⟨isPositionArea, positionArea⟩
    else if name == c!"SnapBlock" then some ⟨isNamed c!"snap-block", snap c!"snap-block" [c!"start", c!"end", c!"near"]⟩
    else if name == c!"SnapInline" then some ⟨isNamed c!"snap-inline", snap c!"snap-inline" [c!"left", c!"right", c!"near"]⟩
    else if name == c!"DynamicRangeLimitMix" then some ⟨isNamed c!"dynamic-range-limit-mix", rangeLimitMix⟩
    else if name == c!"CalcSize" then some ⟨isNamed c!"calc-size", calcSize⟩
    else if name == c!"Color" then some ⟨isColor, color⟩
    else if name == c!"Image" then some ⟨isImage, image⟩
    else if name == c!"Image1D" then some ⟨isNamed c!"stripes", image1D⟩
    else if name == c!"AnimateableFeature" then some (.single (isKind .ident))
    else none

/-! ### The definitions -/

/-- css_ast/src/values/align/mod.rs:102-124: the types with `#[value]` that are not commented out, with their definitions. -/
def DEFS_ALIGN : List (List Char × List Char) := [
  (c!"RowGapStyleValue", c!" normal | <length-percentage [0,∞]> "),
  (c!"ColumnGapStyleValue", c!" normal | <length-percentage [0,∞]> "),
  (c!"GapStyleValue", c!" <'row-gap'> <'column-gap'>? ")]

/-- css_ast/src/values/anchor_position/mod.rs:12-74: the types with `#[value]` that are not commented out, with their definitions. -/
def DEFS_ANCHOR_POSITION : List (List Char × List Char) := [
  (c!"AnchorNameStyleValue", c!" none | <dashed-ident># "),
  (c!"AnchorScopeStyleValue", c!" none | all | <dashed-ident># "),
  (c!"PositionAnchorStyleValue", c!" auto | <anchor-name> "),
  (c!"PositionAreaStyleValue", c!" none | <position-area> "),
  (c!"PositionTryOrderStyleValue", c!" normal | <try-size> ")]

/-- css_ast/src/values/animations/mod.rs:42-104: the types with `#[value]` that are not commented out, with their definitions. -/
def DEFS_ANIMATIONS : List (List Char × List Char) := [
  (c!"AnimationIterationCountStyleValue", c!" <single-animation-iteration-count># "),
  (c!"AnimationDirectionStyleValue", c!" <single-animation-direction># "),
  (c!"AnimationPlayStateStyleValue", c!" <single-animation-play-state># "),
  (c!"AnimationDelayStyleValue", c!" <time># "),
  (c!"AnimationFillModeStyleValue", c!" <single-animation-fill-mode># "),
  (c!"AnimationCompositionStyleValue", c!" <single-animation-composition># ")]

/-- css_ast/src/values/backgrounds/mod.rs:12-194: the types with `#[value]` that are not commented out, with their definitions. -/
def DEFS_BACKGROUNDS : List (List Char × List Char) := [
  (c!"BackgroundColorStyleValue", c!" <color> "),
  (c!"BackgroundRepeatStyleValue", c!" <repeat-style># "),
  (c!"BackgroundAttachmentStyleValue", c!" <attachment># "),
  (c!"BackgroundClipStyleValue", c!" <bg-clip># "),
  (c!"BackgroundOriginStyleValue", c!" <visual-box># "),
  (c!"BorderImageSourceStyleValue", c!" none | <image> "),
  (c!"BackgroundRepeatXStyleValue", c!" <repetition># "),
  (c!"BackgroundRepeatYStyleValue", c!" <repetition># "),
  (c!"BackgroundRepeatBlockStyleValue", c!" <repetition># "),
  (c!"BackgroundRepeatInlineStyleValue", c!" <repetition># ")]

/-- css_ast/src/values/borders/mod.rs:12-704: the types with `#[value]` that are not commented out, with their definitions. -/
def DEFS_BORDERS : List (List Char × List Char) := [
  (c!"BorderTopColorStyleValue", c!" <color> | <image-1D> "),
  (c!"BorderRightColorStyleValue", c!" <color> | <image-1D> "),
  (c!"BorderBottomColorStyleValue", c!" <color> | <image-1D> "),
  (c!"BorderLeftColorStyleValue", c!" <color> | <image-1D> "),
  (c!"BorderBlockStartColorStyleValue", c!" <color> | <image-1D> "),
  (c!"BorderBlockEndColorStyleValue", c!" <color> | <image-1D> "),
  (c!"BorderInlineStartColorStyleValue", c!" <color> | <image-1D> "),
  (c!"BorderInlineEndColorStyleValue", c!" <color> | <image-1D> "),
  (c!"BorderBlockColorStyleValue", c!" <'border-top-color'>{1,2} "),
  (c!"BorderInlineColorStyleValue", c!" <'border-top-color'>{1,2} "),
  (c!"BorderTopStyleStyleValue", c!" <line-style> "),
  (c!"BorderRightStyleStyleValue", c!" <line-style> "),
  (c!"BorderBottomStyleStyleValue", c!" <line-style> "),
  (c!"BorderLeftStyleStyleValue", c!" <line-style> "),
  (c!"BorderBlockStartStyleStyleValue", c!" <line-style> "),
  (c!"BorderBlockEndStyleStyleValue", c!" <line-style> "),
  (c!"BorderInlineStartStyleStyleValue", c!" <line-style> "),
  (c!"BorderInlineEndStyleStyleValue", c!" <line-style> "),
  (c!"BorderBlockStyleStyleValue", c!" <'border-top-style'>{1,2} "),
  (c!"BorderInlineStyleStyleValue", c!" <'border-top-style'>{1,2} "),
  (c!"BorderTopWidthStyleValue", c!" <line-width> "),
  (c!"BorderRightWidthStyleValue", c!" <line-width> "),
  (c!"BorderBottomWidthStyleValue", c!" <line-width> "),
  (c!"BorderLeftWidthStyleValue", c!" <line-width> "),
  (c!"BorderBlockStartWidthStyleValue", c!" <line-width> "),
  (c!"BorderBlockEndWidthStyleValue", c!" <line-width> "),
  (c!"BorderInlineStartWidthStyleValue", c!" <line-width> "),
  (c!"BorderInlineEndWidthStyleValue", c!" <line-width> "),
  (c!"BorderBlockWidthStyleValue", c!" <'border-top-width'>{1,2} "),
  (c!"BorderInlineWidthStyleValue", c!" <'border-top-width'>{1,2} "),
  (c!"BorderTopStyleValue", c!" <line-width> || <line-style> || <color> "),
  (c!"BorderRightStyleValue", c!" <line-width> || <line-style> || <color> "),
  (c!"BorderBottomStyleValue", c!" <line-width> || <line-style> || <color> "),
  (c!"BorderLeftStyleValue", c!" <line-width> || <line-style> || <color> "),
  (c!"BorderBlockStartStyleValue", c!" <line-width> || <line-style> || <color> "),
  (c!"BorderBlockEndStyleValue", c!" <line-width> || <line-style> || <color> "),
  (c!"BorderInlineStartStyleValue", c!" <line-width> || <line-style> || <color> "),
  (c!"BorderInlineEndStyleValue", c!" <line-width> || <line-style> || <color> "),
  (c!"BorderBlockStyleValue", c!" <'border-block-start'> "),
  (c!"BorderInlineStyleValue", c!" <'border-block-start'> "),
  (c!"BorderTopLeftRadiusStyleValue", c!" <length-percentage [0,∞]>{1,2} "),
  (c!"BorderTopRightRadiusStyleValue", c!" <length-percentage [0,∞]>{1,2} "),
  (c!"BorderBottomRightRadiusStyleValue", c!" <length-percentage [0,∞]>{1,2} "),
  (c!"BorderBottomLeftRadiusStyleValue", c!" <length-percentage [0,∞]>{1,2} "),
  (c!"BorderStartStartRadiusStyleValue", c!" <length-percentage [0,∞]>{1,2} "),
  (c!"BorderStartEndRadiusStyleValue", c!" <length-percentage [0,∞]>{1,2} "),
  (c!"BorderEndStartRadiusStyleValue", c!" <length-percentage [0,∞]>{1,2} "),
  (c!"BorderEndEndRadiusStyleValue", c!" <length-percentage [0,∞]>{1,2} "),
  (c!"BoxShadowBlurStyleValue", c!" <length [0,∞]># "),
  (c!"BoxShadowSpreadStyleValue", c!" <length># ")]

/-- css_ast/src/values/box/mod.rs:12-104: the types with `#[value]` that are not commented out, with their definitions. -/
def DEFS_BOX : List (List Char × List Char) := [
  (c!"MarginTopStyleValue", c!" <length-percentage> | auto "),
  (c!"MarginRightStyleValue", c!" <length-percentage> | auto "),
  (c!"MarginBottomStyleValue", c!" <length-percentage> | auto "),
  (c!"MarginLeftStyleValue", c!" <length-percentage> | auto "),
  (c!"MarginStyleValue", c!" <'margin-top'>{1,4} "),
  (c!"PaddingTopStyleValue", c!" <length-percentage [0,∞]> "),
  (c!"PaddingRightStyleValue", c!" <length-percentage [0,∞]> "),
  (c!"PaddingBottomStyleValue", c!" <length-percentage [0,∞]> "),
  (c!"PaddingLeftStyleValue", c!" <length-percentage [0,∞]> "),
  (c!"PaddingStyleValue", c!" <'padding-top'>{1,4} ")]

/-- css_ast/src/values/break/mod.rs:12-74: the types with `#[value]` that are not commented out, with their definitions. -/
def DEFS_BREAK : List (List Char × List Char) := [
  (c!"BreakBeforeStyleValue", c!" auto | avoid | always | all | avoid-page | page | left | right | recto | verso | avoid-column | column | avoid-region | region "),
  (c!"BreakAfterStyleValue", c!" auto | avoid | always | all | avoid-page | page | left | right | recto | verso | avoid-column | column | avoid-region | region "),
  (c!"BreakInsideStyleValue", c!" auto | avoid | avoid-page | avoid-column | avoid-region "),
  (c!"OrphansStyleValue", c!" <integer [1,∞]> "),
  (c!"WidowsStyleValue", c!" <integer [1,∞]> "),
  (c!"BoxDecorationBreakStyleValue", c!" slice | clone "),
  (c!"MarginBreakStyleValue", c!" auto | keep | discard ")]

/-- css_ast/src/values/cascade/mod.rs:12-14: the types with `#[value]` that are not commented out, with their definitions. -/
def DEFS_CASCADE : List (List Char × List Char) := [
  (c!"AllStyleValue", c!" initial | inherit | unset | revert | revert-layer ")]

/-- css_ast/src/values/color/mod.rs:12-24: the types with `#[value]` that are not commented out, with their definitions. -/
def DEFS_COLOR : List (List Char × List Char) := [
  (c!"ColorStyleValue", c!" <color> "),
  (c!"OpacityStyleValue", c!" <opacity-value> ")]

/-- css_ast/src/values/color_adjust/mod.rs:22-44: the types with `#[value]` that are not commented out, with their definitions. -/
def DEFS_COLOR_ADJUST : List (List Char × List Char) := [
  (c!"ForcedColorAdjustStyleValue", c!" auto | none | preserve-parent-color "),
  (c!"PrintColorAdjustStyleValue", c!" economy | exact "),
  (c!"ColorAdjustStyleValue", c!" <'print-color-adjust'> ")]

/-- css_ast/src/values/color_hdr/mod.rs:12-14: the types with `#[value]` that are not commented out, with their definitions. -/
def DEFS_COLOR_HDR : List (List Char × List Char) := [
  (c!"DynamicRangeLimitStyleValue", c!" standard | high | constrained-high | <dynamic-range-limit-mix()> ")]

/-- css_ast/src/values/contain/mod.rs:22-24: the types with `#[value]` that are not commented out, with their definitions. -/
def DEFS_CONTAIN : List (List Char × List Char) := [
  (c!"ContentVisibilityStyleValue", c!" visible | auto | hidden ")]

/-- css_ast/src/values/content/mod.rs:42-64: the types with `#[value]` that are not commented out, with their definitions. -/
def DEFS_CONTENT : List (List Char × List Char) := [
  (c!"BookmarkLevelStyleValue", c!" none | <integer [1,∞]> "),
  (c!"BookmarkStateStyleValue", c!" open | closed ")]

/-- css_ast/src/values/display/mod.rs:22-44: the types with `#[value]` that are not commented out, with their definitions. -/
def DEFS_DISPLAY : List (List Char × List Char) := [
  (c!"OrderStyleValue", c!" <integer> "),
  (c!"VisibilityStyleValue", c!" visible | hidden | collapse "),
  (c!"ReadingFlowStyleValue", c!" normal | flex-visual | flex-flow | grid-rows | grid-columns | grid-order ")]

/-- css_ast/src/values/exclusions/mod.rs:12-24: the types with `#[value]` that are not commented out, with their definitions. -/
def DEFS_EXCLUSIONS : List (List Char × List Char) := [
  (c!"WrapFlowStyleValue", c!" auto | both | start | end | minimum | maximum | clear "),
  (c!"WrapThroughStyleValue", c!" wrap | none ")]

/-- css_ast/src/values/flexbox/mod.rs:12-114: the types with `#[value]` that are not commented out, with their definitions. -/
def DEFS_FLEXBOX : List (List Char × List Char) := [
  (c!"FlexDirectionStyleValue", c!" row | row-reverse | column | column-reverse "),
  (c!"FlexWrapStyleValue", c!" nowrap | wrap | wrap-reverse "),
  (c!"FlexFlowStyleValue", c!" <'flex-direction'> || <'flex-wrap'> "),
  (c!"FlexGrowStyleValue", c!" <number [0,∞]> "),
  (c!"FlexShrinkStyleValue", c!" <number [0,∞]> "),
  (c!"FlexBasisStyleValue", c!" content | <'width'> "),
  (c!"JustifyContentStyleValue", c!" flex-start | flex-end | center | space-between | space-around "),
  (c!"AlignItemsStyleValue", c!" flex-start | flex-end | center | baseline | stretch "),
  (c!"AlignSelfStyleValue", c!" auto | flex-start | flex-end | center | baseline | stretch "),
  (c!"AlignContentStyleValue", c!" flex-start | flex-end | center | space-between | space-around | stretch ")]

/-- css_ast/src/values/fonts/mod.rs:32-264: the types with `#[value]` that are not commented out, with their definitions. -/
def DEFS_FONTS : List (List Char × List Char) := [
  (c!"FontWidthStyleValue", c!" normal | <percentage [0,∞]> | ultra-condensed | extra-condensed | condensed | semi-condensed | semi-expanded | expanded | extra-expanded | ultra-expanded "),
  (c!"FontSynthesisWeightStyleValue", c!" auto | none "),
  (c!"FontSynthesisStyleStyleValue", c!" auto | none "),
  (c!"FontSynthesisSmallCapsStyleValue", c!" auto | none "),
  (c!"FontSynthesisPositionStyleValue", c!" auto | none "),
  (c!"FontKerningStyleValue", c!" auto | normal | none "),
  (c!"FontVariantPositionStyleValue", c!" normal | sub | super "),
  (c!"FontVariantCapsStyleValue", c!" normal | small-caps | all-small-caps | petite-caps | all-petite-caps | unicase | titling-caps "),
  (c!"FontLanguageOverrideStyleValue", c!" normal | <string> "),
  (c!"FontOpticalSizingStyleValue", c!" auto | none "),
  (c!"FontVariantEmojiStyleValue", c!" normal | text | emoji | unicode ")]

/-- css_ast/src/values/gcpm/mod.rs:22-44: the types with `#[value]` that are not commented out, with their definitions. -/
def DEFS_GCPM : List (List Char × List Char) := [
  (c!"RunningStyleValue", c!" <custom-ident> "),
  (c!"FootnoteDisplayStyleValue", c!" block | inline | compact "),
  (c!"FootnotePolicyStyleValue", c!" auto | line | block ")]

/-- css_ast/src/values/grid/mod.rs:162-184: the types with `#[value]` that are not commented out, with their definitions. -/
def DEFS_GRID : List (List Char × List Char) := [
  (c!"MasonryDirectionStyleValue", c!" row | column | row-reverse | column-reverse "),
  (c!"MasonryFillStyleValue", c!" normal | reverse "),
  (c!"MasonryFlowStyleValue", c!" <'masonry-direction'> || <'masonry-fill'> ")]

/-- css_ast/src/values/images/mod.rs:42-44: the types with `#[value]` that are not commented out, with their definitions. -/
def DEFS_IMAGES : List (List Char × List Char) := [
  (c!"ImageRenderingStyleValue", c!" auto | smooth | high-quality | pixelated | crisp-edges ")]

/-- css_ast/src/values/inline/mod.rs:12-146: the types with `#[value]` that are not commented out, with their definitions. -/
def DEFS_INLINE : List (List Char × List Char) := [
  (c!"DominantBaselineStyleValue", c!" auto | text-bottom | alphabetic | ideographic | middle | central | mathematical | hanging | text-top "),
  (c!"BaselineSourceStyleValue", c!" auto | first | last "),
  (c!"AlignmentBaselineStyleValue", c!" baseline | text-bottom | alphabetic | ideographic | middle | central | mathematical | text-top "),
  (c!"LineHeightStyleValue", c!" normal | <number [0,∞]> | <length-percentage [0,∞]> "),
  (c!"TextBoxTrimStyleValue", c!" none | trim-start | trim-end | trim-both "),
  (c!"InlineSizingStyleValue", c!" normal | stretch "),
  (c!"InitialLetterWrapStyleValue", c!" none | first | all | grid | <length-percentage> ")]

/-- css_ast/src/values/line_grid/mod.rs:12-34: the types with `#[value]` that are not commented out, with their definitions. -/
def DEFS_LINE_GRID : List (List Char × List Char) := [
  (c!"LineGridStyleValue", c!" match-parent | create "),
  (c!"LineSnapStyleValue", c!" none | baseline | contain "),
  (c!"BoxSnapStyleValue", c!" none | block-start | block-end | center | baseline | last-baseline ")]

/-- css_ast/src/values/lists/mod.rs:12-54: the types with `#[value]` that are not commented out, with their definitions. -/
def DEFS_LISTS : List (List Char × List Char) := [
  (c!"ListStyleImageStyleValue", c!" <image> | none "),
  (c!"ListStylePositionStyleValue", c!" inside | outside "),
  (c!"MarkerSideStyleValue", c!" match-self | match-parent ")]

/-- css_ast/src/values/logical/mod.rs:12-184: the types with `#[value]` that are not commented out, with their definitions. -/
def DEFS_LOGICAL : List (List Char × List Char) := [
  (c!"BlockSizeStyleValue", c!" <'width'> "),
  (c!"InlineSizeStyleValue", c!" <'width'> "),
  (c!"MinBlockSizeStyleValue", c!" <'min-width'> "),
  (c!"MinInlineSizeStyleValue", c!" <'min-width'> "),
  (c!"MaxBlockSizeStyleValue", c!" <'max-width'> "),
  (c!"MaxInlineSizeStyleValue", c!" <'max-width'> "),
  (c!"MarginBlockStartStyleValue", c!" <'margin-top'> "),
  (c!"MarginBlockEndStyleValue", c!" <'margin-top'> "),
  (c!"MarginInlineStartStyleValue", c!" <'margin-top'> "),
  (c!"MarginInlineEndStyleValue", c!" <'margin-top'> "),
  (c!"MarginBlockStyleValue", c!" <'margin-top'>{1,2} "),
  (c!"MarginInlineStyleValue", c!" <'margin-top'>{1,2} "),
  (c!"PaddingBlockStartStyleValue", c!" <'padding-top'> "),
  (c!"PaddingBlockEndStyleValue", c!" <'padding-top'> "),
  (c!"PaddingInlineStartStyleValue", c!" <'padding-top'> "),
  (c!"PaddingInlineEndStyleValue", c!" <'padding-top'> "),
  (c!"PaddingBlockStyleValue", c!" <'padding-top'>{1,2} "),
  (c!"PaddingInlineStyleValue", c!" <'padding-top'>{1,2} ")]

/-- css_ast/src/values/multicol/mod.rs:12-94: the types with `#[value]` that are not commented out, with their definitions. -/
def DEFS_MULTICOL : List (List Char × List Char) := [
  (c!"ColumnWidthStyleValue", c!" auto | <length [0,∞]> "),
  (c!"ColumnCountStyleValue", c!" auto | <integer [1,∞]> "),
  (c!"ColumnsStyleValue", c!" <'column-width'> || <'column-count'> "),
  (c!"ColumnRuleColorStyleValue", c!" <color> "),
  (c!"ColumnRuleStyleStyleValue", c!" <line-style> "),
  (c!"ColumnRuleWidthStyleValue", c!" <line-width> "),
  (c!"ColumnRuleStyleValue", c!" <'column-rule-width'> || <'column-rule-style'> || <'column-rule-color'> "),
  (c!"ColumnSpanStyleValue", c!" none | <integer [1,∞]> | all | auto "),
  (c!"ColumnFillStyleValue", c!" auto | balance | balance-all ")]

/-- css_ast/src/values/nav/mod.rs:12-34: the types with `#[value]` that are not commented out, with their definitions. -/
def DEFS_NAV : List (List Char × List Char) := [
  (c!"SpatialNavigationContainStyleValue", c!" auto | contain "),
  (c!"SpatialNavigationActionStyleValue", c!" auto | focus | scroll "),
  (c!"SpatialNavigationFunctionStyleValue", c!" normal | grid ")]

/-- css_ast/src/values/overflow/mod.rs:12-254: the types with `#[value]` that are not commented out, with their definitions. -/
def DEFS_OVERFLOW : List (List Char × List Char) := [
  (c!"OverflowXStyleValue", c!" visible | hidden | clip | scroll | auto "),
  (c!"OverflowYStyleValue", c!" visible | hidden | clip | scroll | auto "),
  (c!"OverflowBlockStyleValue", c!" visible | hidden | clip | scroll | auto "),
  (c!"OverflowInlineStyleValue", c!" visible | hidden | clip | scroll | auto "),
  (c!"OverflowStyleValue", c!" <'overflow-block'>{1,2} "),
  (c!"ScrollBehaviorStyleValue", c!" auto | smooth "),
  (c!"OverflowClipMarginTopStyleValue", c!" <visual-box> || <length [0,∞]> "),
  (c!"OverflowClipMarginRightStyleValue", c!" <visual-box> || <length [0,∞]> "),
  (c!"OverflowClipMarginBottomStyleValue", c!" <visual-box> || <length [0,∞]> "),
  (c!"OverflowClipMarginLeftStyleValue", c!" <visual-box> || <length [0,∞]> "),
  (c!"OverflowClipMarginBlockStartStyleValue", c!" <visual-box> || <length [0,∞]> "),
  (c!"OverflowClipMarginInlineStartStyleValue", c!" <visual-box> || <length [0,∞]> "),
  (c!"OverflowClipMarginBlockEndStyleValue", c!" <visual-box> || <length [0,∞]> "),
  (c!"OverflowClipMarginInlineEndStyleValue", c!" <visual-box> || <length [0,∞]> "),
  (c!"OverflowClipMarginInlineStyleValue", c!" <visual-box> || <length [0,∞]> "),
  (c!"OverflowClipMarginBlockStyleValue", c!" <visual-box> || <length [0,∞]> "),
  (c!"BlockEllipsisStyleValue", c!" none | auto | <string> "),
  (c!"WebkitLineClampStyleValue", c!" none | <integer [1,∞]> "),
  (c!"MaxLinesStyleValue", c!" none | <integer [1,∞]> "),
  (c!"ContinueStyleValue", c!" auto | discard "),
  (c!"ScrollMarkerGroupStyleValue", c!" none | before | after ")]

/-- css_ast/src/values/overscroll/mod.rs:22-54: the types with `#[value]` that are not commented out, with their definitions. -/
def DEFS_OVERSCROLL : List (List Char × List Char) := [
  (c!"OverscrollBehaviorXStyleValue", c!" contain | none | auto "),
  (c!"OverscrollBehaviorYStyleValue", c!" contain | none | auto "),
  (c!"OverscrollBehaviorInlineStyleValue", c!" contain | none | auto "),
  (c!"OverscrollBehaviorBlockStyleValue", c!" contain | none | auto ")]

/-- css_ast/src/values/page/mod.rs:12-14: the types with `#[value]` that are not commented out, with their definitions. -/
def DEFS_PAGE : List (List Char × List Char) := [
  (c!"PageStyleValue", c!" auto | <custom-ident> ")]

/-- css_ast/src/values/page_floats/mod.rs:12-54: the types with `#[value]` that are not commented out, with their definitions. -/
def DEFS_PAGE_FLOATS : List (List Char × List Char) := [
  (c!"FloatReferenceStyleValue", c!" inline | column | region | page "),
  (c!"FloatStyleValue", c!" block-start | block-end | inline-start | inline-end | snap-block | <snap-block()> | snap-inline | <snap-inline()> | left | right | top | bottom | none "),
  (c!"ClearStyleValue", c!" inline-start | inline-end | block-start | block-end | left | right | top | bottom | both-inline | both-block | both | none "),
  (c!"FloatDeferStyleValue", c!" <integer> | last | none "),
  (c!"FloatOffsetStyleValue", c!" <length-percentage> ")]

/-- css_ast/src/values/position/mod.rs:12-134: the types with `#[value]` that are not commented out, with their definitions. -/
def DEFS_POSITION : List (List Char × List Char) := [
  (c!"PositionStyleValue", c!" static | relative | absolute | sticky | fixed "),
  (c!"TopStyleValue", c!" auto | <length-percentage> "),
  (c!"RightStyleValue", c!" auto | <length-percentage> "),
  (c!"BottomStyleValue", c!" auto | <length-percentage> "),
  (c!"LeftStyleValue", c!" auto | <length-percentage> "),
  (c!"InsetBlockStartStyleValue", c!" auto | <length-percentage> "),
  (c!"InsetInlineStartStyleValue", c!" auto | <length-percentage> "),
  (c!"InsetBlockEndStyleValue", c!" auto | <length-percentage> "),
  (c!"InsetInlineEndStyleValue", c!" auto | <length-percentage> "),
  (c!"InsetBlockStyleValue", c!" <'top'>{1,2} "),
  (c!"InsetInlineStyleValue", c!" <'top'>{1,2} "),
  (c!"InsetStyleValue", c!" <'top'>{1,4} "),
  (c!"OverlayStyleValue", c!" none | auto ")]

/-- css_ast/src/values/regions/mod.rs:32-34: the types with `#[value]` that are not commented out, with their definitions. -/
def DEFS_REGIONS : List (List Char × List Char) := [
  (c!"RegionFragmentStyleValue", c!" auto | break ")]

/-- css_ast/src/values/rhythm/mod.rs:12-64: the types with `#[value]` that are not commented out, with their definitions. -/
def DEFS_RHYTHM : List (List Char × List Char) := [
  (c!"BlockStepSizeStyleValue", c!" none | <length [0,∞]> "),
  (c!"BlockStepInsertStyleValue", c!" margin-box | padding-box | content-box "),
  (c!"BlockStepAlignStyleValue", c!" auto | center | start | end "),
  (c!"BlockStepRoundStyleValue", c!" up | down | nearest "),
  (c!"BlockStepStyleValue", c!" <'block-step-size'> || <'block-step-insert'> || <'block-step-align'> || <'block-step-round'> "),
  (c!"LineHeightStepStyleValue", c!" <length [0,∞]> ")]

/-- css_ast/src/values/round_display/mod.rs:12-14: the types with `#[value]` that are not commented out, with their definitions. -/
def DEFS_ROUND_DISPLAY : List (List Char × List Char) := [
  (c!"BorderBoundaryStyleValue", c!" none | parent | display ")]

/-- css_ast/src/values/ruby/mod.rs:22-44: the types with `#[value]` that are not commented out, with their definitions. -/
def DEFS_RUBY : List (List Char × List Char) := [
  (c!"RubyMergeStyleValue", c!" separate | merge | auto "),
  (c!"RubyAlignStyleValue", c!" start | center | space-between | space-around "),
  (c!"RubyOverhangStyleValue", c!" auto | none ")]

/-- css_ast/src/values/scroll_anchoring/mod.rs:12-14: the types with `#[value]` that are not commented out, with their definitions. -/
def DEFS_SCROLL_ANCHORING : List (List Char × List Char) := [
  (c!"OverflowAnchorStyleValue", c!" auto | none ")]

/-- css_ast/src/values/scroll_snap/mod.rs:52-264: the types with `#[value]` that are not commented out, with their definitions. -/
def DEFS_SCROLL_SNAP : List (List Char × List Char) := [
  (c!"ScrollSnapStopStyleValue", c!" normal | always "),
  (c!"ScrollPaddingTopStyleValue", c!" auto | <length-percentage [0,∞]> "),
  (c!"ScrollPaddingRightStyleValue", c!" auto | <length-percentage [0,∞]> "),
  (c!"ScrollPaddingBottomStyleValue", c!" auto | <length-percentage [0,∞]> "),
  (c!"ScrollPaddingLeftStyleValue", c!" auto | <length-percentage [0,∞]> "),
  (c!"ScrollPaddingInlineStartStyleValue", c!" auto | <length-percentage [0,∞]> "),
  (c!"ScrollPaddingBlockStartStyleValue", c!" auto | <length-percentage [0,∞]> "),
  (c!"ScrollPaddingInlineEndStyleValue", c!" auto | <length-percentage [0,∞]> "),
  (c!"ScrollPaddingBlockEndStyleValue", c!" auto | <length-percentage [0,∞]> "),
  (c!"ScrollMarginTopStyleValue", c!" <length> "),
  (c!"ScrollMarginRightStyleValue", c!" <length> "),
  (c!"ScrollMarginBottomStyleValue", c!" <length> "),
  (c!"ScrollMarginLeftStyleValue", c!" <length> "),
  (c!"ScrollMarginBlockStartStyleValue", c!" <length> "),
  (c!"ScrollMarginInlineStartStyleValue", c!" <length> "),
  (c!"ScrollMarginBlockEndStyleValue", c!" <length> "),
  (c!"ScrollMarginInlineEndStyleValue", c!" <length> "),
  (c!"ScrollMarginBlockStyleValue", c!" <length>{1,2} "),
  (c!"ScrollMarginInlineStyleValue", c!" <length>{1,2} "),
  (c!"ScrollStartTargetStyleValue", c!" none | auto ")]

/-- css_ast/src/values/scrollbars/mod.rs:12-24: the types with `#[value]` that are not commented out, with their definitions. -/
def DEFS_SCROLLBARS : List (List Char × List Char) := [
  (c!"ScrollbarColorStyleValue", c!" auto | <color>{2} "),
  (c!"ScrollbarWidthStyleValue", c!" auto | thin | none ")]

/-- css_ast/src/values/shapes/mod.rs:22-54: the types with `#[value]` that are not commented out, with their definitions. -/
def DEFS_SHAPES : List (List Char × List Char) := [
  (c!"ShapeImageThresholdStyleValue", c!" <opacity-value> "),
  (c!"ShapeMarginStyleValue", c!" <length-percentage [0,∞]> "),
  (c!"ShapePaddingStyleValue", c!" <length-percentage [0,∞]> ")]

/-- css_ast/src/values/size_adjust/mod.rs:12-14: the types with `#[value]` that are not commented out, with their definitions. -/
def DEFS_SIZE_ADJUST : List (List Char × List Char) := [
  (c!"TextSizeAdjustStyleValue", c!" auto | none | <percentage [0,∞]> ")]

/-- css_ast/src/values/sizing/mod.rs:12-74: the types with `#[value]` that are not commented out, with their definitions. -/
def DEFS_SIZING : List (List Char × List Char) := [
  (c!"WidthStyleValue", c!" auto | <length-percentage [0,∞]> | min-content | max-content | fit-content(<length-percentage [0,∞]>) | <calc-size()> | stretch | fit-content "),
  (c!"HeightStyleValue", c!" auto | <length-percentage [0,∞]> | min-content | max-content | fit-content(<length-percentage [0,∞]>) | <calc-size()> | stretch | fit-content "),
  (c!"MinWidthStyleValue", c!" auto | <length-percentage [0,∞]> | min-content | max-content | fit-content(<length-percentage [0,∞]>) | <calc-size()> | stretch | fit-content "),
  (c!"MinHeightStyleValue", c!" auto | <length-percentage [0,∞]> | min-content | max-content | fit-content(<length-percentage [0,∞]>) | <calc-size()> | stretch | fit-content "),
  (c!"MaxWidthStyleValue", c!" none | <length-percentage [0,∞]> | min-content | max-content | fit-content(<length-percentage [0,∞]>) | <calc-size()> | stretch | fit-content "),
  (c!"MaxHeightStyleValue", c!" none | <length-percentage [0,∞]> | min-content | max-content | fit-content(<length-percentage [0,∞]>) | <calc-size()> | stretch | fit-content "),
  (c!"BoxSizingStyleValue", c!" content-box | border-box ")]

/-- css_ast/src/values/speech/mod.rs:22-194: the types with `#[value]` that are not commented out, with their definitions. -/
def DEFS_SPEECH : List (List Char × List Char) := [
  (c!"VoiceBalanceStyleValue", c!" <number> | left | center | right | leftwards | rightwards "),
  (c!"SpeakStyleValue", c!" auto | never | always "),
  (c!"PauseBeforeStyleValue", c!" <time [0s,∞]> | none | x-weak | weak | medium | strong | x-strong "),
  (c!"PauseAfterStyleValue", c!" <time [0s,∞]> | none | x-weak | weak | medium | strong | x-strong "),
  (c!"PauseStyleValue", c!" <'pause-before'> <'pause-after'>? "),
  (c!"RestBeforeStyleValue", c!" <time [0s,∞]> | none | x-weak | weak | medium | strong | x-strong "),
  (c!"RestAfterStyleValue", c!" <time [0s,∞]> | none | x-weak | weak | medium | strong | x-strong "),
  (c!"RestStyleValue", c!" <'rest-before'> <'rest-after'>? "),
  (c!"VoiceStressStyleValue", c!" normal | strong | moderate | none | reduced "),
  (c!"VoiceDurationStyleValue", c!" auto | <time [0s,∞]> ")]

/-- css_ast/src/values/tables/mod.rs:12-54: the types with `#[value]` that are not commented out, with their definitions. -/
def DEFS_TABLES : List (List Char × List Char) := [
  (c!"TableLayoutStyleValue", c!" auto | fixed "),
  (c!"BorderCollapseStyleValue", c!" separate | collapse "),
  (c!"CaptionSideStyleValue", c!" top | bottom "),
  (c!"EmptyCellsStyleValue", c!" show | hide ")]

/-- css_ast/src/values/text/mod.rs:42-324: the types with `#[value]` that are not commented out, with their definitions. -/
def DEFS_TEXT : List (List Char × List Char) := [
  (c!"WordBreakStyleValue", c!" normal | break-all | keep-all | manual | auto-phrase | break-word "),
  (c!"LineBreakStyleValue", c!" auto | loose | normal | strict | anywhere "),
  (c!"HyphensStyleValue", c!" none | manual | auto "),
  (c!"OverflowWrapStyleValue", c!" normal | break-word | anywhere "),
  (c!"WordWrapStyleValue", c!" normal | break-word | anywhere "),
  (c!"TextAlignStyleValue", c!" start | end | left | right | center | <string> | justify | match-parent | justify-all "),
  (c!"TextAlignAllStyleValue", c!" start | end | left | right | center | <string> | justify | match-parent "),
  (c!"TextAlignLastStyleValue", c!" auto | start | end | left | right | center | justify | match-parent "),
  (c!"WordSpacingStyleValue", c!" normal | <length-percentage> "),
  (c!"LetterSpacingStyleValue", c!" normal | <length-percentage> "),
  (c!"WhiteSpaceCollapseStyleValue", c!" collapse | discard | preserve | preserve-breaks | preserve-spaces | break-spaces "),
  (c!"TextWrapModeStyleValue", c!" wrap | nowrap "),
  (c!"WrapInsideStyleValue", c!" auto | avoid "),
  (c!"WrapBeforeStyleValue", c!" auto | avoid | avoid-line | avoid-flex | line | flex "),
  (c!"WrapAfterStyleValue", c!" auto | avoid | avoid-line | avoid-flex | line | flex "),
  (c!"TextWrapStyleStyleValue", c!" auto | balance | stable | pretty | avoid-orphans "),
  (c!"TextWrapStyleValue", c!" <'text-wrap-mode'> || <'text-wrap-style'> "),
  (c!"HyphenateCharacterStyleValue", c!" auto | <string> "),
  (c!"HyphenateLimitZoneStyleValue", c!" <length-percentage> "),
  (c!"HyphenateLimitLinesStyleValue", c!" no-limit | <integer> "),
  (c!"HyphenateLimitLastStyleValue", c!" none | always | column | page | spread "),
  (c!"TextGroupAlignStyleValue", c!" none | start | end | left | right | center "),
  (c!"LinePaddingStyleValue", c!" <length> ")]

/-- css_ast/src/values/text_decor/mod.rs:22-184: the types with `#[value]` that are not commented out, with their definitions. -/
def DEFS_TEXT_DECOR : List (List Char × List Char) := [
  (c!"TextDecorationStyleStyleValue", c!" solid | double | dotted | dashed | wavy "),
  (c!"TextDecorationColorStyleValue", c!" <color> "),
  (c!"TextEmphasisColorStyleValue", c!" <color> "),
  (c!"TextDecorationThicknessStyleValue", c!" auto | from-font | <length-percentage> "),
  (c!"TextUnderlineOffsetStyleValue", c!" auto | <length-percentage> "),
  (c!"TextDecorationSkipStyleValue", c!" none | auto "),
  (c!"TextDecorationSkipBoxStyleValue", c!" none | all "),
  (c!"TextDecorationSkipInkStyleValue", c!" auto | none | all ")]

/-- css_ast/src/values/transforms/mod.rs:32-104: the types with `#[value]` that are not commented out, with their definitions. -/
def DEFS_TRANSFORMS : List (List Char × List Char) := [
  (c!"TransformBoxStyleValue", c!" content-box | border-box | fill-box | stroke-box | view-box "),
  (c!"TransformStyleStyleValue", c!" flat | preserve-3d "),
  (c!"BackfaceVisibilityStyleValue", c!" visible | hidden ")]

/-- css_ast/src/values/transitions/mod.rs:22-64: the types with `#[value]` that are not commented out, with their definitions. -/
def DEFS_TRANSITIONS : List (List Char × List Char) := [
  (c!"TransitionDurationStyleValue", c!" <time [0s,∞]># "),
  (c!"TransitionDelayStyleValue", c!" <time># "),
  (c!"TransitionBehaviorStyleValue", c!" <transition-behavior-value># ")]

/-- css_ast/src/values/ui/mod.rs:22-216: the types with `#[value]` that are not commented out, with their definitions. -/
def DEFS_UI : List (List Char × List Char) := [
  (c!"OutlineWidthStyleValue", c!" <line-width> "),
  (c!"OutlineStyleStyleValue", c!" auto | <outline-line-style> "),
  (c!"OutlineColorStyleValue", c!" auto | <color> | <image-1D> "),
  (c!"OutlineOffsetStyleValue", c!" <length> "),
  (c!"ResizeStyleValue", c!" none | both | horizontal | vertical | block | inline "),
  (c!"CaretColorStyleValue", c!" auto | <color> "),
  (c!"CaretAnimationStyleValue", c!" auto | manual "),
  (c!"CaretShapeStyleValue", c!" auto | bar | block | underscore "),
  (c!"CaretStyleValue", c!" <'caret-color'> || <'caret-animation'> || <'caret-shape'> "),
  (c!"UserSelectStyleValue", c!" auto | text | none | contain | all "),
  (c!"PointerEventsStyleValue", c!" auto | none "),
  (c!"AccentColorStyleValue", c!" auto | <color> "),
  (c!"AppearanceStyleValue", c!" none | auto | base | <compat-auto> | <compat-special> "),
  (c!"FieldSizingStyleValue", c!" fixed | content "),
  (c!"InputSecurityStyleValue", c!" auto | none ")]

/-- css_ast/src/values/values/mod.rs:12-14: the types with `#[value]` that are not commented out, with their definitions. -/
def DEFS_VALUES : List (List Char × List Char) := [
  (c!"InterpolateSizeStyleValue", c!" numeric-only | allow-keywords ")]

/-- css_ast/src/values/view_transitions/mod.rs:12-34: the types with `#[value]` that are not commented out, with their definitions. -/
def DEFS_VIEW_TRANSITIONS : List (List Char × List Char) := [
  (c!"ViewTransitionNameStyleValue", c!" none | <custom-ident> "),
  (c!"ViewTransitionGroupStyleValue", c!" normal | contain | nearest | <custom-ident> ")]

/-- css_ast/src/values/viewport/mod.rs:12-14: the types with `#[value]` that are not commented out, with their definitions. -/
def DEFS_VIEWPORT : List (List Char × List Char) := [
  (c!"ZoomStyleValue", c!" <number [0,∞]> || <percentage [0,∞]> ")]

/-- css_ast/src/values/will_change/mod.rs:12-14: the types with `#[value]` that are not commented out, with their definitions. -/
def DEFS_WILL_CHANGE : List (List Char × List Char) := [
  (c!"WillChangeStyleValue", c!" auto | <animateable-feature># ")]

/-- css_ast/src/values/writing_modes/mod.rs:12-44: the types with `#[value]` that are not commented out, with their definitions. -/
def DEFS_WRITING_MODES : List (List Char × List Char) := [
  (c!"DirectionStyleValue", c!" ltr | rtl "),
  (c!"UnicodeBidiStyleValue", c!" normal | embed | isolate | bidi-override | isolate-override | plaintext "),
  (c!"WritingModeStyleValue", c!" horizontal-tb | vertical-rl | vertical-lr | sideways-rl | sideways-lr "),
  (c!"TextOrientationStyleValue", c!" mixed | upright | sideways ")]

/-- All definitions of css_ast/src/values. -/
def DEFINITIONS : List (List Char × List Char) :=
  DEFS_ALIGN ++
  DEFS_ANCHOR_POSITION ++
  DEFS_ANIMATIONS ++
  DEFS_BACKGROUNDS ++
  DEFS_BORDERS ++
  DEFS_BOX ++
  DEFS_BREAK ++
  DEFS_CASCADE ++
  DEFS_COLOR ++
  DEFS_COLOR_ADJUST ++
  DEFS_COLOR_HDR ++
  DEFS_CONTAIN ++
  DEFS_CONTENT ++
  DEFS_DISPLAY ++
  DEFS_EXCLUSIONS ++
  DEFS_FLEXBOX ++
  DEFS_FONTS ++
  DEFS_GCPM ++
  DEFS_GRID ++
  DEFS_IMAGES ++
  DEFS_INLINE ++
  DEFS_LINE_GRID ++
  DEFS_LISTS ++
  DEFS_LOGICAL ++
  DEFS_MULTICOL ++
  DEFS_NAV ++
  DEFS_OVERFLOW ++
  DEFS_OVERSCROLL ++
  DEFS_PAGE ++
  DEFS_PAGE_FLOATS ++
  DEFS_POSITION ++
  DEFS_REGIONS ++
  DEFS_RHYTHM ++
  DEFS_ROUND_DISPLAY ++
  DEFS_RUBY ++
  DEFS_SCROLL_ANCHORING ++
  DEFS_SCROLL_SNAP ++
  DEFS_SCROLLBARS ++
  DEFS_SHAPES ++
  DEFS_SIZE_ADJUST ++
  DEFS_SIZING ++
  DEFS_SPEECH ++
  DEFS_TABLES ++
  DEFS_TEXT ++
  DEFS_TEXT_DECOR ++
  DEFS_TRANSFORMS ++
  DEFS_TRANSITIONS ++
  DEFS_UI ++
  DEFS_VALUES ++
  DEFS_VIEW_TRANSITIONS ++
  DEFS_VIEWPORT ++
  DEFS_WILL_CHANGE ++
  DEFS_WRITING_MODES

/-- The definition of the type of this name. -/
def definitionOf (name : List Char) : Option Def := (DEFINITIONS.find? (·.1 == name)).bind fun row => readDef row.2

/-- The type that a name stands for. References to other definitions are followed `fuel` times. -/
def definitionLeaf : Nat → List Char → Leaf
  | 0, _ => ⟨fun _ => .panic .todo, .panic .todo⟩
  | n + 1, name =>
    match handWritten name with
    | some l => l
    | none =>
      match definitionOf name with
      | some d => d.leaf (definitionLeaf n)
      | none => ⟨fun _ => .panic .todo, .panic .todo⟩

/-- css_ast/build.rs:147-165: the name of the property of a type. -/
def propertyName (type : List Char) : List Char :=
  let name := type.take (type.length - 10)
  if name.take 6 == c!"Webkit" then '-' :: kebab name else kebab name

/-- css_ast/build.rs:147-165: `apply_properties!`, with its types. No reference goes further than four types. -/
def realValues : Values Val where
  names := DEFINITIONS.map fun row => propertyName row.1
  parser name :=
    match DEFINITIONS.find? fun row => propertyName row.1 == name with
    | some row => (definitionLeaf 6 row.1).parser
    | none => .panic .unwrap
  cursors := Val.cursors

end Hdx

/-
Lengths, percentages, times, angles, resolutions, frequencies and flexes as values: which variant is built for a token, and its number.
css_ast/src/units/*.rs.
-/
import Verif.Model.Images

namespace Hdx
open Prog

/-- A value of one of the types of css_ast/src/units: the variant (`none` is `Zero`) and the token in it. -/
structure Quantity where
  unit : Option DimensionUnit
  c : Cursor

/-- The types. -/
inductive Measure where
  | length
  | lengthPercentage
  | time
  | angle
  | resolution
  | frequency
  | flex
  deriving DecidableEq, Repr

/-- css_ast/src/units/length.rs:144-153, 276-287: the chain of `if`s in `Build for Length` and `Build for LengthPercentage`. -/
def buildUnit : List DimensionUnit → Cursor → Prog (Option DimensionUnit)
  | [], _ => pure none
  | u :: us, c => do
    if ← isDimensionOf u c then pure (some u) else buildUnit us c

/-- `match p.parse_str_lower(c) { ..., _ => unreachable!() }` (the panic is `unwrap` in the model). -/
def buildNamedUnit (names : List (List Char × DimensionUnit)) (c : Cursor) : Prog (Option DimensionUnit) := do
  let s ← strLower c
  match names.lookup s with
  | some u => pure (some u)
  | none => .panic .unwrap

/-- css_ast/src/units/angles.rs:36-45 -/
def ANGLE_VARIANTS : List (List Char × DimensionUnit) := [(c!"grad", .grad), (c!"rad", .rad), (c!"turn", .turn), (c!"deg", .deg)]
/-- css_ast/src/units/time.rs:34-38 -/
def TIME_VARIANTS : List (List Char × DimensionUnit) := [(c!"s", .s), (c!"ms", .ms)]
/-- css_ast/src/units/resolution.rs:40-48 -/
def RESOLUTION_VARIANTS : List (List Char × DimensionUnit) := [(c!"dpi", .dpi), (c!"dpcm", .dpcm), (c!"dppx", .dppx)]
/-- css_ast/src/units/frequency.rs:27-34 -/
def FREQUENCY_VARIANTS : List (List Char × DimensionUnit) := [(c!"hz", .hz), (c!"khz", .khz)]

/-- css_ast/src/units/*.rs: `Peek` of each type. -/
def Measure.test : Measure → Cursor → Prog Bool
  | .length => isLength
  | .lengthPercentage => isLengthPercentage
  | .time => isTime
  | .angle => isAngle
  | .resolution => isResolution
  -- css_ast/src/units/frequency.rs:21-25
  | .frequency => isUnitOf [c!"hz", c!"khz"]
  -- css_ast/src/units/flex.rs:15-19
  | .flex => isDimensionOf .fr

/-- css_ast/src/units/*.rs: `Build` of each type. -/
def Measure.build : Measure → Cursor → Prog (Option DimensionUnit)
  | .length, c => buildUnit LENGTH_UNITS c
  | .lengthPercentage, c => buildUnit (LENGTH_UNITS ++ [.percent]) c
  | .time, c => if c.token.isKind .number && f32IsZero c.token.value then pure none else buildNamedUnit TIME_VARIANTS c
  | .angle, c => buildNamedUnit ANGLE_VARIANTS c
  | .resolution, c => buildNamedUnit RESOLUTION_VARIANTS c
  | .frequency, c => buildNamedUnit FREQUENCY_VARIANTS c
  | .flex, _ => pure (some .fr)

/-- css_parse/src/traits/parse.rs:27-40 `Parse` of a type with `Peek` and `Build`. -/
def Measure.quantity (m : Measure) : Prog Quantity := do
  let c ← tok m.test
  let u ← m.build c
  pure ⟨u, c⟩

/-- css_ast/src/units/*.rs: `From<...> for f32`: 0.0 for `Zero`, the number of the token otherwise. -/
def Quantity.toF32 (q : Quantity) : BitVec 32 := if q.unit.isNone then 0 else q.c.token.value

/-- css_ast/src/units/*.rs: `From<...> for Cursor`, `From<...> for Token`. -/
def Quantity.cursor (q : Quantity) : Cursor := q.c

/-- Rust's `f >= 0.0` for the float with these bits (not NaN). -/
def f32AtLeastZero (w : BitVec 32) : Bool := !w.msb || w == 0x80000000#32

/-- css_ast/src/units/mod.rs:28-31 `Unit::is_negative`. -/
def Quantity.isNegative (q : Quantity) : Bool := f32Below 0 q.toF32
/-- css_ast/src/units/mod.rs:32-35 `Unit::is_positive`. -/
def Quantity.isPositive (q : Quantity) : Bool := f32AtLeastZero q.toF32
/-- css_ast/src/units/mod.rs:36-39 `Unit::is_zero`, which compares with `>=`. -/
def Quantity.isZero (q : Quantity) : Bool := f32AtLeastZero q.toF32

end Hdx

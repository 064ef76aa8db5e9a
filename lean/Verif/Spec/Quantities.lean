/-
The units of the types of numbers with units, and the number of a float.
-/
import Verif.Model.Quantities
import Verif.Spec.ValueSyntax
import Verif.Spec.Float

namespace Hdx.Spec

/-- https://drafts.csswg.org/css-values-4/: the units of each type. -/
def unitsOf : Measure → List (List Char)
  | .length => lengthUnits
  | .lengthPercentage => c!"%" :: lengthUnits
  | .time => [c!"s", c!"ms"]
  | .angle => [c!"deg", c!"grad", c!"rad", c!"turn"]
  | .resolution => [c!"dpi", c!"dpcm", c!"dppx", c!"x"]
  | .frequency => [c!"hz", c!"khz"]
  | .flex => [c!"fr"]

/-- The types of which a bare `0` is a value. (css-values-4 says so of lengths only; hdx also of times.) -/
def zeroOf : Measure → Bool
  | .length | .lengthPercentage | .time => true
  | _ => false

/-- The number of a float that is not NaN, in units of 2^-149. -/
def f32Number (w : BitVec 32) : Int := if 2 ^ 31 ≤ w.toNat then -(f32Units (w.toNat % 2 ^ 31) : Int) else f32Units (w.toNat % 2 ^ 31)

end Hdx.Spec

/-
Specification: the `f32` that a decimal number denotes (IEEE 754 binary32, rounding to nearest, ties to even).
-/
import Verif.Spec.Lexical
import Verif.Spec.AnB

namespace Hdx.Spec

/-- The magnitude of a finite `f32`, from its bits without the sign, in units of 2^-149: the bits themselves if the exponent field is zero; otherwise
the 24 bit significand shifted by the exponent field less one. -/
def f32Units (bits : Nat) : Nat := if bits < 2 ^ 23 then bits else (2 ^ 23 + bits % 2 ^ 23) * 2 ^ (bits / 2 ^ 23 - 1)

/-- The bits of infinity; those below are finite. -/
def f32Infinity : Nat := 0x7f800000

/-- How far the fraction `num / den` is from a finite `f32`, in units of 2^-149 / den. -/
def f32Distance (num den bits : Nat) : Nat := ((num * 2 ^ 149 : Nat) - (f32Units bits * den : Nat) : Int).natAbs

/-- `bits` is the magnitude of the `f32` nearest to `num / den`: infinity from 2^128 - 2^103 on (half way between the largest finite value and 2^128);
otherwise no finite value is nearer, and if another one is as near, `bits` is the even one of them. -/
structure NearestF32 (num den bits : Nat) : Prop where
  range : bits ≤ f32Infinity
  infinite : bits = f32Infinity ↔ (2 ^ 128 - 2 ^ 103) * den ≤ num
  nearest : bits < f32Infinity → ∀ b < f32Infinity, f32Distance num den bits ≤ f32Distance num den b
  tie : bits < f32Infinity → ∀ b < f32Infinity, b ≠ bits → f32Distance num den b = f32Distance num den bits → bits % 2 = 0

/-- The exponent a text like `e-3` stands for; 0 for an empty text. -/
def exponentOf : List Char → Int
  | [] => 0
  | _ :: '-' :: ds => -(digitsNumber ds : Int)
  | _ :: '+' :: ds => digitsNumber ds
  | _ :: ds => digitsNumber ds

/-- The number `t` is (-1)^neg * mantissa * 10^exponent, as read by a schoolchild: the digits before and after the point as one number, the exponent less
the number of digits after the point. -/
structure Decimal (t : List Char) (neg : Bool) (mantissa : Nat) (exponent : Int) : Prop where
  parts : ∃ s i f e, NumberParts s i f e ∧ t = s ++ (i ++ (f ++ e)) ∧ (neg = true ↔ s = ['-']) ∧ mantissa = digitsNumber (i ++ f.drop 1)
    ∧ exponent = exponentOf e - ((f.drop 1).length : Int)

/-- The fraction mantissa * 10^exponent. -/
def decimalNum (mantissa : Nat) (exponent : Int) : Nat := mantissa * 10 ^ exponent.toNat
def decimalDen (exponent : Int) : Nat := 10 ^ (-exponent).toNat

end Hdx.Spec

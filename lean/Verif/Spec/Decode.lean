/-
Specification: the value of names, strings and escapes
(https://drafts.csswg.org/css-syntax/#consume-escaped-code-point, #consume-string-token, #input-preprocessing), written from
the CSS Syntax module and independent of the model.
-/
import Verif.Spec.Text

namespace Hdx.Spec

/-- U+FFFD REPLACEMENT CHARACTER -/
def Replacement : Char := '\uFFFD'

/-- The value of a hex digit, either case. -/
def hexDigit? (c : Char) : Option Nat :=
  ['0', '1', '2', '3', '4', '5', '6', '7', '8', '9', 'a', 'b', 'c', 'd', 'e', 'f'].idxOf? c
    <|> ['0', '1', '2', '3', '4', '5', '6', '7', '8', '9', 'A', 'B', 'C', 'D', 'E', 'F'].idxOf? c

/-- The number the leading hex digits of a text denote. -/
def hexNumber (n : Nat) : List Char → Nat
  | [] => n
  | c :: cs => match hexDigit? c with
    | some d => hexNumber (16 * n + d) cs
    | none => n

/-- "If this number is zero, or is for a surrogate, or is greater than the maximum allowed code point, return U+FFFD.
Otherwise, return the code point with that value." -/
def codePoint (n : Nat) : Char :=
  if n = 0 ∨ (0xD800 ≤ n ∧ n ≤ 0xDFFF) ∨ 0x10FFFF < n then Replacement else Char.ofNat n

/-- A character of the source: NUL stands for U+FFFD. -/
def sourceChar (c : Char) : Char := if c = NUL then Replacement else c

/-- The code point an escape stands for, given the text `e` that follows the backslash and belongs to the escape. -/
def escapedChar : List Char → Char
  | [] => Replacement
  | c :: r => if (hexDigit? c).isSome then codePoint (hexNumber 0 (c :: r)) else sourceChar c

/-- The value of a name element. -/
def NameUnit.value : NameUnit → Char
  | .chr c => sourceChar c
  | .esc e => escapedChar e

/-- The value of a name. -/
def nameValue (us : List NameUnit) : List Char := us.map NameUnit.value

/-- The value of a string element: a line continuation has none, nor has a backslash at the end of the input. -/
def StrUnit.value : StrUnit → List Char
  | .chr c => [sourceChar c]
  | .esc e => if e = [] then [] else [escapedChar e]
  | .cont _ => []

/-- The value of a string. -/
def strValue (us : List StrUnit) : List Char := us.flatMap StrUnit.value

/-- ASCII upper-case letters replaced by their lower-case counterparts. -/
def asciiLower (c : Char) : Char := if 'A'.toNat ≤ c.toNat ∧ c.toNat ≤ 'Z'.toNat then Char.ofNat (c.toNat + 32) else c

end Hdx.Spec

/-
Decimal text to `f32`: model of Rust's `str::parse::<f32>` (css_lexer/src/private.rs:847) on the texts the lexer passes to
it. Rust documents the conversion as correctly rounded (nearest, ties to even); that is what is modelled, on bit patterns.
Only numbers of the shape `[+-]? digits* ('.' digits*)? ([eE] [+-]? digits*)?` occur; other texts (on which the Rust call
would return `Err` and the `unwrap` panic) are not produced by the lexer's numeric scanner (see `Lexer.lean`).
-/
import Verif.Model.Chars

namespace Hdx.F32

/-- Value of a digit character. -/
def digitVal (c : Char) : Nat := c.toNat - 48

/-- Reads a run of digits: accumulated value, number of digits, rest. -/
def readDigits : Nat → Nat → List Char → Nat × Nat × List Char
  | acc, n, [] => (acc, n, [])
  | acc, n, c :: cs => if isDigit c then readDigits (acc * 10 + digitVal c) (n + 1) cs else (acc, n, c :: cs)

/-- Round-half-even division of naturals (`den > 0`). -/
def divRound (num den : Nat) : Nat :=
  let q := num / den
  let r := num % den
  if 2 * r < den then q else if 2 * r > den then q + 1 else if q % 2 == 0 then q else q + 1

/-- Floor of log2 of the positive rational `num / den`. -/
def log2Rat (num den : Nat) : Int :=
  let e : Int := (Nat.log2 num : Int) - (Nat.log2 den : Int)
  -- 2^(e-1) < num/den < 2^(e+1)
  let ge : Bool := if e ≥ 0 then den * 2 ^ e.toNat ≤ num else den ≤ num * 2 ^ (-e).toNat
  if ge then e else e - 1

/-- Bits of the `f32` nearest to the non-negative rational `num / den`. -/
def ofRat (num den : Nat) : Nat :=
  if num == 0 then 0 else
  let e := log2Rat num den
  if e > 127 then 0x7f800000
  else
    let e' := if e < -126 then -126 else e
    -- mantissa = num/den * 2^(23 - e')
    let s : Int := 23 - e'
    let m := if s ≥ 0 then divRound (num * 2 ^ s.toNat) den else divRound num (den * 2 ^ (-s).toNat)
    -- adding the hidden bit to the exponent field carries correctly, also for subnormals and for overflow to infinity
    let bits := (e' + 126).toNat * 2 ^ 23 + m
    if bits ≥ 0x7f800000 then 0x7f800000 else bits

/-- Reads an optional sign: `(negative, rest)`. -/
def readSign : List Char → Bool × List Char
  | '-' :: cs => (true, cs)
  | '+' :: cs => (false, cs)
  | cs => (false, cs)

/-- `str::parse::<f32>().unwrap().to_bits()`. -/
def parse (cs : List Char) : BitVec 32 :=
  let (neg, cs) := readSign cs
  let (i, _, cs) := readDigits 0 0 cs
  let (m, fracLen, cs) := match cs with
    | '.' :: cs => readDigits i 0 cs
    | cs => (i, 0, cs)
  let ex : Int := match cs with
    | c :: cs =>
      if c == 'e' || c == 'E' then
        let (eneg, cs) := readSign cs
        let (e, _, _) := readDigits 0 0 cs
        if eneg then -(e : Int) else e
      else 0
    | [] => 0
  let ex := ex - fracLen
  let mag := if ex ≥ 0 then ofRat (m * 10 ^ ex.toNat) 1 else ofRat m (10 ^ (-ex).toNat)
  BitVec.ofNat 32 (if neg then 0x80000000 + mag else mag)

-- Sanity tests (tests, not proofs): 0.5, 1, 0.1, -0, 3.4028236e38 overflow, 1e-45 subnormal, 16777217 ties to even.
example : parse c!"0.5" = 0x3f000000#32 := by decide +kernel
example : parse c!"1" = 0x3f800000#32 := by decide +kernel
example : parse c!"0.1" = 0x3dcccccd#32 := by decide +kernel
example : parse c!"-0" = 0x80000000#32 := by decide +kernel
example : parse c!"1e39" = 0x7f800000#32 := by decide +kernel
example : parse c!"1e-45" = 0x00000001#32 := by decide +kernel
example : parse c!"16777217" = 0x4b800000#32 := by decide +kernel
example : parse c!"+1.5e2" = 0x43160000#32 := by decide +kernel
example : parse c!"-.25" = 0xbe800000#32 := by decide +kernel

end Hdx.F32

/-
An+B notation: css_ast/src/selector/nth.rs.
-/
import Verif.Model.Grammar
import Verif.Model.F32

namespace Hdx
open Prog

/-- Rust's `f32 as i32`, on the bits of the float: truncated, saturated, 0 for NaN. -/
def f32ToI32 (w : BitVec 32) : Int :=
  let e := (w.toNat / 2 ^ 23) % 256
  let m := w.toNat % 2 ^ 23
  if e == 255 && m != 0 then 0
  else
    let mag : Nat := if e < 127 then 0 else if e ≥ 158 then 2 ^ 31 else ((2 ^ 23 + m) * 2 ^ (e - 127)) / 2 ^ 23
    if w.getLsbD 31 then -(mag : Int) else if mag ≥ 2 ^ 31 then 2 ^ 31 - 1 else (mag : Int)

/-- Rust's `f32::abs`, on bits. -/
def f32Abs (w : BitVec 32) : BitVec 32 := w &&& 0x7fffffff#32

/-- The value of a run of decimal digits. -/
def digitsValue (cs : List Char) : Nat := cs.foldl (fun n c => n * 10 + F32.digitVal c) 0

/-- Rust's `str::parse::<i32>`. -/
def parseI32 (cs : List Char) : Option Int :=
  let (neg, digits) := F32.readSign cs
  if digits.isEmpty || !digits.all isDigit then none
  else
    let v : Int := if neg then -(digitsValue digits : Int) else digitsValue digits
    if -2147483648 ≤ v ∧ v ≤ 2147483647 then some v else none

/-- css_ast/src/selector/nth.rs:9-14 `Nth`. -/
inductive Nth where
  | odd (c : Cursor)
  | even (c : Cursor)
  | integer (c : Cursor)
  | anb (a b : Int) (cursors : List Cursor)
  deriving DecidableEq, Repr

/-- css_ast/src/selector/nth.rs:112-125 `ToCursors for Nth`. -/
def Nth.cursors : Nth → List Cursor
  | .odd c => [c]
  | .even c => [c]
  | .integer c => [c]
  | .anb _ _ cs => cs

/-- css_parse/src/parser.rs:171-174 `parse_str_lower`. -/
def Prog.strLower (c : Cursor) : Prog (List Char) := ask fun p => c.parseStrLower p.lexer.source

/-- css_parse/src/token_macros.rs `Any`: any token at all. -/
def any : Prog Cursor := tok fun _ => pure true

/-- css_ast/src/units/int.rs:25-29 `Peek for CSSInt`. -/
def isCssInt (c : Cursor) : Prog Bool := pure (c.token.isKind .number && c.token.isInt)

/-- css_ast/src/selector/nth.rs:90-107: from the optional number to the end. -/
def nthNumber (a : Int) (bSign : Int) (cursors : List Cursor) : Prog Nth := do
  let c ← peek
  if c.token.isKind .number then do
    let c ← tok (isKind .number)
    if c.token.isFloat then fail .expectedInt c
    else if c.token.hasSign && bSign != 0 then fail .expectedUnsigned c
    else pure (.anb a (f32ToI32 (f32Abs c.token.value) * (if bSign == 0 then 1 else bSign)) (cursors ++ [c]))
  else pure (.anb a 0 cursors)

/-- css_ast/src/selector/nth.rs:78-88: the optional sign, if none was seen yet. -/
def nthSign (a : Int) (bSign : Int) (cursors : List Cursor) : Prog Nth := do
  if bSign == 0 then do
    let c ← peek
    if c.token.isKind .delim && c.token.isChar '+' then do
      let c ← tok (isDelim '+')
      nthNumber a 1 (cursors ++ [c])
    else if c.token.isKind .delim && c.token.isChar '-' then do
      let c ← tok (isDelim '-')
      nthNumber a (-1) (cursors ++ [c])
    else nthNumber a 0 cursors
  else nthNumber a bSign cursors

/-- css_ast/src/selector/nth.rs:46-77: from the token with the `n` on. -/
def nthN (c : Cursor) (cursors : List Cursor) : Prog Nth := do
  if !(c.token.isKind .number || c.token.isKind .dimension || c.token.isKind .ident) then fail .unexpected c
  else if c.token.isFloat then fail .expectedInt c
  else do
    let anb ← Prog.strLower c
    if anb == c!"n-" then nthSign (if c.token.isInt then f32ToI32 c.token.value else 1) (-1) cursors
    else
      let a : Int := if c.token.isInt then f32ToI32 c.token.value else if anb.head? == some '-' then -1 else 1
      let chars := if !c.token.isInt && anb.head? == some '-' then anb.tail else anb
      if !(chars.head? == some 'n' || chars.head? == some 'N') then fail .unexpected c
      else
        match parseI32 chars.tail with
        | some b => pure (.anb a b cursors)
        | none => if !chars.tail.isEmpty then fail .unexpected c else nthSign a 0 cursors

/-- css_ast/src/selector/nth.rs:33-45: the first token is neither a number nor `odd` or `even`. -/
def nthFirst (c : Cursor) : Prog Nth :=
  if c.token.isChar '+' then
    setSkip KindSet.NONE fun skip => do
      let next ← result any
      setSkip skip fun _ => do
        let c' ← ofResult next
        nthN c' [c, c']
  else nthN c [c]

/-- css_ast/src/selector/nth.rs:17-109 `Parse for Nth`. -/
def nth : Prog Nth := do
  let c ← peek
  if c.token.isKind .number then do
    let c ← tok isCssInt
    pure (.integer c)
  else if c.token.isKind .ident then do
    let c ← tok (isKind .ident)
    let name ← Prog.strLower c
    if name == c!"even" then pure (.even c)
    else if name == c!"odd" then pure (.odd c)
    else nthFirst c
  else do
    let c ← any
    nthFirst c

end Hdx

/-
Model of the character classes and character-level helpers of `css_lexer`.

A Rust `char` is modelled by Lean's `Char` (both range over the Unicode scalar values), a `&str` by the
`List Char` of its characters, and a `std::str::Chars` iterator by the list of characters it has still to yield.
-/

namespace Hdx

deriving instance DecidableEq for Except

/-- Explicit values for the ways the Rust code can panic. -/
inductive Panic where
  /-- `&s[i..]` / `&s[i..j]` with an index that is not on a UTF-8 character boundary, out of range, or `j < i` -/
  | slice
  /-- `u32`/`u8`/`usize` subtraction below zero (a panic in debug builds) -/
  | underflow
  /-- `unwrap()` of a `None`/`Err` -/
  | unwrap
  /-- `todo!()` -/
  | todo
  /-- a loop that never ends (not a panic: the code hangs) -/
  | diverges
  deriving DecidableEq, Repr

/-- `str::len`: the length in UTF-8 bytes of a text (Rust std; used e.g. in css_lexer/src/lib.rs:201). -/
def utf8Len : List Char → Nat
  | [] => 0
  | c :: cs => c.utf8Size + utf8Len cs

/-- `&s[n..]` (Rust std indexing as used in css_lexer/src/private.rs:1028): drops `n` *bytes*;
`none` models the panic when `n` is not on a character boundary or is past the end. -/
def dropBytes : List Char → Nat → Option (List Char)
  | cs, 0 => some cs
  | [], _ + 1 => none
  | c :: cs, n + 1 => if c.utf8Size ≤ n + 1 then dropBytes cs (n + 1 - c.utf8Size) else none

/-- `&s[..n]`: takes `n` *bytes*; `none` models the panic, as for `dropBytes`
(css_lexer/src/private.rs:910 `char_inspect.as_str()[0..esc_len as usize]`). -/
def takeBytes : List Char → Nat → Option (List Char)
  | _, 0 => some []
  | [], _ + 1 => none
  | c :: cs, n + 1 =>
    if c.utf8Size ≤ n + 1 then (takeBytes cs (n + 1 - c.utf8Size)).map (c :: ·) else none

/-- `&s[start..end]` (css_lexer/src/span.rs:115): `none` when an index is off a boundary, out of range or reversed. -/
def sliceBytes (cs : List Char) (start stop : Nat) : Option (List Char) :=
  if start ≤ stop then (dropBytes cs start).bind (fun r => takeBytes r (stop - start)) else none

/-- css_lexer/src/syntax/mod.rs:9 `EOF = '\0'`. -/
def EOFc : Char := '\x00'
/-- css_lexer/src/syntax/mod.rs:11 `FF`. -/
def FFc : Char := '\x0c'
/-- css_lexer/src/syntax/mod.rs:13 `CR`. -/
def CRc : Char := '\x0d'
/-- css_lexer/src/syntax/mod.rs:15 `LF`. -/
def LFc : Char := '\x0a'
/-- css_lexer/src/syntax/mod.rs:17 `TAB`. -/
def TABc : Char := '\x09'
/-- css_lexer/src/syntax/mod.rs:19 `SPACE`. -/
def SPACEc : Char := ' '
/-- `std::char::REPLACEMENT_CHARACTER`. -/
def REPL : Char := '\uFFFD'

/-- css_lexer/src/syntax/mod.rs:27-29 `is_newline`. -/
def isNewline (c : Char) : Bool := c == CRc || c == LFc || c == FFc

/-- css_lexer/src/syntax/mod.rs:22-24 `is_whitespace`. -/
def isWhitespace (c : Char) : Bool := c == SPACEc || c == TABc || isNewline c

/-- css_lexer/src/syntax/mod.rs:32-34 `is_sign`. -/
def isSign (c : Char) : Bool := c == '+' || c == '-'

/-- css_lexer/src/syntax/mod.rs:37-39 `is_quote`. -/
def isQuote (c : Char) : Bool := c == '\'' || c == '"'

/-- css_lexer/src/syntax/mod.rs:42-44 `is_escape_sequence`. -/
def isEscapeSequence (c c2 : Char) : Bool := c == '\\' && !isNewline c2

/-- `char::is_ascii` (Rust std). -/
def isAscii (c : Char) : Bool := c.toNat < 128

/-- `char::is_ascii_digit` (Rust std). -/
def isDigit (c : Char) : Bool := 48 ≤ c.toNat && c.toNat ≤ 57

/-- `char::is_ascii_hexdigit` (Rust std). -/
def isHexDigit (c : Char) : Bool :=
  isDigit c || (65 ≤ c.toNat && c.toNat ≤ 70) || (97 ≤ c.toNat && c.toNat ≤ 102)

/-- css_lexer/src/syntax/identifier.rs:9-14, 77-79 `ASCII_LOWER` / `is_ident_ascii_lower`: entries 97..122 of the
128-entry table are `T`. -/
def isIdentAsciiLower (c : Char) : Bool := 97 ≤ c.toNat && c.toNat ≤ 122

/-- css_lexer/src/syntax/identifier.rs:16-21, 31-33 `ASCII_START` / `is_ident_ascii_start`: entries 65..90, 95, 97..122.
(In Rust the table lookup panics for a non-ASCII char; every call site checks `is_ascii`/`< 128` first.) -/
def isIdentAsciiStart (c : Char) : Bool :=
  (65 ≤ c.toNat && c.toNat ≤ 90) || c.toNat == 95 || (97 ≤ c.toNat && c.toNat ≤ 122)

/-- css_lexer/src/syntax/identifier.rs:23-28, 36-38 `ASCII_CONTINUE` / `is_ident_ascii`:
entries 45, 48..57, 65..90, 95, 97..122. -/
def isIdentAscii (c : Char) : Bool :=
  c.toNat == 45 || (48 ≤ c.toNat && c.toNat ≤ 57) || (65 ≤ c.toNat && c.toNat ≤ 90) || c.toNat == 95
    || (97 ≤ c.toNat && c.toNat ≤ 122)

/-- css_lexer/src/syntax/identifier.rs:41-54 `is_non_ascii`. -/
def isNonAscii (c : Char) : Bool :=
  let n := c.toNat
  n ≥ 0x10000 || n == 0xb7 || n == 0x200c || n == 0x200d || n == 0x203f || n == 0x2040
    || (0xc0 ≤ n && n ≤ 0xd6) || (0xd8 ≤ n && n ≤ 0xf6)
    || (0xf8 ≤ n && n ≤ 0x37d) || (0x37f ≤ n && n ≤ 0x1fff)
    || (0x2070 ≤ n && n ≤ 0x218f) || (0x2c00 ≤ n && n ≤ 0x2fef)
    || (0x3001 ≤ n && n ≤ 0xd7ff) || (0xf900 ≤ n && n ≤ 0xfdcf)
    || (0xfdf0 ≤ n && n ≤ 0xfffd)

/-- css_lexer/src/syntax/identifier.rs:57-62 `is_ident_start`. -/
def isIdentStart (c : Char) : Bool := if isAscii c then isIdentAsciiStart c else isNonAscii c

/-- css_lexer/src/syntax/identifier.rs:65-70 `is_ident`. -/
def isIdent (c : Char) : Bool := if isAscii c then isIdentAscii c else isNonAscii c

/-- css_lexer/src/syntax/identifier.rs:78-83 `is_ident_start_sequence`. -/
def isIdentStartSequence (c c2 c3 : Char) : Bool :=
  if c == '-' then c2 == '-' || isIdentStart c2 || isEscapeSequence c2 c3
  else isIdentStart c || isEscapeSequence c c2

/-- css_lexer/src/syntax/url.rs:1-3 `is_non_printable`. -/
def isNonPrintable (c : Char) : Bool :=
  let n := c.toNat
  n ≤ 8 || n == 0x0b || (0x0e ≤ n && n ≤ 0x1f) || n == 0x7f

/-- css_lexer/src/private.rs:68-70 `peek_nth`: the `n`-th character still to come, or `EOF` (`'\0'`). -/
def peekNth : List Char → Nat → Char
  | [], _ => EOFc
  | c :: _, 0 => c
  | _ :: cs, n + 1 => peekNth cs n

/-- `char::is_whitespace` (Unicode `White_Space`), used by `str::trim` (Rust std). -/
def isUnicodeWs (c : Char) : Bool :=
  let n := c.toNat
  (9 ≤ n && n ≤ 13) || n == 32 || n == 0x85 || n == 0xa0 || n == 0x1680 || (0x2000 ≤ n && n ≤ 0x200a)
    || n == 0x2028 || n == 0x2029 || n == 0x202f || n == 0x205f || n == 0x3000

/-- `str::trim` (Rust std), used at css_lexer/src/private.rs:910. -/
def trim (cs : List Char) : List Char :=
  ((cs.dropWhile isUnicodeWs).reverse.dropWhile isUnicodeWs).reverse

/-- `char::to_ascii_lowercase` (Rust std). -/
def toAsciiLower (c : Char) : Char :=
  if 65 ≤ c.toNat && c.toNat ≤ 90 then Char.ofNat (c.toNat + 32) else c

/-- `char::to_digit(16)` (Rust std). -/
def hexVal (c : Char) : Option Nat :=
  let n := c.toNat
  if 48 ≤ n && n ≤ 57 then some (n - 48)
  else if 65 ≤ n && n ≤ 70 then some (n - 55)
  else if 97 ≤ n && n ≤ 102 then some (n - 87)
  else none

/-- Elaboration-time helper (not part of the model): `c!"abc"` is the literal list `['a','b','c']`, which, unlike
`"abc".toList`, reduces in the kernel. -/
macro:max "c!" s:str : term => do
  let cs := s.getString.toList.map (fun c => Lean.Syntax.mkCharLit c)
  `([$(cs.toArray),*])

end Hdx

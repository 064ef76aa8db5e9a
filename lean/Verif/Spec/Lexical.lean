/-
Specification: the lexical grammar of CSS (https://drafts.csswg.org/css-syntax/#tokenization), written from the CSS Syntax
module and independent of the model. NUL stands for U+FFFD, as after the CSS input preprocessing.
-/

namespace Hdx.Spec

/-! ### Code point classes -/

def NUL : Char := '\x00'

/-- newline -/
def Newline (c : Char) : Prop := c = '\n' ∨ c = '\r' ∨ c = '\x0c'
/-- whitespace -/
def Ws (c : Char) : Prop := c = ' ' ∨ c = '\t' ∨ Newline c
def Digit (c : Char) : Prop := '0'.toNat ≤ c.toNat ∧ c.toNat ≤ '9'.toNat
def Lower (c : Char) : Prop := 'a'.toNat ≤ c.toNat ∧ c.toNat ≤ 'z'.toNat
def Upper (c : Char) : Prop := 'A'.toNat ≤ c.toNat ∧ c.toNat ≤ 'Z'.toNat
def Hex (c : Char) : Prop :=
  Digit c ∨ ('a'.toNat ≤ c.toNat ∧ c.toNat ≤ 'f'.toNat) ∨ ('A'.toNat ≤ c.toNat ∧ c.toNat ≤ 'F'.toNat)
/-- non-ASCII ident code point -/
def NonAsciiIdent (c : Char) : Prop :=
  c.toNat = 0xB7 ∨ (0xC0 ≤ c.toNat ∧ c.toNat ≤ 0xD6) ∨ (0xD8 ≤ c.toNat ∧ c.toNat ≤ 0xF6)
  ∨ (0xF8 ≤ c.toNat ∧ c.toNat ≤ 0x37D) ∨ (0x37F ≤ c.toNat ∧ c.toNat ≤ 0x1FFF)
  ∨ c.toNat = 0x200C ∨ c.toNat = 0x200D ∨ c.toNat = 0x203F ∨ c.toNat = 0x2040
  ∨ (0x2070 ≤ c.toNat ∧ c.toNat ≤ 0x218F) ∨ (0x2C00 ≤ c.toNat ∧ c.toNat ≤ 0x2FEF)
  ∨ (0x3001 ≤ c.toNat ∧ c.toNat ≤ 0xD7FF) ∨ (0xF900 ≤ c.toNat ∧ c.toNat ≤ 0xFDCF)
  ∨ (0xFDF0 ≤ c.toNat ∧ c.toNat ≤ 0xFFFD) ∨ 0x10000 ≤ c.toNat
/-- ident-start code point -/
def NameStart (c : Char) : Prop := Lower c ∨ Upper c ∨ c = '_' ∨ NonAsciiIdent c
/-- ident code point -/
def NameChar (c : Char) : Prop := NameStart c ∨ Digit c ∨ c = '-'
/-- non-printable code point -/
def NonPrintable (c : Char) : Prop :=
  c.toNat ≤ 8 ∨ c.toNat = 0xB ∨ (0xE ≤ c.toNat ∧ c.toNat ≤ 0x1F) ∨ c.toNat = 0x7F

/-- The next code point of `cs` exists and satisfies `P`. -/
def Starts (P : Char → Prop) (cs : List Char) : Prop := ∃ c r, cs = c :: r ∧ P c

/-! ### Escapes -/

/-- The whitespace that ends a hex escape, when `rest` follows: one whitespace code point, CRLF counting as one. -/
inductive EscWs : List Char → List Char → Prop
  | none {rest} : ¬ Starts Ws rest → EscWs [] rest
  | crlf {rest} : EscWs ['\r', '\n'] rest
  | one {c rest} : Ws c → ¬ (c = '\r' ∧ Starts (· = '\n') rest) → EscWs [c] rest

/-- `EscTail e rest`: when the input after a backslash is `e ++ rest`, the escaped code point takes exactly `e`
("consume an escaped code point"). -/
inductive EscTail : List Char → List Char → Prop
  | eof : EscTail [] []
  | plain {c rest} : ¬ Hex c → ¬ Newline c → EscTail [c] rest
  | hex {ds ws rest} : 1 ≤ ds.length → ds.length ≤ 6 → (∀ d ∈ ds, Hex d) → (ds.length = 6 ∨ ¬ Starts Hex (ws ++ rest)) →
      EscWs ws rest → EscTail (ds ++ ws) rest

/-- `cs` starts with a valid escape: a backslash not followed by a newline. -/
def StartsEscape (cs : List Char) : Prop := ∃ r, cs = '\\' :: r ∧ ¬ Starts Newline r

/-- No backslash in `cs` is directly followed by a non-ASCII character. -/
def EscAscii (cs : List Char) : Prop := ∀ pre c post, cs = pre ++ '\\' :: c :: post → c.toNat < 128

/-! ### Names (ident sequences) -/

/-- One element of a name. -/
inductive NameUnit where
  | chr (c : Char)
  | esc (tail : List Char)

def NameUnit.text : NameUnit → List Char
  | .chr c => [c]
  | .esc e => '\\' :: e

/-- The source text of a sequence of name elements. -/
def nameText (us : List NameUnit) : List Char := us.flatMap NameUnit.text

/-- The elements `us`, followed in the input by `rest`, are ident code points (or NUL) and valid escapes. -/
def ValidName : List NameUnit → List Char → Prop
  | [], _ => True
  | .chr c :: us, rest => (NameChar c ∨ c = NUL) ∧ ValidName us rest
  | .esc e :: us, rest => EscTail e (nameText us ++ rest) ∧ ValidName us rest

/-- Nothing in `rest` continues a name. -/
def NameEnds (rest : List Char) : Prop :=
  ¬ Starts (fun c => NameChar c ∨ c = NUL) rest ∧ ¬ StartsEscape rest

/-- `us` is the longest name at the start of `us ++ rest`. -/
def IsName (us : List NameUnit) (rest : List Char) : Prop := ValidName us rest ∧ NameEnds rest

/-- `cs` would start an ident sequence (NUL, which stands for U+FFFD, excepted). -/
def StartsName (cs : List Char) : Prop :=
  Starts NameStart cs ∨ StartsEscape cs
  ∨ ∃ r, cs = '-' :: r ∧ (Starts (fun c => c = '-' ∨ NameStart c) r ∨ StartsEscape r)

/-! ### Numbers -/

/-- `[+-]? (digits | digits? . digits) ([eE] [+-]? digits)?` -/
inductive IsSign : List Char → Prop
  | none : IsSign []
  | plus : IsSign ['+']
  | minus : IsSign ['-']

def Digits (ds : List Char) : Prop := ∀ d ∈ ds, Digit d

/-- The exponent part of a number, possibly absent. -/
inductive IsExp : List Char → Prop
  | none : IsExp []
  | some {e s ds} : e = 'e' ∨ e = 'E' → IsSign s → Digits ds → ds ≠ [] → IsExp (e :: (s ++ ds))

/-- The fraction part of a number, possibly absent. -/
inductive IsFrac : List Char → Prop
  | none : IsFrac []
  | some {ds} : Digits ds → ds ≠ [] → IsFrac ('.' :: ds)

/-- The parts of a number. -/
structure NumberParts (sign int frac exp : List Char) : Prop where
  isSign : IsSign sign
  isInt : Digits int
  isFrac : IsFrac frac
  isExp : IsExp exp
  nonempty : int ≠ [] ∨ frac ≠ []

def IsNumber (t : List Char) : Prop :=
  ∃ s i f e, NumberParts s i f e ∧ t = s ++ (i ++ (f ++ e))

/-- `cs` starts a number. -/
def StartsNumber (cs : List Char) : Prop := ∃ t, IsNumber t ∧ t <+: cs

/-- `t` is the longest number `cs` starts with. -/
def LongestNumber (cs t : List Char) : Prop :=
  IsNumber t ∧ t <+: cs ∧ ∀ t', IsNumber t' → t' <+: cs → t'.length ≤ t.length

end Hdx.Spec

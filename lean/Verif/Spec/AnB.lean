/-
Specification: An+B notation as in CSS Syntax Level 3, section 6.
-/
import Verif.Model.Nth

namespace Hdx.Spec

/-- A token as the An+B grammar sees it: numbers and dimensions that are written as integers, names in lower case. -/
inductive NthTok where
  | signed (v : Int)
  | signless (n : Nat)
  | dimension (v : Int) (unit : List Char)
  | ident (name : List Char)
  | delim (c : Char)

/-- The cursor is such a token; the numeric value is the one the token reports, truncated to 32 bits. -/
def Shows (src : List Char) (c : Cursor) : NthTok → Prop
  | .signed v => c.token.kind = .number ∧ c.token.isInt = true ∧ c.token.hasSign = true ∧ f32ToI32 c.token.value = v
  | .signless n => c.token.kind = .number ∧ c.token.isInt = true ∧ c.token.hasSign = false ∧ f32ToI32 c.token.value = (n : Int)
  | .dimension v unit => c.token.kind = .dimension ∧ c.token.isInt = true ∧ f32ToI32 c.token.value = v ∧ c.parseStrLower src = .ok unit
  | .ident name => c.token.kind = .ident ∧ c.parseStrLower src = .ok name
  | .delim ch => c.token.kind = .delim ∧ c.token.char = some ch

/-- Whitespace and comments at the front left out. -/
def skipWs (cs : List Cursor) : List Cursor := cs.dropWhile fun c => c.token.inSet KindSet.TRIVIA

/-- The digits of the grammar. -/
def NthDigits (ds : List Char) : Prop := ds ≠ [] ∧ ∀ c ∈ ds, 48 ≤ c.toNat ∧ c.toNat ≤ 57

/-- The number that digits stand for. -/
def digitsNumber : List Char → Nat
  | [] => 0
  | d :: ds => (d.toNat - 48) * 10 ^ ds.length + digitsNumber ds

/-- `<n-dimension>`, `n`, `+n` (not separated), `-n`, and their variants with a suffix (`n-`, `n-1`, ...): the tokens, the step A, the
suffix after the `n`, the tokens after it. `minus` tells whether it is the form with `-n`. -/
inductive Step (src : List Char) : List Cursor → Int → (minus : Bool) → List Char → List Cursor → Prop
  | dimension {c cs v s} : Shows src c (.dimension v ('n' :: s)) → Step src (c :: cs) v false s cs
  | n {c cs s} : Shows src c (.ident ('n' :: s)) → Step src (c :: cs) 1 false s cs
  | plus {c c' cs s} : Shows src c (.delim '+') → Shows src c' (.ident ('n' :: s)) → Step src (c :: c' :: cs) 1 false s cs
  | minus {c cs s} : Shows src c (.ident ('-' :: 'n' :: s)) → Step src (c :: cs) (-1) true s cs

/-- The grammar: `AnB src cs a b rest` says that the tokens `cs` start with an An+B for `a`, `b`, and `rest` is what is left. -/
inductive AnB (src : List Char) : List Cursor → Int → Int → List Cursor → Prop
  | odd {cs c rest} : skipWs cs = c :: rest → Shows src c (.ident c!"odd") → AnB src cs 2 1 rest
  | even {cs c rest} : skipWs cs = c :: rest → Shows src c (.ident c!"even") → AnB src cs 2 0 rest
  | signed {cs c rest v} : skipWs cs = c :: rest → Shows src c (.signed v) → AnB src cs 0 v rest
  | signless {cs c rest n} : skipWs cs = c :: rest → Shows src c (.signless n) → AnB src cs 0 (n : Int) rest
  | step {cs a m rest} : Step src (skipWs cs) a m [] rest → AnB src cs a 0 rest
  | digits {cs a m ds rest} : Step src (skipWs cs) a m ('-' :: ds) rest → NthDigits ds → AnB src cs a (-(digitsNumber ds)) rest
  | stepSigned {cs a m mid c v rest} : Step src (skipWs cs) a m [] mid → skipWs mid = c :: rest → Shows src c (.signed v) → AnB src cs a v rest
  | dash {cs a m mid c n rest} : Step src (skipWs cs) a m ['-'] mid → skipWs mid = c :: rest → Shows src c (.signless n) →
      AnB src cs a (-(n : Int)) rest
  | plus {cs a m mid d mid' c n rest} : Step src (skipWs cs) a m [] mid → skipWs mid = d :: mid' → Shows src d (.delim '+') →
      skipWs mid' = c :: rest → Shows src c (.signless n) → AnB src cs a (n : Int) rest
  | minus {cs a m mid d mid' c n rest} : Step src (skipWs cs) a m [] mid → skipWs mid = d :: mid' → Shows src d (.delim '-') →
      skipWs mid' = c :: rest → Shows src c (.signless n) → AnB src cs a (-(n : Int)) rest

/-- Texts that are accepted although the grammar has no reading for them, or another one:
a sign before a number that has its own; a suffix that is a number without `-`; a sign with no number; a number with no sign; a negative
number after the `n`. -/
inductive Malformed (src : List Char) : List Cursor → Int → Int → List Cursor → Prop
  | twoSigns {cs c c' mid rest a b} : skipWs cs = c :: c' :: mid → Shows src c (.delim '+') →
      (c'.token.kind = .dimension ∨ ∃ s, Shows src c' (.ident ('-' :: s))) → Malformed src cs a b rest
  | suffix {cs a m s b rest} : Step src (skipWs cs) a m s rest → (NthDigits s ∨ ∃ ds, s = '+' :: ds ∧ NthDigits ds) → Malformed src cs a b rest
  | noNumber {cs a m mid d rest} : Step src (skipWs cs) a m [] mid → skipWs mid = d :: rest → Shows src d (.delim '+') ∨ Shows src d (.delim '-') →
      Malformed src cs a 0 rest
  | dashNoNumber {cs a rest} : Step src (skipWs cs) a false ['-'] rest → Malformed src cs a 0 rest
  | noSign {cs a m mid c n rest} : Step src (skipWs cs) a m [] mid → skipWs mid = c :: rest → Shows src c (.signless n) → Malformed src cs a (n : Int) rest
  | negative {cs a m mid c v b rest} : Step src (skipWs cs) a m [] mid → skipWs mid = c :: rest → Shows src c (.signed v) → v < 0 →
      Malformed src cs a b rest

/-- A name that the lower-casing leaves with a capital (it happens with escapes: property C24). -/
def HasCapital (src : List Char) (cs : List Cursor) : Prop := ∃ c ∈ cs, ∃ name, c.parseStrLower src = .ok name ∧ 'N' ∈ name

/-- What a parsed An+B selects: the A and the B. -/
def nthMeaning : Nth → Int × Int
  | .odd _ => (2, 1)
  | .even _ => (2, 0)
  | .integer c => (0, f32ToI32 c.token.value)
  | .anb a b _ => (a, b)

end Hdx.Spec

/-
Specification: strings, urls, comments and whitespace (https://drafts.csswg.org/css-syntax/#tokenization), written from the
CSS Syntax module and independent of the model.
-/
import Verif.Spec.Lexical

namespace Hdx.Spec

/-! ### Strings -/

/-- One element of a string: a character, an escape, or an escaped newline (a line continuation). -/
inductive StrUnit where
  | chr (c : Char)
  | esc (tail : List Char)
  | cont (newline : List Char)

def StrUnit.text : StrUnit → List Char
  | .chr c => [c]
  | .esc e => '\\' :: e
  | .cont n => '\\' :: n

def strText (us : List StrUnit) : List Char := us.flatMap StrUnit.text

/-- `n` is the newline at the start of `n ++ rest`, CRLF counting as one. -/
inductive OneNewline : List Char → List Char → Prop
  | crlf {rest} : OneNewline ['\r', '\n'] rest
  | one {c rest} : Newline c → ¬ (c = '\r' ∧ Starts (· = '\n') rest) → OneNewline [c] rest

/-- `us`, followed by `rest`, is string content between `q` quotes: no unescaped `q`, no unescaped newline, every backslash
belongs to an escape (a backslash at the very end of the input counts as an escape) or to a line continuation. -/
def ValidStr (q : Char) : List StrUnit → List Char → Prop
  | [], _ => True
  | .chr c :: us, rest => c ≠ q ∧ ¬ Newline c ∧ c ≠ '\\' ∧ ValidStr q us rest
  | .esc e :: us, rest => EscTail e (strText us ++ rest) ∧ ValidStr q us rest
  | .cont n :: us, rest => OneNewline n (strText us ++ rest) ∧ ValidStr q us rest

/-- String content stops: at the closing quote, at an unescaped newline, or at the end of input. -/
def StrStops (q : Char) (rest : List Char) : Prop := rest = [] ∨ Starts (· = q) rest ∨ Starts Newline rest

/-- Does the content contain a backslash or NUL? -/
def StrHasEsc (us : List StrUnit) : Prop := (∃ u ∈ us, ∀ c, u ≠ .chr c) ∨ .chr NUL ∈ us

/-- No backslash is directly followed by NUL. -/
def NoEscNul (cs : List Char) : Prop := ∀ pre post, cs ≠ pre ++ '\\' :: NUL :: post

/-! ### Unquoted urls -/

/-- Characters an unquoted url value may contain unescaped. -/
def UrlChar (c : Char) : Prop :=
  ¬ Ws c ∧ c ≠ '"' ∧ c ≠ '\'' ∧ c ≠ '(' ∧ c ≠ ')' ∧ c ≠ '\\' ∧ ¬ NonPrintable c

/-- `us`, followed by `rest`, is an unquoted url value. -/
def ValidUrl : List NameUnit → List Char → Prop
  | [], _ => True
  | .chr c :: us, rest => UrlChar c ∧ ValidUrl us rest
  | .esc e :: us, rest => EscTail e (nameText us ++ rest) ∧ ValidUrl us rest

/-- What is skipped in a bad url: anything up to the first `)` that is not escaped. -/
def ValidRemnant : List NameUnit → List Char → Prop
  | [], _ => True
  | .chr c :: us, rest => c ≠ ')' ∧ ¬ StartsEscape (c :: (nameText us ++ rest)) ∧ ValidRemnant us rest
  | .esc e :: us, rest => EscTail e (nameText us ++ rest) ∧ ValidRemnant us rest

/-- After the url value and the whitespace `ws`, `rest` neither closes the url nor ends the input, and makes it a bad url. -/
def UrlSpoilt (ws rest : List Char) : Prop :=
  rest ≠ [] ∧ ¬ Starts (· = ')') rest ∧ ¬ Starts Ws rest
  ∧ (ws = [] → ¬ Starts UrlChar rest ∧ ¬ StartsEscape rest)

/-! ### Comments and whitespace -/

/-- `*/` occurs first right after `body`. -/
def FirstClose (body rest : List Char) : Prop :=
  ∀ a b, body ++ ['*', '/'] ++ rest = a ++ ['*', '/'] ++ b → body.length ≤ a.length

/-- `*/` does not occur. -/
def NoClose (cs : List Char) : Prop := ∀ a b, cs ≠ a ++ ['*', '/'] ++ b

/-- `ws` is the longest run of characters of class `P` at the start of `ws ++ rest`. -/
def MaximalRun (P : Char → Prop) (ws rest : List Char) : Prop := ws ≠ [] ∧ (∀ c ∈ ws, P c) ∧ ¬ Starts P rest

end Hdx.Spec

/-
Specification for C28: the first token of a text, and the pairs of texts that merge although `needs_separator_for` does not ask for a separator.
-/
import Verif.Spec.Serialize
import Verif.Spec.Text
import Verif.Props.Stream

namespace Hdx.Spec

/-- Lexing `cs` from its start gives `t` first. -/
def FirstToken (f : Features) (cs : List Char) (t : Token) : Prop := (Lexer.newWithFeatures cs f).Yields t

/-- `x` ends in a hex escape that whitespace would extend. -/
def EndsInHexEscape (x : List Char) : Prop :=
  ∃ w ds ws, x = w ++ '\\' :: (ds ++ ws) ∧ 1 ≤ ds.length ∧ ds.length ≤ 6 ∧ (∀ d ∈ ds, Hex d) ∧ (ws = [] ∨ ws = ['\r'])

/-- `x` is a number and a unit `e`. -/
def EndsInExponentLetter (x : List Char) : Prop := ∃ num c, IsNumber num ∧ x = num ++ [c] ∧ (c = 'e' ∨ c = 'E')

/-- Known exceptions. `x` is the text of the token `a`, which was lexed with `z` after it; `v` is the text that is now to follow, and `b` its first
token. -/
inductive Merges (f : Features) (a : Token) (x z : List Char) (b : Token) (v : List Char) : Prop
  /-- a name and `-` -/
  | hyphen : NameRow (classOf a) → classOf b = .chr '-' → Merges f a x z b v
  /-- a name and a number like `-0` -/
  | minusZero : NameRow (classOf a) → Starts (· = '-') v → SignedNotNegative b → Merges f a x z b v
  /-- a name that ends in a hex escape and whitespace -/
  | hexSpace : NameRow (classOf a) → EndsInHexEscape x → Starts Ws v → Merges f a x z b v
  /-- a name that ends in the backslash at the end of its source -/
  | endEscape : NameRow (classOf a) → z = [] → (∃ w, x = w ++ ['\\']) → Merges f a x z b v
  /-- `--` and `>` -/
  | arrow : x = ['-', '-'] → Starts (· = '>') v → Merges f a x z b v
  /-- `1e` and `+3` -/
  | exponent : EndsInExponentLetter x → Starts (· = '+') v → Merges f a x z b v
  /-- a string without its closing quote -/
  | openString : a.kind = .string → a.hasCloseQuote = false → Merges f a x z b v
  /-- a string ended by a newline -/
  | badString : a.kind = .badString → Merges f a x z b v
  /-- a url without its closing parenthesis -/
  | openUrl : a.kind = .url → a.urlHasClosingParen = false → Merges f a x z b v
  /-- a bad url at the end of its source -/
  | openBadUrl : a.kind = .badUrl → z = [] → Merges f a x z b v
  /-- `url(` (or what the lexer takes for it), lexed as a function because a string followed, and anything but a string -/
  | urlFunction : a.kind = .function → (∃ t, FirstToken f (x ++ [')']) t ∧ t.kind = .url) → b.kind ≠ .string → b.kind ≠ .badString →
      Merges f a x z b v
  /-- a comment without its end -/
  | openComment : (∃ body, x = '/' :: '*' :: body ∧ NoClose body) → Merges f a x z b v
  /-- a `//` comment and anything but a newline (or NUL) -/
  | lineComment : f.singleLineComments = true → ['/', '/'] <+: x → v ≠ [] → ¬ Starts (fun c => Newline c ∨ c = NUL) v → Merges f a x z b v
  /-- whitespace and whitespace -/
  | whitespace : a.kind = .whitespace → b.kind = .whitespace → Merges f a x z b v
  /-- `/` and a comment, with single-line comments -/
  | slashes : f.singleLineComments = true → x = ['/'] → b.kind = .comment → Merges f a x z b v
  /-- `<` and `!--` -/
  | cdo : x = ['<'] → ['!', '-', '-'] <+: v → Merges f a x z b v
  /-- `\` (lexed as a token of its own because a newline followed) and anything but a newline -/
  | backslash : x = ['\\'] → ¬ Starts Newline v → Merges f a x z b v

/-! ### Whole texts -/

/-- A token, the text it came from, and the text that followed it there. -/
structure Piece where
  token : Token
  text : List Char
  after : List Char

/-- The piece does come from lexing its text, in front of what followed it. -/
structure Piece.Lexed (f : Features) (p : Piece) : Prop where
  nonempty : p.text ≠ []
  first : FirstToken f (p.text ++ p.after) p.token
  len : p.token.len.toNat = byteLen p.text
  tame : Tame f (p.text ++ p.after)

/-- The texts of the pieces, with a space where `needs` asks for one. -/
def Piece.join (needs : Token → Token → Bool) : List Piece → List Char
  | [] => []
  | [p] => p.text
  | p :: q :: ps => p.text ++ (if needs p.token q.token then [' '] else []) ++ join needs (q :: ps)

/-- The tokens of the pieces, with a whitespace token (one space) where `needs` asks for one, and the end. -/
def Piece.tokens (needs : Token → Token → Bool) : List Piece → List Token
  | [] => [Token.EOF]
  | [p] => [p.token, Token.EOF]
  | p :: q :: ps => p.token :: ((if needs p.token q.token then [Token.newWhitespace .space 1#32] else []) ++ tokens needs (q :: ps))

/-- No piece meets one of the known exceptions with what follows it in the joined text, unless what follows is what followed before. -/
def Piece.Apart (f : Features) (needs : Token → Token → Bool) : List Piece → Prop
  | [] => True
  | [p] => p.after = [] ∨ ¬ Merges f p.token p.text p.after Token.EOF []
  | p :: q :: ps =>
    (if needs p.token q.token then
        p.after = ' ' :: join needs (q :: ps) ∨ ¬ Merges f p.token p.text p.after (Token.newWhitespace .space 1#32) (' ' :: join needs (q :: ps))
      else p.after = join needs (q :: ps) ∨ ¬ Merges f p.token p.text p.after q.token (join needs (q :: ps))) ∧ Apart f needs (q :: ps)

/-- The lexer, called again and again, returns these tokens, the last of which is the end. -/
inductive Returns : Lexer → List Token → Prop
  | eof {l l' : Lexer} : l.advance = .ok (Token.EOF, l') → Returns l [Token.EOF]
  | cons {l l' : Lexer} {t : Token} {ts : List Token} : l.advance = .ok (t, l') → t.kind ≠ .eof → Returns l' ts → Returns l (t :: ts)

end Hdx.Spec

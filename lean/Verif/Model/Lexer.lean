/-
Model of css_lexer/src/private.rs (the scanner), css_lexer/src/constants.rs and css_lexer/src/lib.rs (`Lexer`).

A `Chars` iterator is the list of the characters still to come; each `&mut self` method returns the list left over. The
`u32` length counters are naturals, reduced modulo 2^32 when packed into a token.
-/
import Verif.Model.Token
import Verif.Model.UnitTrie
import Verif.Model.F32

namespace Hdx

/-- A length counter stored in a `u32`. -/
def w32 (n : Nat) : BitVec 32 := BitVec.ofNat 32 n

/-- css_lexer/src/private.rs:73-81 `consume_newline`. -/
def consumeNewline : List Char → Nat × List Char
  | [] => (1, [])
  | c :: cs =>
    if c == CRc then
      match cs with
      | d :: ds => if d == LFc then (2, ds) else (1, cs)
      | [] => (1, [])
    else (1, cs)

/-- css_lexer/src/private.rs:84-91 `consume_same` (called with TAB and SPACE only, never with NUL). -/
def consumeSame (ch : Char) : List Char → Nat × List Char
  | [] => (0, [])
  | c :: cs => if c == ch then let (n, r) := consumeSame ch cs; (n + 1, r) else (0, c :: cs)

/-- css_lexer/src/private.rs:1073-1082: the LF | CR | FF loop. -/
def consumeNewlines : List Char → Nat × List Char
  | [] => (0, [])
  | c :: cs => if c == LFc || c == CRc || c == FFc then let (n, r) := consumeNewlines cs; (n + 1, r) else (0, c :: cs)

/-- css_lexer/src/private.rs:99-105: the style flag of one whitespace character. -/
def wsFlag (c : Char) : Whitespace :=
  if c == ' ' then .space else if c == '\t' then .tab else .newline

/-- css_lexer/src/private.rs:94-109 `consume_whitespace`: length, accumulated style (starting from `st`), rest. -/
def consumeWhitespace (st : Whitespace) : List Char → Nat × Whitespace × List Char
  | [] => (0, st, [])
  | c :: cs =>
    if isWhitespace c then
      let (n, s, r) := consumeWhitespace (st.or (wsFlag c)) cs
      (n + 1, s, r)
    else (0, st, c :: cs)

/-- css_lexer/src/private.rs:682-692: up to `fuel` further hex digits. -/
def consumeHex : Nat → List Char → Nat × List Char
  | 0, cs => (0, cs)
  | _ + 1, [] => (0, [])
  | fuel + 1, c :: cs => if isHexDigit c then let (n, r) := consumeHex fuel cs; (n + 1, r) else (0, c :: cs)

/-- css_lexer/src/private.rs:693-704: the single whitespace (CRLF counting as one) after a hex escape. -/
def consumeEscWs : List Char → Nat × List Char
  | [] => (0, [])
  | c :: cs =>
    if isWhitespace c then
      if c == '\r' then
        match cs with
        | d :: ds => if d == '\n' then (2, ds) else (1, cs)
        | [] => (1, [])
      else (1, cs)
    else (0, c :: cs)

/-- css_lexer/src/private.rs:677-708 `consume_escape_sequence`, called after the backslash has been consumed; the length
includes the backslash. A non-ASCII escaped character counts as one byte, as in the code. -/
def consumeEscape : List Char → Nat × List Char
  | [] => (1, [])
  | c :: cs =>
    if isHexDigit c then
      let (n, r) := consumeHex 5 cs
      let (m, r) := consumeEscWs r
      (2 + n + m, r)
    else (2, cs)

theorem consumeHex_length (fuel : Nat) (cs : List Char) : (consumeHex fuel cs).2.length ≤ cs.length := by
  fun_induction consumeHex fuel cs <;> grind

theorem consumeEscWs_length (cs : List Char) : (consumeEscWs cs).2.length ≤ cs.length := by
  fun_cases consumeEscWs cs <;> grind

theorem consumeEscape_length (cs : List Char) : (consumeEscape cs).2.length ≤ cs.length := by
  fun_cases consumeEscape cs <;> grind [consumeHex_length, consumeEscWs_length]

/-- The locals of `consume_ident_sequence` (css_lexer/src/private.rs:113-116). -/
structure IdentState where
  len : Nat := 0
  nonLower : Bool := false
  dashed : Bool := false
  esc : Bool := false
  deriving DecidableEq, Repr

/-- css_lexer/src/private.rs:117-145: the loop of `consume_ident_sequence`. -/
def identLoop (s : IdentState) : List Char → IdentState × List Char
  | [] => (s, [])
  | c :: cs =>
    if s.len == 0 && c == '-' then
      match cs with
      | d :: ds =>
        if d == '-' then identLoop { s with len := s.len + 2, dashed := true } ds
        else identLoop { s with len := s.len + 1 } (d :: ds)
      | [] => identLoop { s with len := s.len + 1 } []
    else if isIdentAsciiLower c || c == '-' || isDigit c then
      identLoop { s with len := s.len + 1 } cs
    else if isIdent c then
      identLoop { s with len := s.len + c.utf8Size, nonLower := true } cs
    else if isEscapeSequence c (peekNth cs 0) then
      identLoop { s with esc := true, len := s.len + (consumeEscape cs).1 } (consumeEscape cs).2
    else if c == EOFc then
      identLoop { s with esc := true, len := s.len + 1 } cs
    else (s, c :: cs)
  termination_by cs => cs.length
  decreasing_by all_goals grind [consumeEscape_length]

/-- css_lexer/src/private.rs:112-147 `consume_ident_sequence`. -/
def consumeIdentSeq (cs : List Char) : IdentState × List Char := identLoop {} cs

/-- css_lexer/src/private.rs:150-674 `consume_ident_sequence_finding_known_dimension`: unit, length, rest. -/
def consumeUnit (cs : List Char) : DimensionUnit × Nat × List Char :=
  let (p, u, r) := unitWalk [] .unknown cs
  let (s, r) := consumeIdentSeq r
  if s.len > 0 then (.unknown, p.length + s.len, r) else (u, p.length, r)

/-- css_lexer/src/private.rs:787-808 `consume_remnants_of_bad_url`: total length and rest, given the length so far. -/
def badUrlRemnants (len : Nat) : List Char → Nat × List Char
  | [] => (len, [])
  | c :: cs =>
    if c == ')' then (len + 1, cs)
    else if c == '\\' then
      if isEscapeSequence c (peekNth cs 0) then
        badUrlRemnants (len + (consumeEscape cs).1) (consumeEscape cs).2
      else
        match cs with
        | d :: ds => badUrlRemnants (len + (d.utf8Size + 1)) ds
        | [] => badUrlRemnants len []
    else badUrlRemnants (len + c.utf8Size) cs
  termination_by cs => cs.length
  decreasing_by all_goals grind [consumeEscape_length]

/-- The outcome of the loop of `consume_url_sequence`: either the final
`(ends_with_paren, contains_escape, trailing_len, len)` or a jump to `consume_remnants_of_bad_url(len)`. -/
inductive UrlEnd where
  | url (endsWithParen esc : Bool) (trailing len : Nat)
  | bad (len : Nat)
  deriving DecidableEq, Repr

/-- css_lexer/src/private.rs:720-775: the loop of `consume_url_sequence`. -/
def urlLoop (esc : Bool) (len : Nat) : List Char → UrlEnd × List Char
  | [] => (.url false esc 0 len, [])
  | c :: cs =>
    if c == ')' then (.url true esc 1 (len + 1), cs)
    else if c == EOFc then (.url false esc 0 len, c :: cs)
    else if isWhitespace c then
      let (n, _, r) := consumeWhitespace .none (c :: cs)
      match r with
      | [] => (.url false true n (len + n), [])
      | d :: ds =>
        if d == ')' then (.url true true (n + 1) (len + n + 1), ds)
        else if d == EOFc then (.url false true n (len + n), d :: ds)
        else (.bad (len + n), d :: ds)
    else if c == '\'' || c == '"' || c == '(' then (.bad len, c :: cs)
    else if isNonPrintable c then (.bad len, c :: cs)
    else if c == '\\' then
      if isEscapeSequence c (peekNth cs 0) then
        urlLoop true (len + (consumeEscape cs).1) (consumeEscape cs).2
      else (.bad len, c :: cs)
    else urlLoop esc (len + c.utf8Size) cs
  termination_by cs => cs.length
  decreasing_by all_goals grind [consumeEscape_length]

/-- css_lexer/src/private.rs:711-784 `consume_url_sequence`. -/
def consumeUrl (leading : Nat) (identEscaped : Bool) (cs : List Char) : Token × List Char :=
  let (ws, _, r) := consumeWhitespace .none cs
  match urlLoop identEscaped (leading + ws) r with
  | (.url paren esc trailing len, r) =>
    (Token.newUrl paren (ws > 0) esc (w32 (leading + ws)) (w32 trailing) (w32 len), r)
  | (.bad len, r) =>
    let (len, r) := badUrlRemnants len r
    (Token.newBadUrl (w32 len), r)

/-- css_lexer/src/private.rs:817-820 and its copies: `while peek.is_ascii_digit()`. -/
def consumeDigits : List Char → Nat × List Char
  | [] => (0, [])
  | c :: cs => if isDigit c then let (n, r) := consumeDigits cs; (n + 1, r) else (0, c :: cs)

/-- css_lexer/src/private.rs:821-829: the fraction part, `(length, rest)`; length 0 when there is none. -/
def consumeFraction (cs : List Char) : Nat × List Char :=
  if peekNth cs 0 == '.' && isDigit (peekNth cs 1) then
    let (n, r) := consumeDigits cs.tail
    (n + 1, r)
  else (0, cs)

/-- css_lexer/src/private.rs:830-846: the exponent part, `(length, rest)`; length 0 when there is none. -/
def consumeExponent (cs : List Char) : Nat × List Char :=
  let c := peekNth cs 0
  let c1 := peekNth cs 1
  if (c == 'e' || c == 'E') && (isDigit c1 || ((c1 == '-' || c1 == '+') && isDigit (peekNth cs 2))) then
    if c1 == '-' || c1 == '+' then
      let (n, r) := consumeDigits cs.tail.tail
      (n + 2, r)
    else
      let (n, r) := consumeDigits cs.tail
      (n + 1, r)
  else (0, cs)

/-- css_lexer/src/private.rs:811-847: the numeric prefix: length, `is_float`, `has_sign`, rest. The `unwrap` of the first
character cannot fail at the call sites (they have peeked at it). -/
def consumeNumber : List Char → Nat × Bool × Bool × List Char
  | [] => (0, false, false, [])
  | c :: cs =>
    let dot := c == '.'
    let (n, r) := consumeDigits cs
    let (f, r) := if dot then (0, r) else consumeFraction r
    let (e, r) := consumeExponent r
    (1 + n + f + e, dot || f > 0 || e > 0, isSign c, r)

/-- css_lexer/src/private.rs:811-860 `consume_numeric_token`. -/
def consumeNumeric (cs : List Char) : Token × List Char :=
  let (n, isFloat, hasSign, r) := consumeNumber cs
  let value := F32.parse (cs.take n)
  if peekNth r 0 == '%' then
    (Token.newDimension isFloat hasSign (w32 n) 1#32 value .percent, r.tail)
  else if isIdentStartSequence (peekNth r 0) (peekNth r 1) (peekNth r 2) then
    let (u, len, r) := consumeUnit r
    (Token.newDimension isFloat hasSign (w32 n) (w32 len) value u, r)
  else (Token.newNumber isFloat hasSign (w32 n) value, r)

/-- css_lexer/src/private.rs:863-868 `consume_hash_token`. -/
def consumeHash (cs : List Char) : Token × List Char :=
  let r := cs.tail
  let first := isIdent (peekNth r 0)
  let (s, r) := consumeIdentSeq r
  (Token.newHash s.nonLower first s.esc (w32 (s.len + 1)), r)

/-- The locals of `consume_ident_sequence_finding_url_keyword` (css_lexer/src/private.rs:872-877). -/
structure UrlState where
  len : Nat := 0
  nonLower : Bool := false
  dashed : Bool := false
  esc : Bool := false
  urlLike : Bool := true
  i : Nat := 0
  deriving DecidableEq, Repr

/-- css_lexer/src/private.rs:911-916: does the text of an escape fit the `i`-th letter of `url`? -/
def urlEscapeFits (i : Nat) (str : List Char) : Bool :=
  !((i == 0 && !(str == ['\\', '7', '5'] || str == ['\\', '5', '5']))
    || (i == 1 && !(str == ['\\', '7', '2'] || str == ['\\', '5', '2']))
    || (i == 2 && !(str == ['\\', '6', 'c'] || str == ['\\', '4', 'c'])))

/-- css_lexer/src/private.rs:878-932: the loop of `consume_ident_sequence_finding_url_keyword`. The slice
`char_inspect.as_str()[0..esc_len]` (private.rs:910) panics when `esc_len` is off a character boundary. -/
def urlKeywordLoop (s : UrlState) : List Char → Except Panic (UrlState × List Char)
  | [] => .ok (s, [])
  | c :: cs =>
    if s.i == 0 && c == '-' then
      match cs with
      | d :: ds =>
        if d == '-' then urlKeywordLoop { s with i := s.i + 2, len := s.len + 2, dashed := true } ds
        else urlKeywordLoop { s with i := s.i + 1, len := s.len + 1 } (d :: ds)
      | [] => urlKeywordLoop { s with i := s.i + 1, len := s.len + 1 } []
    else if isIdentAsciiLower c then
      urlKeywordLoop
        { s with
          urlLike := s.urlLike && !((s.i == 0 && c != 'u') || (s.i == 1 && c != 'r') || (s.i == 2 && c != 'l'))
          len := s.len + 1, i := s.i + 1 } cs
    else if isIdent c then
      urlKeywordLoop
        { s with
          urlLike := s.urlLike && !((s.i == 0 && c != 'U') || (s.i == 1 && c != 'R') || (s.i == 2 && c != 'L'))
          len := s.len + c.utf8Size, i := s.i + 1, nonLower := true } cs
    else if s.urlLike && isEscapeSequence c (peekNth cs 0) then
      match takeBytes (c :: cs) (consumeEscape cs).1 with
      | none => .error .slice
      | some str =>
        urlKeywordLoop
          { s with esc := true, len := s.len + (consumeEscape cs).1, urlLike := urlEscapeFits s.i (trim str), i := s.i + 1 }
          (consumeEscape cs).2
    else if isEscapeSequence c (peekNth cs 0) then
      urlKeywordLoop { s with esc := true, len := s.len + (consumeEscape cs).1, i := s.i + 1 } (consumeEscape cs).2
    else if c == EOFc then
      urlKeywordLoop { s with esc := true, len := s.len + 1, urlLike := false } cs
    else .ok (s, c :: cs)
  termination_by cs => cs.length
  decreasing_by all_goals grind [consumeEscape_length]

/-- css_lexer/src/private.rs:945-951: the character found after skipping at most `n` whitespace characters. -/
def peekPastWs : Nat → List Char → Char
  | 0, cs => peekNth cs 0
  | n + 1, cs => if isWhitespace (peekNth cs 0) then peekPastWs n cs.tail else peekNth cs 0

/-- css_lexer/src/private.rs:937-959 `consume_ident_like_token`. -/
def consumeIdentLike (cs : List Char) : Except Panic (Token × List Char) := do
  let (s, r) ← urlKeywordLoop {} cs
  if peekNth r 0 == '(' then
    let r := r.tail
    let len := s.len + 1
    if s.urlLike && !isQuote (peekPastWs 4 r) then
      return consumeUrl len s.esc r
    else
      return (Token.newFunction s.nonLower s.dashed s.esc (w32 len), r)
  else
    return (Token.newIdent s.nonLower s.dashed s.esc (w32 s.len), r)

/-- The outcome of the loop of `consume_string_token`. -/
inductive StrEnd where
  | str (hasClose esc : Bool) (len : Nat)
  | bad (len : Nat)
  deriving DecidableEq, Repr

theorem consumeNewline_length (cs : List Char) : (consumeNewline cs).2.length ≤ cs.length := by
  fun_cases consumeNewline cs <;> grind

/-- css_lexer/src/private.rs:967-1010: the loop of `consume_string_token`. (The last arm of the inner match,
`_ => new_bad_string`, is unreachable: a backslash not followed by a newline is an escape.) -/
def stringLoop (delim : Char) (esc : Bool) (len : Nat) : List Char → StrEnd × List Char
  | [] => (.str false esc len, [])
  | c :: cs =>
    if isNewline c then (.bad len, c :: cs)
    else if c == EOFc then stringLoop delim true (len + 1) cs
    else if c == '"' || c == '\'' then
      if c == delim then (.str true esc (len + 1), cs) else stringLoop delim esc (len + 1) cs
    else if c == '\\' then
      if peekNth cs 0 == EOFc then (.str false true (len + 1), cs)
      else if isNewline (peekNth cs 0) then
        stringLoop delim true (len + ((consumeNewline cs).1 + 1)) (consumeNewline cs).2
      else if isEscapeSequence c (peekNth cs 0) then
        stringLoop delim true (len + (consumeEscape cs).1) (consumeEscape cs).2
      else (.bad len, cs)
    else stringLoop delim esc (len + c.utf8Size) cs
  termination_by cs => cs.length
  decreasing_by all_goals grind [consumeEscape_length, consumeNewline_length]

/-- css_lexer/src/private.rs:962-1011 `consume_string_token`. -/
def consumeString : List Char → Token × List Char
  | [] => (Token.EOF, [])
  | delim :: cs =>
    let quotes : QuoteStyle := if delim == '"' then .double else .single
    match stringLoop delim false 1 cs with
    | (.str hasClose esc len, r) => (Token.newString quotes hasClose esc (w32 len), r)
    | (.bad len, r) => (Token.newBadString (w32 len), r)

/-- css_lexer/src/private.rs:1014-1019 `is_number_start`. -/
def isNumberStart (cs : List Char) : Bool :=
  isDigit (peekNth cs 0)
    || (isSign (peekNth cs 0) && (isDigit (peekNth cs 1) || (peekNth cs 1 == '.' && isDigit (peekNth cs 2))))
    || (peekNth cs 0 == '.' && isDigit (peekNth cs 1))

/-- css_lexer/src/private.rs:1163-1170: the body of a block comment: length and rest. -/
def blockCommentLoop (len : Nat) : List Char → Nat × List Char
  | [] => (len, [])
  | c :: cs =>
    if c == '*' then
      match cs with
      | d :: ds => if d == '/' then (len + c.utf8Size + 1, ds) else blockCommentLoop (len + c.utf8Size) (d :: ds)
      | [] => (len + c.utf8Size, [])
    else blockCommentLoop (len + c.utf8Size) cs

/-- css_lexer/src/private.rs:1156-1162: the style of a block comment, from the characters after `/*`. -/
def blockCommentStyle (cs : List Char) : CommentStyle :=
  let c := peekNth cs 0
  if c == '*' && peekNth cs 1 != '/' then .blockStar
  else if c == '#' then .blockPound
  else if c == '!' then .blockBang
  else if c == '-' || c == '=' then .blockHeading
  else .block

/-- css_lexer/src/private.rs:1182-1185: the body of a single-line comment; every character counts as one byte. -/
def lineCommentLoop (len : Nat) : List Char → Nat × List Char
  | [] => (len, [])
  | c :: cs => if c == LFc || c == CRc || c == FFc || c == EOFc then (len, c :: cs) else lineCommentLoop (len + 1) cs

/-- css_lexer/src/private.rs:1177-1181: the style of a single-line comment. -/
def lineCommentStyle (cs : List Char) : CommentStyle :=
  let c := peekNth cs 0
  if c == '*' then .singleStar else if c == '!' then .singleBang else .single

/-- css_lexer/src/constants.rs:4-133 `SINGLE_CHAR_TOKENS`; `EOF` stands for "does not map". -/
def singleCharToken (n : Nat) : Token :=
  match n with
  | 33 => Token.BANG | 36 => Token.DOLLAR | 37 => Token.PERCENT | 38 => Token.AMPERSAND
  | 40 => Token.LEFT_PAREN | 41 => Token.RIGHT_PAREN | 42 => Token.ASTERISK | 44 => Token.COMMA
  | 58 => Token.COLON | 59 => Token.SEMICOLON | 61 => Token.EQUALS | 62 => Token.GREATER_THAN | 63 => Token.QUESTION
  | 91 => Token.LEFT_SQUARE | 93 => Token.RIGHT_SQUARE | 94 => Token.CARET | 96 => Token.BACKTICK
  | 123 => Token.LEFT_CURLY | 124 => Token.PIPE | 125 => Token.RIGHT_CURLY | 126 => Token.TILDE
  | _ => Token.EOF

/-- css_lexer/src/feature.rs:15-158 `Feature`, as its two flags. -/
structure Features where
  singleLineComments : Bool := false
  separateWhitespace : Bool := false
  deriving DecidableEq, Repr

/-- css_lexer/src/private.rs:1029-1198: the body of `read_next_token` once the remaining text `cs` is known. The second
component is the iterator after the token; the Rust function drops it (and does not advance it in the single-character fast
path, where it is written here as advanced by that character). -/
def scanToken (f : Features) (cs : List Char) : Except Panic (Token × List Char) :=
  let c := peekNth cs 0
  if c.toNat < 128 && singleCharToken c.toNat != Token.EOF then .ok (singleCharToken c.toNat, cs.tail)
  else if c.toNat < 128 && isIdentAsciiStart c then consumeIdentLike cs
  else if c == EOFc then
    if !cs.isEmpty && isIdentStartSequence REPL (peekNth cs 1) (peekNth cs 2) then consumeIdentLike cs
    else if !cs.isEmpty then .ok (Token.newDelim REPL, cs.tail)
    else .ok (Token.EOF, cs)
  else if isWhitespace c && !f.separateWhitespace then
    let (len, style, r) := consumeWhitespace .none cs
    .ok (Token.newWhitespace style (w32 len), r)
  else if c == TABc then
    let (len, r) := consumeSame TABc cs
    .ok (Token.newWhitespace .tab (w32 len), r)
  else if c == SPACEc then
    let (len, r) := consumeSame SPACEc cs
    .ok (Token.newWhitespace .space (w32 len), r)
  else if c == LFc || c == CRc || c == FFc then
    let (len, r) := consumeNewlines cs
    .ok (Token.newWhitespace .newline (w32 len), r)
  else if isQuote c then .ok (consumeString cs)
  else if isDigit c then .ok (consumeNumeric cs)
  else if c == '-' then
    if peekNth cs 1 == '-' && peekNth cs 2 == '>' then .ok (Token.CDC, cs.tail.tail.tail)
    else if isIdentStartSequence c (peekNth cs 1) (peekNth cs 2) then consumeIdentLike cs
    else if isNumberStart cs then .ok (consumeNumeric cs)
    else .ok (Token.DASH, cs.tail)
  else if c == '.' || c == '+' then
    if isNumberStart cs then .ok (consumeNumeric cs) else .ok (Token.newDelim c, cs.tail)
  else if c == '<' then
    if peekNth cs 1 == '!' && peekNth cs 2 == '-' && peekNth cs 3 == '-' then
      .ok (Token.CDO, cs.tail.tail.tail.tail)
    else .ok (Token.LESS_THAN, cs.tail)
  else if c == '#' then
    if isIdent (peekNth cs 1) || isEscapeSequence (peekNth cs 1) (peekNth cs 2) then .ok (consumeHash cs)
    else .ok (Token.HASH, cs.tail)
  else if c == '@' then
    let r := cs.tail
    if isIdentStartSequence (peekNth r 0) (peekNth r 1) (peekNth r 2) then
      let (s, r) := consumeIdentSeq r
      .ok (Token.newAtKeyword s.nonLower s.dashed s.esc (w32 (s.len + 1)), r)
    else .ok (Token.AT, r)
  else if c == '\\' then
    if isEscapeSequence c (peekNth cs 1) then consumeIdentLike cs else .ok (Token.BACKSLASH, cs.tail)
  else if c == '/' then
    if peekNth cs 1 == '*' then
      let body := cs.tail.tail
      let (len, r) := blockCommentLoop 2 body
      .ok (Token.newComment (blockCommentStyle body) (w32 len), r)
    else if peekNth cs 1 == '/' && f.singleLineComments then
      let body := cs.tail.tail
      let (len, r) := lineCommentLoop 2 body
      .ok (Token.newComment (lineCommentStyle body) (w32 len), r)
    else .ok (Token.SLASH, cs.tail)
  else if isIdentStart c then consumeIdentLike cs
  else .ok (Token.newDelim c, cs.tail)

/-- css_lexer/src/private.rs:1024-1028 `read_next_token(offset)` on `source`. Offsets are naturals (documents of 4 GiB and
more are outside the documented limits). -/
def readNextToken (f : Features) (source : List Char) (offset : Nat) : Except Panic Token :=
  if utf8Len source == offset then .ok Token.EOF
  else
    match dropBytes source offset with
    | none => .error .slice
    | some cs => (scanToken f cs).map (·.1)

/-- css_lexer/src/lib.rs:177-183 `struct Lexer`. -/
structure Lexer where
  source : List Char
  offset : Nat
  token : Token
  features : Features
  deriving DecidableEq, Repr

/-- A position with a token: `Cursor` as far as the lexer uses it (css_lexer/src/cursor.rs:40-43). -/
structure Cursor where
  offset : Nat
  token : Token
  deriving DecidableEq, Repr

namespace Lexer

/-- css_lexer/src/lib.rs:192-194 `Lexer::new_with_features`. -/
def newWithFeatures (source : List Char) (f : Features) : Lexer := ⟨source, 0, Token.default, f⟩
/-- css_lexer/src/lib.rs:187-189 `Lexer::new`. -/
def new (source : List Char) : Lexer := newWithFeatures source {}
/-- css_lexer/src/lib.rs:202-204 `at_end`. -/
def atEnd (l : Lexer) : Bool := l.offset == utf8Len l.source
/-- css_lexer/src/lib.rs:213-215 `checkpoint`. -/
def checkpoint (l : Lexer) : Cursor := ⟨l.offset, l.token⟩
/-- css_lexer/src/lib.rs:218-222 `rewind`. -/
def rewind (l : Lexer) (c : Cursor) : Lexer := { l with offset := c.offset, token := c.token }
/-- css_lexer/src/lib.rs:225-229 `hop`. -/
def hop (l : Lexer) (c : Cursor) : Lexer := { l with offset := c.offset, token := c.token }

/-- css_lexer/src/lib.rs:232-236 `advance`. -/
def advance (l : Lexer) : Except Panic (Token × Lexer) :=
  match readNextToken l.features l.source l.offset with
  | .error p => .error p
  | .ok t => .ok (t, { l with token := t, offset := l.offset + t.len.toNat })

/-- `n` calls of `advance` in a row: the tokens returned, and the final lexer. -/
def advanceN : Nat → Lexer → Except Panic (List Token × Lexer)
  | 0, l => .ok ([], l)
  | n + 1, l => do
    let (t, l) ← l.advance
    let (ts, l) ← advanceN n l
    return (t :: ts, l)

end Lexer

end Hdx

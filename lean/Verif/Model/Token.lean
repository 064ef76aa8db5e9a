/-
Model of css_lexer/src/kind.rs, kindset.rs, whitespace_style.rs, comment_style.rs, quote_style.rs, pairwise.rs and
token.rs: the two packed 32-bit words of a `Token`, its constructors and its accessors.

A Rust `u32` is a `BitVec 32`. `debug_assert!`s are not modelled (release-mode behaviour).
-/
import Verif.Model.DimensionUnit

namespace Hdx

/-- css_lexer/src/kind.rs:12-526 `enum Kind`. -/
inductive Kind where
  | eof | whitespace | comment | cdcOrCdo | number | dimension | badString | badUrl
  | ident | function | atKeyword | hash | string | url
  | delim | colon | semicolon | comma | leftSquare | rightSquare | leftParen | rightParen | leftCurly | rightCurly
  deriving DecidableEq, Repr

namespace Kind

/-- The discriminant `kind as u8` (css_lexer/src/kind.rs:12-526). -/
def bits : Kind → Nat
  | eof => 0b0000 | whitespace => 0b0001 | comment => 0b0010 | cdcOrCdo => 0b0011
  | number => 0b0100 | dimension => 0b0101 | badString => 0b0110 | badUrl => 0b0111
  | ident => 0b1000 | function => 0b1001 | atKeyword => 0b1010 | hash => 0b1011
  | string => 0b1100 | url => 0b1101
  | delim => 0b10000 | colon => 0b10001 | semicolon => 0b10010 | comma => 0b10011
  | leftSquare => 0b10100 | rightSquare => 0b10101 | leftParen => 0b10110 | rightParen => 0b10111
  | leftCurly => 0b11000 | rightCurly => 0b11001

/-- css_lexer/src/kind.rs:529-556 `Kind::from_bits`. -/
def ofBits : Nat → Kind
  | 0b0001 => whitespace | 0b0010 => comment | 0b0011 => cdcOrCdo
  | 0b0100 => number | 0b0101 => dimension | 0b0110 => badString | 0b0111 => badUrl
  | 0b1000 => ident | 0b1001 => function | 0b1010 => atKeyword | 0b1011 => hash
  | 0b1100 => string | 0b1101 => url
  | 0b10000 => delim | 0b10001 => colon | 0b10010 => semicolon | 0b10011 => comma
  | 0b10100 => leftSquare | 0b10101 => rightSquare | 0b10110 => leftParen | 0b10111 => rightParen
  | 0b11000 => leftCurly | 0b11001 => rightCurly
  | _ => eof

/-- All kinds, in declaration order (not in the Rust code; used to quantify over the finite type). -/
def all : List Kind :=
  [eof, whitespace, comment, cdcOrCdo, number, dimension, badString, badUrl, ident, function, atKeyword, hash, string,
   url, delim, colon, semicolon, comma, leftSquare, rightSquare, leftParen, rightParen, leftCurly, rightCurly]

end Kind

/-- css_lexer/src/kindset.rs:17 `struct KindSet(u32)`. -/
structure KindSet where
  bits : BitVec 32
  deriving DecidableEq, Repr

namespace KindSet

/-- css_lexer/src/kindset.rs:63, 73, 78, 82 `1 << (kind as u8 % 32)`. -/
def bit (k : Nat) : BitVec 32 := 1#32 <<< (k % 32)

/-- css_lexer/src/kindset.rs:58-67 `KindSet::new`: the `while` loop or-ing one bit per kind. -/
def new (kinds : List Kind) : KindSet := ⟨kinds.foldl (fun u k => u ||| bit k.bits) 0#32⟩

/-- css_lexer/src/kindset.rs:72-74 `KindSet::add`. -/
def add (s : KindSet) (k : Kind) : KindSet := ⟨s.bits ||| bit k.bits⟩

/-- css_lexer/src/kindset.rs:81-83 `KindSet::contains_bits`. -/
def containsBits (s : KindSet) (b : Nat) : Bool := (s.bits &&& bit b) != 0#32

/-- css_lexer/src/kindset.rs:77-79 `KindSet::contains`. -/
def contains (s : KindSet) (k : Kind) : Bool := s.containsBits k.bits

/-- css_lexer/src/kindset.rs:21 `KindSet::NONE`. -/
def NONE : KindSet := new []
/-- css_lexer/src/kindset.rs:24 `KindSet::TRIVIA`. -/
def TRIVIA : KindSet := new [.whitespace, .comment]
/-- css_lexer/src/kindset.rs:28 `KindSet::WHITESPACE`. -/
def WHITESPACE : KindSet := new [.whitespace]
/-- css_lexer/src/kindset.rs:32 `KindSet::COMMENTS`. -/
def COMMENTS : KindSet := new [.comment]
/-- css_lexer/src/kindset.rs:36 `KindSet::RIGHT_CURLY_OR_SEMICOLON`. -/
def RIGHT_CURLY_OR_SEMICOLON : KindSet := new [.rightCurly, .semicolon]
/-- css_lexer/src/kindset.rs:40 `KindSet::LEFT_CURLY_OR_SEMICOLON`. -/
def LEFT_CURLY_OR_SEMICOLON : KindSet := new [.leftCurly, .semicolon]
/-- css_lexer/src/kindset.rs:44 `KindSet::LEFT_CURLY_RIGHT_PAREN_OR_SEMICOLON`. -/
def LEFT_CURLY_RIGHT_PAREN_OR_SEMICOLON : KindSet := new [.leftCurly, .rightParen, .semicolon]
/-- css_lexer/src/kindset.rs:49 `KindSet::LEFT_CURLY_RIGHT_PAREN_COMMA_OR_SEMICOLON`. -/
def LEFT_CURLY_RIGHT_PAREN_COMMA_OR_SEMICOLON : KindSet := new [.leftCurly, .rightParen, .comma, .semicolon]
/-- css_lexer/src/kindset.rs:53 `KindSet::ANY = KindSet(u32::MAX)`. -/
def ANY : KindSet := ⟨BitVec.allOnes 32⟩

end KindSet

/-- css_lexer/src/whitespace_style.rs:27-33: the `#[bitmask(u8)]` enum `Whitespace`, as its bits. -/
structure Whitespace where
  bits : BitVec 8
  deriving DecidableEq, Repr

namespace Whitespace
/-- css_lexer/src/whitespace_style.rs `Whitespace::none()` (bitmask_enum). -/
def none : Whitespace := ⟨0#8⟩
/-- css_lexer/src/whitespace_style.rs `Space = 0b001`. -/
def space : Whitespace := ⟨0b001#8⟩
/-- css_lexer/src/whitespace_style.rs `Tab = 0b010`. -/
def tab : Whitespace := ⟨0b010#8⟩
/-- css_lexer/src/whitespace_style.rs `Newline = 0b100`. -/
def newline : Whitespace := ⟨0b100#8⟩
/-- `|=` of bitmask_enum. -/
def or (a b : Whitespace) : Whitespace := ⟨a.bits ||| b.bits⟩
/-- `intersects` of bitmask_enum. -/
def intersects (a b : Whitespace) : Bool := (a.bits &&& b.bits) != 0#8
/-- css_lexer/src/whitespace_style.rs:37-39 `Whitespace::from_bits`. -/
def fromBits (b : BitVec 8) : Whitespace := ⟨b &&& 0b111#8⟩
end Whitespace

/-- css_lexer/src/comment_style.rs:35-67 `enum CommentStyle`. -/
inductive CommentStyle where
  | block | blockStar | blockBang | blockPound | blockHeading | single | singleStar | singleBang
  deriving DecidableEq, Repr

namespace CommentStyle
/-- The discriminants of css_lexer/src/comment_style.rs:35-67. -/
def code : CommentStyle → Nat
  | block => 0 | blockStar => 1 | blockBang => 2 | blockPound => 3 | blockHeading => 4
  | single => 5 | singleStar => 6 | singleBang => 7

/-- css_lexer/src/comment_style.rs:85-97 `CommentStyle::from_bits`. -/
def ofCode : Nat → Option CommentStyle
  | 0 => some block | 1 => some blockStar | 2 => some blockBang | 3 => some blockPound | 4 => some blockHeading
  | 5 => some single | 6 => some singleStar | 7 => some singleBang | _ => none

/-- css_lexer/src/comment_style.rs:70-73 `is_block`. -/
def isBlock : CommentStyle → Bool
  | block | blockStar | blockBang | blockPound | blockHeading => true
  | _ => false
end CommentStyle

/-- css_lexer/src/quote_style.rs:27-35 `enum QuoteStyle`. -/
inductive QuoteStyle where
  | none | single | double
  deriving DecidableEq, Repr

/-- css_lexer/src/pairwise.rs:6-13 `enum PairWise`. -/
inductive PairWise where
  | paren | curly | square
  deriving DecidableEq, Repr

/-- css_lexer/src/token.rs:226 `struct Token(u32, u32)`; `w0`, `w1` are its two words. -/
structure Token where
  w0 : BitVec 32
  w1 : BitVec 32
  deriving DecidableEq, Repr

/-- `b as u32` for a `bool` (Rust). -/
def b2w (b : Bool) : BitVec 32 := if b then 1#32 else 0#32

namespace Token

/-- css_lexer/src/token.rs:234 `KIND_MASK`. -/
def KIND_MASK : BitVec 32 := ~~~((1#32 <<< 24) - 1#32)
/-- css_lexer/src/token.rs:235 `LENGTH_MASK`. -/
def LENGTH_MASK : BitVec 32 := (1#32 <<< 24) - 1#32
/-- css_lexer/src/token.rs:236 `HALF_LENGTH_MASK`. -/
def HALF_LENGTH_MASK : BitVec 32 := ~~~((1#32 <<< 12) - 1#32)

/-- `kind as u32`. -/
def kw (k : Kind) : BitVec 32 := BitVec.ofNat 32 k.bits

/-- css_lexer/src/token.rs:240 `Token::EOF`. -/
def EOF : Token := ⟨0#32, 0#32⟩
/-- css_lexer/src/token.rs:228-232 `Default for Token`. -/
def default : Token := ⟨kw .whitespace <<< 24, 0#32⟩
/-- css_lexer/src/token.rs:243 `Token::CDO`. -/
def CDO : Token := ⟨(kw .cdcOrCdo <<< 24) &&& KIND_MASK, 4#32⟩
/-- css_lexer/src/token.rs:246 `Token::CDC`. -/
def CDC : Token := ⟨((kw .cdcOrCdo ||| 0b00100000#32) <<< 24) &&& KIND_MASK, 3#32⟩
/-- css_lexer/src/token.rs:259 `Token::NUMBER_ZERO`. -/
def NUMBER_ZERO : Token := ⟨((kw .number ||| 0b10000000#32) <<< 24) &&& KIND_MASK, 1#32⟩

/-- The shape shared by the single-character constants of css_lexer/src/token.rs:262-349:
`Token((((kind as u32) | 0b001_00000) << 24) & KIND_MASK, c as u32)`. -/
def charToken (k : Kind) (c : Char) : Token :=
  ⟨((kw k ||| 0b00100000#32) <<< 24) &&& KIND_MASK, BitVec.ofNat 32 c.toNat⟩

/-- css_lexer/src/token.rs:262 `Token::COLON`. -/
def COLON : Token := charToken .colon ':'
/-- css_lexer/src/token.rs:265 `Token::SEMICOLON`. -/
def SEMICOLON : Token := charToken .semicolon ';'
/-- css_lexer/src/token.rs:268 `Token::COMMA`. -/
def COMMA : Token := charToken .comma ','
/-- css_lexer/src/token.rs:271 `Token::LEFT_SQUARE`. -/
def LEFT_SQUARE : Token := charToken .leftSquare '['
/-- css_lexer/src/token.rs:274 `Token::RIGHT_SQUARE`. -/
def RIGHT_SQUARE : Token := charToken .rightSquare ']'
/-- css_lexer/src/token.rs:277 `Token::LEFT_PAREN`. -/
def LEFT_PAREN : Token := charToken .leftParen '('
/-- css_lexer/src/token.rs:280 `Token::RIGHT_PAREN`. -/
def RIGHT_PAREN : Token := charToken .rightParen ')'
/-- css_lexer/src/token.rs:283 `Token::LEFT_CURLY`. -/
def LEFT_CURLY : Token := charToken .leftCurly '{'
/-- css_lexer/src/token.rs:286 `Token::RIGHT_CURLY`. -/
def RIGHT_CURLY : Token := charToken .rightCurly '}'
/-- css_lexer/src/token.rs:289 `Token::BANG`. -/
def BANG : Token := charToken .delim '!'
/-- css_lexer/src/token.rs:292 `Token::HASH`. -/
def HASH : Token := charToken .delim '#'
/-- css_lexer/src/token.rs:295 `Token::DOLLAR`. -/
def DOLLAR : Token := charToken .delim '$'
/-- css_lexer/src/token.rs:298 `Token::PERCENT`. -/
def PERCENT : Token := charToken .delim '%'
/-- css_lexer/src/token.rs:301 `Token::AMPERSAND`. -/
def AMPERSAND : Token := charToken .delim '&'
/-- css_lexer/src/token.rs:304 `Token::ASTERISK`. -/
def ASTERISK : Token := charToken .delim '*'
/-- css_lexer/src/token.rs:307 `Token::PLUS`. -/
def PLUS : Token := charToken .delim '+'
/-- css_lexer/src/token.rs:310 `Token::DASH`. -/
def DASH : Token := charToken .delim '-'
/-- css_lexer/src/token.rs:313 `Token::PERIOD`. -/
def PERIOD : Token := charToken .delim '.'
/-- css_lexer/src/token.rs:316 `Token::SLASH`. -/
def SLASH : Token := charToken .delim '/'
/-- css_lexer/src/token.rs:319 `Token::LESS_THAN`. -/
def LESS_THAN : Token := charToken .delim '<'
/-- css_lexer/src/token.rs:322 `Token::EQUALS`. -/
def EQUALS : Token := charToken .delim '='
/-- css_lexer/src/token.rs:325 `Token::GREATER_THAN`. -/
def GREATER_THAN : Token := charToken .delim '>'
/-- css_lexer/src/token.rs:328 `Token::QUESTION`. -/
def QUESTION : Token := charToken .delim '?'
/-- css_lexer/src/token.rs:331 `Token::AT`. -/
def AT : Token := charToken .delim '@'
/-- css_lexer/src/token.rs:334 `Token::BACKSLASH`. -/
def BACKSLASH : Token := charToken .delim '\\'
/-- css_lexer/src/token.rs:337 `Token::CARET`. -/
def CARET : Token := charToken .delim '^'
/-- css_lexer/src/token.rs:340 `Token::UNDERSCORE`. -/
def UNDERSCORE : Token := charToken .delim '_'
/-- css_lexer/src/token.rs:343 `Token::BACKTICK`. -/
def BACKTICK : Token := charToken .delim '`'
/-- css_lexer/src/token.rs:346 `Token::PIPE`. -/
def PIPE : Token := charToken .delim '|'
/-- css_lexer/src/token.rs:349 `Token::TILDE`. -/
def TILDE : Token := charToken .delim '~'

/-- css_lexer/src/token.rs:353-355 `Token::dummy`. -/
def dummy (k : Kind) : Token := ⟨kw k <<< 24, 0#32⟩

/-- css_lexer/src/token.rs:365-368 `Token::new_whitespace`. -/
def newWhitespace (style : Whitespace) (len : BitVec 32) : Token :=
  let flags := kw .whitespace ||| (style.bits.setWidth 32 <<< 5)
  ⟨(flags <<< 24) &&& KIND_MASK, len⟩

/-- css_lexer/src/token.rs:249 `Token::SPACE`. -/
def SPACE : Token := newWhitespace .space 1#32
/-- css_lexer/src/token.rs:252 `Token::TAB`. -/
def TAB : Token := newWhitespace .tab 1#32
/-- css_lexer/src/token.rs:255 `Token::NEWLINE`. -/
def NEWLINE : Token := newWhitespace .newline 1#32

/-- css_lexer/src/token.rs:372-375 `Token::new_comment`. -/
def newComment (style : CommentStyle) (len : BitVec 32) : Token :=
  let flags := kw .comment ||| (BitVec.ofNat 32 style.code <<< 5)
  ⟨(flags <<< 24) &&& KIND_MASK, len⟩

/-- css_lexer/src/token.rs:379-382 `Token::new_number`; `value` is `value.to_bits()`. -/
def newNumber (isFloat hasSign : Bool) (len value : BitVec 32) : Token :=
  let flags := kw .number ||| (b2w isFloat <<< 5) ||| (b2w hasSign <<< 6)
  ⟨(flags <<< 24) &&& KIND_MASK ||| (len &&& LENGTH_MASK), value⟩

/-- css_lexer/src/token.rs:386-400 `Token::new_dimension`; `value` is `value.to_bits()`. -/
def newDimension (isFloat hasSign : Bool) (numLen unitLen value : BitVec 32) (unit : DimensionUnit) : Token :=
  let numLen := (numLen <<< 12) &&& HALF_LENGTH_MASK
  let isKnown : BitVec 32 := if unit = .unknown then 0#32 else 0b10000000#32
  let knownOrLen : BitVec 32 := if unit = .unknown then unitLen else BitVec.ofNat 32 unit.code
  let flags := kw .dimension ||| isKnown ||| (b2w isFloat <<< 5) ||| (b2w hasSign <<< 6)
  ⟨((flags <<< 24) &&& KIND_MASK) ||| ((numLen ||| knownOrLen) &&& LENGTH_MASK), value⟩

/-- css_lexer/src/token.rs:405-407 `Token::new_bad_string`. -/
def newBadString (len : BitVec 32) : Token := ⟨(kw .badString <<< 24) &&& KIND_MASK, len⟩

/-- css_lexer/src/token.rs:412-414 `Token::new_bad_url`. -/
def newBadUrl (len : BitVec 32) : Token := ⟨(kw .badUrl <<< 24) &&& KIND_MASK, len⟩

/-- The three-flag word shared by `new_ident`, `new_function`, `new_atkeyword`, `new_hash`, `new_string`, `new_url`
(css_lexer/src/token.rs:418-488): `kind | (a << 5) | (b << 6) | (c << 7)`. -/
def flags3 (k : Kind) (a b c : Bool) : BitVec 32 :=
  kw k ||| (b2w a <<< 5) ||| (b2w b <<< 6) ||| (b2w c <<< 7)

/-- css_lexer/src/token.rs:418-424 `Token::new_ident`. -/
def newIdent (nonLower dashed esc : Bool) (len : BitVec 32) : Token :=
  ⟨(flags3 .ident nonLower dashed esc <<< 24) &&& KIND_MASK, len⟩

/-- css_lexer/src/token.rs:428-434 `Token::new_function`. -/
def newFunction (nonLower dashed esc : Bool) (len : BitVec 32) : Token :=
  ⟨(flags3 .function nonLower dashed esc <<< 24) &&& KIND_MASK, len⟩

/-- css_lexer/src/token.rs:438-444 `Token::new_atkeyword`. -/
def newAtKeyword (nonLower dashed esc : Bool) (len : BitVec 32) : Token :=
  ⟨(flags3 .atKeyword nonLower dashed esc <<< 24) &&& KIND_MASK, len⟩

/-- css_lexer/src/token.rs:448-459 `Token::new_hash`. -/
def newHash (nonLower firstIsAscii esc : Bool) (len : BitVec 32) : Token :=
  ⟨(flags3 .hash nonLower firstIsAscii esc <<< 24) &&& KIND_MASK, len⟩

/-- css_lexer/src/token.rs:463-469 `Token::new_string`. -/
def newString (quotes : QuoteStyle) (hasClose esc : Bool) (len : BitVec 32) : Token :=
  ⟨(flags3 .string (quotes == .double) hasClose esc <<< 24) &&& KIND_MASK, len⟩

/-- css_lexer/src/token.rs:473-487 `Token::new_url`. -/
def newUrl (endsWithParen wsAfterParen esc : Bool) (leading trailing len : BitVec 32) : Token :=
  let leading := (leading <<< 12) &&& HALF_LENGTH_MASK
  ⟨(flags3 .url endsWithParen wsAfterParen esc <<< 24) &&& KIND_MASK ||| ((leading ||| trailing) &&& LENGTH_MASK), len⟩

/-- css_lexer/src/token.rs:491-496 `Token::new_delim`. -/
def newDelim (c : Char) : Token :=
  let len : BitVec 32 := BitVec.ofNat 32 c.utf8Size
  let flags := kw .delim ||| (len <<< 5)
  ⟨(flags <<< 24) &&& KIND_MASK ||| (len &&& LENGTH_MASK), BitVec.ofNat 32 c.toNat⟩

/-- css_lexer/src/token.rs:500-502 `kind_bits`. -/
def kindBits (t : Token) : Nat := ((t.w0 >>> 24) &&& 0b11111#32).toNat

/-- css_lexer/src/token.rs:506-508 `kind`. -/
def kind (t : Token) : Kind := Kind.ofBits t.kindBits

/-- css_lexer/src/token.rs:512-514 `first_bit_is_set`. -/
def firstBit (t : Token) : Bool := t.w0 >>> 31 == 1#32
/-- css_lexer/src/token.rs:518-520 `second_bit_is_set`. -/
def secondBit (t : Token) : Bool := (t.w0 >>> 30) &&& 1#32 == 1#32
/-- css_lexer/src/token.rs:524-526 `third_bit_is_set`. -/
def thirdBit (t : Token) : Bool := (t.w0 >>> 29) &&& 1#32 == 1#32

/-- css_lexer/src/token.rs:530-532 `is_ident_like`. -/
def isIdentLike (t : Token) : Bool := (t.kindBits &&& 0b11000 == 0b01000) && t.kindBits != Kind.string.bits
/-- css_lexer/src/token.rs:538-540 `is_delim_like`. -/
def isDelimLike (t : Token) : Bool := t.kindBits &&& 0b10000 == 0b10000
/-- css_lexer/src/token.rs:544-546 `is_empty`. -/
def isEmpty (t : Token) : Bool := t.kindBits == Kind.eof.bits

/-- css_lexer/src/token.rs:671-678 `dimension_unit`. -/
def dimensionUnit (t : Token) : DimensionUnit :=
  if !t.firstBit || t.kindBits != Kind.dimension.bits then .unknown
  else DimensionUnit.ofCode ((t.w0 &&& ~~~HALF_LENGTH_MASK).setWidth 8).toNat

/-- css_lexer/src/token.rs:620-629 `numeric_len`. -/
def numericLen (t : Token) : BitVec 32 :=
  if t.kindBits == Kind.dimension.bits then (t.w0 &&& LENGTH_MASK) >>> 12
  else if t.firstBit then (t.w0 &&& LENGTH_MASK) >>> 16
  else t.w0 &&& LENGTH_MASK

/-- css_lexer/src/token.rs:550-580 `len`. -/
def len (t : Token) : BitVec 32 :=
  if t.kindBits == Kind.eof.bits then 0#32
  else if t.isDelimLike then t.w0 >>> 29
  else if t.kindBits == Kind.number.bits then t.numericLen
  else if t.kindBits == Kind.dimension.bits then
    if t.firstBit then t.numericLen + BitVec.ofNat 32 t.dimensionUnit.len
    else ((t.w0 &&& LENGTH_MASK) >>> 12) + (t.w0 &&& ~~~HALF_LENGTH_MASK)
  else t.w1

/-- `char::from_u32` (Rust std): `None` for surrogates and values above `0x10FFFF`. -/
def charFromU32 (w : BitVec 32) : Option Char :=
  if h : w.toNat.isValidChar then some (Char.ofNatAux w.toNat h) else none

/-- css_lexer/src/token.rs:586-591 `char`. -/
def char (t : Token) : Option Char := if t.isDelimLike then charFromU32 t.w1 else none

/-- css_lexer/src/token.rs:595-597 `is_int`. -/
def isInt (t : Token) : Bool := (t.kindBits &&& 0b11100 == 0b00100) && !t.thirdBit
/-- css_lexer/src/token.rs:602-604 `is_float`. -/
def isFloat (t : Token) : Bool := (t.kindBits &&& 0b11100 == 0b00100) && t.thirdBit
/-- css_lexer/src/token.rs:610-612 `has_sign`. -/
def hasSign (t : Token) : Bool := (t.kindBits &&& 0b11100 == 0b00100) && t.secondBit

/-- css_lexer/src/token.rs:636-639 `value`, as the bits of the `f32`. -/
def value (t : Token) : BitVec 32 := t.w1

/-- css_lexer/src/token.rs:645-651 `whitespace_style`. -/
def whitespaceStyle (t : Token) : Whitespace :=
  if t.kindBits == Kind.whitespace.bits then Whitespace.fromBits ((t.w0 >>> 29).setWidth 8) else Whitespace.none

/-- css_lexer/src/token.rs:657-663 `comment_style`. -/
def commentStyle (t : Token) : Option CommentStyle :=
  if t.kindBits == Kind.comment.bits then CommentStyle.ofCode (t.w0 >>> 29).toNat else none

/-- css_lexer/src/token.rs:684-693 `quote_style`. -/
def quoteStyle (t : Token) : QuoteStyle :=
  if t.kindBits == Kind.string.bits then
    if t.thirdBit then .double else if t.secondBit then .single else .none
  else .none

/-- css_lexer/src/token.rs:701-704 `has_close_quote`. -/
def hasCloseQuote (t : Token) : Bool := t.secondBit
/-- css_lexer/src/token.rs:708-710 `can_escape`. -/
def canEscape (t : Token) : Bool :=
  t.kindBits == Kind.string.bits || t.kindBits == Kind.dimension.bits || t.isIdentLike
/-- css_lexer/src/token.rs:716-721 `contains_escape_chars`. -/
def containsEscapeChars (t : Token) : Bool :=
  if t.kindBits == Kind.dimension.bits then !t.firstBit else t.canEscape && t.firstBit
/-- css_lexer/src/token.rs:727-730 `is_dashed_ident`. -/
def isDashedIdent (t : Token) : Bool := t.secondBit
/-- css_lexer/src/token.rs:734-736 `is_lower_case`. -/
def isLowerCase (t : Token) : Bool := t.isIdentLike && !t.thirdBit
/-- css_lexer/src/token.rs:740-742 `is_trivia`. -/
def isTrivia (t : Token) : Bool := t.kindBits &&& 0b000011 == t.kindBits
/-- css_lexer/src/token.rs:748-751 `url_has_leading_space`. -/
def urlHasLeadingSpace (t : Token) : Bool := t.secondBit
/-- css_lexer/src/token.rs:757-760 `url_has_closing_paren`. -/
def urlHasClosingParen (t : Token) : Bool := t.thirdBit
/-- css_lexer/src/token.rs:766-769 `hash_is_id_like`. -/
def hashIsIdLike (t : Token) : Bool := t.secondBit
/-- css_lexer/src/token.rs:773-775 `is_bad`. -/
def isBad (t : Token) : Bool := (t.kindBits ||| 0b00001) &&& 0b11001 == 1
/-- css_lexer/src/token.rs:779-781 `is_cdc`. -/
def isCdc (t : Token) : Bool := t.kindBits == Kind.cdcOrCdo.bits && t.thirdBit

/-- css_lexer/src/token.rs:794-802 `leading_len`. -/
def leadingLen (t : Token) : BitVec 32 :=
  match t.kind with
  | .atKeyword | .hash | .string => 1#32
  | .dimension => t.numericLen
  | .comment => 2#32
  | .url => (t.w0 &&& LENGTH_MASK) >>> 12
  | _ => 0#32

/-- css_lexer/src/token.rs:813-821 `trailing_len`. (`comment_style().unwrap()` cannot fail for kind `Comment`:
all eight 3-bit patterns decode, see `CommentStyle.ofCode`.) -/
def trailingLen (t : Token) : BitVec 32 :=
  match t.kind with
  | .function => 1#32
  | .string => b2w t.hasCloseQuote
  | .comment => if (t.commentStyle.map CommentStyle.isBlock) = some true then 2#32 else 0#32
  | .url => t.w0 &&& ~~~HALF_LENGTH_MASK
  | _ => 0#32

/-- css_lexer/src/pairwise.rs:42-52 `PairWise::from_token` = css_lexer/src/token.rs:831-833 `to_pairwise`. -/
def toPairwise (t : Token) : Option PairWise :=
  match t.kind with
  | .leftParen | .function => some .paren
  | .leftCurly => some .curly
  | .leftSquare => some .square
  | .rightParen => some .paren
  | .rightCurly => some .curly
  | .rightSquare => some .square
  | _ => none

/-- css_lexer/src/token.rs:1006-1010 `PartialEq<Kind> for Token`. -/
def isKind (t : Token) (k : Kind) : Bool := t.kindBits == k.bits

/-- css_lexer/src/token.rs:1018-1022 `PartialEq<KindSet> for Token`. -/
def inSet (t : Token) (s : KindSet) : Bool := s.containsBits t.kindBits

/-- css_lexer/src/token.rs:1060-1064 `PartialEq<char> for Token`. -/
def isChar (t : Token) (c : Char) : Bool := (t.char.map (· == c)).getD false

/-- `f32 < 0.0` on bit patterns (IEEE 754): sign bit set, not a NaN, and not `-0.0`
(css_lexer/src/token.rs:882, 891 `second.value() < 0.0`). -/
def f32LtZero (w : BitVec 32) : Bool :=
  w.getLsbD 31 && (w &&& 0x7fffffff#32) != 0#32 && (w &&& 0x7fffffff#32) ≤ 0x7f800000#32

/-- css_lexer/src/token.rs:877-926 `needs_separator_for`. -/
def needsSeparatorFor (t second : Token) : Bool :=
  let k2 := second.kind
  let number2 := k2 == .number || k2 == .dimension
  let name2 := k2 == .ident || k2 == .function || k2 == .url || k2 == .badUrl
  match t.kind with
  | .ident =>
    (number2 && (!second.hasSign || f32LtZero second.value)) || name2 || second.char == some '(' || second.isCdc
  | .atKeyword | .hash | .dimension =>
    (number2 && (!second.hasSign || f32LtZero second.value)) || name2 || second.isCdc
  | .number => name2 || number2 || second.char == some '%' || second.isCdc
  | _ =>
    match t.char with
    | some '#' => name2 || number2 || second.char == some '-' || second.isCdc
    | some '-' => name2 || number2 || second.char == some '-' || second.isCdc
    | some '@' => name2 || second.char == some '-' || second.isCdc
    | some '.' => number2
    | some '+' => number2
    | some '/' => second.char == some '*' || second.char == some '/'
    | _ => false

end Token

/-- css_lexer/src/pairwise.rs:54-60 `PairWise::start`. -/
def PairWise.start : PairWise → Token
  | .paren => Token.LEFT_PAREN
  | .curly => Token.LEFT_CURLY
  | .square => Token.LEFT_SQUARE

/-- css_lexer/src/pairwise.rs:62-68 `PairWise::end`. -/
def PairWise.stop : PairWise → Token
  | .paren => Token.RIGHT_PAREN
  | .curly => Token.RIGHT_CURLY
  | .square => Token.RIGHT_SQUARE

end Hdx

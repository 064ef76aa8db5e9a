/-
C20, C21: the public single-character constants, and token affixes.
-/
import Verif.Props.Lexical3

namespace Hdx
open Spec

/-! ## C20 Named tokens equal the lexed tokens -/

/-- The public constants of css_lexer/src/token.rs:262-349 with the character their documentation names. -/
def Spec.namedTokens : List (Char × Token) :=
  [(':', .COLON), (';', .SEMICOLON), (',', .COMMA), ('[', .LEFT_SQUARE), (']', .RIGHT_SQUARE), ('(', .LEFT_PAREN),
   (')', .RIGHT_PAREN), ('{', .LEFT_CURLY), ('}', .RIGHT_CURLY), ('!', .BANG), ('#', .HASH), ('$', .DOLLAR),
   ('%', .PERCENT), ('&', .AMPERSAND), ('*', .ASTERISK), ('-', .DASH), ('/', .SLASH),
   ('<', .LESS_THAN), ('=', .EQUALS), ('>', .GREATER_THAN), ('?', .QUESTION), ('@', .AT),
   ('\\', .BACKSLASH), ('^', .CARET), ('`', .BACKTICK), ('|', .PIPE), ('~', .TILDE)]

theorem char_of_not_delimLike {t : Token} (h : t.kind ∈ [Kind.eof, .whitespace, .comment, .cdcOrCdo, .number, .dimension,
    .badString, .badUrl, .ident, .function, .atKeyword, .hash, .string, .url]) (hb : t.kindBits = t.kind.bits) :
    t.char = none := by
  have : t.isDelimLike = false := by
    simp only [Token.isDelimLike, hb]
    simp only [List.mem_cons, List.not_mem_nil, or_false] at h
    rcases h with h | h | h | h | h | h | h | h | h | h | h | h | h | h <;> rw [h] <;> decide
  simp [Token.char, this]

theorem char_mkTok_none {k : Kind} {a b c : Bool} {l w : BitVec 32} (h : k.bits < 16) : (mkTok k a b c l w).char = none := by
  simp only [Token.char, Token.isDelimLike, mkTok_kindBits]
  cases k <;> first | rfl | (exact absurd h (by decide))

theorem singles_named : ∀ n ∈ singles, ∀ p ∈ namedTokens, p.1.toNat = n → singleCharToken n = p.2 := by decide +kernel

theorem singles_char : ∀ n ∈ singles, (singleCharToken n).char = some (Char.ofNat n) := by decide +kernel

theorem identLike_char {cs r : List Char} {t : Token} (h : consumeIdentLike cs = .ok (t, r)) : t.char = none := by
  unfold consumeIdentLike at h
  simp only [bind, Except.bind, pure, Except.pure] at h
  split at h
  · contradiction
  · split at h
    · split at h
      · injection h with h
        rename_i s' _ _ _
        rw [show t = (consumeUrl (s'.1.len + 1) s'.1.esc s'.2.tail).1 by rw [h]]
        unfold consumeUrl
        dsimp only
        split
        · rw [newUrl_eq, char_mkTok_none (by decide)]
        · rw [newBadUrl_eq, char_mkTok_none (by decide)]
      · injection h with h; injection h with h _
        rw [← h, newFunction_eq, char_mkTok_none (by decide)]
    · injection h with h; injection h with h _
      rw [← h, newIdent_eq, char_mkTok_none (by decide)]

theorem numeric_char (cs : List Char) : (consumeNumeric cs).1.char = none := by
  unfold consumeNumeric
  dsimp only
  split
  · rw [newDimension_eq, char_mkTok_none (by decide)]
  · split
    · rw [newDimension_eq, char_mkTok_none (by decide)]
    · rw [newNumber_eq, char_mkTok_none (by decide)]

theorem string_char (q : Char) (cs : List Char) : (consumeString (q :: cs)).1.char = none := by
  unfold consumeString
  dsimp only
  split
  · rw [newString_eq, char_mkTok_none (by decide)]
  · rw [newBadString_eq, char_mkTok_none (by decide)]

/-- A token that has a character starts with that character. -/
theorem ScanCase.char_eq {f : Features} {cs r : List Char} {t : Token} (h : ScanCase f cs t r) {c : Char} (hc : t.char = some c) :
    cs = c :: r ∧ (t = singleCharToken c.toNat ∧ c.toNat ∈ singles ∨ t = Token.newDelim c ∧ ((c = '.' ∨ c = '+')
        ∨ (c.toNat ∉ singles ∧ c ∉ special))
      ∨ (c, t) ∈ [('-', Token.DASH), ('<', .LESS_THAN), ('#', .HASH), ('@', .AT), ('\\', .BACKSLASH), ('/', .SLASH)]) := by
  cases h with
  | @single c' cs h =>
    rw [singles_char _ h] at hc
    injection hc with hc
    have : Char.ofNat c'.toNat = c' := Char.ofNat_toNat c'
    rw [this] at hc; subst hc
    exact ⟨rfl, Or.inl ⟨rfl, h⟩⟩
  | identLike _ h => rw [identLike_char h] at hc; cases hc
  | numeric _ h =>
    have := numeric_char cs
    rw [h] at this; rw [this] at hc; cases hc
  | @ws c' cs ws rest h h' e hm =>
    rw [newWhitespace_eq _ (wsFlags_lt _ _ (by decide)), char_mkTok_none (by decide)] at hc; cases hc
  | @wsSep P st c' cs ws rest hP _ _ _ _ =>
    rw [newWhitespace_eq _ (by rcases hP with ⟨_, rfl⟩ | ⟨_, rfl⟩ | ⟨_, rfl⟩ <;> decide), char_mkTok_none (by decide)] at hc
    cases hc
  | @string q cs t r _ h =>
    have := string_char q cs
    rw [h] at this; rw [this] at hc; cases hc
  | cdc => rw [show Token.CDC.char = none by decide] at hc; cases hc
  | cdo => rw [show Token.CDO.char = none by decide] at hc; cases hc
  | @hash cs t r _ h =>
    have : t = (consumeHash ('#' :: cs)).1 := by rw [h]
    rw [this, consumeHash] at hc
    simp only [newHash_eq] at hc
    rw [char_mkTok_none (by decide)] at hc; cases hc
  | «at» => rw [newAtKeyword_eq, char_mkTok_none (by decide)] at hc; cases hc
  | block => rw [newComment_eq, char_mkTok_none (by decide)] at hc; cases hc
  | line => rw [newComment_eq, char_mkTok_none (by decide)] at hc; cases hc
  | dash => rw [show Token.DASH.char = some '-' by decide] at hc; cases hc; simp
  | lt => rw [show Token.LESS_THAN.char = some '<' by decide] at hc; cases hc; simp
  | pound => rw [show Token.HASH.char = some '#' by decide] at hc; cases hc; simp
  | atSign => rw [show Token.AT.char = some '@' by decide] at hc; cases hc; simp
  | backslash => rw [show Token.BACKSLASH.char = some '\\' by decide] at hc; cases hc; simp
  | slash => rw [show Token.SLASH.char = some '/' by decide] at hc; cases hc; simp
  | @dotplus c' cs h =>
    rw [(C17_delim c').2.2] at hc
    cases hc
    exact ⟨rfl, Or.inr (Or.inl ⟨rfl, Or.inl h⟩)⟩
  | @other c' cs h1 h2 =>
    rw [(C17_delim c').2.2] at hc
    cases hc
    exact ⟨rfl, Or.inr (Or.inl ⟨rfl, Or.inr ⟨h1, h2⟩⟩)⟩

/-- Whenever the lexer returns a token whose character is that of a public constant, the token equals (`==`, that is, both
words) that constant; and the text starts with that character. Missing from the full C20: `PERIOD`, `PLUS` and `UNDERSCORE`,
see the counterexamples. -/
theorem C20_partial {l : Lexer} {cs : List Char} {t : Token} (h : l.Before cs) (hy : l.Yields t) {c : Char} {K : Token}
    (hK : (c, K) ∈ namedTokens) (hc : t.char = some c) : t = K ∧ Starts (· = c) cs := by
  obtain ⟨l', ha, _⟩ := hy
  have hne : cs ≠ [] := by
    rintro rfl
    rw [advance_before h, if_pos rfl] at ha
    injection ha with ha; injection ha with ha _
    rw [← ha] at hc; cases hc
  obtain ⟨r, _, hs⟩ := advance_cases h hne ha
  obtain ⟨e, hcase⟩ := hs.char_eq hc
  refine ⟨?_, c, r, e, rfl⟩
  rcases hcase with ⟨h1, h2⟩ | ⟨h1, h2⟩ | h1
  · rw [h1]; exact singles_named _ h2 _ hK rfl
  · exfalso
    simp only [namedTokens, List.mem_cons, Prod.mk.injEq, List.not_mem_nil, or_false] at hK
    rcases h2 with h2 | ⟨h2, h3⟩
    · rcases h2 with rfl | rfl <;> simp at hK
    · rcases hK with ⟨rfl, _⟩ | ⟨rfl, _⟩ | ⟨rfl, _⟩ | ⟨rfl, _⟩ | ⟨rfl, _⟩ | ⟨rfl, _⟩ | ⟨rfl, _⟩ | ⟨rfl, _⟩ | ⟨rfl, _⟩
        | ⟨rfl, _⟩ | ⟨rfl, _⟩ | ⟨rfl, _⟩ | ⟨rfl, _⟩ | ⟨rfl, _⟩ | ⟨rfl, _⟩ | ⟨rfl, _⟩ | ⟨rfl, _⟩ | ⟨rfl, _⟩ | ⟨rfl, _⟩
        | ⟨rfl, _⟩ | ⟨rfl, _⟩ | ⟨rfl, _⟩ | ⟨rfl, _⟩ | ⟨rfl, _⟩ | ⟨rfl, _⟩ | ⟨rfl, _⟩ | ⟨rfl, _⟩ <;> revert h2 h3 <;> decide
  · have : ∀ p ∈ [('-', Token.DASH), ('<', .LESS_THAN), ('#', .HASH), ('@', .AT), ('\\', .BACKSLASH), ('/', .SLASH)],
        ∀ q ∈ namedTokens, p.1 = q.1 → p.2 = q.2 := by decide +kernel
    exact this _ h1 _ hK rfl

/-- The 21 characters that never are part of a longer token are lexed to their constant whatever follows; ... -/
theorem C20_anywhere {l : Lexer} {c : Char} {K : Token} {rest : List Char} (hK : (c, K) ∈ namedTokens)
    (hc : c ∈ c!":;,[](){}!$%&*=>?^`|~") (h : l.Before (c :: rest)) : l.Yields K := by
  have hn : c.toNat ∈ singles := by
    have : ∀ c ∈ c!":;,[](){}!$%&*=>?^`|~", c.toNat ∈ singles := by decide
    exact this c hc
  have := singles_named _ hn _ hK rfl
  exact yields_of_scan h (by simp) (by rw [scan_single hn, this])

/-- ... the others when they are the whole text (and, with `C20_partial`, whenever they are a token of their own). -/
theorem C20_alone : ∀ p ∈ namedTokens, p.1 ≠ '\\' →
    ((Lexer.new [p.1]).advance.map (fun q => (q.1, q.2.offset))) = .ok (p.2, 1) := by decide +kernel

theorem C20_backslash (nl : Char) (hn : Newline nl) : ((Lexer.new ['\\', nl]).advance.map (·.1)) = .ok Token.BACKSLASH := by
  rcases hn with rfl | rfl | rfl <;> decide +kernel

/-- `Token::PERIOD`, `Token::PLUS` and `Token::UNDERSCORE` differ from what the lexer returns for `.`, `+` and `_`. -/
theorem C20_counterexample :
    (∃ t, ((Lexer.new c!".").advance.map (·.1)) = .ok t ∧ t.kind = .delim ∧ t.char = some '.' ∧ t ≠ Token.PERIOD)
    ∧ (∃ t, ((Lexer.new c!"+").advance.map (·.1)) = .ok t ∧ t.kind = .delim ∧ t.char = some '+' ∧ t ≠ Token.PLUS)
    ∧ ((Lexer.new c!"_").advance.map (·.1.kind)) = .ok .ident ∧ Token.UNDERSCORE.kind = .delim := by
  refine ⟨⟨_, rfl, ?_, ?_, ?_⟩, ⟨_, rfl, ?_, ?_, ?_⟩, ?_, ?_⟩ <;> decide +kernel

/-- For every delim the lexer does agree with the constant on kind, character and length. -/
theorem C20_delims {l : Lexer} {cs : List Char} {t : Token} (h : l.Before cs) (hy : l.Yields t) {c : Char}
    (hc : t.char = some c) (hd : c = '.' ∨ c = '+') :
    t.kind = .delim ∧ t.len.toNat = 1 ∧ Starts (· = c) cs := by
  obtain ⟨l', ha, _⟩ := hy
  have hne : cs ≠ [] := by
    rintro rfl
    rw [advance_before h, if_pos rfl] at ha
    injection ha with ha; injection ha with ha _
    rw [← ha] at hc; cases hc
  obtain ⟨r, _, hs⟩ := advance_cases h hne ha
  obtain ⟨e, hcase⟩ := hs.char_eq hc
  have : t = Token.newDelim c := by
    rcases hcase with ⟨_, h2⟩ | ⟨h1, _⟩ | h1
    · rcases hd with rfl | rfl <;> exact absurd h2 (by decide)
    · exact h1
    · rcases hd with rfl | rfl <;> simp at h1
  rw [this]
  refine ⟨(C17_delim c).1, ?_, c, r, e, rfl⟩
  rw [(C17_delim c).2.1]
  rcases hd with rfl | rfl <;> rfl

example : ∃ l : Lexer, l.Before c!">b" ∧ l.Yields Token.GREATER_THAN :=
  ⟨⟨c!"a>b", 1, Token.default, {}⟩, ⟨c!"a", rfl, rfl⟩, C20_anywhere (by decide) (by decide) ⟨c!"a", rfl, rfl⟩⟩

/-! ## C21 Token affixes never exceed the token -/

theorem or_le_add (a b : Nat) : a ||| b ≤ a + b := by
  induction a using Nat.div2Induction generalizing b with
  | ind n ih =>
    by_cases hn : n = 0
    · subst hn; simp
    · have := ih (by omega) (b / 2)
      have h1 : (n ||| b) / 2 = (n / 2 ||| b / 2) := by
        have := Nat.shiftRight_or_distrib (a := n) (b := b) (i := 1)
        simpa [Nat.shiftRight_eq_div_pow] using this
      have h2 : (n ||| b) % 2 = 1 → n % 2 = 1 ∨ b % 2 = 1 := by
        intro h
        simpa using h
      omega

theorem urlLoop_trailing (esc : Bool) (len : Nat) (cs : List Char) {a b : Bool} {t n : Nat}
    (h : (urlLoop esc len cs).1 = .url a b t n) : len + t ≤ n := by
  fun_induction urlLoop esc len cs <;> grind

theorem url_affixes {a b c : Bool} {lead trail n : Nat} (h : lead + trail ≤ n) (hn : n < 2 ^ 32) :
    (Token.newUrl a b c (w32 lead) (w32 trail) (w32 n)).leadingLen.toNat
      + (Token.newUrl a b c (w32 lead) (w32 trail) (w32 n)).trailingLen.toNat
      ≤ (Token.newUrl a b c (w32 lead) (w32 trail) (w32 n)).len.toNat := by
  rw [newUrl_eq, len_word _ _ _ _ _ _ (by decide), w32_toNat hn]
  simp only [Token.leadingLen, Token.trailingLen, mkTok_kind, BitVec.toNat_ushiftRight, mkTok_low24, mkTok_low12,
    Nat.shiftRight_eq_div_pow]
  rw [shl12_and_halfMask, BitVec.toNat_or, BitVec.toNat_shiftLeft, w32_toNat (show lead < 2 ^ 32 by omega),
    w32_toNat (show trail < 2 ^ 32 by omega)]
  have h1 := or_le_add (lead <<< 12 % 2 ^ 32) trail
  have h2 : (lead <<< 12 % 2 ^ 32 ||| trail) % 2 ^ 12 = trail % 2 ^ 12 := by
    rw [Nat.or_mod_two_pow, Nat.shiftLeft_eq]
    have : lead * 2 ^ 12 % 2 ^ 32 % 2 ^ 12 = 0 := by omega
    rw [this]; simp
  rw [Nat.shiftLeft_eq] at *
  omega

/-- The sum of the affixes of a token does not exceed its length. -/
def Spec.AffixesFit (t : Token) : Prop := t.leadingLen.toNat + t.trailingLen.toNat ≤ t.len.toNat

theorem affixesFit_plain {t : Token} (h : t.kind ∉ [Kind.atKeyword, .hash, .string, .dimension, .comment, .url, .function]) :
    AffixesFit t := by
  simp only [List.mem_cons, List.not_mem_nil, or_false, not_or] at h
  obtain ⟨h1, h2, h3, h4, h5, h6, h7⟩ := h
  have e1 : t.leadingLen = 0#32 := by
    unfold Token.leadingLen
    split <;> first | rfl | simp_all
  have e2 : t.trailingLen = 0#32 := by
    unfold Token.trailingLen
    split <;> first | rfl | simp_all
  simp [AffixesFit, e1, e2]

theorem affixesFit_dimension (f s k : Bool) (l w : BitVec 32) : AffixesFit (mkTok .dimension f s k l w) := by
  have h1 : (mkTok .dimension f s k l w).numericLen.toNat < 2 ^ 12 := by
    simp only [Token.numericLen, mkTok_kindBits, beq_self_eq_true, if_true, BitVec.toNat_ushiftRight, mkTok_low24,
      Nat.shiftRight_eq_div_pow]
    omega
  have h2 : (mkTok .dimension f s k l w).dimensionUnit.len ≤ 5 := by
    cases (mkTok .dimension f s k l w).dimensionUnit <;> decide
  have h3 : ((mkTok .dimension f s k l w).w0 &&& ~~~Token.HALF_LENGTH_MASK).toNat < 2 ^ 12 := by
    rw [mkTok_low12]; omega
  have h4 : (((mkTok .dimension f s k l w).w0 &&& Token.LENGTH_MASK) >>> 12)
      = (mkTok .dimension f s k l w).numericLen := by
    simp [Token.numericLen]
  have e1 : (mkTok .dimension f s k l w).leadingLen = (mkTok .dimension f s k l w).numericLen := by
    simp [Token.leadingLen]
  have e2 : (mkTok .dimension f s k l w).trailingLen = 0#32 := by simp [Token.trailingLen]
  have e3 : (mkTok .dimension f s k l w).len = if k then (mkTok .dimension f s k l w).numericLen
      + BitVec.ofNat 32 (mkTok .dimension f s k l w).dimensionUnit.len
      else (mkTok .dimension f s k l w).numericLen + ((mkTok .dimension f s k l w).w0 &&& ~~~Token.HALF_LENGTH_MASK) := by
    simp only [Token.len, Token.isDelimLike, mkTok_kindBits, mkTok_first, h4]; rfl
  unfold AffixesFit
  rw [e1, e2, e3]
  cases k
  · simp only [Bool.false_eq_true, if_false, BitVec.toNat_add]
    show _ + 0 ≤ _
    omega
  · simp only [if_true, BitVec.toNat_add, BitVec.toNat_ofNat]
    omega

theorem consumeUrl_affixes (leading : Nat) (esc : Bool) (pre cs : List Char) (hp : leading = utf8Len pre)
    (ha : EscAscii cs) (hl : utf8Len (pre ++ cs) < 2 ^ 32) : AffixesFit (consumeUrl leading esc cs).1 := by
  obtain ⟨ws, w1, w2, w3⟩ := consumeWhitespace_cover .none cs
  simp only [consumeUrl]
  generalize consumeWhitespace .none cs = W at w1 w2
  obtain ⟨n, st, r⟩ := W
  simp only at w1 w2 ⊢
  subst w1
  obtain ⟨t, e1, e2, e3⟩ := urlLoop_cover esc (leading + n) r ha.suffix
  match hr : urlLoop esc (leading + n) r with
  | (.url a b c m, r') =>
    have ht := urlLoop_trailing esc (leading + n) r (by rw [hr])
    rw [hr] at e1 e2
    have := e2 a b c m rfl
    simp only at e1
    subst e1
    simp only [utf8Len_append] at hl
    exact url_affixes ht (by omega)
  | (.bad m, r') =>
    simp only
    apply affixesFit_plain
    simp [newBadUrl_eq]

theorem stringLoop_close (q : Char) (esc : Bool) (len : Nat) (cs : List Char) {b : Bool} {n : Nat}
    (h : (stringLoop q esc len cs).1 = .str true b n) : len + 1 ≤ n := by
  fun_induction stringLoop q esc len cs <;> grind

theorem blockCommentLoop_ge (len : Nat) (cs : List Char) : len ≤ (blockCommentLoop len cs).1 := by
  fun_induction blockCommentLoop len cs <;> omega

theorem blockCommentLoop_len (len : Nat) (cs : List Char) :
    2 + len ≤ (blockCommentLoop len cs).1 ∨ (blockCommentLoop len cs).1 = len + utf8Len cs := by
  fun_induction blockCommentLoop len cs with
  | case1 => right; simp
  | case2 len c h d ds h' => left; have := c.utf8Size_pos; omega
  | case3 len c h d ds h' ih => rcases ih with h | h <;> simp at * <;> omega
  | case4 len c h => right; simp
  | case5 len c cs h ih => rcases ih with h | h <;> simp at * <;> omega

theorem block_trailing (st : CommentStyle) (h : st.isBlock = true) (n : BitVec 32) :
    (Token.newComment st n).trailingLen = 2#32 ∧ (Token.newComment st n).leadingLen = 2#32 := by
  have h1 := C17_comment st n
  simp only at h1
  simp [Token.trailingLen, Token.leadingLen, h1.1, h1.2.2, h]

theorem line_trailing (st : CommentStyle) (h : st.isBlock = false) (n : BitVec 32) :
    (Token.newComment st n).trailingLen = 0#32 ∧ (Token.newComment st n).leadingLen = 2#32 := by
  have h1 := C17_comment st n
  simp only at h1
  simp [Token.trailingLen, Token.leadingLen, h1.1, h1.2.2, h]

theorem blockCommentStyle_block (cs : List Char) : (blockCommentStyle cs).isBlock = true := by
  unfold blockCommentStyle
  dsimp only
  repeat' split
  all_goals rfl

theorem lineCommentStyle_line (cs : List Char) : (lineCommentStyle cs).isBlock = false := by
  unfold lineCommentStyle
  dsimp only
  repeat' split
  all_goals rfl

theorem blockCommentLoop_le (len : Nat) (cs : List Char) : (blockCommentLoop len cs).1 ≤ len + utf8Len cs := by
  fun_induction blockCommentLoop len cs <;> simp at * <;> (try omega)
  rename_i len c h d ds h'
  subst h'
  have : '/'.utf8Size = 1 := rfl
  omega

theorem lineCommentLoop_bounds (len : Nat) (cs : List Char) :
    len ≤ (lineCommentLoop len cs).1 ∧ (lineCommentLoop len cs).1 ≤ len + utf8Len cs := by
  fun_induction lineCommentLoop len cs with
  | case1 => simp
  | case2 => simp
  | case3 len c cs h ih => have := c.utf8Size_pos; simp; omega

/-- `leading_len() + trailing_len() <= len()` for every lexed token. Missing from the full C21: texts outside `Tame`, and the
unterminated block comments `/*`, `/*x` (see `C21_negation`). -/
theorem C21_partial {l : Lexer} {cs : List Char} {t : Token} (h : l.Before cs) (ht : Tame l.features cs) (hy : l.Yields t)
    (hc : ['/', '*'] <+: cs → 4 ≤ byteLen cs) : t.leadingLen.toNat + t.trailingLen.toNat ≤ t.len.toNat := by
  obtain ⟨l', ha, _⟩ := hy
  by_cases hne : cs = []
  · subst hne
    rw [advance_before h, if_pos rfl] at ha
    injection ha with ha; injection ha with ha _
    subst ha; decide
  obtain ⟨r, hsc, hs⟩ := advance_cases h hne ha
  obtain ⟨t', r', hsc', text, rest, hcv, hne', hlen, _⟩ := scan_covers hne ht.escapes ht.limits ht.comments
  rw [hsc] at hsc'; injection hsc' with hsc'; injection hsc' with hsc' _; subst hsc'
  have hpos : 1 ≤ t.len.toNat := by rw [hlen]; exact utf8Len_pos hne'
  have htot := ht.limits.total
  rw [byteLen_eq] at htot
  show AffixesFit t
  cases hs with
  | single hn => apply affixesFit_plain; have := singles_kind _ hn; intro hh; revert this hh; generalize (singleCharToken _).kind = k; cases k <;> decide
  | identLike hst hi =>
    obtain ⟨us, rest', nl, d, e, u, h1, h2, h3, h4, h5⟩ := consumeIdentLike_spec ht.escapes
    by_cases hp : Starts (· = '(') rest'
    · obtain ⟨p, r2, rfl, rfl⟩ := hp
      by_cases hu : (u && !isQuote (peekPastWs 4 r2)) = true
      · have := h3 _ rfl hu
        rw [hi] at this
        injection this with this
        have hsplit := h1.split
        have : t = (consumeUrl (utf8Len (nameText us) + 1) e r2).1 := by rw [← this]
        rw [this]
        refine consumeUrl_affixes _ _ (nameText us ++ ['(']) _ (by simp [show '('.utf8Size = 1 from rfl]) ?_ ?_
        · have := ht.escapes; rw [hsplit] at this; exact this.suffix.tail
        · rw [hsplit] at htot; simpa using htot
      · have := h4 _ rfl (by simpa using hu)
        rw [hi] at this; injection this with this; injection this with this _
        have e1 : t.leadingLen = 0#32 := by rw [this, newFunction_eq]; simp [Token.leadingLen]
        have e2 : t.trailingLen = 1#32 := by rw [this, newFunction_eq]; simp [Token.trailingLen]
        simp [AffixesFit, e1, e2]; omega
    · have := h5 hp
      rw [hi] at this; injection this with this; injection this with this _
      apply affixesFit_plain; rw [this, newIdent_eq]; simp
  | numeric hst hn =>
    have : t = (consumeNumeric cs).1 := by rw [hn]
    rw [this]
    unfold consumeNumeric
    dsimp only
    split
    · rw [newDimension_eq]; exact affixesFit_dimension ..
    · split
      · rw [newDimension_eq]; exact affixesFit_dimension ..
      · apply affixesFit_plain; rw [newNumber_eq]; simp
  | @ws c' cs ws rest h h' e hm =>
    apply affixesFit_plain; rw [newWhitespace_kind _ _ (wsFlags_lt _ _ (by decide))]; decide
  | @wsSep P st c' cs ws rest hP _ _ _ _ =>
    apply affixesFit_plain
    rw [newWhitespace_kind _ _ (by rcases hP with ⟨_, rfl⟩ | ⟨_, rfl⟩ | ⟨_, rfl⟩ <;> decide)]; decide
  | @string q cs t r hq hst =>
    have : t = (consumeString (q :: cs)).1 := by rw [hst]
    rw [this] at hpos ⊢
    unfold consumeString at hpos ⊢
    dsimp only at hpos ⊢
    obtain ⟨tx, e1, e2, e3⟩ := stringLoop_cover q false 1 cs ht.escapes.tail
    have hq1 : q.utf8Size = 1 := by rcases hq with rfl | rfl <;> decide
    match hl : stringLoop q false 1 cs with
    | (.str a b n, r') =>
      rw [hl] at e1 e2
      have hn := e2 a b n rfl
      rw [hl] at hpos
      simp only at hpos ⊢
      simp only [newString_eq] at hpos ⊢
      rw [len_word _ _ _ _ _ _ (by decide)] at hpos
      unfold AffixesFit
      rw [len_word _ _ _ _ _ _ (by decide)]
      simp only [Token.leadingLen, Token.trailingLen, mkTok_kind, Token.hasCloseQuote, mkTok_second]
      have htl : utf8Len tx ≤ utf8Len cs := by
        have := congrArg utf8Len e1; simp at this; omega
      simp [hq1] at htot
      have hn32 : (w32 n).toNat = n := w32_toNat (by omega)
      rw [hn32] at *
      cases a with
      | false => show 1 + 0 ≤ n; omega
      | true => have := stringLoop_close q false 1 cs (by rw [hl]); show 1 + 1 ≤ n; omega
    | (.bad n, r') =>
      simp only
      apply affixesFit_plain; rw [newBadString_eq]; simp
  | cdc => unfold AffixesFit; decide
  | cdo => unfold AffixesFit; decide
  | @hash cs t r _ hh =>
    have : t = (consumeHash ('#' :: cs)).1 := by rw [hh]
    have hk : t.kind = .hash := by rw [this, consumeHash]; simp [newHash_eq]
    have e1 : t.leadingLen = 1#32 := by unfold Token.leadingLen; rw [hk]
    have e2 : t.trailingLen = 0#32 := by unfold Token.trailingLen; rw [hk]
    unfold AffixesFit; rw [e1, e2]; exact hpos
  | «at» =>
    unfold AffixesFit
    have hk := newAtKeyword_eq
    rw [newAtKeyword_eq] at hpos ⊢
    simp only [Token.leadingLen, Token.trailingLen, mkTok_kind]
    exact hpos
  | @block cs =>
    have := block_trailing _ (blockCommentStyle_block cs) (w32 (blockCommentLoop 2 cs).1)
    unfold AffixesFit
    rw [this.1, this.2, (C17_comment _ _).2.1]
    have h4 := hc ⟨cs, rfl⟩
    have h5 := blockCommentLoop_len 2 cs
    have h6 := blockCommentLoop_le 2 cs
    rw [byteLen_eq] at h4
    simp [show '/'.utf8Size = 1 from rfl, show '*'.utf8Size = 1 from rfl] at h4 htot
    rw [w32_toNat (by omega)]
    show 2 + 2 ≤ _
    omega
  | @line cs _ =>
    have := line_trailing _ (lineCommentStyle_line cs) (w32 (lineCommentLoop 2 cs).1)
    unfold AffixesFit
    rw [this.1, this.2, (C17_comment _ _).2.1]
    have h5 := lineCommentLoop_bounds 2 cs
    simp [show '/'.utf8Size = 1 from rfl] at htot
    rw [w32_toNat (by omega)]
    show 2 + 0 ≤ _
    omega
  | dash => unfold AffixesFit; decide
  | lt => unfold AffixesFit; decide
  | pound => unfold AffixesFit; decide
  | atSign => unfold AffixesFit; decide
  | backslash => unfold AffixesFit; decide
  | slash => unfold AffixesFit; decide
  | @dotplus c' cs h => apply affixesFit_plain; rw [(C17_delim c').1]; decide
  | @other c' cs h1 h2 => apply affixesFit_plain; rw [(C17_delim c').1]; decide

/-- The exception is real and complete: a text that starts with `/*` and has fewer than 4 bytes lexes to a comment whose
affixes (2 + 2) exceed its length. -/
theorem C21_negation {l : Lexer} {cs : List Char} (h : l.Before cs) (hp : ['/', '*'] <+: cs) (hl : byteLen cs < 4) :
    ∃ t, l.Yields t ∧ t.kind = .comment ∧ t.len.toNat < t.leadingLen.toNat + t.trailingLen.toNat := by
  obtain ⟨z, rfl⟩ := hp
  have hs : scanToken l.features ('/' :: '*' :: z) = .ok (Token.newComment (blockCommentStyle z) (w32 (blockCommentLoop 2 z).1),
        (blockCommentLoop 2 z).2) := by
    rw [scan_slash]; simp
  refine ⟨_, yields_of_scan h (by simp) hs, (C17_comment _ _).1, ?_⟩
  have := block_trailing _ (blockCommentStyle_block z) (w32 (blockCommentLoop 2 z).1)
  rw [this.1, this.2, (C17_comment _ _).2.1]
  have h6 := blockCommentLoop_le 2 z
  rw [byteLen_eq] at hl
  simp [show '/'.utf8Size = 1 from rfl, show '*'.utf8Size = 1 from rfl] at hl
  rw [w32_toNat (by omega)]
  show _ < 2 + 2
  omega

example : ∃ t, (Lexer.new c!"/*a").Yields t ∧ t.kind = .comment ∧ t.len.toNat < t.leadingLen.toNat + t.trailingLen.toNat :=
  C21_negation (before_new _ _) ⟨['a'], rfl⟩ (by decide)
example : ['/', '*'] <+: c!"/**/" ∧ 4 ≤ byteLen c!"/**/" ∧ Tame {} c!"/**/" :=
  ⟨⟨c!"*/", rfl⟩, by decide, tame_of_ascii (by decide) (by decide)⟩

end Hdx

/-
C17: packing token facts is loss-free within the documented limits.

Each theorem: every fact given to a token constructor (css_lexer/src/token.rs:365-496) is what the corresponding public
accessor returns, for all values within the limits documented at css_lexer/src/lib.rs:120-137.
-/
import Verif.Lemmas.TokenLemmas

namespace Hdx
open Token

theorem C17_whitespace (style : Whitespace) (hs : style.bits.toNat < 8) (len : BitVec 32) :
    let t := newWhitespace style len
    t.kind = .whitespace ∧ t.len = len ∧ t.whitespaceStyle = style := by
  simp only [newWhitespace_eq style hs, mkTok_kind, true_and]
  refine ⟨len_word _ _ _ _ _ _ (by decide), ?_⟩
  simp only [whitespaceStyle, mkTok_kindBits, mkTok_shr29, beq_self_eq_true, if_true]
  obtain ⟨b⟩ := style
  simp only at hs ⊢
  have h : b = BitVec.ofNat 8 b.toNat := by simp
  have : b.toNat = 0 ∨ b.toNat = 1 ∨ b.toNat = 2 ∨ b.toNat = 3 ∨ b.toNat = 4 ∨ b.toNat = 5 ∨ b.toNat = 6 ∨
    b.toNat = 7 := by omega
  rcases this with e | e | e | e | e | e | e | e <;> rw [e] at h <;> subst h <;> rfl

example : (Whitespace.or .space .newline).bits.toNat < 8 := by decide

theorem C17_comment (style : CommentStyle) (len : BitVec 32) :
    let t := newComment style len
    t.kind = .comment ∧ t.len = len ∧ t.commentStyle = some style := by
  simp only [newComment_eq, mkTok_kind, true_and]
  refine ⟨len_word _ _ _ _ _ _ (by decide), ?_⟩
  simp only [commentStyle, mkTok_kindBits, mkTok_shr29, beq_self_eq_true, if_true]
  cases style <;> rfl

theorem C17_number (float sign : Bool) (len value : BitVec 32) (h : len.toNat < 2 ^ 24) :
    let t := newNumber float sign len value
    t.kind = .number ∧ t.len = len ∧ t.numericLen = len ∧ t.isFloat = float ∧ t.isInt = !float ∧ t.hasSign = sign
      ∧ t.value = value := by
  have hl := len_number float sign len value h
  have hn : (mkTok .number float sign false len value).numericLen = len := by
    simpa [Token.len, Token.isDelimLike, Kind.bits] using hl
  simp only [newNumber_eq]
  refine ⟨by simp, hl, hn, ?_, ?_, ?_, rfl⟩ <;>
    simp [isFloat, isInt, Token.hasSign, Kind.bits]

example : (16777215#32).toNat < 2 ^ 24 := by decide

/-- A dimension whose unit is not a known one: both lengths are kept. -/
theorem C17_dimension_unknown (float sign : Bool) (numLen unitLen value : BitVec 32) (hn : numLen.toNat < 2 ^ 12)
    (hu : unitLen.toNat < 2 ^ 12) :
    let t := newDimension float sign numLen unitLen value .unknown
    t.kind = .dimension ∧ t.len = numLen + unitLen ∧ t.numericLen = numLen ∧ t.isFloat = float ∧ t.isInt = !float
      ∧ t.hasSign = sign ∧ t.value = value ∧ t.dimensionUnit = .unknown := by
  simp only [newDimension_eq, if_true]
  have hd := dimensionUnit_dimension float sign numLen value .unknown hn unitLen (by simp)
  have hnl := numericLen_dimension float sign false numLen unitLen value hn hu
  simp only [bne_self_eq_false] at hd ⊢
  refine ⟨by simp, ?_, hnl, ?_, ?_, ?_, rfl, hd⟩
  · have h2 : (mkTok .dimension float sign false ((numLen <<< 12) &&& HALF_LENGTH_MASK ||| unitLen) value).w0
        &&& ~~~HALF_LENGTH_MASK = unitLen := by
      apply BitVec.eq_of_toNat_eq
      rw [mkTok_low12, half_toNat _ _ hn hu]; omega
    simp only [numericLen, mkTok_kindBits, beq_self_eq_true, if_true] at hnl
    simp only [Token.len, isDelimLike, mkTok_kindBits, mkTok_first, beq_self_eq_true, if_true, hnl, h2]
    rfl
  all_goals simp [isFloat, isInt, Token.hasSign, Kind.bits]

/-- A dimension with a known unit. -/
theorem C17_dimension_known (float sign : Bool) (numLen unitLen value : BitVec 32) (unit : DimensionUnit)
    (hk : unit ≠ .unknown) (hn : numLen.toNat < 2 ^ 12) :
    let t := newDimension float sign numLen unitLen value unit
    t.kind = .dimension ∧ t.len = numLen + BitVec.ofNat 32 unit.len ∧ t.numericLen = numLen ∧ t.isFloat = float
      ∧ t.isInt = !float ∧ t.hasSign = sign ∧ t.value = value ∧ t.dimensionUnit = unit := by
  have hc : (BitVec.ofNat 32 unit.code).toNat < 2 ^ 12 := by have := code_lt unit; simp; omega
  simp only [newDimension_eq, hk, if_false]
  have hd := dimensionUnit_dimension float sign numLen value unit hn (BitVec.ofNat 32 unit.code) (fun _ => rfl)
  have hnl := numericLen_dimension float sign (unit != .unknown) numLen _ value hn hc
  refine ⟨by simp, ?_, hnl, ?_, ?_, ?_, rfl, hd⟩
  · have hu : (unit != .unknown) = true := by simp [hk]
    rw [hu] at hd hnl ⊢
    simp only [Token.len, hnl, hd, isDelimLike, mkTok_kindBits, mkTok_first]
    rfl
  all_goals simp [isFloat, isInt, Token.hasSign, Kind.bits]

example : DimensionUnit.px ≠ .unknown ∧ (3#32).toNat < 2 ^ 12 := by decide

theorem C17_badString (len : BitVec 32) : (newBadString len).kind = .badString ∧ (newBadString len).len = len := by
  rw [newBadString_eq]; exact ⟨by simp, len_word _ _ _ _ _ _ (by decide)⟩

theorem C17_badUrl (len : BitVec 32) : (newBadUrl len).kind = .badUrl ∧ (newBadUrl len).len = len := by
  rw [newBadUrl_eq]; exact ⟨by simp, len_word _ _ _ _ _ _ (by decide)⟩

theorem C17_ident (nonLower dashed esc : Bool) (len : BitVec 32) :
    let t := newIdent nonLower dashed esc len
    t.kind = .ident ∧ t.len = len ∧ t.isLowerCase = !nonLower ∧ t.isDashedIdent = dashed
      ∧ t.containsEscapeChars = esc := by
  simp only [newIdent_eq]
  refine ⟨by simp, len_word _ _ _ _ _ _ (by decide), ?_, ?_, ?_⟩ <;>
    simp [isLowerCase, isIdentLike, isDashedIdent, containsEscapeChars, canEscape, Kind.bits]

theorem C17_function (nonLower dashed esc : Bool) (len : BitVec 32) :
    let t := newFunction nonLower dashed esc len
    t.kind = .function ∧ t.len = len ∧ t.isLowerCase = !nonLower ∧ t.isDashedIdent = dashed
      ∧ t.containsEscapeChars = esc := by
  simp only [newFunction_eq]
  refine ⟨by simp, len_word _ _ _ _ _ _ (by decide), ?_, ?_, ?_⟩ <;>
    simp [isLowerCase, isIdentLike, isDashedIdent, containsEscapeChars, canEscape, Kind.bits]

theorem C17_atKeyword (nonLower dashed esc : Bool) (len : BitVec 32) :
    let t := newAtKeyword nonLower dashed esc len
    t.kind = .atKeyword ∧ t.len = len ∧ t.isLowerCase = !nonLower ∧ t.isDashedIdent = dashed
      ∧ t.containsEscapeChars = esc := by
  simp only [newAtKeyword_eq]
  refine ⟨by simp, len_word _ _ _ _ _ _ (by decide), ?_, ?_, ?_⟩ <;>
    simp [isLowerCase, isIdentLike, isDashedIdent, containsEscapeChars, canEscape, Kind.bits]

theorem C17_hash (nonLower idLike esc : Bool) (len : BitVec 32) :
    let t := newHash nonLower idLike esc len
    t.kind = .hash ∧ t.len = len ∧ t.isLowerCase = !nonLower ∧ t.hashIsIdLike = idLike
      ∧ t.containsEscapeChars = esc := by
  simp only [newHash_eq]
  refine ⟨by simp, len_word _ _ _ _ _ _ (by decide), ?_, ?_, ?_⟩ <;>
    simp [isLowerCase, isIdentLike, hashIsIdLike, containsEscapeChars, canEscape, Kind.bits]

/-- Closed strings keep the quote style; the closing-quote and escape facts are always kept. -/
theorem C17_string (q : QuoteStyle) (hq : q = .single ∨ q = .double) (hasClose esc : Bool) (len : BitVec 32) :
    let t := newString q hasClose esc len
    t.kind = .string ∧ t.len = len ∧ t.hasCloseQuote = hasClose ∧ t.containsEscapeChars = esc
      ∧ (hasClose = true ∨ q = .double → t.quoteStyle = q) := by
  simp only [newString_eq]
  refine ⟨by simp, len_word _ _ _ _ _ _ (by decide), ?_, ?_, ?_⟩
  · simp [hasCloseQuote]
  · simp [containsEscapeChars, canEscape, Kind.bits]
  · rcases hq with rfl | rfl <;> cases hasClose <;> simp [quoteStyle, Kind.bits]

/-- What is missing from `C17_string`: an unclosed single-quoted string forgets its quote style. -/
theorem C17_string_counterexample :
    (newString .single false false 3#32).quoteStyle = .none := by decide

theorem C17_url (paren ws esc : Bool) (leading trailing len : BitVec 32) (hl : leading.toNat < 2 ^ 12)
    (ht : trailing.toNat < 2 ^ 12) :
    let t := newUrl paren ws esc leading trailing len
    t.kind = .url ∧ t.len = len ∧ t.urlHasClosingParen = paren ∧ t.urlHasLeadingSpace = ws
      ∧ t.containsEscapeChars = esc ∧ t.leadingLen = leading ∧ t.trailingLen = trailing := by
  simp only [newUrl_eq]
  refine ⟨by simp, len_word _ _ _ _ _ _ (by decide), ?_, ?_, ?_, ?_, ?_⟩
  · simp [urlHasClosingParen]
  · simp [urlHasLeadingSpace]
  · simp [containsEscapeChars, canEscape, isIdentLike, Kind.bits]
  · apply BitVec.eq_of_toNat_eq
    simp only [leadingLen, mkTok_kind, BitVec.toNat_ushiftRight, mkTok_low24, half_toNat _ _ hl ht,
      Nat.shiftRight_eq_div_pow]
    omega
  · apply BitVec.eq_of_toNat_eq
    simp only [trailingLen, mkTok_kind, mkTok_low12, half_toNat _ _ hl ht]
    omega

example : (5#32).toNat < 2 ^ 12 ∧ (1#32).toNat < 2 ^ 12 := by decide

theorem charFromU32_ofNat (c : Char) : charFromU32 (BitVec.ofNat 32 c.toNat) = some c := by
  have h1 : c.toNat < 2 ^ 32 := c.val.toNat_lt
  have h2 : (BitVec.ofNat 32 c.toNat).toNat = c.toNat := by simp; omega
  have h3 : c.toNat.isValidChar := c.valid
  unfold charFromU32
  rw [dif_pos (by rw [h2]; exact h3)]
  congr 1
  apply Char.ext
  apply UInt32.toNat.inj
  show (BitVec.ofNat 32 c.toNat).toNat = c.toNat
  exact h2

theorem C17_delim (c : Char) :
    let t := newDelim c
    t.kind = .delim ∧ t.len.toNat = c.utf8Size ∧ t.char = some c := by
  simp only [newDelim_eq]
  refine ⟨by simp, ?_, ?_⟩
  · rw [len_delimLike _ _ _ _ _ _ (by decide)]
    have h1 := Char.utf8Size_pos c
    have h2 := Char.utf8Size_le_four c
    have : c.utf8Size = 1 ∨ c.utf8Size = 2 ∨ c.utf8Size = 3 ∨ c.utf8Size = 4 := by omega
    rcases this with h | h | h | h <;> rw [h] <;> rfl
  · simp only [Token.char, isDelimLike, mkTok_kindBits, mkTok_w1, charFromU32_ofNat]
    rfl

/-- The single-character constants (css_lexer/src/token.rs:262-349). -/
theorem C17_char_constant (k : Kind) (c : Char) (hk : 16 ≤ k.bits) :
    let t := charToken k c
    t.kind = k ∧ t.len = 1#32 ∧ t.char = some c := by
  simp only [charToken_eq]
  refine ⟨by simp, by rw [len_delimLike _ _ _ _ _ _ hk]; rfl, ?_⟩
  simp only [Token.char, isDelimLike, mkTok_kindBits, mkTok_w1, charFromU32_ofNat]
  cases k <;> first | (exact absurd hk (by decide)) | rfl

example : (16 : Nat) ≤ Kind.colon.bits := by decide

/-- The public constant `Token::NUMBER_ZERO` (token.rs:259) does not describe the number zero: its length is 0 and its value
is the `f32` with bits 1. -/
theorem C17_NUMBER_ZERO_counterexample : NUMBER_ZERO.kind = .number ∧ NUMBER_ZERO.len = 0#32 ∧ NUMBER_ZERO.value = 1#32 := by
  decide

/-- Beyond the documented limit the facts are lost: a 4096-character number in a dimension has numeric length 0. -/
theorem C17_limit_is_needed :
    (newDimension false false 4096#32 1#32 0#32 .x).numericLen = 0#32 := by decide

end Hdx

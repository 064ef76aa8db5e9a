/-
Helper lemmas: what the packed words of a token contain.
-/
import Verif.Model.Token

namespace Hdx

/-- The packed first word: eight flag bits over a 24-bit field. -/
def pack (f l : BitVec 32) : BitVec 32 := (f <<< 24) &&& Token.KIND_MASK ||| (l &&& Token.LENGTH_MASK)

theorem pack_zero (f : BitVec 32) : (f <<< 24) &&& Token.KIND_MASK = pack f 0#32 := by
  simp [pack]

theorem and_lengthMask_toNat (l : BitVec 32) : (l &&& Token.LENGTH_MASK).toNat = l.toNat % 2 ^ 24 := by
  have : Token.LENGTH_MASK.toNat = 2 ^ 24 - 1 := by decide
  rw [BitVec.toNat_and, this, Nat.and_two_pow_sub_one_eq_mod]

theorem and_lowMask_toNat (l : BitVec 32) : (l &&& ~~~Token.HALF_LENGTH_MASK).toNat = l.toNat % 2 ^ 12 := by
  have : (~~~Token.HALF_LENGTH_MASK).toNat = 2 ^ 12 - 1 := by decide
  rw [BitVec.toNat_and, this, Nat.and_two_pow_sub_one_eq_mod]

theorem shl24_and_kindMask (f : BitVec 32) : (f <<< 24) &&& Token.KIND_MASK = f <<< 24 := by
  have : Token.KIND_MASK = BitVec.allOnes 32 <<< 24 := by decide
  rw [this, ← BitVec.shiftLeft_and_distrib, BitVec.and_allOnes]

theorem shl12_and_halfMask (f : BitVec 32) : (f <<< 12) &&& Token.HALF_LENGTH_MASK = f <<< 12 := by
  have : Token.HALF_LENGTH_MASK = BitVec.allOnes 32 <<< 12 := by decide
  rw [this, ← BitVec.shiftLeft_and_distrib, BitVec.and_allOnes]

theorem pack_toNat (f l : BitVec 32) (hf : f.toNat < 256) :
    (pack f l).toNat = f.toNat * 2 ^ 24 + l.toNat % 2 ^ 24 := by
  unfold pack
  rw [shl24_and_kindMask, BitVec.toNat_or, and_lengthMask_toNat, BitVec.toNat_shiftLeft]
  rw [Nat.mod_eq_of_lt (by rw [Nat.shiftLeft_eq]; omega)]
  rw [← Nat.shiftLeft_add_eq_or_of_lt (by omega), Nat.shiftLeft_eq]

/-- Two 12-bit fields in the low 24 bits. -/
theorem half_toNat (a b : BitVec 32) (ha : a.toNat < 2 ^ 12) (hb : b.toNat < 2 ^ 12) :
    ((a <<< 12) &&& Token.HALF_LENGTH_MASK ||| b).toNat = a.toNat * 2 ^ 12 + b.toNat := by
  rw [shl12_and_halfMask, BitVec.toNat_or, BitVec.toNat_shiftLeft]
  rw [Nat.mod_eq_of_lt (by rw [Nat.shiftLeft_eq]; omega)]
  rw [← Nat.shiftLeft_add_eq_or_of_lt hb, Nat.shiftLeft_eq]

theorem pack_shr24 (f l : BitVec 32) (hf : f.toNat < 256) : pack f l >>> 24 = f := by
  apply BitVec.eq_of_toNat_eq
  rw [BitVec.toNat_ushiftRight, pack_toNat f l hf, Nat.shiftRight_eq_div_pow]
  omega

theorem pack_shr (f l : BitVec 32) (hf : f.toNat < 256) (k : Nat) : pack f l >>> (24 + k) = f >>> k := by
  rw [BitVec.shiftRight_add, pack_shr24 f l hf]

theorem pack_len (f l : BitVec 32) (hf : f.toNat < 256) :
    (pack f l &&& Token.LENGTH_MASK).toNat = l.toNat % 2 ^ 24 := by
  rw [and_lengthMask_toNat, pack_toNat f l hf]; omega

theorem pack_low (f l : BitVec 32) (hf : f.toNat < 256) :
    (pack f l &&& ~~~Token.HALF_LENGTH_MASK).toNat = l.toNat % 2 ^ 12 := by
  rw [and_lowMask_toNat, pack_toNat f l hf]; omega

/-! Accessors of a packed word. -/

theorem kindBits_pack (f l w : BitVec 32) (hf : f.toNat < 256) :
    (Token.mk (pack f l) w).kindBits = (f &&& 0b11111#32).toNat := by
  simp only [Token.kindBits, pack_shr24 f l hf]

theorem firstBit_pack (f l w : BitVec 32) (hf : f.toNat < 256) :
    (Token.mk (pack f l) w).firstBit = (f >>> 7 == 1#32) := by
  simp only [Token.firstBit, pack_shr f l hf 7]

theorem secondBit_pack (f l w : BitVec 32) (hf : f.toNat < 256) :
    (Token.mk (pack f l) w).secondBit = ((f >>> 6) &&& 1#32 == 1#32) := by
  simp only [Token.secondBit, pack_shr f l hf 6]

theorem thirdBit_pack (f l w : BitVec 32) (hf : f.toNat < 256) :
    (Token.mk (pack f l) w).thirdBit = ((f >>> 5) &&& 1#32 == 1#32) := by
  simp only [Token.thirdBit, pack_shr f l hf 5]

theorem shr29_pack (f l : BitVec 32) (hf : f.toNat < 256) : pack f l >>> 29 = f >>> 5 := pack_shr f l hf 5

/-! Tokens built from three flags. -/

/-- A token with kind `k`, flags `a` (bit 5), `b` (bit 6), `c` (bit 7), low field `l` and second word `w`. -/
def mkTok (k : Kind) (a b c : Bool) (l w : BitVec 32) : Token := ⟨pack (Token.flags3 k a b c) l, w⟩

theorem flags3_lt (k : Kind) (a b c : Bool) : (Token.flags3 k a b c).toNat < 256 := by
  cases k <;> cases a <;> cases b <;> cases c <;> decide

section
variable (k : Kind) (a b c : Bool) (l w : BitVec 32)

@[simp] theorem mkTok_kindBits : (mkTok k a b c l w).kindBits = k.bits := by
  rw [mkTok, kindBits_pack _ _ _ (flags3_lt ..)]
  cases k <;> cases a <;> cases b <;> cases c <;> rfl
@[simp] theorem mkTok_kind : (mkTok k a b c l w).kind = k := by
  rw [Token.kind, mkTok_kindBits]; cases k <;> rfl
@[simp] theorem mkTok_first : (mkTok k a b c l w).firstBit = c := by
  rw [mkTok, firstBit_pack _ _ _ (flags3_lt ..)]
  cases k <;> cases a <;> cases b <;> cases c <;> rfl
@[simp] theorem mkTok_second : (mkTok k a b c l w).secondBit = b := by
  rw [mkTok, secondBit_pack _ _ _ (flags3_lt ..)]
  cases k <;> cases a <;> cases b <;> cases c <;> rfl
@[simp] theorem mkTok_third : (mkTok k a b c l w).thirdBit = a := by
  rw [mkTok, thirdBit_pack _ _ _ (flags3_lt ..)]
  cases k <;> cases a <;> cases b <;> cases c <;> rfl
@[simp] theorem mkTok_w1 : (mkTok k a b c l w).w1 = w := rfl
@[simp] theorem mkTok_low24 : ((mkTok k a b c l w).w0 &&& Token.LENGTH_MASK).toNat = l.toNat % 2 ^ 24 :=
  pack_len _ _ (flags3_lt ..)
@[simp] theorem mkTok_low12 : ((mkTok k a b c l w).w0 &&& ~~~Token.HALF_LENGTH_MASK).toNat = l.toNat % 2 ^ 12 :=
  pack_low _ _ (flags3_lt ..)
theorem mkTok_shr29 : (mkTok k a b c l w).w0 >>> 29 = Token.flags3 k a b c >>> 5 := shr29_pack _ _ (flags3_lt ..)
end

theorem newIdent_eq (a b c : Bool) (n : BitVec 32) : Token.newIdent a b c n = mkTok .ident a b c 0#32 n := by
  simp only [Token.newIdent, pack_zero, mkTok]
theorem newFunction_eq (a b c : Bool) (n : BitVec 32) : Token.newFunction a b c n = mkTok .function a b c 0#32 n := by
  simp only [Token.newFunction, pack_zero, mkTok]
theorem newAtKeyword_eq (a b c : Bool) (n : BitVec 32) : Token.newAtKeyword a b c n = mkTok .atKeyword a b c 0#32 n := by
  simp only [Token.newAtKeyword, pack_zero, mkTok]
theorem newHash_eq (a b c : Bool) (n : BitVec 32) : Token.newHash a b c n = mkTok .hash a b c 0#32 n := by
  simp only [Token.newHash, pack_zero, mkTok]
theorem newString_eq (q : QuoteStyle) (b c : Bool) (n : BitVec 32) :
    Token.newString q b c n = mkTok .string (q == .double) b c 0#32 n := by
  simp only [Token.newString, pack_zero, mkTok]
theorem newBadString_eq (n : BitVec 32) : Token.newBadString n = mkTok .badString false false false 0#32 n := by
  simp only [Token.newBadString, pack_zero, mkTok]; rfl
theorem newBadUrl_eq (n : BitVec 32) : Token.newBadUrl n = mkTok .badUrl false false false 0#32 n := by
  simp only [Token.newBadUrl, pack_zero, mkTok]; rfl
theorem newNumber_eq (f s : Bool) (n v : BitVec 32) : Token.newNumber f s n v = mkTok .number f s false n v := by
  simp only [Token.newNumber, mkTok, pack, Token.flags3]; simp [b2w]
theorem newUrl_eq (a b c : Bool) (lead trail n : BitVec 32) :
    Token.newUrl a b c lead trail n =
      mkTok .url a b c ((lead <<< 12) &&& Token.HALF_LENGTH_MASK ||| trail) n := by
  simp only [Token.newUrl, mkTok, pack]
theorem newDimension_eq (f s : Bool) (n m v : BitVec 32) (u : DimensionUnit) :
    Token.newDimension f s n m v u =
      mkTok .dimension f s (u != .unknown)
        ((n <<< 12) &&& Token.HALF_LENGTH_MASK ||| (if u = .unknown then m else BitVec.ofNat 32 u.code)) v := by
  simp only [Token.newDimension, mkTok, pack, Token.flags3]
  by_cases h : u = .unknown
  · simp [h, b2w]
  · simp only [h, if_false]
    have : (u != .unknown) = true := by simp [h]
    rw [this]
    cases f <;> cases s <;> rfl

/-- The three bits of a number below 8, as flags. -/
theorem newComment_eq (s : CommentStyle) (n : BitVec 32) :
    Token.newComment s n = mkTok .comment (s.code % 2 == 1) (s.code / 2 % 2 == 1) (s.code / 4 == 1) 0#32 n := by
  simp only [Token.newComment, pack_zero, mkTok]
  cases s <;> rfl

theorem newWhitespace_eq (s : Whitespace) (hs : s.bits.toNat < 8) (n : BitVec 32) :
    Token.newWhitespace s n =
      mkTok .whitespace (s.bits.getLsbD 0) (s.bits.getLsbD 1) (s.bits.getLsbD 2) 0#32 n := by
  simp only [Token.newWhitespace, pack_zero, mkTok]
  obtain ⟨b⟩ := s
  simp only at hs ⊢
  have : b = 0#8 ∨ b = 1#8 ∨ b = 2#8 ∨ b = 3#8 ∨ b = 4#8 ∨ b = 5#8 ∨ b = 6#8 ∨ b = 7#8 := by
    have h : b = BitVec.ofNat 8 b.toNat := by simp
    have : b.toNat = 0 ∨ b.toNat = 1 ∨ b.toNat = 2 ∨ b.toNat = 3 ∨ b.toNat = 4 ∨ b.toNat = 5 ∨ b.toNat = 6 ∨
      b.toNat = 7 := by omega
    rcases this with e | e | e | e | e | e | e | e <;> rw [e] at h <;> simp [h]
  rcases this with h | h | h | h | h | h | h | h <;> subst h <;> rfl

theorem newDelim_eq (c : Char) :
    Token.newDelim c = mkTok .delim (c.utf8Size % 2 == 1) (c.utf8Size / 2 == 1) (c.utf8Size == 4)
      (BitVec.ofNat 32 c.utf8Size) (BitVec.ofNat 32 c.toNat) := by
  have h1 := Char.utf8Size_pos c
  have h2 := Char.utf8Size_le_four c
  simp only [Token.newDelim, mkTok, pack]
  have : c.utf8Size = 1 ∨ c.utf8Size = 2 ∨ c.utf8Size = 3 ∨ c.utf8Size = 4 := by omega
  rcases this with h | h | h | h <;> rw [h] <;> rfl

theorem charToken_eq (k : Kind) (c : Char) :
    Token.charToken k c = mkTok k true false false 0#32 (BitVec.ofNat 32 c.toNat) := by
  simp only [Token.charToken, pack_zero, mkTok]
  cases k <;> rfl

/-! Lengths. -/

theorem len_word (k : Kind) (a b c : Bool) (l w : BitVec 32)
    (hk : k ≠ .eof ∧ k ≠ .number ∧ k ≠ .dimension ∧ k.bits < 16) : (mkTok k a b c l w).len = w := by
  obtain ⟨h1, h2, h3, h4⟩ := hk
  simp only [Token.len, Token.isDelimLike, mkTok_kindBits, mkTok_w1]
  cases k <;> first | contradiction | rfl | (revert h4; decide)

theorem len_delimLike (k : Kind) (a b c : Bool) (l w : BitVec 32) (hk : 16 ≤ k.bits) :
    (mkTok k a b c l w).len = BitVec.ofNat 32 (a.toNat + 2 * b.toNat + 4 * c.toNat) := by
  simp only [Token.len, Token.isDelimLike, mkTok_kindBits, mkTok_shr29]
  cases k <;> first | (exact absurd hk (by decide)) | (cases a <;> cases b <;> cases c <;> rfl)

theorem len_number (f s : Bool) (n v : BitVec 32) (h : n.toNat < 2 ^ 24) : (mkTok .number f s false n v).len = n := by
  apply BitVec.eq_of_toNat_eq
  have := mkTok_low24 .number f s false n v
  simp [Token.len, Token.isDelimLike, Token.numericLen, Kind.bits, -BitVec.toNat_and]
  omega

theorem ofCode_code (u : DimensionUnit) : DimensionUnit.ofCode u.code = u := by cases u <;> rfl
theorem code_lt (u : DimensionUnit) : u.code < 256 := by cases u <;> decide

theorem numericLen_dimension (f s k : Bool) (n x v : BitVec 32) (hn : n.toNat < 2 ^ 12) (hx : x.toNat < 2 ^ 12) :
    (mkTok .dimension f s k ((n <<< 12) &&& Token.HALF_LENGTH_MASK ||| x) v).numericLen = n := by
  apply BitVec.eq_of_toNat_eq
  simp only [Token.numericLen, mkTok_kindBits, beq_self_eq_true, if_true, BitVec.toNat_ushiftRight, mkTok_low24,
    half_toNat _ _ hn hx, Nat.shiftRight_eq_div_pow]
  omega

theorem dimensionUnit_dimension (f s : Bool) (n v : BitVec 32) (u : DimensionUnit) (hn : n.toNat < 2 ^ 12)
    (x : BitVec 32) (hx : u ≠ .unknown → x = BitVec.ofNat 32 u.code) :
    (mkTok .dimension f s (u != .unknown) ((n <<< 12) &&& Token.HALF_LENGTH_MASK ||| x) v).dimensionUnit = u := by
  by_cases h : u = .unknown
  · subst h; simp [Token.dimensionUnit]
  · have hu : (u != .unknown) = true := by simp [h]
    have := code_lt u
    have hx' : (BitVec.ofNat 32 u.code).toNat = u.code := by simp; omega
    rw [hu, hx h]
    simp only [Token.dimensionUnit, mkTok_first, mkTok_kindBits, bne_self_eq_false, Bool.not_true, Bool.or_self,
      Bool.false_eq_true, if_false, BitVec.toNat_setWidth, mkTok_low12]
    rw [half_toNat _ _ hn (by omega), hx']
    rw [show (n.toNat * 2 ^ 12 + u.code) % 2 ^ 12 % 2 ^ 8 = u.code by omega]
    exact ofCode_code u

end Hdx

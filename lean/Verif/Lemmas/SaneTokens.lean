/-
Facts about the tokens of a source that the An+B parser relies on.
-/
import Verif.Props.Decode
import Verif.Props.Lexical4
import Verif.Lemmas.TokenStream
import Verif.Model.Nth

namespace Hdx
open Spec

theorem char_delimLike {t : Token} {ch : Char} (h : t.char = some ch) : t.isDelimLike = true := by
  unfold Token.char at h
  split at h
  · assumption
  · cases h

theorem delimLike_kind {t : Token} (h : t.isDelimLike = true) : 16 ≤ t.kind.bits ∨ t.kind = .eof := by
  have hlt : t.kindBits < 32 := by
    simp only [Token.kindBits]
    have : (t.w0 >>> 24 &&& 31#32).toNat ≤ 31 := by
      rw [BitVec.toNat_and]; exact Nat.and_le_right
    omega
  have hall : ∀ n < 32, (n &&& 0b10000 == 0b10000) = true → 16 ≤ (Kind.ofBits n).bits ∨ Kind.ofBits n = .eof := by decide +kernel
  exact hall _ hlt h

theorem char_notKind {t : Token} {ch : Char} (h : t.char = some ch) {P : Prop} : t.kind ≠ .eof → t.kind.bits < 16 → P := by
  intro h1 h2
  rcases delimLike_kind (char_delimLike h) with h3 | h3
  · omega
  · exact absurd h3 h1

/-- A token whose character is a plus sign is a Delim. -/
theorem ScanCase.plus {f : Features} {cs r : List Char} {t : Token} (h : ScanCase f cs t r) (hc : t.char = some '+') : t.kind = .delim := by
  have kill : ∀ k : Kind, t.kind = k → k ≠ .eof → k.bits < 16 → t.kind = .delim := fun k h1 h2 h3 =>
    char_notKind hc (by rw [h1]; exact h2) (by rw [h1]; exact h3)
  cases h with
  | single h =>
    have : ∀ n ∈ singles, (singleCharToken n).char = some '+' → (singleCharToken n).kind = .delim := by decide +kernel
    exact this _ h hc
  | identLike h h' => rw [identLike_char h'] at hc; cases hc
  | numeric h h' =>
    have := consumeNumeric_kind cs
    rw [h'] at this
    simp only at this
    rcases this with e | e <;> exact kill _ e (by decide) (by decide)
  | @ws c cs ws rest h h' e hm =>
    exact kill _ (newWhitespace_kind (ws.foldl (fun s c => s.or (wsFlag c)) .none) (w32 ws.length) (wsFlags_lt _ _ (by decide))) (by decide) (by decide)
  | @wsSep P st c cs ws rest hP hc hf he hm =>
    have e : (Token.newWhitespace st (w32 ws.length)).kind = .whitespace := by
      apply newWhitespace_kind
      rcases hP with ⟨_, rfl⟩ | ⟨_, rfl⟩ | ⟨_, rfl⟩ <;> decide
    exact kill _ e (by decide) (by decide)
  | @string q cs t r hq h =>
    have := consumeString_kind q cs
    rw [h] at this
    simp only at this
    rcases this with e | e <;> exact kill _ e (by decide) (by decide)
  | cdc => exact absurd hc (by decide)
  | cdo => exact absurd hc (by decide)
  | @hash cs t r h h' =>
    have e : t.kind = .hash := by
      rw [show t = (consumeHash ('#' :: cs)).1 by rw [h']]
      simp [consumeHash, newHash_eq]
    exact kill _ e (by decide) (by decide)
  | «at» h => exact kill .atKeyword (by rw [newAtKeyword_eq, mkTok_kind]) (by decide) (by decide)
  | block => exact kill .comment (by rw [newComment_eq, mkTok_kind]) (by decide) (by decide)
  | line h => exact kill .comment (by rw [newComment_eq, mkTok_kind]) (by decide) (by decide)
  | dash => decide
  | @dotplus c => exact (C17_delim c).1
  | lt => decide
  | pound => decide
  | atSign => decide
  | backslash => decide
  | slash => decide
  | @other c => exact (C17_delim c).1

/-! ### The sign of a number -/

theorem ofRat_le (n d : Nat) : F32.ofRat n d ≤ 0x7f800000 := by
  unfold F32.ofRat
  dsimp only
  split
  · decide
  · split
    · decide
    · generalize (_ + _ : Nat) = bits
      split <;> omega

theorem parse_positive {cs : List Char} (h : ¬ Starts (· = '-') cs) : (F32.parse cs).getLsbD 31 = false := by
  have hs : (F32.readSign cs).1 = false := by
    unfold F32.readSign
    split
    · exact absurd ⟨_, _, rfl, rfl⟩ h
    · rfl
    · rfl
  unfold F32.parse
  simp only [hs, Bool.false_eq_true, if_false]
  have key : ∀ m : Nat, m ≤ 0x7f800000 → (BitVec.ofNat 32 m).getLsbD 31 = false := by
    intro m hm
    rw [BitVec.getLsbD_ofNat]
    simp only [Nat.lt_irrefl, Nat.reduceLT, decide_true, Bool.true_and]
    exact Nat.testBit_lt_two_pow (by omega)
  apply key
  have ite_le : ∀ (c : Prop) [Decidable c] (a b : Nat), a ≤ 0x7f800000 → b ≤ 0x7f800000 → (if c then a else b) ≤ 0x7f800000 := by
    intro c _ a b ha hb
    split <;> assumption
  exact ite_le _ _ _ (ofRat_le _ _) (ofRat_le _ _)

theorem f32ToI32_nonneg {w : BitVec 32} (h : w.getLsbD 31 = false) : 0 ≤ f32ToI32 w := by
  unfold f32ToI32
  dsimp only
  rw [h]
  split
  · omega
  · simp only [Bool.false_eq_true, if_false]
    split <;> omega

/-! ### The text of a number -/

theorem lowerLoop_prefix (b : Bool) (src : List Char) (st en i : Nat) (str cs r : List Char) (h : Cursor.lowerLoop b src st en i str cs = .ok r) : str <+: r := by
  fun_induction Cursor.lowerLoop b src st en i str cs with
  | case1 i str => cases h; exact List.prefix_rfl
  | case2 i str c cs hc ih => exact (List.prefix_append _ _).trans (ih h)
  | case3 => cases h
  | case4 => cases h; exact List.prefix_rfl
  | case5 => cases h
  | case6 i str c cs _ _ j _ r' _ ih => exact ih h
  | case7 => cases h
  | case8 i str c cs _ _ ch j _ r' _ ih => exact (List.prefix_append _ _).trans (ih h)
  | case9 i str c cs _ _ ih => exact (List.prefix_append _ _).trans (ih h)

/-- The first character of the text of a number, as `parse_str_lower` gives it. -/
theorem lower_first {c : Cursor} {source num after r : List Char} {x : Char} (h : Inner c source (x :: num) after) (hl : c.token.isLowerCase = false)
    (hx : x ≠ EOFc) (hb : x ≠ '\\') (hr : c.parseStrLower source = .ok r) : r.head? = some (toAsciiLower x) := by
  unfold Cursor.parseStrLower at hr
  rw [if_neg (by simp [hl]), h.stop] at hr
  simp only [bind, Except.bind, h.slice] at hr
  rw [Cursor.lowerLoop.eq_def] at hr
  simp only [beq_iff_eq, hx, hb, if_false, List.nil_append] at hr
  obtain ⟨t, rfl⟩ := lowerLoop_prefix _ _ _ _ _ _ _ _ hr
  rfl

/-- What holds of every token of a source the lexer handles: a `+` is a Delim; a number without a sign is not negative; the text of a number
does not begin with a letter. -/
structure SaneTok (src : List Char) (c : Cursor) : Prop where
  plus : c.token.char = some '+' → c.token.kind = .delim
  signless : c.token.kind = .number → c.token.hasSign = false → 0 ≤ f32ToI32 c.token.value
  text : c.token.kind = .number → ∀ s, c.parseStrLower src ≠ .ok ('n' :: s) ∧ c.parseStrLower src ≠ .ok ('N' :: s)

theorem number_not_lower {t : Token} (h : t.kind = .number) : t.isLowerCase = false := by
  have := kindBits_of_kind (t := t) (by rw [h]; decide)
  simp [Token.isLowerCase, Token.isIdentLike, this, h, Kind.bits]

theorem sane_advance {l l' : Lexer} {x : List Char} {t : Token} (hb : l.Before x) (ht : Tame l.features l.source) (hne : x ≠ [])
    (ha : l.advance = .ok (t, l')) : SaneTok l.source ⟨l.offset, t⟩ := by
  obtain ⟨pre, hp1, hp2⟩ := hb
  have hb : l.Before x := ⟨pre, hp1, hp2⟩
  have htx : Tame l.features x := by rw [hp1] at ht; exact ht.suffix
  have hnum : t.kind = .number → ∃ num rest, x = num ++ rest ∧ num ≠ [] ∧ StartsNumber x ∧ t.len.toNat = num.length ∧
      (t.hasSign = true ↔ Starts (fun c => c = '+' ∨ c = '-') num) ∧ t.value = F32.parse num ∧ byteLen num = num.length := by
    intro hk
    have hs := C12_only hb hne ha (.inl hk)
    obtain ⟨num, rest, rfl, hn⟩ := C12_total hs
    obtain ⟨t', ⟨_, y1, _⟩, y2, y3, y4, y5, y6, y7, y8, y9⟩ := C12_partial hb hn htx.escapes htx.limits
    rw [ha] at y1; cases y1
    obtain ⟨s, i, f, e, r, hp, hcs, hlong, _⟩ := consumeNumeric_spec ((isNumberStart_iff _).mpr hs)
    have hu := longestNumber_unique hlong hn
    have hlen := number_len hp
    rw [hu] at hlen
    exact ⟨num, rest, rfl, hlen.2, hs, y4 hk, y8, y9, by rw [byteLen_eq]; exact hlen.1⟩
  obtain ⟨_, _, hcase⟩ := advance_cases hb hne ha
  refine ⟨hcase.plus, ?_, ?_⟩
  · intro hk hsg
    obtain ⟨num, rest, rfl, h1, h2, h3, h4, h5, h6⟩ := hnum hk
    show 0 ≤ f32ToI32 t.value
    rw [h5]
    refine f32ToI32_nonneg (parse_positive ?_)
    rintro ⟨c, r, rfl, hc⟩
    have : t.hasSign = true := h4.mpr ⟨c, r, rfl, .inr hc⟩
    have hsg : t.hasSign = false := hsg
    rw [hsg] at this; cases this
  · intro hk s
    have hk : t.kind = .number := hk
    obtain ⟨num, rest, rfl, h1, h2, h3, h4, h5, h6⟩ := hnum hk
    obtain ⟨c, num, rfl⟩ := List.exists_cons_of_ne_nil h1
    have hin : Inner ⟨l.offset, t⟩ l.source (c :: num) rest := by
      refine ⟨⟨pre, [], [], rest, by simp [hp1], by simp, hp2, by simp [Token.leadingLen, hk, byteLen_eq], by simp [Token.trailingLen, hk, byteLen_eq],
        by show t.len.toNat = _; rw [h3, ← h6]; simp [byteLen_eq]⟩, ?_⟩
      have := ht.limits.total
      rw [hp1] at this
      simp only [byteLen_eq, utf8Len_append] at this
      have hpos := utf8Len_pos h1
      show l.offset ≠ _
      rw [hp2, byteLen_eq]; omega
    obtain ⟨c', r', hcr, hc', _⟩ := startsNumber_first h2
    have hcc : c' = c := by simp at hcr; exact hcr.1.symm
    subst hcc
    have hne : ∀ d : Char, isDigit d = false → d ≠ '.' → d ≠ '+' → d ≠ '-' → c' ≠ d := by
      rintro d h1 h2 h3 h4 rfl
      rcases hc' with h | h | h | h
      · rw [← isDigit_iff] at h; rw [h1] at h; cases h
      · exact h2 h
      · exact h3 h
      · exact h4 h
    have hlow : ∀ d, d = 'n' ∨ d = 'N' → toAsciiLower c' ≠ d := by
      intro d hd he
      unfold toAsciiLower at he
      split at he
      · rename_i hu
        rcases hc' with h | rfl | rfl | rfl
        · rw [← isDigit_iff] at h
          simp only [isDigit, Bool.and_eq_true, decide_eq_true_eq] at h
          simp only [Bool.and_eq_true, decide_eq_true_eq] at hu
          omega
        all_goals exact absurd hu (by decide)
      · rcases hd with rfl | rfl
        · exact hne 'n' (by decide) (by decide) (by decide) (by decide) he
        · exact hne 'N' (by decide) (by decide) (by decide) (by decide) he
    constructor <;> intro hr <;> have := lower_first hin (number_not_lower hk) (hne _ (by decide) (by decide) (by decide) (by decide))
      (hne _ (by decide) (by decide) (by decide) (by decide)) hr
    · exact hlow _ (.inl rfl) (Option.some.inj this).symm
    · exact hlow _ (.inr rfl) (Option.some.inj this).symm

theorem sane_of_stream {l : Lexer} {cs : List Cursor} (h : Stream l cs) {x : List Char} (hb : l.Before x) (ht : Tame l.features l.source) :
    ∀ c ∈ cs, SaneTok l.source c := by
  induction h generalizing x with
  | nil => simp
  | @cons l l' t cs ha hk hz h ih =>
    obtain ⟨pre, hp1, hp2⟩ := hb
    have hb : l.Before x := ⟨pre, hp1, hp2⟩
    have hne : x ≠ [] := by
      rintro rfl
      rw [advance_before hb, if_pos rfl] at ha
      cases ha; cases hk
    have htx : Tame l.features x := by rw [hp1] at ht; exact ht.suffix
    obtain ⟨t', l2, text, cs', a1, a2, a3, a4, a5, a6, a7⟩ := advance_tame hb htx hne
    rw [ha] at a1; cases a1
    have hs : l'.source = l.source := (advance_keeps ha).1
    have hf : l'.features = l.features := by rw [a6]
    intro c hc
    rcases List.mem_cons.mp hc with rfl | hc
    · exact sane_advance hb ht hne ha
    · have := ih a7 (by rw [hs, hf]; exact ht) c hc
      rw [hs] at this; exact this

end Hdx

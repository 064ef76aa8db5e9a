/-
Helper lemmas about texts: byte lengths, byte slices, ASCII.
-/
import Verif.Model.Chars

namespace Hdx

@[simp] theorem utf8Len_nil : utf8Len [] = 0 := rfl
@[simp] theorem utf8Len_cons (c : Char) (cs : List Char) : utf8Len (c :: cs) = c.utf8Size + utf8Len cs := rfl

@[simp] theorem utf8Len_append (a b : List Char) : utf8Len (a ++ b) = utf8Len a + utf8Len b := by
  induction a with
  | nil => simp
  | cons c cs ih => simp [ih]; omega

theorem utf8Len_pos {cs : List Char} (h : cs ≠ []) : 0 < utf8Len cs := by
  cases cs with
  | nil => contradiction
  | cons c cs => have := Char.utf8Size_pos c; simp; omega

theorem utf8Len_eq_zero {cs : List Char} : utf8Len cs = 0 ↔ cs = [] := by
  constructor
  · intro h; by_cases hc : cs = []
    · exact hc
    · have := utf8Len_pos hc; omega
  · rintro rfl; rfl

theorem utf8Size_ascii {c : Char} (h : c.toNat < 128) : c.utf8Size = 1 := by
  have hv : c.val ≤ 0x7f := by
    rw [UInt32.le_iff_toNat_le]; show c.toNat ≤ 127; omega
  simp [Char.utf8Size, hv]

theorem utf8Size_isAscii {c : Char} (h : isAscii c = true) : c.utf8Size = 1 := by
  apply utf8Size_ascii; simpa [isAscii] using h

theorem utf8Len_of_ascii {cs : List Char} (h : ∀ c ∈ cs, isAscii c = true) : utf8Len cs = cs.length := by
  induction cs with
  | nil => rfl
  | cons c cs ih =>
    have h1 := utf8Size_isAscii (h c (by simp))
    have h2 := ih (fun d hd => h d (by simp [hd]))
    simp [h1, h2]; omega

theorem length_le_utf8Len (cs : List Char) : cs.length ≤ utf8Len cs := by
  induction cs with
  | nil => simp
  | cons c cs ih => have := Char.utf8Size_pos c; simp; omega

@[simp] theorem dropBytes_zero (cs : List Char) : dropBytes cs 0 = some cs := by cases cs <;> rfl

theorem dropBytes_append (a b : List Char) : dropBytes (a ++ b) (utf8Len a) = some b := by
  induction a with
  | nil => simp
  | cons c cs ih =>
    have := Char.utf8Size_pos c
    obtain ⟨n, hn⟩ : ∃ n, c.utf8Size + utf8Len cs = n + 1 := ⟨c.utf8Size + utf8Len cs - 1, by omega⟩
    simp only [List.cons_append, utf8Len_cons, hn, dropBytes]
    rw [if_pos (by omega), show n + 1 - c.utf8Size = utf8Len cs by omega, ih]

@[simp] theorem takeBytes_zero (cs : List Char) : takeBytes cs 0 = some [] := by cases cs <;> rfl

theorem takeBytes_append (a b : List Char) : takeBytes (a ++ b) (utf8Len a) = some a := by
  induction a with
  | nil => simp
  | cons c cs ih =>
    have := Char.utf8Size_pos c
    obtain ⟨n, hn⟩ : ∃ n, c.utf8Size + utf8Len cs = n + 1 := ⟨c.utf8Size + utf8Len cs - 1, by omega⟩
    simp only [List.cons_append, utf8Len_cons, hn, takeBytes]
    rw [if_pos (by omega), show n + 1 - c.utf8Size = utf8Len cs by omega, ih]
    rfl

/-- `dropBytes` succeeds exactly on the boundaries, and then splits the text. -/
theorem dropBytes_eq_some {cs r : List Char} {n : Nat} (h : dropBytes cs n = some r) :
    ∃ a, cs = a ++ r ∧ utf8Len a = n := by
  induction cs generalizing n with
  | nil =>
    cases n with
    | zero => simp at h; exact ⟨[], by simp [h]⟩
    | succ n => simp [dropBytes] at h
  | cons c cs ih =>
    cases n with
    | zero => simp at h; exact ⟨[], by simp [h]⟩
    | succ n =>
      rw [dropBytes] at h
      split at h
      · obtain ⟨a, h1, h2⟩ := ih h
        exact ⟨c :: a, by simp [h1], by simp [h2]; omega⟩
      · contradiction

theorem takeBytes_eq_some {cs t : List Char} {n : Nat} (h : takeBytes cs n = some t) :
    ∃ r, cs = t ++ r ∧ utf8Len t = n := by
  induction cs generalizing n t with
  | nil =>
    cases n with
    | zero => simp at h; subst h; exact ⟨[], by simp⟩
    | succ n => simp [takeBytes] at h
  | cons c cs ih =>
    cases n with
    | zero => simp at h; subst h; exact ⟨c :: cs, by simp⟩
    | succ n =>
      rw [takeBytes] at h
      split at h
      · rw [Option.map_eq_some_iff] at h
        obtain ⟨a, h1, h2⟩ := h
        obtain ⟨r, h3, h4⟩ := ih h1
        exact ⟨r, by simp [← h2, h3], by simp [← h2, h4]; omega⟩
      · contradiction

theorem sliceBytes_append (a b c : List Char) :
    sliceBytes (a ++ (b ++ c)) (utf8Len a) (utf8Len a + utf8Len b) = some b := by
  simp only [sliceBytes]
  rw [if_pos (by omega), dropBytes_append]
  simp only [Option.bind_some, Nat.add_sub_cancel_left]
  exact takeBytes_append b c

/-- A character is determined by its code. -/
theorem char_eq_of_toNat {c d : Char} (h : c.toNat = d.toNat) : c = d := by
  apply Char.ext; apply UInt32.toNat.inj; exact h

theorem toNat_ofNat_valid {n : Nat} (h : n.isValidChar) : (Char.ofNat n).toNat = n := by
  unfold Char.ofNat
  rw [dif_pos h]
  rfl

theorem isHexDigit_ascii {c : Char} (h : isHexDigit c = true) : isAscii c = true := by
  simp only [isHexDigit, isDigit, isAscii, Bool.or_eq_true, Bool.and_eq_true, decide_eq_true_eq] at *; omega
theorem isDigit_ascii {c : Char} (h : isDigit c = true) : isAscii c = true := by
  simp only [isDigit, isAscii, Bool.and_eq_true, decide_eq_true_eq] at *; omega
theorem isIdentAsciiLower_ascii {c : Char} (h : isIdentAsciiLower c = true) : isAscii c = true := by
  simp only [isIdentAsciiLower, isAscii, Bool.and_eq_true, decide_eq_true_eq] at *; omega
theorem isWhitespace_ascii {c : Char} (h : isWhitespace c = true) : isAscii c = true := by
  simp only [isWhitespace, isNewline, Bool.or_eq_true, beq_iff_eq] at h
  rcases h with (h | h) | (h | h) | h <;> subst h <;> decide
theorem isNewline_ascii {c : Char} (h : isNewline c = true) : isAscii c = true :=
  isWhitespace_ascii (by simp [isWhitespace, h])

end Hdx

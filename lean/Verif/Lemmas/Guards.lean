/-
Helper lemmas: simple sufficient conditions for the guards `EscAscii`, `WithinLimits`, `LineCommentsAscii`, used to show that
the hypotheses of the property theorems are met.
-/
import Verif.Lemmas.Cover

namespace Hdx
open Spec

theorem escAscii_of_ascii {cs : List Char} (h : ∀ c ∈ cs, c.toNat < 128) : EscAscii cs := by
  rintro pre c post rfl
  exact h c (by simp)

theorem escAscii_of_no_backslash {cs : List Char} (h : '\\' ∉ cs) : EscAscii cs := by
  rintro pre c post rfl
  exact absurd (by simp) h

/-- A decision procedure for `EscAscii`. -/
def escAsciiCheck : List Char → Bool
  | [] => true
  | c :: r => (c != '\\' || r.head?.all (·.toNat < 128)) && escAsciiCheck r

theorem escAscii_of_check {cs : List Char} (h : escAsciiCheck cs = true) : EscAscii cs := by
  rintro pre c post rfl
  induction pre with
  | nil => simp [escAsciiCheck] at h; exact h.1
  | cons p pre ih => simp only [List.cons_append, escAsciiCheck, Bool.and_eq_true] at h; exact ih h.2

theorem lineCommentsAscii_of_ascii {cs : List Char} (h : ∀ c ∈ cs, c.toNat < 128) : LineCommentsAscii cs := by
  rintro pre body post rfl _ c hc
  exact h c (by simp [hc])

theorem withinLimits_of_short {cs : List Char} (h : byteLen cs < 2 ^ 12) : WithinLimits cs := by
  rw [byteLen_eq] at h
  refine ⟨?_, ?_, ?_, ?_⟩
  · rw [byteLen_eq]; omega
  · rintro pre t post rfl _
    have := length_le_utf8Len t
    simp only [utf8Len_append] at h; omega
  · rintro pre t post rfl _ _
    have := length_le_utf8Len t
    simp only [utf8Len_append] at h; omega
  · rintro pre t us post rfl _ _
    rw [byteLen_eq]
    simp only [utf8Len_append] at h; omega

end Hdx

/-
Helper lemmas: the name scanner that looks for the `url` keyword (`consume_ident_sequence_finding_url_keyword`).
-/
import Verif.Lemmas.Scan

namespace Hdx
open Spec

/-- Which name elements keep `is_url_like_keyword` set, starting at position `i` (after any leading dashes). -/
def UrlFits : Nat → List NameUnit → Prop
  | _, [] => True
  | i, .chr c :: us =>
    c ≠ NUL ∧ (i = 0 → c = 'u' ∨ c = 'U') ∧ (i = 1 → c = 'r' ∨ c = 'R') ∧ (i = 2 → c = 'l' ∨ c = 'L') ∧ UrlFits (i + 1) us
  | i, .esc e :: us => urlEscapeFits i (trim ('\\' :: e)) = true ∧ UrlFits (i + 1) us

/-- `UrlFits`, with the treatment of leading dashes at position 0. -/
def UrlFitsFrom (i : Nat) (us : List NameUnit) : Prop :=
  match i, us with
  | 0, .chr '-' :: .chr '-' :: us => UrlFits 2 us
  | 0, .chr '-' :: us => UrlFits 1 us
  | i, us => UrlFits i us

theorem urlFitsFrom_pos {i : Nat} (h : 0 < i) (us : List NameUnit) : UrlFitsFrom i us = UrlFits i us := by
  unfold UrlFitsFrom
  split
  · omega
  · omega
  · rfl

theorem urlFitsFrom_chr {c : Char} (hc : c ≠ '-') (i : Nat) (us : List NameUnit) :
    UrlFitsFrom i (.chr c :: us) = UrlFits i (.chr c :: us) := by
  unfold UrlFitsFrom
  split
  · rename_i h; simp at h; exact absurd h.1 hc
  · rename_i h; simp at h; exact absurd h.1 hc
  · rfl

theorem urlFitsFrom_esc (e : List Char) (i : Nat) (us : List NameUnit) :
    UrlFitsFrom i (.esc e :: us) = UrlFits i (.esc e :: us) := by
  unfold UrlFitsFrom
  split
  · rename_i h; simp at h
  · rename_i h; simp at h
  · rfl

theorem consumeEscape_nonascii {c : Char} {cs : List Char} (h : ¬ isAscii c = true) :
    takeBytes ('\\' :: c :: cs) (consumeEscape (c :: cs)).1 = none := by
  have hx : ¬ isHexDigit c = true := fun hh => h (isHexDigit_ascii hh)
  have hsz : 1 < c.utf8Size := by
    simp only [isAscii, decide_eq_true_eq, Nat.not_lt] at h
    have hv : ¬ c.val ≤ 0x7f := by
      rw [UInt32.le_iff_toNat_le]; show ¬ c.toNat ≤ 127; omega
    have h1 : c.utf8Size ≠ 1 := fun h1 => hv (Char.utf8Size_eq_one_iff.mp h1)
    have h2 := Char.utf8Size_pos c
    omega
  simp only [consumeEscape, hx]
  simp [takeBytes, show '\\'.utf8Size = 1 by decide]
  omega

theorem urlKeywordLoop_spec (s : UrlState) (cs : List Char) :
    (EscAscii cs → ∃ r, urlKeywordLoop s cs = .ok r) ∧
    ∀ s' rest, urlKeywordLoop s cs = .ok (s', rest) →
      ∃ us, NameScan cs us rest
        ∧ (EscAscii cs → s'.len = s.len + utf8Len (nameText us))
        ∧ (s'.esc = true ↔ s.esc = true ∨ HasEsc us)
        ∧ (s.nonLower = true ∨ HasNonLower us → s'.nonLower = true)
        ∧ (s'.nonLower = true → s.nonLower = true ∨ ∃ c, NameUnit.chr c ∈ us ∧ c ≠ NUL ∧ ¬ Lower c)
        ∧ (NameUnit.chr NUL ∉ us → (s'.dashed = true ↔ s.dashed = true ∨ (s.i = 0 ∧ StartsDashed us)))
        ∧ (s'.urlLike = true ↔ s.urlLike = true ∧ UrlFitsFrom s.i us)
        ∧ s.len + us.length ≤ s'.len := by
  fun_induction urlKeywordLoop s cs with
  | case1 s =>
    refine ⟨fun _ => ⟨_, rfl⟩, ?_⟩
    intro s' rest h
    simp only [Except.ok.injEq, Prod.mk.injEq] at h
    obtain ⟨rfl, rfl⟩ := h
    refine ⟨[], ⟨by simp, trivial, nameEnds_nil⟩, by simp, by simp [hasEsc_nil], by simp [hasNonLower_nil],
      by simp, by simp [StartsDashed], ?_, by simp⟩
    unfold UrlFitsFrom; split <;> simp_all [UrlFits]
  | case2 s c h d ds hd ih =>
    simp only [Bool.and_eq_true, beq_iff_eq] at h hd
    obtain ⟨h0, rfl⟩ := h
    subst hd
    refine ⟨fun he => ih.1 he.tail.tail, ?_⟩
    intro s' rest hr
    obtain ⟨us, i1, i2, i3, i4, i5, i6, i7, i8⟩ := ih.2 s' rest hr
    refine ⟨.chr '-' :: .chr '-' :: us, (i1.chr (Or.inl dash_nameChar)).chr (Or.inl dash_nameChar),
      ?_, ?_, ?_, ?_, ?_, ?_, ?_⟩
    · intro he; rw [i2 he.tail.tail]; simp [show '-'.utf8Size = 1 by decide]; omega
    · rw [i3, hasEsc_chr, hasEsc_chr]; simp [show ('-' = NUL) ↔ False by decide]
    · intro h; apply i4; rw [hasNonLower_chr, hasNonLower_chr] at h; simpa using h
    · intro h; rcases i5 h with h | ⟨c, h1, h2⟩
      · exact Or.inl h
      · exact Or.inr ⟨c, by simp [h1], h2⟩
    · intro hn
      rw [i6 (by intro h; apply hn; simp [h])]
      simp [h0, StartsDashed]
    · rw [i7, h0, urlFitsFrom_pos (by simp)]
      show _ ↔ _ ∧ UrlFits 2 us
      simp
    · simp at i8 ⊢; omega
  | case3 s c h d ds hd ih =>
    simp only [Bool.and_eq_true, beq_iff_eq] at h hd
    obtain ⟨h0, rfl⟩ := h
    refine ⟨fun he => ih.1 he.tail, ?_⟩
    intro s' rest hr
    obtain ⟨us, i1, i2, i3, i4, i5, i6, i7, i8⟩ := ih.2 s' rest hr
    have hnd : ∀ us', us ≠ .chr '-' :: us' := by
      rintro us' rfl
      have := i1.split
      simp at this
      exact absurd this.1 hd
    refine ⟨.chr '-' :: us, i1.chr (Or.inl dash_nameChar), ?_, ?_, ?_, ?_, ?_, ?_, ?_⟩
    · intro he; rw [i2 he.tail]; simp [show '-'.utf8Size = 1 by decide]; omega
    · rw [i3, hasEsc_chr]; simp [show ('-' = NUL) ↔ False by decide]
    · intro h; apply i4; rw [hasNonLower_chr] at h; simpa using h
    · intro h; rcases i5 h with h | ⟨c, h1, h2⟩
      · exact Or.inl h
      · exact Or.inr ⟨c, by simp [h1], h2⟩
    · intro hn
      rw [i6 (by intro h; apply hn; simp [h]), startsDashed_chr]
      simp [h0]
      rintro us' rfl
      exact absurd rfl (hnd us')
    · rw [i7, h0, urlFitsFrom_pos (by simp)]
      show _ ↔ _ ∧ UrlFitsFrom 0 (.chr '-' :: us)
      have : UrlFitsFrom 0 (.chr '-' :: us) = UrlFits 1 us := by
        unfold UrlFitsFrom
        split
        · rename_i h; simp at h; exact absurd h (hnd _)
        · rename_i h; simp at h; rw [h]
        · rename_i h1 h2; exact absurd rfl (h2 us rfl)
      rw [this]
    · simp at i8 ⊢; omega
  | case4 s c h ih =>
    simp only [Bool.and_eq_true, beq_iff_eq] at h
    obtain ⟨h0, rfl⟩ := h
    refine ⟨fun he => ih.1 he.tail, ?_⟩
    intro s' rest hr
    obtain ⟨us, i1, i2, i3, i4, i5, i6, i7, i8⟩ := ih.2 s' rest hr
    have hnd : us = [] := by
      have := i1.split
      cases us with
      | nil => rfl
      | cons u us => cases u <;> simp at this
    subst hnd
    refine ⟨[.chr '-'], i1.chr (Or.inl dash_nameChar), ?_, ?_, ?_, ?_, ?_, ?_, ?_⟩
    · intro he; rw [i2 he.tail]; simp [show '-'.utf8Size = 1 by decide]
    · rw [i3, hasEsc_chr]; simp [show ('-' = NUL) ↔ False by decide]
    · intro h; apply i4; rw [hasNonLower_chr] at h; simpa using h
    · intro h; rcases i5 h with h | ⟨c, h1, h2⟩
      · exact Or.inl h
      · simp at h1
    · intro hn
      rw [i6 (by simp), startsDashed_chr]
      simp [h0]
    · rw [i7, h0, urlFitsFrom_pos (by simp)]
      show _ ∧ UrlFits 1 [] ↔ _ ∧ UrlFits 1 []
      rfl
    · simp at i8 ⊢; omega
  | case5 s c cs h1 h2 ih =>
    have hl := (isIdentAsciiLower_iff c).mp h2
    have hname : NameChar c := Or.inl (Or.inl hl)
    have hne : c ≠ NUL := by rintro rfl; exact nul_not_nameChar hname
    have hnd : c ≠ '-' := by rintro rfl; revert h2; decide
    have hU : c ≠ 'U' ∧ c ≠ 'R' ∧ c ≠ 'L' := by
      refine ⟨?_, ?_, ?_⟩ <;> (rintro rfl; revert h2; decide)
    have hsz : c.utf8Size = 1 := utf8Size_isAscii (isIdentAsciiLower_ascii h2)
    refine ⟨fun he => ih.1 he.tail, ?_⟩
    intro s' rest hr
    obtain ⟨us, i1, i2, i3, i4, i5, i6, i7, i8⟩ := ih.2 s' rest hr
    refine ⟨.chr c :: us, i1.chr (Or.inl hname), ?_, ?_, ?_, ?_, ?_, ?_, ?_⟩
    · intro he; rw [i2 he.tail]; simp [hsz]; omega
    · rw [i3, hasEsc_chr]; simp [hne]
    · intro h; apply i4; rw [hasNonLower_chr] at h; simpa [hl] using h
    · intro h; rcases i5 h with h | ⟨c, h1, h2⟩
      · exact Or.inl h
      · exact Or.inr ⟨c, by simp [h1], h2⟩
    · intro hn
      rw [i6 (by intro h; apply hn; simp [h]), startsDashed_chr]
      simp [hnd]
    · rw [i7, urlFitsFrom_pos (by simp), urlFitsFrom_chr hnd]
      simp only [UrlFits, Bool.and_eq_true, Bool.not_eq_true', Bool.or_eq_false_iff, Bool.and_eq_false_iff, beq_eq_false_iff_ne,
        bne_eq_false_iff_eq, ne_eq, hne, not_false_eq_true, true_and, hU.1, hU.2.1, hU.2.2, or_false]
      grind
    · simp at i8 ⊢; omega
  | case6 s c cs h1 h2 h3 ih =>
    have hl : ¬ Lower c := by rwa [← isIdentAsciiLower_iff]
    have hname : NameChar c := (isIdent_iff c).mp h3
    have hne : c ≠ NUL := by rintro rfl; exact nul_not_nameChar hname
    have hU : c ≠ 'u' ∧ c ≠ 'r' ∧ c ≠ 'l' := by
      refine ⟨?_, ?_, ?_⟩ <;> (rintro rfl; revert h2; decide)
    refine ⟨fun he => ih.1 he.tail, ?_⟩
    intro s' rest hr
    obtain ⟨us, i1, i2, i3, i4, i5, i6, i7, i8⟩ := ih.2 s' rest hr
    have hsz := Char.utf8Size_pos c
    have hnd : ¬ (s.i = 0 ∧ c = '-') := by simpa using h1
    refine ⟨.chr c :: us, i1.chr (Or.inl hname), ?_, ?_, ?_, ?_, ?_, ?_, ?_⟩
    · intro he; rw [i2 he.tail]; simp; omega
    · rw [i3, hasEsc_chr]; simp [hne]
    · intro h; apply i4; left; rfl
    · intro h; exact Or.inr ⟨c, by simp, hne, hl⟩
    · intro hn
      rw [i6 (by intro h; apply hn; simp [h]), startsDashed_chr]
      simp
      intro a b; exact absurd ⟨a, b⟩ hnd
    · rw [i7, urlFitsFrom_pos (by simp)]
      have : UrlFitsFrom s.i (.chr c :: us) = UrlFits s.i (.chr c :: us) := by
        by_cases hc : c = '-'
        · exact urlFitsFrom_pos (by have : s.i ≠ 0 := fun h => hnd ⟨h, hc⟩; omega) _
        · exact urlFitsFrom_chr hc _ _
      rw [this]
      simp only [UrlFits, Bool.and_eq_true, Bool.not_eq_true', Bool.or_eq_false_iff, Bool.and_eq_false_iff, beq_eq_false_iff_ne,
        bne_eq_false_iff_eq, ne_eq, hne, not_false_eq_true, true_and, hU.1, hU.2.1, hU.2.2, false_or]
      grind
    · simp at i8 ⊢; omega
  | case7 s c cs h1 h2 h3 h4 ht =>
    simp only [Bool.and_eq_true] at h4
    obtain ⟨rfl, hn⟩ := isEscapeSequence_eq h4.2
    refine ⟨?_, by intro s' rest h; contradiction⟩
    intro he
    exfalso
    obtain ⟨e, e1, e2, e3⟩ := consumeEscape_spec cs hn
    have hl := e3 he.next
    have ht2 : takeBytes (('\\' :: e) ++ (consumeEscape cs).2) (utf8Len ('\\' :: e)) = some ('\\' :: e) :=
      takeBytes_append _ _
    rw [List.cons_append, ← e1] at ht2
    rw [show utf8Len ('\\' :: e) = (consumeEscape cs).1 by
      rw [hl, utf8Len_cons, show '\\'.utf8Size = 1 by decide]] at ht2
    rw [ht2] at ht; contradiction
  | case8 s c cs h1 h2 h3 h4 str ht ih =>
    simp only [Bool.and_eq_true] at h4
    obtain ⟨rfl, hn⟩ := isEscapeSequence_eq h4.2
    obtain ⟨e, e1, e2, e3⟩ := consumeEscape_spec cs hn
    have hascii : ¬ Starts (fun c => ¬ isAscii c = true) cs := by
      rintro ⟨c, r, rfl, hc⟩
      rw [consumeEscape_nonascii hc] at ht; contradiction
    have hl := e3 hascii
    have ht2 : takeBytes (('\\' :: e) ++ (consumeEscape cs).2) (utf8Len ('\\' :: e)) = some ('\\' :: e) :=
      takeBytes_append _ _
    rw [List.cons_append, ← e1] at ht2
    rw [show utf8Len ('\\' :: e) = (consumeEscape cs).1 by
      rw [hl, utf8Len_cons, show '\\'.utf8Size = 1 by decide]] at ht2
    rw [ht2] at ht
    injection ht with ht
    subst ht
    have hs : EscAscii ('\\' :: cs) → EscAscii (consumeEscape cs).2 := by
      intro he
      apply Spec.EscAscii.suffix (a := '\\' :: e); rw [List.cons_append, ← e1]; exact he
    refine ⟨fun he => ih.1 (hs he), ?_⟩
    intro s' rest hr
    obtain ⟨us, i1, i2, i3, i4, i5, i6, i7, i8⟩ := ih.2 s' rest hr
    refine ⟨.esc e :: us, ?_, ?_, ?_, ?_, ?_, ?_, ?_, ?_⟩
    · have := i1.esc e2; rwa [← e1] at this
    · intro he; rw [i2 (hs he)]; simp [hl, show '\\'.utf8Size = 1 by decide]; omega
    · rw [i3]; simp [hasEsc_esc]
    · intro h; apply i4; rw [hasNonLower_esc] at h; exact h
    · intro h; rcases i5 h with h | ⟨c, h1, h2⟩
      · exact Or.inl h
      · exact Or.inr ⟨c, by simp [h1], h2⟩
    · intro hn
      rw [i6 (by intro h; apply hn; simp [h])]
      simp [startsDashed_esc]
    · rw [i7, urlFitsFrom_pos (by simp), urlFitsFrom_esc]
      simp [UrlFits, h4.1]
    · have hpos : 1 ≤ (consumeEscape cs).1 := by omega
      simp at i8 ⊢; omega
  | case9 s c cs h1 h2 h3 h4 h5 ih =>
    obtain ⟨rfl, hn⟩ := isEscapeSequence_eq h5
    obtain ⟨e, e1, e2, e3⟩ := consumeEscape_spec cs hn
    have hpos : 1 ≤ (consumeEscape cs).1 := by
      fun_cases consumeEscape cs <;> simp <;> omega
    have hs : EscAscii ('\\' :: cs) → EscAscii (consumeEscape cs).2 := by
      intro he
      apply Spec.EscAscii.suffix (a := '\\' :: e); rw [List.cons_append, ← e1]; exact he
    have hnl : s.urlLike = false := by
      simp only [Bool.and_eq_true, not_and, Bool.not_eq_true] at h4
      by_cases hu : s.urlLike = true
      · rw [h4 hu] at h5; contradiction
      · simpa using hu
    refine ⟨fun he => ih.1 (hs he), ?_⟩
    intro s' rest hr
    obtain ⟨us, i1, i2, i3, i4, i5, i6, i7, i8⟩ := ih.2 s' rest hr
    refine ⟨.esc e :: us, ?_, ?_, ?_, ?_, ?_, ?_, ?_, ?_⟩
    · have := i1.esc e2; rwa [← e1] at this
    · intro he; rw [i2 (hs he)]; simp [e3 he.next, show '\\'.utf8Size = 1 by decide]; omega
    · rw [i3]; simp [hasEsc_esc]
    · intro h; apply i4; rw [hasNonLower_esc] at h; exact h
    · intro h; rcases i5 h with h | ⟨c, h1, h2⟩
      · exact Or.inl h
      · exact Or.inr ⟨c, by simp [h1], h2⟩
    · intro hn
      rw [i6 (by intro h; apply hn; simp [h])]
      simp [startsDashed_esc]
    · rw [i7]; simp [hnl]
    · simp at i8 ⊢; omega
  | case10 s c cs h1 h2 h3 h4 h5 h6 ih =>
    have hc : c = NUL := by simpa [EOFc, NUL] using h6
    subst hc
    refine ⟨fun he => ih.1 he.tail, ?_⟩
    intro s' rest hr
    obtain ⟨us, i1, i2, i3, i4, i5, i6, i7, i8⟩ := ih.2 s' rest hr
    refine ⟨.chr NUL :: us, i1.chr (Or.inr rfl), ?_, ?_, ?_, ?_, ?_, ?_, ?_⟩
    · intro he; rw [i2 he.tail]; simp [show NUL.utf8Size = 1 by decide]; omega
    · rw [i3, hasEsc_chr]; simp
    · intro h; apply i4; rw [hasNonLower_chr] at h; simpa using h
    · intro h; rcases i5 h with h | ⟨c, h1, h2⟩
      · exact Or.inl h
      · exact Or.inr ⟨c, by simp [h1], h2⟩
    · intro hn; exact absurd (by simp) hn
    · rw [i7, urlFitsFrom_chr (by decide)]
      simp [UrlFits]
    · simp at i8 ⊢; omega
  | case11 s c cs h1 h2 h3 h4 h5 h6 =>
    refine ⟨fun _ => ⟨_, rfl⟩, ?_⟩
    intro s' rest h
    simp only [Except.ok.injEq, Prod.mk.injEq] at h
    obtain ⟨rfl, rfl⟩ := h
    refine ⟨[], ⟨by simp, trivial, nameEnds_stop h3 h5 h6⟩, by simp, by simp [hasEsc_nil], by simp [hasNonLower_nil],
      by simp, by simp [StartsDashed], ?_, by simp⟩
    unfold UrlFitsFrom; split <;> simp_all [UrlFits]

end Hdx

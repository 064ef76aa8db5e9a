/-
Helper lemmas: the scanner's character classes and loops against the lexical specification.
-/
import Verif.Model.Lexer
import Verif.Spec.Lexical
import Verif.Lemmas.Text

namespace Hdx
open Spec

/-! ### Character classes -/

theorem isNewline_iff (c : Char) : isNewline c = true ↔ Newline c := by
  simp only [isNewline, Bool.or_eq_true, beq_iff_eq, Newline, CRc, LFc, FFc]
  constructor
  · rintro ((h | h) | h) <;> simp [h]
  · rintro (h | h | h) <;> simp [h]

theorem isWhitespace_iff (c : Char) : isWhitespace c = true ↔ Ws c := by
  simp only [isWhitespace, Bool.or_eq_true, isNewline_iff, beq_iff_eq, Ws, SPACEc, TABc, or_assoc]

theorem isDigit_iff (c : Char) : isDigit c = true ↔ Digit c := by
  simp [isDigit, Digit, show '0'.toNat = 48 from rfl, show '9'.toNat = 57 from rfl]

theorem isHexDigit_iff (c : Char) : isHexDigit c = true ↔ Hex c := by
  simp [isHexDigit, isDigit, Hex, Digit, show '0'.toNat = 48 from rfl, show '9'.toNat = 57 from rfl,
    show 'a'.toNat = 97 from rfl, show 'f'.toNat = 102 from rfl, show 'A'.toNat = 65 from rfl,
    show 'F'.toNat = 70 from rfl]
  omega

theorem isIdentAsciiLower_iff (c : Char) : isIdentAsciiLower c = true ↔ Lower c := by
  simp [isIdentAsciiLower, Lower, show 'a'.toNat = 97 from rfl, show 'z'.toNat = 122 from rfl]

theorem toNat_eq_iff (c d : Char) : c = d ↔ c.toNat = d.toNat := ⟨fun h => h ▸ rfl, char_eq_of_toNat⟩

theorem isNonAscii_iff (c : Char) : isNonAscii c = true ↔ NonAsciiIdent c := by
  simp [isNonAscii, NonAsciiIdent]
  omega

theorem isIdentStart_iff (c : Char) : isIdentStart c = true ↔ NameStart c := by
  unfold isIdentStart
  by_cases h : isAscii c = true
  · rw [if_pos h]
    simp [isAscii] at h
    simp [isIdentAsciiStart, NameStart, Lower, Upper, NonAsciiIdent, toNat_eq_iff c '_', show '_'.toNat = 95 from rfl,
      show 'a'.toNat = 97 from rfl, show 'z'.toNat = 122 from rfl, show 'A'.toNat = 65 from rfl,
      show 'Z'.toNat = 90 from rfl]
    omega
  · rw [if_neg h, isNonAscii_iff]
    simp [isAscii] at h
    simp [NameStart, Lower, Upper, NonAsciiIdent, toNat_eq_iff c '_', show '_'.toNat = 95 from rfl,
      show 'a'.toNat = 97 from rfl, show 'z'.toNat = 122 from rfl, show 'A'.toNat = 65 from rfl,
      show 'Z'.toNat = 90 from rfl]
    omega

theorem isIdent_iff (c : Char) : isIdent c = true ↔ NameChar c := by
  unfold isIdent
  by_cases h : isAscii c = true
  · rw [if_pos h]
    simp [isAscii] at h
    simp [isIdentAscii, NameChar, NameStart, Digit, Lower, Upper, NonAsciiIdent, toNat_eq_iff c '_', toNat_eq_iff c '-',
      show '_'.toNat = 95 from rfl, show '-'.toNat = 45 from rfl, show '0'.toNat = 48 from rfl,
      show '9'.toNat = 57 from rfl,
      show 'a'.toNat = 97 from rfl, show 'z'.toNat = 122 from rfl, show 'A'.toNat = 65 from rfl,
      show 'Z'.toNat = 90 from rfl]
    omega
  · rw [if_neg h, isNonAscii_iff]
    simp [isAscii] at h
    simp [NameChar, NameStart, Digit, Lower, Upper, NonAsciiIdent, toNat_eq_iff c '_', toNat_eq_iff c '-',
      show '_'.toNat = 95 from rfl, show '-'.toNat = 45 from rfl, show '0'.toNat = 48 from rfl,
      show '9'.toNat = 57 from rfl,
      show 'a'.toNat = 97 from rfl, show 'z'.toNat = 122 from rfl, show 'A'.toNat = 65 from rfl,
      show 'Z'.toNat = 90 from rfl]
    omega

theorem isNonPrintable_iff (c : Char) : isNonPrintable c = true ↔ NonPrintable c := by
  simp [isNonPrintable, NonPrintable]
  omega

/-! ### Peeking -/

@[simp] theorem peekNth_nil (n : Nat) : peekNth [] n = EOFc := rfl
@[simp] theorem peekNth_cons_zero (c : Char) (cs : List Char) : peekNth (c :: cs) 0 = c := rfl
@[simp] theorem peekNth_cons_succ (c : Char) (cs : List Char) (n : Nat) : peekNth (c :: cs) (n + 1) = peekNth cs n := rfl

theorem not_starts_nil (P : Char → Prop) : ¬ Starts P [] := by rintro ⟨c, r, h, _⟩; contradiction

@[simp] theorem starts_cons (P : Char → Prop) (c : Char) (cs : List Char) : Starts P (c :: cs) ↔ P c := by
  constructor
  · rintro ⟨d, r, h, hp⟩; injection h with h1 h2; subst h1; exact hp
  · intro h; exact ⟨c, cs, rfl, h⟩

/-- Peeking decides `Starts` for a class that does not contain NUL. -/
theorem peek_iff_starts (p : Char → Bool) (P : Char → Prop) (hp : ∀ c, p c = true ↔ P c) (h0 : ¬ P NUL)
    (cs : List Char) : p (peekNth cs 0) = true ↔ Starts P cs := by
  cases cs with
  | nil => simp [hp, EOFc, not_starts_nil]; exact h0
  | cons c cs => simp [hp]

theorem peek_newline (cs : List Char) : isNewline (peekNth cs 0) = true ↔ Starts Newline cs :=
  peek_iff_starts _ _ isNewline_iff (by decide +revert : ¬ (NUL = '\n' ∨ NUL = '\r' ∨ NUL = '\x0c')) cs

theorem isEscapeSequence_iff (c : Char) (cs : List Char) :
    isEscapeSequence c (peekNth cs 0) = true ↔ StartsEscape (c :: cs) := by
  simp only [isEscapeSequence, Bool.and_eq_true, beq_iff_eq, Bool.not_eq_true', StartsEscape]
  constructor
  · rintro ⟨rfl, h⟩
    exact ⟨cs, rfl, fun hs => by rw [(peek_newline cs).mpr hs] at h; contradiction⟩
  · rintro ⟨r, h, hr⟩
    injection h with h1 h2; subst h1; subst h2
    refine ⟨rfl, ?_⟩
    by_cases hn : isNewline (peekNth cs 0) = true
    · exact absurd ((peek_newline cs).mp hn) hr
    · simpa using hn

/-! ### Escapes -/

theorem consumeHex_spec (fuel : Nat) (cs : List Char) :
    ∃ ds, cs = ds ++ (consumeHex fuel cs).2 ∧ (consumeHex fuel cs).1 = ds.length ∧ ds.length ≤ fuel ∧ (∀ d ∈ ds, Hex d)
      ∧ (ds.length = fuel ∨ ¬ Starts Hex (consumeHex fuel cs).2) := by
  fun_induction consumeHex fuel cs with
  | case1 cs => exact ⟨[], by simp⟩
  | case2 fuel => exact ⟨[], by simp [not_starts_nil]⟩
  | case3 fuel c cs h n r heq ih =>
    obtain ⟨ds, h1, h2, h3, h4, h5⟩ := ih
    rw [heq] at h1 h2 h5
    simp only at h1 h2 h5
    refine ⟨c :: ds, by simp [h1], by simp [h2], by simp; omega, ?_, ?_⟩
    · intro d hd
      rcases List.mem_cons.mp hd with rfl | hd
      · exact (isHexDigit_iff _).mp h
      · exact h4 d hd
    · rcases h5 with h5 | h5
      · left; simp [h5]
      · right; exact h5
  | case4 fuel c cs h =>
    refine ⟨[], by simp, by simp, by simp, by simp, Or.inr ?_⟩
    simp [← isHexDigit_iff, h]

theorem consumeEscWs_spec (cs : List Char) :
    ∃ ws, cs = ws ++ (consumeEscWs cs).2 ∧ EscWs ws (consumeEscWs cs).2 ∧ (consumeEscWs cs).1 = ws.length
      ∧ (∀ c ∈ ws, isAscii c = true) := by
  fun_cases consumeEscWs cs with
  | case1 => exact ⟨[], by simp, .none (not_starts_nil _), by simp, by simp⟩
  | case2 c h2 h1 d ds h3 =>
    simp only [beq_iff_eq] at *
    subst h1; subst h3
    exact ⟨['\r', '\n'], by simp, .crlf, by simp, by decide⟩
  | case3 c h2 h1 d ds h3 =>
    refine ⟨[c], by simp, .one ((isWhitespace_iff c).mp h2) ?_, by simp, by simpa using isWhitespace_ascii h2⟩
    rintro ⟨-, h⟩
    simp at h h3
    exact h3 h
  | case4 c h2 h1 =>
    refine ⟨[c], by simp, .one ((isWhitespace_iff c).mp h2) ?_, by simp, by simpa using isWhitespace_ascii h2⟩
    rintro ⟨-, h⟩; exact not_starts_nil _ h
  | case5 c cs h2 h1 =>
    refine ⟨[c], by simp, .one ((isWhitespace_iff c).mp h2) ?_, by simp, by simpa using isWhitespace_ascii h2⟩
    rintro ⟨h, -⟩; simp at h1; exact h1 h
  | case6 c cs h1 =>
    exact ⟨[], by simp, .none (by simpa [← isWhitespace_iff] using h1), by simp, by simp⟩

theorem hex_ascii {c : Char} (h : Hex c) : isAscii c = true := isHexDigit_ascii ((isHexDigit_iff c).mpr h)

theorem consumeEscape_spec (cs : List Char) (hn : ¬ Starts Newline cs) :
    ∃ e, cs = e ++ (consumeEscape cs).2 ∧ EscTail e (consumeEscape cs).2
      ∧ (¬ Starts (fun c => ¬ isAscii c = true) cs → (consumeEscape cs).1 = 1 + utf8Len e) := by
  fun_cases consumeEscape cs with
  | case1 => exact ⟨[], by simp, .eof, by simp⟩
  | case2 c cs h n r heq m r' heq' =>
    obtain ⟨ds, h1, h2, h3, h4, h5⟩ := consumeHex_spec 5 cs
    obtain ⟨ws, g1, g2, g3, g4⟩ := consumeEscWs_spec r
    rw [heq] at h1 h2 h5
    rw [heq'] at g1 g2 g3
    simp only at *
    have hc := (isHexDigit_iff c).mp h
    have hall : ∀ d ∈ c :: ds, Hex d := by
      intro d hd
      rcases List.mem_cons.mp hd with rfl | hd
      · exact hc
      · exact h4 d hd
    refine ⟨(c :: ds) ++ ws, by simp [h1, g1], ?_, ?_⟩
    · refine .hex (by simp) (by simp; omega) hall ?_ g2
      rw [← g1]
      rcases h5 with h5 | h5
      · left; simp [h5]
      · right; exact h5
    · intro _
      have e1 : utf8Len (c :: ds) = (c :: ds).length := utf8Len_of_ascii (fun d hd => hex_ascii (hall d hd))
      have e2 : utf8Len ws = ws.length := utf8Len_of_ascii g4
      rw [utf8Len_append, e1, e2, h2, g3]
      simp; omega
  | case3 c cs h =>
    refine ⟨[c], by simp, .plain (by rwa [← isHexDigit_iff]) (by simpa using hn), ?_⟩
    intro ha
    simp only [starts_cons, Decidable.not_not] at ha
    simp [utf8Size_isAscii ha]

theorem escWs_unique {w w' r r' : List Char} (h : EscWs w r) (h' : EscWs w' r') (e : w ++ r = w' ++ r') : w = w' := by
  have cr : Ws '\r' := by simp [Ws, Newline]
  cases h with
  | none hn =>
    simp only [List.nil_append] at e
    subst e
    cases h' with
    | none => rfl
    | crlf => exact absurd ⟨'\r', _, rfl, cr⟩ hn
    | one hw _ => exact absurd ⟨_, _, rfl, hw⟩ hn
  | crlf =>
    cases h' with
    | none hn => simp only [List.nil_append] at e; subst e; exact absurd ⟨'\r', _, rfl, cr⟩ hn
    | crlf => rfl
    | one hw hx =>
      simp at e
      exact absurd ⟨e.1.symm, ⟨_, _, e.2.symm, rfl⟩⟩ hx
  | one hw hx =>
    cases h' with
    | none hn => simp only [List.nil_append] at e; subst e; exact absurd ⟨_, _, rfl, hw⟩ hn
    | crlf => simp at e; exact absurd ⟨e.1, ⟨_, _, e.2, rfl⟩⟩ hx
    | one hw' hx' => simp at e; simp [e.1]

theorem hex_run_unique {ds ds' x x' : List Char} (h : ∀ d ∈ ds, Hex d) (h' : ∀ d ∈ ds', Hex d)
    (n : Nat) (hl : ds.length ≤ n) (hl' : ds'.length ≤ n)
    (m : ds.length = n ∨ ¬ Starts Hex x) (m' : ds'.length = n ∨ ¬ Starts Hex x') (e : ds ++ x = ds' ++ x') : ds = ds' := by
  induction ds generalizing ds' n with
  | nil =>
    cases ds' with
    | nil => rfl
    | cons d ds' =>
      rcases m with m | m
      · simp at m hl'; omega
      · simp at e; subst e; exact absurd ⟨d, _, rfl, h' d (by simp)⟩ m
  | cons d ds ih =>
    cases ds' with
    | nil =>
      rcases m' with m' | m'
      · simp at m' hl; omega
      · simp at e; exact absurd ⟨d, _, e.symm, h d (by simp)⟩ m'
    | cons d' ds' =>
      simp at e
      obtain ⟨rfl, e⟩ := e
      congr 1
      obtain ⟨k, rfl⟩ : ∃ k, n = k + 1 := ⟨n - 1, by simp at hl; omega⟩
      refine ih (fun d hd => h d (by simp [hd])) (fun d hd => h' d (by simp [hd])) k ?_ ?_ ?_ ?_ e
      · simpa using hl
      · simpa using hl'
      · simpa using m
      · simpa using m'

theorem escTail_unique {e e' r r' : List Char} (h : EscTail e r) (h' : EscTail e' r') (eq : e ++ r = e' ++ r') : e = e' := by
  cases h with
  | eof =>
    cases h' with
    | eof => rfl
    | plain => simp at eq
    | hex hl => rename_i ds ws _ _ _ _; cases ds <;> simp at hl eq
  | plain h1 h2 =>
    cases h' with
    | eof => simp at eq
    | plain => simp at eq; simp [eq.1]
    | hex hl _ ha =>
      rename_i ds ws _ _ _
      cases ds with
      | nil => simp at hl
      | cons d ds => simp at eq; rw [eq.1] at h1; exact absurd (ha d (by simp)) h1
  | hex hl hu ha hm hw =>
    rename_i ds ws
    cases h' with
    | eof => cases ds <;> simp at hl eq
    | plain h1 h2 =>
      cases ds with
      | nil => simp at hl
      | cons d ds => simp at eq; rw [← eq.1] at h1; exact absurd (ha d (by simp)) h1
    | hex hl' hu' ha' hm' hw' =>
      rename_i ds' ws'
      rw [List.append_assoc, List.append_assoc] at eq
      have := hex_run_unique ha ha' 6 hu hu' hm hm' eq
      subst this
      have := escWs_unique hw hw' (List.append_cancel_left eq)
      rw [this]

/-! ### Names -/

theorem Spec.EscAscii.suffix {a b : List Char} (h : EscAscii (a ++ b)) : EscAscii b := by
  intro pre c post e
  exact h (a ++ pre) c post (by simp [e])

theorem Spec.EscAscii.tail {c : Char} {b : List Char} (h : EscAscii (c :: b)) : EscAscii b :=
  EscAscii.suffix (a := [c]) h

theorem Spec.EscAscii.next {b : List Char} (h : EscAscii ('\\' :: b)) : ¬ Starts (fun c => ¬ isAscii c = true) b := by
  rintro ⟨c, r, rfl, hc⟩
  exact hc (by simpa [isAscii] using h [] c r rfl)

@[simp] theorem nameText_nil : nameText [] = [] := rfl
@[simp] theorem nameText_chr (c : Char) (us : List NameUnit) : nameText (.chr c :: us) = c :: nameText us := rfl
@[simp] theorem nameText_esc (e : List Char) (us : List NameUnit) :
    nameText (.esc e :: us) = '\\' :: (e ++ nameText us) := rfl

theorem isEscapeSequence_eq {c : Char} {cs : List Char} (h : isEscapeSequence c (peekNth cs 0) = true) :
    c = '\\' ∧ ¬ Starts Newline cs := by
  obtain ⟨r, h1, h2⟩ := (isEscapeSequence_iff c cs).mp h
  injection h1 with h1 h3
  subst h3; exact ⟨h1, h2⟩

/-- What `consume_ident_sequence` and its variants have read. -/
structure NameScan (cs : List Char) (us : List NameUnit) (rest : List Char) : Prop where
  split : cs = nameText us ++ rest
  valid : ValidName us rest
  ends : NameEnds rest

theorem nameEnds_nil : NameEnds [] := ⟨not_starts_nil _, by rintro ⟨r, h, _⟩; contradiction⟩

theorem NameScan.chr {c : Char} {cs rest : List Char} {us : List NameUnit} (h : NameScan cs us rest)
    (hc : NameChar c ∨ c = NUL) : NameScan (c :: cs) (.chr c :: us) rest :=
  ⟨by simp [← h.split], ⟨hc, h.valid⟩, h.ends⟩

theorem NameScan.esc {e cs rest : List Char} {us : List NameUnit} (h : NameScan cs us rest)
    (he : EscTail e cs) : NameScan ('\\' :: (e ++ cs)) (.esc e :: us) rest :=
  ⟨by simp [h.split], ⟨by rw [← h.split]; exact he, h.valid⟩, h.ends⟩

theorem dash_nameChar : NameChar '-' := Or.inr (Or.inr rfl)

/-- The flags computed by the two name scanners, in terms of the elements read. -/
def HasEsc (us : List NameUnit) : Prop := (∃ e, NameUnit.esc e ∈ us) ∨ NameUnit.chr NUL ∈ us
def StartsDashed (us : List NameUnit) : Prop := ∃ us', us = .chr '-' :: .chr '-' :: us'
def HasNonLower (us : List NameUnit) : Prop :=
  ∃ c, NameUnit.chr c ∈ us ∧ c ≠ NUL ∧ ¬ Lower c ∧ ¬ Digit c ∧ c ≠ '-'

theorem hasEsc_nil : ¬ HasEsc [] := by rintro (⟨e, h⟩ | h) <;> simp at h
theorem hasEsc_chr {c : Char} (us : List NameUnit) : HasEsc (.chr c :: us) ↔ c = NUL ∨ HasEsc us := by
  simp only [HasEsc, List.mem_cons, NameUnit.chr.injEq, reduceCtorEq, false_or]
  constructor
  · rintro (⟨e, h⟩ | h | h)
    · exact Or.inr (Or.inl ⟨e, h⟩)
    · exact Or.inl h.symm
    · exact Or.inr (Or.inr h)
  · rintro (h | ⟨e, h⟩ | h)
    · exact Or.inr (Or.inl h.symm)
    · exact Or.inl ⟨e, h⟩
    · exact Or.inr (Or.inr h)
theorem hasEsc_esc {e : List Char} (us : List NameUnit) : HasEsc (.esc e :: us) := Or.inl ⟨e, by simp⟩

theorem hasNonLower_nil : ¬ HasNonLower [] := by rintro ⟨c, h, _⟩; simp at h
theorem hasNonLower_chr {c : Char} (us : List NameUnit) :
    HasNonLower (.chr c :: us) ↔ (c ≠ NUL ∧ ¬ Lower c ∧ ¬ Digit c ∧ c ≠ '-') ∨ HasNonLower us := by
  simp only [HasNonLower, List.mem_cons, NameUnit.chr.injEq]
  constructor
  · rintro ⟨d, h | h, h2⟩
    · subst h; exact Or.inl h2
    · exact Or.inr ⟨d, h, h2⟩
  · rintro (h | ⟨d, h, h2⟩)
    · exact ⟨c, Or.inl rfl, h⟩
    · exact ⟨d, Or.inr h, h2⟩
theorem hasNonLower_esc {e : List Char} (us : List NameUnit) : HasNonLower (.esc e :: us) ↔ HasNonLower us := by
  simp [HasNonLower]

theorem startsDashed_chr {c : Char} {us : List NameUnit} :
    StartsDashed (.chr c :: us) ↔ c = '-' ∧ ∃ us', us = .chr '-' :: us' := by
  simp only [StartsDashed, List.cons.injEq, NameUnit.chr.injEq]
  constructor
  · rintro ⟨us', h1, h2⟩; exact ⟨h1, us', h2⟩
  · rintro ⟨h1, us', h2⟩; exact ⟨us', h1, h2⟩
theorem startsDashed_esc {e : List Char} {us : List NameUnit} : ¬ StartsDashed (.esc e :: us) := by
  rintro ⟨us', h⟩; simp at h

theorem nameEnds_stop {c : Char} {cs : List Char} (h1 : ¬ isIdent c = true)
    (h2 : ¬ isEscapeSequence c (peekNth cs 0) = true) (h3 : ¬ (c == EOFc) = true) : NameEnds (c :: cs) := by
  refine ⟨?_, fun h => h2 ((isEscapeSequence_iff c cs).mpr h)⟩
  simp only [starts_cons, not_or, ← isIdent_iff]
  exact ⟨h1, by simpa [EOFc, NUL] using h3⟩

theorem lowerDashDigit_iff (c : Char) :
    (isIdentAsciiLower c || c == '-' || isDigit c) = true ↔ Lower c ∨ c = '-' ∨ Digit c := by
  simp [isIdentAsciiLower_iff, isDigit_iff, or_assoc]

theorem nul_not_nameChar : ¬ NameChar NUL := by
  rw [← isIdent_iff]; decide

theorem identLoop_spec (s : IdentState) (cs : List Char) :
    ∃ us, NameScan cs us (identLoop s cs).2
      ∧ (EscAscii cs → (identLoop s cs).1.len = s.len + utf8Len (nameText us))
      ∧ ((identLoop s cs).1.esc = true ↔ s.esc = true ∨ HasEsc us)
      ∧ ((identLoop s cs).1.nonLower = true ↔ s.nonLower = true ∨ HasNonLower us)
      ∧ ((identLoop s cs).1.dashed = true ↔ s.dashed = true ∨ (s.len = 0 ∧ StartsDashed us))
      ∧ s.len + us.length ≤ (identLoop s cs).1.len := by
  fun_induction identLoop s cs with
  | case1 s => exact ⟨[], ⟨by simp, trivial, nameEnds_nil⟩, by simp, by simp [hasEsc_nil], by simp [hasNonLower_nil],
      by simp [StartsDashed], by simp⟩
  | case2 s c h d ds hd ih =>
    simp only [Bool.and_eq_true, beq_iff_eq] at h hd
    obtain ⟨h0, rfl⟩ := h
    subst hd
    obtain ⟨us, i1, i2, i3, i4, i5, i6⟩ := ih
    refine ⟨.chr '-' :: .chr '-' :: us, (i1.chr (Or.inl dash_nameChar)).chr (Or.inl dash_nameChar), ?_, ?_, ?_, ?_, ?_⟩
    · intro he; rw [i2 he.tail.tail]; simp [show '-'.utf8Size = 1 by decide]; omega
    · rw [i3, hasEsc_chr, hasEsc_chr]; simp [show ('-' = NUL) ↔ False by decide]
    · rw [i4, hasNonLower_chr, hasNonLower_chr]; simp
    · rw [i5]; simp [h0, StartsDashed]
    · simp at i6 ⊢; omega
  | case3 s c h d ds hd ih =>
    simp only [Bool.and_eq_true, beq_iff_eq] at h hd
    obtain ⟨h0, rfl⟩ := h
    obtain ⟨us, i1, i2, i3, i4, i5, i6⟩ := ih
    refine ⟨.chr '-' :: us, i1.chr (Or.inl dash_nameChar), ?_, ?_, ?_, ?_, ?_⟩
    · intro he; rw [i2 he.tail]; simp [show '-'.utf8Size = 1 by decide]; omega
    · rw [i3, hasEsc_chr]; simp [show ('-' = NUL) ↔ False by decide]
    · rw [i4, hasNonLower_chr]; simp
    · rw [i5, startsDashed_chr]
      simp [h0]
      rintro us' rfl
      have := i1.split
      simp at this
      exact absurd this.1 hd
    · simp at i6 ⊢; omega
  | case4 s c h ih =>
    simp only [Bool.and_eq_true, beq_iff_eq] at h
    obtain ⟨h0, rfl⟩ := h
    obtain ⟨us, i1, i2, i3, i4, i5, i6⟩ := ih
    refine ⟨.chr '-' :: us, i1.chr (Or.inl dash_nameChar), ?_, ?_, ?_, ?_, ?_⟩
    · intro he; rw [i2 he.tail]; simp [show '-'.utf8Size = 1 by decide]; omega
    · rw [i3, hasEsc_chr]; simp [show ('-' = NUL) ↔ False by decide]
    · rw [i4, hasNonLower_chr]; simp
    · rw [i5, startsDashed_chr]
      simp [h0]
      rintro us' rfl
      have := i1.split
      simp at this
    · simp at i6 ⊢; omega
  | case5 s c cs h1 h2 ih =>
    obtain ⟨us, i1, i2, i3, i4, i5, i6⟩ := ih
    have hl := (lowerDashDigit_iff c).mp h2
    have hname : NameChar c := by
      rcases hl with h | h | h
      · exact Or.inl (Or.inl h)
      · exact Or.inr (Or.inr h)
      · exact Or.inr (Or.inl h)
    have hne : c ≠ NUL := by rintro rfl; exact nul_not_nameChar hname
    have hsz : c.utf8Size = 1 := by
      rcases hl with h | h | h
      · exact utf8Size_isAscii (isIdentAsciiLower_ascii ((isIdentAsciiLower_iff c).mpr h))
      · subst h; decide
      · exact utf8Size_isAscii (isDigit_ascii ((isDigit_iff c).mpr h))
    refine ⟨.chr c :: us, i1.chr (Or.inl hname), ?_, ?_, ?_, ?_, ?_⟩
    · intro he; rw [i2 he.tail]; simp [hsz]; omega
    · rw [i3, hasEsc_chr]; simp [hne]
    · rw [i4, hasNonLower_chr]
      have : ¬ (c ≠ NUL ∧ ¬ Lower c ∧ ¬ Digit c ∧ c ≠ '-') := by
        rintro ⟨_, a, b, d⟩; rcases hl with h | h | h <;> contradiction
      simp only [this, false_or]
    · rw [i5, startsDashed_chr]
      simp only [Bool.and_eq_true, beq_iff_eq, not_and] at h1
      simp
      intro h0 hc; exact absurd hc (h1 h0)
    · simp at i6 ⊢; omega
  | case6 s c cs h1 h2 h3 ih =>
    obtain ⟨us, i1, i2, i3, i4, i5, i6⟩ := ih
    have hl := mt (lowerDashDigit_iff c).mpr h2
    have hname : NameChar c := (isIdent_iff c).mp h3
    have hne : c ≠ NUL := by rintro rfl; exact nul_not_nameChar hname
    refine ⟨.chr c :: us, i1.chr (Or.inl hname), ?_, ?_, ?_, ?_, ?_⟩
    · intro he; rw [i2 he.tail]; simp; omega
    · rw [i3, hasEsc_chr]; simp [hne]
    · rw [i4, hasNonLower_chr]
      have : (c ≠ NUL ∧ ¬ Lower c ∧ ¬ Digit c ∧ c ≠ '-') := by
        simp only [not_or] at hl; exact ⟨hne, hl.1, hl.2.2, hl.2.1⟩
      simp [this]
    · rw [i5, startsDashed_chr]
      simp only [Bool.and_eq_true, beq_iff_eq, not_and] at h1
      have := Char.utf8Size_pos c
      simp
      constructor
      · rintro (h | h)
        · exact Or.inl h
        · omega
      · rintro (h | ⟨h0, hc, _⟩)
        · exact Or.inl h
        · exact absurd hc (h1 h0)
    · have := Char.utf8Size_pos c
      simp at i6 ⊢; omega
  | case7 s c cs h1 h2 h3 h4 ih =>
    obtain ⟨us, i1, i2, i3, i4, i5, i6⟩ := ih
    obtain ⟨rfl, hn⟩ := isEscapeSequence_eq h4
    obtain ⟨e, e1, e2, e3⟩ := consumeEscape_spec cs hn
    have hpos : 1 ≤ (consumeEscape cs).1 := by
      fun_cases consumeEscape cs <;> simp <;> omega
    refine ⟨.esc e :: us, ?_, ?_, ?_, ?_, ?_, ?_⟩
    · have := i1.esc e2; rwa [← e1] at this
    · intro he
      have hs : EscAscii (consumeEscape cs).2 := by
        apply EscAscii.suffix (a := '\\' :: e); rw [List.cons_append, ← e1]; exact he
      rw [i2 hs]; simp [e3 he.next, show '\\'.utf8Size = 1 by decide]; omega
    · rw [i3]; simp [hasEsc_esc]
    · rw [i4, hasNonLower_esc]
    · rw [i5]
      simp only [startsDashed_esc, and_false, or_false]
      simp; omega
    · simp at i6 ⊢; omega
  | case8 s c cs h1 h2 h3 h4 h5 ih =>
    obtain ⟨us, i1, i2, i3, i4, i5, i6⟩ := ih
    have hc : c = NUL := by simpa [EOFc, NUL] using h5
    subst hc
    refine ⟨.chr NUL :: us, i1.chr (Or.inr rfl), ?_, ?_, ?_, ?_, ?_⟩
    · intro he; rw [i2 he.tail]; simp [show NUL.utf8Size = 1 by decide]; omega
    · rw [i3, hasEsc_chr]; simp
    · rw [i4, hasNonLower_chr]; simp
    · rw [i5, startsDashed_chr]; simp [show (NUL = '-') ↔ False by decide]
    · simp at i6 ⊢; omega
  | case9 s c cs h1 h2 h3 h4 h5 =>
    exact ⟨[], ⟨by simp, trivial, nameEnds_stop h3 h4 h5⟩, by simp, by simp [hasEsc_nil], by simp [hasNonLower_nil],
      by simp [StartsDashed], by simp⟩

/-- A valid name is a prefix of the longest one: `IsName` determines the elements. -/
theorem validName_prefix {us us' : List NameUnit} {r r' : List Char} (h : ValidName us r) (he : NameEnds r)
    (h' : ValidName us' r') (e : nameText us ++ r = nameText us' ++ r') : us' <+: us := by
  induction us' generalizing us with
  | nil => simp
  | cons u' us' ih =>
    cases us with
    | nil =>
      simp at e
      cases u' with
      | chr c =>
        simp at e
        exact absurd ⟨c, _, e, h'.1⟩ he.1
      | esc t =>
        simp at e
        refine absurd ⟨_, e, ?_⟩ he.2
        rintro ⟨c, q, hq, hc⟩
        have ht := h'.1
        generalize nameText us' ++ r' = x at ht hq
        cases ht with
        | eof => simp at hq
        | plain h1 h2 => simp at hq; rw [hq.1] at h2; exact h2 hc
        | hex hl hu ha _ _ =>
          rename_i ds ws _ _
          cases ds with
          | nil => simp at hl
          | cons d ds =>
            simp at hq
            have hx := ha d (by simp)
            rw [hq.1] at hx
            rw [← isHexDigit_iff] at hx
            rw [← isNewline_iff] at hc
            simp only [isNewline, Bool.or_eq_true, beq_iff_eq] at hc
            rcases hc with (hc | hc) | hc <;> subst hc <;> revert hx <;> decide
    | cons u us =>
      have key : u = u' ∧ nameText us ++ r = nameText us' ++ r' := by
        cases u with
        | chr c =>
          cases u' with
          | chr c' => simp at e; exact ⟨by rw [e.1], e.2⟩
          | esc t =>
            simp at e
            rcases h.1 with hc | hc
            · rw [e.1, ← isIdent_iff] at hc; exact absurd hc (by decide)
            · rw [e.1] at hc; exact absurd hc (by decide)
        | esc t =>
          cases u' with
          | chr c =>
            simp at e
            rcases h'.1 with hc | hc
            · rw [← e.1, ← isIdent_iff] at hc; exact absurd hc (by decide)
            · rw [← e.1] at hc; exact absurd hc (by decide)
          | esc t' =>
            simp at e
            have := escTail_unique h.1 h'.1 e
            subst this
            exact ⟨rfl, List.append_cancel_left e⟩
      obtain ⟨rfl, e2⟩ := key
      have hv : ValidName us r := by cases u <;> exact h.2
      have hv' : ValidName us' r' := by cases u <;> exact h'.2
      exact (List.cons_prefix_cons).mpr ⟨rfl, ih hv hv' e2⟩

end Hdx

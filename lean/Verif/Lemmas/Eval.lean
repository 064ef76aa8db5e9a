/-
Helper lemmas: evaluating the string, url, comment and whitespace scanners on texts built from grammar elements.
-/
import Verif.Lemmas.Scan
import Verif.Spec.Text

namespace Hdx
open Spec

theorem escTail_not_newline {e r : List Char} (h : EscTail e r) : ¬ Starts Newline (e ++ r) := by
  cases h with
  | eof => exact not_starts_nil _
  | plain _ hn => simpa using hn
  | @hex ds ws _ hl _ hx =>
    cases ds with
    | nil => simp at hl
    | cons d ds =>
      simp only [List.cons_append, starts_cons]
      have := (isHexDigit_iff d).mpr (hx d (by simp))
      rw [← isNewline_iff]
      intro hn
      simp only [isNewline, Bool.or_eq_true, beq_iff_eq] at hn
      rcases hn with (h | h) | h <;> subst h <;> revert this <;> decide

/-- Consuming an escape the grammar describes. -/
theorem consumeEscape_eq {e r : List Char} (h : EscTail e r) (ha : EscAscii ('\\' :: (e ++ r))) :
    consumeEscape (e ++ r) = (1 + utf8Len e, r) := by
  obtain ⟨e', h1, h2, h3⟩ := consumeEscape_spec (e ++ r) (escTail_not_newline h)
  have he : e' = e := escTail_unique h2 h h1.symm
  subst he
  have hr := List.append_cancel_left h1
  have := h3 (EscAscii.next ha)
  rw [← this]
  exact Prod.ext rfl hr.symm

theorem escTail_isEscape {e r : List Char} (h : EscTail e r) : isEscapeSequence '\\' (peekNth (e ++ r) 0) = true :=
  (isEscapeSequence_iff _ _).mpr ⟨_, rfl, escTail_not_newline h⟩

/-- Every text after a backslash that is not followed by a newline is an escape. -/
theorem exists_escTail (cs : List Char) (h : ¬ Starts Newline cs) : ∃ e r, cs = e ++ r ∧ EscTail e r := by
  obtain ⟨e, h1, h2, _⟩ := consumeEscape_spec cs h
  exact ⟨e, _, h1, h2⟩

/-! ### Whitespace -/

theorem consumeSame_eq {ch : Char} {ws rest : List Char} (h : ∀ c ∈ ws, c = ch) (hr : ¬ Starts (· = ch) rest) :
    consumeSame ch (ws ++ rest) = (ws.length, rest) := by
  induction ws with
  | nil =>
    cases rest with
    | nil => simp [consumeSame]
    | cons c cs => simp at hr; simp [consumeSame, hr]
  | cons c ws ih =>
    have hc := h c (by simp)
    have := ih (fun d hd => h d (by simp [hd]))
    simp [consumeSame, hc, this]

theorem consumeNewlines_eq {ws rest : List Char} (h : ∀ c ∈ ws, Newline c) (hr : ¬ Starts Newline rest) :
    consumeNewlines (ws ++ rest) = (ws.length, rest) := by
  induction ws with
  | nil =>
    cases rest with
    | nil => simp [consumeNewlines]
    | cons c cs =>
      simp [Newline] at hr
      simp [consumeNewlines, LFc, CRc, FFc, hr]
  | cons c ws ih =>
    have hc : (c == LFc || c == CRc || c == FFc) = true := by
      have := h c (by simp)
      simpa [Newline, LFc, CRc, FFc, or_assoc] using this
    have := ih (fun d hd => h d (by simp [hd]))
    simp only [List.cons_append, consumeNewlines, hc, this, if_true]
    simp

theorem consumeWhitespace_eq {ws rest : List Char} (st : Whitespace) (h : ∀ c ∈ ws, Ws c) (hr : ¬ Starts Ws rest) :
    consumeWhitespace st (ws ++ rest) = (ws.length, ws.foldl (fun s c => s.or (wsFlag c)) st, rest) := by
  induction ws generalizing st with
  | nil =>
    cases rest with
    | nil => simp [consumeWhitespace]
    | cons c cs =>
      simp at hr
      have : isWhitespace c = false := by
        rw [Bool.eq_false_iff, Ne, isWhitespace_iff]; exact hr
      simp [consumeWhitespace, this]
  | cons c ws ih =>
    have hc := (isWhitespace_iff c).mpr (h c (by simp))
    have := ih (st.or (wsFlag c)) (fun d hd => h d (by simp [hd]))
    simp [consumeWhitespace, hc, this]

/-- Every text splits into a run of a class and a rest that does not continue it. -/
theorem exists_run (p : Char → Bool) (cs : List Char) :
    ∃ ws rest, cs = ws ++ rest ∧ (∀ c ∈ ws, p c = true) ∧ ¬ Starts (fun c => p c = true) rest := by
  induction cs with
  | nil => exact ⟨[], [], rfl, by simp, not_starts_nil _⟩
  | cons c cs ih =>
    by_cases h : p c = true
    · obtain ⟨ws, rest, h1, h2, h3⟩ := ih
      refine ⟨c :: ws, rest, by simp [h1], ?_, h3⟩
      intro d hd
      rcases List.mem_cons.mp hd with rfl | hd
      · exact h
      · exact h2 d hd
    · exact ⟨[], c :: cs, rfl, by simp, by simpa using h⟩

theorem exists_ws (cs : List Char) : ∃ ws rest, cs = ws ++ rest ∧ (∀ c ∈ ws, Ws c) ∧ ¬ Starts Ws rest := by
  obtain ⟨ws, rest, h1, h2, h3⟩ := exists_run isWhitespace cs
  refine ⟨ws, rest, h1, fun c hc => (isWhitespace_iff c).mp (h2 c hc), ?_⟩
  rintro ⟨c, r, h, hc⟩
  exact h3 ⟨c, r, h, (isWhitespace_iff c).mpr hc⟩

theorem ws_ascii {c : Char} (h : Ws c) : isAscii c = true := isWhitespace_ascii ((isWhitespace_iff c).mpr h)

theorem utf8Len_ws {ws : List Char} (h : ∀ c ∈ ws, Ws c) : utf8Len ws = ws.length :=
  utf8Len_of_ascii (fun c hc => ws_ascii (h c hc))

/-! ### Strings -/

@[simp] theorem strText_nil : strText [] = [] := rfl
@[simp] theorem strText_chr (c : Char) (us : List StrUnit) : strText (.chr c :: us) = c :: strText us := rfl
@[simp] theorem strText_esc (e : List Char) (us : List StrUnit) : strText (.esc e :: us) = '\\' :: (e ++ strText us) := rfl
@[simp] theorem strText_cont (e : List Char) (us : List StrUnit) : strText (.cont e :: us) = '\\' :: (e ++ strText us) := rfl

theorem Spec.NoEscNul.suffix {a b : List Char} (h : NoEscNul (a ++ b)) : NoEscNul b := by
  intro pre post e
  exact h (a ++ pre) post (by simp [e])

theorem Spec.NoEscNul.tail {c : Char} {b : List Char} (h : NoEscNul (c :: b)) : NoEscNul b :=
  NoEscNul.suffix (a := [c]) h

theorem Spec.NoEscNul.next {b : List Char} (h : NoEscNul ('\\' :: b)) : ¬ Starts (· = NUL) b := by
  rintro ⟨c, r, rfl, rfl⟩
  exact h [] r rfl

theorem consumeNewline_eq {n r : List Char} (h : OneNewline n r) : consumeNewline (n ++ r) = (utf8Len n, r) := by
  cases h with
  | crlf => simp [consumeNewline, CRc, LFc]; decide
  | @one c _ hc hn =>
    have hs : c.utf8Size = 1 := utf8Size_isAscii (ws_ascii (Or.inr (Or.inr hc)))
    cases r with
    | nil => simp [consumeNewline, hs]
    | cons d ds =>
      simp only [starts_cons] at hn
      by_cases h1 : c = '\r'
      · have : ¬ d = '\n' := fun h2 => hn ⟨h1, h2⟩
        subst h1
        simp [consumeNewline, CRc, LFc, this, hs]
      · simp [consumeNewline, CRc, h1, hs]

theorem oneNewline_starts {n r : List Char} (h : OneNewline n r) : Starts Newline (n ++ r) := by
  cases h with
  | crlf => simp [Newline]
  | one h => simpa using h

/-- Is `us` free of escapes, line continuations and NUL? -/
def strEsc : List StrUnit → Bool
  | [] => false
  | .chr c :: us => c == EOFc || strEsc us
  | _ :: _ => true

theorem strEsc_iff (us : List StrUnit) : strEsc us = true ↔ StrHasEsc us := by
  induction us with
  | nil => simp [strEsc, StrHasEsc]
  | cons u us ih =>
    cases u with
    | chr c =>
      simp only [strEsc, Bool.or_eq_true, beq_iff_eq, ih, StrHasEsc, List.mem_cons, StrUnit.chr.injEq]
      constructor
      · rintro (h | ⟨u, h1, h2⟩ | h)
        · exact Or.inr (Or.inl h.symm)
        · exact Or.inl ⟨u, Or.inr h1, h2⟩
        · exact Or.inr (Or.inr h)
      · rintro (⟨u, h1 | h1, h2⟩ | h | h)
        · exact absurd h1 (h2 c)
        · exact Or.inr (Or.inl ⟨u, h1, h2⟩)
        · exact Or.inl h.symm
        · exact Or.inr (Or.inr h)
    | esc e => exact iff_of_true rfl (Or.inl ⟨.esc e, by simp, by simp⟩)
    | cont e => exact iff_of_true rfl (Or.inl ⟨.cont e, by simp, by simp⟩)

theorem escTail_nil {r : List Char} (h : EscTail [] r) : r = [] := by
  generalize he : ([] : List Char) = e at h
  cases h with
  | eof => rfl
  | plain => simp at he
  | @hex ds ws _ hl => cases ds <;> simp at hl he

/-- The outcome at the end of a string's content. -/
def strFinish (q : Char) (esc : Bool) (len : Nat) : List Char → StrEnd × List Char
  | [] => (.str false esc len, [])
  | c :: cs => if c = q then (.str true esc (len + 1), cs) else (.bad len, c :: cs)

theorem stringLoop_eq {q : Char} (hq : q = '"' ∨ q = '\'') {us : List StrUnit} {rest : List Char} (hv : ValidStr q us rest)
    (hr : StrStops q rest) (ha : EscAscii (strText us ++ rest)) (hn : NoEscNul (strText us ++ rest))
    (esc : Bool) (len : Nat) :
    stringLoop q esc len (strText us ++ rest)
      = strFinish q (esc || strEsc us) (len + utf8Len (strText us)) rest := by
  induction us generalizing esc len with
  | nil =>
    rcases hr with rfl | ⟨c, cs, rfl, rfl⟩ | ⟨c, cs, rfl, hc⟩
    · simp [strEsc, strFinish, stringLoop]
    · simp only [strText_nil, List.nil_append, strEsc, Bool.or_false, utf8Len_nil, Nat.add_zero]
      rw [stringLoop]
      rcases hq with rfl | rfl <;> simp [strFinish, isNewline, CRc, LFc, FFc, EOFc]
    · simp only [strText_nil, List.nil_append, strEsc, Bool.or_false, utf8Len_nil, Nat.add_zero]
      have : c ≠ q := by
        rintro rfl
        rcases hq with rfl | rfl <;> revert hc <;> rw [← isNewline_iff] <;> decide
      rw [stringLoop, if_pos ((isNewline_iff c).mpr hc)]
      simp [strFinish, this]
  | cons u us ih =>
    cases u with
    | chr c =>
      obtain ⟨h1, h2, h3, h4⟩ := hv
      simp only [strText_chr, List.cons_append] at ha hn ⊢
      have ih := ih h4 ha.tail hn.tail
      rw [stringLoop]
      have hnl : isNewline c = false := by rw [Bool.eq_false_iff, Ne, isNewline_iff]; exact h2
      simp only [hnl, Bool.false_eq_true, if_false]
      by_cases hz : c = EOFc
      · subst hz
        simp only [BEq.rfl, if_true]
        rw [ih]
        simp [strEsc, show EOFc.utf8Size = 1 by decide, Nat.add_assoc]
      · have hz' : (c == EOFc) = false := by simp [hz]
        simp only [hz', Bool.false_eq_true, if_false]
        by_cases hqc : c = '"' ∨ c = '\''
        · have hs : c.utf8Size = 1 := by rcases hqc with h | h <;> subst h <;> decide
          simp only [Bool.or_eq_true, beq_iff_eq, hqc, if_true, h1, if_false]
          rw [ih]
          simp [strEsc, hz', hs, Nat.add_assoc]
        · simp only [Bool.or_eq_true, beq_iff_eq, hqc, if_false, h3]
          rw [ih]
          simp [strEsc, hz', Nat.add_assoc]
    | esc e =>
      obtain ⟨h1, h2⟩ := hv
      simp only [strText_esc, List.cons_append, List.append_assoc] at ha hn ⊢
      have ih := ih h2 (ha.tail.suffix) (hn.tail.suffix)
      rw [stringLoop]
      by_cases hne : e = []
      · subst hne
        have := escTail_nil h1
        simp only [List.append_eq_nil_iff] at this
        simp [this.1, this.2, isNewline, CRc, LFc, FFc, EOFc, strFinish, strEsc, show '\\'.utf8Size = 1 by decide]
      · have hnz : ¬ peekNth (e ++ (strText us ++ rest)) 0 = EOFc := by
          intro hz
          match e, hne with
          | c :: e, _ =>
            simp at hz
            exact hn.next (by simp [hz]; rfl)
        have hnl : isNewline (peekNth (e ++ (strText us ++ rest)) 0) = false := by
          rw [Bool.eq_false_iff, Ne, peek_newline]; exact escTail_not_newline h1
        simp only [show isNewline '\\' = false by decide, Bool.false_eq_true, if_false, beq_iff_eq, hnz, hnl,
          escTail_isEscape h1, if_true, consumeEscape_eq h1 ha]
        rw [ih]
        simp [strEsc, show '\\'.utf8Size = 1 by decide, EOFc, Nat.add_assoc, Nat.add_left_comm]
    | cont n =>
      obtain ⟨h1, h2⟩ := hv
      simp only [strText_cont, List.cons_append, List.append_assoc] at ha hn ⊢
      have ih := ih h2 (ha.tail.suffix) (hn.tail.suffix)
      rw [stringLoop]
      have hs := oneNewline_starts h1
      have hnl : isNewline (peekNth (n ++ (strText us ++ rest)) 0) = true := (peek_newline _).mpr hs
      have hnz : ¬ peekNth (n ++ (strText us ++ rest)) 0 = EOFc := by
        intro hz; rw [hz] at hnl; revert hnl; decide
      simp only [show isNewline '\\' = false by decide, Bool.false_eq_true, if_false, beq_iff_eq, hnz, hnl,
        if_true, consumeNewline_eq h1]
      rw [ih]
      simp [strEsc, show '\\'.utf8Size = 1 by decide, EOFc, Nat.add_assoc, Nat.add_left_comm]

/-- Every text splits into string content and a place where it stops. -/
theorem exists_str (q : Char) (hq : q = '"' ∨ q = '\'') (cs : List Char) :
    ∃ us rest, cs = strText us ++ rest ∧ ValidStr q us rest ∧ StrStops q rest := by
  match hcs : cs with
  | [] => exact ⟨[], [], rfl, trivial, Or.inl rfl⟩
  | c :: cs' =>
    by_cases h1 : c = q
    · exact ⟨[], c :: cs', rfl, trivial, Or.inr (Or.inl (by simpa using h1))⟩
    by_cases h2 : Newline c
    · exact ⟨[], c :: cs', rfl, trivial, Or.inr (Or.inr (by simpa using h2))⟩
    by_cases h3 : c = '\\'
    · subst h3
      by_cases h4 : Starts Newline cs'
      · obtain ⟨d, r, rfl, hd⟩ := h4
        by_cases h5 : d = '\r' ∧ Starts (· = '\n') r
        · obtain ⟨rfl, e, r', rfl, rfl⟩ := h5
          obtain ⟨us, rest, e1, e2, e3⟩ := exists_str q hq r'
          exact ⟨.cont ['\r', '\n'] :: us, rest, by simp [e1], ⟨.crlf, e2⟩, e3⟩
        · obtain ⟨us, rest, e1, e2, e3⟩ := exists_str q hq r
          refine ⟨.cont [d] :: us, rest, by simp [e1], ⟨.one hd ?_, e2⟩, e3⟩
          rw [← e1]; exact h5
      · obtain ⟨e, r, e4, e5⟩ := exists_escTail cs' h4
        obtain ⟨us, rest, e1, e2, e3⟩ := exists_str q hq r
        exact ⟨.esc e :: us, rest, by simp [e4, e1], ⟨by rw [← e1]; exact e5, e2⟩, e3⟩
    · obtain ⟨us, rest, e1, e2, e3⟩ := exists_str q hq cs'
      exact ⟨.chr c :: us, rest, by simp [e1], ⟨h1, h2, h3, e2⟩, e3⟩
  termination_by cs.length
  decreasing_by all_goals simp_all <;> omega

end Hdx

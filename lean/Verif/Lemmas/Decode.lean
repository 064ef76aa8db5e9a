/-
Helper lemmas: the decoding loops of css_lexer/src/cursor.rs in terms of the CSS grammar.
-/
import Verif.Lemmas.Escape
import Verif.Lemmas.Cover

namespace Hdx
open Spec Cursor

/-- A text the decoding loops can walk over: every backslash starts an escape, or, in a string, a line continuation; or it is
the last character of a string. -/
def DecodeOk (isStr : Bool) : List StrUnit → List Char → Prop
  | [], _ => True
  | .chr c :: us, rest => c ≠ '\\' ∧ DecodeOk isStr us rest
  | .esc e :: us, rest => ((isStr = true ∧ e = [] ∧ us = []) ∨ EscTail e (strText us ++ rest)) ∧ DecodeOk isStr us rest
  | .cont n :: us, rest => isStr = true ∧ OneNewline n (strText us ++ rest) ∧ ¬ Starts Newline (strText us)
      ∧ DecodeOk isStr us rest

/-- The value of one unit. -/
def unitValue (isStr : Bool) : StrUnit → List Char
  | .chr c => [sourceChar c]
  | .esc e => if isStr = true ∧ e = [] then [] else [escapedChar e]
  | .cont _ => []

def unitsValue (isStr : Bool) (us : List StrUnit) : List Char := us.flatMap (unitValue isStr)

@[simp] theorem strText_cons (u : StrUnit) (us : List StrUnit) : strText (u :: us) = u.text ++ strText us := rfl
@[simp] theorem unitsValue_nil (b : Bool) : unitsValue b [] = [] := rfl
@[simp] theorem unitsValue_cons (b : Bool) (u : StrUnit) (us : List StrUnit) :
    unitsValue b (u :: us) = unitValue b u ++ unitsValue b us := rfl

theorem escTail_head {e r : List Char} (h : EscTail e r) : (e = [] ∧ r = []) ∨ ∃ c s, e = c :: s ∧ ¬ Newline c := by
  cases h with
  | eof => exact Or.inl ⟨rfl, rfl⟩
  | plain _ h => exact Or.inr ⟨_, _, rfl, h⟩
  | @hex ds ws rest h1 _ h3 _ _ =>
    match ds, h1 with
    | d :: ds, _ =>
      refine Or.inr ⟨d, ds ++ ws, rfl, fun hn => ws_not_hex (Or.inr (Or.inr hn)) (h3 d (by simp))⟩

theorem escTail_of {isStr : Bool} {e rest : List Char} {us : List StrUnit}
    (h : (isStr = true ∧ e = [] ∧ us = []) ∨ EscTail e (strText us ++ rest)) (hs : ¬ (isStr = true ∧ e = [])) :
    EscTail e (strText us ++ rest) := h.elim (fun h => absurd ⟨h.1, h.2.1⟩ hs) id

theorem escNil_of {isStr : Bool} {rest : List Char} {us : List StrUnit}
    (h : (isStr = true ∧ ([] : List Char) = [] ∧ us = []) ∨ EscTail [] (strText us ++ rest)) : strText us = [] := by
  rcases h with ⟨_, _, rfl⟩ | h
  · rfl
  · rcases escTail_head h with ⟨_, h⟩ | ⟨c, s, h, _⟩
    · exact (List.append_eq_nil_iff.mp h).1
    · simp at h

theorem strText_eq_nil {us : List StrUnit} (h : strText us = []) : us = [] := by
  cases us with
  | nil => rfl
  | cons u us => cases u <;> simp [StrUnit.text] at h

section
variable {isStr : Bool} {source : List Char} {start : Nat}

/-- Where the loop stands: `done` has been read, `us` is still to come before `post`. -/
structure At (source : List Char) (start : Nat) (done cs post : List Char) (i stop : Nat) : Prop where
  i_eq : i = utf8Len done
  split : ∃ pre, source = pre ++ (done ++ (cs ++ post)) ∧ start = utf8Len pre
  stop_eq : stop = start + utf8Len done + utf8Len cs

theorem At.sliceDone {done cs post : List Char} {i stop : Nat} (h : At source start done cs post i stop) :
    slice source start (start + i) = .ok done := by
  obtain ⟨h1, ⟨pre, rfl, rfl⟩, h3⟩ := h
  subst h1
  simp only [slice, sliceBytes_append]

theorem At.step {done a cs post : List Char} {i stop : Nat} (h : At source start done (a ++ cs) post i stop) :
    At source start (done ++ a) cs post (i + utf8Len a) stop ∧ slice source (start + (i + utf8Len a)) stop = .ok cs := by
  obtain ⟨h1, ⟨pre, rfl, rfl⟩, h3⟩ := h
  subst h1
  refine ⟨⟨by simp, ⟨pre, by simp, rfl⟩, by simp [h3]; omega⟩, ?_⟩
  have := sliceBytes_append (pre ++ (done ++ a)) cs post
  simp only [slice]
  simp only [utf8Len_append, List.append_assoc] at this h3 ⊢
  rw [h3, show utf8Len pre + utf8Len done + (utf8Len a + utf8Len cs) = utf8Len pre + (utf8Len done + utf8Len a) + utf8Len cs by omega]
  rw [this]

theorem At.sliceFrom {done a cs post : List Char} {i stop : Nat} (h : At source start done (a ++ cs) post i stop) :
    Hdx.sliceFrom source (start + (i + utf8Len a)) = .ok (cs ++ post) := by
  obtain ⟨h1, ⟨pre, rfl, rfl⟩, h3⟩ := h
  subst h1
  have := dropBytes_append (pre ++ (done ++ a)) (cs ++ post)
  simp only [Hdx.sliceFrom]
  simp only [utf8Len_append, List.append_assoc] at this ⊢
  rw [this]

theorem backslash_size : '\\'.utf8Size = 1 := rfl

/-- What happens at an escape. -/
theorem atBackslash_esc {done e post : List Char} {us : List StrUnit} {i stop : Nat}
    (h : At source start done ('\\' :: (e ++ strText us)) post i stop) (he : EscTail e (strText us ++ post))
    (hs : ¬ (isStr = true ∧ e = [])) :
    atBackslash isStr source start i (e ++ strText us) = .ok (.esc (rawEscaped e) (i + 1 + utf8Len e)) := by
  have hf : Hdx.sliceFrom source (start + (i + 1)) = .ok (e ++ (strText us ++ post)) := by
    have := At.sliceFrom (a := ['\\']) (cs := e ++ strText us) h
    simpa [backslash_size] using this
  have hp := parseEscape_eq he
  unfold atBackslash
  simp only [hf, hp]
  cases isStr with
  | false => rfl
  | true =>
    rcases escTail_head he with ⟨h1, _⟩ | ⟨c, s, rfl, hc⟩
    · exact absurd ⟨rfl, h1⟩ hs
    · have : isNewline c = false := by rw [Bool.eq_false_iff, ne_eq, isNewline_iff]; exact hc
      simp [this]

theorem atBackslash_stop {us : List StrUnit} {i : Nat} (hs : isStr = true) (hu : strText us = []) :
    atBackslash isStr source start i ([] ++ strText us) = .ok .stop := by
  simp [atBackslash, hs, hu]

theorem atBackslash_cont {n post : List Char} {us : List StrUnit} {i : Nat} (hs : isStr = true)
    (hn : OneNewline n (strText us ++ post)) (hu : ¬ Starts Newline (strText us)) :
    atBackslash isStr source start i (n ++ strText us) = .ok (.skip (i + 1 + utf8Len n)) := by
  cases hn with
  | crlf => simp [atBackslash, hs, isNewline, CRc, show '\r'.utf8Size = 1 from rfl, show '\n'.utf8Size = 1 from rfl]
  | @one c rest hc hc' =>
    have hsz := utf8Size_isAscii (isNewline_ascii ((isNewline_iff c).mpr hc))
    have : ((strText us).head? == some '\n') = false := by
      rw [Bool.eq_false_iff]
      intro hh
      cases hst : strText us with
      | nil => rw [hst] at hh; simp at hh
      | cons a b => rw [hst] at hh; simp at hh; exact hu ⟨a, b, hst, by rw [hh]; exact Or.inl rfl⟩
    simp [atBackslash, hs, (isNewline_iff c).mpr hc, this, hsz]

/-- The loop of `parse_str`. -/
theorem parseLoop_eq {us : List StrUnit} {post : List Char} (hv : DecodeOk isStr us post) {stop : Nat} :
    ∀ {done : List Char} {i : Nat} {str : Option (List Char)}, At source start done (strText us) post i stop →
      parseLoop isStr source start stop i str (strText us) = .ok (str.getD done ++ unitsValue isStr us) := by
  induction us with
  | nil =>
    intro done i str hat
    rw [strText_nil, parseLoop.eq_def]; dsimp only
    cases str with
    | none => simp [hat.sliceDone]
    | some s => simp
  | cons u us ih =>
    intro done i str hat
    have howned : ownedStr source start i str = .ok (str.getD done) := by
      unfold ownedStr
      cases str with
      | some s => rfl
      | none =>
        simp only [Option.getD_none]
        split
        · rename_i h0
          simp only [beq_iff_eq] at h0
          have := hat.i_eq
          rw [utf8Len_eq_zero.mp (this.symm.trans h0)]
        · exact hat.sliceDone
    cases u with
    | chr c =>
      obtain ⟨hc, hv⟩ := hv
      simp only [strText_cons, StrUnit.text, List.cons_append, List.nil_append] at hat ⊢
      have hst := At.step (a := [c]) (cs := strText us) hat
      simp only [utf8Len_cons, utf8Len_nil, Nat.add_zero] at hst
      rw [parseLoop.eq_def]; dsimp only
      by_cases h0 : c = NUL
      · subst h0
        simp only [howned]
        rw [if_pos (by decide)]
        have hst1 := hst.1
        rw [show NUL.utf8Size = 1 from rfl] at hst1
        rw [ih hv hst1]
        simp [unitValue, sourceChar, REPL, Replacement]
      · rw [if_neg (by simpa [EOFc, NUL] using h0), if_neg (by simpa using hc), ih hv hst.1]
        cases str <;> simp [unitValue, sourceChar, h0]
    | esc e =>
      obtain ⟨he, hv⟩ := hv
      simp only [strText_cons, StrUnit.text, List.cons_append] at hat ⊢
      by_cases hs : isStr = true ∧ e = []
      · obtain ⟨hs, rfl⟩ := hs
        have hnil : strText us = [] := by
          exact escNil_of he
        have hus := strText_eq_nil hnil
        subst hus
        rw [parseLoop.eq_def]; dsimp only
        simp only [howned]
        rw [if_neg (by decide), if_pos (by decide), ]
        have := atBackslash_stop (us := []) (source := source) (start := start) (i := i) hs rfl
        simp only [List.nil_append] at this ⊢
        split
        · rename_i h; rw [this] at h; cases h
        · simp [unitValue, hs]
        · rename_i h; rw [this] at h; cases h
        · rename_i h; rw [this] at h; cases h
      · have hat' : At source start done (('\\' :: e) ++ strText us) post i stop := by simpa using hat
        have hst := At.step hat'
        simp only [utf8Len_cons, backslash_size] at hst
        have hb := atBackslash_esc hat (escTail_of he hs) hs
        rw [parseLoop.eq_def]; dsimp only
        simp only [howned]
        rw [if_neg (by decide), if_pos (by decide)]
        have hslice := hst.2
        rw [show i + (1 + utf8Len e) = i + 1 + utf8Len e by omega] at hslice hst
        split
        · rename_i h; rw [hb] at h; cases h
        · rename_i h; rw [hb] at h; cases h
        · rename_i h; rw [hb] at h; cases h
        · rename_i ch j h
          rw [hb] at h
          simp only [Except.ok.injEq, AtBackslash.esc.injEq] at h
          obtain ⟨rfl, rfl⟩ := h
          split
          · rename_i h2; rw [hslice] at h2; cases h2
          · rename_i r h2
            rw [hslice] at h2
            simp only [Except.ok.injEq] at h2
            subst h2
            rw [ih hv hst.1, rawEscaped_value]
            simp [unitValue, hs]
    | cont n =>
      obtain ⟨hs, hn, hnn, hv⟩ := hv
      simp only [strText_cons, StrUnit.text, List.cons_append] at hat ⊢
      have hat' : At source start done (('\\' :: n) ++ strText us) post i stop := by simpa using hat
      have hst := At.step hat'
      simp only [utf8Len_cons, backslash_size] at hst
      have hb := atBackslash_cont (source := source) (start := start) (i := i) hs hn hnn
      rw [parseLoop.eq_def]; dsimp only
      simp only [howned]
      rw [if_neg (by decide), if_pos (by decide)]
      have hslice := hst.2
      rw [show i + (1 + utf8Len n) = i + 1 + utf8Len n by omega] at hslice hst
      split
      · rename_i h; rw [hb] at h; cases h
      · rename_i h; rw [hb] at h; cases h
      · rename_i j h
        rw [hb] at h
        simp only [Except.ok.injEq, AtBackslash.skip.injEq] at h
        subst h
        split
        · rename_i h2; rw [hslice] at h2; cases h2
        · rename_i r h2
          rw [hslice] at h2
          simp only [Except.ok.injEq] at h2
          subst h2
          rw [ih hv hst.1]
          simp [unitValue]
      · rename_i h; rw [hb] at h; cases h

theorem lower_repl : toAsciiLower REPL = REPL := by decide

/-- The loop of `parse_str_lower`. -/
theorem lowerLoop_eq {us : List StrUnit} {post : List Char} (hv : DecodeOk isStr us post) {stop : Nat} :
    ∀ {done : List Char} {i : Nat} {str : List Char}, At source start done (strText us) post i stop →
      lowerLoop isStr source start stop i str (strText us) = .ok (str ++ (unitsValue isStr us).map toAsciiLower) := by
  induction us with
  | nil =>
    intro done i str hat
    rw [strText_nil, lowerLoop]
    simp
  | cons u us ih =>
    intro done i str hat
    cases u with
    | chr c =>
      obtain ⟨hc, hv⟩ := hv
      simp only [strText_cons, StrUnit.text, List.cons_append, List.nil_append] at hat ⊢
      have hst := At.step (a := [c]) (cs := strText us) hat
      simp only [utf8Len_cons, utf8Len_nil, Nat.add_zero] at hst
      rw [lowerLoop]
      by_cases h0 : c = NUL
      · subst h0
        rw [if_pos (by decide)]
        have hst1 := hst.1
        rw [show NUL.utf8Size = 1 from rfl] at hst1
        rw [ih hv hst1]
        simp [unitValue, sourceChar, show Replacement = REPL from rfl, lower_repl]
      · rw [if_neg (by simpa [EOFc, NUL] using h0), if_neg (by simpa using hc), ih hv hst.1]
        simp [unitValue, sourceChar, h0]
    | esc e =>
      obtain ⟨he, hv⟩ := hv
      simp only [strText_cons, StrUnit.text, List.cons_append] at hat ⊢
      by_cases hs : isStr = true ∧ e = []
      · obtain ⟨hs, rfl⟩ := hs
        have hnil : strText us = [] := by
          exact escNil_of he
        have hus := strText_eq_nil hnil
        subst hus
        rw [lowerLoop]
        rw [if_neg (by decide), if_pos (by decide), ]
        have := atBackslash_stop (us := []) (source := source) (start := start) (i := i) hs rfl
        simp only [List.nil_append] at this ⊢
        split
        · rename_i h; rw [this] at h; cases h
        · simp [unitValue, hs]
        · rename_i h; rw [this] at h; cases h
        · rename_i h; rw [this] at h; cases h
      · have hat' : At source start done (('\\' :: e) ++ strText us) post i stop := by simpa using hat
        have hst := At.step hat'
        simp only [utf8Len_cons, backslash_size] at hst
        have hb := atBackslash_esc hat (escTail_of he hs) hs
        rw [lowerLoop]
        rw [if_neg (by decide), if_pos (by decide)]
        have hslice := hst.2
        rw [show i + (1 + utf8Len e) = i + 1 + utf8Len e by omega] at hslice hst
        split
        · rename_i h; rw [hb] at h; cases h
        · rename_i h; rw [hb] at h; cases h
        · rename_i h; rw [hb] at h; cases h
        · rename_i ch j h
          rw [hb] at h
          simp only [Except.ok.injEq, AtBackslash.esc.injEq] at h
          obtain ⟨rfl, rfl⟩ := h
          split
          · rename_i h2; rw [hslice] at h2; cases h2
          · rename_i r h2
            rw [hslice] at h2
            simp only [Except.ok.injEq] at h2
            subst h2
            rw [ih hv hst.1]
            have : (if rawEscaped e == EOFc then REPL else toAsciiLower (rawEscaped e)) = toAsciiLower (escapedChar e) := by
              rw [← rawEscaped_value]; split
              · exact lower_repl.symm
              · rfl
            rw [this]
            simp [unitValue, hs]
    | cont n =>
      obtain ⟨hs, hn, hnn, hv⟩ := hv
      simp only [strText_cons, StrUnit.text, List.cons_append] at hat ⊢
      have hat' : At source start done (('\\' :: n) ++ strText us) post i stop := by simpa using hat
      have hst := At.step hat'
      simp only [utf8Len_cons, backslash_size] at hst
      have hb := atBackslash_cont (source := source) (start := start) (i := i) hs hn hnn
      rw [lowerLoop]
      rw [if_neg (by decide), if_pos (by decide)]
      have hslice := hst.2
      rw [show i + (1 + utf8Len n) = i + 1 + utf8Len n by omega] at hslice hst
      split
      · rename_i h; rw [hb] at h; cases h
      · rename_i h; rw [hb] at h; cases h
      · rename_i j h
        rw [hb] at h
        simp only [Except.ok.injEq, AtBackslash.skip.injEq] at h
        subst h
        split
        · rename_i h2; rw [hslice] at h2; cases h2
        · rename_i r h2
          rw [hslice] at h2
          simp only [Except.ok.injEq] at h2
          subst h2
          rw [ih hv hst.1]
          simp [unitValue]
      · rename_i h; rw [hb] at h; cases h

/-- Units the loop of `eq_ignore_ascii_case` handles as intended. -/
def EqOk (isStr : Bool) : List StrUnit → Prop
  | [] => True
  | .chr _ :: us => EqOk isStr us
  | .esc e :: us => ¬ (isStr = true ∧ e = []) ∧ e ≠ [NUL] ∧ EqOk isStr us
  | .cont _ :: _ => False

theorem rawEscaped_ne_nul {e : List Char} {r : List Char} (he : EscTail e r) (h : e ≠ [NUL]) : rawEscaped e = escapedChar e ∧ rawEscaped e ≠ EOFc := by
  have := rawEscaped_value e
  by_cases h0 : rawEscaped e = EOFc
  · exfalso
    cases he with
    | eof => exact absurd h0 (by decide)
    | @plain c rest h1 h2 =>
      have h3 : (hexDigit? c).isSome = false := by rw [Bool.eq_false_iff, ne_eq, hexDigit_hex]; exact h1
      simp [rawEscaped, h3] at h0
      exact h (by rw [h0]; rfl)
    | @hex ds ws rest h1 _ h3 _ _ =>
      match ds, h1 with
      | d :: ds, _ =>
        have hd := (hexDigit_hex d).mpr (h3 d (by simp))
        simp only [List.cons_append, rawEscaped, escapedChar, hd, if_true] at this h0
        rw [h0] at this
        exact absurd this (by decide)
  · rw [if_neg (by simpa using h0)] at this
    exact ⟨this, h0⟩

/-- The loop of `eq_ignore_ascii_case`: a case-sensitive comparison of the decoded text. -/
theorem eqLoop_eq {us : List StrUnit} {post : List Char} (hv : DecodeOk isStr us post) (hq : EqOk isStr us) {stop : Nat} :
    ∀ {done : List Char} {i : Nat} {os : List Char}, At source start done (strText us) post i stop →
      eqLoop isStr source start stop i os (strText us) = .ok (os == unitsValue isStr us) := by
  induction us with
  | nil =>
    intro done i os hat
    rw [strText_nil, eqLoop]
    cases os <;> simp
  | cons u us ih =>
    intro done i os hat
    cases u with
    | chr c =>
      obtain ⟨hc, hv⟩ := hv
      simp only [strText_cons, StrUnit.text, List.cons_append, List.nil_append] at hat ⊢
      have hst := At.step (a := [c]) (cs := strText us) hat
      simp only [utf8Len_cons, utf8Len_nil, Nat.add_zero] at hst
      rw [eqLoop.eq_def]; dsimp only
      cases os with
      | nil => simp [unitValue]
      | cons o os =>
        simp only
        by_cases h0 : c = NUL
        · subst h0
          rw [if_pos (by decide)]
          have hst1 := hst.1
          rw [show NUL.utf8Size = 1 from rfl] at hst1
          by_cases ho : o = REPL
          · subst ho
            rw [if_neg (by simp), ih hv hq hst1]
            simp [unitValue, sourceChar, show Replacement = REPL from rfl]
          · rw [if_pos (by simpa using fun h => ho h.symm)]
            simp [unitValue, sourceChar, show Replacement = REPL from rfl, ho]
        · rw [if_neg (by simpa [EOFc, NUL] using h0), if_neg (by simpa using hc)]
          by_cases ho : c = o
          · subst ho
            rw [if_neg (by simp), ih hv hq hst.1]
            simp [unitValue, sourceChar, h0]
          · rw [if_pos (by simpa using ho)]
            simp [unitValue, sourceChar, h0]
            intro h; exact absurd h.symm ho
    | esc e =>
      obtain ⟨he, hv⟩ := hv
      obtain ⟨hs, hnul, hq⟩ := hq
      simp only [strText_cons, StrUnit.text, List.cons_append] at hat ⊢
      have hat' : At source start done (('\\' :: e) ++ strText us) post i stop := by simpa using hat
      have hst := At.step hat'
      simp only [utf8Len_cons, backslash_size] at hst
      have hb := atBackslash_esc hat (escTail_of he hs) hs
      rw [eqLoop.eq_def]; dsimp only
      cases os with
      | nil => simp [unitValue, hs]
      | cons o os =>
        simp only
        rw [if_neg (by decide), if_pos (by decide)]
        have hslice := hst.2
        rw [show i + (1 + utf8Len e) = i + 1 + utf8Len e by omega] at hslice hst
        split
        · rename_i h; rw [hb] at h; cases h
        · rename_i h; rw [hb] at h; cases h
        · rename_i h; rw [hb] at h; cases h
        · rename_i ch j h
          rw [hb] at h
          simp only [Except.ok.injEq, AtBackslash.esc.injEq] at h
          obtain ⟨rfl, rfl⟩ := h
          split
          · rename_i h2; rw [hslice] at h2; cases h2
          · rename_i r h2
            rw [hslice] at h2
            simp only [Except.ok.injEq] at h2
            subst h2
            rw [ih hv hq hst.1]
            obtain ⟨e1, e2⟩ := rawEscaped_ne_nul (escTail_of he hs) hnul
            have h3 : (rawEscaped e == EOFc) = false := by simpa using e2
            rw [h3, e1]
            by_cases ho : escapedChar e = o
            · subst ho; simp [unitValue, hs]
            · have : ¬ o = escapedChar e := fun h => ho h.symm
              simp [unitValue, hs, ho, this]
    | cont n => exact absurd hq id

/-- The loop of `eq_ignore_ascii_case` returns, whatever it compares with. -/
theorem eqLoop_total {us : List StrUnit} {post : List Char} (hv : DecodeOk isStr us post) {stop : Nat} :
    ∀ {done : List Char} {i : Nat} {os : List Char}, At source start done (strText us) post i stop →
      ∃ b, eqLoop isStr source start stop i os (strText us) = .ok b := by
  induction us with
  | nil =>
    intro done i os hat
    rw [strText_nil, eqLoop]
    exact ⟨_, rfl⟩
  | cons u us ih =>
    intro done i os hat
    cases u with
    | chr c =>
      obtain ⟨hc, hv⟩ := hv
      simp only [strText_cons, StrUnit.text, List.cons_append, List.nil_append] at hat ⊢
      have hst := At.step (a := [c]) (cs := strText us) hat
      simp only [utf8Len_cons, utf8Len_nil, Nat.add_zero] at hst
      rw [eqLoop.eq_def]; dsimp only
      cases os with
      | nil => exact ⟨_, rfl⟩
      | cons o os =>
        simp only
        split
        · rename_i h0
          have h0 : c = NUL := by simpa [EOFc, NUL] using h0
          subst h0
          split
          · exact ⟨_, rfl⟩
          · have hst1 := hst.1
            rw [show NUL.utf8Size = 1 from rfl] at hst1
            exact ih hv hst1
        · rw [if_neg (by simpa using hc)]
          split
          · exact ⟨_, rfl⟩
          · exact ih hv hst.1
    | esc e =>
      obtain ⟨he, hv⟩ := hv
      simp only [strText_cons, StrUnit.text, List.cons_append] at hat ⊢
      have hat' : At source start done (('\\' :: e) ++ strText us) post i stop := by simpa using hat
      have hst := At.step hat'
      simp only [utf8Len_cons, backslash_size] at hst
      rw [eqLoop.eq_def]; dsimp only
      cases os with
      | nil => exact ⟨_, rfl⟩
      | cons o os =>
        simp only
        rw [if_neg (by decide), if_pos (by decide)]
        have hslice := hst.2
        rw [show i + (1 + utf8Len e) = i + 1 + utf8Len e by omega] at hslice hst
        by_cases hs : isStr = true ∧ e = []
        · obtain ⟨hs, rfl⟩ := hs
          have hus : strText us = [] := by
            exact escNil_of he
          have hb := atBackslash_stop (source := source) (start := start) (us := us) (i := i) hs hus
          split
          · rename_i h; rw [hb] at h; cases h
          · exact ⟨_, rfl⟩
          · rename_i h; rw [hb] at h; cases h
          · rename_i h; rw [hb] at h; cases h
        · have hb := atBackslash_esc hat (escTail_of he hs) hs
          split
          · rename_i h; rw [hb] at h; cases h
          · exact ⟨_, rfl⟩
          · rename_i h; rw [hb] at h; cases h
          · rename_i ch j h
            rw [hb] at h
            simp only [Except.ok.injEq, AtBackslash.esc.injEq] at h
            obtain ⟨rfl, rfl⟩ := h
            split
            · rename_i h2; rw [hslice] at h2; cases h2
            · rename_i r h2
              rw [hslice] at h2
              simp only [Except.ok.injEq] at h2
              subst h2
              split
              · exact ⟨_, rfl⟩
              · exact ih hv hst.1
    | cont n =>
      obtain ⟨hs, hn, hnn, hv⟩ := hv
      simp only [strText_cons, StrUnit.text, List.cons_append] at hat ⊢
      have hat' : At source start done (('\\' :: n) ++ strText us) post i stop := by simpa using hat
      have hst := At.step hat'
      simp only [utf8Len_cons, backslash_size] at hst
      have hb := atBackslash_cont (source := source) (start := start) (i := i) hs hn hnn
      rw [eqLoop.eq_def]; dsimp only
      cases os with
      | nil => exact ⟨_, rfl⟩
      | cons o os =>
        simp only
        rw [if_neg (by decide), if_pos (by decide)]
        have hslice := hst.2
        rw [show i + (1 + utf8Len n) = i + 1 + utf8Len n by omega] at hslice hst
        split
        · rename_i h; rw [hb] at h; cases h
        · exact ⟨_, rfl⟩
        · rename_i j h
          rw [hb] at h
          simp only [Except.ok.injEq, AtBackslash.skip.injEq] at h
          subst h
          split
          · rename_i h2; rw [hslice] at h2; cases h2
          · rename_i r h2
            rw [hslice] at h2
            simp only [Except.ok.injEq] at h2
            subst h2
            exact ih hv hst.1
        · rename_i h; rw [hb] at h; cases h

end

end Hdx

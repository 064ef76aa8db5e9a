/-
Helper lemmas: evaluating the url and comment scanners on texts built from grammar elements.
-/
import Verif.Lemmas.Eval

namespace Hdx
open Spec

/-! ### Bad url remnants -/

theorem exists_remnant (cs : List Char) :
    ∃ us rest, cs = nameText us ++ rest ∧ ValidRemnant us rest ∧ (rest = [] ∨ Starts (· = ')') rest) := by
  match hcs : cs with
  | [] => exact ⟨[], [], rfl, trivial, Or.inl rfl⟩
  | c :: cs' =>
    by_cases h1 : c = ')'
    · exact ⟨[], c :: cs', rfl, trivial, Or.inr (by simpa using h1)⟩
    by_cases h2 : StartsEscape (c :: cs')
    · obtain ⟨r0, h3, h4⟩ := h2
      injection h3 with h3 h5
      subst h3
      rw [← h5] at h4
      clear h5 r0
      obtain ⟨e, r, e4, e5⟩ := exists_escTail cs' h4
      have hlen : r.length ≤ cs'.length := by rw [e4]; simp
      obtain ⟨us, rest, e1, e2, e3⟩ := exists_remnant r
      exact ⟨.esc e :: us, rest, by simp [e4, e1], ⟨by rw [← e1]; exact e5, e2⟩, e3⟩
    · obtain ⟨us, rest, e1, e2, e3⟩ := exists_remnant cs'
      exact ⟨.chr c :: us, rest, by simp [e1], ⟨h1, by rw [← e1]; exact h2, e2⟩, e3⟩
  termination_by cs.length
  decreasing_by all_goals simp only [List.length_cons] <;> omega

/-- The outcome at the end of the remnants. -/
def remnantFinish (len : Nat) : List Char → Nat × List Char
  | [] => (len, [])
  | _ :: cs => (len + 1, cs)

theorem newline_unit {n : Char} {us : List NameUnit} {rest : List Char} {r : List Char}
    (hv : ValidRemnant us rest) (hr : rest = [] ∨ Starts (· = ')') rest) (hn : Newline n)
    (h : nameText us ++ rest = n :: r) :
    ∃ us', us = .chr n :: us' ∧ r = nameText us' ++ rest ∧ ValidRemnant us' rest := by
  have hp : n ≠ ')' ∧ n ≠ '\\' := by
    constructor <;> (rintro rfl; revert hn; rw [← isNewline_iff]; decide)
  cases us with
  | nil =>
    rcases hr with rfl | ⟨d, r', rfl, rfl⟩
    · simp at h
    · simp at h; exact absurd h.1.symm hp.1
  | cons u us =>
    cases u with
    | chr c =>
      simp at h
      obtain ⟨rfl, h⟩ := h
      exact ⟨us, rfl, h.symm, hv.2.2⟩
    | esc e => simp at h; exact absurd h.1.symm hp.2

theorem badUrlRemnants_eq {us : List NameUnit} {rest : List Char} (hv : ValidRemnant us rest)
    (hr : rest = [] ∨ Starts (· = ')') rest) (ha : EscAscii (nameText us ++ rest)) (len : Nat) :
    badUrlRemnants len (nameText us ++ rest) = remnantFinish (len + utf8Len (nameText us)) rest := by
  match us with
  | [] =>
    rcases hr with rfl | ⟨c, cs, rfl, rfl⟩
    · simp [badUrlRemnants, remnantFinish]
    · rw [badUrlRemnants.eq_def]; simp [remnantFinish]
  | .esc e :: us =>
    obtain ⟨h1, h2⟩ := hv
    simp only [nameText_esc, List.cons_append, List.append_assoc] at ha ⊢
    have ih := badUrlRemnants_eq h2 hr ha.tail.suffix
    rw [badUrlRemnants.eq_def]
    simp only [show ('\\' == ')') = false by decide, Bool.false_eq_true, if_false, BEq.rfl, if_true,
      escTail_isEscape h1, consumeEscape_eq h1 ha]
    rw [ih]
    simp [show '\\'.utf8Size = 1 by decide, Nat.add_assoc, Nat.add_left_comm]
  | .chr c :: us =>
    obtain ⟨h1, h2, h3⟩ := hv
    simp only [nameText_chr, List.cons_append] at ha ⊢
    rw [badUrlRemnants.eq_def]
    simp only [beq_iff_eq, h1, if_false]
    by_cases hb : c = '\\'
    · subst hb
      have hne : isEscapeSequence '\\' (peekNth (nameText us ++ rest) 0) = false := by
        rw [Bool.eq_false_iff, Ne, isEscapeSequence_iff]; exact h2
      have hs : Starts Newline (nameText us ++ rest) := by
        by_cases h : Starts Newline (nameText us ++ rest)
        · exact h
        · exact absurd ⟨_, rfl, h⟩ h2
      obtain ⟨n, r, hnr, hn⟩ := hs
      obtain ⟨us', rfl, hr', hv'⟩ := newline_unit h3 hr hn hnr
      simp only [hne, if_true, Bool.false_eq_true, if_false]
      rw [hnr]
      simp only
      subst hr'
      have ih := badUrlRemnants_eq hv' hr (ha.tail.suffix (a := [n]))
      rw [ih]
      simp [show '\\'.utf8Size = 1 by decide, Nat.add_assoc, Nat.add_left_comm, Nat.add_comm]
    · have ih := badUrlRemnants_eq h3 hr ha.tail
      simp only [hb, if_false]
      rw [ih]
      simp [Nat.add_assoc]
  termination_by us.length
  decreasing_by all_goals simp_all <;> omega

/-! ### The url value -/

/-- `us` contains an escape. -/
def unitsEsc : List NameUnit → Bool
  | [] => false
  | .chr _ :: us => unitsEsc us
  | .esc _ :: _ => true

theorem unitsEsc_iff (us : List NameUnit) : unitsEsc us = true ↔ ∃ e, NameUnit.esc e ∈ us := by
  induction us with
  | nil => simp [unitsEsc]
  | cons u us ih => cases u <;> simp [unitsEsc, ih]

/-- The outcome at the end of a url value followed by whitespace `ws` and then `r`. -/
def urlFinish (esc : Bool) (len : Nat) (ws : List Char) : List Char → UrlEnd × List Char
  | [] => (.url false (esc || !ws.isEmpty) ws.length (len + ws.length), [])
  | c :: cs =>
    if c = ')' then (.url true (esc || !ws.isEmpty) (ws.length + 1) (len + ws.length + 1), cs)
    else (.bad (len + ws.length), c :: cs)

theorem urlLoop_end {ws r : List Char} (hw : ∀ c ∈ ws, Ws c)
    (hr : r = [] ∨ Starts (· = ')') r ∨ UrlSpoilt ws r) (h0 : ¬ Starts (· = NUL) r) (esc : Bool) (len : Nat) :
    urlLoop esc len (ws ++ r) = urlFinish esc len ws r := by
  have hrw : ¬ Starts Ws r := by
    rcases hr with rfl | ⟨c, cs, rfl, rfl⟩ | h
    · exact not_starts_nil _
    · simp only [starts_cons, ← isWhitespace_iff]; decide
    · exact h.2.2.1
  cases ws with
  | nil =>
    cases r with
    | nil => simp [urlLoop, urlFinish]
    | cons c cs =>
      simp only [starts_cons] at h0
      simp only [List.nil_append]
      rw [urlLoop]
      by_cases hp : c = ')'
      · simp [hp, urlFinish]
      · have hsp : UrlSpoilt [] (c :: cs) := by
          rcases hr with h | h | h
          · simp at h
          · simp at h; exact absurd h hp
          · exact h
        obtain ⟨_, _, hw, hx⟩ := hsp
        obtain ⟨hx, hx2⟩ := hx rfl
        simp only [starts_cons] at hw hx
        have hz : (c == EOFc) = false := by simpa [EOFc, NUL] using h0
        have hws : isWhitespace c = false := by rw [Bool.eq_false_iff, Ne, isWhitespace_iff]; exact hw
        have hne : isEscapeSequence c (peekNth cs 0) = false := by
          rw [Bool.eq_false_iff, Ne, isEscapeSequence_iff]; exact hx2
        simp only [beq_iff_eq, hp, if_false, hz, Bool.false_eq_true, hws, hne]
        by_cases hq : (c == '\'' || c == '"' || c == '(') = true
        · simp [hq, urlFinish, hp]
        · simp only [hq, if_false]
          by_cases hnp : isNonPrintable c = true
          · simp [hnp, urlFinish, hp]
          · simp only [hnp, if_false]
            by_cases hb : c = '\\'
            · simp [hb, urlFinish]
            · exfalso
              apply hx
              simp only [Bool.or_eq_true, beq_iff_eq, not_or] at hq
              rw [isNonPrintable_iff] at hnp
              exact ⟨hw, hq.1.2, hq.1.1, hq.2, hp, hb, hnp⟩
  | cons w ws =>
    have hww := (isWhitespace_iff w).mpr (hw w (by simp))
    have hp : (w == ')') = false := by
      rw [beq_eq_false_iff_ne]; rintro rfl; revert hww; decide
    have hz : (w == EOFc) = false := by
      rw [beq_eq_false_iff_ne]; rintro rfl; revert hww; decide
    have hc := consumeWhitespace_eq .none hw hrw
    simp only [List.cons_append] at hc ⊢
    rw [urlLoop]
    simp only [hp, hz, hww, if_true, Bool.false_eq_true, if_false, hc]
    cases r with
    | nil => simp [urlFinish]
    | cons c cs =>
      simp only [starts_cons] at h0
      have hz : (c == EOFc) = false := by simpa [EOFc, NUL] using h0
      by_cases hp : c = ')'
      · simp [hp, urlFinish, Nat.add_assoc]
      · simp [hp, hz, urlFinish]

theorem urlLoop_eq {us : List NameUnit} {ws r : List Char} (hv : ValidUrl us (ws ++ r)) (hw : ∀ c ∈ ws, Ws c)
    (hr : r = [] ∨ Starts (· = ')') r ∨ UrlSpoilt ws r) (h0 : ¬ Starts (· = NUL) r)
    (ha : EscAscii (nameText us ++ (ws ++ r))) (esc : Bool) (len : Nat) :
    urlLoop esc len (nameText us ++ (ws ++ r))
      = urlFinish (esc || unitsEsc us) (len + utf8Len (nameText us)) ws r := by
  induction us generalizing esc len with
  | nil => simpa [unitsEsc] using urlLoop_end hw hr h0 esc len
  | cons u us ih =>
    cases u with
    | esc e =>
      obtain ⟨h1, h2⟩ := hv
      simp only [nameText_esc, List.cons_append, List.append_assoc] at ha ⊢
      have ih := ih h2 ha.tail.suffix
      rw [urlLoop]
      simp only [show ('\\' == ')') = false by decide, show ('\\' == EOFc) = false by decide,
        show isWhitespace '\\' = false by decide,
        show ('\\' == '\'' || '\\' == '"' || '\\' == '(') = false by decide, show isNonPrintable '\\' = false by decide,
        Bool.false_eq_true, if_false, BEq.rfl, if_true,
        escTail_isEscape h1, consumeEscape_eq h1 ha]
      rw [ih]
      simp [unitsEsc, show '\\'.utf8Size = 1 by decide, Nat.add_assoc, Nat.add_left_comm]
    | chr c =>
      obtain ⟨⟨c1, c2, c3, c4, c5, c6, c7⟩, h2⟩ := hv
      simp only [nameText_chr, List.cons_append] at ha ⊢
      have ih := ih h2 ha.tail
      rw [← isWhitespace_iff, Bool.not_eq_true] at c1
      rw [← isNonPrintable_iff, Bool.not_eq_true] at c7
      have hz : (c == EOFc) = false := by
        rw [beq_eq_false_iff_ne]; rintro rfl; revert c7; decide
      rw [urlLoop]
      simp only [beq_iff_eq, c5, hz, c1, c7, c6, if_false, Bool.false_eq_true, Bool.or_eq_true, c2, c3, c4, or_self]
      rw [ih]
      simp [unitsEsc, Nat.add_assoc]

theorem exists_url (cs : List Char) :
    ∃ us ws r, cs = nameText us ++ (ws ++ r) ∧ ValidUrl us (ws ++ r) ∧ (∀ c ∈ ws, Ws c)
      ∧ (r = [] ∨ Starts (· = ')') r ∨ UrlSpoilt ws r) := by
  match hcs : cs with
  | [] => exact ⟨[], [], [], rfl, trivial, by simp, Or.inl rfl⟩
  | c :: cs' =>
    by_cases h1 : c = ')'
    · exact ⟨[], [], c :: cs', rfl, trivial, by simp, Or.inr (Or.inl (by simpa using h1))⟩
    by_cases hw : Ws c
    · obtain ⟨ws, r, e1, e2, e3⟩ := exists_ws (c :: cs')
      refine ⟨[], ws, r, by simpa using e1, trivial, e2, ?_⟩
      by_cases hr : r = []
      · exact Or.inl hr
      by_cases hp : Starts (· = ')') r
      · exact Or.inr (Or.inl hp)
      refine Or.inr (Or.inr ⟨hr, hp, e3, ?_⟩)
      rintro rfl
      rw [List.nil_append] at e1
      rw [← e1] at e3
      simp at e3
      exact absurd hw e3
    by_cases h2 : StartsEscape (c :: cs')
    · obtain ⟨r0, h3, h4⟩ := h2
      injection h3 with h3 h5
      subst h3
      rw [← h5] at h4
      clear h5 r0
      obtain ⟨e, r, e4, e5⟩ := exists_escTail cs' h4
      have hlen : r.length ≤ cs'.length := by rw [e4]; simp
      obtain ⟨us, ws, r', e1, e2, e3, e6⟩ := exists_url r
      exact ⟨.esc e :: us, ws, r', by simp [e4, e1], ⟨by rw [← e1]; exact e5, e2⟩, e3, e6⟩
    by_cases hu : UrlChar c
    · obtain ⟨us, ws, r, e1, e2, e3, e4⟩ := exists_url cs'
      exact ⟨.chr c :: us, ws, r, by simp [e1], ⟨hu, e2⟩, e3, e4⟩
    · refine ⟨[], [], c :: cs', rfl, trivial, by simp, Or.inr (Or.inr ⟨by simp, by simpa using h1, by simpa using hw, ?_⟩)⟩
      exact fun _ => ⟨by simpa using hu, h2⟩
  termination_by cs.length
  decreasing_by all_goals simp only [List.length_cons] <;> omega

/-! ### Comments -/

theorem blockCommentLoop_eq {body rest : List Char} (h : FirstClose body rest) (len : Nat) :
    blockCommentLoop len (body ++ ['*', '/'] ++ rest) = (len + utf8Len body + 2, rest) := by
  induction body generalizing len with
  | nil => simp [blockCommentLoop, show '*'.utf8Size = 1 by decide]
  | cons c body ih =>
    have ih := ih (fun a b hab => by
      have := h (c :: a) b (by simp at hab ⊢; exact hab)
      simpa using this)
    simp only [List.cons_append]
    rw [blockCommentLoop.eq_def]
    simp only
    by_cases hc : c = '*'
    · subst hc
      simp only [BEq.rfl, if_true]
      match hb : body ++ ['*', '/'] ++ rest with
      | [] => simp at hb
      | d :: ds =>
        by_cases hd : d = '/'
        · subst hd
          exfalso
          have := h [] ds (by simpa using hb)
          simp at this
        · simp only [beq_iff_eq, hd, if_false]
          rw [← hb, ih]
          simp [Nat.add_assoc]
    · simp only [beq_iff_eq, hc, if_false]
      rw [ih]
      simp [Nat.add_assoc]

theorem blockCommentLoop_open {body : List Char} (h : NoClose body) (len : Nat) :
    blockCommentLoop len body = (len + utf8Len body, []) := by
  induction body generalizing len with
  | nil => simp [blockCommentLoop]
  | cons c body ih =>
    have ih := ih (fun a b hab => h (c :: a) b (by simp [hab]))
    rw [blockCommentLoop.eq_def]
    simp only
    by_cases hc : c = '*'
    · subst hc
      simp only [BEq.rfl, if_true]
      match hb : body with
      | [] => simp
      | d :: ds =>
        by_cases hd : d = '/'
        · subst hd
          exact absurd rfl (h [] ds)
        · simp only [beq_iff_eq, hd, if_false]
          rw [ih]
          simp [Nat.add_assoc]
    · simp only [beq_iff_eq, hc, if_false]
      rw [ih]
      simp [Nat.add_assoc]

theorem exists_close (cs : List Char) : NoClose cs ∨ ∃ body rest, cs = body ++ ['*', '/'] ++ rest ∧ FirstClose body rest := by
  by_cases h : NoClose cs
  · exact Or.inl h
  · right
    obtain ⟨a, b, hab⟩ : ∃ a b, cs = a ++ ['*', '/'] ++ b := by
      apply Classical.byContradiction
      intro hn
      exact h (fun a b hab => hn ⟨a, b, hab⟩)
    -- the shortest such `a`
    have key : ∀ n (a b : List Char), a.length = n → cs = a ++ ['*', '/'] ++ b →
        ∃ body rest, cs = body ++ ['*', '/'] ++ rest ∧ FirstClose body rest := by
      intro n
      induction n using Nat.strongRecOn with
      | _ n ih =>
        intro a b hn hab
        by_cases hf : FirstClose a b
        · exact ⟨a, b, hab, hf⟩
        · obtain ⟨a', b', h1, h2⟩ : ∃ a' b', a ++ ['*', '/'] ++ b = a' ++ ['*', '/'] ++ b' ∧ ¬ a.length ≤ a'.length := by
            apply Classical.byContradiction
            intro hn
            exact hf (fun a' b' h1 => Classical.byContradiction (fun h2 => hn ⟨a', b', h1, h2⟩))
          exact ih a'.length (by omega) a' b' rfl (by rw [hab, h1])
    exact key _ a b rfl hab

theorem lineCommentLoop_eq {body rest : List Char} (hb : ∀ c ∈ body, ¬ Newline c ∧ c ≠ NUL)
    (hr : rest = [] ∨ Starts (fun c => Newline c ∨ c = NUL) rest) (len : Nat) :
    lineCommentLoop len (body ++ rest) = (len + body.length, rest) := by
  induction body generalizing len with
  | nil =>
    rcases hr with rfl | ⟨c, cs, rfl, hc⟩
    · simp [lineCommentLoop]
    · have : (c == LFc || c == CRc || c == FFc || c == EOFc) = true := by
        simpa [Newline, LFc, CRc, FFc, EOFc, NUL, or_assoc] using hc
      simp only [List.nil_append, lineCommentLoop, this, if_true, List.length_nil, Nat.add_zero]
  | cons c body ih =>
    have hc := hb c (by simp)
    have ih := ih (fun d hd => hb d (by simp [hd]))
    have : (c == LFc || c == CRc || c == FFc || c == EOFc) = false := by
      simpa [Newline, LFc, CRc, FFc, EOFc, NUL, not_or, and_assoc] using hc
    simp only [List.cons_append, lineCommentLoop, this, ih, Bool.false_eq_true, if_false]
    simp; omega

end Hdx

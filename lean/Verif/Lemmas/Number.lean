/-
Helper lemmas: the numeric scanner against the number grammar.
-/
import Verif.Lemmas.Scan

namespace Hdx
open Spec

theorem nul_not_digit : ¬ Digit NUL := by rw [← isDigit_iff]; decide

theorem peek_digit (cs : List Char) : isDigit (peekNth cs 0) = true ↔ Starts Digit cs :=
  peek_iff_starts _ _ isDigit_iff nul_not_digit cs

theorem consumeDigits_spec (cs : List Char) :
    ∃ ds, cs = ds ++ (consumeDigits cs).2 ∧ (consumeDigits cs).1 = ds.length ∧ Digits ds
      ∧ ¬ Starts Digit (consumeDigits cs).2 := by
  fun_induction consumeDigits cs with
  | case1 => exact ⟨[], by simp [Digits, not_starts_nil]⟩
  | case2 c cs h n r heq ih =>
    obtain ⟨ds, h1, h2, h3, h4⟩ := ih
    rw [heq] at h1 h2 h4
    simp only at h1 h2 h4
    refine ⟨c :: ds, by simp [h1], by simp [h2], ?_, h4⟩
    intro d hd
    rcases List.mem_cons.mp hd with rfl | hd
    · exact (isDigit_iff _).mp h
    · exact h3 d hd
  | case3 c cs h => exact ⟨[], by simp, by simp, by simp [Digits], by simpa [← isDigit_iff] using h⟩

theorem consumeFraction_spec (cs : List Char) :
    ∃ f, cs = f ++ (consumeFraction cs).2 ∧ (consumeFraction cs).1 = f.length ∧ IsFrac f
      ∧ (f ≠ [] → ¬ Starts Digit (consumeFraction cs).2)
      ∧ (f = [] → ∀ q, cs = '.' :: q → ¬ Starts Digit q) := by
  unfold consumeFraction
  split
  · rename_i h
    simp only [Bool.and_eq_true, beq_iff_eq] at h
    match cs, h with
    | c :: cs, h =>
      simp only [peekNth_cons_zero, peekNth_cons_succ, List.tail_cons] at h ⊢
      obtain ⟨rfl, hd⟩ := h
      obtain ⟨ds, h1, h2, h3, h4⟩ := consumeDigits_spec cs
      have hne : ds ≠ [] := by
        rintro rfl
        simp only [List.nil_append] at h1
        rw [← h1] at h4
        exact h4 ((peek_digit cs).mp hd)
      exact ⟨'.' :: ds, by simp [← h1], by simp [h2], .some h3 hne, fun _ => h4, by simp⟩
    | [], h => exact absurd h.1 (by decide)
  · rename_i h
    refine ⟨[], by simp, by simp, .none, by simp, ?_⟩
    rintro - q rfl hq
    apply h
    simp [(peek_digit q).mpr hq]

/-- `cs` starts with an exponent. -/
def ExpStarts (cs : List Char) : Prop :=
  ∃ e s q, cs = e :: (s ++ q) ∧ (e = 'e' ∨ e = 'E') ∧ IsSign s ∧ Starts Digit q

theorem digit_not_sign {c : Char} (h : Digit c) : c ≠ '+' ∧ c ≠ '-' ∧ c ≠ '.' ∧ c ≠ 'e' ∧ c ≠ 'E' := by
  rw [← isDigit_iff] at h
  refine ⟨?_, ?_, ?_, ?_, ?_⟩ <;> (rintro rfl; revert h; decide)

theorem consumeExponent_spec (cs : List Char) :
    ∃ e, cs = e ++ (consumeExponent cs).2 ∧ (consumeExponent cs).1 = e.length ∧ IsExp e
      ∧ (e ≠ [] → ¬ Starts Digit (consumeExponent cs).2)
      ∧ (e = [] → ¬ ExpStarts cs) := by
  unfold consumeExponent
  simp only
  split
  · rename_i h
    simp only [Bool.and_eq_true, Bool.or_eq_true, beq_iff_eq] at h
    match cs, h with
    | [], h => rcases h.1 with h | h <;> exact absurd h (by decide)
    | [c], h =>
      simp at h
      rcases h.2 with h | h
      · exact absurd h (by decide)
      · rcases h.1 with h | h <;> exact absurd h (by decide)
    | c :: d :: cs, h =>
      simp only [peekNth_cons_zero, peekNth_cons_succ, List.tail_cons] at h ⊢
      obtain ⟨hc, h⟩ := h
      by_cases hs : (d == '-' || d == '+') = true
      · simp only [hs, if_true]
        simp only [Bool.or_eq_true, beq_iff_eq] at hs
        have hd : isDigit (peekNth cs 0) = true := by
          rcases h with h | h
          · have := digit_not_sign ((isDigit_iff d).mp h)
            rcases hs with hs | hs <;> simp_all
          · exact h.2
        obtain ⟨ds, h1, h2, h3, h4⟩ := consumeDigits_spec cs
        have hne : ds ≠ [] := by
          rintro rfl
          simp only [List.nil_append] at h1
          rw [← h1] at h4
          exact h4 ((peek_digit cs).mp hd)
        have hsd : IsSign [d] := by rcases hs with hs | hs <;> subst hs <;> constructor
        exact ⟨c :: ([d] ++ ds), by simp [← h1], by simp [h2], .some hc hsd h3 hne, fun _ => h4, by simp⟩
      · simp only [hs, if_false, Bool.false_eq_true]
        simp only [Bool.or_eq_true, beq_iff_eq] at hs
        have hd : isDigit d = true := by
          rcases h with h | h
          · exact h
          · exact absurd h.1 hs
        obtain ⟨ds, h1, h2, h3, h4⟩ := consumeDigits_spec (d :: cs)
        have hne : ds ≠ [] := by
          rintro rfl
          simp only [List.nil_append] at h1
          rw [← h1] at h4
          exact h4 (by simpa [← isDigit_iff] using hd)
        exact ⟨c :: ([] ++ ds), by simp [← h1], by simp [h2], .some hc .none h3 hne, fun _ => h4, by simp⟩
  · rename_i h
    refine ⟨[], by simp, by simp, .none, by simp, ?_⟩
    rintro - ⟨e, s, q, rfl, he, hs, hq⟩
    apply h
    obtain ⟨d, q', rfl, hd⟩ := hq
    have hd' := (isDigit_iff d).mpr hd
    cases hs <;> simp [he, hd']

/-- Comparing two runs of digits. -/
theorem digits_cmp {a a' x x' : List Char} (ha : Digits a) (ha' : Digits a') (hx : ¬ Starts Digit x)
    (h : a' ++ x' <+: a ++ x) :
    (a' = a ∧ x' <+: x) ∨ (a'.length < a.length ∧ (x' = [] ∨ Starts Digit x')) := by
  induction a' generalizing a with
  | nil =>
    cases a with
    | nil => exact Or.inl ⟨rfl, by simpa using h⟩
    | cons d a =>
      right
      refine ⟨by simp, ?_⟩
      cases x' with
      | nil => simp
      | cons y x' =>
        right
        simp [List.cons_prefix_cons] at h
        simp [h.1, ha d (by simp)]
  | cons d' a' ih =>
    cases a with
    | nil =>
      obtain ⟨z, hz⟩ := h
      simp at hz
      exact absurd ⟨d', _, hz.symm, ha' d' (by simp)⟩ hx
    | cons d a =>
      simp only [List.cons_append, List.cons_prefix_cons] at h
      obtain ⟨rfl, h⟩ := h
      rcases ih (a := a) (fun c hc => ha c (by simp [hc])) (fun c hc => ha' c (by simp [hc])) h with ⟨rfl, h2⟩ | ⟨h1, h2⟩
      · exact Or.inl ⟨rfl, h2⟩
      · exact Or.inr ⟨by simp; omega, h2⟩

theorem exp_starts {e : List Char} (h : IsExp e) (hne : e ≠ []) : ∃ c r, e = c :: r ∧ (c = 'e' ∨ c = 'E') := by
  cases h with
  | none => contradiction
  | some hc _ _ _ => exact ⟨_, _, rfl, hc⟩

theorem frac_starts {f : List Char} (h : IsFrac f) (hne : f ≠ []) : ∃ r, f = '.' :: r := by
  cases h with
  | none => contradiction
  | some _ _ => exact ⟨_, rfl⟩

/-- Exponents: `e'` is not longer than the greedy one. -/
theorem exp_cmp {e e' r : List Char} (he : IsExp e) (he' : IsExp e') (hr : e ≠ [] → ¬ Starts Digit r)
    (hm : e = [] → ¬ ExpStarts (e ++ r)) (h : e' <+: e ++ r) : e'.length ≤ e.length := by
  cases he' with
  | none => simp
  | @some c s ds hc hs hds hne =>
    have hds0 : Starts Digit ds := by
      cases ds with
      | nil => contradiction
      | cons d ds => simp [hds d (by simp)]
    cases he with
    | none =>
      exfalso
      apply hm rfl
      obtain ⟨z, hz⟩ := h
      obtain ⟨d, q, rfl, hd⟩ := hds0
      exact ⟨c, s, d :: q ++ z, by simp [← hz], hc, hs, by simp [hd]⟩
    | @some c2 s2 ds2 hc2 hs2 hds2 hne2 =>
      have hr := hr (by simp)
      have hds20 : Starts Digit ds2 := by
        cases ds2 with
        | nil => contradiction
        | cons d ds => simp [hds2 d (by simp)]
      simp only [List.cons_append, List.cons_prefix_cons, List.append_assoc] at h
      have hss : s = s2 ∧ ds <+: ds2 ++ r := by
        obtain ⟨d, q, rfl, hd⟩ := hds0
        obtain ⟨d2, q2, rfl, hd2⟩ := hds20
        have n1 := digit_not_sign hd
        have n2 := digit_not_sign hd2
        have h2 := h.2
        have n1' := n1.1.symm
        have n1'' := n1.2.1.symm
        have n2' := n2.1.symm
        have n2'' := n2.2.1.symm
        cases hs <;> cases hs2 <;> simp [List.cons_prefix_cons] at h2 ⊢ <;> simp_all
      have := digits_cmp (x' := []) hds2 hds hr (by simpa using hss.2)
      rcases this with ⟨h1, _⟩ | ⟨h1, _⟩
      · simp [hss.1, h1]
      · simp [hss.1]; omega

/-- The greedy decomposition is the longest number. -/
theorem longest_of_parts {s i f e r : List Char} (hp : NumberParts s i f e)
    (hi : ¬ Starts Digit (f ++ (e ++ r)))
    (hf : f ≠ [] → ¬ Starts Digit (e ++ r))
    (hf0 : f = [] → ∀ q, e ++ r = '.' :: q → ¬ Starts Digit q)
    (he : e ≠ [] → ¬ Starts Digit r) (he0 : e = [] → ¬ ExpStarts (e ++ r)) :
    LongestNumber (s ++ (i ++ (f ++ (e ++ r)))) (s ++ (i ++ (f ++ e))) := by
  refine ⟨⟨s, i, f, e, hp, rfl⟩, ⟨r, by simp⟩, ?_⟩
  rintro t' ⟨s', i', f', e', hp', rfl⟩ hpre
  -- the first character after a sign is a digit or a dot
  have first : ∀ {i f e : List Char} (x : List Char), Digits i → IsFrac f → (i ≠ [] ∨ f ≠ []) →
      ∃ c q, i ++ (f ++ x) = c :: q ∧ c ≠ '+' ∧ c ≠ '-' := by
    intro i f e x hi hf hn
    cases i with
    | cons d i =>
      have := digit_not_sign (hi d (by simp))
      exact ⟨d, _, rfl, this.1, this.2.1⟩
    | nil =>
      obtain ⟨q, rfl⟩ := frac_starts hf (by simpa using hn)
      exact ⟨'.', _, rfl, by decide, by decide⟩
  obtain ⟨c, q, hcq, c1, c2⟩ := first (e := e) (e ++ r) hp.isInt hp.isFrac hp.nonempty
  obtain ⟨c', q', hcq', c1', c2'⟩ := first (e := e') e' hp'.isInt hp'.isFrac hp'.nonempty
  have hs : s' = s ∧ i' ++ (f' ++ e') <+: i ++ (f ++ (e ++ r)) := by
    have h1 := hp.isSign
    have h2 := hp'.isSign
    rw [hcq, hcq'] at hpre
    rw [hcq, hcq']
    have n1 := c1.symm
    have n2 := c2.symm
    have n1' := c1'.symm
    have n2' := c2'.symm
    cases h1 <;> cases h2 <;> simp [List.cons_prefix_cons] at hpre ⊢ <;> simp_all
  obtain ⟨rfl, h⟩ := hs
  have len : ∀ a b c : List Char, (s' ++ (a ++ (b ++ c))).length = s'.length + a.length + b.length + c.length := by
    intro a b c; simp; omega
  rw [len, len]
  have noDigit : ∀ {g : List Char}, (∃ c r, g = c :: r ∧ (c = 'e' ∨ c = 'E' ∨ c = '.')) → Starts Digit g → False := by
    rintro g ⟨c, r, rfl, hc⟩ hd
    simp at hd
    have := digit_not_sign hd
    rcases hc with h | h | h <;> simp_all
  rcases digits_cmp hp.isInt hp'.isInt hi h with ⟨hii, h'⟩ | ⟨hl, h⟩
  · -- same integer part
    subst hii
    clear h
    have h := h'
    by_cases hf' : f' = []
    · subst hf'
      by_cases he' : e' = []
      · subst he'; simp; omega
      · obtain ⟨c, q, rfl, hc⟩ := exp_starts hp'.isExp he'
        have hfe : f = [] := by
          by_cases hfn : f = []
          · exact hfn
          · exfalso
            obtain ⟨q2, rfl⟩ := frac_starts hp.isFrac hfn
            simp [List.cons_prefix_cons] at h
            rcases hc with hc | hc <;> simp_all
        subst hfe
        have := exp_cmp hp.isExp hp'.isExp he he0 (by simpa using h)
        simp at this ⊢; omega
    · obtain ⟨ds', hds', hne', rfl⟩ : ∃ ds, Digits ds ∧ ds ≠ [] ∧ f' = '.' :: ds := by
        have := hp'.isFrac
        cases this with
        | none => contradiction
        | some a b => exact ⟨_, a, b, rfl⟩
      by_cases hfn : f = []
      · exfalso
        subst hfn
        simp only [List.nil_append, List.cons_append] at h
        obtain ⟨z, hz⟩ := h
        refine hf0 rfl _ hz.symm ?_
        cases ds' with
        | nil => contradiction
        | cons d ds => simp [hds' d (by simp)]
      · obtain ⟨ds, hds, hne, rfl⟩ : ∃ ds, Digits ds ∧ ds ≠ [] ∧ f = '.' :: ds := by
          have := hp.isFrac
          cases this with
          | none => contradiction
          | some a b => exact ⟨_, a, b, rfl⟩
        simp only [List.cons_append, List.cons_prefix_cons, true_and] at h
        rcases digits_cmp hds hds' (hf hfn) h with ⟨hdd, h9⟩ | ⟨hl, h⟩
        · have := exp_cmp hp.isExp hp'.isExp he he0 h9
          subst hdd
          omega
        · have : e' = [] := by
            rcases h with h | h
            · exact h
            · by_cases he' : e' = []
              · exact he'
              · exfalso
                obtain ⟨c, q, rfl, hc⟩ := exp_starts hp'.isExp he'
                exact noDigit ⟨c, q, rfl, by rcases hc with h | h <;> simp [h]⟩ h
          subst this
          simp; omega
  · have hfe : f' ++ e' = [] := by
      rcases h with h | h
      · exact h
      · by_cases hf' : f' = []
        · by_cases he' : e' = []
          · simp [hf', he']
          · exfalso
            obtain ⟨c, q, rfl, hc⟩ := exp_starts hp'.isExp he'
            rw [hf'] at h
            exact noDigit ⟨c, q, rfl, by rcases hc with h | h <;> simp [h]⟩ h
        · exfalso
          obtain ⟨q, rfl⟩ := frac_starts hp'.isFrac hf'
          exact noDigit ⟨'.', _, rfl, by simp⟩ h
    simp only [List.append_eq_nil_iff] at hfe
    obtain ⟨rfl, rfl⟩ := hfe
    simp; omega

theorem digit_ascii {c : Char} (h : Digit c) : isAscii c = true := isDigit_ascii ((isDigit_iff c).mpr h)

theorem number_ascii {t : List Char} (h : IsNumber t) : ∀ c ∈ t, isAscii c = true := by
  obtain ⟨s, i, f, e, hp, rfl⟩ := h
  have hs : ∀ {s}, IsSign s → ∀ c ∈ s, isAscii c = true := by
    intro s hs; cases hs <;> simp <;> decide
  have hd : ∀ {ds}, Digits ds → ∀ c ∈ ds, isAscii c = true := fun h c hc => digit_ascii (h c hc)
  intro c hc
  simp only [List.mem_append] at hc
  rcases hc with hc | hc | hc | hc
  · exact hs hp.isSign c hc
  · exact hd hp.isInt c hc
  · have := hp.isFrac
    cases this with
    | none => simp at hc
    | some a _ =>
      rcases List.mem_cons.mp hc with rfl | hc
      · decide
      · exact hd a c hc
  · have := hp.isExp
    cases this with
    | none => simp at hc
    | some a b c' _ =>
      rcases List.mem_cons.mp hc with rfl | hc
      · rcases a with rfl | rfl <;> decide
      · rcases List.mem_append.mp hc with hc | hc
        · exact hs b c hc
        · exact hd c' c hc

/-- `cs` starts a number, as `is_number_start` (and the digit fast path) decides. -/
theorem isNumberStart_cases {cs : List Char} (h : isNumberStart cs = true) :
    (∃ c r, cs = c :: r ∧ Digit c) ∨ (∃ c d r, cs = c :: d :: r ∧ (c = '+' ∨ c = '-') ∧ Digit d)
    ∨ (∃ c d r, cs = c :: '.' :: d :: r ∧ (c = '+' ∨ c = '-') ∧ Digit d) ∨ (∃ d r, cs = '.' :: d :: r ∧ Digit d) := by
  match cs with
  | [] => exact absurd h (by decide)
  | [c] =>
    simp [isNumberStart, EOFc, show isDigit '\x00' = false by decide] at h
    exact Or.inl ⟨c, [], rfl, (isDigit_iff c).mp h⟩
  | [c, d] =>
    simp [isNumberStart, EOFc, show isDigit '\x00' = false by decide, isSign] at h
    rcases h with (h | h) | h
    · exact Or.inl ⟨c, _, rfl, (isDigit_iff c).mp h⟩
    · exact Or.inr (Or.inl ⟨c, d, [], rfl, h.1, (isDigit_iff d).mp h.2⟩)
    · exact Or.inr (Or.inr (Or.inr ⟨d, [], by simp [h.1], (isDigit_iff d).mp h.2⟩))
  | c :: d :: e :: r =>
    simp [isNumberStart, isSign] at h
    rcases h with (h | ⟨h1, h | h⟩) | h
    · exact Or.inl ⟨c, _, rfl, (isDigit_iff c).mp h⟩
    · exact Or.inr (Or.inl ⟨c, d, _, rfl, h1, (isDigit_iff d).mp h⟩)
    · exact Or.inr (Or.inr (Or.inl ⟨c, e, r, by simp [h.1], h1, (isDigit_iff e).mp h.2⟩))
    · exact Or.inr (Or.inr (Or.inr ⟨d, e :: r, by simp [h.1], (isDigit_iff d).mp h.2⟩))

/-- The numeric scanner reads the longest number. -/
theorem consumeNumber_spec {cs : List Char} (h : isNumberStart cs = true) :
    ∃ s i f e, NumberParts s i f e
      ∧ cs = (s ++ (i ++ (f ++ e))) ++ (consumeNumber cs).2.2.2
      ∧ LongestNumber cs (s ++ (i ++ (f ++ e)))
      ∧ (consumeNumber cs).1 = (s ++ (i ++ (f ++ e))).length
      ∧ ((consumeNumber cs).2.1 = true ↔ f ≠ [] ∨ e ≠ [])
      ∧ ((consumeNumber cs).2.2.1 = true ↔ s ≠ []) := by
  -- the part after the first character
  have tail : ∀ {r : List Char}, ∃ ds f e z, r = ds ++ (f ++ (e ++ z)) ∧ Digits ds ∧ IsFrac f ∧ IsExp e
      ∧ (consumeDigits r).1 = ds.length ∧ (consumeFraction (consumeDigits r).2).1 = f.length
      ∧ (consumeExponent (consumeFraction (consumeDigits r).2).2).1 = e.length
      ∧ (consumeExponent (consumeFraction (consumeDigits r).2).2).2 = z
      ∧ ¬ Starts Digit (f ++ (e ++ z)) ∧ (f ≠ [] → ¬ Starts Digit (e ++ z))
      ∧ (f = [] → ∀ q, e ++ z = '.' :: q → ¬ Starts Digit q)
      ∧ (e ≠ [] → ¬ Starts Digit z) ∧ (e = [] → ¬ ExpStarts (e ++ z)) := by
    intro r
    obtain ⟨ds, a1, a2, a3, a4⟩ := consumeDigits_spec r
    obtain ⟨f, b1, b2, b3, b4, b5⟩ := consumeFraction_spec (consumeDigits r).2
    obtain ⟨e, c1, c2, c3, c4, c5⟩ := consumeExponent_spec (consumeFraction (consumeDigits r).2).2
    refine ⟨ds, f, e, _, ?_, a3, b3, c3, a2, b2, c2, rfl, ?_, ?_, ?_, c4, ?_⟩
    · rw [← c1, ← b1, ← a1]
    · rw [← c1, ← b1]; exact a4
    · rw [← c1]; exact b4
    · intro hf q hq
      rw [← c1] at hq
      refine b5 hf q ?_
      rw [b1, hf]; simpa using hq
    · rw [← c1]; exact c5
  rcases isNumberStart_cases h with ⟨c, r, rfl, hc⟩ | ⟨c, d, r, rfl, hc, hd⟩ | ⟨c, d, r, rfl, hc, hd⟩ | ⟨d, r, rfl, hd⟩
  · -- digit
    obtain ⟨ds, f, e, z, t1, t2, t3, t4, t5, t6, t7, t8, m1, m2, m3, m4, m5⟩ := tail (r := r)
    have hn := digit_not_sign hc
    have hp : NumberParts [] (c :: ds) f e := ⟨.none, by
      intro x hx; rcases List.mem_cons.mp hx with rfl | hx
      · exact hc
      · exact t2 x hx, t3, t4, by simp⟩
    have hcon : consumeNumber (c :: r) =
        (1 + ds.length + f.length + e.length, (decide (f.length > 0) || decide (e.length > 0)), false, z) := by
      have hdot : (c == '.') = false := by simp [hn]
      simp only [consumeNumber, hdot, t5, Bool.false_or, Bool.false_eq_true, if_false, t6, t7, t8, isSign]
      simp [hn]
    refine ⟨[], c :: ds, f, e, hp, ?_, ?_, ?_, ?_, ?_⟩
    · rw [hcon]; simp [t1]
    · have := longest_of_parts hp m1 m2 m3 m4 m5
      simpa [t1] using this
    · rw [hcon]; simp; omega
    · rw [hcon]; simp [List.length_pos_iff]
    · rw [hcon]; simp
  · -- sign digit
    obtain ⟨ds, f, e, z, t1, t2, t3, t4, t5, t6, t7, t8, m1, m2, m3, m4, m5⟩ := tail (r := d :: r)
    have hds : ds ≠ [] := by
      rintro rfl
      apply m1
      rw [List.nil_append] at t1
      rw [← t1]; simp [hd]
    have hp : NumberParts [c] ds f e := ⟨by rcases hc with rfl | rfl <;> constructor, t2, t3, t4, Or.inl hds⟩
    have hcon : consumeNumber (c :: d :: r) =
        (1 + ds.length + f.length + e.length, (decide (f.length > 0) || decide (e.length > 0)), true, z) := by
      have hdot : (c == '.') = false := by rcases hc with rfl | rfl <;> decide
      simp only [consumeNumber, hdot, t5, Bool.false_or, Bool.false_eq_true, if_false, t6, t7, t8, isSign]
      rcases hc with rfl | rfl <;> simp
    refine ⟨[c], ds, f, e, hp, ?_, ?_, ?_, ?_, ?_⟩
    · rw [hcon]; simp [t1]
    · have := longest_of_parts hp m1 m2 m3 m4 m5
      simpa [t1] using this
    · rw [hcon]; simp; omega
    · rw [hcon]; simp [List.length_pos_iff]
    · rw [hcon]; simp
  · -- sign dot digit
    obtain ⟨ds, f, e, z, t1, t2, t3, t4, t5, t6, t7, t8, m1, m2, m3, m4, m5⟩ := tail (r := '.' :: d :: r)
    have hds : ds = [] := by
      cases ds with
      | nil => rfl
      | cons x ds =>
        exfalso
        simp at t1
        have := digit_not_sign (t2 x (by simp))
        exact this.2.2.1 t1.1.symm
    subst hds
    have hf : f ≠ [] := by
      rintro rfl
      simp only [List.nil_append] at t1
      exact m3 rfl _ t1.symm (by simp [hd])
    have hp : NumberParts [c] [] f e :=
      ⟨by rcases hc with rfl | rfl <;> constructor, t2, t3, t4, Or.inr hf⟩
    have hcon : consumeNumber (c :: '.' :: d :: r) =
        (1 + 0 + f.length + e.length, (decide (f.length > 0) || decide (e.length > 0)), true, z) := by
      have hdot : (c == '.') = false := by rcases hc with rfl | rfl <;> decide
      simp only [consumeNumber, hdot, t5, Bool.false_or, Bool.false_eq_true, if_false, t6, t7, t8, isSign]
      rcases hc with rfl | rfl <;> simp
    refine ⟨[c], [], f, e, hp, ?_, ?_, ?_, ?_, ?_⟩
    · rw [hcon]; simp [t1]
    · have := longest_of_parts hp m1 m2 m3 m4 m5
      simpa [t1] using this
    · rw [hcon]; simp; omega
    · rw [hcon]; simp [List.length_pos_iff]
    · rw [hcon]; simp
  · -- dot digit
    obtain ⟨ds, a1, a2, a3, a4⟩ := consumeDigits_spec (d :: r)
    obtain ⟨e, c1, c2, c3, c4, c5⟩ := consumeExponent_spec (consumeDigits (d :: r)).2
    have hds : ds ≠ [] := by
      rintro rfl
      rw [List.nil_append] at a1
      rw [← a1] at a4
      exact a4 (by simp [hd])
    have hp : NumberParts [] [] ('.' :: ds) e := ⟨.none, by simp [Digits], .some a3 hds, c3, by simp⟩
    have hcon : consumeNumber ('.' :: d :: r) =
        (1 + ds.length + 0 + e.length, true, false, (consumeExponent (consumeDigits (d :: r)).2).2) := by
      simp [consumeNumber, a2, c2, isSign]
    refine ⟨[], [], '.' :: ds, e, hp, ?_, ?_, ?_, ?_, ?_⟩
    · rw [hcon]; simp only [List.nil_append, List.cons_append, List.append_assoc, ← c1, ← a1]
    · have hr : d :: r = ds ++ (e ++ (consumeExponent (consumeDigits (d :: r)).2).2) := by rw [← c1, ← a1]
      have := longest_of_parts (r := (consumeExponent (consumeDigits (d :: r)).2).2) hp ?_ ?_ ?_ c4 ?_
      · simpa [← hr] using this
      · intro hh; simp at hh; exact (digit_not_sign hh).2.2.1 rfl
      · intro _; rw [← c1]; exact a4
      · simp
      · rw [← c1]; exact c5
    · rw [hcon]; simp; omega
    · rw [hcon]; simp
    · rw [hcon]; simp

end Hdx

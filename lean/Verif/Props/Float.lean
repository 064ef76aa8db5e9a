/-
Property C66: the value of a numeric token is the `f32` nearest to the number in the source.
-/
import Verif.Lemmas.Float
import Verif.Props.Nth

namespace Hdx
open Spec
namespace F32

/-- No digit comes next. -/
def Stops (rest : List Char) : Prop := ∀ c r, rest = c :: r → isDigit c = false

theorem readDigits_append {ds rest : List Char} (hd : Digits ds) (hr : Stops rest) : ∀ acc n,
    readDigits acc n (ds ++ rest) = (acc * 10 ^ ds.length + digitsNumber ds, n + ds.length, rest) := by
  induction ds with
  | nil =>
    intro acc n
    cases rest with
    | nil => simp [readDigits, digitsNumber]
    | cons c r => simp [readDigits, hr c r rfl, digitsNumber]
  | cons d ds ih =>
    intro acc n
    have h1 : isDigit d = true := (isDigit_iff d).mpr (hd d (by simp))
    rw [List.cons_append, readDigits, if_pos h1, ih (fun x hx => hd x (by simp [hx]))]
    rw [digitsNumber, List.length_cons, Nat.pow_succ, Nat.add_mul, digitVal, Nat.mul_comm (10 ^ ds.length) 10, Nat.mul_assoc]
    simp only [Prod.mk.injEq]
    refine ⟨by omega, by omega, trivial⟩

theorem digitsNumber_append (a b : List Char) : digitsNumber (a ++ b) = digitsNumber a * 10 ^ b.length + digitsNumber b := by
  induction a with
  | nil => simp [digitsNumber]
  | cons d a ih =>
    simp only [List.cons_append, digitsNumber, ih, List.length_append, Nat.pow_add, Nat.add_mul, Nat.mul_assoc]
    omega

theorem stops_exp {e : List Char} (h : IsExp e) : Stops e := by
  cases h with
  | none => intro c r h; cases h
  | some h1 =>
    rintro c r h
    cases h
    rcases h1 with rfl | rfl <;> decide

theorem stops_frac {f e : List Char} (hf : IsFrac f) (he : IsExp e) : Stops (f ++ e) := by
  cases hf with
  | none => exact stops_exp he
  | some _ _ => intro c r h; cases h; decide

theorem digit_not_sign {d : Char} (h : Digit d) : d ≠ '-' ∧ d ≠ '+' ∧ d ≠ '.' ∧ d ≠ 'e' ∧ d ≠ 'E' := by
  rw [← isDigit_iff] at h
  refine ⟨?_, ?_, ?_, ?_, ?_⟩ <;> (rintro rfl; exact absurd h (by decide))

theorem readSign_append {s rest : List Char} (hs : IsSign s) (hr : ∀ c r, rest = c :: r → c ≠ '-' ∧ c ≠ '+') :
    readSign (s ++ rest) = (decide (s = ['-']), rest) := by
  cases hs with
  | none =>
    cases rest with
    | nil => rfl
    | cons c r =>
      obtain ⟨h1, h2⟩ := hr c r rfl
      simp only [List.nil_append]
      unfold readSign
      split
      · rename_i h; cases h; exact absurd rfl h1
      · rename_i h; cases h; exact absurd rfl h2
      · rfl
  | plus => rfl
  | minus => rfl

/-- The parts of `parse`. -/
def fracPart (i : Nat) (cs : List Char) : Nat × Nat × List Char :=
  match cs with
  | '.' :: cs => readDigits i 0 cs
  | cs => (i, 0, cs)

def expPart (cs : List Char) : Int :=
  match cs with
  | c :: cs =>
    if c == 'e' || c == 'E' then
      let (eneg, cs) := readSign cs
      let (e, _, _) := readDigits 0 0 cs
      if eneg then -(e : Int) else (e : Int)
    else 0
  | [] => 0

def magnitude (m : Nat) (ex : Int) : Nat := if ex ≥ 0 then ofRat (m * 10 ^ ex.toNat) 1 else ofRat m (10 ^ (-ex).toNat)

theorem parse_eq (cs : List Char) : parse cs = BitVec.ofNat 32 (if (readSign cs).1 then
      0x80000000 + magnitude (fracPart (readDigits 0 0 (readSign cs).2).1 (readDigits 0 0 (readSign cs).2).2.2).1
        (expPart (fracPart (readDigits 0 0 (readSign cs).2).1 (readDigits 0 0 (readSign cs).2).2.2).2.2
          - (fracPart (readDigits 0 0 (readSign cs).2).1 (readDigits 0 0 (readSign cs).2).2.2).2.1)
    else magnitude (fracPart (readDigits 0 0 (readSign cs).2).1 (readDigits 0 0 (readSign cs).2).2.2).1
        (expPart (fracPart (readDigits 0 0 (readSign cs).2).1 (readDigits 0 0 (readSign cs).2).2.2).2.2
          - (fracPart (readDigits 0 0 (readSign cs).2).1 (readDigits 0 0 (readSign cs).2).2.2).2.1)) := rfl

theorem exponent_eq {e : List Char} (he : IsExp e) : expPart e = exponentOf e := by
  cases he with
  | none => rfl
  | @some c s ds h1 hs hd hne =>
    have hc : (c == 'e' || c == 'E') = true := by rcases h1 with rfl | rfl <;> rfl
    have hstart : ∀ x r, ds = x :: r → x ≠ '-' ∧ x ≠ '+' := by
      intro x r e
      have := digit_not_sign (hd x (by simp [e]))
      exact ⟨this.1, this.2.1⟩
    have hr : readDigits 0 0 ds = (digitsNumber ds, ds.length, []) := by
      have := readDigits_append (rest := []) hd (by intro c r h; cases h) 0 0
      simpa using this
    simp only [expPart, hc, if_true, readSign_append hs hstart, hr]
    cases hs with
    | none =>
      obtain ⟨x, r, rfl⟩ := List.exists_cons_of_ne_nil hne
      obtain ⟨h2, h3⟩ := hstart x r rfl
      simp only [List.nil_append, show decide (([] : List Char) = ['-']) = false from rfl, Bool.false_eq_true, if_false]
      unfold exponentOf
      split
      · rename_i h; cases h
      · rename_i h; cases h; exact absurd rfl h2
      · rename_i h; cases h; exact absurd rfl h3
      · rename_i h; cases h; simp
    | plus => simp [exponentOf]
    | minus => simp [exponentOf]

theorem parse_parts {s i f e : List Char} (h : NumberParts s i f e) : parse (s ++ (i ++ (f ++ e)))
    = BitVec.ofNat 32 (if s = ['-'] then 0x80000000 + ofRat (decimalNum (digitsNumber (i ++ f.drop 1)) (exponentOf e - ((f.drop 1).length : Int)))
        (decimalDen (exponentOf e - ((f.drop 1).length : Int)))
      else ofRat (decimalNum (digitsNumber (i ++ f.drop 1)) (exponentOf e - ((f.drop 1).length : Int))) (decimalDen (exponentOf e - ((f.drop 1).length : Int)))) := by
  obtain ⟨hs, hi, hf, he, hne⟩ := h
  have hstart : ∀ c r, i ++ (f ++ e) = c :: r → c ≠ '-' ∧ c ≠ '+' := by
    intro c r h
    cases i with
    | nil =>
      cases hf with
      | none => simp at hne
      | some _ _ => cases h; decide
    | cons x xs =>
      cases h
      have := digit_not_sign (hi c (by simp))
      exact ⟨this.1, this.2.1⟩
  have mid : fracPart (0 * 10 ^ i.length + digitsNumber i) (f ++ e) = (digitsNumber (i ++ f.drop 1), (f.drop 1).length, e) := by
    unfold fracPart
    cases hf with
    | none =>
      simp only [List.nil_append, List.drop_nil, List.append_nil, List.length_nil]
      cases he with
      | none => simp
      | @some c s ds h1 _ _ _ =>
        have : c ≠ '.' := by rcases h1 with rfl | rfl <;> decide
        split
        · rename_i h; cases h; exact absurd rfl this
        · simp
    | @some ds hd _ =>
      simp only [List.cons_append, List.drop_succ_cons, List.drop_zero, readDigits_append hd (stops_exp he), digitsNumber_append]
      simp
  rw [parse_eq, readSign_append hs hstart]
  simp only [readDigits_append hi (stops_frac hf he), mid, exponent_eq he]
  generalize exponentOf e - ((f.drop 1).length : Int) = ex
  generalize digitsNumber (i ++ f.drop 1) = m
  have hmag : magnitude m ex = ofRat (decimalNum m ex) (decimalDen ex) := by
    unfold magnitude decimalNum decimalDen
    split
    · have : (-ex).toNat = 0 := by omega
      rw [this]
    · have : ex.toNat = 0 := by omega
      rw [this]; simp
  rw [hmag]
  by_cases hm : s = ['-'] <;> simp [hm]

end F32

theorem decimalDen_pos (ex : Int) : 0 < decimalDen ex := Nat.pow_pos (by decide)

/-- The value of a text that is a number: the sign bit is its sign, and the rest of the bits are the `f32` nearest to its magnitude. -/
theorem C66_parse {t : List Char} (h : IsNumber t) : ∃ neg m ex, Decimal t neg m ex ∧ (F32.parse t).getLsbD 31 = neg
    ∧ NearestF32 (decimalNum m ex) (decimalDen ex) ((F32.parse t).toNat % 2 ^ 31) := by
  obtain ⟨s, i, f, e, hp, rfl⟩ := h
  refine ⟨decide (s = ['-']), _, _, ⟨s, i, f, e, hp, rfl, by simp, rfl, rfl⟩, ?_, ?_⟩
  · rw [F32.parse_parts hp]
    have := F32.ofRat_nearest (num := decimalNum (digitsNumber (i ++ f.drop 1)) (exponentOf e - ((f.drop 1).length : Int))) (decimalDen_pos (exponentOf e - ((f.drop 1).length : Int)))
    generalize F32.ofRat _ _ = b at *
    have hb : b ≤ 0x7f800000 := this.range
    rw [BitVec.getLsbD, BitVec.toNat_ofNat, Nat.mod_eq_of_lt (by split <;> omega)]
    by_cases hm : s = ['-']
    · simp only [hm, if_true, decide_true]
      rw [Nat.testBit_eq_decide_div_mod_eq]
      have : (0x80000000 + b) / 2 ^ 31 = 1 := by omega
      rw [this]; rfl
    · simp only [hm, if_false, decide_false]
      exact Nat.testBit_lt_two_pow (by omega)
  · rw [F32.parse_parts hp]
    have := F32.ofRat_nearest (num := decimalNum (digitsNumber (i ++ f.drop 1)) (exponentOf e - ((f.drop 1).length : Int))) (decimalDen_pos (exponentOf e - ((f.drop 1).length : Int)))
    have hb := this.range
    unfold f32Infinity at hb
    generalize hB : F32.ofRat _ _ = b at *
    have : (BitVec.ofNat 32 (if s = ['-'] then 0x80000000 + b else b)).toNat % 2 ^ 31 = b := by
      rw [BitVec.toNat_ofNat]
      split <;> omega
    rw [this, ← hB]
    exact F32.ofRat_nearest (decimalDen_pos _)

/-- A text has only one reading as a decimal number. -/
theorem decimal_unique {t : List Char} {neg neg' : Bool} {m m' : Nat} {ex ex' : Int} (h : Decimal t neg m ex) (h' : Decimal t neg' m' ex') :
    neg = neg' ∧ m = m' ∧ ex = ex' := by
  obtain ⟨s, i, f, e, hp, rfl, h1, h2, h3⟩ := h
  obtain ⟨s', i', f', e', hp', ht, h1', h2', h3'⟩ := h'
  have hstart : ∀ {s i f e}, NumberParts s i f e → ∀ c r, i ++ (f ++ e) = c :: r → c ≠ '-' ∧ c ≠ '+' := by
    intro s i f e ⟨hs, hi, hf, he, hne⟩ c r h
    cases i with
    | nil =>
      cases hf with
      | none => simp at hne
      | some _ _ => cases h; decide
    | cons x xs =>
      cases h
      have := F32.digit_not_sign (hi c (by simp))
      exact ⟨this.1, this.2.1⟩
  have hsign : ∀ {s i f e}, NumberParts s i f e → F32.readSign (s ++ (i ++ (f ++ e))) = (decide (s = ['-']), i ++ (f ++ e)) :=
    fun hp => F32.readSign_append hp.isSign (hstart hp)
  have a := hsign hp
  rw [ht, hsign hp'] at a
  simp only [Prod.mk.injEq, decide_eq_decide] at a
  obtain ⟨a1, a2⟩ := a
  have b := F32.readDigits_append hp.isInt (F32.stops_frac hp.isFrac hp.isExp) 0 0
  rw [← a2, F32.readDigits_append hp'.isInt (F32.stops_frac hp'.isFrac hp'.isExp) 0 0] at b
  simp only [Prod.mk.injEq] at b
  obtain ⟨_, b2, b3⟩ := b
  have hi : i' = i ∧ f' ++ e' = f ++ e := List.append_inj a2 (by omega)
  have key : f' = f ∧ e' = e := by
    have hf := hp.isFrac
    have hf' := hp'.isFrac
    have he := hp.isExp
    have he' := hp'.isExp
    cases hf with
    | none =>
      cases hf' with
      | none => exact ⟨rfl, hi.2⟩
      | some _ _ =>
        exfalso
        have h := hi.2
        simp only [List.nil_append, List.cons_append] at h
        cases he with
        | none => cases h
        | some h1 => injection h with h0 _; rcases h1 with h2 | h2 <;> (rw [h2] at h0; exact absurd h0 (by decide))
    | @some ds hd _ =>
      cases hf' with
      | none =>
        exfalso
        have h := hi.2
        simp only [List.nil_append, List.cons_append] at h
        cases he' with
        | none => cases h
        | some h1 => injection h with h0 _; rcases h1 with h2 | h2 <;> (rw [h2] at h0; exact absurd h0 (by decide))
      | @some ds' hd' _ =>
        have h := hi.2
        simp only [List.cons_append, List.cons.injEq, true_and] at h
        have x := F32.readDigits_append hd (F32.stops_exp he) 0 0
        rw [← h, F32.readDigits_append hd' (F32.stops_exp he') 0 0] at x
        simp only [Prod.mk.injEq] at x
        have := List.append_inj h (by omega)
        exact ⟨by rw [this.1], this.2⟩
  obtain ⟨rfl, rfl⟩ := key
  obtain ⟨rfl, _⟩ := hi
  refine ⟨?_, by rw [h2, h2'], by rw [h3, h3']⟩
  cases neg <;> cases neg' <;> simp_all

/-- The value of a numeric token is the `f32` nearest to the number in the source, ties to even, infinity beyond the largest; its sign bit is set exactly
for a number that starts with `-`. Missing from the full C66: numbers longer than the documented limits, and escaped non-ASCII characters in the unit. -/
theorem C66_value_partial {l : Lexer} {num rest : List Char} {neg : Bool} {m : Nat} {ex : Int} (h : l.Before (num ++ rest))
    (hn : LongestNumber (num ++ rest) num) (hd : Decimal num neg m ex) (ha : EscAscii (num ++ rest)) (hl : WithinLimits (num ++ rest)) :
    ∃ t, l.Yields t ∧ (t.kind = .number ∨ t.kind = .dimension) ∧ t.value.getLsbD 31 = neg
      ∧ NearestF32 (decimalNum m ex) (decimalDen ex) (t.value.toNat % 2 ^ 31) := by
  obtain ⟨t, h1, h2, h3, h4, h5, h6, h7, h8, h9⟩ := C12_partial h hn ha hl
  obtain ⟨neg', m', ex', hd', p1, p2⟩ := C66_parse hn.1
  obtain ⟨rfl, rfl, rfl⟩ := decimal_unique hd hd'
  exact ⟨t, h1, h2, by rw [h9]; exact p1, by rw [h9]; exact p2⟩

/-- There is only one such `f32`. -/
theorem f32Units_strict {a b : Nat} (h : a < b) : f32Units a < f32Units b := by
  obtain ⟨k, m, rfl, hm, hk, hu⟩ := F32.units_form (b := a)
  obtain ⟨k', m', rfl, hm', hk', hu'⟩ := F32.units_form (b := b)
  rw [hu, hu']
  have hkk : k ≤ k' := by
    apply Classical.byContradiction
    intro hc
    have := hk (by omega)
    omega
  rcases Nat.eq_or_lt_of_le hkk with e | e
  · subst e
    exact (Nat.mul_lt_mul_right (Nat.two_pow_pos _)).mpr (by omega)
  · have hm2 := hk' (by omega)
    obtain ⟨t, rfl⟩ : ∃ t, k' = k + 1 + t := ⟨k' - (k + 1), by omega⟩
    have e1 : m' * 2 ^ (k + 1 + t) = (m' * 2 * 2 ^ t) * 2 ^ k := by
      rw [Nat.pow_add, Nat.pow_add]
      generalize (2 : Nat) ^ k = A
      generalize (2 : Nat) ^ t = B
      grind
    rw [e1]
    refine (Nat.mul_lt_mul_right (Nat.two_pow_pos _)).mpr ?_
    exact Nat.lt_of_lt_of_le (m := m' * 2) (by omega) (Nat.le_mul_of_pos_right _ (Nat.two_pow_pos _))

/-- A number that is itself the value of a finite `f32` - for example every integer up to 2^24 - is not changed by rounding. -/
theorem C66_exact {num den bits b : Nat} (hd : 0 < den) (h : NearestF32 num den bits) (hb : b < f32Infinity) (he : num * 2 ^ 149 = f32Units b * den) : bits = b := by
  have hlt : f32Units b ≤ (2 ^ 24 - 1) * 2 ^ 253 := by
    have : b ≤ 0x7f7fffff := by unfold f32Infinity at hb; omega
    have hmax : f32Units 0x7f7fffff = (2 ^ 24 - 1) * 2 ^ 253 := by decide +kernel
    rcases Nat.eq_or_lt_of_le this with rfl | h
    · exact Nat.le_of_eq hmax
    · rw [← hmax]; exact Nat.le_of_lt (f32Units_strict h)
  have hfin : bits < f32Infinity := by
    rcases Nat.lt_or_eq_of_le h.range with h1 | h1
    · exact h1
    · exfalso
      have h2 := h.infinite.mp h1
      have h3 : (2 ^ 128 - 2 ^ 103) * den * 2 ^ 149 ≤ (2 ^ 24 - 1) * 2 ^ 253 * den := by
        refine Nat.le_trans (Nat.mul_le_mul_right (2 ^ 149) h2) ?_
        rw [he]
        exact Nat.mul_le_mul_right den hlt
      have e1 : (2 ^ 128 - 2 ^ 103) * den * 2 ^ 149 = ((2 ^ 128 - 2 ^ 103) * 2 ^ 149) * den := Nat.mul_right_comm _ _ _
      rw [e1] at h3
      have := Nat.le_of_mul_le_mul_right h3 hd
      exact absurd this (by decide)
  have h0 : f32Distance num den b = 0 := by unfold f32Distance; rw [he]; simp
  have h1 := h.nearest hfin b hb
  rw [h0] at h1
  have h2 : f32Distance num den bits = 0 := by omega
  have h3 : f32Units bits * den = f32Units b * den := by
    unfold f32Distance at h2
    rw [he] at h2
    generalize f32Units bits * den = x at *
    generalize f32Units b * den = y at *
    omega
  have h4 := Nat.eq_of_mul_eq_mul_right hd h3
  rcases Nat.lt_trichotomy bits b with h5 | h5 | h5
  · have := f32Units_strict h5; omega
  · exact h5
  · have := f32Units_strict h5; omega

/-- `.1` is between two values, neither of which is a tenth. -/
example : NearestF32 1 10 0x3dcccccd := by
  have := F32.ofRat_nearest (num := 1) (den := 10) (by decide)
  have e : F32.ofRat 1 10 = 0x3dcccccd := by decide +kernel
  rwa [e] at this

/-- 2^24 + 1 is half way between two values; the even one is taken. -/
example : NearestF32 16777217 1 0x4b800000 ∧ f32Distance 16777217 1 0x4b800000 = f32Distance 16777217 1 0x4b800001 := by
  have := F32.ofRat_nearest (num := 16777217) (den := 1) (by decide)
  have e : F32.ofRat 16777217 1 = 0x4b800000 := by decide +kernel
  rw [e] at this
  exact ⟨this, by decide +kernel⟩

/-- The hypotheses of `C66_value_partial` are met by `-1.50e+2px`. -/
example : Decimal c!"-1.50e+2" true 150 0 :=
  ⟨c!"-", c!"1", c!".50", c!"e+2", ⟨.minus, by simp [Digits, Digit], .some (by simp [Digits, Digit]) (by simp), .some (.inl rfl) .plus (by simp [Digits, Digit]) (by simp), by simp⟩,
    rfl, by simp, by decide, by decide⟩

/-! ### Integers -/

/-- The bits of a positive integer below 2^24. -/
theorem integer_bits {n a : Nat} (ha : a ≤ 23) (h1 : 2 ^ a ≤ n) (h2 : n < 2 ^ (a + 1)) :
    2 ^ 23 ≤ n * 2 ^ (23 - a) ∧ n * 2 ^ (23 - a) < 2 ^ 24 ∧ f32Units ((126 + a) * 2 ^ 23 + n * 2 ^ (23 - a)) = n * 2 ^ 149
      ∧ n * 2 ^ (23 - a) * 2 ^ a = n * 2 ^ 23 := by
  have e1 : 2 ^ a * 2 ^ (23 - a) = 2 ^ 23 := by rw [← Nat.pow_add]; congr 1; omega
  have e2 : 2 ^ (a + 1) * 2 ^ (23 - a) = 2 ^ 24 := by rw [← Nat.pow_add]; congr 1; omega
  have h3 : 2 ^ 23 ≤ n * 2 ^ (23 - a) := by rw [← e1]; exact Nat.mul_le_mul_right _ h1
  have h4 : n * 2 ^ (23 - a) < 2 ^ 24 := by rw [← e2]; exact (Nat.mul_lt_mul_right (Nat.two_pow_pos _)).mpr h2
  refine ⟨h3, h4, ?_, ?_⟩
  · rw [F32.units_of (by omega) (fun _ => h3), Nat.mul_assoc, ← Nat.pow_add]
    have : 23 - a + (126 + a) = 149 := by omega
    rw [this]
  · rw [Nat.mul_assoc, ← Nat.pow_add]
    have : 23 - a + a = 23 := by omega
    rw [this]

/-- An `f32` whose magnitude is an integer of at most 24 bits, and the `i32` it converts to. -/
theorem integer_exact {n : Nat} (h : n ≤ 2 ^ 24) : ∃ b, b < f32Infinity ∧ f32Units b = n * 2 ^ 149 ∧ f32ToI32 (BitVec.ofNat 32 b) = n
    ∧ f32ToI32 (BitVec.ofNat 32 (0x80000000 + b)) = -(n : Int) := by
  by_cases h0 : n = 0
  · subst h0; exact ⟨0, by decide, by decide +kernel, by decide +kernel, by decide +kernel⟩
  by_cases h24 : n = 2 ^ 24
  · subst h24; exact ⟨0x4b800000, by decide, by decide +kernel, by decide +kernel, by decide +kernel⟩
  have g1 := Nat.log2_self_le h0
  have g2 := Nat.lt_log2_self (n := n)
  have ha : Nat.log2 n ≤ 23 := by
    have : Nat.log2 n < 24 := (Nat.log2_lt h0).mpr (by omega)
    omega
  generalize Nat.log2 n = a at *
  obtain ⟨k1, k2, k3, k4⟩ := integer_bits ha g1 g2
  generalize n * 2 ^ (23 - a) = m at *
  have hb : (126 + a) * 2 ^ 23 + m < f32Infinity := by unfold f32Infinity; omega
  refine ⟨_, hb, k3, ?_, ?_⟩
  · have e0 : (BitVec.ofNat 32 ((126 + a) * 2 ^ 23 + m)).toNat = (127 + a) * 2 ^ 23 + (m - 2 ^ 23) := by
      rw [BitVec.toNat_ofNat, Nat.mod_eq_of_lt (by unfold f32Infinity at hb; omega)]; omega
    have e1 : ((127 + a) * 2 ^ 23 + (m - 2 ^ 23)) / 2 ^ 23 % 256 = 127 + a := by omega
    have e2 : ((127 + a) * 2 ^ 23 + (m - 2 ^ 23)) % 2 ^ 23 = m - 2 ^ 23 := by omega
    have e3 : (BitVec.ofNat 32 ((126 + a) * 2 ^ 23 + m)).getLsbD 31 = false := by
      rw [BitVec.getLsbD, e0, Nat.testBit_eq_decide_div_mod_eq]
      have : ((127 + a) * 2 ^ 23 + (m - 2 ^ 23)) / 2 ^ 31 = 0 := by omega
      rw [this]; rfl
    have e4 : (2 ^ 23 + (m - 2 ^ 23)) * 2 ^ (127 + a - 127) / 2 ^ 23 = n := by
      rw [show 2 ^ 23 + (m - 2 ^ 23) = m by omega, show 127 + a - 127 = a by omega, k4]
      exact Nat.mul_div_cancel _ (by decide)
    unfold f32ToI32
    simp only [e0, e1, e2, e3, e4]
    have c1 : ((127 + a == 255) && (m - 2 ^ 23 != 0)) = false := by
      have : (127 + a == 255) = false := by simp; omega
      rw [this]; rfl
    have c2 : ¬ 127 + a < 127 := by omega
    have c3 : ¬ 127 + a ≥ 158 := by omega
    simp only [c1, c2, c3, if_false, Bool.false_eq_true]
    rw [if_neg (by omega)]
  · have e0 : (BitVec.ofNat 32 (0x80000000 + ((126 + a) * 2 ^ 23 + m))).toNat = (256 + 127 + a) * 2 ^ 23 + (m - 2 ^ 23) := by
      rw [BitVec.toNat_ofNat, Nat.mod_eq_of_lt (by unfold f32Infinity at hb; omega)]; omega
    have e1 : ((256 + 127 + a) * 2 ^ 23 + (m - 2 ^ 23)) / 2 ^ 23 % 256 = 127 + a := by omega
    have e2 : ((256 + 127 + a) * 2 ^ 23 + (m - 2 ^ 23)) % 2 ^ 23 = m - 2 ^ 23 := by omega
    have e3 : (BitVec.ofNat 32 (0x80000000 + ((126 + a) * 2 ^ 23 + m))).getLsbD 31 = true := by
      rw [BitVec.getLsbD, e0, Nat.testBit_eq_decide_div_mod_eq]
      have : ((256 + 127 + a) * 2 ^ 23 + (m - 2 ^ 23)) / 2 ^ 31 = 1 := by omega
      rw [this]; rfl
    have e4 : (2 ^ 23 + (m - 2 ^ 23)) * 2 ^ (127 + a - 127) / 2 ^ 23 = n := by
      rw [show 2 ^ 23 + (m - 2 ^ 23) = m by omega, show 127 + a - 127 = a by omega, k4]
      exact Nat.mul_div_cancel _ (by decide)
    unfold f32ToI32
    simp only [e0, e1, e2, e3, e4]
    have c1 : ((127 + a == 255) && (m - 2 ^ 23 != 0)) = false := by
      have : (127 + a == 255) = false := by simp; omega
      rw [this]; rfl
    have c2 : ¬ 127 + a < 127 := by omega
    have c3 : ¬ 127 + a ≥ 158 := by omega
    simp only [c1, c2, c3, if_false, Bool.false_eq_true, if_true]

/-- An integer of at most 24 bits has exactly its own value, also as an `i32`. -/
theorem C66_integer {s ds : List Char} (hs : IsSign s) (hd : Digits ds) (hne : ds ≠ []) (hn : digitsNumber ds ≤ 2 ^ 24) :
    f32ToI32 (F32.parse (s ++ ds)) = if s = ['-'] then -(digitsNumber ds : Int) else digitsNumber ds := by
  have hp := F32.parse_parts (s := s) (i := ds) (f := []) (e := []) ⟨hs, hd, .none, .none, .inl hne⟩
  simp only [List.append_nil, List.drop_nil, exponentOf, List.length_nil] at hp
  rw [hp]
  obtain ⟨b, h1, h2, h3, h4⟩ := integer_exact hn
  have e : F32.ofRat (decimalNum (digitsNumber ds) (0 - (0 : Nat))) (decimalDen (0 - (0 : Nat))) = b := by
    refine C66_exact (decimalDen_pos _) (F32.ofRat_nearest (decimalDen_pos _)) h1 ?_
    rw [h2]
    simp [decimalNum, decimalDen]
  have e' : F32.ofRat (decimalNum (digitsNumber ds) (0 - ((0 : Nat) : Int))) (decimalDen (0 - ((0 : Nat) : Int))) = b := e
  rw [e']
  split
  · exact h4
  · exact h3

/-- The numeric token of an integer of at most 24 bits has exactly the value the source shows. Missing from the full C66: as for `C66_value_partial`. -/
theorem C66_integer_value_partial {l : Lexer} {s ds rest : List Char} (h : l.Before (s ++ ds ++ rest)) (hs : IsSign s) (hd : Digits ds) (hne : ds ≠ [])
    (hn : LongestNumber (s ++ ds ++ rest) (s ++ ds)) (hm : digitsNumber ds ≤ 2 ^ 24) (ha : EscAscii (s ++ ds ++ rest)) (hl : WithinLimits (s ++ ds ++ rest)) :
    ∃ t, l.Yields t ∧ (t.kind = .number ∨ t.kind = .dimension) ∧ f32ToI32 t.value = if s = ['-'] then -(digitsNumber ds : Int) else digitsNumber ds := by
  obtain ⟨t, h1, h2, h3, h4, h5, h6, h7, h8, h9⟩ := C12_partial h hn ha hl
  exact ⟨t, h1, h2, by rw [h9]; exact C66_integer hs hd hne hm⟩

/-- Beyond 24 bits an integer may change: `16777217` has the value of `16777216`. -/
example : f32ToI32 (F32.parse c!"16777217") = 16777216 := by decide +kernel

end Hdx

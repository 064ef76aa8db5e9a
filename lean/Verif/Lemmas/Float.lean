/-
The conversion of decimal numbers to `f32` rounds to nearest, ties to even.
-/
import Verif.Model.F32
import Verif.Spec.Float

namespace Hdx.F32
open Spec

theorem divRound_bounds {n d : Nat} (hd : 0 < d) : 2 * (divRound n d * d) ≤ 2 * n + d ∧ 2 * n ≤ 2 * (divRound n d * d) + d
    ∧ ((2 * (divRound n d * d) = 2 * n + d ∨ 2 * n = 2 * (divRound n d * d) + d) → divRound n d % 2 = 0) := by
  have h := Nat.div_add_mod n d
  have hr := Nat.mod_lt n hd
  unfold divRound
  generalize n / d = q at *
  generalize n % d = r at *
  have e : (q + 1) * d = d * q + d := by rw [Nat.add_mul, Nat.one_mul, Nat.mul_comm]
  have e' : q * d = d * q := Nat.mul_comm _ _
  simp only
  split
  · rw [e']; generalize d * q = x at *; refine ⟨by omega, by omega, fun hh => ?_⟩; omega
  split
  · rw [e]; generalize d * q = x at *; refine ⟨by omega, by omega, fun hh => ?_⟩; omega
  split
  · rename_i hq
    rw [e']; generalize d * q = x at *; refine ⟨by omega, by omega, fun _ => by simpa using hq⟩
  · rename_i hq
    rw [e]; generalize d * q = x at *
    refine ⟨by omega, by omega, fun _ => ?_⟩
    have : ¬ q % 2 = 0 := by simpa using hq
    omega

theorem divRound_scale {n d c : Nat} (hc : 0 < c) : divRound (n * c) (d * c) = divRound n d := by
  unfold divRound
  rw [Nat.mul_div_mul_right _ _ hc, Nat.mul_mod_mul_right]
  have h1 : 2 * (n % d * c) = (2 * (n % d)) * c := by rw [Nat.mul_assoc]
  simp only [h1, Nat.mul_lt_mul_right hc, gt_iff_lt]

/-- No multiple of the divisor is nearer, and if another one is as near, the quotient is even. -/
theorem divRound_nearest {n d : Nat} (hd : 0 < d) (j : Nat) :
    ((n : Int) - (divRound n d * d : Nat)).natAbs ≤ ((n : Int) - (j * d : Nat)).natAbs
      ∧ (j ≠ divRound n d → ((n : Int) - (j * d : Nat)).natAbs = ((n : Int) - (divRound n d * d : Nat)).natAbs → divRound n d % 2 = 0) := by
  obtain ⟨h1, h2, h3⟩ := divRound_bounds (n := n) hd
  generalize divRound n d = m at *
  rcases Nat.lt_trichotomy j m with h | h | h
  · obtain ⟨t, rfl⟩ : ∃ t, m = j + 1 + t := ⟨m - (j + 1), by omega⟩
    have e : (j + 1 + t) * d = j * d + d + t * d := by rw [Nat.add_mul, Nat.add_mul, Nat.one_mul]
    simp only [e] at h1 h2 h3 ⊢
    generalize j * d = x at *
    generalize t * d = y at *
    refine ⟨by omega, fun _ hh => h3 ?_⟩
    omega
  · subst h; exact ⟨Nat.le_refl _, fun h => absurd rfl h⟩
  · obtain ⟨t, rfl⟩ : ∃ t, j = m + 1 + t := ⟨j - (m + 1), by omega⟩
    have e : (m + 1 + t) * d = m * d + d + t * d := by rw [Nat.add_mul, Nat.add_mul, Nat.one_mul]
    simp only [e] at h1 h2 h3 ⊢
    generalize m * d = x at *
    generalize t * d = y at *
    refine ⟨by omega, fun _ hh => h3 ?_⟩
    omega

/-- `2^e ≤ num / den` -/
def AtLeast (num den : Nat) (e : Int) : Prop := den * 2 ^ e.toNat ≤ num * 2 ^ (-e).toNat

theorem atLeast_shift {num den : Nat} {e : Int} {k : Nat} (h : 0 ≤ e + k) : AtLeast num den e ↔ den * 2 ^ (e + k).toNat ≤ num * 2 ^ k := by
  unfold AtLeast
  rcases Int.lt_or_le e 0 with he | he
  · have h1 : e.toNat = 0 := by omega
    have h2 : k = (-e).toNat + (e + k).toNat := by omega
    conv => rhs; rhs; rw [h2, Nat.pow_add, ← Nat.mul_assoc]
    rw [h1, Nat.pow_zero, Nat.mul_one]
    exact (Nat.mul_le_mul_right_iff (Nat.two_pow_pos _)).symm
  · have h1 : (-e).toNat = 0 := by omega
    have h2 : (e + k).toNat = e.toNat + k := by omega
    rw [h1, h2, Nat.pow_zero, Nat.mul_one, Nat.pow_add, ← Nat.mul_assoc]
    exact (Nat.mul_le_mul_right_iff (Nat.two_pow_pos _)).symm

theorem atLeast_mono {num den : Nat} {a b : Int} (h : a ≤ b) (hb : AtLeast num den b) : AtLeast num den a := by
  have ha := atLeast_shift (num := num) (den := den) (e := a) (k := (-a).toNat) (by omega)
  have hb' := atLeast_shift (num := num) (den := den) (e := b) (k := (-a).toNat) (by omega)
  rw [ha]
  rw [hb'] at hb
  refine Nat.le_trans (Nat.mul_le_mul_left _ (Nat.pow_le_pow_right (by decide) ?_)) hb
  omega

theorem log2Rat_spec {num den : Nat} (hn : num ≠ 0) (hd : den ≠ 0) : AtLeast num den (log2Rat num den) ∧ ¬ AtLeast num den (log2Rat num den + 1) := by
  have n1 := Nat.log2_self_le hn
  have n2 := Nat.lt_log2_self (n := num)
  have d1 := Nat.log2_self_le hd
  have d2 := Nat.lt_log2_self (n := den)
  generalize ha : Nat.log2 num = a at *
  generalize hb : Nat.log2 den = b at *
  have key1 : AtLeast num den ((a : Int) - b - 1) := by
    rw [atLeast_shift (k := b + 1) (by omega)]
    have : ((a : Int) - b - 1 + (b + 1 : Nat)).toNat = a := by omega
    rw [this]
    calc den * 2 ^ a ≤ 2 ^ (b + 1) * 2 ^ a := Nat.mul_le_mul_right _ (Nat.le_of_lt d2)
      _ = 2 ^ a * 2 ^ (b + 1) := Nat.mul_comm _ _
      _ ≤ num * 2 ^ (b + 1) := Nat.mul_le_mul_right _ n1
  have key2 : ¬ AtLeast num den ((a : Int) - b + 1) := by
    rw [atLeast_shift (k := b) (by omega)]
    have : ((a : Int) - b + 1 + (b : Nat)).toNat = a + 1 := by omega
    rw [this, Nat.not_le]
    calc num * 2 ^ b < 2 ^ (a + 1) * 2 ^ b := (Nat.mul_lt_mul_right (Nat.two_pow_pos _)).mpr n2
      _ = 2 ^ b * 2 ^ (a + 1) := Nat.mul_comm _ _
      _ ≤ den * 2 ^ (a + 1) := Nat.mul_le_mul_right _ d1
  have key3 : (if ((a : Int) - b) ≥ 0 then decide (den * 2 ^ ((a : Int) - b).toNat ≤ num) else decide (den ≤ num * 2 ^ (-((a : Int) - b)).toNat)) = true
      ↔ AtLeast num den ((a : Int) - b) := by
    unfold AtLeast
    split
    · rename_i h
      have : (-((a : Int) - b)).toNat = 0 := by omega
      rw [this]; simp
    · rename_i h
      have : ((a : Int) - b).toNat = 0 := by omega
      rw [this]; simp
  unfold log2Rat
  simp only [ha, hb]
  by_cases h : (if ((a : Int) - b) ≥ 0 then decide (den * 2 ^ ((a : Int) - b).toNat ≤ num) else decide (den ≤ num * 2 ^ (-((a : Int) - b)).toNat)) = true
  · rw [if_pos h]
    exact ⟨key3.mp h, key2⟩
  · rw [if_neg h]
    refine ⟨key1, ?_⟩
    have e : (a : Int) - b - 1 + 1 = a - b := by omega
    rw [e]
    exact fun hh => h (key3.mpr hh)

/-- What the two branches for the mantissa compute. -/
theorem mantissa_eq {num den k : Nat} : (if (149 - (k : Int)) ≥ 0 then divRound (num * 2 ^ (149 - (k : Int)).toNat) den else divRound num (den * 2 ^ (-(149 - (k : Int))).toNat))
    = divRound (num * 2 ^ 149) (den * 2 ^ k) := by
  split
  · rename_i h
    have : 149 = (149 - (k : Int)).toNat + k := by omega
    conv => rhs; lhs; rhs; rhs; rw [this]
    rw [Nat.pow_add, ← Nat.mul_assoc, divRound_scale (Nat.two_pow_pos _)]
  · rename_i h
    have : k = (-(149 - (k : Int))).toNat + 149 := by omega
    conv => rhs; rhs; rhs; rhs; rw [this]
    rw [Nat.pow_add, ← Nat.mul_assoc, divRound_scale (Nat.two_pow_pos _)]

/-- The units of `k` steps of the exponent and a mantissa. -/
theorem units_of {k m : Nat} (hm : m ≤ 2 ^ 24) (hk : 0 < k → 2 ^ 23 ≤ m) : f32Units (k * 2 ^ 23 + m) = m * 2 ^ k := by
  unfold f32Units
  have p : (2 : Nat) ^ 24 = 2 * 2 ^ 23 := by decide
  generalize hP : (2 : Nat) ^ 23 = P at *
  have hP0 : 0 < P := by rw [← hP]; decide
  by_cases h24 : m = 2 * P
  · subst h24
    rw [p] at *
    have e : k * P + 2 * P = P * (k + 2) := by rw [← Nat.add_mul, Nat.mul_comm]
    rw [e, if_neg (by rw [Nat.not_lt]; exact Nat.le_mul_of_pos_right _ (by omega)), Nat.mul_mod_right, Nat.mul_div_cancel_left _ hP0]
    have : k + 2 - 1 = k + 1 := by omega
    rw [this, Nat.add_zero, Nat.pow_succ, Nat.mul_comm (2 ^ k) 2, ← Nat.mul_assoc, Nat.mul_comm P 2]
  · have hlt : m < 2 * P := by omega
    by_cases hmP : m < P
    · have : k = 0 := by
        rcases Nat.eq_zero_or_pos k with h | h
        · exact h
        · have := hk h; omega
      subst this
      rw [if_pos (by omega)]; simp
    · obtain ⟨r, rfl⟩ : ∃ r, m = P + r := ⟨m - P, by omega⟩
      have e : k * P + (P + r) = P * (k + 1) + r := by rw [Nat.mul_add, Nat.mul_one, Nat.mul_comm k P]; omega
      have hr : r < P := by omega
      rw [e, if_neg (by rw [Nat.not_lt]; exact Nat.le_trans (Nat.le_mul_of_pos_right _ (by omega)) (Nat.le_add_right _ _)), Nat.mul_add_mod, Nat.mod_eq_of_lt hr,
        Nat.mul_add_div hP0, Nat.div_eq_of_lt hr]
      rfl

/-- The bits of a finite value are `k` steps of the exponent and a mantissa. -/
theorem units_form {b : Nat} : ∃ k m, b = k * 2 ^ 23 + m ∧ m < 2 ^ 24 ∧ (0 < k → 2 ^ 23 ≤ m) ∧ f32Units b = m * 2 ^ k := by
  by_cases h : b < 2 ^ 24
  · exact ⟨0, b, by omega, h, fun h => absurd h (by decide), by have := units_of (k := 0) (m := b) (by omega) (fun h => absurd h (by decide)); simpa using this⟩
  · have h1 := Nat.div_add_mod b (2 ^ 23)
    have h2 := Nat.mod_lt b (show 2 ^ 23 > 0 by decide)
    refine ⟨b / 2 ^ 23 - 1, 2 ^ 23 + b % 2 ^ 23, ?_, by omega, by omega, ?_⟩
    · omega
    · have := units_of (k := b / 2 ^ 23 - 1) (m := 2 ^ 23 + b % 2 ^ 23) (by omega) (by omega)
      rw [← this]
      congr 1
      omega

theorem ofRat_finite {num den : Nat} (hd : 0 < den) (hn : num ≠ 0) (he : ¬ log2Rat num den > 127) :
    ∃ k m, k ≤ 253 ∧ m = divRound (num * 2 ^ 149) (den * 2 ^ k) ∧ num * 2 ^ 149 < 2 ^ 24 * (den * 2 ^ k) ∧ (0 < k → 2 ^ 23 * (den * 2 ^ k) ≤ num * 2 ^ 149)
      ∧ ofRat num den = if k * 2 ^ 23 + m ≥ 0x7f800000 then 0x7f800000 else k * 2 ^ 23 + m := by
  obtain ⟨h1, h2⟩ := log2Rat_spec hn (Nat.pos_iff_ne_zero.mp hd)
  unfold ofRat
  rw [if_neg (by simpa using hn)]
  simp only
  generalize log2Rat num den = e at *
  rw [if_neg he]
  refine ⟨((if e < -126 then -126 else e) + 126).toNat, _, by split <;> omega, rfl, ?_, ?_, ?_⟩
  · have hn2 : ¬ AtLeast num den ((if e < -126 then -126 else e) + 1) := by
      split
      · exact fun h => h2 (atLeast_mono (by omega) h)
      · exact h2
    generalize hE : (if e < -126 then -126 else e) = E at *
    have hE2 : -126 ≤ E := by rw [← hE]; split <;> omega
    rw [atLeast_shift (k := 149) (by omega), Nat.not_le] at hn2
    have : (E + 1 + (149 : Nat)).toNat = (E + 126).toNat + 24 := by omega
    rw [this, Nat.pow_add, ← Nat.mul_assoc, Nat.mul_comm _ (2 ^ 24)] at hn2
    exact hn2
  · intro hk
    have hE : ¬ e < -126 := by intro h; rw [if_pos h] at hk; omega
    rw [if_neg hE] at hk ⊢
    rw [atLeast_shift (k := 149) (by omega)] at h1
    have : (e + (149 : Nat)).toNat = (e + 126).toNat + 23 := by omega
    rw [this, Nat.pow_add, ← Nat.mul_assoc, Nat.mul_comm _ (2 ^ 23)] at h1
    exact h1
  · generalize hE : (if e < -126 then -126 else e) = E at *
    have hE2 : -126 ≤ E := by rw [← hE]; split <;> omega
    rw [← mantissa_eq]
    have : (149 : Int) - ((E + 126).toNat : Int) = 23 - E := by omega
    rw [this]

theorem aux_le {m N X : Nat} (hlt : N < 2 ^ 24 * X) (b1 : 2 * (m * X) ≤ 2 * N + X) : m ≤ 2 ^ 24 := by
  apply Classical.byContradiction
  intro h
  have : (2 ^ 24 + 1) * X ≤ m * X := Nat.mul_le_mul_right _ (by omega)
  omega

theorem aux_ge {m N X : Nat} (hX : 0 < X) (h1 : 2 ^ 23 * X ≤ N) (b2 : 2 * N ≤ 2 * (m * X) + X) : 2 ^ 23 ≤ m := by
  apply Classical.byContradiction
  intro h
  have : (m + 1) * X ≤ 2 ^ 23 * X := Nat.mul_le_mul_right _ (by omega)
  rw [Nat.add_mul, Nat.one_mul] at this
  omega

theorem aux_inf {N X : Nat} (b1 : 2 * (2 ^ 24 * X) ≤ 2 * N + X) : (2 ^ 25 - 1) * X ≤ 2 * N := by omega

theorem aux_exp {N X Y : Nat} (hlt : N < 2 ^ 24 * X) (hX : 0 < X) (h : (2 ^ 25 - 1) * Y ≤ 2 * N) (hle : X * 2 ≤ Y) : False := by omega

theorem aux_top {m N X : Nat} (hX : 0 < X) (b2 : 2 * N ≤ 2 * (m * X) + X) (h : (2 ^ 25 - 1) * X ≤ 2 * N) (hm : m < 2 ^ 24)
    (b3 : (2 * (m * X) = 2 * N + X ∨ 2 * N = 2 * (m * X) + X) → m % 2 = 0) : False := by
  have hm1 : m = 2 ^ 24 - 1 := by
    apply Classical.byContradiction
    intro hne'
    have : m * X ≤ (2 ^ 24 - 2) * X := Nat.mul_le_mul_right _ (by omega)
    omega
  have e : m * X = 16777215 * X := congrArg (· * X) hm1
  have tie : 2 * N = 2 * (m * X) + X := by
    clear b3 hm hm1
    generalize m * X = y at e b2 ⊢
    omega
  have hz : m % 2 = 0 := b3 (.inr tie)
  rw [hm1] at hz
  exact absurd hz (by decide)

theorem aux_below {N U J M : Nat} (hN : J ≤ N) (e2 : U < J) (h23 : ((N : Int) - (M : Nat)).natAbs ≤ ((N : Int) - (J : Nat)).natAbs) :
    ((N : Int) - (M : Nat)).natAbs < ((N : Int) - (U : Nat)).natAbs := by omega

theorem ofRat_nearest {num den : Nat} (hd : 0 < den) : NearestF32 num den (ofRat num den) := by
  by_cases hn : num = 0
  · subst hn
    have e0 : ofRat 0 den = 0 := rfl
    rw [e0]
    refine ⟨by decide, ⟨fun h => absurd h (by decide), fun h => ?_⟩, fun _ b _ => ?_, fun _ _ _ _ _ => rfl⟩
    · exfalso
      have h2 : 0 < (2 ^ 128 - 2 ^ 103) * den := Nat.mul_pos (by decide) hd
      omega
    · simp [f32Distance, f32Units]
  by_cases he : log2Rat num den > 127
  · have e0 : ofRat num den = f32Infinity := by
      unfold ofRat
      rw [if_neg (by simpa using hn)]
      simp only
      rw [if_pos he]; rfl
    rw [e0]
    refine ⟨Nat.le_refl _, ⟨fun _ => ?_, fun _ => rfl⟩, fun h => absurd h (Nat.lt_irrefl _), fun h => absurd h (Nat.lt_irrefl _)⟩
    have := atLeast_mono (a := 128) (by omega) (log2Rat_spec hn (Nat.pos_iff_ne_zero.mp hd)).1
    rw [atLeast_shift (k := 0) (by omega)] at this
    simp only [Nat.pow_zero, Nat.mul_one] at this
    have t : ((128 : Int) + (0 : Nat)).toNat = 128 := by decide
    rw [t, Nat.mul_comm] at this
    refine Nat.le_trans (Nat.mul_le_mul_right _ ?_) this
    decide
  obtain ⟨k, m, hk, hm, hlt, hge, heq⟩ := ofRat_finite hd hn he
  have hX : 0 < den * 2 ^ k := Nat.mul_pos hd (Nat.two_pow_pos _)
  obtain ⟨b1, b2, b3⟩ := divRound_bounds (n := num * 2 ^ 149) hX
  have near := divRound_nearest (n := num * 2 ^ 149) hX
  rw [← hm] at b1 b2 b3 near
  clear hm
  have hm24 : m ≤ 2 ^ 24 := aux_le hlt b1
  have hm23 : 0 < k → 2 ^ 23 ≤ m := fun hk0 => aux_ge hX (hge hk0) b2
  have hu := units_of hm24 hm23
  have hsplit : den * 2 ^ 253 = (den * 2 ^ 103) * 2 ^ 150 := by rw [Nat.mul_assoc, ← Nat.pow_add]
  have hinf : k * 2 ^ 23 + m ≥ 0x7f800000 ↔ (2 ^ 128 - 2 ^ 103) * den ≤ num := by
    have pp : (2 : Nat) ^ 128 - 2 ^ 103 = (2 ^ 25 - 1) * 2 ^ 103 := by decide
    rw [pp, Nat.mul_assoc, Nat.mul_comm (2 ^ 103) den]
    clear pp
    have q150 : (2 : Nat) ^ 150 = 2 * 2 ^ 149 := by decide
    have hN : (2 ^ 25 - 1) * (den * 2 ^ 103) ≤ num ↔ (2 ^ 25 - 1) * (den * 2 ^ 253) ≤ 2 * (num * 2 ^ 149) := by
      rw [hsplit, ← Nat.mul_assoc (2 ^ 25 - 1) (den * 2 ^ 103), Nat.mul_left_comm 2 num, ← q150]
      exact (Nat.mul_le_mul_right_iff (Nat.two_pow_pos _)).symm
    rw [hN]
    constructor
    · intro h
      have hk253 : k = 253 := by omega
      have hmm : m = 2 ^ 24 := by omega
      subst hk253 hmm
      exact aux_inf b1
    · intro h
      have hk253 : k = 253 := by
        apply Classical.byContradiction
        intro hne
        have hle : den * 2 ^ k * 2 ≤ den * 2 ^ 253 := by
          rw [Nat.mul_assoc, ← Nat.pow_succ]
          exact Nat.mul_le_mul_left _ (Nat.pow_le_pow_right (by decide) (by omega))
        exact aux_exp hlt hX h hle
      subst hk253
      apply Classical.byContradiction
      intro hne
      exact aux_top hX b2 h (by omega) b3
  by_cases hbig : k * 2 ^ 23 + m ≥ 0x7f800000
  · rw [if_pos hbig] at heq
    rw [heq]
    exact ⟨Nat.le_refl _, ⟨fun _ => hinf.mp hbig, fun _ => rfl⟩, fun h => absurd h (Nat.lt_irrefl _), fun h => absurd h (Nat.lt_irrefl _)⟩
  rw [if_neg hbig] at heq
  rw [heq]
  -- every other value
  have other : ∀ b, f32Distance num den (k * 2 ^ 23 + m) ≤ f32Distance num den b
      ∧ (b ≠ k * 2 ^ 23 + m → f32Distance num den b = f32Distance num den (k * 2 ^ 23 + m) → m % 2 = 0) := by
    intro b
    unfold f32Distance
    rw [hu]
    obtain ⟨kb, mb, hb, hmb, hkb, hub⟩ := units_form (b := b)
    rw [hub]
    have e1 : m * 2 ^ k * den = m * (den * 2 ^ k) := by rw [Nat.mul_assoc, Nat.mul_comm (2 ^ k)]
    rw [e1]
    rcases Nat.lt_or_ge kb k with hlt' | hge'
    · have h23 := near (2 ^ 23)
      have hN := hge (by omega)
      have e2 : mb * 2 ^ kb * den < 2 ^ 23 * (den * 2 ^ k) := by
        obtain ⟨t, rfl⟩ : ∃ t, k = kb + 1 + t := ⟨k - (kb + 1), by omega⟩
        have : 2 ^ 23 * (den * 2 ^ (kb + 1 + t)) = (2 ^ 24 * 2 ^ t) * (2 ^ kb * den) := by
          rw [Nat.pow_add, Nat.pow_add]
          generalize (2 : Nat) ^ kb = A
          generalize (2 : Nat) ^ t = B
          have : (2 : Nat) ^ 24 = 2 ^ 23 * 2 := by decide
          rw [this]
          generalize (2 : Nat) ^ 23 = C
          simp only [Nat.pow_one]
          grind
        rw [this, Nat.mul_assoc]
        refine (Nat.mul_lt_mul_right (Nat.mul_pos (Nat.two_pow_pos _) hd)).mpr ?_
        exact Nat.lt_of_lt_of_le hmb (Nat.le_mul_of_pos_right _ (Nat.two_pow_pos _))
      have lt := aux_below hN e2 h23.1
      exact ⟨Nat.le_of_lt lt, fun _ h => absurd h (Nat.ne_of_gt lt)⟩
    · have e2 : mb * 2 ^ kb * den = (mb * 2 ^ (kb - k)) * (den * 2 ^ k) := by
        obtain ⟨t, rfl⟩ : ∃ t, kb = k + t := ⟨kb - k, by omega⟩
        rw [Nat.add_sub_cancel_left, Nat.pow_add]
        generalize (2 : Nat) ^ k = A
        generalize (2 : Nat) ^ t = B
        grind
      rw [e2]
      obtain ⟨n1, n2⟩ := near (mb * 2 ^ (kb - k))
      refine ⟨n1, fun hne hd => n2 (fun hj => hne ?_) hd⟩
      rcases Nat.eq_or_lt_of_le hge' with h | h
      · subst h
        simp at hj
        rw [hb, hj]
      · have h23 := hkb (by omega)
        obtain ⟨t, rfl⟩ : ∃ t, kb = k + 1 + t := ⟨kb - (k + 1), by omega⟩
        have ek : k + 1 + t - k = t + 1 := by omega
        rw [ek] at hj
        have ht : t = 0 := by
          apply Classical.byContradiction
          intro ht
          have : 4 ≤ 2 ^ (t + 1) := by
            have := Nat.pow_le_pow_right (n := 2) (by decide) (show 2 ≤ t + 1 by omega)
            simpa using this
          have := Nat.mul_le_mul h23 this
          rw [hj] at this
          omega
        subst ht
        rw [hb]
        have e1 : mb * 2 ^ (0 + 1) = mb * 2 := rfl
        rw [e1] at hj
        clear e1 hb hub e2 n1 n2 near b1 b2 b3 hlt hinf hsplit hu hX
        omega
  refine ⟨by unfold f32Infinity; omega, ⟨fun h => ?_, fun h => absurd (hinf.mpr h) hbig⟩, fun _ b _ => (other b).1, fun _ b _ hne hd => ?_⟩
  · unfold f32Infinity at h; omega
  · have := (other b).2 hne hd
    omega

end Hdx.F32

/-
Property C37: specificities.
-/
import Verif.Spec.Specificity

namespace Hdx
open Spec

/-! ## C37 Specificity -/

theorem or_add_and (x y : Nat) : (x ||| y) + (x &&& y) = x + y := by
  induction x using Nat.strongRecOn generalizing y with
  | _ x ih =>
    by_cases hx : x = 0
    · subst hx; simp
    · have := ih (x / 2) (by omega) (y / 2)
      have ho : (x ||| y) / 2 = x / 2 ||| y / 2 := Nat.or_div_two
      have ha : (x &&& y) / 2 = x / 2 &&& y / 2 := Nat.and_div_two
      have hom : (x ||| y) % 2 = x % 2 ||| y % 2 := Nat.or_mod_two_pow (n := 1)
      have ham : (x &&& y) % 2 = x % 2 &&& y % 2 := Nat.and_mod_two_pow (n := 1)
      have : (x % 2 ||| y % 2) + (x % 2 &&& y % 2) = x % 2 + y % 2 := by
        rcases Nat.mod_two_eq_zero_or_one x with h | h <;> rcases Nat.mod_two_eq_zero_or_one y with h' | h' <;> rw [h, h'] <;> rfl
      omega

theorem toNat_or_eq_add (x y : BitVec 8) : (x ||| y).toNat = x.toNat + y.toNat ↔ x &&& y = 0 := by
  have := or_add_and x.toNat y.toNat
  rw [BitVec.toNat_or, ← BitVec.toNat_inj, BitVec.toNat_and]
  have h0 : (0 : BitVec 8).toNat = 0 := rfl
  rw [h0]
  omega

/-- Exactly when adding two specificities adds their counts: when no two counterparts have a binary digit in common. In particular
when one of the two counts is zero in every component. Missing from the full C37: all other pairs (`C37_counterexample`). -/
theorem C37_partial (x y : Specificity) : counts (x.add y) = plus (counts x) (counts y) ↔ x.a &&& y.a = 0 ∧ x.b &&& y.b = 0 ∧ x.c &&& y.c = 0 := by
  simp only [counts, plus, Specificity.add, Prod.mk.injEq, toNat_or_eq_add]

example : counts (Specificity.add ⟨1, 0, 2⟩ ⟨0, 3, 1⟩) = (1, 3, 3) := by decide

/-- Two classes count as one: the code combines the components with bitwise or. -/
theorem C37_counterexample : counts (Specificity.add ⟨0, 1, 0⟩ ⟨0, 1, 0⟩) = (0, 1, 0) ∧ plus (0, 1, 0) (0, 1, 0) = (0, 2, 0) := by decide

/-- `+=` and `+` agree. -/
theorem C37_add_assign (x y : Specificity) : x.addAssign y = x.add y := rfl

theorem sum_cons (x : Specificity) (l : List Specificity) : Specificity.sum (x :: l) = x.add (Specificity.sum l) := by
  have key : ∀ (l : List Specificity) (z : Specificity), l.foldl Specificity.addAssign z = z.add (l.foldl Specificity.addAssign ⟨0, 0, 0⟩) := by
    intro l
    induction l with
    | nil => intro z; simp [Specificity.add]
    | cons w l ih =>
      intro z
      rw [List.foldl_cons, List.foldl_cons, ih, ih (Specificity.addAssign ⟨0, 0, 0⟩ w)]
      simp [Specificity.add, Specificity.addAssign, BitVec.or_assoc]
  rw [Specificity.sum, List.foldl_cons, key]
  simp [Specificity.add, Specificity.addAssign, Specificity.sum]

/-- Summing a list in any order gives the same result. -/
theorem C56_sum_order {l m : List Specificity} (h : l.Perm m) : Specificity.sum l = Specificity.sum m := by
  induction h with
  | nil => rfl
  | cons x _ ih => rw [sum_cons, sum_cons, ih]
  | swap x y l =>
    rw [sum_cons, sum_cons, sum_cons, sum_cons]
    simp only [Specificity.add, Specificity.mk.injEq, ← BitVec.or_assoc]
    exact ⟨by rw [BitVec.or_comm y.a], by rw [BitVec.or_comm y.b], by rw [BitVec.or_comm y.c]⟩
  | trans _ _ ih1 ih2 => exact ih1.trans ih2

/-- The sum of a list counts correctly as long as, at every point, the next member shares no binary digit with the sum of the rest. -/
theorem C37_sum_partial {l : List Specificity} (h : ∀ pre x post, l = pre ++ x :: post →
      x.a &&& (Specificity.sum post).a = 0 ∧ x.b &&& (Specificity.sum post).b = 0 ∧ x.c &&& (Specificity.sum post).c = 0) :
    counts (Specificity.sum l) = total (l.map counts) := by
  induction l with
  | nil => rfl
  | cons x l ih =>
    rw [sum_cons, (C37_partial x _).mpr (h [] x l rfl), ih fun pre y post hl => h (x :: pre) y post (by rw [hl]; rfl)]
    rfl

example : counts (Specificity.sum [⟨1, 0, 0⟩, ⟨0, 0, 1⟩, ⟨0, 1, 0⟩]) = total [(1, 0, 0), (0, 0, 1), (0, 1, 0)] := by decide

/-- `<` is the comparison from the left. -/
theorem C56_order (x y : Specificity) : x.lt y = true ↔ Less (counts x) (counts y) := by
  obtain ⟨a, b, c⟩ := x
  obtain ⟨a', b', c'⟩ := y
  simp only [Specificity.lt, counts, Bool.or_eq_true, Bool.and_eq_true, decide_eq_true_eq, beq_iff_eq]
  constructor
  · rintro (h | ⟨rfl, h | ⟨rfl, h⟩⟩)
    · exact .first h
    · exact .second h
    · exact .third h
  · generalize hA : a.toNat = A
    generalize hA' : a'.toNat = A'
    generalize hB : b.toNat = B
    generalize hB' : b'.toNat = B'
    intro h
    cases h with
    | first h => exact .inl h
    | second h => exact .inr ⟨BitVec.toNat_inj.mp (hA.trans hA'.symm), .inl h⟩
    | third h => exact .inr ⟨BitVec.toNat_inj.mp (hA.trans hA'.symm), .inr ⟨BitVec.toNat_inj.mp (hB.trans hB'.symm), h⟩⟩

theorem le_or (x y : BitVec 8) : x.toNat ≤ (x ||| y).toNat := by rw [BitVec.toNat_or]; exact Nat.left_le_or

/-- Adding never lowers a specificity. -/
theorem C56_add_not_less (x y : Specificity) : ¬ Less (counts (x.add y)) (counts x) := by
  obtain ⟨a, b, c⟩ := x
  obtain ⟨a', b', c'⟩ := y
  have h1 := le_or a a'
  have h2 := le_or b b'
  have h3 := le_or c c'
  simp only [counts, Specificity.add]
  generalize (a ||| a').toNat = A at *
  generalize (b ||| b').toNat = B at *
  generalize (c ||| c').toNat = C at *
  generalize a.toNat = A2 at *
  generalize b.toNat = B2 at *
  generalize c.toNat = C2 at *
  intro h
  cases h <;> omega

/-- What the sum of page pseudo-classes really is: whether there are any of each group. -/
theorem C37_page_partial (s : PageSelector) : counts s.specificity = ((pageCounts s).1, min 1 (pageCounts s).2.1, min 1 (pageCounts s).2.2) := by
  obtain ⟨t, l⟩ := s
  have key : Specificity.sum (l.map PagePseudoClass.specificity)
      = ⟨0, if l.count .first + l.count .blank = 0 then 0 else 1, if l.count .left + l.count .right = 0 then 0 else 1⟩ := by
    induction l with
    | nil => rfl
    | cons x l ih =>
      rw [List.map_cons, sum_cons, ih]
      simp only [Specificity.add, List.count_cons]
      cases x <;> simp [PagePseudoClass.specificity] <;> repeat' split <;> first | rfl | omega
  simp only [PageSelector.specificity, key, counts, pageCounts, Specificity.add]
  have e : ∀ n : Nat, (if n = 0 then (0 : BitVec 8) else 1).toNat = min 1 n := by
    intro n
    split
    · rename_i h; rw [h]; rfl
    · have : (1 : BitVec 8).toNat = 1 := rfl
      rw [this]; omega
  cases t
  · simp only [Bool.false_eq_true, if_false, e]; rfl
  · have z : ∀ x : BitVec 8, x ||| 0 = x := fun x => BitVec.or_zero
    simp only [if_true, z, e]; rfl

/-- `:first:blank` has the specificity of `:first`, though it has two pseudo-classes. -/
theorem C37_page_counterexample : counts (PageSelector.specificity ⟨false, [.first, .blank]⟩) = (0, 1, 0) ∧ pageCounts ⟨false, [.first, .blank]⟩ = (0, 2, 0) := by
  decide

end Hdx

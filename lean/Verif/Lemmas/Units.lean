/-
Helper lemmas: the unit recogniser against the table of CSS unit names.
-/
import Verif.Lemmas.Dispatch
import Verif.Spec.Units

namespace Hdx
open Spec

/-- The letter paths of the trie. -/
def unitNodes : List (List Char) := [] :: unitEdges.map (fun e => e.1 ++ [e.2.1])

/-- The value of the local `unit` after the letters `p`. -/
def unitOf (p : List Char) : DimensionUnit :=
  (p.foldl (fun (s : List Char × DimensionUnit) c => (s.1 ++ [c], unitUpdate (s.1 ++ [c]) s.2)) ([], .unknown)).2

theorem unitOf_fst (p : List Char) (s : List Char × DimensionUnit) :
    (p.foldl (fun (s : List Char × DimensionUnit) c => (s.1 ++ [c], unitUpdate (s.1 ++ [c]) s.2)) s).1 = s.1 ++ p := by
  induction p generalizing s with
  | nil => simp
  | cons c p ih => simp [ih]

theorem unitOf_snoc (p : List Char) (c : Char) : unitOf (p ++ [c]) = unitUpdate (p ++ [c]) (unitOf p) := by
  simp [unitOf, List.foldl_append, unitOf_fst]

theorem edges_lower : ∀ e ∈ unitEdges, toAsciiLower e.2.1 = e.2.1 ∧ toAsciiLower e.2.2 = e.2.1 ∧ e.2.1.toNat < 128
    ∧ e.2.2.toNat < 128 ∧ isIdentStart e.2.1 = true ∧ isIdentStart e.2.2 = true := by
  decide +kernel

theorem unitStep_some {p p' : List Char} {c : Char} (h : unitStep p c = some p') :
    p' = p ++ [toAsciiLower c] ∧ c.toNat < 128 ∧ isIdentStart c = true ∧ p' ∈ unitNodes := by
  unfold unitStep at h
  simp only [Option.map_eq_some_iff] at h
  obtain ⟨e, he, rfl⟩ := h
  have hm := List.mem_of_find?_eq_some he
  have hp := List.find?_some he
  simp only [Bool.and_eq_true, beq_iff_eq, Bool.or_eq_true] at hp
  obtain ⟨rfl, hc⟩ := hp
  obtain ⟨a1, a2, a3, a4, a5, a6⟩ := edges_lower e hm
  refine ⟨?_, ?_, ?_, ?_⟩
  · rcases hc with rfl | rfl
    · rw [a1]
    · rw [a2]
  · rcases hc with rfl | rfl <;> assumption
  · rcases hc with rfl | rfl <;> assumption
  · exact List.mem_cons_of_mem _ (List.mem_map.mpr ⟨e, hm, rfl⟩)

theorem unitWalk_spec (p : List Char) (u : DimensionUnit) (cs : List Char) :
    ∃ x, cs = x ++ (unitWalk p u cs).2.2 ∧ (unitWalk p u cs).1 = p ++ x.map toAsciiLower
      ∧ (∀ c ∈ x, c.toNat < 128 ∧ isIdentStart c = true)
      ∧ (u = unitOf p → (unitWalk p u cs).2.1 = unitOf (unitWalk p u cs).1)
      ∧ (p ∈ unitNodes → (unitWalk p u cs).1 ∈ unitNodes)
      ∧ (∀ c r, (unitWalk p u cs).2.2 = c :: r → unitStep (unitWalk p u cs).1 c = none) := by
  fun_induction unitWalk p u cs with
  | case1 p u => exact ⟨[], by simp⟩
  | case2 p u c cs h => exact ⟨[], by simp [h]⟩
  | case3 p u c cs p' h ih =>
    obtain ⟨x, h1, h2, h3, h4, h5, h6⟩ := ih
    obtain ⟨a1, a2, a3, a4⟩ := unitStep_some h
    refine ⟨c :: x, by simp [← h1], ?_, ?_, ?_, fun _ => h5 a4, h6⟩
    · rw [h2, a1]; simp
    · intro d hd
      rcases List.mem_cons.mp hd with rfl | hd
      · exact ⟨a2, a3⟩
      · exact h3 d hd
    · intro hu
      apply h4
      rw [hu, a1, unitOf_snoc]

/-- The texts with a unit-name prefix that the recogniser mistakes for seconds. -/
def svTexts : List (List Char) := [c!"sv", c!"svm", c!"svma", c!"svmi"]

theorem nodes_table : ∀ p ∈ unitNodes, unitOf p ≠ .unknown →
    ((unitOf p).len ≤ p.length ∧ 0 < (unitOf p).len)
    ∧ (p ∉ svTexts → unitName (unitOf p) = some p ∧ (unitOf p).len = p.length) := by
  decide +kernel

theorem nodes_complete : ∀ p ∈ unitNodes, ∀ u ∈ DimensionUnit.all, unitName u = some p → unitOf p = u := by
  decide +kernel

theorem mem_all (u : DimensionUnit) : u ∈ DimensionUnit.all := by cases u <;> decide

/-- Every letter of a unit name has an edge, in both cases, except an upper-case `D` at the start. -/
def stepsOk (q : List Char) : Bool :=
  match q.reverse with
  | [] => true
  | d :: p => unitStep p.reverse d == some q
      && (q == c!"d" || unitStep p.reverse (Char.ofNat (d.toNat - 32)) == some q)

theorem steps_table : ∀ u ∈ DimensionUnit.all, u ≠ .percent → ((unitName u).getD []).length < 6 ∧
    (∀ d ∈ (unitName u).getD [], 97 ≤ d.toNat ∧ d.toNat ≤ 122) ∧
    ∀ n < 6, stepsOk (((unitName u).getD []).take n) = true := by
  decide +kernel

theorem lower_inv {c d : Char} (hd : 97 ≤ d.toNat ∧ d.toNat ≤ 122) (h : toAsciiLower c = d) :
    c = d ∨ c = Char.ofNat (d.toNat - 32) := by
  unfold toAsciiLower at h
  split at h
  · rename_i hc
    simp at hc
    right
    subst h
    rw [show (Char.ofNat (c.toNat + 32)).toNat = c.toNat + 32 by
      exact toNat_ofNat_valid (Or.inl (by omega))]
    simp
  · exact Or.inl h

theorem stepsOk_snoc {p : List Char} {d : Char} (h : stepsOk (p ++ [d]) = true) :
    unitStep p d = some (p ++ [d]) ∧ (p ++ [d] ≠ c!"d" → unitStep p (Char.ofNat (d.toNat - 32)) = some (p ++ [d])) := by
  simp only [stepsOk, List.reverse_append, List.reverse_cons, List.reverse_nil, List.nil_append, List.cons_append,
    List.reverse_reverse, Bool.and_eq_true, beq_iff_eq, Bool.or_eq_true] at h
  exact ⟨h.1, fun hn => h.2.resolve_left hn⟩

theorem unitWalk_complete {u : DimensionUnit} (hu : u ≠ .percent) {name : List Char} (hn : unitName u = some name)
    (p : List Char) (v : DimensionUnit) (y r : List Char) (hy : p ++ y.map toAsciiLower = name)
    (hD : p = [] → ¬ Starts (· = 'D') y) :
    ∃ v', unitWalk p v (y ++ r) = unitWalk name v' r := by
  induction y generalizing p v with
  | nil => exact ⟨v, by simp at hy; simp [hy]⟩
  | cons c y ih =>
    obtain ⟨t1, t2, t3⟩ := steps_table u (mem_all u) hu
    rw [hn] at t1 t2 t3
    simp only [Option.getD_some] at t1 t2 t3
    have hd := t2 (toAsciiLower c) (by rw [← hy]; simp)
    have hq : p ++ [toAsciiLower c] = name.take (p.length + 1) := by
      rw [← hy, List.take_append]; simp [List.take_of_length_le]
    have hl : p.length + 1 < 6 := by
      have := congrArg List.length hy; simp at this; omega
    have hs := t3 _ hl
    rw [← hq] at hs
    obtain ⟨s1, s2⟩ := stepsOk_snoc hs
    have hstep : unitStep p c = some (p ++ [toAsciiLower c]) := by
      rcases lower_inv hd rfl with h | h
      · rw [← h] at s1 ⊢; rw [h] at s1; rw [← h] at s1; exact s1
      · by_cases hx : p ++ [toAsciiLower c] = c!"d"
        · exfalso
          cases p with
          | nil =>
            simp at hx
            rw [hx] at h
            exact hD rfl (by simp [h])
          | cons a p => simp at hx
        · have := s2 hx
          rw [← h] at this; exact this
    simp only [List.cons_append, unitWalk, hstep]
    exact ih _ _ (by simpa using hy) (by simp)

theorem unitWalk_stop {p r : List Char} {v : DimensionUnit} (h : NameEnds r) : unitWalk p v r = (p, v, r) := by
  cases r with
  | nil => rfl
  | cons c r =>
    rw [unitWalk]
    cases hs : unitStep p c with
    | none => rfl
    | some p' =>
      exfalso
      have := (unitStep_some hs).2.2.1
      exact h.1 (by simp; exact Or.inl (Or.inl ((isIdentStart_iff c).mp this)))

/-- The name elements of plain characters. -/
def chrs (x : List Char) : List NameUnit := x.map .chr

@[simp] theorem nameText_chrs (x : List Char) : nameText (chrs x) = x := by
  induction x with
  | nil => rfl
  | cons c x ih => simp only [chrs, List.map_cons, nameText_chr] at ih ⊢; rw [ih]

@[simp] theorem nameText_append (a b : List NameUnit) : nameText (a ++ b) = nameText a ++ nameText b := by
  simp [nameText]

theorem NameScan.chrs {x cs rest : List Char} {us : List NameUnit} (h : NameScan cs us rest)
    (hx : ∀ c ∈ x, isIdentStart c = true) : NameScan (x ++ cs) (chrs x ++ us) rest := by
  induction x with
  | nil => simpa [Hdx.chrs] using h
  | cons c x ih =>
    have := ih (fun d hd => hx d (by simp [hd]))
    exact this.chr (Or.inl (Or.inl ((isIdentStart_iff c).mp (hx c (by simp)))))

/-- What the unit recogniser reads: the whole name that follows the number; and the unit it reports. -/
theorem consumeUnit_spec (cs : List Char) :
    ∃ us, NameScan cs us (consumeUnit cs).2.2
      ∧ (EscAscii cs → (consumeUnit cs).2.1 = utf8Len (nameText us))
      ∧ ((consumeUnit cs).1 ≠ .unknown →
          ∃ x, us = chrs x ∧ (∀ c ∈ x, c.toNat < 128) ∧ (consumeUnit cs).1.len ≤ x.length ∧ 0 < (consumeUnit cs).1.len
            ∧ (x.map toAsciiLower ∉ svTexts → unitName (consumeUnit cs).1 = some (x.map toAsciiLower)
                ∧ (consumeUnit cs).1.len = x.length)) := by
  obtain ⟨x, h1, h2, h3, h4, h5, h6⟩ := unitWalk_spec [] .unknown cs
  obtain ⟨us, i1, i2, i3, i4, i5, i6⟩ := identLoop_spec {} (unitWalk [] .unknown cs).2.2
  have hx : x.length = (unitWalk [] .unknown cs).1.length := by rw [h2]; simp
  have hutf : utf8Len x = x.length := utf8Len_of_ascii (fun c hc => by simpa [isAscii] using (h3 c hc).1)
  have hcu : consumeUnit cs =
      if (identLoop {} (unitWalk [] .unknown cs).2.2).1.len > 0 then
        (.unknown, x.length + (identLoop {} (unitWalk [] .unknown cs).2.2).1.len, (identLoop {} (unitWalk [] .unknown cs).2.2).2)
      else ((unitWalk [] .unknown cs).2.1, x.length, (identLoop {} (unitWalk [] .unknown cs).2.2).2) := by
    rw [hx]; rfl
  have hns := i1.chrs (fun c hc => (h3 c hc).2)
  rw [← h1] at hns
  refine ⟨chrs x ++ us, ?_, ?_, ?_⟩
  · rw [hcu]; split <;> exact hns
  · intro ha
    have hl := i2 (EscAscii.suffix (a := x) (by rw [← h1]; exact ha))
    simp only [Nat.zero_add] at hl
    rw [hcu]
    split
    · simp [hl, hutf]
    · rename_i hz; simp [hutf]; omega
  · rw [hcu]
    split
    · simp
    · rename_i hz
      intro hk
      have hus : us = [] := by
        cases us with
        | nil => rfl
        | cons u us => simp at i6; omega
      subst hus
      have hun := h4 rfl
      simp only [List.nil_append] at h2
      simp only at hk ⊢
      rw [hun, h2] at hk ⊢
      obtain ⟨t1, t2⟩ := nodes_table (x.map toAsciiLower) (by rw [← h2]; exact h5 (by simp [unitNodes])) hk
      exact ⟨x, by simp, fun c hc => (h3 c hc).1, by simpa using t1.1, t1.2, by simpa using t2⟩

/-- Every case variant of a unit name is recognised, except those starting with an upper-case `D`. -/
theorem consumeUnit_complete {u : DimensionUnit} (hu : u ≠ .percent) {x r : List Char}
    (hn : unitName u = some (x.map toAsciiLower)) (hD : ¬ Starts (· = 'D') x) (hr : NameEnds r) :
    consumeUnit (x ++ r) = (u, x.length, r) := by
  obtain ⟨v, hv⟩ := unitWalk_complete hu hn [] .unknown x r (by simp) (fun _ => hD)
  rw [unitWalk_stop hr] at hv
  obtain ⟨x', h1, h2, h3, h4, h5, h6⟩ := unitWalk_spec [] .unknown (x ++ r)
  have hun := h4 rfl
  have hnode := h5 (by simp [unitNodes])
  rw [hv] at hun hnode
  simp only at hun hnode
  have := nodes_complete _ hnode u (mem_all u) hn
  have hil : identLoop {} r = ({}, r) := by
    obtain ⟨us, i1, i2, i3, i4, i5, i6⟩ := identLoop_spec {} r
    cases r with
    | nil => rw [identLoop]
    | cons c r =>
      have hc := hr.1
      simp only [starts_cons, not_or, ← isIdent_iff] at hc
      have hne : ¬ isEscapeSequence c (peekNth r 0) = true := fun h => hr.2 ((isEscapeSequence_iff _ _).mp h)
      have hdash : ¬ c = '-' := by rintro rfl; exact hc.1 (by decide)
      have hl : ¬ (isIdentAsciiLower c || c == '-' || isDigit c) = true := by
        rw [lowerDashDigit_iff]
        rintro (h | h | h)
        · exact hc.1 ((isIdent_iff c).mpr (Or.inl (Or.inl h)))
        · exact hdash h
        · exact hc.1 ((isIdent_iff c).mpr (Or.inr (Or.inl h)))
      rw [identLoop.eq_def]
      simp only [beq_iff_eq, hdash, and_false, hl, hc.1, hne, if_false, Bool.and_eq_true]
      have hz : ¬ c = EOFc := hc.2
      simp [hz]
  simp only [consumeUnit, hv, consumeIdentSeq, hil]
  simp [hun, this]

end Hdx

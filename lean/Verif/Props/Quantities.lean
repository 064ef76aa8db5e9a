/-
Property C99: numbers with units have the unit and the number that are written.
-/
import Verif.Model.Quantities
import Verif.Spec.Quantities
import Verif.Props.ValueSound
import Verif.Props.Counters
import Verif.Lemmas.Heads
import Verif.Lemmas.CompleteTypes

namespace Hdx
open Spec Prog

section
variable {src : List Char}

/-! ## Which unit -/

/-- The token is of the unit, for the test of the unit. -/
def OfUnit (src : List Char) (u : DimensionUnit) (c : Cursor) : Prop :=
  IsKind .dimension c ∧ (c.token.dimensionUnit = u ∨ c.eqIgnoreAsciiCase src u.macroName = .ok true)

theorem ofUnit_says {u : DimensionUnit} (c : Cursor) : Says src (isDimensionOf u c) fun b => b = true ↔ OfUnit src u c := by
  unfold isDimensionOf
  refine Says.ite (fun hk => Says.ite (fun h => .pure ?_) fun h => Says.ask fun p a hp ha => ?_) fun hk => .pure ?_
  · exact ⟨fun _ => ⟨hk, .inl (by simpa using h)⟩, fun _ => rfl⟩
  · rw [hp] at ha
    refine ⟨fun e => ⟨hk, .inr (by rw [ha, e])⟩, fun ⟨_, h'⟩ => ?_⟩
    rcases h' with h' | h'
    · exact absurd (by simpa using h') h
    · rw [ha] at h'; cases h'; rfl
  · exact ⟨nofun, fun h => absurd h.1 hk⟩

theorem anyUnit_says {us : List DimensionUnit} (c : Cursor) : Says src (isAnyDimension us c) fun b => b = true ↔ ∃ u ∈ us, OfUnit src u c := by
  induction us with
  | nil => exact .pure (by simp)
  | cons u us ih =>
    unfold isAnyDimension
    refine Says.bind (ofUnit_says c) fun b hb => Says.ite (fun h => .pure ⟨fun _ => ⟨u, by simp, hb.mp h⟩, fun _ => rfl⟩) fun h => ih.mono fun b' h' => ?_
    rw [h']
    refine ⟨fun ⟨v, hv, hu⟩ => ⟨v, by simp [hv], hu⟩, fun ⟨v, hv, hu⟩ => ?_⟩
    rcases List.mem_cons.mp hv with rfl | hv
    · exact absurd (hb.mpr hu) h
    · exact ⟨v, hv, hu⟩

theorem buildUnit_says {us : List DimensionUnit} (c : Cursor) : Says src (buildUnit us c) fun o =>
    (o = none ∧ ∀ u ∈ us, ¬ OfUnit src u c) ∨ ∃ u ∈ us, o = some u ∧ OfUnit src u c := by
  induction us with
  | nil => exact .pure (by simp)
  | cons u us ih =>
    unfold buildUnit
    refine Says.bind (ofUnit_says c) fun b hb => Says.ite (fun h => .pure (.inr ⟨u, by simp, rfl, hb.mp h⟩)) fun h => ih.mono fun o h' => ?_
    rcases h' with ⟨rfl, h'⟩ | ⟨v, hv, rfl, hu⟩
    · refine .inl ⟨rfl, fun v hv => ?_⟩
      rcases List.mem_cons.mp hv with rfl | hv
      · exact fun hu => h (hb.mpr hu)
      · exact h' v hv
    · exact .inr ⟨v, by simp [hv], rfl, hu⟩

theorem buildNamed_says {names : List (List Char × DimensionUnit)} (c : Cursor) : Says src (buildNamedUnit names c) fun o =>
    ∃ s u, Named src c s ∧ names.lookup s = some u ∧ o = some u := by
  unfold buildNamedUnit
  refine Says.bind .strLower fun s hs => ?_
  cases h : names.lookup s with
  | none => exact fun _ _ _ _ _ hg => by simp [Gives, runLog] at hg
  | some u => exact .pure ⟨s, u, hs, h, rfl⟩

theorem quantity_reads {m : Measure} (hi : Inspects m.test) {T : Cursor → Prop} (ht : ∀ c, Says src (m.test c) fun b => b = true → T c)
    {U : Cursor → Option DimensionUnit → Prop} (hb : ∀ c, T c → Reads src (m.build c) fun o w => w = [] ∧ U c o) :
    Reads src m.quantity fun q w => w = [q.c] ∧ U q.c q.unit := by
  unfold Measure.quantity
  refine .next (.tok hi ht) fun c hc => .look (hb c hc) fun o ho => .pure ⟨rfl, ho⟩

theorem named_units : ∀ u ∈ LENGTH_UNITS ++ [.percent, .fr], unitName u = some u.macroName := by decide +kernel
theorem length_units : ∀ u ∈ LENGTH_UNITS, u.macroName ∈ lengthUnits := by decide +kernel

theorem OfUnit.has {u : DimensionUnit} {c : Cursor} (hu : u ∈ LENGTH_UNITS ++ [.percent, .fr]) (h : OfUnit src u c) : HasUnit src u.macroName c := by
  obtain ⟨hk, h | h⟩ := h
  · exact ⟨hk, .inr (by rw [h]; exact named_units u hu)⟩
  · exact ⟨hk, .inl (.inr h)⟩

/-- What a quantity is: a bare zero, or a number with a unit of the type. -/
def QuantityIs (src : List Char) (m : Measure) (c : Cursor) (o : Option DimensionUnit) : Prop :=
  (o = none ∧ zeroOf m = true ∧ IsZero c) ∨ ∃ u s, o = some u ∧ unitName u = some s ∧ s ∈ unitsOf m ∧ HasUnit src s c

theorem isZero_of {c : Cursor} (h : (c.token.isKind .number && f32IsZero c.token.value) = true) : IsZero c := by
  rw [Bool.and_eq_true] at h
  exact ⟨h.1, zero_units h.2⟩

/-- Writes nothing, and says so. -/
theorem reads_of_says {α : Type} {x : Prog α} {P : α → Prop} (hw : ∀ ⦃p p' r w⦄, Gives x p r p' w → p' = p ∧ w = []) (h : Says src x P) :
    Reads src x fun a w => w = [] ∧ P a := fun _ hp _ _ _ hg => ⟨(hw hg).2, h hp hg⟩

theorem buildUnit_looks {us : List DimensionUnit} {c : Cursor} : ∀ ⦃p p' r w⦄, Gives (buildUnit us c) p r p' w → p' = p ∧ w = [] := by
  induction us with
  | nil => intro p p' r w h; exact (gives_pure.mp h).2
  | cons u us ih =>
    intro p p' r w h
    unfold buildUnit at h
    rcases gives_bind.mp h with ⟨b, p1, w1, w2, h1, h2, rfl⟩ | ⟨d, h1, rfl⟩
    · obtain ⟨rfl, rfl⟩ := isDimensionOf_inspects u h1
      split at h2
      · exact (gives_pure.mp h2).2
      · exact ih h2
    · exact isDimensionOf_inspects u h1

theorem buildNamed_looks {names : List (List Char × DimensionUnit)} {c : Cursor} : ∀ ⦃p p' r w⦄, Gives (buildNamedUnit names c) p r p' w → p' = p ∧ w = [] := by
  intro p p' r w h
  unfold buildNamedUnit at h
  rcases gives_bind.mp h with ⟨s, p1, w1, w2, h1, h2, rfl⟩ | ⟨d, h1, rfl⟩
  · obtain ⟨s', _, _, rfl, rfl⟩ := gives_strLower.mp h1
    cases hl : names.lookup s with
    | none => rw [hl] at h2; exact absurd h2 gives_panic
    | some u => rw [hl] at h2; exact (gives_pure.mp h2).2
  · obtain ⟨_, _, h, _⟩ := gives_strLower.mp h1
    cases h

theorem mem_of_lookup {α β : Type} [BEq α] [LawfulBEq α] {xs : List (α × β)} {a : α} {b : β} (hl : xs.lookup a = some b) : (a, b) ∈ xs := by
  induction xs with
  | nil => simp at hl
  | cons x xs ih =>
    rw [List.lookup_cons] at hl
    split at hl
    · next h =>
      cases hl
      have : a = x.1 := by simpa using h
      rw [this]; simp
    · exact List.mem_cons_of_mem _ (ih hl)

theorem zero_bits {w : BitVec 32} (h : f32Units (w.toNat % 2 ^ 31) = 0) : f32IsZero w = true := by
  have h0 : w.toNat % 2 ^ 31 = 0 := by
    rcases Nat.eq_zero_or_pos (w.toNat % 2 ^ 31) with h0 | h0
    · exact h0
    · have := f32Units_strict h0
      omega
  simp only [f32IsZero, Bool.or_eq_true, beq_iff_eq, ← BitVec.toNat_inj, BitVec.toNat_ofNat]
  have := w.isLt
  omega

/-- The variants that are found by name. -/
theorem variants_named (m : Measure) (names : List (List Char × DimensionUnit)) (hn : ∀ x ∈ names, unitName x.2 = some x.1 ∧ x.1 ∈ unitsOf m)
    {c : Cursor} (hk : IsKind .dimension c) : Reads src (buildNamedUnit names c) fun o w => w = [] ∧ QuantityIs src m c o := by
  refine (reads_of_says buildNamed_looks (buildNamed_says c)).mono fun o w ⟨hw, s, u, hs, hl, ho⟩ => ⟨hw, .inr ⟨u, s, ho, ?_⟩⟩
  have hm := mem_of_lookup hl
  exact ⟨(hn _ hm).1, (hn _ hm).2, hk, .inl (.inl hs)⟩

theorem unitOf_dimension {names : List (List Char)} (c : Cursor) : Says src (isUnitOf names c) fun b => b = true → IsKind .dimension c :=
  (isUnitOf_says c).mono fun _ h hb => (h hb).elim fun _ h => h.2.1

theorem quantity_is (m : Measure) : Reads src m.quantity fun q w => w = [q.c] ∧ QuantityIs src m q.c q.unit := by
  cases m with
  | length =>
    refine quantity_reads (m := .length) isLength_inspects (T := fun c => IsZero c ∨ ∃ u ∈ LENGTH_UNITS, OfUnit src u c) (fun c => ?_) fun c hc =>
      (reads_of_says buildUnit_looks (buildUnit_says c)).mono fun o w ⟨hw, h⟩ => ⟨hw, ?_⟩
    · exact Says.ite (fun h => .pure fun _ => .inl (isZero_of h)) fun _ => (anyUnit_says c).mono fun b h hb => .inr (h.mp hb)
    · rcases h with ⟨rfl, h⟩ | ⟨u, hu, rfl, h⟩
      · rcases hc with hc | ⟨u, hu, hc⟩
        · exact .inl ⟨rfl, rfl, hc⟩
        · exact absurd hc (h u hu)
      · have hm : u ∈ LENGTH_UNITS ++ [.percent, .fr] := List.mem_append_left _ hu
        exact .inr ⟨u, u.macroName, rfl, named_units u hm, length_units u hu, h.has hm⟩
  | lengthPercentage =>
    refine quantity_reads (m := .lengthPercentage) .lengthPercentage (T := fun c => IsZero c ∨ ∃ u ∈ LENGTH_UNITS ++ [.percent], OfUnit src u c) (fun c => ?_) fun c hc =>
      (reads_of_says buildUnit_looks (buildUnit_says c)).mono fun o w ⟨hw, h⟩ => ⟨hw, ?_⟩
    · refine Says.ite (fun h => .pure fun _ => .inl (isZero_of h)) fun _ => Says.bind (ofUnit_says c) fun b hb => Says.ite (fun h => .pure fun _ => .inr ⟨.percent, by simp, hb.mp h⟩) fun _ =>
        (anyUnit_says c).mono fun b h hb => ?_
      obtain ⟨u, hu, h⟩ := h.mp hb
      exact .inr ⟨u, List.mem_append_left _ hu, h⟩
    · rcases h with ⟨rfl, h⟩ | ⟨u, hu, rfl, h⟩
      · rcases hc with hc | ⟨u, hu, hc⟩
        · exact .inl ⟨rfl, rfl, hc⟩
        · exact absurd hc (h u hu)
      · have hm : u ∈ LENGTH_UNITS ++ [.percent, .fr] := by
          rcases List.mem_append.mp hu with h | h
          · exact List.mem_append_left _ h
          · refine List.mem_append_right _ ?_
            revert h; simp; exact fun h => .inl h
        refine .inr ⟨u, u.macroName, rfl, named_units u hm, ?_, h.has hm⟩
        rcases List.mem_append.mp hu with h | h
        · exact List.mem_cons_of_mem _ (length_units u h)
        · have : u = .percent := by simpa using h
          subst this; exact .head _
  | time =>
    refine quantity_reads (m := .time) .time (T := fun c => IsZero c ∨ IsKind .dimension c) (fun c => ?_) fun c hc => ?_
    · exact Says.ite (fun h => .pure fun _ => .inl (isZero_of h)) fun _ => (unitOf_dimension c).mono fun b h hb => .inr (h hb)
    · refine Reads.ite (fun h => .pure ⟨rfl, .inl ⟨rfl, rfl, isZero_of h⟩⟩) fun h => variants_named .time TIME_VARIANTS (by decide +kernel) ?_
      rcases hc with hc | hc
      · refine absurd ?_ h
        rw [Bool.and_eq_true]
        exact ⟨hc.1, zero_bits hc.2⟩
      · exact hc
  | angle => exact quantity_reads (m := .angle) .unit unitOf_dimension fun c hc => variants_named .angle ANGLE_VARIANTS (by decide +kernel) hc
  | resolution => exact quantity_reads (m := .resolution) .unit unitOf_dimension fun c hc => variants_named .resolution RESOLUTION_VARIANTS (by decide +kernel) hc
  | frequency => exact quantity_reads (m := .frequency) .unit unitOf_dimension fun c hc => variants_named .frequency FREQUENCY_VARIANTS (by decide +kernel) hc
  | flex =>
    refine quantity_reads (m := .flex) (isDimensionOf_inspects _) (fun c => (ofUnit_says c).mono fun b h hb => h.mp hb) fun c hc => .pure ⟨rfl, .inr ⟨.fr, c!"fr", rfl, rfl, .head _, ?_⟩⟩
    exact hc.has (u := .fr) (List.mem_append_right _ (by simp))

theorem units_plain (m : Measure) : ∀ s ∈ unitsOf m, plainName s = true := by cases m <;> decide +kernel

theorem macroNames_plain : ∀ u ∈ LENGTH_UNITS ++ [.percent, .fr], plainName u.macroName = true := by decide +kernel

/-- **C99.** A quantity that is parsed is one token of the source, and its variant is `Zero` only for a bare 0 in a type that has it; otherwise the variant is
one of the units of the type, and this is the unit that is written in the source. -/
theorem C99_variant {m : Measure} {p p' : Parser} {q : Quantity} {w : List Cursor} (hp : p.lexer.source = src) (h : Gives m.quantity p (.ok q) p' w)
    (hc : Clear src q.c) : w = [q.c] ∧ q.cursor = q.c ∧ ((q.unit = none ∧ zeroOf m = true ∧ IsZero q.c) ∨
      ∃ u s, q.unit = some u ∧ unitName u = some s ∧ s ∈ unitsOf m ∧ IsKind .dimension q.c ∧ Named src q.c s) := by
  obtain ⟨hw, h⟩ := quantity_is m hp h
  refine ⟨hw, rfl, ?_⟩
  rcases h with h | ⟨u, s, hu, hn, hs, h⟩
  · exact .inl h
  · exact .inr ⟨u, s, hu, hn, hs, h.has hc (plainName_spec (units_plain m s hs))⟩

/-! ## `Peek` and `Build` agree -/

theorem dimension_answers {u : DimensionUnit} (hu : u ∈ LENGTH_UNITS ++ [.percent, .fr]) {c : Cursor} {p : Parser} (hc : Clear p.lexer.source c) :
    ∃ b, Gives (isDimensionOf u c) p (.ok b) p [] := by
  unfold isDimensionOf
  split
  · next hk =>
    split
    · exact ⟨true, gives_pure.mpr ⟨rfl, rfl, rfl⟩⟩
    · obtain ⟨s, _, he, _⟩ := hc (.inr (.inr hk))
      exact ⟨_, gives_eqCase.mpr ⟨_, he _ (plainName_spec (macroNames_plain u hu)), rfl, rfl, rfl⟩⟩
  · exact ⟨false, gives_pure.mpr ⟨rfl, rfl, rfl⟩⟩

theorem buildUnit_answers {us : List DimensionUnit} (hu : ∀ u ∈ us, u ∈ LENGTH_UNITS ++ [.percent, .fr]) {c : Cursor} {p : Parser} (hc : Clear p.lexer.source c) :
    ∃ o, Gives (buildUnit us c) p (.ok o) p [] := by
  induction us with
  | nil => exact ⟨none, gives_pure.mpr ⟨rfl, rfl, rfl⟩⟩
  | cons u us ih =>
    obtain ⟨b, hb⟩ := dimension_answers (hu u (.head _)) hc
    obtain ⟨o, ho⟩ := ih fun v hv => hu v (.tail _ hv)
    unfold buildUnit
    cases b with
    | true => exact ⟨some u, gives_bind_ok.mpr ⟨true, p, [], [], hb, gives_pure.mpr ⟨rfl, rfl, rfl⟩, rfl⟩⟩
    | false => exact ⟨o, gives_bind_ok.mpr ⟨false, p, [], [], hb, ho, rfl⟩⟩

theorem buildNamed_answers {names : List (List Char)} {vs : List (List Char × DimensionUnit)} (hn : ∀ s ∈ names, (vs.lookup s).isSome = true) {c : Cursor} {p : Parser}
    (h : Gives (isUnitOf names c) p (.ok true) p []) : ∃ o, Gives (buildNamedUnit vs c) p (.ok o) p [] := by
  unfold isUnitOf at h
  split at h
  · obtain ⟨s, p1, w1, w2, h1, h2, _⟩ := gives_bind_ok.mp h
    obtain ⟨s', hs, e, rfl, rfl⟩ := gives_strLower.mp h1
    cases e
    obtain ⟨e, _, _⟩ := gives_pure.mp h2
    have hm : s ∈ names := by simpa using (Except.ok.inj e).symm
    unfold buildNamedUnit
    refine ⟨vs.lookup s, gives_bind_ok.mpr ⟨s, p1, [], [], h1, ?_, rfl⟩⟩
    cases hl : vs.lookup s with
    | none => have := hn s hm; rw [hl] at this; cases this
    | some u => exact gives_pure.mpr ⟨rfl, rfl, rfl⟩
  · have := (gives_pure.mp h).1
    cases this

/-- **C99.** Whatever `Peek` of the type accepts, `Build` builds: the `unreachable!()`s are. -/
theorem C99_builds {m : Measure} {c : Cursor} {p : Parser} (hc : Clear p.lexer.source c) (h : Gives (m.test c) p (.ok true) p []) :
    ∃ o, Gives (m.build c) p (.ok o) p [] := by
  cases m with
  | length => exact buildUnit_answers (fun u hu => List.mem_append_left _ hu) hc
  | lengthPercentage =>
    refine buildUnit_answers (fun u hu => ?_) hc
    rcases List.mem_append.mp hu with h | h
    · exact List.mem_append_left _ h
    · refine List.mem_append_right _ ?_
      revert h; simp; exact fun h => .inl h
  | time =>
    show ∃ o, Gives (if c.token.isKind .number && f32IsZero c.token.value then pure none else buildNamedUnit TIME_VARIANTS c) p (.ok o) p []
    have h : Gives (if c.token.isKind .number && f32IsZero c.token.value then pure true else isUnitOf [c!"s", c!"ms"] c) p (.ok true) p [] := h
    split
    · exact ⟨none, gives_pure.mpr ⟨rfl, rfl, rfl⟩⟩
    · next hz =>
      rw [if_neg hz] at h
      exact buildNamed_answers (by decide +kernel) h
  | angle => exact buildNamed_answers (by decide +kernel) h
  | resolution => exact buildNamed_answers (by decide +kernel) h
  | frequency => exact buildNamed_answers (by decide +kernel) h
  | flex => exact ⟨_, gives_pure.mpr ⟨rfl, rfl, rfl⟩⟩

/-! ## The number -/

/-- **C99.** The number of a quantity that is parsed is the number of its token. -/
theorem C99_number {m : Measure} {p p' : Parser} {q : Quantity} {w : List Cursor} (h : Gives m.quantity p (.ok q) p' w) :
    f32Number q.toF32 = f32Number q.c.token.value := by
  obtain ⟨_, h⟩ := quantity_is m rfl h
  unfold Quantity.toF32
  rcases h with ⟨hu, _, hz⟩ | ⟨u, s, hu, _⟩
  · rw [hu]
    show f32Number 0#32 = _
    unfold f32Number
    rw [hz.2]
    split <;> split <;> simp_all [f32Units]
  · rw [hu]; rfl

theorem f32Number_zero {w : BitVec 32} : f32Number w = 0 ↔ f32IsZero w = true := by
  constructor
  · intro h
    refine zero_bits ?_
    unfold f32Number at h
    split at h <;> omega
  · intro h
    have := zero_units h
    unfold f32Number
    rw [this]
    split <;> rfl

/-- **C99.** `is_negative` says that the number is below 0, and `is_positive` that it is not. -/
theorem C99_sign (q : Quantity) : (q.isNegative = true ↔ f32Number q.toF32 < 0) ∧ (q.isPositive = true ↔ 0 ≤ f32Number q.toF32) := by
  unfold Quantity.isNegative Quantity.isPositive f32Below f32AtLeastZero
  generalize q.toF32 = w
  have hlt := w.isLt
  have hz : f32Number w = 0 ↔ w = 0#32 ∨ w = 0x80000000#32 := by
    rw [f32Number_zero, f32IsZero, Bool.or_eq_true, beq_iff_eq, beq_iff_eq]
  cases hm : w.msb with
  | true =>
    rw [BitVec.msb_eq_true_iff_two_mul_ge] at hm
    have h0 : w ≠ 0#32 := by rintro rfl; simp at hm
    have hn : f32Number w ≤ 0 := by unfold f32Number; rw [if_pos (by omega)]; omega
    simp only [h0, false_or] at hz
    by_cases e : w = 0x80000000#32
    · subst e; constructor <;> decide
    · have : f32Number w ≠ 0 := fun h => e (hz.mp h)
      simp [e]
      omega
  | false =>
    rw [BitVec.msb_eq_false_iff_two_mul_lt] at hm
    have hn : 0 ≤ f32Number w := by unfold f32Number; rw [if_neg (by omega)]; omega
    have h1 : F32.ofRat 0 1 = 0 := by decide +kernel
    simp [h1]
    omega

/-! ### Conversion to `i32` (css_parse/src/token_macros.rs:281-290, 1016-1019) -/

/-- The whole part of the magnitude. -/
theorem units_whole {b : Nat} (hb : b < 2 ^ 31) : 
    (if b / 2 ^ 23 < 127 then 0 else if b / 2 ^ 23 ≥ 158 then 2 ^ 31 else ((2 ^ 23 + b % 2 ^ 23) * 2 ^ (b / 2 ^ 23 - 127)) / 2 ^ 23) = min (2 ^ 31) (f32Units b / 2 ^ 149) := by
  unfold f32Units
  have hm : b % 2 ^ 23 < 2 ^ 23 := Nat.mod_lt _ (by decide)
  have he0 : b / 2 ^ 23 = 0 ↔ b < 2 ^ 23 := by omega
  generalize b / 2 ^ 23 = e at *
  generalize b % 2 ^ 23 = m at *
  by_cases h1 : e < 127
  · rw [if_pos h1, Nat.div_eq_of_lt]
    · rfl
    split
    · exact Nat.lt_trans ‹_› (by decide)
    · calc (2 ^ 23 + m) * 2 ^ (e - 1) < 2 ^ 24 * 2 ^ (e - 1) := Nat.mul_lt_mul_of_pos_right (by omega) (Nat.two_pow_pos _)
        _ ≤ 2 ^ 24 * 2 ^ 125 := Nat.mul_le_mul_left _ (Nat.pow_le_pow_right (by decide) (by omega))
        _ = 2 ^ 149 := by decide +kernel
  · rw [if_neg h1, if_neg (show ¬ b < 2 ^ 23 by omega)]
    by_cases h2 : e ≥ 158
    · rw [if_pos h2]
      have : 2 ^ 31 ≤ (2 ^ 23 + m) * 2 ^ (e - 1) / 2 ^ 149 := by
        rw [Nat.le_div_iff_mul_le (Nat.two_pow_pos _)]
        calc 2 ^ 31 * 2 ^ 149 = 2 ^ 23 * 2 ^ 157 := by decide +kernel
          _ ≤ (2 ^ 23 + m) * 2 ^ (e - 1) := Nat.mul_le_mul (by omega) (Nat.pow_le_pow_right (by decide) (by omega))
      exact (Nat.min_eq_left this).symm
    · rw [if_neg h2]
      have e1 : (2 ^ 23 + m) * 2 ^ (e - 1) = (2 ^ 23 + m) * 2 ^ (e - 127) * 2 ^ 126 := by
        rw [Nat.mul_assoc, ← Nat.pow_add]; congr 2; omega
      have e2 : (2 : Nat) ^ 149 = 2 ^ 23 * 2 ^ 126 := by decide +kernel
      rw [e1, e2, Nat.mul_div_mul_right _ _ (Nat.two_pow_pos _), Nat.min_eq_right]
      have : (2 ^ 23 + m) * 2 ^ (e - 127) / 2 ^ 23 < 2 ^ 31 := by
        rw [Nat.div_lt_iff_lt_mul (by decide)]
        calc (2 ^ 23 + m) * 2 ^ (e - 127) < 2 ^ 24 * 2 ^ (e - 127) := Nat.mul_lt_mul_of_pos_right (by omega) (Nat.two_pow_pos _)
          _ ≤ 2 ^ 24 * 2 ^ 30 := Nat.mul_le_mul_left _ (Nat.pow_le_pow_right (by decide) (by omega))
          _ = 2 ^ 31 * 2 ^ 23 := by decide +kernel
      omega

/-- **C66, C99.** An `f32` that is not NaN becomes the whole part of its number, within the limits of an `i32`. -/
theorem C99_as_i32 {w : BitVec 32} (h : w.toNat % 2 ^ 31 ≤ f32Infinity) :
    f32ToI32 w = max (-2 ^ 31) (min (2 ^ 31 - 1) ((f32Number w).tdiv (2 ^ 149))) := by
  unfold f32ToI32 f32Number
  have hlt := w.isLt
  have hb : w.toNat % 2 ^ 31 < 2 ^ 31 := Nat.mod_lt _ (by decide)
  have h1 : (w.toNat / 2 ^ 23) % 256 = (w.toNat % 2 ^ 31) / 2 ^ 23 := by omega
  have h2 : w.toNat % 2 ^ 23 = w.toNat % 2 ^ 31 % 2 ^ 23 := by omega
  have hs : w.getLsbD 31 = decide (2 ^ 31 ≤ w.toNat) := by
    rw [show w.getLsbD 31 = w.msb from rfl]
    rw [BitVec.msb_eq_decide]
  dsimp only
  rw [h1, h2, hs]
  have hnan : ¬ (w.toNat % 2 ^ 31 / 2 ^ 23 == 255 && w.toNat % 2 ^ 31 % 2 ^ 23 != 0) = true := by
    simp only [Bool.and_eq_true, beq_iff_eq, bne_iff_ne, ne_eq, not_and, Decidable.not_not]
    unfold f32Infinity at h
    omega
  rw [if_neg hnan, units_whole hb]
  generalize f32Units (w.toNat % 2 ^ 31) = u
  have ht : (u : Int).tdiv (2 ^ 149) = ((u / 2 ^ 149 : Nat) : Int) := by
    rw [Int.tdiv_eq_ediv_of_nonneg (by omega)]
    norm_cast
  by_cases hn : 2 ^ 31 ≤ w.toNat
  · simp only [hn, decide_true, if_true, Int.neg_tdiv, ht]
    generalize u / 2 ^ 149 = k
    omega
  · simp only [hn, decide_false, if_false, ht, Bool.false_eq_true]
    generalize u / 2 ^ 149 = k
    split <;> omega

/-- 16777217 is no `f32`, so that an integer of that size may change; 3.7 and -3.7 are cut off towards 0. -/
example : f32ToI32 (F32.parse c!"3.7") = 3 ∧ f32ToI32 (F32.parse c!"-3.7") = -3 ∧ f32ToI32 (F32.parse c!"-1e30") = -2147483648 := by decide +kernel

/-- The part of `is_zero` that holds: of a 0 it is true. -/
theorem C99_zero_partial (q : Quantity) (h : f32Number q.toF32 = 0) : q.isZero = true := (C99_sign q).2.mpr (by omega)

/-! ## Everything that is a quantity is read -/

/-- The heads of each type. -/
def Measure.heads (m : Measure) : List Head := (if zeroOf m then [.zero] else []) ++ ((unitsOf m).filter (· != c!"x")).map .unit

theorem measure_exactly (m : Measure) {c : Cursor} (hc : Clear src c) (h : Among src m.heads c) : Tests src (m.test c) true := by
  have go : ∀ {acc : List Head}, Exactly src m.test acc → (∀ x ∈ m.heads, x ∈ acc) → Tests src (m.test c) true := fun he hs => he.yes hc (h.elim fun x hx => ⟨x, hs x hx.1, hx.2⟩)
  cases m with
  | length => exact go .length (by decide +kernel)
  | lengthPercentage => exact go .lengthPercentage (by decide +kernel)
  | time => exact go .time (by decide +kernel)
  | angle => exact go .angle (by decide +kernel)
  | resolution => exact go (.units (names := [c!"dpi", c!"dpcm", c!"dppx"])) (by decide +kernel)
  | frequency => exact go (.units (names := [c!"hz", c!"khz"])) (by decide +kernel)
  | flex => exact go .flex (by decide +kernel)

theorem quantity_yields {m : Measure} {c : Cursor} {rest : List Cursor} (hc : Clear src c) (ht : Tests src (m.test c) true) :
    Yields src (c :: rest) m.quantity rest fun q => q.c = c := by
  unfold Measure.quantity
  refine Yields.bind (Yields.tok (P' := fun x => x = c) ht rfl) fun x hx => ?_
  subst hx
  refine Yields.bind (P := fun _ => True) (fun p hp => ?_) fun o _ => Yields.pure rfl
  obtain ⟨o, ho⟩ := C99_builds (m := m) (c := x) (p := p) (by rw [hp.1]; exact hc) (ht hp.1)
  exact ⟨o, p, [], ho, hp, trivial⟩

/-- **C99.** A bare 0 in the types that have it, and a number with one of the units of the type but `x`, is parsed, into a quantity of this one token: its variant
is that unit. Missing: `x`, which is a unit of resolutions but is not read (`C99_counterexample_x`), and names with escapes, as in other theorems. -/
theorem C99_accepts_partial {m : Measure} {p : Parser} (hr : Ready p) (hs : p.skip = KindSet.TRIVIA) {cs : List Cursor} (hcs : Stream p.lexer cs) {c : Cursor} {rest : List Cursor}
    (hso : solid cs = c :: rest) (hc : Clear p.lexer.source c)
    (h : (zeroOf m = true ∧ IsZero c) ∨ ∃ s ∈ unitsOf m, s ≠ c!"x" ∧ IsKind .dimension c ∧ Named p.lexer.source c s) :
    ∃ q p', m.quantity.run p = .ok (.ok q, p') ∧ q.c = c ∧ (∃ cs', Stream p'.lexer cs' ∧ solid cs' = rest) ∧
      (q.unit = none → IsZero c) ∧ ∀ u ∈ q.unit, ∃ s, unitName u = some s ∧ Named p.lexer.source c s := by
  have ha : Among p.lexer.source m.heads c := by
    rcases h with ⟨hz, h⟩ | ⟨s, hs, hx, hk, hn⟩
    · exact ⟨.zero, by unfold Measure.heads; rw [hz]; exact .head _, h⟩
    · exact ⟨.unit s, List.mem_append_right _ (List.mem_map.mpr ⟨s, List.mem_filter.mpr ⟨hs, by simpa using hx⟩, rfl⟩), hk, hn⟩
  obtain ⟨cs', hl, hlen⟩ := hr.left
  cases hl.stream.det hcs
  obtain ⟨q, p', w, h1, h2, rfl⟩ := quantity_yields (rest := rest) hc (measure_exactly m hc ha) (p := p) ⟨rfl, hs, cs, hcs, hso, hlen⟩
  obtain ⟨cs2, g1, g2, _⟩ := h2.stream
  refine ⟨q, p', ?_, rfl, ⟨cs2, g1, g2⟩, ?_⟩
  · unfold Prog.run
    rw [show m.quantity.runLog p = .ok (_, p', w) from h1]
    rfl
  · obtain ⟨_, _, ⟨hu, _, hz⟩ | ⟨u, s, hu, hn, _, _, h⟩⟩ := C99_variant rfl h1 hc
    · exact ⟨fun _ => hz, by rw [hu]; nofun⟩
    · exact ⟨(by rw [hu]; nofun), by rw [hu]; intro v hv; cases hv; exact ⟨s, hn, h⟩⟩

/-! ## What does not hold -/

/-- What a parse gives, to look at. -/
def Measure.given (m : Measure) (s : List Char) : Option (Option DimensionUnit × BitVec 32 × Bool) :=
  match m.quantity.run (Parser.new s) with
  | .ok (.ok q, _) => some (q.unit, q.toF32, q.isZero)
  | _ => none

/-- `is_zero` is true of 5px (0x40a00000 is 5.0). -/
theorem C99_counterexample_zero : Measure.length.given c!"5px" = some (some .px, 0x40a00000#32, true) := by decide +kernel

/-- `1x` is not read as a resolution. -/
theorem C99_counterexample_x : Measure.resolution.given c!"1x" = none ∧ (Measure.resolution.given c!"1dppx").isSome = true := by
  constructor <;> decide +kernel

/-! ## Cases that meet the hypotheses -/

example : Measure.length.given c!"-0" = some (none, 0#32, true) := by decide +kernel
example : Measure.length.given c!"1svmax" = some (some .svmax, 0x3f800000#32, true) := by decide +kernel
example : Measure.lengthPercentage.given c!"-5%" = some (some .percent, 0xc0a00000#32, false) := by decide +kernel
example : Measure.time.given c!"2MS" = some (some .ms, 0x40000000#32, true) := by decide +kernel
example : Measure.frequency.given c!"2kHz" = some (some .khz, 0x40000000#32, true) := by decide +kernel
example : Measure.angle.given c!"0" = none := by decide +kernel

def sampleLength : List Char := c!"/**/12.5dvmin;"

/-- The hypotheses of `C99_accepts_partial`, and so of `C99_variant`, `C99_builds` and `C99_number`, are met. -/
example : let p := Parser.new sampleLength
    Ready p ∧ p.skip = KindSet.TRIVIA ∧ (∃ cs, Stream p.lexer cs ∧ solid cs = tokenIn sampleLength 0 :: [tokenIn sampleLength 1]) ∧ Clear sampleLength (tokenIn sampleLength 0) ∧
      c!"dvmin" ∈ unitsOf .length ∧ IsKind .dimension (tokenIn sampleLength 0) ∧ Named sampleLength (tokenIn sampleLength 0) c!"dvmin" := by
  have hplain : PlainNames sampleLength := plainNames_of (by unfold Upper; decide) (by decide)
  have hready : Ready (Parser.new sampleLength) := ready_new (tame_of_ascii (by decide) (by decide))
  have hstream : Stream (Parser.new sampleLength).lexer ((lexUpTo 60 (Parser.new sampleLength).lexer).getD []) := lexUpTo_stream 60 (by decide +kernel)
  have hclear := clearIn hplain hstream hready
  have hsolid : solid ((lexUpTo 60 (Parser.new sampleLength).lexer).getD []) = [tokenIn sampleLength 0, tokenIn sampleLength 1] := by decide +kernel
  rw [hsolid] at hclear
  exact ⟨hready, rfl, ⟨_, hstream, hsolid⟩, hclear _ (.head _), by decide +kernel, by decide +kernel, by decide +kernel⟩

end
end Hdx

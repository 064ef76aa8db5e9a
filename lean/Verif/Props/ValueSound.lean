/-
Property C79: what the parsers of value definitions take matches the definition.
-/
import Verif.Lemmas.Reads
import Verif.Props.Float

namespace Hdx
open Spec Prog

variable {src : List Char} {M : Meaning} {env : List Char → Leaf} {good : List Char → Bool}

/-! ### Numbers -/

theorem zero_units {w : BitVec 32} (h : f32IsZero w = true) : f32Units (w.toNat % 2 ^ 31) = 0 := by
  simp only [f32IsZero, Bool.or_eq_true, beq_iff_eq] at h
  rcases h with rfl | rfl <;> decide

theorem units_ofRat {n : Nat} (h : n ≤ 2 ^ 24) : f32Units (F32.ofRat n 1) = n * 2 ^ 149 := by
  obtain ⟨b, hb, hu, _⟩ := integer_exact h
  rw [C66_exact (by decide) (F32.ofRat_nearest (by decide)) hb (by rw [hu]; omega)]
  exact hu

theorem units_mono {a b : Nat} (h : a ≤ b) : f32Units a ≤ f32Units b := by
  rcases Nat.lt_or_eq_of_le h with h | rfl
  · exact Nat.le_of_lt (f32Units_strict h)
  · exact Nat.le_refl _

theorem atLeast {n : Nat} {w : BitVec 32} (hn : n ≤ 2 ^ 24) (h : ¬ f32Below n w = true) : AtLeast n w := by
  unfold f32Below at h
  split at h
  · next hm =>
    simp only [Bool.or_eq_true, bne_iff_ne, ne_eq, not_or, Decidable.not_not] at h
    obtain ⟨rfl, rfl⟩ := h
    exact .inr ⟨rfl, by decide⟩
  · next hm =>
    refine .inl ⟨?_, ?_⟩
    · rw [Bool.not_eq_true, BitVec.msb_eq_false_iff_two_mul_lt] at hm
      omega
    · rw [← units_ofRat hn]
      refine units_mono ?_
      simpa using h
theorem atMost {n : Nat} {w : BitVec 32} (hn : n ≤ 2 ^ 24) (h : ¬ f32Above n w = true) : AtMost n w := by
  unfold f32Above at h
  cases hm : w.msb with
  | true =>
    rw [BitVec.msb_eq_true_iff_two_mul_ge] at hm
    exact .inl (by omega)
  | false =>
    refine .inr ?_
    rw [← units_ofRat hn]
    refine units_mono ?_
    simpa [hm] using h

/-! ### Tests -/

theorem isDimensionOf_says {u : DimensionUnit} (c : Cursor) : Says src (isDimensionOf u c) fun b => b = true →
    IsKind .dimension c ∧ (c.token.dimensionUnit = u ∨ c.eqIgnoreAsciiCase src u.macroName = .ok true) := by
  unfold isDimensionOf
  refine Says.ite (fun hk => Says.ite (fun h => .pure fun _ => ⟨hk, .inl (by simpa using h)⟩) fun _ => ?_) fun _ => .pure (by simp)
  exact Says.ask fun p a hp ha hb => ⟨hk, .inr (by rw [hp] at ha; rw [ha, hb])⟩

theorem isAnyDimension_says {us : List DimensionUnit} (c : Cursor) : Says src (isAnyDimension us c) fun b => b = true →
    ∃ u ∈ us, IsKind .dimension c ∧ (c.token.dimensionUnit = u ∨ c.eqIgnoreAsciiCase src u.macroName = .ok true) := by
  induction us with
  | nil => exact .pure (by simp)
  | cons u us ih =>
    unfold isAnyDimension
    refine Says.bind (isDimensionOf_says c) fun b hb => Says.ite (fun h => .pure fun _ => ⟨u, by simp, hb h⟩) fun _ => ih.mono fun b h hb => ?_
    obtain ⟨v, hv, h⟩ := h hb
    exact ⟨v, by simp [hv], h⟩

theorem unit_names : ∀ u ∈ LENGTH_UNITS, u.macroName ∈ lengthUnits ∧ ∃ n ∈ lengthUnits, unitName u = some n := by
  have : ∀ u ∈ LENGTH_UNITS, u.macroName ∈ lengthUnits ∧ (unitName u).any (lengthUnits.contains ·) = true := by decide
  intro u hu
  obtain ⟨h1, h2⟩ := this u hu
  refine ⟨h1, ?_⟩
  cases hn : unitName u with
  | none => rw [hn] at h2; cases h2
  | some n => exact ⟨n, by simpa [hn] using h2, rfl⟩

theorem lengthUnits_says (c : Cursor) : Says src (isAnyDimension LENGTH_UNITS c) fun b => b = true → ∃ u ∈ lengthUnits, HasUnit src u c :=
  (isAnyDimension_says c).mono fun b h hb => by
    obtain ⟨u, hu, hk, h⟩ := h hb
    obtain ⟨h1, n, hn, h2⟩ := unit_names u hu
    rcases h with rfl | h
    · exact ⟨n, hn, hk, .inr h2⟩
    · exact ⟨_, h1, hk, .inl (.inr h)⟩

theorem isLength_says (c : Cursor) : Says src (isLength c) fun b => b = true → Spec.IsLength src c := by
  unfold isLength
  refine Says.ite (fun h => .pure fun _ => .inl ?_) fun _ => (lengthUnits_says c).mono fun b h hb => .inr (h hb)
  rw [Bool.and_eq_true] at h
  exact ⟨h.1, zero_units h.2⟩

theorem isPercent_says (c : Cursor) : Says src (isDimensionOf .percent c) fun b => b = true → IsPercentage src c :=
  (isDimensionOf_says c).mono fun b h hb => by
    obtain ⟨hk, h | h⟩ := h hb
    · exact ⟨hk, .inr (by rw [h]; rfl)⟩
    · exact ⟨hk, .inl (.inr h)⟩

theorem isLengthPercentage_says (c : Cursor) : Says src (isLengthPercentage c) fun b => b = true → Spec.IsLength src c ∨ IsPercentage src c := by
  unfold isLengthPercentage
  refine Says.ite (fun h => .pure fun _ => .inl (.inl ?_)) fun _ => Says.bind (isPercent_says c) fun b hb => Says.ite (fun h => .pure fun _ => .inr (hb h)) fun _ =>
    (lengthUnits_says c).mono fun b h hb => .inl (.inr (h hb))
  rw [Bool.and_eq_true] at h
  exact ⟨h.1, zero_units h.2⟩

theorem isUnitOf_says {names : List (List Char)} (c : Cursor) : Says src (isUnitOf names c) fun b => b = true → ∃ u ∈ names, HasUnit src u c := by
  unfold isUnitOf
  refine Says.ite (fun hk => Says.bind .strLower fun s hs => .pure fun h => ⟨s, by simpa using h, hk, .inl (.inl hs)⟩) fun _ => .pure (by simp)

/-! ### Types -/

/-- The named types: they look, they keep their tokens, and the tokens of good ones are what the name stands for. -/
structure Env (src : List Char) (good : List Char → Bool) (M : Meaning) (env : List Char → Leaf) : Prop where
  ok : ∀ n, (env n).Ok
  reads : ∀ n, good n = true → Reads src (env n).parser fun _ w => M n w

theorem isTime_says (c : Cursor) : Says src (isTime c) fun b => b = true → IsTime src c ∨ IsZero c := by
  unfold isTime
  refine Says.ite (fun h => .pure fun _ => .inr ?_) fun _ => (isUnitOf_says c).mono fun b h hb => .inl ?_
  · rw [Bool.and_eq_true] at h
    exact ⟨h.1, zero_units h.2⟩
  · obtain ⟨u, hu, h⟩ := h hb
    exact ⟨u, by revert hu; simp, h⟩

theorem single_reads {test : Cursor → Prog Bool} (hi : Inspects test) {T : Cursor → Prop} (ht : ∀ c, Says src (test c) fun b => b = true → T c) :
    Reads src (Leaf.single test).parser fun v w => ∃ c, v = .tok c ∧ w = [c] ∧ T c :=
  Reads.next (.tok hi ht) fun c hc => .pure ⟨c, rfl, rfl, hc⟩

/-- The type without its range. -/
def bare : DefType → DefType
  | .length _ => .length .none
  | .lengthPercentage _ => .lengthPercentage .none
  | .angle _ => .angle .none
  | .time _ => .time .none
  | .resolution _ => .resolution .none
  | .integer _ => .integer .none
  | .number _ => .number .none
  | .percentage _ => .percentage .none
  | t => t

/-- What is read of a type without its range. -/
theorem leaf_reads (he : Env src good M env) (t : DefType) (hf : faithfulType good t = true) :
    Reads src (t.leaf env).parser fun v w => MatchesType src M (bare t) w ∧ (t.checks ≠ .none → ∃ c, v = .tok c ∧ w = [c]) := by
  have one : ∀ {test : Cursor → Prog Bool} {T : Cursor → Prop}, Inspects test → (∀ c, Says src (test c) fun b => b = true → T c) →
      (∀ c, T c → MatchesType src M (bare t) [c]) → Reads src (Leaf.single test).parser fun v w =>
        MatchesType src M (bare t) w ∧ (t.checks ≠ .none → ∃ c, v = .tok c ∧ w = [c]) :=
    fun hi ht h => (single_reads hi ht).mono fun v w ⟨c, e1, e2, hc⟩ => ⟨by rw [e2]; exact h c hc, fun _ => ⟨c, e1, e2⟩⟩
  have other : ∀ n, good n = true → (∀ w, M n w → MatchesType src M (bare t) w) → t.checks = .none → Reads src (env n).parser fun v w =>
        MatchesType src M (bare t) w ∧ (t.checks ≠ .none → ∃ c, v = .tok c ∧ w = [c]) :=
    fun n hg h hn => (he.reads n hg).mono fun v w hw => ⟨h w hw, fun h => absurd hn h⟩
  cases t
  case length r => exact one isLength_inspects isLength_says fun c h => ⟨c, rfl, h, trivial⟩
  case lengthPercentage r => exact one .lengthPercentage isLengthPercentage_says fun c h => ⟨c, rfl, h, trivial⟩
  case angle r => exact one .unit isUnitOf_says fun c ⟨u, hu, h⟩ => ⟨c, rfl, ⟨u, by revert hu; simp; grind, h⟩, trivial⟩
  case time r => exact one .time isTime_says fun c h => ⟨c, rfl, h, trivial⟩
  case resolution r => exact one .unit isUnitOf_says fun c ⟨u, hu, h⟩ => ⟨c, rfl, ⟨u, by revert hu; simp; grind, h⟩, trivial⟩
  case integer r => exact one isCssInt_inspects (fun c => .pure id) fun c h => ⟨c, rfl, by simpa [IsInteger, IsKind] using h, trivial⟩
  case number r => exact one isCssFloat_inspects (fun c => .pure id) fun c h => ⟨c, rfl, by rw [Bool.and_eq_true] at h; exact h.1, trivial⟩
  case percentage r => cases hf
  case color => exact other _ hf (fun w h => h) rfl
  case string => cases hf
  case image => exact other _ hf (fun w h => h) rfl
  case image1D => exact other _ hf (fun w h => h) rfl
  case dashedIdent => exact one .dashed (fun c => .pure id) fun c h => ⟨c, rfl, by simpa [IsDashedIdent, IsKind, isDashed] using h⟩
  case customIdent => exact one .kind (fun c => .pure id) fun c h => ⟨c, rfl, h⟩
  case custom n => exact other _ hf (fun w h => h) rfl

theorem bare_inRange {t : DefType} {c : Cursor} (h : MatchesType src M (bare t) [c]) (hr : InRange t.checks c) : MatchesType src M t [c] := by
  cases t
  case color => exact h
  case string => exact h
  case image => exact h
  case image1D => exact h
  case dashedIdent => exact h
  case customIdent => exact h
  case custom => exact h
  all_goals
    obtain ⟨d, e, h, _⟩ := h
    cases e
    exact ⟨_, rfl, h, hr⟩

theorem bare_none {t : DefType} (h : t.checks = .none) : bare t = t := by
  cases t <;> simp_all [bare, DefType.checks]

theorem type_reads (he : Env src good M env) (t : DefType) (hf : faithfulType good t = true) :
    Reads src (t.steps env) fun _ w => MatchesType src M t w := by
  have hr : ∀ n, t.checks = .from n ∨ t.checks = .to n → n ≤ 2 ^ 24 := by
    intro n h
    cases t <;> simp_all [faithfulType, DefType.checks] <;> rcases h with rfl | rfl <;> simpa using hf
  have hx : ∀ n, t.checks ≠ .fixed n := by
    intro n h
    cases t <;> simp_all [faithfulType, DefType.checks]
  unfold DefType.steps
  refine Reads.look .offset fun _ _ => Reads.bind (leaf_reads he t hf) fun v w ⟨hm, hv⟩ => ?_
  split
  · next n hc =>
    refine Reads.ite (fun _ => Reads.look .offset fun _ _ => .error) fun hn => .pure ?_
    obtain ⟨c, rfl, rfl⟩ := hv (by rw [hc]; nofun)
    exact bare_inRange hm (by rw [hc]; exact atMost (hr n (.inr hc)) hn)
  · next n hc =>
    refine Reads.ite (fun _ => Reads.look .offset fun _ _ => .error) fun hn => .pure ?_
    obtain ⟨c, rfl, rfl⟩ := hv (by rw [hc]; nofun)
    exact bare_inRange hm (by rw [hc]; exact atLeast (hr n (.inl hc)) hn)
  · exact .panic
  · next hc => exact .pure (by rw [List.append_nil]; rw [bare_none hc] at hm; exact hm)
  · next n hc => exact absurd hc (hx n)

/-! ### Definitions -/

theorem Spec.MatchesSeq.snoc_type {ts : List DefType} {w : List Cursor} (h : MatchesSeq src M (ts.map .type) w) {us : List DefType} {v : List Cursor}
    (h' : MatchesSeq src M (us.map .type) v) : MatchesSeq src M ((ts ++ us).map .type) (w ++ v) := by
  induction ts generalizing w with
  | nil => cases h; exact h'
  | cons t ts ih =>
    cases h with
    | cons h1 h2 => rw [List.append_assoc]; exact .cons h1 (ih h2)

/-- The types that have no value yet. -/
def missing : List DefType → List (Option Val) → List DefType
  | t :: ts, none :: vs => t :: missing ts vs
  | _ :: ts, some _ :: vs => missing ts vs
  | _, _ => []

theorem optionsRound_reads (he : Env src good M env) : ∀ (ts : List DefType), (∀ t ∈ ts, faithfulType good t = true ∧ t.checks = .none) →
    ∀ vs, Reads src (optionsRound (ts.map (DefType.leaf env)) vs) fun r w => (r = none ∧ w = []) ∨
      ∃ ws t, r = some ws ∧ MatchesType src M t w ∧ (t :: missing ts ws).Perm (missing ts vs)
  | [], _, vs => by unfold optionsRound; exact .pure (.inl ⟨rfl, rfl⟩)
  | t :: ts, h, [] => by unfold optionsRound; exact .pure (.inl ⟨rfl, rfl⟩)
  | t :: ts, h, some v :: vs => by
    simp only [List.map_cons]
    unfold optionsRound
    refine Reads.bind (optionsRound_reads he ts (fun u hu => h u (by simp [hu])) vs) fun r w hr => ?_
    rcases hr with ⟨rfl, rfl⟩ | ⟨ws, u, rfl, hr, hp⟩
    · exact .pure (.inl ⟨rfl, rfl⟩)
    · exact .pure (.inr ⟨_, u, rfl, by simpa using hr, hp⟩)
  | t :: ts, h, none :: vs => by
    obtain ⟨hf, hn⟩ := h t (by simp)
    have hl := t.leaf_ok he.ok
    simp only [List.map_cons]
    unfold optionsRound
    refine Reads.look .peek fun c _ => Reads.look (Reads.test hl.test (T := fun _ => True) fun _ _ _ _ _ _ _ => trivial) fun b _ => Reads.ite (fun _ => ?_) fun _ => ?_
    · exact Reads.bind (leaf_reads he t hf) fun v w hw => .pure (.inr ⟨_, t, rfl, by simpa [bare_none hn] using hw.1, .refl _⟩)
    · refine Reads.bind (optionsRound_reads he ts (fun u hu => h u (by simp [hu])) vs) fun r w hr => ?_
      rcases hr with ⟨rfl, rfl⟩ | ⟨ws, u, rfl, hr, hp⟩
      · exact .pure (.inl ⟨rfl, rfl⟩)
      · exact .pure (.inr ⟨_, u, rfl, by simpa using hr, (List.Perm.swap ..).trans (.cons _ hp)⟩)

theorem optionsLoop_reads (he : Env src good M env) {ts : List DefType} (h : ∀ t ∈ ts, faithfulType good t = true ∧ t.checks = .none) : ∀ n vs,
    Reads src (optionsLoop (ts.map (DefType.leaf env)) n vs) fun ws w => ∃ es : List DefType, MatchesSeq src M (es.map .type) w
      ∧ (es ++ missing ts ws).Perm (missing ts vs) ∧ (es = [] → ws = vs) ∧ ¬ (ws.all fun v => v.isNone) = true := by
  intro n
  induction n with
  | zero => intro vs; exact .panic
  | succ n ih =>
    intro vs
    unfold optionsLoop
    refine Reads.bind (optionsRound_reads he ts h vs) fun r w hr => ?_
    rcases hr with ⟨rfl, rfl⟩ | ⟨ws, t, rfl, hr, hp⟩
    · exact Reads.ite (fun _ => Reads.next .any fun c _ => .fail) fun hn => .pure ⟨[], .nil, .refl _, fun _ => rfl, hn⟩
    · refine (ih ws).mono fun us u ⟨es, hu, hp', _, hn⟩ => ⟨t :: es, .cons (.type hr) hu, ?_, nofun, hn⟩
      exact ((hp'.cons t).trans hp)

theorem types_map : ∀ {ds : List Def} {ts : List DefType}, Def.types ds = some ts → ds = ts.map .type
  | [], _, h => by simp [Def.types] at h; subst h; rfl
  | d :: ds, ts, h => by
    cases d <;> simp [Def.types] at h
    obtain ⟨us, h1, rfl⟩ := h
    rw [types_map h1]
    rfl

theorem faithfulAll_mem : ∀ {ts : List DefType}, FaithfulAll good (ts.map .type) = true → ∀ t ∈ ts, faithfulType good t = true
  | [], _, _, h => by simp at h
  | u :: ts, hf, t, h => by
    simp only [List.map_cons, FaithfulAll, Faithful, Bool.and_eq_true] at hf
    rcases List.mem_cons.mp h with rfl | h
    · exact hf.1
    · exact faithfulAll_mem hf.2 t h

theorem missing_none : ∀ ts : List DefType, missing ts (ts.map fun _ => none) = ts
  | [] => rfl
  | t :: ts => by simp [missing, missing_none ts]

theorem options_reads (he : Env src good M env) {ds : List Def} (hf : Faithful good (.comb ds .options) = true) :
    Reads src (options env ds) fun _ w => Matches src M (.comb ds .options) w := by
  unfold options
  split
  · next ts ht =>
    have hd := types_map ht
    subst hd
    have hts : ∀ t ∈ ts, faithfulType good t = true ∧ t.checks = .none := by
      simp only [Faithful, Bool.and_eq_true, List.all_map, List.all_eq_true] at hf
      exact fun t h => ⟨faithfulAll_mem hf.1 t h, by simpa [faithfulPart] using hf.2 t h⟩
    refine Reads.bind (optionsLoop_reads he hts _ _) fun ws w ⟨es, hw, hp, hs, hn⟩ => .pure ?_
    rw [List.append_nil]
    rw [missing_none] at hp
    refine .some (es := es.map .type) (rest := (missing ts ws).map .type) ?_ (by rw [← List.map_append]; exact hp.map _) hw
    intro h
    rw [hs (by simpa using h)] at hn
    exact hn (by simp)
  · exact .panic

theorem commaLoop_reads {item : Prog Val} {d : Def} (hi : Reads src item fun _ w => Matches src M d w) : ∀ n vs,
    Reads src (commaLoop item n vs) fun _ w => ∃ k, MatchesCommas src M d k w := by
  intro n
  induction n with
  | zero => intro vs; exact .panic
  | succ n ih =>
    intro vs
    unfold commaLoop
    refine Reads.bind hi fun v w hw => Reads.bind .optKind fun o u ⟨hu, ho⟩ => ?_
    subst hu
    cases o with
    | none => exact Reads.ite (fun _ => .pure ⟨1, by simpa using .one hw⟩) fun h => absurd rfl h
    | some c =>
      refine Reads.ite (fun h => by cases h) fun _ => (ih _).mono ?_
      rintro a s ⟨k, h⟩
      exact ⟨k + 1, by simpa using .more hw (ho c rfl) h⟩

theorem manyLoop_reads {test : Cursor → Prog Bool} {item : Prog Val} {d : Def} (ht : Inspects test) (hi : Reads src item fun _ w => Matches src M d w) : ∀ n vs,
    Reads src (manyLoop test item n vs) fun _ w => ∃ k, MatchesTimes src M d k w := by
  intro n
  induction n with
  | zero => intro vs; exact .panic
  | succ n ih =>
    intro vs
    unfold manyLoop
    refine Reads.look .peekN fun c _ => Reads.look (Reads.test ht (T := fun _ => True) fun _ _ _ _ _ _ _ => trivial) fun b _ => Reads.ite (fun _ => ?_) fun _ =>
      .pure ⟨0, .none⟩
    refine Reads.bind hi fun v w hw => (ih _).mono ?_
    rintro a s ⟨k, h⟩
    exact ⟨k + 1, .more hw h⟩

theorem times_reads {item : Prog Val} {d : Def} (hi : Reads src item fun _ w => Matches src M d w) : ∀ n,
    Reads src (sequence (List.replicate n item)) fun _ w => MatchesTimes src M d n w
  | 0 => .pure .none
  | n + 1 => by
    rw [List.replicate_succ]
    unfold sequence
    exact Reads.bind hi fun v w hw => Reads.bind (times_reads hi n) fun vs u hu => .pure (by simpa using .more hw hu)

theorem lowerName_eq {name : List Char} (h : lowerName name = true) : kebab name = name.map asciiLower := by simpa [lowerName] using h

theorem steps_reads (he : Env src good M env) : ∀ d : Def, Faithful good d = true → Reads src (d.steps env) fun _ w => Matches src M d w
  | .type t, hf => by
    rw [Def.steps]
    exact (type_reads he t (by simpa [Faithful] using hf)).mono fun v w h => .type h
  | .function name d, hf => by
    simp only [Faithful, Bool.and_eq_true] at hf
    have ih := steps_reads he d hf.2
    rw [Def.steps]
    refine Reads.next .kind fun f hk => Reads.look .eqCase fun b hb => Reads.ite (fun _ => ?_) fun hn => ?_
    · exact Reads.look .str fun _ _ => .fail
    · refine Reads.bind ih fun v w hw => Reads.bind .optKind fun o u ⟨hu, ho⟩ => .pure ?_
      subst hu
      have : b = true := by simpa using hn
      subst this
      simpa using .function hk (.inr (lowerName_eq hf.1 ▸ hb)) hw ho
  | .optional (.type t), hf => by
    simp only [Faithful, faithfulPart, Bool.and_eq_true, beq_iff_eq] at hf
    have hl := t.leaf_ok he.ok
    rw [Def.steps]
    refine Reads.bind (Reads.ifPeek hl.test (leaf_reads he t hf.1)) fun o w h => .pure ?_
    rw [List.append_nil]
    rcases h with ⟨rfl, rfl⟩ | ⟨v, rfl, h, _⟩
    · exact .absent
    · exact .present (.type (bare_none hf.2 ▸ h))
  | .comb ds .options, hf => by rw [Def.steps]; exact options_reads he hf
  | .group d .none, hf => by
    rw [Def.steps]
    exact (steps_reads he d (by simpa [Faithful] using hf)).mono fun v w h => .group h
  | .mult d (.commas .none), hf => by
    have ih := steps_reads he d (by simpa [Faithful] using hf)
    rw [Def.steps]
    exact Reads.read fun p => Reads.bind (commaLoop_reads ih _ _) fun vs w ⟨k, h⟩ => .pure (by simpa using .commas h trivial)
  | .mult d (.range .none), hf => by
    have ih := steps_reads he d (by simpa [Faithful] using hf)
    rw [Def.steps]
    exact Reads.read fun p => Reads.bind (manyLoop_reads (d.test_inspects he.ok) ih _ _) fun vs w ⟨k, h⟩ =>
      .pure (by simpa using .times h trivial)
  | .mult (.type t) (.range (.fixed n)), hf => by
    rw [Def.steps]
    exact Reads.bind (times_reads ((type_reads he t (by simpa [Faithful] using hf)).mono fun v w h => .type h) n) fun vs w h =>
      .pure (by simpa using .times h rfl)
  | .ident _, _ | .punct _, _ | .optional (.ident _), _ | .optional (.function _ _), _ | .optional (.optional _), _ | .optional (.comb _ _), _
  | .optional (.group _ _), _ | .optional (.mult _ _), _ | .optional (.punct _), _ | .comb _ .ordered, _ | .comb _ .allMustOccur, _ | .comb _ .alternatives, _
  | .group _ .oneMustOccur, _ | .group _ .oneOrMore, _ | .group _ (.range _), _ | .mult _ .zeroOrMore, _ | .mult _ .oneOrMore, _
  | .mult _ (.commas (.range _ _)), _ | .mult _ (.commas (.from _)), _ | .mult _ (.commas (.to _)), _ | .mult _ (.commas (.fixed _)), _
  | .mult _ (.range (.range _ _)), _ | .mult _ (.range (.from _)), _ | .mult _ (.range (.to _)), _
  | .mult (.ident _) (.range (.fixed _)), _ | .mult (.function _ _) (.range (.fixed _)), _ | .mult (.optional _) (.range (.fixed _)), _
  | .mult (.comb _ _) (.range (.fixed _)), _ | .mult (.group _ _) (.range (.fixed _)), _ | .mult (.mult _ _) (.range (.fixed _)), _
  | .mult (.punct _) (.range (.fixed _)), _ => by rw [Def.steps] <;> first | exact .panic | nofun

/-- The value of an alternative says which one it is. -/
def OneOf (src : List Char) (M : Meaning) (ds : List Def) (v : Val) (w : List Cursor) : Prop :=
  ∃ i d u, v = .variant i u ∧ ds[i]? = some d ∧ Matches src M d w

theorem others_get : ∀ (ds : List Def) (k : Nat) (x : Nat × Def), x ∈ Def.others k ds → k ≤ x.1 ∧ ds[x.1 - k]? = some x.2
  | [], _, _, h => by simp [Def.others] at h
  | d :: ds, k, x, h => by
    unfold Def.others at h
    split at h
    · obtain ⟨h1, h2⟩ := others_get ds (k + 1) x h
      refine ⟨by omega, ?_⟩
      rw [show x.1 - k = (x.1 - (k + 1)) + 1 by omega]
      simpa using h2
    · rcases List.mem_cons.mp h with rfl | h
      · simp
      · obtain ⟨h1, h2⟩ := others_get ds (k + 1) x h
        refine ⟨by omega, ?_⟩
        rw [show x.1 - k = (x.1 - (k + 1)) + 1 by omega]
        simpa using h2

theorem faithfulAll_get : ∀ {ds : List Def} {i : Nat} {d : Def}, FaithfulAll good ds = true → ds[i]? = some d → Faithful good d = true
  | [], _, _, _, h => by simp at h
  | e :: ds, i, d, hf, h => by
    simp only [FaithfulAll, Bool.and_eq_true] at hf
    cases i with
    | zero => simp at h; subst h; exact hf.1
    | succ i => exact faithfulAll_get hf.2 (by simpa using h)

theorem tryOthers_reads (he : Env src good M env) {ds : List Def} (hf : FaithfulAll good ds = true) : ∀ xs : List (Nat × Def),
    (∀ x ∈ xs, ds[x.1]? = some x.2) → Reads src (tryOthers env xs) (OneOf src M ds)
  | [], _ => Reads.next .any fun c _ => .fail
  | (i, d) :: xs, h => by
    have hd := h (i, d) (by simp)
    unfold tryOthers
    refine Reads.look .peekN fun c _ => Reads.look (Reads.test (d.test_inspects he.ok) (T := fun _ => True) fun _ _ _ _ _ _ _ => trivial) fun b _ =>
      Reads.ite (fun _ => ?_) fun _ => tryOthers_reads he hf xs fun x hx => h x (by simp [hx])
    exact Reads.bind (steps_reads he d (faithfulAll_get hf hd)) fun v w hw => .pure ⟨i, d, v, rfl, hd, by simpa using hw⟩

theorem otherAlternatives_reads (he : Env src good M env) {ds : List Def} (hf : FaithfulAll good ds = true) (xs : List (Nat × Def))
    (h : ∀ x ∈ xs, ds[x.1]? = some x.2) : Reads src (otherAlternatives env xs) (OneOf src M ds) := by
  unfold otherAlternatives
  split
  · next i d =>
    have hd := h (i, d) (by simp)
    exact Reads.bind (steps_reads he d (faithfulAll_get hf hd)) fun v w hw => .pure ⟨i, d, v, rfl, hd, by simpa using hw⟩
  · exact tryOthers_reads he hf _ h

theorem keywordIndex_get : ∀ {ds : List Def} {k : List Char}, k ∈ Def.keywords ds → ∃ n, ds[Def.keywordIndex k ds]? = some (.ident n) ∧ kebab n = k
  | [], _, h => by simp [Def.keywords] at h
  | d :: ds, k, h => by
    cases d
    case ident n =>
      unfold Def.keywordIndex
      unfold Def.keywords at h
      split
      · next e => exact ⟨n, rfl, by simpa using e⟩
      · next e =>
        obtain ⟨m, h1, h2⟩ := keywordIndex_get (ds := ds) (k := k) (by
          rcases List.mem_cons.mp h with rfl | h
          · simp at e
          · exact h)
        exact ⟨m, by simpa using h1, h2⟩
    all_goals
      simp only [Def.keywordIndex]
      simp only [Def.keywords] at h
      obtain ⟨m, h1, h2⟩ := keywordIndex_get h
      exact ⟨m, by simpa using h1, h2⟩

theorem customIndex_get : ∀ {ds : List Def} {i : Nat}, Def.customIndex ds = some i → ds[i]? = some (.type .customIdent)
  | [], _, h => by simp [Def.customIndex] at h
  | d :: ds, i, h => by
    unfold Def.customIndex at h
    split at h
    · cases h
    · next e => cases e; cases h; rfl
    · next e =>
      cases e
      obtain ⟨j, hj, rfl⟩ := Option.map_eq_some_iff.mp h
      simpa using customIndex_get hj

theorem alternatives_reads (he : Env src good M env) {ds : List Def} (hf : FaithfulAll good ds = true) :
    Reads src (alternatives env ds) (OneOf src M ds) := by
  have hothers : Reads src (otherAlternatives env (Def.others 0 ds)) (OneOf src M ds) :=
    otherAlternatives_reads he hf _ fun x hx => by simpa using (others_get ds 0 x hx).2
  unfold alternatives
  refine Reads.ite (fun _ => Reads.ite (fun _ => .panic) fun _ => ?_) fun _ => hothers
  refine Reads.bind (Reads.ifPeek .keyword .keyword) fun o w h => ?_
  rcases h with ⟨rfl, rfl⟩ | ⟨⟨k, c⟩, rfl, rfl, hk, hn, hm⟩
  · simp only [List.nil_append]
    split
    · next i hi =>
      exact Reads.next .kind fun c hc => .pure ⟨i, _, _, rfl, customIndex_get hi, .type ⟨c, rfl, hc⟩⟩
    · exact Reads.ite (fun _ => Reads.next .any fun c _ => Reads.look .str fun _ _ => .fail) fun _ => hothers
  · obtain ⟨n, h1, h2⟩ := keywordIndex_get hm
    have hl := faithfulAll_get hf h1
    refine .pure ⟨_, _, _, rfl, h1, ?_⟩
    have : k = n.map asciiLower := h2.symm.trans (lowerName_eq (by simpa [Faithful] using hl))
    exact .ident ⟨hk, .inl (this ▸ hn)⟩

theorem OneOf.matches {ds : List Def} {v : Val} {w : List Cursor} (h : OneOf src M ds v w) : Matches src M (.comb ds .alternatives) w := by
  obtain ⟨i, d, u, _, h1, h2⟩ := h
  exact .one (List.mem_of_getElem? h1) h2

theorem faithfulAll_replicate {d : Def} (h : Faithful good d = true) : ∀ n, FaithfulAll good (List.replicate n d) = true
  | 0 => rfl
  | n + 1 => by rw [List.replicate_succ, FaithfulAll, h, faithfulAll_replicate h n]; rfl

theorem sequence_reads (he : Env src good M env) : ∀ ds : List Def, FaithfulAll good ds = true →
    Reads src (sequence (ds.map (Def.steps env))) fun _ w => MatchesSeq src M ds w
  | [], _ => .pure .nil
  | d :: ds, hf => by
    simp only [FaithfulAll, Bool.and_eq_true] at hf
    simp only [List.map_cons]
    unfold sequence
    exact Reads.bind (steps_reads he d hf.1) fun v w hw => Reads.bind (sequence_reads he ds hf.2) fun vs u hu => .pure (by simpa using .cons hw hu)

theorem ordered_reads (he : Env src good M env) {ds : List Def} (hf : FaithfulAll good ds = true) :
    Reads src (ordered env ds) fun _ w => MatchesSeq src M ds w := by
  unfold ordered
  exact Reads.bind (sequence_reads he ds hf) fun vs w hw => .pure (by simpa using hw)

theorem faithfulAll_of : ∀ {ds : List Def}, (∀ d ∈ ds, Faithful good d = true) → FaithfulAll good ds = true
  | [], _ => rfl
  | d :: ds, h => by rw [FaithfulAll, h d (by simp), faithfulAll_of fun e he => h e (by simp [he])]; rfl

theorem Spec.MatchesSeq.times {d : Def} : ∀ {n : Nat} {w : List Cursor}, MatchesSeq src M (List.replicate n d) w → MatchesTimes src M d n w
  | 0, _, h => by cases h; exact .none
  | n + 1, _, h => by
    rw [List.replicate_succ] at h
    cases h with
    | cons h1 h2 => exact .more h1 h2.times

theorem Spec.MatchesSeq.optionals {d : Def} : ∀ {n : Nat} {w : List Cursor}, MatchesSeq src M (List.replicate n (.optional d)) w → ∃ k, k ≤ n ∧ MatchesTimes src M d k w
  | 0, _, h => by cases h; exact ⟨0, by omega, .none⟩
  | n + 1, _, h => by
    rw [List.replicate_succ] at h
    cases h with
    | cons h1 h2 =>
      obtain ⟨k, hk, h⟩ := h2.optionals
      cases h1 with
      | absent => exact ⟨k, by omega, by simpa using h⟩
      | present h1 => exact ⟨k + 1, by omega, .more h1 h⟩

theorem Spec.MatchesSeq.split : ∀ {ds es : List Def} {w : List Cursor}, MatchesSeq src M (ds ++ es) w → ∃ u v, w = u ++ v ∧ MatchesSeq src M ds u ∧ MatchesSeq src M es v
  | [], _, w, h => ⟨[], w, rfl, .nil, h⟩
  | _ :: ds, es, _, h => by
    cases h with
    | cons h1 h2 =>
      obtain ⟨u, v, rfl, h3, h4⟩ := h2.split
      exact ⟨_, v, (List.append_assoc ..).symm, .cons h1 h3, h4⟩

theorem Spec.MatchesTimes.append {d : Def} {n m : Nat} {w v : List Cursor} (h' : MatchesTimes src M d m v) : MatchesTimes src M d n w → MatchesTimes src M d (n + m) (w ++ v) := by
  induction n generalizing w with
  | zero => intro h; cases h; simpa using h'
  | succ n ih =>
    intro h
    cases h with
    | more h1 h2 =>
      rw [List.append_assoc, show n + 1 + m = (n + m) + 1 by omega]
      exact .more h1 (ih h2)

theorem repeated_eq (d : Def) (a b : Nat) (h : a ≤ b) : d.repeated a b = List.replicate a d ++ List.replicate (b - a) (.optional d) := by
  apply List.ext_getElem
  · simp [Def.repeated]; omega
  · intro i h1 h2
    simp only [Def.repeated, List.getElem_map, List.getElem_range, List.getElem_append, List.length_replicate, List.getElem_replicate]
    by_cases hi : i < a
    · rw [if_pos (by omega), dif_pos hi]
    · rw [if_neg (by omega), dif_neg hi]

theorem repeated_low (d : Def) (a b : Nat) (h : b ≤ a) : d.repeated a b = List.replicate b d := by
  apply List.ext_getElem
  · simp [Def.repeated]
  · intro i h1 h2
    simp only [Def.repeated, List.length_map, List.length_range] at h1
    simp only [Def.repeated, List.getElem_map, List.getElem_range, List.getElem_replicate]
    rw [if_pos (by omega)]

/-- What the parser of a definition takes matches the definition. -/
theorem parser_reads (he : Env src good M env) (d : Def) (hf : Faithful good d = true) :
    Reads src (d.parser env) fun _ w => Matches src M d w := by
  unfold Def.parser
  split
  · next t =>
    exact Reads.bind (type_reads he t (by simpa [Faithful] using hf)) fun v w h => .pure (by rw [List.append_nil]; exact .type h)
  · next ds => exact (alternatives_reads he (by simpa [Faithful] using hf)).mono fun v w h => h.matches
  · exact options_reads he hf
  · next ds => exact (ordered_reads he (by simpa [Faithful] using hf)).mono fun v w h => .ordered h
  · next e a b =>
    simp only [Faithful, Bool.and_eq_true, Bool.or_eq_true, decide_eq_true_eq, beq_iff_eq] at hf
    obtain ⟨⟨hd, hab⟩, hp⟩ := hf
    by_cases hba : a = b
    · subst hba
      rw [repeated_low e a a (Nat.le_refl _)]
      exact (ordered_reads he (faithfulAll_replicate hd _)).mono fun v w h => .times h.times ⟨Nat.le_refl _, Nat.le_refl _⟩
    · rw [repeated_eq e a b hab]
      replace hp : faithfulPart e = true := hp.resolve_right hba
      refine (ordered_reads he (faithfulAll_of fun d hm => ?_)).mono fun v w h => ?_
      · rcases List.mem_append.mp hm with hm | hm
        · rw [(List.mem_replicate.mp hm).2]; exact hd
        · rw [(List.mem_replicate.mp hm).2, Faithful, hd, hp]; rfl
      · obtain ⟨u, v, rfl, h1, h2⟩ := h.split
        obtain ⟨k, hk, h2⟩ := h2.optionals
        exact .times (h2.append h1.times) ⟨by omega, by omega⟩
  · next e n =>
    exact (ordered_reads he (faithfulAll_replicate (by simpa [Faithful] using hf) _)).mono fun v w h => .times h.times rfl
  · exact .panic
  · exact Reads.bind (steps_reads he _ hf) fun v w h => .pure (by rw [List.append_nil]; exact h)
  · exact .panic

end Hdx

/-
The tokens that a test accepts, as a list of descriptions that can be compared.
-/
import Verif.Lemmas.Yields
import Verif.Props.CssValueSound
import Verif.Props.SelectorAccepts

namespace Hdx
open Spec Prog

/-- A description of a token. -/
inductive Head where
  | kind (k : Kind) | word (s : List Char) | func (s : List Char) | unit (s : List Char) | zero | int | dashed | delim (ch : Char)
  deriving DecidableEq, Repr

namespace Head

/-- The token is so. -/
def Has (src : List Char) : Head → Cursor → Prop
  | .kind k, c => IsKind k c
  | .word s, c => IsKind .ident c ∧ Named src c s
  | .func s, c => IsKind .function c ∧ Named src c s
  | .unit s, c => IsKind .dimension c ∧ Named src c s
  | .zero, c => IsZero c
  | .int, c => IsInteger c
  | .dashed, c => IsDashedIdent c
  | .delim ch, c => IsDelim ch c

/-- The kind of the tokens. -/
def base : Head → Kind
  | .kind k => k
  | .word _ | .dashed => .ident
  | .func _ => .function
  | .unit _ => .dimension
  | .zero | .int => .number
  | .delim _ => .delim

/-- No token is both. -/
def apart (h h' : Head) : Bool :=
  (h.base != h'.base && h.base != .eof && h'.base != .eof) || match h, h' with
    | .word s, .word s' | .func s, .func s' | .unit s, .unit s' => s != s'
    | .word s, .dashed | .dashed, .word s => !(['-', '-'].isPrefixOf s)
    | .delim a, .delim b => a != b
    | _, _ => false

variable {src : List Char} {c : Cursor} {h h' : Head}

theorem Has.base (hh : h.Has src c) : IsKind h.base c := by
  cases h with
  | kind => exact hh
  | _ => exact hh.1

end Head

section
variable {src : List Char} {c : Cursor} {h h' : Head}

theorem Spec.Named.same {s t : List Char} (h : Named src c s) (h' : Named src c t) : s = t := by
  unfold Named at h h'
  rw [h] at h'
  exact Except.ok.inj h'

theorem Spec.Clear.dash (hc : Clear src c) (h : IsDashedIdent c) {s : List Char} (hs : Named src c s) : ['-', '-'] <+: s := by
  obtain ⟨t, ht, _, _, h4⟩ := hc (.inl h.1)
  rw [hs.same ht]
  exact h4 h.1 h.2

theorem Head.apart_spec (hc : Clear src c) (ha : h.apart h' = true) (h1 : h.Has src c) (h2 : h'.Has src c) : False := by
  unfold Head.apart at ha
  rw [Bool.or_eq_true] at ha
  rcases ha with ha | ha
  · simp only [Bool.and_eq_true, bne_iff_ne, ne_eq] at ha
    exact IsKind.other h1.base ha.1.2 ha.2 ha.1.1 h2.base
  · split at ha
    · simp only [bne_iff_ne, ne_eq] at ha; exact ha (h1.2.same h2.2)
    · simp only [bne_iff_ne, ne_eq] at ha; exact ha (h1.2.same h2.2)
    · simp only [bne_iff_ne, ne_eq] at ha; exact ha (h1.2.same h2.2)
    · have := hc.dash h2 h1.2
      rw [← List.isPrefixOf_iff_prefix] at this
      rw [this] at ha
      cases ha
    · have := hc.dash h1 h2.2
      rw [← List.isPrefixOf_iff_prefix] at this
      rw [this] at ha
      cases ha
    · simp only [bne_iff_ne, ne_eq] at ha; exact delim_other h2 ha h1.2
    · cases ha

/-- There are no capitals. -/
def plainName (s : List Char) : Bool := s.all fun d => !('A'.toNat ≤ d.toNat && d.toNat ≤ 'Z'.toNat)
theorem plainName_spec {s : List Char} (h : plainName s = true) : ∀ d ∈ s, ¬ Upper d := by
  intro d hd
  have := List.all_eq_true.mp h d hd
  simp only [Bool.not_eq_true', Bool.and_eq_false_iff, decide_eq_false_iff_not] at this
  unfold Upper
  omega

/-- All descriptions of the one list are apart from those of the other. -/
def apartAll (a b : List Head) : Bool := a.all fun h => b.all fun h' => h.apart h'

/-- The token is so, for one of the descriptions. -/
def Among (src : List Char) (hs : List Head) (c : Cursor) : Prop := ∃ h ∈ hs, h.Has src c

theorem apartAll_spec {a b : List Head} (hc : Clear src c) (ha : apartAll a b = true) (h1 : Among src a c) (h2 : Among src b c) : False := by
  obtain ⟨h, hm, h1⟩ := h1
  obtain ⟨h', hm', h2⟩ := h2
  unfold apartAll at ha
  exact Head.apart_spec hc (List.all_eq_true.mp (List.all_eq_true.mp ha h hm) h' hm') h1 h2

theorem Among.append {a b : List Head} : Among src (a ++ b) c ↔ Among src a c ∨ Among src b c := by
  unfold Among
  constructor
  · rintro ⟨h, hm, hh⟩
    rcases List.mem_append.mp hm with hm | hm
    · exact .inl ⟨h, hm, hh⟩
    · exact .inr ⟨h, hm, hh⟩
  · rintro (⟨h, hm, hh⟩ | ⟨h, hm, hh⟩)
    · exact ⟨h, List.mem_append.mpr (.inl hm), hh⟩
    · exact ⟨h, List.mem_append.mpr (.inr hm), hh⟩
theorem Among.cons {a : List Head} : Among src (h :: a) c ↔ h.Has src c ∨ Among src a c := by
  rw [show h :: a = [h] ++ a from rfl, Among.append]
  simp [Among]
theorem Among.one : Among src [h] c ↔ h.Has src c := by simp [Among]
theorem Among.none : ¬ Among src [] c := by simp [Among]
theorem Among.words {names : List (List Char)} : Among src (names.map .word) c ↔ IsKind .ident c ∧ ∃ s ∈ names, Named src c s := by
  simp only [Among, List.mem_map]
  constructor
  · rintro ⟨_, ⟨s, hs, rfl⟩, h⟩; exact ⟨h.1, s, hs, h.2⟩
  · rintro ⟨h, s, hs, hn⟩; exact ⟨_, ⟨s, hs, rfl⟩, h, hn⟩
theorem Among.funcs {names : List (List Char)} : Among src (names.map .func) c ↔ IsKind .function c ∧ ∃ s ∈ names, Named src c s := by
  simp only [Among, List.mem_map]
  constructor
  · rintro ⟨_, ⟨s, hs, rfl⟩, h⟩; exact ⟨h.1, s, hs, h.2⟩
  · rintro ⟨h, s, hs, hn⟩; exact ⟨_, ⟨s, hs, rfl⟩, h, hn⟩
theorem Among.units {names : List (List Char)} : Among src (names.map .unit) c ↔ IsKind .dimension c ∧ ∃ s ∈ names, Named src c s := by
  simp only [Among, List.mem_map]
  constructor
  · rintro ⟨_, ⟨s, hs, rfl⟩, h⟩; exact ⟨h.1, s, hs, h.2⟩
  · rintro ⟨h, s, hs, hn⟩; exact ⟨_, ⟨s, hs, rfl⟩, h, hn⟩

/-! ### Tests -/

/-- On every clear token the test answers, and it accepts those among `acc`. -/
def Exactly (src : List Char) (test : Cursor → Prog Bool) (acc : List Head) : Prop :=
  ∀ ⦃c⦄, Clear src c → ∃ b, Tests src (test c) b ∧ (b = true ↔ Among src acc c)

namespace Exactly
variable {test : Cursor → Prog Bool} {acc : List Head}

theorem yes (h : Exactly src test acc) (hc : Clear src c) (ha : Among src acc c) : Tests src (test c) true := by
  obtain ⟨b, hb, hi⟩ := h hc
  exact hb.congr (hi.mpr ha)
theorem no (h : Exactly src test acc) (hc : Clear src c) (ha : ¬ Among src acc c) : Tests src (test c) false := by
  obtain ⟨b, hb, hi⟩ := h hc
  refine hb.congr ?_
  cases b
  · rfl
  · exact absurd (hi.mp rfl) ha

theorem kind {k : Kind} : Exactly src (Prog.isKind k) [.kind k] := fun c _ => ⟨_, Tests.kind, by rw [Among.one]; rfl⟩
theorem delim {ch : Char} : Exactly src (Prog.isDelim ch) [.delim ch] := fun c _ => ⟨_, Tests.pure, by rw [Among.one]; simp [Head.Has, IsDelim]⟩
theorem int : Exactly src isCssInt [.int] := fun c _ => ⟨_, Tests.pure, by rw [Among.one]; simp [Head.Has, IsInteger, IsKind]⟩
theorem dashed : Exactly src (fun c => Pure.pure (isDashed c)) [.dashed] := fun c _ =>
  ⟨_, Tests.pure, by rw [Among.one]; simp [Head.Has, IsDashedIdent, IsKind, isDashed]⟩
theorem either {a b : Cursor → Prog Bool} {x y : List Head} (ha : Exactly src a x) (hb : Exactly src b y) : Exactly src (Hdx.either a b) (x ++ y) := by
  intro c hc
  obtain ⟨r, h1, h2⟩ := ha hc
  obtain ⟨s, g1, g2⟩ := hb hc
  unfold Hdx.either
  refine ⟨if r = true then true else s, Tests.bind h1 (Tests.ite (fun _ => Tests.pure) fun _ => g1), ?_⟩
  rw [Among.append, ← h2, ← g2]
  cases r <;> simp
theorem words {names : List (List Char)} : Exactly src (isKeyword names) (names.map .word) := by
  intro c hc
  unfold isKeyword
  by_cases hk : c.token.isKind .ident = true
  · obtain ⟨s, hs, _⟩ := hc (.inl hk)
    refine ⟨names.contains s, Tests.pos hk (Tests.bind (Tests.lower hs) Tests.pure), ?_⟩
    rw [Among.words, List.contains_iff_mem]
    exact ⟨fun h => ⟨hk, s, h, hs⟩, fun ⟨_, t, ht, hn⟩ => by rw [hs.same hn]; exact ht⟩
  · refine ⟨false, Tests.neg hk Tests.pure, ?_⟩
    rw [Among.words]
    exact ⟨nofun, fun h => absurd h.1 hk⟩
theorem funcs {names : List (List Char)} : Exactly src (isFunctionOf names) (names.map .func) := by
  intro c hc
  unfold isFunctionOf
  by_cases hk : c.token.isKind .function = true
  · obtain ⟨s, hs, _⟩ := hc (.inr (.inl hk))
    refine ⟨names.contains s, Tests.pos hk (Tests.bind (Tests.lower hs) Tests.pure), ?_⟩
    rw [Among.funcs, List.contains_iff_mem]
    exact ⟨fun h => ⟨hk, s, h, hs⟩, fun ⟨_, t, ht, hn⟩ => by rw [hs.same hn]; exact ht⟩
  · refine ⟨false, Tests.neg hk Tests.pure, ?_⟩
    rw [Among.funcs]
    exact ⟨nofun, fun h => absurd h.1 hk⟩
theorem units {names : List (List Char)} : Exactly src (isUnitOf names) (names.map .unit) := by
  intro c hc
  unfold isUnitOf
  by_cases hk : c.token.isKind .dimension = true
  · obtain ⟨s, hs, _⟩ := hc (.inr (.inr hk))
    refine ⟨names.contains s, Tests.pos hk (Tests.bind (Tests.lower hs) Tests.pure), ?_⟩
    rw [Among.units, List.contains_iff_mem]
    exact ⟨fun h => ⟨hk, s, h, hs⟩, fun ⟨_, t, ht, hn⟩ => by rw [hs.same hn]; exact ht⟩
  · refine ⟨false, Tests.neg hk Tests.pure, ?_⟩
    rw [Among.units]
    exact ⟨nofun, fun h => absurd h.1 hk⟩
theorem word {name : List Char} (hl : ∀ d ∈ name, ¬ Upper d) : Exactly src (isWordOf name) [.word name] := by
  intro c hc
  unfold isWordOf
  by_cases hk : c.token.isKind .ident = true
  · obtain ⟨s, hs, he, _⟩ := hc (.inl hk)
    refine ⟨_, Tests.pos hk (Tests.eqCase (he name hl)), ?_⟩
    rw [Among.one, decide_eq_true_iff]
    exact ⟨fun h => ⟨hk, h ▸ hs⟩, fun h => hs.same h.2⟩
  · refine ⟨false, Tests.neg hk Tests.pure, ?_⟩
    rw [Among.one]
    exact ⟨nofun, fun h => absurd h.1 hk⟩
theorem func {name : List Char} (hl : ∀ d ∈ name, ¬ Upper d) : Exactly src (isNamed name) [.func name] := by
  intro c hc
  unfold isNamed
  by_cases hk : c.token.isKind .function = true
  · obtain ⟨s, hs, he, _⟩ := hc (.inr (.inl hk))
    refine ⟨_, Tests.pos hk (Tests.eqCase (he name hl)), ?_⟩
    rw [Among.one, decide_eq_true_iff]
    exact ⟨fun h => ⟨hk, h ▸ hs⟩, fun h => hs.same h.2⟩
  · refine ⟨false, Tests.neg hk Tests.pure, ?_⟩
    rw [Among.one]
    exact ⟨nofun, fun h => absurd h.1 hk⟩
/-- Every unit but `unknown` has a name; the texts of the code have no capitals. -/
theorem dimension {u : DimensionUnit} (hl : ∀ d ∈ u.macroName, ¬ Upper d) {s : List Char} (hu : unitName u = some s) {c : Cursor} (hc : Clear src c) :
    ∃ b, Tests src (isDimensionOf u c) b ∧ (b = true → Among src [.unit s, .unit u.macroName] c) ∧ (Among src [.unit u.macroName] c → b = true) := by
  unfold isDimensionOf
  by_cases hk : c.token.isKind .dimension = true
  · obtain ⟨t, ht, he, hu', _⟩ := hc (.inr (.inr hk))
    by_cases hd : (c.token.dimensionUnit == u) = true
    · refine ⟨true, Tests.pos hk (Tests.pos hd Tests.pure), fun _ => ?_, fun _ => rfl⟩
      have hd : c.token.dimensionUnit = u := by simpa using hd
      have := hu' hk s (hd ▸ hu)
      exact ⟨_, .head _, hk, this ▸ ht⟩
    · refine ⟨_, Tests.pos hk (Tests.neg hd (Tests.eqCase (he _ hl))), fun h => ?_, fun h => ?_⟩
      · rw [decide_eq_true_iff] at h
        exact ⟨_, .tail _ (.head _), hk, h ▸ ht⟩
      · rw [Among.one] at h
        rw [decide_eq_true_iff]
        exact ht.same h.2
  · refine ⟨false, Tests.neg hk Tests.pure, nofun, fun h => ?_⟩
    rw [Among.one] at h
    exact absurd h.1 hk
theorem percent : Exactly src (isDimensionOf .percent) [.unit c!"%"] := by
  intro c hc
  obtain ⟨b, h1, h2, h3⟩ := dimension (u := .percent) (s := c!"%") (plainName_spec (by decide)) rfl hc
  refine ⟨b, h1, fun h => ?_, h3⟩
  obtain ⟨x, hx, h⟩ := h2 h
  refine ⟨x, ?_, h⟩
  revert hx
  show x ∈ [Head.unit c!"%", Head.unit c!"%"] → _
  simp

theorem anyDimension {us : List DimensionUnit} (hl : ∀ u ∈ us, (∀ d ∈ u.macroName, ¬ Upper d) ∧ (unitName u).isSome) {c : Cursor} (hc : Clear src c) :
    ∃ b, Tests src (isAnyDimension us c) b ∧ (b = true → Among src (us.flatMap fun u => ((unitName u).toList ++ [u.macroName]).map .unit) c) ∧
      (Among src (us.map fun u => .unit u.macroName) c → b = true) := by
  induction us with
  | nil => exact ⟨false, Tests.pure, nofun, fun h => absurd h Among.none⟩
  | cons u us ih =>
    obtain ⟨s, hs, g1, g2⟩ := ih fun u h => hl u (.tail _ h)
    obtain ⟨hl1, hl2⟩ := hl u (.head _)
    obtain ⟨n, hn⟩ := Option.isSome_iff_exists.mp hl2
    obtain ⟨b, h1, h2, h3⟩ := dimension hl1 hn hc
    unfold isAnyDimension
    refine ⟨if b = true then true else s, Tests.bind h1 (Tests.ite (fun _ => Tests.pure) fun _ => hs), fun h => ?_, fun h => ?_⟩
    · rw [List.flatMap_cons, Among.append]
      cases b with
      | true => left; simpa [hn] using h2 rfl
      | false => exact .inr (g1 (by simpa using h))
    · rw [List.map_cons, Among.cons] at h
      rcases h with h | h
      · rw [h3 (Among.one.mpr h)]; simp
      · rw [g2 h]; simp

theorem lengths : Exactly src (isAnyDimension LENGTH_UNITS) (lengthUnits.map .unit) := by
  intro c hc
  have hl : ∀ u ∈ LENGTH_UNITS, (∀ d ∈ u.macroName, ¬ Upper d) ∧ (unitName u).isSome := by
    have : ∀ u ∈ LENGTH_UNITS, plainName u.macroName = true ∧ (unitName u).isSome := by decide
    exact fun u hu => ⟨plainName_spec (this u hu).1, (this u hu).2⟩
  obtain ⟨b, h1, h2, h3⟩ := anyDimension hl hc
  refine ⟨b, h1, fun h => ?_, fun h => h3 ?_⟩
  · obtain ⟨x, hx, h⟩ := h2 h
    refine ⟨x, ?_, h⟩
    have : ∀ x ∈ LENGTH_UNITS.flatMap fun u => ((unitName u).toList ++ [u.macroName]).map Head.unit, x ∈ lengthUnits.map Head.unit := by decide +kernel
    exact this x hx
  · obtain ⟨x, hx, h⟩ := h
    refine ⟨x, ?_, h⟩
    have : ∀ x ∈ lengthUnits.map Head.unit, x ∈ LENGTH_UNITS.map fun u => Head.unit u.macroName := by decide +kernel
    exact this x hx
end Exactly

theorem zero_iff : (c.token.isKind .number && f32IsZero c.token.value) = true ↔ IsZero c := by
  rw [Bool.and_eq_true]
  constructor
  · exact fun h => ⟨h.1, zero_units h.2⟩
  · intro h
    refine ⟨h.1, ?_⟩
    have h2 := h.2
    have : c.token.value.toNat % 2 ^ 31 = 0 := by
      rcases Nat.eq_zero_or_pos (c.token.value.toNat % 2 ^ 31) with h0 | h0
      · exact h0
      · have := f32Units_strict h0
        omega
    have hlt := c.token.value.isLt
    simp only [f32IsZero, Bool.or_eq_true, beq_iff_eq]
    rcases Nat.lt_or_ge c.token.value.toNat (2 ^ 31) with hh | hh
    · left
      apply BitVec.eq_of_toNat_eq
      simp
      omega
    · right
      apply BitVec.eq_of_toNat_eq
      simp
      omega

namespace Exactly
theorem orZero {test : Cursor → Prog Bool} {acc : List Head} (h : Exactly src test acc) :
    Exactly src (fun c => if c.token.isKind .number && f32IsZero c.token.value then Pure.pure true else test c) (.zero :: acc) := by
  intro c hc
  obtain ⟨b, h1, h2⟩ := h hc
  refine ⟨_, Tests.ite (fun _ => Tests.pure) fun _ => h1, ?_⟩
  rw [Among.cons, ← h2, show Head.zero.Has src c = IsZero c from rfl, ← zero_iff]
  split <;> simp_all
theorem length : Exactly src isLength (.zero :: lengthUnits.map .unit) := orZero lengths
theorem lengthPercentage : Exactly src isLengthPercentage (.zero :: .unit c!"%" :: lengthUnits.map .unit) := orZero (either percent lengths)
theorem time : Exactly src isTime (.zero :: [c!"s", c!"ms"].map .unit) := orZero units
theorem angle : Exactly src isAngle ([c!"grad", c!"rad", c!"turn", c!"deg"].map .unit) := units
end Exactly

/-! ### What the specification calls so -/

theorem Spec.Called.named {s : List Char} (hc : Clear src c) (hk : IsKind .ident c ∨ IsKind .function c ∨ IsKind .dimension c) (hl : ∀ d ∈ s, ¬ Upper d)
    (h : Called src c s) : Named src c s := by
  rcases h with h | h
  · exact h
  · obtain ⟨t, ht, he, _⟩ := hc hk
    rw [he s hl] at h
    have : t = s := by simpa using h
    exact this ▸ ht

theorem Spec.HasUnit.has {s : List Char} (hc : Clear src c) (hl : ∀ d ∈ s, ¬ Upper d) (h : HasUnit src s c) : (Head.unit s).Has src c := by
  refine ⟨h.1, ?_⟩
  rcases h.2 with h2 | h2
  · exact h2.named hc (.inr (.inr h.1)) hl
  · obtain ⟨t, ht, _, hu, _⟩ := hc (.inr (.inr h.1))
    rw [← hu h.1 s h2]
    exact ht

/-! ### Ranges -/

theorem not_below {n : Nat} {w : BitVec 32} (hn : n ≤ 2 ^ 24) (h : AtLeast n w) : ¬ f32Below n w = true := by
  unfold f32Below
  rcases h with ⟨hm, h⟩ | ⟨rfl, h⟩
  · rw [if_neg (by rw [Bool.not_eq_true, BitVec.msb_eq_false_iff_two_mul_lt]; omega)]
    rw [← units_ofRat hn] at h
    intro hlt
    have := f32Units_strict (by simpa using hlt : w.toNat < F32.ofRat n 1)
    omega
  · have hw : w.toNat % 2 ^ 31 = 0 := by
      rcases Nat.eq_zero_or_pos (w.toNat % 2 ^ 31) with h0 | h0
      · exact h0
      · have := f32Units_strict h0
        omega
    have hlt := w.isLt
    split
    · next hm =>
      rw [BitVec.msb_eq_true_iff_two_mul_ge] at hm
      have : w = 0x80000000#32 := by apply BitVec.eq_of_toNat_eq; simp; omega
      subst this
      decide
    · next hm =>
      rw [Bool.not_eq_true, BitVec.msb_eq_false_iff_two_mul_lt] at hm
      have : w = 0#32 := by apply BitVec.eq_of_toNat_eq; simp; omega
      subst this
      decide +kernel

theorem not_above {n : Nat} {w : BitVec 32} (hn : n ≤ 2 ^ 24) (h : AtMost n w) : ¬ f32Above n w = true := by
  unfold f32Above
  intro hh
  simp only [Bool.and_eq_true, Bool.not_eq_true', decide_eq_true_eq] at hh
  rw [BitVec.msb_eq_false_iff_two_mul_lt] at hh
  rcases h with h | h
  · omega
  · rw [← units_ofRat hn] at h
    have := f32Units_strict hh.2
    omega

theorem upTo_of {n : Nat} {w : BitVec 32} (hn : n ≤ 2 ^ 24) (h : AtLeast 0 w ∧ AtMost n w) : f32UpTo n w = true := by
  have h1 := not_below (by decide) h.1
  have h2 := not_above hn h.2
  simp only [f32UpTo, Bool.or_eq_true, beq_iff_eq, Bool.and_eq_true, Bool.not_eq_true', decide_eq_true_eq]
  unfold f32Below at h1
  cases hm : w.msb with
  | true =>
    left
    rw [if_pos hm] at h1
    simpa using h1
  | false =>
    right
    refine ⟨rfl, ?_⟩
    simpa [f32Above, hm] using h2

end
end Hdx

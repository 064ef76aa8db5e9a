/-
Media queries and container conditions are read as they are.
-/
import Verif.Spec.MediaSyntax
import Verif.Lemmas.Touch
import Verif.Lemmas.CompleteTypes

namespace Hdx
open Spec Prog
section
variable {src : List Char} {ν φ : Type}

/-! ### Comparisons -/

theorem isChar_value {k : Kind} {c : Cursor} (h : IsKind k c) (hk : k = .number ∨ k = .dimension ∨ k = .ident) {ch : Char} : c.token.isChar ch = false := by
  have : c.token.isDelimLike = false := by
    unfold Token.isDelimLike
    rw [beq_iff_eq.mp h]
    rcases hk with rfl | rfl | rfl <;> decide
  unfold Token.isChar Token.char
  rw [this]
  rfl

/-- Values and names. -/
def Operand (c : Cursor) : Prop := IsKind .number c ∨ IsKind .dimension c ∨ IsKind .ident c

theorem Operand.char {c : Cursor} (h : Operand c) {ch : Char} : c.token.isChar ch = false := by
  rcases h with h | h | h <;> exact isChar_value h (by simp)

theorem isDelim_tests {ch : Char} {c : Cursor} (h : IsDelim ch c) : Tests src (Prog.isDelim ch c) true := Tests.pure.congr (by rw [h.1, h.2]; rfl)

theorem double_no {a b : Char} {c d : Cursor} {ts ts' : List Cursor} {β : Type} {f : Bool → Prog β} {Q : β → Prop} (hc : IsDelim a c) (hd : d.token.isChar b = false)
    (h : Yields src (c :: d :: ts) (f false) ts' Q) : Yields src (c :: d :: ts) (isDoubleDelim a b c >>= f) ts' Q := by
  unfold isDoubleDelim
  rw [if_pos hc.2]
  intro p hp
  obtain ⟨v, q, w, h1, h2, h3⟩ := h hp
  refine ⟨v, q, _, gives_seq (w1 := []) (gives_seq (w1 := []) (gives_peekN.mpr ⟨_, On.peekN (ts := [c]) hp, rfl, rfl, rfl⟩) ?_) h1, h2, h3⟩
  rw [hd]
  exact gives_pure.mpr ⟨rfl, rfl, rfl⟩

theorem double_yes {a b : Char} {c d : Cursor} {ts ts' : List Cursor} {β : Type} {f : Bool → Prog β} {Q : β → Prop} (hc : IsDelim a c) (hd : d.token.isChar b = true)
    (h : Yields src (c :: d :: ts) (f true) ts' Q) : Yields src (c :: d :: ts) (isDoubleDelim a b c >>= f) ts' Q := by
  unfold isDoubleDelim
  rw [if_pos hc.2]
  intro p hp
  obtain ⟨v, q, w, h1, h2, h3⟩ := h hp
  refine ⟨v, q, _, gives_seq (w1 := []) (gives_seq (w1 := []) (gives_peekN.mpr ⟨_, On.peekN (ts := [c]) hp, rfl, rfl, rfl⟩) ?_) h1, h2, h3⟩
  rw [hd]
  exact gives_pure.mpr ⟨rfl, rfl, rfl⟩

theorem doubleDelim_yields {a b : Char} {c d : Cursor} {ts : List Cursor} (hc : IsDelim a c) (hd : IsDelim b d) (ht : Touch c d) :
    Yields src (c :: d :: ts) (doubleDelim a b) ts fun x => x = (c, d) := by
  intro p hp
  obtain ⟨q, k1, k2, r, k3, k4⟩ := hp.touch ht
  have t1 : Gives (Prog.tok (Prog.isKind .delim)) p (.ok c) q [c] := by
    unfold Prog.tok
    refine gives_of_peek (peek_of_next k1) (gives_seq (w1 := []) ((Tests.kind.congr hc.1) hp.source) ?_)
    exact gives_seq (w1 := [c]) (w2 := []) (gives_take.mpr ⟨_, k1, rfl, rfl⟩) (gives_pure.mpr ⟨rfl, rfl, rfl⟩)
  have t2 : Gives (Prog.tok (Prog.isKind .delim)) { q with skip := KindSet.NONE } (.ok d) r [d] := by
    unfold Prog.tok
    refine gives_of_peek (peek_of_next k3) (gives_seq (w1 := []) ((Tests.kind.congr hd.1) k2.source) ?_)
    exact gives_seq (w1 := [d]) (w2 := []) (gives_take.mpr ⟨_, k3, rfl, rfl⟩) (gives_pure.mpr ⟨rfl, rfl, rfl⟩)
  refine ⟨(c, d), _, [c] ++ ([d] ++ []), ?_, k4, rfl⟩
  unfold doubleDelim
  refine gives_seq t1 ?_
  rw [if_neg (by simp [hc.2])]
  refine gives_setSkip.mpr (gives_seq (gives_result.mpr ⟨_, t2, rfl⟩) (gives_setSkip.mpr ?_))
  rw [k2.skip]
  refine gives_seq (w1 := []) (gives_ofResult.mpr ⟨rfl, rfl, rfl⟩) ?_
  rw [if_neg (by simp [hd.2])]
  exact gives_pure.mpr ⟨rfl, rfl, rfl⟩

theorem char_of {ch : Char} {c : Cursor} (h : IsDelim ch c) : c.token.char = some ch := isChar_iff.mp h.2

theorem comparison_yields {x : Comparison} {d : Cursor} {ts : List Cursor} (hx : ComparisonLabel x) (hw : ComparisonWhole x) (hd : Operand d) :
    Yields src (x.cursors ++ d :: ts) comparison (d :: ts) fun y => y = x := by
  cases x with
  | equal c =>
    unfold comparison
    refine Yields.peek ?_
    rw [char_of hx]
    refine Yields.pos rfl (Yields.bind (Yields.tok (P' := fun y => y = c) (isDelim_tests hx) rfl) ?_)
    rintro _ rfl
    exact .pure rfl
  | lessThan c =>
    unfold comparison
    refine Yields.peek ?_
    rw [char_of hx]
    refine Yields.neg (by decide) (Yields.neg (by decide) (Yields.pos rfl (double_no hx hd.char (Yields.neg (by decide) ?_))))
    refine Yields.bind (Yields.tok (P' := fun y => y = c) (isDelim_tests hx) rfl) ?_
    rintro _ rfl
    exact .pure rfl
  | greaterThan c =>
    unfold comparison
    refine Yields.peek ?_
    rw [char_of hx]
    refine Yields.neg (by decide) (Yields.pos rfl (double_no hx hd.char (Yields.neg (by decide) ?_)))
    refine Yields.bind (Yields.tok (P' := fun y => y = c) (isDelim_tests hx) rfl) ?_
    rintro _ rfl
    exact .pure rfl
  | greaterThanEqual a b =>
    unfold comparison
    refine Yields.peek ?_
    rw [char_of hx.1]
    refine Yields.neg (by decide) (Yields.pos rfl (double_yes hx.1 hx.2.2 (Yields.pos rfl ?_)))
    refine Yields.bind (doubleDelim_yields hx.1 hx.2 hw) ?_
    rintro _ rfl
    exact .pure rfl
  | lessThanEqual a b =>
    unfold comparison
    refine Yields.peek ?_
    rw [char_of hx.1]
    refine Yields.neg (by decide) (Yields.neg (by decide) (Yields.pos rfl (double_yes hx.1 hx.2.2 (Yields.pos rfl ?_))))
    refine Yields.bind (doubleDelim_yields hx.1 hx.2 hw) ?_
    rintro _ rfl
    exact .pure rfl

/-! ### Features -/

theorem eqCase_named {c : Cursor} {s : List Char} (hk : IsKind .ident c) (hc : Clear src c) (hl : ∀ d ∈ s, ¬ Upper d) (h : Called src c s) : c.eqIgnoreAsciiCase src s = .ok true := by
  rcases h with h | h
  · obtain ⟨t, ht, he, _⟩ := hc (.inl hk)
    cases ht.same h
    rw [he _ hl]
    simp
  · exact h

theorem discrete_yields {name : List Char} {value : Prog ν} {cur : ν → List Cursor} {V : ν → Prop} {f : Feature ν} {ts : List Cursor} (hl : ∀ d ∈ name, ¬ Upper d)
    (hv : ∀ v c ts, V v → (∀ c ∈ cur v, Clear src c) → IsKind .rightParen c → Yields src (cur v ++ c :: ts) value (c :: ts) fun x => x = v)
    (hf : FeatureLabel src name V f) (hc : ∀ c ∈ f.cursors cur, Clear src c) : Yields src (f.cursors cur ++ ts) (discreteFeature name value) ts fun x => x = f := by
  cases f with
  | withValue o n c v cl =>
    obtain ⟨h1, h2, h3, h4, h5⟩ := hf
    unfold discreteFeature
    show Yields src (o :: n :: c :: (cur v ++ [cl] ++ ts)) _ _ _
    refine Yields.bind (Yields.tok (P' := fun y => y = o) (Tests.kind.congr h1) rfl) ?_
    rintro _ rfl
    refine Yields.bind (Yields.tok (P' := fun y => y = n) (Tests.kind.congr h2.1) rfl) ?_
    rintro _ rfl
    refine Yields.test (Tests.eqCase (eqCase_named h2.1 (hc _ (by simp [Feature.cursors])) hl h2.2)) (Yields.neg (by decide) (Yields.peek (Yields.pos h3 ?_)))
    refine Yields.bind (Yields.tok (P' := fun y => y = c) (Tests.kind.congr h3) rfl) ?_
    rintro _ rfl
    rw [List.append_assoc]
    refine Yields.bind (hv v cl ts h4 (fun d hd => hc d (by simp [Feature.cursors, hd])) h5) ?_
    rintro _ rfl
    refine Yields.bind (Yields.tok (P' := fun y => y = cl) (Tests.kind.congr h5) rfl) ?_
    rintro _ rfl
    exact .pure rfl
  | bare o n cl =>
    obtain ⟨h1, h2, h5⟩ := hf
    unfold discreteFeature
    show Yields src (o :: n :: cl :: ts) _ _ _
    refine Yields.bind (Yields.tok (P' := fun y => y = o) (Tests.kind.congr h1) rfl) ?_
    rintro _ rfl
    refine Yields.bind (Yields.tok (P' := fun y => y = n) (Tests.kind.congr h2.1) rfl) ?_
    rintro _ rfl
    refine Yields.test (Tests.eqCase (eqCase_named h2.1 (hc _ (by simp [Feature.cursors])) hl h2.2)) (Yields.neg (by decide) (Yields.peek (Yields.neg (IsKind.other h5 (by decide) (by decide) (by decide)) ?_)))
    refine Yields.bind (Yields.tok (P' := fun y => y = cl) (Tests.kind.congr h5) rfl) ?_
    rintro _ rfl
    exact .pure rfl

theorem keyword_yields'' {names : List (List Char)} {k : List Char} {c : Cursor} {rest : List Cursor} (hi : IsKind .ident c) (hn : Named src c k) (hc : Clear src c) (hk : k ∈ names) :
    Yields src (c :: rest) (keyword names) rest fun x => x = (k, c) := by
  unfold keyword
  refine Yields.bind (Yields.tok (P' := fun x => x = c) (Exactly.words.yes hc (Among.words.mpr ⟨hi, k, hk, hn⟩)) rfl) fun x hx => ?_
  subst hx
  intro p hp
  exact ⟨(k, x), p, [], gives_buildKeyword.mpr ⟨rfl, rfl, k, by rw [hp.source]; exact hn, List.contains_iff_mem.mpr hk, rfl⟩, hp, rfl⟩

theorem build_yields {names : List (List Char)} {k : List Char} {c : Cursor} {ts : List Cursor} (hn : Named src c k) (hk : k ∈ names) : Yields src ts (buildKeyword names c) ts fun x => x = (k, c) := by
  intro p hp
  exact ⟨(k, c), p, [], gives_buildKeyword.mpr ⟨rfl, rfl, k, by rw [hp.source]; exact hn, List.contains_iff_mem.mpr hk, rfl⟩, hp, rfl⟩

/-- The tokens that may come after a value. -/
def AfterValue (c : Cursor) : Prop := IsKind .rightParen c ∨ IsDelim '<' c ∨ IsDelim '>' c ∨ IsDelim '=' c

theorem comparison_first {x : Comparison} (hx : ComparisonLabel x) : ∃ c r, x.cursors = c :: r ∧ (IsDelim '<' c ∨ IsDelim '>' c ∨ IsDelim '=' c) := by
  cases x with
  | equal c => exact ⟨c, [], rfl, .inr (.inr hx)⟩
  | lessThan c => exact ⟨c, [], rfl, .inl hx⟩
  | greaterThan c => exact ⟨c, [], rfl, .inr (.inl hx)⟩
  | greaterThanEqual a b => exact ⟨a, [b], rfl, .inr (.inl hx.1)⟩
  | lessThanEqual a b => exact ⟨a, [b], rfl, .inl hx.1⟩

theorem ranged_yields {names : List (List Char)} {legacy : List Char → Bool} {names' legacy' : List (List Char)} {value : Prog ν} {cur : ν → List Cursor} {V : ν → Prop} {f : Ranged ν} {ts : List Cursor}
    (hn : ∀ s, s ∈ names' → s ∈ names) (hleg : ∀ s, s ∈ names' → s ∉ legacy' → legacy s = false)
    (hv : ∀ v c ts, V v → (∀ c ∈ cur v, Clear src c) → AfterValue c → Yields src (cur v ++ c :: ts) value (c :: ts) fun x => x = v)
    (hfst : ∀ v, V v → ∃ c r, cur v = c :: r ∧ (IsKind .number c ∨ IsKind .dimension c))
    (hf : RangedLabel src names' legacy' V f) (hw : RangedWhole f) (hc : ∀ c ∈ f.cursors cur, Clear src c) :
    Yields src (f.cursors cur ++ ts) (rangedFeature names legacy value) ts fun x => x = f := by
  cases f with
  | legacy o n c v cl =>
    obtain ⟨h1, ⟨s, k1, k2, k3⟩, h3, h4, h5⟩ := hf
    unfold rangedFeature
    show Yields src (o :: n :: c :: (cur v ++ [cl] ++ ts)) _ _ _
    refine Yields.bind (Yields.tok (P' := fun y => y = o) (Tests.kind.congr h1) rfl) ?_
    rintro _ rfl
    have hcn : Clear src n := hc _ (by simp [Ranged.cursors])
    refine Yields.peek (Yields.bind (Yields.ifPeek_some (Exactly.words.yes hcn (Among.words.mpr ⟨k1, s, hn s k3, k2⟩)) (keyword_yields'' k1 k2 hcn (hn s k3))) ?_)
    rintro _ ⟨_, rfl, rfl⟩
    refine Yields.peek (Yields.pos h3 (Yields.bind (Yields.tok (P' := fun y => y = c) (Tests.kind.congr h3) rfl) ?_))
    rintro _ rfl
    rw [List.append_assoc]
    refine Yields.bind (hv v cl ts h4 (fun d hd => hc d (by simp [Ranged.cursors, hd])) (.inl h5)) ?_
    rintro _ rfl
    refine Yields.bind (Yields.tok (P' := fun y => y = cl) (Tests.kind.congr h5) rfl) ?_
    rintro _ rfl
    exact .pure rfl
  | left o n x v cl =>
    obtain ⟨h1, ⟨s, ⟨k1, k2, k3⟩, k4⟩, h3, h4, h5⟩ := hf
    unfold rangedFeature
    have e : (Ranged.left o n x v cl).cursors cur ++ ts = o :: n :: (x.cursors ++ (cur v ++ (cl :: ts))) := by simp [Ranged.cursors]
    rw [e]
    refine Yields.bind (Yields.tok (P' := fun y => y = o) (Tests.kind.congr h1) rfl) ?_
    rintro _ rfl
    have hcn : Clear src n := hc _ (by simp [Ranged.cursors])
    refine Yields.peek (Yields.bind (Yields.ifPeek_some (Exactly.words.yes hcn (Among.words.mpr ⟨k1, s, hn s k3, k2⟩)) (keyword_yields'' k1 k2 hcn (hn s k3))) ?_)
    rintro _ ⟨_, rfl, rfl⟩
    obtain ⟨d, r, e2, hd⟩ := comparison_first h3
    obtain ⟨vc, vr, e3, hvc⟩ := hfst v h4
    have hdk : ¬ d.token.isKind .colon = true := by rcases hd with h | h | h <;> exact IsKind.other h.1 (by decide) (by decide) (by decide)
    have step : Yields src (x.cursors ++ (cur v ++ (cl :: ts))) comparison (cur v ++ (cl :: ts)) fun y => y = x := by
      rw [e3]
      exact comparison_yields h3 hw (hvc.elim .inl fun h => .inr (.inl h))
    rw [e2] at step ⊢
    refine Yields.peek (Yields.neg hdk (Yields.neg (by simp [hleg s k3 k4]) (Yields.bind step ?_)))
    rintro _ rfl
    refine Yields.bind (hv v cl ts h4 (fun d hd => hc d (by simp [Ranged.cursors, hd])) (.inl h5)) ?_
    rintro _ rfl
    refine Yields.bind (Yields.tok (P' := fun y => y = cl) (Tests.kind.congr h5) rfl) ?_
    rintro _ rfl
    exact .pure rfl
  | right o v x n cl =>
    obtain ⟨h1, h4, h3, ⟨s, ⟨k1, k2, k3⟩, k4⟩, h5⟩ := hf
    unfold rangedFeature
    have e : (Ranged.right o v x n cl).cursors cur ++ ts = o :: (cur v ++ (x.cursors ++ (n :: cl :: ts))) := by simp [Ranged.cursors]
    rw [e]
    refine Yields.bind (Yields.tok (P' := fun y => y = o) (Tests.kind.congr h1) rfl) ?_
    rintro _ rfl
    have hcn : Clear src n := hc _ (by simp [Ranged.cursors])
    obtain ⟨d, r, e2, hd⟩ := comparison_first h3
    obtain ⟨vc, vr, e3, hvc⟩ := hfst v h4
    have hcv : Clear src vc := hc _ (by simp [Ranged.cursors, e3])
    have step1 : Yields src (cur v ++ (x.cursors ++ (n :: cl :: ts))) value (x.cursors ++ (n :: cl :: ts)) fun y => y = v := by
      rw [e2]
      exact hv v d _ h4 (fun d hd => hc d (by simp [Ranged.cursors, hd])) (.inr hd)
    rw [e3] at step1 ⊢
    refine Yields.peek (Yields.bind (Yields.ifPeek_none (Exactly.no Exactly.words hcv ?_)) ?_)
    · rw [Among.words]
      rintro ⟨h, _⟩
      rcases hvc with h' | h' <;> exact IsKind.other h' (by decide) (by decide) (by decide) h
    rintro _ rfl
    refine Yields.bind step1 ?_
    rintro _ rfl
    refine Yields.bind (comparison_yields h3 hw (.inr (.inr k1))) ?_
    rintro _ rfl
    refine Yields.peek (Yields.bind (keyword_yields'' k1 k2 hcn (hn s k3)) ?_)
    rintro _ rfl
    refine Yields.neg (by simp [hleg s k3 k4]) (Yields.peek (Yields.pos (by simpa using Bool.eq_false_iff.mpr (IsKind.other h5 (by decide) (by decide) (by decide))) ?_))
    refine Yields.bind (Yields.tok (P' := fun y => y = cl) (Tests.kind.congr h5) rfl) ?_
    rintro _ rfl
    exact .pure rfl
  | range o v x n y u cl =>
    obtain ⟨h1, h4, h3, ⟨s, ⟨k1, k2, k3⟩, k4⟩, h6, h7, h5⟩ := hf
    unfold rangedFeature
    have e : (Ranged.range o v x n y u cl).cursors cur ++ ts = o :: (cur v ++ (x.cursors ++ (n :: (y.cursors ++ (cur u ++ cl :: ts))))) := by simp [Ranged.cursors]
    rw [e]
    refine Yields.bind (Yields.tok (P' := fun y => y = o) (Tests.kind.congr h1) rfl) ?_
    rintro _ rfl
    have hcn : Clear src n := hc _ (by simp [Ranged.cursors])
    obtain ⟨d, r, e2, hd⟩ := comparison_first h3
    obtain ⟨d', r', e2', hd'⟩ := comparison_first h6
    obtain ⟨vc, vr, e3, hvc⟩ := hfst v h4
    obtain ⟨uc, ur, e4, huc⟩ := hfst u h7
    have hcv : Clear src vc := hc _ (by simp [Ranged.cursors, e3])
    have step1 : Yields src (cur v ++ (x.cursors ++ (n :: (y.cursors ++ (cur u ++ cl :: ts))))) value (x.cursors ++ (n :: (y.cursors ++ (cur u ++ cl :: ts)))) fun y => y = v := by
      rw [e2]
      exact hv v d _ h4 (fun d hd => hc d (by simp [Ranged.cursors, hd])) (.inr hd)
    have step2 : Yields src (y.cursors ++ (cur u ++ (cl :: ts))) comparison (cur u ++ (cl :: ts)) fun z => z = y := by
      rw [e4]
      exact comparison_yields h6 hw.2 (huc.elim .inl fun h => .inr (.inl h))
    rw [e3] at step1 ⊢
    refine Yields.peek (Yields.bind (Yields.ifPeek_none (Exactly.no Exactly.words hcv ?_)) ?_)
    · rw [Among.words]
      rintro ⟨h, _⟩
      rcases hvc with h' | h' <;> exact IsKind.other h' (by decide) (by decide) (by decide) h
    rintro _ rfl
    refine Yields.bind step1 ?_
    rintro _ rfl
    refine Yields.bind (comparison_yields h3 hw.1 (.inr (.inr k1))) ?_
    rintro _ rfl
    refine Yields.peek (Yields.bind (keyword_yields'' k1 k2 hcn (hn s k3)) ?_)
    rintro _ rfl
    have hdd : d'.token.isKind .delim = true := by rcases hd' with h | h | h <;> exact h.1
    rw [e2'] at step2 ⊢
    refine Yields.neg (by simp [hleg s k3 k4]) (Yields.peek (Yields.neg (by simp [hdd]) (Yields.bind step2 ?_)))
    rintro _ rfl
    refine Yields.bind (hv u cl ts h7 (fun d hd => hc d (by simp [Ranged.cursors, hd])) (.inl h5)) ?_
    rintro _ rfl
    refine Yields.bind (Yields.tok (P' := fun y => y = cl) (Tests.kind.congr h5) rfl) ?_
    rintro _ rfl
    exact .pure rfl

/-! ### Media features -/

theorem mediaValue_yields {t : MediaType} {m : MediaValue} (hm : (t, m) ∈ [(MediaType.lengths, MediaValue.length), (.integers, .int), (.numbers, .float)]) {v c : Cursor} {ts : List Cursor}
    (h : t.Reads src v) (hc : Clear src v) : Yields src ([v] ++ c :: ts) m.parser (c :: ts) fun x => x = v := by
  simp only [List.mem_cons, Prod.mk.injEq, List.not_mem_nil, or_false] at hm
  rcases hm with ⟨rfl, rfl⟩ | ⟨rfl, rfl⟩ | ⟨rfl, rfl⟩
  · refine Yields.tok (Exactly.length.yes hc (Among.cons.mpr ?_)) rfl
    rcases h.1 with h | ⟨u, hu, h⟩
    · exact .inl h
    · refine .inr (Among.units.mpr ?_)
      have := h.has hc (plainName_spec ((by decide : ∀ u ∈ lengthUnits, plainName u = true) u hu))
      exact ⟨this.1, u, hu, this.2⟩
  · exact Yields.tok (Exactly.int.yes hc (Among.one.mpr h.1)) rfl
  · refine Yields.tok ?_ rfl
    exact Tests.pure.congr (by rw [show v.token.isKind .number = true from h.1, h.2 rfl]; rfl)

theorem mediaValue_first {t : MediaType} {v : Cursor} (h : t.Reads src v) : IsKind .number v ∨ IsKind .dimension v := by
  cases t with
  | lengths =>
    rcases h.1 with h | ⟨u, hu, h⟩
    · exact .inl h.1
    · exact .inr h.1
  | integers => exact .inl h.1.1
  | numbers => exact .inl h.1
  | words => exact h.1.elim
  | mqBoolean => exact h.1.elim

/-- What the table of hdx must say about a feature of the table of CSS. -/
def mediaRow : List Char × MediaType → Bool
  | (name, .words keys) => plainName name && mediaSpec name == some (labelOf name, .discrete name keys)
  | (name, .mqBoolean) => plainName name && mediaSpec name == some (labelOf name, .boolean name)
  | (name, .lengths) => ranged name .length
  | (name, .integers) => ranged name .int
  | (name, .numbers) => ranged name .float
where
  ranged (name : List Char) (m : MediaValue) : Bool := ((name :: if name.head? == some '-' then [] else minMax name).all fun s =>
    match mediaSpec s with
    | some (v, .ranged m' names legacy) => v == labelOf name && m' == m && (name :: minMax name).all (fun s => names.contains s && ((minMax name).contains s || !legacy.contains s))
    | _ => false)

theorem media_rows : ∀ row ∈ mediaTypes, mediaRow row = true := by decide +kernel

theorem range_row {name : List Char} {t : MediaType} {m : MediaValue} {s : List Char} (hr : mediaRow.ranged name m = true)
    (hm : (t, m) ∈ [(MediaType.lengths, MediaValue.length), (.integers, .int), (.numbers, .float)]) (hs : s ∈ name :: minMax name) (hp : name.head? = some '-' → s = name) :
    ∃ names legacy, mediaSpec s = some (labelOf name, .ranged m names legacy) ∧ ∀ s ∈ name :: minMax name, s ∈ names ∧ (s ∉ minMax name → legacy.contains s = false) := by
  have hs' : s ∈ name :: if name.head? == some '-' then [] else minMax name := by
    by_cases h : name.head? = some '-'
    · rw [hp h]; exact .head _
    · rw [if_neg (by simpa using h)]; exact hs
  have := List.all_eq_true.mp hr s hs'
  cases hsp : mediaSpec s with
  | none => rw [hsp] at this; cases this
  | some x =>
    obtain ⟨v, spec⟩ := x
    rw [hsp] at this
    cases spec with
    | ranged m' names legacy =>
      simp only [Bool.and_eq_true, beq_iff_eq, List.all_eq_true, Bool.or_eq_true, List.contains_iff_mem, Bool.not_eq_true'] at this
      obtain ⟨⟨rfl, rfl⟩, h⟩ := this
      refine ⟨names, legacy, rfl, fun x hx => ⟨(h x hx).1, fun hn => ?_⟩⟩
      rcases (h x hx).2 with h' | h'
      · exact absurd h' hn
      · exact h'
    | discrete => cases this
    | boolean => cases this
    | todo => cases this

/-- Where the name is, and what it is. -/
theorem ranged_named {names legacy : List (List Char)} {V : ν → Prop} {f : Ranged ν} (h : RangedLabel src names legacy V f) : IsKind .ident (rangedName f) ∧ ∃ s ∈ names, Named src (rangedName f) s := by
  cases f with
  | legacy o n c v cl => obtain ⟨_, ⟨s, k1, k2, k3⟩, _⟩ := h; exact ⟨k1, s, k3, k2⟩
  | left o n x v cl => obtain ⟨_, ⟨s, ⟨k1, k2, k3⟩, _⟩, _⟩ := h; exact ⟨k1, s, k3, k2⟩
  | right o v x n cl => obtain ⟨_, _, _, ⟨s, ⟨k1, k2, k3⟩, _⟩, _⟩ := h; exact ⟨k1, s, k3, k2⟩
  | range o v x n y u cl => obtain ⟨_, _, _, ⟨s, ⟨k1, k2, k3⟩, _⟩, _⟩ := h; exact ⟨k1, s, k3, k2⟩

theorem lower_yields {c : Cursor} {s : List Char} {ts ts' : List Cursor} {β : Type} {f : List Char → Prog β} {Q : β → Prop} (h : Named src c s) (hf : Yields src ts (f s) ts' Q) :
    Yields src ts (strLower c >>= f) ts' Q := by
  intro p hp
  obtain ⟨v, q, w, h1, h2, h3⟩ := hf hp
  exact ⟨v, q, _, gives_seq (Tests.lower h hp.source) h1, h2, h3⟩

theorem lower_tests {c : Cursor} {s : List Char} {b : Bool} {f : List Char → Prog Bool} (h : Named src c s) (hf : Tests src (f s) b) : Tests src (strLower c >>= f) b := by
  intro p hp
  exact gives_seq (w1 := []) (Tests.lower h hp) (hf hp)

/-- If the name is the second token. -/
theorem mediaFeature_second {o n : Cursor} {s v : List Char} {spec : MediaSpec} {ts ts' : List Cursor} {Q : MediaFeature → Prop} (hn : IsKind .ident n) (hs : Named src n s)
    (hsp : mediaSpec s = some (v, spec)) (h : Yields src (o :: n :: ts) (mediaFeatureOf v spec) ts' Q) : Yields src (o :: n :: ts) mediaFeature ts' Q := by
  unfold mediaFeature
  refine Yields.peekN (ts := [o]) rfl (Yields.pos hn (lower_yields hs ?_))
  rw [hsp]
  exact Yields.attempt h (fun _ _ => rfl) fun b hb => Yields.pure hb

/-- What `mediaFeature` does with the token it finds in the fourth or fifth place. -/
def mediaLater (n : Cursor) : Prog MediaFeature := do
  if !n.token.isKind .ident then do
    let c ← any
    fail .unexpected c
  else do
    let s ← strLower n
    match mediaSpec s with
    | none => fail .unexpectedIdent n
    | some (variant, spec) => mediaFeatureOf variant spec

/-- If it is the fourth or fifth. -/
theorem mediaFeature_later {o a n : Cursor} {x : Comparison} {s v : List Char} {spec : MediaSpec} {ts ts' : List Cursor} {Q : MediaFeature → Prop} (ha : IsKind .number a ∨ IsKind .dimension a)
    (hx : ComparisonLabel x) (hn : IsKind .ident n) (hs : Named src n s)
    (hsp : mediaSpec s = some (v, spec)) (h : Yields src (o :: a :: (x.cursors ++ n :: ts)) (mediaFeatureOf v spec) ts' Q) : Yields src (o :: a :: (x.cursors ++ n :: ts)) mediaFeature ts' Q := by
  unfold mediaFeature
  refine Yields.peekN (ts := [o]) rfl (Yields.neg ?_ ?_)
  · rcases ha with h | h <;> exact IsKind.other h (by decide) (by decide) (by decide)
  have four {c : Cursor} {β : Type} {f : Cursor → Prog β} {Q : β → Prop} (e : x.cursors = [c]) (h : Yields src (o :: a :: (x.cursors ++ n :: ts)) (f n) ts' Q) :
      Yields src (o :: a :: (x.cursors ++ n :: ts)) (peekN 4 >>= fun c4 => if c4.token.isKind .ident then (Pure.pure c4 : Prog Cursor) >>= f else peekN 5 >>= f) ts' Q := by
    rw [e] at h ⊢
    refine Yields.peekN (ts := [o, a, c]) rfl ?_
    rw [if_pos (show n.token.isKind .ident = true from hn)]
    exact h
  have five {c d : Cursor} {β : Type} {f : Cursor → Prog β} {Q : β → Prop} (e : x.cursors = [c, d]) (hd : IsDelim '=' d) (h : Yields src (o :: a :: (x.cursors ++ n :: ts)) (f n) ts' Q) :
      Yields src (o :: a :: (x.cursors ++ n :: ts)) (peekN 4 >>= fun c4 => if c4.token.isKind .ident then (Pure.pure c4 : Prog Cursor) >>= f else peekN 5 >>= f) ts' Q := by
    rw [e] at h ⊢
    refine Yields.peekN (ts := [o, a, c]) rfl ?_
    rw [if_neg (IsKind.other hd.1 (by decide) (by decide) (by decide))]
    exact Yields.peekN (ts := [o, a, c, d]) (rest := ts) rfl h
  have fin : Yields src (o :: a :: (x.cursors ++ n :: ts)) (mediaLater n) ts' Q := by
    unfold mediaLater
    refine Yields.neg (by simp [show n.token.isKind .ident = true from hn]) (lower_yields hs ?_)
    rw [hsp]
    exact h
  cases x with
  | equal c => exact four (f := mediaLater) rfl fin
  | lessThan c => exact four (f := mediaLater) rfl fin
  | greaterThan c => exact four (f := mediaLater) rfl fin
  | greaterThanEqual c d => exact five (f := mediaLater) rfl hx.2 fin
  | lessThanEqual c d => exact five (f := mediaLater) rfl hx.2 fin

theorem mediaFeature_ranged {name : List Char} {t : MediaType} {m : MediaValue} {f : Ranged Cursor} {ts : List Cursor}
    (hm : (t, m) ∈ [(MediaType.lengths, MediaValue.length), (.integers, .int), (.numbers, .float)]) (hr : mediaRow.ranged name m = true)
    (hf : RangedLabel src (name :: minMax name) (minMax name) (t.Reads src) f) (hw : RangedWhole f) (hp : name.head? = some '-' → Named src (rangedName f) name)
    (hc : ∀ c ∈ f.cursors fun v => [v], Clear src c) : Yields src ((f.cursors fun v => [v]) ++ ts) mediaFeature ts fun x => x = .ranged (labelOf name) f := by
  obtain ⟨hi, s, hs, hns⟩ := ranged_named hf
  obtain ⟨names, legacy, h1, h2⟩ := range_row hr hm hs (fun h => hns.same (hp h))
  have key : Yields src ((f.cursors fun v => [v]) ++ ts) (mediaFeatureOf (labelOf name) (.ranged m names legacy)) ts fun x => x = .ranged (labelOf name) f := by
    unfold mediaFeatureOf
    refine Yields.bind (ranged_yields (V := t.Reads src) (cur := fun v => [v]) (fun s hs => (h2 s hs).1) (fun s hs hn => (h2 s hs).2 hn) (fun v c ts hv hc _ => ?_) (fun v hv => ⟨v, [], rfl, mediaValue_first hv⟩)
      hf hw hc) ?_
    · exact mediaValue_yields hm hv (hc v (by simp))
    · rintro _ rfl
      exact .pure rfl
  cases f with
  | legacy o n c v cl => exact mediaFeature_second hi hns h1 key
  | left o n x v cl => exact mediaFeature_second hi hns h1 key
  | right o v x n cl =>
    have e : ((Ranged.right o v x n cl).cursors fun v => [v]) ++ ts = o :: v :: (x.cursors ++ n :: (cl :: ts)) := by simp [Ranged.cursors]
    rw [e] at key ⊢
    exact mediaFeature_later (mediaValue_first hf.2.1) hf.2.2.1 hi hns h1 key
  | range o v x n y u cl =>
    have e : ((Ranged.range o v x n y u cl).cursors fun v => [v]) ++ ts = o :: v :: (x.cursors ++ n :: (y.cursors ++ ([u] ++ cl :: ts))) := by simp [Ranged.cursors]
    rw [e] at key ⊢
    exact mediaFeature_later (mediaValue_first hf.2.1) hf.2.2.1 hi hns h1 key

theorem mediaFeature_yields {f : MediaFeature} {ts : List Cursor} (hf : FeatureRead src f) : Yields src (f.cursors ++ ts) mediaFeature ts fun x => x = f := by
  obtain ⟨hc, hf⟩ := hf
  cases f with
  | hack => exact hf.elim
  | discrete label f =>
    obtain ⟨name, keys, hr, rfl, hf⟩ := hf
    have := media_rows _ hr
    simp only [mediaRow, Bool.and_eq_true, beq_iff_eq] at this
    have key : Yields src ((f.cursors fun v => [v.2]) ++ ts) (mediaFeatureOf (labelOf name) (.discrete name keys)) ts fun x => x = .discrete (labelOf name) f := by
      unfold mediaFeatureOf
      refine Yields.bind (discrete_yields (V := KeywordLabel src keys) (cur := fun v : List Char × Cursor => [v.2]) (plainName_spec this.1) (fun v c ts hv hc _ => ?_) hf hc) ?_
      · exact keyword_yields'' hv.1 hv.2.1 (hc _ (by simp)) hv.2.2
      · rintro _ rfl
        exact .pure rfl
    cases f with
    | withValue o n c v cl => exact mediaFeature_second hf.2.1.1 (hf.2.1.2.named (hc n (by simp [MediaFeature.cursors, Feature.cursors])) (.inl hf.2.1.1) (plainName_spec this.1)) this.2 key
    | bare o n cl => exact mediaFeature_second hf.2.1.1 (hf.2.1.2.named (hc n (by simp [MediaFeature.cursors, Feature.cursors])) (.inl hf.2.1.1) (plainName_spec this.1)) this.2 key
  | boolean label f =>
    obtain ⟨name, hr, rfl, hf⟩ := hf
    have := media_rows _ hr
    simp only [mediaRow, Bool.and_eq_true, beq_iff_eq] at this
    have key : Yields src ((f.cursors fun v => [v]) ++ ts) (mediaFeatureOf (labelOf name) (.boolean name)) ts fun x => x = .boolean (labelOf name) f := by
      unfold mediaFeatureOf booleanFeature
      refine Yields.bind (discrete_yields (V := fun _ => True) (cur := fun v => [v]) (plainName_spec this.1) (fun v c ts hv hc _ => ?_) hf hc) ?_
      · exact Yields.tok (P' := fun x => x = v) Tests.pure rfl
      · rintro _ rfl
        exact .pure rfl
    cases f with
    | withValue o n c v cl => exact mediaFeature_second hf.2.1.1 (hf.2.1.2.named (hc n (by simp [MediaFeature.cursors, Feature.cursors])) (.inl hf.2.1.1) (plainName_spec this.1)) this.2 key
    | bare o n cl => exact mediaFeature_second hf.2.1.1 (hf.2.1.2.named (hc n (by simp [MediaFeature.cursors, Feature.cursors])) (.inl hf.2.1.1) (plainName_spec this.1)) this.2 key
  | ranged label f =>
    obtain ⟨name, t, hr, rfl, hf, hw, hp⟩ := hf
    have hrow := media_rows _ hr
    cases t with
    | lengths => exact mediaFeature_ranged (t := .lengths) (m := .length) (by simp) hrow hf hw hp hc
    | integers => exact mediaFeature_ranged (t := .integers) (m := .int) (by simp) hrow hf hw hp hc
    | numbers => exact mediaFeature_ranged (t := .numbers) (m := .float) (by simp) hrow hf hw hp hc
    | words keys =>
      cases f with
      | legacy o n c v cl => exact (hf.2.2.2.1.1).elim
      | left o n x v cl => exact (hf.2.2.2.1.1).elim
      | right o v x n cl => exact (hf.2.1.1).elim
      | range o v x n y u cl => exact (hf.2.1.1).elim
    | mqBoolean =>
      cases f with
      | legacy o n c v cl => exact (hf.2.2.2.1.1).elim
      | left o n x v cl => exact (hf.2.2.2.1.1).elim
      | right o v x n cl => exact (hf.2.1.1).elim
      | range o v x n y u cl => exact (hf.2.1.1).elim

/-! ### Conditions -/

theorem condition_yields {feature : Prog φ} {cur : φ → List Cursor} {F : φ → Prop} {fuel : Nat} {x : Condition φ} {c : Cursor} {ts : List Cursor}
    (hF : ∀ f ts, F f → Yields src (cur f ++ ts) feature ts fun y => y = f) (hfst : ∀ f, F f → ∃ o r, cur f = o :: r ∧ IsKind .leftParen o) (hx : ConditionRead src F x)
    (hc : IsKind .leftCurly c) : Yields src (x.cursors cur ++ c :: ts) (condition feature (fuel + 1)) (c :: ts) fun y => y = x := by
  have no {k : Kind} {d : Cursor} (h : IsKind k d) (h1 : k ≠ .eof) (h2 : k ≠ .ident) (h3 : k ≠ .function) (h4 : k ≠ .dimension) : Tests src (isKeyword CONDITION_KEYWORDS d) false := by
    refine Exactly.no Exactly.words (clear_of_kind h h1 h2 h3 h4) ?_
    rw [Among.words]
    exact fun h' => IsKind.other h h1 (by decide) h2 h'.1
  have loop {f g : φ} {k : Cursor} (hg : F g) : Yields src (cur g ++ c :: ts) (conditionLoop feature (fuel + 1) [] f k) (c :: ts) fun y => y = [(f, some k), (g, none)] := by
    unfold conditionLoop
    refine Yields.bind (hF g _ hg) ?_
    rintro _ rfl
    exact Yields.peek (Yields.test (no hc (by decide) (by decide) (by decide) (by decide)) (Yields.neg (by decide) (Yields.pure rfl)))
  cases x with
  | not => exact hx.elim
  | is f =>
    obtain ⟨o, r, e, ho⟩ := hfst f hx
    have step := hF f (c :: ts) hx
    show Yields src (cur f ++ c :: ts) _ _ _
    unfold condition
    rw [e] at step ⊢
    refine Yields.peek (Yields.test (no ho (by decide) (by decide) (by decide) (by decide)) (Yields.neg (by decide) (Yields.bind step ?_)))
    rintro _ rfl
    refine Yields.bind (Yields.ifPeek_none (no hc (by decide) (by decide) (by decide) (by decide))) ?_
    rintro _ rfl
    exact Yields.pure rfl
  | and fs =>
    obtain ⟨f, k, g, rfl, hf, hg, hk, hkc⟩ := hx
    have e : (Condition.and [(f, some k), (g, none)]).cursors cur ++ c :: ts = cur f ++ k :: (cur g ++ c :: ts) := by simp [Condition.cursors, chainCursors]
    rw [e]
    unfold condition
    obtain ⟨o, r, e, ho⟩ := hfst f hf
    have step := hF f (k :: (cur g ++ c :: ts)) hf
    rw [e] at step ⊢
    refine Yields.peek (Yields.test (no ho (by decide) (by decide) (by decide) (by decide)) (Yields.neg (by decide) (Yields.bind step ?_)))
    rintro _ rfl
    refine Yields.bind (Yields.ifPeek_some (Exactly.words.yes hkc (Among.words.mpr ⟨hk.1, _, by decide, hk.2⟩)) (keyword_yields'' hk.1 hk.2 hkc (by decide))) ?_
    rintro _ ⟨_, rfl, rfl⟩
    refine Yields.pos rfl (Yields.bind (loop hg) ?_)
    rintro _ rfl
    exact Yields.pure rfl
  | or fs =>
    obtain ⟨f, k, g, rfl, hf, hg, hk, hkc⟩ := hx
    have e : (Condition.or [(f, some k), (g, none)]).cursors cur ++ c :: ts = cur f ++ k :: (cur g ++ c :: ts) := by simp [Condition.cursors, chainCursors]
    rw [e]
    unfold condition
    obtain ⟨o, r, e, ho⟩ := hfst f hf
    have step := hF f (k :: (cur g ++ c :: ts)) hf
    rw [e] at step ⊢
    refine Yields.peek (Yields.test (no ho (by decide) (by decide) (by decide) (by decide)) (Yields.neg (by decide) (Yields.bind step ?_)))
    rintro _ rfl
    refine Yields.bind (Yields.ifPeek_some (Exactly.words.yes hkc (Among.words.mpr ⟨hk.1, _, by decide, hk.2⟩)) (keyword_yields'' hk.1 hk.2 hkc (by decide))) ?_
    rintro _ ⟨_, rfl, rfl⟩
    refine Yields.neg (by decide) (Yields.pos rfl (Yields.bind (loop hg) ?_))
    rintro _ rfl
    exact Yields.pure rfl

theorem condition_first {cur : φ → List Cursor} {F : φ → Prop} {x : Condition φ} (hfst : ∀ f, F f → ∃ o r, cur f = o :: r ∧ IsKind .leftParen o) (hx : ConditionRead src F x) :
    ∃ o r, x.cursors cur = o :: r ∧ IsKind .leftParen o := by
  cases x with
  | not => exact hx.elim
  | is f => exact hfst f hx
  | and fs =>
    obtain ⟨f, k, g, rfl, hf, _⟩ := hx
    obtain ⟨o, r, e, ho⟩ := hfst f hf
    exact ⟨o, _, by simp [Condition.cursors, chainCursors, e]; rfl, ho⟩
  | or fs =>
    obtain ⟨f, k, g, rfl, hf, _⟩ := hx
    obtain ⟨o, r, e, ho⟩ := hfst f hf
    exact ⟨o, _, by simp [Condition.cursors, chainCursors, e]; rfl, ho⟩

/-! ### Media queries -/

theorem feature_first {name : List Char} {V : ν → Prop} {cur : ν → List Cursor} {f : Feature ν} (h : FeatureLabel src name V f) : ∃ o r, f.cursors cur = o :: r ∧ IsKind .leftParen o := by
  cases f with
  | withValue o n c v cl => exact ⟨o, _, rfl, h.1⟩
  | bare o n cl => exact ⟨o, _, rfl, h.1⟩

theorem ranged_first {names legacy : List (List Char)} {V : ν → Prop} {cur : ν → List Cursor} {f : Ranged ν} (h : RangedLabel src names legacy V f) : ∃ o r, f.cursors cur = o :: r ∧ IsKind .leftParen o := by
  cases f with
  | legacy o n c v cl => exact ⟨o, _, rfl, h.1⟩
  | left o n x v cl => exact ⟨o, _, rfl, h.1⟩
  | right o v x n cl => exact ⟨o, _, rfl, h.1⟩
  | range o v x n y u cl => exact ⟨o, _, rfl, h.1⟩

theorem mediaFeature_first {f : MediaFeature} (h : FeatureRead src f) : ∃ o r, f.cursors = o :: r ∧ IsKind .leftParen o := by
  obtain ⟨_, h⟩ := h
  cases f with
  | hack => exact h.elim
  | discrete label f => obtain ⟨_, _, _, _, h⟩ := h; exact feature_first h
  | boolean label f => obtain ⟨_, _, _, h⟩ := h; exact feature_first h
  | ranged label f => obtain ⟨_, _, _, _, h, _⟩ := h; exact ranged_first h

theorem queryRest_yields {fuel : Nat} {q : MediaQuery} {c : Cursor} {ts : List Cursor} (ha : ∀ c ∈ q.and, IsWord src c!"and" c ∧ Clear src c)
    (hq : ∀ x ∈ q.condition, ConditionRead src (FeatureRead src) x) (hb : q.and.isSome ↔ q.condition.isSome) (hc : IsKind .leftCurly c) :
    Yields src (q.and.toList ++ (q.condition.map (Condition.cursors MediaFeature.cursors)).getD [] ++ c :: ts) (mediaQueryRest (fuel + 1) q.precondition q.mediaType) (c :: ts) fun y => y = q := by
  obtain ⟨pre, ty, and, cond⟩ := q
  unfold mediaQueryRest
  cases and with
  | none =>
    cases cond with
    | some x => simp at hb
    | none =>
      show Yields src (c :: ts) _ _ _
      refine Yields.peekN (ts := []) rfl ?_
      dsimp only
      rw [if_neg (IsKind.other hc (by decide) (by decide) (by decide))]
      exact Yields.test (b := false) Tests.pure (Yields.neg (by decide) (Yields.pure rfl))
  | some a =>
    cases cond with
    | none => simp at hb
    | some x =>
      obtain ⟨h1, h2⟩ := ha a rfl
      show Yields src (a :: (x.cursors MediaFeature.cursors ++ c :: ts)) _ _ _
      refine Yields.peekN (ts := []) rfl ?_
      dsimp only
      rw [if_pos (show a.token.isKind .ident = true from h1.1)]
      refine Yields.test (Tests.eqCase (eqCase_named h1.1 h2 (plainName_spec (by decide)) h1.2)) (Yields.pos rfl (Yields.bind (Yields.tok (P' := fun y => y = a) (Tests.kind.congr h1.1) rfl) ?_))
      rintro _ rfl
      refine Yields.bind (condition_yields (F := FeatureRead src) (fun f ts hf => mediaFeature_yields hf) (fun f hf => mediaFeature_first hf) (hq x rfl) hc) ?_
      rintro _ rfl
      exact .pure rfl

theorem mediaType_yields {t : Option (List Char) × Cursor} {ts ts' : List Cursor} {β : Type} {f : Option (List Char) × Cursor → Prog β} {g : Prog β} {Q : β → Prop} (ht : MediaTypeLabel src t)
    (h : Yields src ts (f t) ts' Q) : Yields src ts (isMediaType t.2 >>= fun b => if b then buildMediaType t.2 >>= f else g) ts' Q := by
  have key {s : List Char} (hi : IsKind .ident t.2) (hs : Named src t.2 s) (hno : s ∉ NOT_MEDIA_TYPES)
      (hb : (if MEDIA_TYPES.contains s then (Pure.pure (some s, t.2) : Prog (Option (List Char) × Cursor)) else if NOT_MEDIA_TYPES.contains s then .panic .unwrap else Pure.pure (none, t.2)) = Pure.pure t) :
      Yields src ts (isMediaType t.2 >>= fun b => if b then buildMediaType t.2 >>= f else g) ts' Q := by
    unfold isMediaType buildMediaType
    rw [if_pos (show t.2.token.isKind .ident = true from hi)]
    refine Yields.test (b := true) (lower_tests hs ?_) (Yields.pos rfl (Yields.bind (P := fun x => x = t) (ts1 := ts) (lower_yields hs ?_) fun x hx => ?_))
    · exact Tests.pure.congr (by simpa using hno)
    · rw [hb]; exact Yields.pure rfl
    · subst hx; exact h
  obtain ⟨k, c⟩ := t
  cases k with
  | some k =>
    obtain ⟨h1, h2, h3⟩ := ht
    refine key h1 h2 ?_ ?_
    · have : ∀ k ∈ [c!"all", c!"print", c!"screen"], k ∉ NOT_MEDIA_TYPES := by decide
      exact this k h3
    · exact if_pos (List.contains_iff_mem.mpr h3)
  | none =>
    obtain ⟨h1, s, h2, h3⟩ := ht
    have : ∀ k ∈ MEDIA_TYPES ++ NOT_MEDIA_TYPES, k ∈ [c!"all", c!"print", c!"screen", c!"not", c!"only", c!"and", c!"or", c!"layer"] := by decide
    have hn : s ∉ NOT_MEDIA_TYPES := fun hs => h3 (this s (List.mem_append_right _ hs))
    have hm : s ∉ MEDIA_TYPES := fun hs => h3 (this s (List.mem_append_left _ hs))
    refine key h1 h2 hn ?_
    rw [if_neg (by simpa using hm), if_neg (by simpa using hn)]

theorem mediaType_ident {t : Option (List Char) × Cursor} (ht : MediaTypeLabel src t) : IsKind .ident t.2 := by
  obtain ⟨k, c⟩ := t
  cases k with
  | some k => exact ht.1
  | none => exact ht.1

theorem mediaType_not {t : Option (List Char) × Cursor} (ht : MediaTypeLabel src t) (hc : Clear src t.2) : Tests src (isKeyword MEDIA_PRECONDITIONS t.2) false := by
  refine Exactly.no Exactly.words hc ?_
  rw [Among.words]
  rintro ⟨_, s, hs, hn⟩
  obtain ⟨k, c⟩ := t
  cases k with
  | some k =>
    cases hn.same ht.2.1
    have : ∀ k ∈ [c!"all", c!"print", c!"screen"], k ∉ MEDIA_PRECONDITIONS := by decide
    exact this _ ht.2.2 hs
  | none =>
    obtain ⟨_, s', h2, h3⟩ := ht
    cases hn.same h2
    have : ∀ k ∈ MEDIA_PRECONDITIONS, k ∈ [c!"all", c!"print", c!"screen", c!"not", c!"only", c!"and", c!"or", c!"layer"] := by decide
    exact h3 (this s hs)

theorem mediaQuery_yields {fuel : Nat} {q : MediaQuery} {c : Cursor} {ts : List Cursor} (hq : QueryRead src q) (hc : IsKind .leftCurly c) :
    Yields src (q.cursors ++ c :: ts) (mediaQuery (fuel + 1)) (c :: ts) fun y => y = q := by
  obtain ⟨h1, h2, h3, h4, h5⟩ := hq
  unfold mediaQuery
  rcases h5 with ⟨e1, e2, e3, e4⟩ | ⟨e1, e2⟩
  · obtain ⟨pre, ty, and, cond⟩ := q
    cases e1; cases e2; cases e3
    cases cond with
    | none => cases e4
    | some x =>
      obtain ⟨o, r, e, ho⟩ := condition_first (F := FeatureRead src) (cur := MediaFeature.cursors) (fun f hf => mediaFeature_first hf) (h4 x rfl)
      have step := condition_yields (ts := ts) (fuel := fuel) (F := FeatureRead src) (fun f ts hf => mediaFeature_yields hf) (fun f hf => mediaFeature_first hf) (h4 x rfl) hc
      show Yields src (x.cursors MediaFeature.cursors ++ c :: ts) _ _ _
      rw [e] at step ⊢
      refine Yields.peek (Yields.pos ho (Yields.bind step ?_))
      rintro _ rfl
      exact .pure rfl
  · have rest := queryRest_yields (ts := ts) (fuel := fuel) (q := q) h3 h4 e2 hc
    obtain ⟨pre, ty, and, cond⟩ := q
    cases ty with
    | none => cases e1
    | some t =>
      have ht := (h2 t rfl).1
      have hi := mediaType_ident ht
      cases pre with
      | none =>
        show Yields src (t.2 :: (and.toList ++ (cond.map (Condition.cursors MediaFeature.cursors)).getD [] ++ c :: ts)) _ _ _
        refine Yields.peek (Yields.neg (IsKind.other hi (by decide) (by decide) (by decide)) (Yields.bind (Yields.tok (P' := fun y => y = t.2) (Tests.kind.congr hi) rfl) ?_))
        rintro _ rfl
        exact Yields.test (mediaType_not ht (h2 t rfl).2) (Yields.neg (by decide) (mediaType_yields ht rest))
      | some k =>
        obtain ⟨k1, k2⟩ := h1 k rfl
        show Yields src (k.2 :: t.2 :: (and.toList ++ (cond.map (Condition.cursors MediaFeature.cursors)).getD [] ++ c :: ts)) _ _ _
        refine Yields.peek (Yields.neg (IsKind.other k1.1 (by decide) (by decide) (by decide)) (Yields.bind (Yields.tok (P' := fun y => y = k.2) (Tests.kind.congr k1.1) rfl) ?_))
        rintro _ rfl
        refine Yields.test (Exactly.words.yes k2 (Among.words.mpr ⟨k1.1, k.1, k1.2.2, k1.2.1⟩)) (Yields.pos rfl (Yields.bind (build_yields k1.2.1 k1.2.2) ?_))
        rintro _ rfl
        refine Yields.peek (Yields.pos hi (Yields.bind (Yields.tok (P' := fun y => y = t.2) (Tests.kind.congr hi) rfl) ?_))
        rintro _ rfl
        exact mediaType_yields ht rest

theorem preludeOne_yields {α : Type} {item : Prog α} {a : α} {ts : List Cursor} {c : Cursor} {rest : List Cursor} {fuel : Nat} (hc : IsKind .leftCurly c)
    (h : Yields src (ts ++ c :: rest) item (c :: rest) fun x => x = a) : Yields src (ts ++ c :: rest) (preludeList item (fuel + 1)) (c :: rest) fun x => x = [a] := by
  unfold preludeList preludeLoop
  refine Yields.bind h ?_
  rintro _ rfl
  exact Yields.peek (Yields.pos ((inSet_of_kind (by decide) hc).trans (by decide)) (Yields.pure rfl))

/-! ### Containers -/

theorem ratio_yields {r : Ratio} {c : Cursor} {ts : List Cursor} (hr : RatioLabel r) (hcl : ∀ c ∈ r.cursors, Clear src c) (hc : AfterValue c) :
    Yields src (r.cursors ++ c :: ts) Hdx.ratio (c :: ts) fun x => x = r := by
  have int {v : Cursor} {ts : List Cursor} (hv : IsInteger v) (hcv : Clear src v) : Yields src (v :: ts) (Prog.tok isCssInt) ts fun x => x = v := Yields.tok (Exactly.int.yes hcv (Among.one.mpr hv)) rfl
  obtain ⟨n, s, d⟩ := r
  obtain ⟨h1, ⟨h2, h3⟩ | ⟨s', d', h2, h3, h4, h5⟩⟩ := hr
  · cases h2; cases h3
    show Yields src (n :: c :: ts) _ _ _
    unfold Hdx.ratio
    refine Yields.bind (int h1 (hcl _ (by simp [Ratio.cursors]))) ?_
    rintro _ rfl
    refine Yields.bind (Yields.ifPeek_none (test := Prog.isDelim '/') (Tests.pure.congr ?_)) ?_
    · rcases hc with h | h | h | h
      · rw [show c.token.isKind .delim = false from Bool.eq_false_iff.mpr (IsKind.other h (by decide) (by decide) (by decide))]; rfl
      all_goals rw [show c.token.isChar '/' = false from Bool.eq_false_iff.mpr fun hh => by have := (isChar_iff.mp hh).symm.trans (char_of h); simp at this]; exact Bool.and_false _
    · rintro _ rfl
      exact Yields.neg (by simp) (.pure rfl)
  · cases h2; cases h3
    show Yields src (n :: s' :: d' :: c :: ts) _ _ _
    unfold Hdx.ratio
    refine Yields.bind (int h1 (hcl _ (by simp [Ratio.cursors]))) ?_
    rintro _ rfl
    refine Yields.bind (Yields.ifPeek_some (isDelim_tests h4) (Yields.tok (P' := fun y => y = s') (isDelim_tests h4) rfl)) ?_
    rintro _ ⟨_, rfl, rfl⟩
    refine Yields.pos rfl (Yields.bind (int h5 (hcl _ (by simp [Ratio.cursors]))) ?_)
    rintro _ rfl
    exact .pure rfl

theorem containerOf_yields {n : Cursor} {k : List Char} {ts ts' : List Cursor} {Q : ContainerFeature → Prop} (hi : IsKind .ident n) (hn : Named src n k) (hc : Clear src n) (hk : k ∈ CONTAINER_FEATURES)
    (h : Yields src ts (if k == c!"aspect-ratio" then (rangedFeature [c!"aspect-ratio"] (fun _ => false) Hdx.ratio >>= fun f => Pure.pure (ContainerFeature.ratio f))
      else if k == c!"orientation" then (discreteFeature c!"orientation" (keyword [c!"portrait", c!"landscape"]) >>= fun f => Pure.pure (ContainerFeature.orientation f))
      else (rangedFeature [k] (fun _ => false) (Prog.tok isLength) >>= fun f => Pure.pure (ContainerFeature.length k f))) ts' Q) : Yields src ts (containerFeatureOf n) ts' Q := by
  unfold containerFeatureOf
  refine Yields.test (Exactly.words.yes hc (Among.words.mpr ⟨hi, k, hk, hn⟩)) (Yields.pos rfl (Yields.bind (build_yields hn hk) ?_))
  rintro _ rfl
  exact h

theorem containerFeature_second {o n : Cursor} {ts ts' : List Cursor} {Q : ContainerFeature → Prop} (ho : IsKind .leftParen o) (hn : IsKind .ident n)
    (h : Yields src (o :: n :: ts) (containerFeatureOf n) ts' Q) : Yields src (o :: n :: ts) containerFeature ts' Q := by
  unfold containerFeature
  exact Yields.peek (Yields.neg (IsKind.other ho (by decide) (by decide) (by decide)) (Yields.peekN (ts := [o]) rfl (Yields.pos hn h)))

theorem containerFeature_fourth {o a b n : Cursor} {ts ts' : List Cursor} {Q : ContainerFeature → Prop} (ho : IsKind .leftParen o) (ha : IsKind .number a ∨ IsKind .dimension a) (hb : IsKind .delim b)
    (h : Yields src (o :: a :: b :: n :: ts) (containerFeatureOf n) ts' Q) : Yields src (o :: a :: b :: n :: ts) containerFeature ts' Q := by
  unfold containerFeature
  refine Yields.peek (Yields.neg (IsKind.other ho (by decide) (by decide) (by decide)) (Yields.peekN (ts := [o]) rfl (Yields.neg ?_ (Yields.peekN (ts := [o, a]) rfl ?_))))
  · rcases ha with h | h <;> exact IsKind.other h (by decide) (by decide) (by decide)
  · exact Yields.neg (IsKind.other hb (by decide) (by decide) (by decide)) (Yields.peekN (ts := [o, a, b]) rfl h)

theorem containerRanged_yields {V : ν → Prop} {cur : ν → List Cursor} {k : List Char} {f : Ranged ν} {ts ts' : List Cursor} {Q : ContainerFeature → Prop}
    (hfst : ∀ v, V v → ∃ c r, cur v = c :: r ∧ (IsKind .number c ∨ IsKind .dimension c))
    (hf : RangedLabel src [k] [] V f) (hp : ContainerFeatureRead.FourthPlace f cur)
    (h : Yields src (f.cursors cur ++ ts) (containerFeatureOf (rangedName f)) ts' Q) : Yields src (f.cursors cur ++ ts) containerFeature ts' Q := by
  have hi := (ranged_named hf).1
  have one {l : List Cursor} (h : l.length = 1) : ∃ c, l = [c] := by
    cases l with
    | nil => cases h
    | cons c r => cases r with
      | nil => exact ⟨c, rfl⟩
      | cons => simp at h
  have delim {x : Comparison} {b : Cursor} (h : ComparisonLabel x) (e : x.cursors = [b]) : IsKind .delim b := by
    obtain ⟨c, r, e', hc⟩ := comparison_first h
    rw [e] at e'
    cases e'
    rcases hc with h | h | h <;> exact h.1
  cases f with
  | legacy o n c v cl => exact containerFeature_second hf.1 hi h
  | left o n x v cl => exact containerFeature_second hf.1 hi h
  | right o v x n cl =>
    obtain ⟨h1, h2, h3, _⟩ := hf
    obtain ⟨a, ea⟩ := one hp.1
    obtain ⟨b, eb⟩ := one hp.2
    have e : (Ranged.right o v x n cl).cursors cur ++ ts = o :: a :: b :: n :: (cl :: ts) := by simp [Ranged.cursors, ea, eb]
    rw [e] at h ⊢
    obtain ⟨c, r, e', hc⟩ := hfst v h2
    rw [ea] at e'
    cases e'
    exact containerFeature_fourth h1 hc (delim h3 eb) h
  | range o v x n y u cl =>
    obtain ⟨h1, h2, h3, _⟩ := hf
    obtain ⟨a, ea⟩ := one hp.1
    obtain ⟨b, eb⟩ := one hp.2
    have e : (Ranged.range o v x n y u cl).cursors cur ++ ts = o :: a :: b :: n :: (y.cursors ++ (cur u ++ cl :: ts)) := by simp [Ranged.cursors, ea, eb]
    rw [e] at h ⊢
    obtain ⟨c, r, e', hc⟩ := hfst v h2
    rw [ea] at e'
    cases e'
    exact containerFeature_fourth h1 hc (delim h3 eb) h

theorem rangedName_mem {cur : ν → List Cursor} {f : Ranged ν} : rangedName f ∈ f.cursors cur := by
  cases f <;> simp [rangedName, Ranged.cursors]

theorem containerFeature_yields {f : ContainerFeature} {ts : List Cursor} (hf : ContainerFeatureRead src f) : Yields src (f.cursors ++ ts) containerFeature ts fun x => x = f := by
  obtain ⟨hc, hl, hf⟩ := hf
  cases f with
  | length name f =>
    obtain ⟨hn, hl⟩ := hl
    obtain ⟨hi, s, hs, hns⟩ := ranged_named hl
    cases List.mem_singleton.mp hs
    have first : ∀ v, IsLength src v → ∃ c r, [v] = c :: r ∧ (IsKind .number c ∨ IsKind .dimension c) := fun v hv => ⟨v, [], rfl, mediaValue_first (t := .lengths) ⟨hv, nofun⟩⟩
    refine containerRanged_yields (cur := fun v => [v]) first hl hf.2 (containerOf_yields hi hns (hc _ rangedName_mem) ?_ ?_)
    · exact (by decide : ∀ k ∈ [c!"width", c!"height", c!"inline-size", c!"block-size"], k ∈ CONTAINER_FEATURES) _ hn
    · rw [if_neg ((by decide : ∀ k ∈ [c!"width", c!"height", c!"inline-size", c!"block-size"], ¬ (k == c!"aspect-ratio") = true) _ hn),
        if_neg ((by decide : ∀ k ∈ [c!"width", c!"height", c!"inline-size", c!"block-size"], ¬ (k == c!"orientation") = true) _ hn)]
      refine Yields.bind (ranged_yields (cur := fun v => [v]) (V := IsLength src) (fun _ h => h) (fun _ _ _ => rfl) (fun v c ts hv hc _ => ?_) first hl hf.1 hc) ?_
      · exact mediaValue_yields (t := .lengths) (m := .length) (by simp) ⟨hv, nofun⟩ (hc v (by simp))
      · rintro _ rfl
        exact .pure rfl
  | ratio f =>
    obtain ⟨hi, s, hs, hns⟩ := ranged_named hl
    cases List.mem_singleton.mp hs
    have first : ∀ r, RatioLabel r → ∃ c t, r.cursors = c :: t ∧ (IsKind .number c ∨ IsKind .dimension c) := fun r hr => ⟨_, _, rfl, .inl hr.1.1⟩
    refine containerRanged_yields (cur := Ratio.cursors) first hl hf.2 (containerOf_yields hi hns (hc _ rangedName_mem) (by decide) ?_)
    rw [if_pos (by decide)]
    refine Yields.bind (ranged_yields (cur := Ratio.cursors) (V := RatioLabel) (fun _ h => h) (fun _ _ _ => rfl) (fun v c ts hv hc ha => ratio_yields hv hc ha) first hl hf.1 hc) ?_
    rintro _ rfl
    exact .pure rfl
  | orientation f =>
    have key : Yields src ((f.cursors fun v => [v.2]) ++ ts) (discreteFeature c!"orientation" (keyword [c!"portrait", c!"landscape"]) >>= fun f => Pure.pure (ContainerFeature.orientation f)) ts
        fun x => x = .orientation f := by
      refine Yields.bind (discrete_yields (V := KeywordLabel src [c!"portrait", c!"landscape"]) (cur := fun v : List Char × Cursor => [v.2]) (plainName_spec (by decide)) (fun v c ts hv hc _ => ?_) hl hc) ?_
      · exact keyword_yields'' hv.1 hv.2.1 (hc _ (by simp)) hv.2.2
      · rintro _ rfl
        exact .pure rfl
    have of {o n : Cursor} {r : List Cursor} (e : (f.cursors fun v => [v.2]) ++ ts = o :: n :: r) (ho : IsKind .leftParen o) (hn : IsWord src c!"orientation" n) (hcn : Clear src n) :
        Yields src ((f.cursors fun v => [v.2]) ++ ts) containerFeature ts fun x => x = .orientation f := by
      rw [e] at key ⊢
      refine containerFeature_second ho hn.1 (containerOf_yields (k := c!"orientation") hn.1 (hn.2.named hcn (.inl hn.1) (plainName_spec (by decide))) hcn (by decide) ?_)
      rw [if_neg (by decide), if_pos (by decide)]
      exact key
    cases f with
    | withValue o n c v cl => exact of rfl hl.1 hl.2.1 (hc n (by simp [ContainerFeature.cursors, Feature.cursors]))
    | bare o n cl => exact of rfl hl.1 hl.2.1 (hc n (by simp [ContainerFeature.cursors, Feature.cursors]))

theorem containerFeature_first {f : ContainerFeature} (h : ContainerFeatureRead src f) : ∃ o r, f.cursors = o :: r ∧ IsKind .leftParen o := by
  obtain ⟨_, h, _⟩ := h
  cases f with
  | length name f => exact ranged_first h.2
  | ratio f => exact ranged_first h
  | orientation f => exact feature_first h

theorem containers_cases {qs : List ContainerCondition} (h : ContainersRead src qs) :
    (∃ n, qs = [⟨some n, none⟩] ∧ ContainersRead.Name src n) ∨ (∃ q, qs = [⟨none, some q⟩] ∧ ConditionRead src (ContainerFeatureRead src) q) ∨
    ∃ n q, qs = [⟨some n, none⟩, ⟨none, some q⟩] ∧ ContainersRead.Name src n ∧ ConditionRead src (ContainerFeatureRead src) q := by
  unfold ContainersRead at h
  split at h
  · exact .inl ⟨_, rfl, h⟩
  · exact .inr (.inl ⟨_, rfl, h⟩)
  · exact .inr (.inr ⟨_, _, rfl, h⟩)
  · exact h.elim

theorem containers_yields {fuel fuel' : Nat} {qs : List ContainerCondition} {c : Cursor} {ts : List Cursor} (hq : ContainersRead src qs) (hc : IsKind .leftCurly c) :
    Yields src ((qs.map ContainerCondition.cursors).flatten ++ c :: ts) (preludeList (containerCondition (fuel' + 1)) (fuel + 2)) (c :: ts) fun x => x = qs := by
  have name {n : Cursor} {d : Cursor} {r : List Cursor} (hn : ContainersRead.Name src n) (hd : IsKind .leftCurly d ∨ IsKind .leftParen d) :
      Yields src (n :: d :: r) (containerCondition (fuel' + 1)) (d :: r) fun x => x = ⟨some n, none⟩ := by
    obtain ⟨h1, h2, s, h3, h4⟩ := hn
    unfold containerCondition
    refine Yields.peekN (ts := []) rfl ?_
    dsimp only
    rw [if_pos (show n.token.isKind .ident = true from h1)]
    refine lower_yields h3 (Yields.test (b := true) (Tests.pure.congr ?_) (Yields.pos rfl (Yields.bind (Yields.tok (P' := fun y => y = n) (Tests.kind.congr h1) rfl) ?_)))
    · simpa [NOT_CONTAINER_NAMES] using h4
    · rintro _ rfl
      refine Yields.bind (Yields.ifPeek_none (test := fun c => Pure.pure (c.token.isKind .function || c.token.isKind .ident)) (Tests.pure.congr ?_)) ?_
      · rcases hd with h | h
        all_goals
          rw [show d.token.isKind .function = false from Bool.eq_false_iff.mpr (IsKind.other h (by decide) (by decide) (by decide)),
            show d.token.isKind .ident = false from Bool.eq_false_iff.mpr (IsKind.other h (by decide) (by decide) (by decide))]
          rfl
      · rintro _ rfl
        exact .pure rfl
  have query {q : Condition ContainerFeature} (hq : ConditionRead src (ContainerFeatureRead src) q) :
      Yields src (q.cursors ContainerFeature.cursors ++ c :: ts) (containerCondition (fuel' + 1)) (c :: ts) fun x => x = ⟨none, some q⟩ := by
    obtain ⟨o, r, e, ho⟩ := condition_first (F := ContainerFeatureRead src) (cur := ContainerFeature.cursors) (fun f hf => containerFeature_first hf) hq
    have step := condition_yields (ts := ts) (fuel := fuel') (F := ContainerFeatureRead src) (fun f ts hf => containerFeature_yields hf) (fun f hf => containerFeature_first hf) hq hc
    unfold containerCondition
    rw [e] at step ⊢
    refine Yields.peekN (ts := []) rfl ?_
    dsimp only
    rw [if_neg (IsKind.other ho (by decide) (by decide) (by decide))]
    refine Yields.test (b := false) Tests.pure (Yields.neg (by decide) (Yields.bind step ?_))
    rintro _ rfl
    exact .pure rfl
  have stop {xs : List ContainerCondition} {a : ContainerCondition} {d : Cursor} {r : List Cursor} {n : Nat} (hd : IsKind .leftCurly d) :
      Yields src (d :: r) (Prog.peek >>= fun c => if c.token.inSet KindSet.LEFT_CURLY_OR_SEMICOLON then Pure.pure (xs ++ [a]) else preludeLoop (containerCondition (fuel' + 1)) n (xs ++ [a])) (d :: r)
        fun x => x = xs ++ [a] := Yields.peek (Yields.pos ((inSet_of_kind (by decide) hd).trans (by decide)) (Yields.pure rfl))
  unfold preludeList
  rcases containers_cases hq with ⟨n, rfl, hn⟩ | ⟨q, rfl, hq⟩ | ⟨n, q, rfl, hn, hq⟩
  · show Yields src (n :: c :: ts) _ _ _
    unfold preludeLoop
    refine Yields.bind (name hn (.inl hc)) ?_
    rintro _ rfl
    exact stop (xs := []) hc
  · have e : ([⟨none, some q⟩] : List ContainerCondition).map ContainerCondition.cursors = [q.cursors ContainerFeature.cursors] := rfl
    rw [e, List.flatten_singleton]
    unfold preludeLoop
    refine Yields.bind (query hq) ?_
    rintro _ rfl
    exact stop (xs := []) hc
  · have e : (([⟨some n, none⟩, ⟨none, some q⟩] : List ContainerCondition).map ContainerCondition.cursors).flatten ++ c :: ts = n :: (q.cursors ContainerFeature.cursors ++ c :: ts) := by
      simp [ContainerCondition.cursors]
    rw [e]
    obtain ⟨o, r, e', ho⟩ := condition_first (F := ContainerFeatureRead src) (cur := ContainerFeature.cursors) (fun f hf => containerFeature_first hf) hq
    have step := query hq
    rw [e'] at step ⊢
    unfold preludeLoop
    refine Yields.bind (name hn (.inr ho)) ?_
    rintro _ rfl
    refine Yields.peek (Yields.neg ?_ ?_)
    · rw [inSet_of_kind (by decide) ho]; decide
    unfold preludeLoop
    refine Yields.bind step ?_
    rintro _ rfl
    exact stop (xs := [_]) hc

end
end Hdx

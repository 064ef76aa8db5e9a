/-
Values, whatever the parser skips: in a strict text, parsing them comes to an end.
-/
import Verif.Lemmas.SelectorStrict
import Verif.Model.Definitions

namespace Hdx
open Spec Prog

/-! ### Probes -/

/-- The test looks at the token, says yes or no, and leaves the parser alone. -/
def ProbesBy (src : Text) (test : Cursor → Prog Bool) (g : Cursor → Bool) : Prop :=
  ∀ p cs c, Left src p cs → Known src c → Gives (test c) p (.ok (g c)) p []
/-- Some answer. -/
def Probes (src : Text) (test : Cursor → Prog Bool) : Prop := ∃ g, ProbesBy src test g

namespace Probes
variable {src : Text}

theorem of {g : Cursor → Bool} : Probes src fun c => Pure.pure (g c) := ⟨g, fun _ _ _ _ _ => gives_pure.mpr ⟨rfl, rfl, rfl⟩⟩
theorem kind {k : Kind} : Probes src (Prog.isKind k) := of
theorem delim {ch : Char} : Probes src (Prog.isDelim ch) := of
theorem keyword {names : List (List Char)} : Probes src (isKeyword names) := ⟨_, fun _ _ _ hl hk => EatsIf.gives_wordIn hl hk⟩
theorem functionOf {names : List (List Char)} : Probes src (isFunctionOf names) := ⟨_, fun _ _ _ hl hk => EatsIf.gives_functionIn hl hk⟩

theorem by_either {a b : Cursor → Prog Bool} {g h : Cursor → Bool} (ha : ProbesBy src a g) (hb : ProbesBy src b h) : ProbesBy src (Hdx.either a b) fun c => g c || h c := by
  intro p cs c hl hk
  unfold Hdx.either
  have h1 := ha p cs c hl hk
  cases hg : g c with
  | true => rw [hg] at h1; exact gives_seq h1 (by rw [if_pos rfl]; exact gives_pure.mpr ⟨by simp [hg], rfl, rfl⟩)
  | false => rw [hg] at h1; exact gives_seq h1 (by rw [if_neg (by simp)]; simpa [hg] using hb p cs c hl hk)
theorem either {a b : Cursor → Prog Bool} : Probes src a → Probes src b → Probes src (Hdx.either a b)
  | ⟨_, ha⟩, ⟨_, hb⟩ => ⟨_, by_either ha hb⟩

/-- Whether the text of a token is this, if it can be read. -/
def same (src : List Char) (o : List Char) (c : Cursor) : Bool := match c.eqIgnoreAsciiCase src o with | .ok b => b | .error _ => false
/-- Whether the text of a token is one of these, if it can be read. -/
def among (src : List Char) (names : List (List Char)) (c : Cursor) : Bool := match c.parseStrLower src with | .ok s => names.contains s | .error _ => false

theorem gives_same {o : List Char} {c : Cursor} {p : Parser} {cs : List Cursor} (hl : Left src p cs) (hd : Decodable c src.chars) :
    Gives (Prog.eqIgnoreAsciiCase c o) p (.ok (same src.chars o c)) p [] := by
  obtain ⟨b, hb⟩ := hd.2.2 o
  exact gives_eqCase.mpr ⟨b, by rw [hl.source]; exact hb, by simp [same, hb], rfl, rfl⟩
theorem gives_among {names : List (List Char)} {c : Cursor} {p : Parser} {cs : List Cursor} (hl : Left src p cs) (hd : Decodable c src.chars) :
    Gives (do let s ← Prog.strLower c; Pure.pure (names.contains s)) p (.ok (among src.chars names c)) p [] := by
  obtain ⟨s, hs⟩ := hd.2.1
  exact gives_seq (w2 := []) (gives_strLower.mpr ⟨s, by rw [hl.source]; exact hs, rfl, rfl, rfl⟩) (gives_pure.mpr ⟨by simp [among, hs], rfl, rfl⟩)

/-- A test for a kind first. -/
theorem by_guarded {k : Kind} {test : Cursor → Prog Bool} {g : Cursor → Bool} (ht : ∀ p cs c, Left src p cs → Known src c → c.token.isKind k = true →
    Gives (test c) p (.ok (g c)) p []) : ProbesBy src (fun c => if c.token.isKind k = true then test c else Pure.pure false) fun c => c.token.isKind k && g c := by
  intro p cs c hl hk
  dsimp only
  cases hi : c.token.isKind k with
  | true => rw [if_pos rfl]; simpa using ht p cs c hl hk hi
  | false => rw [if_neg (by simp)]; exact gives_pure.mpr ⟨by simp, rfl, rfl⟩

theorem by_named {o : List Char} : ProbesBy src (isNamed o) fun c => c.token.isKind .function && same src.chars o c :=
  by_guarded fun _ _ _ hl hk hi => gives_same hl (hk (.inr (.inl (kind_of_isKind (by decide) hi))))
theorem named {o : List Char} : Probes src (isNamed o) := ⟨_, by_named⟩
theorem wordOf {o : List Char} : Probes src (isWordOf o) :=
  ⟨_, by_guarded fun _ _ _ hl hk hi => gives_same hl (hk (.inl (kind_of_isKind (by decide) hi)))⟩
theorem unitOf {names : List (List Char)} : Probes src (isUnitOf names) :=
  ⟨_, by_guarded (test := fun c => do let s ← Prog.strLower c; Pure.pure (names.contains s)) fun _ _ _ hl hk hi =>
    gives_among hl (hk (.inr (.inr (.inr (.inr (.inr (.inl (kind_of_isKind (by decide) hi))))))))⟩
theorem dimensionOf {u : DimensionUnit} : Probes src (isDimensionOf u) := by
  refine ⟨_, by_guarded (test := fun c => if c.token.dimensionUnit == u then Pure.pure true else Prog.eqIgnoreAsciiCase c u.macroName)
    (g := fun c => c.token.dimensionUnit == u || same src.chars u.macroName c) fun p cs c hl hk hi => ?_⟩
  split
  · rename_i h; exact gives_pure.mpr ⟨by simp [h], rfl, rfl⟩
  · rename_i h
    simpa [h] using gives_same (o := u.macroName) hl (hk (.inr (.inr (.inr (.inr (.inr (.inl (kind_of_isKind (by decide) hi))))))))
theorem anyDimension : ∀ us, Probes src (isAnyDimension us)
  | [] => ⟨fun _ => false, fun _ _ _ _ _ => gives_pure.mpr ⟨rfl, rfl, rfl⟩⟩
  | u :: us => either (dimensionOf (u := u)) (anyDimension us)

/-- A look at the token first. -/
theorem orElse {b : Cursor → Bool} {test : Cursor → Prog Bool} (h : Probes src test) : Probes src fun c => if b c = true then Pure.pure true else test c := by
  obtain ⟨g, hg⟩ := h
  refine ⟨fun c => b c || g c, fun p cs c hl hk => ?_⟩
  dsimp only
  cases hb : b c with
  | true => rw [if_pos rfl]; exact gives_pure.mpr ⟨by simp, rfl, rfl⟩
  | false => rw [if_neg (by simp)]; simpa using hg p cs c hl hk

theorem length : Probes src isLength := orElse (b := fun c => c.token.isKind .number && f32IsZero c.token.value) (anyDimension _)
theorem lengthPercentage : Probes src isLengthPercentage :=
  orElse (b := fun c => c.token.isKind .number && f32IsZero c.token.value) (either (dimensionOf (u := .percent)) (anyDimension LENGTH_UNITS))
theorem angle : Probes src isAngle := unitOf
theorem time : Probes src isTime := orElse (b := fun c => c.token.isKind .number && f32IsZero c.token.value) unitOf
theorem resolution : Probes src isResolution := unitOf
theorem hue : Probes src isHue := either kind (either angle wordOf)
theorem channel : Probes src isChannel := either kind (either dimensionOf wordOf)
theorem color : Probes src isColor := either kind (either kind kind)
theorem positionValue : Probes src isPositionValue := either lengthPercentage keyword
theorem gradient : Probes src isGradient := functionOf
theorem linearDirection : Probes src isLinearDirection := either angle wordOf
theorem radialSize : Probes src isRadialSize := either lengthPercentage keyword
theorem image : Probes src isImage := either kind (either gradient named)
theorem thickness : Probes src isThickness := either dimensionOf lengthPercentage
theorem lineWidth : Probes src isLineWidth := either length keyword
theorem iterationCount : Probes src isIterationCount := either of wordOf
theorem repeatStyle : Probes src isRepeatStyle := either keyword keyword
theorem positionArea : Probes src isPositionArea :=
  either keyword <| either keyword <| either keyword <| either keyword <| either keyword <| either keyword <| either keyword keyword
theorem opacityValue : Probes src isOpacityValue := by
  obtain ⟨g, hg⟩ := dimensionOf (src := src) (u := .percent)
  refine orElse (b := fun c => c.token.isKind .number && f32UpTo 1 c.token.value) ⟨fun c => g c && f32UpTo 100 c.token.value, fun p cs c hl hk => ?_⟩
  have := hg p cs c hl hk
  cases hb : g c with
  | true => rw [hb] at this; exact gives_seq this (by rw [if_pos rfl]; exact gives_pure.mpr ⟨by simp [hb], rfl, rfl⟩)
  | false => rw [hb] at this; exact gives_seq this (by rw [if_neg (by simp)]; exact gives_pure.mpr ⟨by simp [hb], rfl, rfl⟩)

theorem fine {test : Cursor → Prog Bool} (h : Probes src test) {n : Nat} {c : Cursor} (hk : Known src c) : Fine src n (test c) := by
  obtain ⟨g, hg⟩ := h
  exact fun p cs hl _ => ⟨_, p, [], cs, hg p cs c hl hk, hl, List.suffix_rfl, fun _ _ h => h.elim⟩

end Probes

/-! ### Results -/

/-- `x` returns, does not go back, and its results are in `R`. -/
def FineR {α : Type} (src : Text) (n : Nat) (R : α → Prop) (x : Prog α) : Prop :=
  ∀ ⦃p : Parser⦄ ⦃cs : List Cursor⦄, Left src p cs → cs.length < n → ∃ r p' w cs', Gives x p r p' w ∧ Left src p' cs' ∧ cs' <:+ cs ∧ ∀ a, r = .ok a → R a

namespace FineR
variable {α β : Type} {src : Text} {n : Nat} {R : α → Prop} {S : β → Prop} {Q : β → Prop}

theorem seqE {x : Prog α} {f : α → Prog β} (hx : FineR src n R x) (h : ∀ a, R a → EatsIf src n Q (f a)) : EatsIf src n Q (x >>= f) := by
  intro p cs hl hn
  obtain ⟨r, p', w, cs', h1, h2, h3, h4⟩ := hx hl hn
  have hlen := h3.length_le
  cases r with
  | error d => exact ⟨_, p', w, cs', gives_bind.mpr (.inr ⟨d, h1, rfl⟩), h2, h3, fun a h => by cases h⟩
  | ok a =>
    obtain ⟨r2, p2, w2, cs2, j1, j2, j3, j4⟩ := h a (h4 a rfl) h2 (by omega)
    exact ⟨r2, p2, _, cs2, gives_seq h1 j1, j2, j3.trans h3, fun a ha hQ => Nat.lt_of_lt_of_le (j4 a ha hQ) hlen⟩
theorem seq {x : Prog α} {f : α → Prog β} (hx : FineR src n R x) (h : ∀ a, R a → FineR src n S (f a)) : FineR src n S (x >>= f) := by
  intro p cs hl hn
  obtain ⟨r, p', w, cs', h1, h2, h3, h4⟩ := hx hl hn
  have hlen := h3.length_le
  cases r with
  | error d => exact ⟨_, p', w, cs', gives_bind.mpr (.inr ⟨d, h1, rfl⟩), h2, h3, fun a h => by cases h⟩
  | ok a =>
    obtain ⟨r2, p2, w2, cs2, j1, j2, j3, j4⟩ := h a (h4 a rfl) h2 (by omega)
    exact ⟨r2, p2, _, cs2, gives_seq h1 j1, j2, j3.trans h3, j4⟩
theorem pure {a : α} (h : R a) : FineR src n R (Pure.pure a : Prog α) := fun p cs hl _ =>
  ⟨_, p, [], cs, gives_pure.mpr ⟨rfl, rfl, rfl⟩, hl, List.suffix_rfl, fun b hb => by cases hb; exact h⟩
theorem fail {d : DiagCode} {c : Cursor} : FineR src n R (Prog.fail d c : Prog α) := fun p cs hl _ =>
  ⟨_, p, [], cs, gives_fail.mpr ⟨rfl, rfl, rfl⟩, hl, List.suffix_rfl, fun b hb => by cases hb⟩
theorem ite {b : Prop} [Decidable b] {x y : Prog α} (hx : b → FineR src n R x) (hy : ¬ b → FineR src n R y) : FineR src n R (if b then x else y) := by
  split
  · exact hx ‹_›
  · exact hy ‹_›
theorem of {x : Prog α} (h : Fine src n x) : FineR src n (fun _ => True) x := by
  intro p cs hl hn
  obtain ⟨r, p', w, cs', h1, h2, h3, _⟩ := h hl hn
  exact ⟨r, p', w, cs', h1, h2, h3, fun _ _ => trivial⟩
theorem fine {x : Prog α} (h : FineR src n R x) : Fine src n x := by
  intro p cs hl hn
  obtain ⟨r, p', w, cs', h1, h2, h3, _⟩ := h hl hn
  exact ⟨r, p', w, cs', h1, h2, h3, fun _ _ h => h.elim⟩
theorem weaken {R' : α → Prop} {x : Prog α} (h : FineR src n R x) (hr : ∀ a, R a → R' a) : FineR src n R' x := by
  intro p cs hl hn
  obtain ⟨r, p', w, cs', h1, h2, h3, h4⟩ := h hl hn
  exact ⟨r, p', w, cs', h1, h2, h3, fun a ha => hr a (h4 a ha)⟩
theorem mono {m : Nat} {x : Prog α} (h : FineR src n R x) (hm : m ≤ n) : FineR src m R x := fun _ _ hl hn => h hl (by omega)

theorem tokBy {test : Cursor → Prog Bool} {g : Cursor → Bool} (ht : ProbesBy src test g) : FineR src n (fun c => Known src c ∧ g c = true) (Prog.tok test) := by
  intro p cs hl _
  obtain ⟨c, p', cs', h1, h2, h3, _, h4, h5⟩ := hl.next
  refine ⟨_, p', [c], cs', EatsIf.gives_tokBy h1 (ht p cs c hl h5), h2, h3, fun a ha => ?_⟩
  cases hc : g c with
  | false => rw [hc] at ha; cases ha
  | true => rw [hc] at ha; cases ha; exact ⟨h5, hc⟩
theorem tok {test : Cursor → Prog Bool} (ht : Probes src test) : FineR src n (Known src) (Prog.tok test) := by
  obtain ⟨g, hg⟩ := ht
  exact (tokBy hg).weaken fun _ h => h.1
theorem tokKind {k : Kind} : FineR src n (fun c => Known src c ∧ c.token.isKind k = true) (Prog.tok (Prog.isKind k)) :=
  tokBy (g := fun c => c.token.isKind k) fun _ _ _ _ _ => gives_pure.mpr ⟨rfl, rfl, rfl⟩
end FineR

namespace EatsIf
variable {α β : Type} {src : Text} {n : Nat} {P : α → Prop} {Q : β → Prop}

theorem tokTest {test : Cursor → Prog Bool} (ht : Probes src test) : Fine src n (Prog.tok test) := (FineR.tok ht).fine
theorem ifTok {test : Cursor → Prog Bool} (ht : Probes src test) : Fine src n (Prog.ifPeek test (Prog.tok test)) :=
  (ifPeek (fun _ hk => ht.fine hk) (tokTest ht)).fine
theorem piece {test : Cursor → Prog Bool} (ht : Probes src test) : Fine src n (piece test) := seq (tokTest ht) fun _ => pure id
theorem optPiece {test : Cursor → Prog Bool} (ht : Probes src test) : Fine src n (optPiece test) := seq (ifTok ht) fun _ => pure id

/-- The number of steps that a parser allows itself: one more than the text has characters, or more. -/
def _root_.Hdx.Text.fuel (src : Text) : Nat := utf8Len src.chars + 2

theorem read {k : Parser → Prog α} (h : ∀ p : Parser, p.fuel = src.fuel → EatsIf src n P (k p)) : EatsIf src n P (Prog.read k) := by
  intro p cs hl hn
  obtain ⟨r, p', w, cs', h1, h2⟩ := h p (by unfold Parser.fuel Text.fuel; rw [hl.source]) hl hn
  exact ⟨r, p', w, cs', by simpa [Gives, runLog] using h1, h2⟩

theorem sequence {xs : List (Prog α)} (h : ∀ x ∈ xs, Fine src n x) : Fine src n (sequence xs) := by
  induction xs with
  | nil => exact pure id
  | cons x xs ih => exact seq (h x (by simp)) fun _ => seq (ih fun y hy => h y (by simp [hy])) fun _ => pure id

theorem eqNamed {o : List Char} {c : Cursor} (hk : Known src c) (h : c.token.isKind .function = true) : Fine src n (Prog.eqIgnoreAsciiCase c o) :=
  eqCase (hk (.inr (.inl (kind_of_isKind (by decide) h))))

/-- The opening of a function. -/
theorem openFunction (hst : src.strict = true) {o : List Char} {k : Cursor → Prog β} (h : ∀ c, Known src c → EatsIf src n Q (k c)) :
    EatsIf src n Q (Prog.tok (Prog.isKind .function) >>= fun f => Prog.eqIgnoreAsciiCase f o >>= fun b =>
      if (!b) = true then (Prog.str f >>= fun _ => Prog.fail .other f) else k f) :=
  FineR.tokKind.seqE fun c hc => seq (eqNamed hc.1 hc.2) fun _ => ite (seq (strOf hst hc.1) fun _ => fail) (h c hc.1)

theorem namedFunction (hst : src.strict = true) {o : List Char} : FineR src n (fun c => Known src c) (namedFunction o) :=
  FineR.tokKind.seq fun c hc => FineR.seq (.of (eqNamed hc.1 hc.2)) fun _ _ => .ite (fun _ => FineR.seq (.of (strOf hst hc.1)) fun _ _ => FineR.fail) fun _ => FineR.pure hc.1

theorem buildFunction {names : List (List Char)} {c : Cursor} (hc : functionIn src.chars names c = true) :
    FineR src n (fun r => r.2 = c ∧ r.1 ∈ names) (Hdx.buildKeyword names c) := by
  intro p cs hl _
  simp only [functionIn, Bool.and_eq_true] at hc
  obtain ⟨_, h⟩ := hc
  split at h
  · rename_i s hs
    exact ⟨_, p, [], cs, gives_buildKeyword.mpr ⟨rfl, rfl, s, by rw [hl.source]; exact hs, h, rfl⟩, hl, List.suffix_rfl,
      fun _ h' => by cases h'; exact ⟨rfl, List.contains_iff_mem.mp h⟩⟩
  · cases h

theorem functionR {names : List (List Char)} : FineR src n (fun r => Known src r.2) (Hdx.functionOf names) :=
  (FineR.tokBy fun _ _ _ hl hk => gives_functionIn hl hk).seq fun _ hc => (buildFunction hc.2).weaken fun r hr => by rw [hr.1]; exact hc.1

end EatsIf
end Hdx

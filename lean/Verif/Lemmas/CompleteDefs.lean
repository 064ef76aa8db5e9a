/-
Definitions that take all that they allow.
-/
import Verif.Lemmas.Complete

namespace Hdx
open Spec Prog

section
variable {src : List Char} {env : List Char → Leaf} {E : List Char → Option Info} {M : Meaning}

/-- The first token of a value is known. -/
structure Begins (src : List Char) (test : Cursor → Prog Bool) (I : Info) (L : List Cursor → Prop) : Prop where
  total : ∀ ⦃c⦄, Clear src c → ∃ b, Tests src (test c) b ∧ (b = true → Among src I.acc c)
  starts : ∀ ⦃w⦄, L w → Decent src w → ∃ c w', w = c :: w' ∧ Tests src (test c) true ∧ Among src I.firsts c
  closes : ∀ ⦃w⦄, L w → Decent src w → closings w ≤ opens w

theorem Complete.begins {l : Leaf} {I : Info} {L : List Cursor → Prop} (h : Complete src l I L) : Begins src l.test I L := ⟨h.total, h.starts, h.closes⟩
theorem Begins.complete {test : Cursor → Prog Bool} {parser : Prog Val} {I : Info} {L : List Cursor → Prop} (h : Begins src test I L)
    (hp : ∀ ⦃w c rest⦄, L w → Tidy src w → Clear src c → ¬ Among src I.more c → Yields src (w ++ c :: rest) parser (c :: rest) fun v => v.cursors.Perm w) :
    Complete src ⟨test, parser⟩ I L := ⟨h.total, h.starts, h.closes, hp⟩
theorem Begins.no {test : Cursor → Prog Bool} {I : Info} {L : List Cursor → Prop} (h : Begins src test I L) {c : Cursor} (hc : Clear src c) (ha : ¬ Among src I.acc c) :
    Tests src (test c) false := by
  obtain ⟨b, hb, hi⟩ := h.total hc
  cases b
  · exact hb
  · exact absurd (hi rfl) ha

theorem Among.flatMap {α : Type} {c : Cursor} {f : α → List Head} {xs : List α} : Among src (xs.flatMap f) c ↔ ∃ x ∈ xs, Among src (f x) c := by
  unfold Among
  constructor
  · rintro ⟨h, hm, hh⟩
    obtain ⟨x, hx, hx'⟩ := List.mem_flatMap.mp hm
    exact ⟨x, hx, h, hx', hh⟩
  · rintro ⟨x, hx, h, hm, hh⟩
    exact ⟨h, List.mem_flatMap.mpr ⟨x, hx, hm⟩, hh⟩

/-- Of two of them, the former does not accept what the latter begins with. -/
def inOrder {α : Type} (J : α → Info) : List α → Bool
  | [] => true
  | d :: ds => ds.all (fun e => apartAll (J d).acc (J e).firsts) && inOrder J ds

/-! ### Options -/

/-- The information on a type, if there is any. -/
def infoOf (E : List Char → Option Info) (t : DefType) : Info := (typeInfo E t).getD ⟨[], [], []⟩

/-- The options of an `||`. -/
def optionsInfo (E : List Char → Option Info) (ds : List Def) : Option Info :=
  match Def.types ds with
  | some ts =>
    if ts.all (fun t => (typeInfo E t).any fun I => I.more.isEmpty) && inOrder (infoOf E) ts then
      some ⟨ts.flatMap fun t => (infoOf E t).acc, ts.flatMap fun t => (infoOf E t).firsts, ts.flatMap fun t => (infoOf E t).acc⟩
    else none
  | none => none

/-- The options that have no value yet. -/
def unfilled : List DefType → List (Option Val) → List Def
  | t :: ts, none :: vs => .type t :: unfilled ts vs
  | _ :: ts, some _ :: vs => unfilled ts vs
  | _, _ => []

theorem unfilled_mem {ts : List DefType} {vs : List (Option Val)} {d : Def} (h : d ∈ unfilled ts vs) : ∃ t ∈ ts, d = .type t := by
  induction ts generalizing vs with
  | nil => simp [unfilled] at h
  | cons t ts ih =>
    cases vs with
    | nil => simp [unfilled] at h
    | cons v vs =>
      cases v with
      | none =>
        rw [unfilled] at h
        rcases List.mem_cons.mp h with rfl | h
        · exact ⟨t, .head _, rfl⟩
        · obtain ⟨t', h1, h2⟩ := ih h
          exact ⟨t', .tail _ h1, h2⟩
      | some v =>
        rw [unfilled] at h
        obtain ⟨t', h1, h2⟩ := ih h
        exact ⟨t', .tail _ h1, h2⟩

/-- All of the types are described, and take nothing after their values. -/
def Described (E : List Char → Option Info) (ts : List DefType) : Prop := ∀ t ∈ ts, ∃ I, typeInfo E t = some I ∧ I.more = []

theorem Described.complete (hE : EnvComplete src env E M) {ts : List DefType} (h : Described E ts) {t : DefType} (ht : t ∈ ts) :
    Complete src (t.leaf env) (infoOf E t) (MatchesType src M t) ∧ (infoOf E t).more = [] := by
  obtain ⟨I, hI, hm⟩ := h t ht
  have : infoOf E t = I := by unfold infoOf; rw [hI]; rfl
  rw [this]
  exact ⟨typeInfo_leaf hE hI, hm⟩

theorem round_takes (hE : EnvComplete src env E M) {t : DefType} {w rest : List Cursor} {c : Cursor} (hw : MatchesType src M t w) (ht : Tidy src w) (hc : Clear src c) :
    ∀ (ts : List DefType) (vs : List (Option Val)), Described E ts → inOrder (infoOf E) ts = true → ts.length = vs.length → .type t ∈ unfilled ts vs →
      Yields src (w ++ c :: rest) (optionsRound (ts.map (DefType.leaf env)) vs) (c :: rest) fun o => ∃ vs', o = some vs' ∧ ts.length = vs'.length ∧
        (unfilled ts vs).Perm (.type t :: unfilled ts vs') ∧ (Val.cursorsOf (vs'.map .opt)).Perm (w ++ Val.cursorsOf (vs.map .opt)) := by
  intro ts
  induction ts with
  | nil => intro vs _ _ _ h; simp [unfilled] at h
  | cons t0 ts ih =>
    intro vs hd ho hl h
    cases vs with
    | nil => simp [unfilled] at h
    | cons v vs =>
      have hd' : Described E ts := fun t ht => hd t (.tail _ ht)
      rw [inOrder, Bool.and_eq_true] at ho
      have hl' : ts.length = vs.length := by simpa using hl
      obtain ⟨hc0, hm0⟩ := hd.complete hE (.head _)
      cases v with
      | some v =>
        rw [unfilled] at h
        rw [List.map_cons, optionsRound]
        refine Yields.bind (ih vs hd' ho.2 hl' h) fun o ⟨vs', e, h1, h2, h3⟩ => ?_
        subst e
        refine Yields.pure ⟨_, rfl, by simpa using h1, by simpa [unfilled] using h2, ?_⟩
        simp only [List.map_cons, Val.cursorsOf]
        exact (h3.append_left _).trans (List.perm_append_comm_assoc _ _ _)
      | none =>
        rw [List.map_cons, optionsRound]
        by_cases e : t0 = t
        · subst e
          obtain ⟨f, w', rfl, hf, _⟩ := hc0.starts hw ht.decent
          refine Yields.peek (Yields.test hf (Yields.pos rfl (Yields.bind (hc0.parse hw ht hc (by rw [hm0]; exact Among.none)) fun v hv => Yields.pure ?_)))
          refine ⟨_, rfl, by simpa using hl', .refl _, ?_⟩
          simp only [List.map_cons, Val.cursorsOf, Val.opt, Val.cursors, List.append_nil, List.nil_append]
          exact hv.append_right _
        · rw [unfilled] at h
          replace h : .type t ∈ unfilled ts vs := by
            rcases List.mem_cons.mp h with h | h
            · cases h; exact absurd rfl e
            · exact h
          obtain ⟨t', ht', e'⟩ := unfilled_mem h
          cases e'
          obtain ⟨hct, _⟩ := hd'.complete hE ht'
          obtain ⟨f, w', rfl, _, hf⟩ := hct.starts hw ht.decent
          have hfc := ht.clear f (.head _)
          have hno : Tests src ((t0.leaf env).test f) false :=
            hc0.no hfc fun ha => apartAll_spec hfc (List.all_eq_true.mp ho.1 t ht') ha hf
          refine Yields.peek (Yields.test hno (Yields.neg (by decide) (Yields.bind (ih vs hd' ho.2 hl' h) fun o ⟨vs', e, h1, h2, h3⟩ => ?_)))
          subst e
          refine Yields.pure ⟨_, rfl, by simpa using h1, ?_, ?_⟩
          · simp only [unfilled]
            exact (h2.cons _).trans (.swap ..)
          · simpa [Val.cursorsOf, Val.opt, Val.cursors] using h3

theorem round_none (hE : EnvComplete src env E M) {rest : List Cursor} {c : Cursor} (hc : Clear src c) :
    ∀ (ts : List DefType) (vs : List (Option Val)), Described E ts → (∀ t ∈ ts, ¬ Among src (infoOf E t).acc c) → ts.length = vs.length →
      Yields src (c :: rest) (optionsRound (ts.map (DefType.leaf env)) vs) (c :: rest) fun o => o = none := by
  intro ts
  induction ts with
  | nil => intro vs _ _ _; unfold optionsRound; exact Yields.pure rfl
  | cons t0 ts ih =>
    intro vs hd ha hl
    cases vs with
    | nil => simp at hl
    | cons v vs =>
      have hd' : Described E ts := fun t ht => hd t (.tail _ ht)
      have hl' : ts.length = vs.length := by simpa using hl
      obtain ⟨hc0, hm0⟩ := hd.complete hE (.head _)
      have hi := ih vs hd' (fun t ht => ha t (.tail _ ht)) hl'
      cases v with
      | some v =>
        rw [List.map_cons, optionsRound]
        refine Yields.bind hi fun o e => ?_
        subst e
        exact Yields.pure rfl
      | none =>
        rw [List.map_cons, optionsRound]
        refine Yields.peek (Yields.test (hc0.no hc (ha _ (.head _))) (Yields.neg (by decide) (Yields.bind hi fun o e => ?_)))
        subst e
        exact Yields.pure rfl

theorem first_of {v rest : List Cursor} {c : Cursor} (hv : Decent src v) (hc : Clear src c) : ∃ c' rest', v ++ c :: rest = c' :: rest' ∧ Clear src c' := by
  cases v with
  | nil => exact ⟨c, rest, rfl, hc⟩
  | cons d v => exact ⟨d, _, rfl, hv.clear d (.head _)⟩

theorem seq_closes {es : List Def} (he : ∀ d ∈ es, ∀ w, Matches src M d w → Decent src w → closings w ≤ opens w) {w : List Cursor} (h : MatchesSeq src M es w)
    (hd : Decent src w) : closings w ≤ opens w := by
  induction es generalizing w with
  | nil => cases h; exact Nat.le_refl _
  | cons e es ih =>
    cases h with
    | @cons _ w0 _ v h1 h2 =>
      rw [closings_append, opens_append]
      have a := he e (.head _) _ h1 hd.left
      have b := ih (fun d hd => he d (.tail _ hd)) h2 hd.right
      omega

theorem cursorsOf_none {vs : List (Option Val)} (h : ∀ v ∈ vs, v = none) : Val.cursorsOf (vs.map .opt) = [] := by
  induction vs with
  | nil => rfl
  | cons v vs ih =>
    rw [h v (.head _)]
    simp only [List.map_cons, Val.cursorsOf, Val.opt, Val.cursors, List.nil_append]
    exact ih fun v hv => h v (.tail _ hv)

theorem options_loop (hE : EnvComplete src env E M) {ts : List DefType} (hd : Described E ts) (ho : inOrder (infoOf E) ts = true) {rest : List Cursor} {c : Cursor}
    (hc : Clear src c) (ha : ∀ t ∈ ts, ¬ Among src (infoOf E t).acc c) : ∀ (n : Nat) (es : List Def) (other : List Def) (w : List Cursor) (vs : List (Option Val)),
      es.length < n → ts.length = vs.length → (es ++ other).Perm (unfilled ts vs) → MatchesSeq src M es w → Tidy src w → (es ≠ [] ∨ ∃ v ∈ vs, v.isSome) →
      Yields src (w ++ c :: rest) (optionsLoop (ts.map (DefType.leaf env)) n vs) (c :: rest) fun vs' =>
        (Val.cursorsOf (vs'.map .opt)).Perm (w ++ Val.cursorsOf (vs.map .opt)) := by
  intro n
  induction n with
  | zero => intro es _ _ _ h; omega
  | succ n ih =>
    intro es other w vs hn hl hp hm ht hne
    unfold optionsLoop
    cases hm with
    | nil =>
      refine Yields.bind (round_none hE hc ts vs hd ha hl) fun o e => ?_
      subst e
      refine Yields.neg ?_ (Yields.pure (.refl _))
      rcases hne with h | ⟨v, hv, hs⟩
      · exact absurd rfl h
      · intro hall
        have := List.all_eq_true.mp hall v hv
        cases v <;> simp_all
    | @cons e w0 es v h1 h2 =>
      have hmem : e ∈ unfilled ts vs := hp.mem_iff.mp (by simp)
      obtain ⟨t, htt, rfl⟩ := unfilled_mem hmem
      have hall : ∀ d ∈ es, ∀ w, Matches src M d w → Decent src w → closings w ≤ opens w := by
        intro d hdm w hw hdw
        obtain ⟨t', ht', rfl⟩ := unfilled_mem (hp.mem_iff.mp (List.mem_append_left _ (.tail _ hdm)))
        cases hw with | type hw => exact (hd.complete hE ht').1.closes hw hdw
      have hdec := ht.decent
      have hwt : MatchesType src M t w0 := by cases h1 with | type h => exact h
      obtain ⟨t1, t2⟩ := ht.split ((hd.complete hE htt).1.closes hwt hdec.left) (seq_closes hall h2 hdec.right)
      obtain ⟨c', rest', e', hc'⟩ := first_of (rest := rest) hdec.right hc
      rw [List.append_assoc, e']
      refine Yields.bind (round_takes hE hwt t1 hc' ts vs hd ho hl hmem) fun o ⟨vs', eo, g1, g2, g3⟩ => ?_
      subst eo
      rw [← e']
      refine Yields.mono (ih es other v vs' (by simp at hn; omega) g1 ?_ h2 t2 (.inr ?_)) fun us hus => ?_
      · have := hp.trans g2
        exact (List.perm_cons _).mp this
      · refine Classical.byContradiction fun hno => ?_
        have hz : ∀ v ∈ vs', v = none := fun v hv => by
          cases v with
          | none => rfl
          | some x => exact absurd ⟨_, hv, rfl⟩ hno
        rw [cursorsOf_none hz] at g3
        obtain ⟨f, w', rfl, _⟩ := (hd.complete hE htt).1.starts hwt hdec.left
        have := g3.length_eq
        simp at this
      · refine hus.trans ?_
        rw [List.append_assoc]
        exact (g3.append_left v).trans (List.perm_append_comm_assoc _ _ _)

/-! ### Chains of tests -/

theorem testAny_begins {J : Def → Info} {ds : List Def} (h : ∀ d ∈ ds, Begins src (d.test env) (J d) (Matches src M d)) :
    Begins src (Def.testAny env ds) ⟨ds.flatMap fun d => (J d).acc, ds.flatMap fun d => (J d).firsts, ds.flatMap fun d => (J d).more⟩ fun w => ∃ d ∈ ds, Matches src M d w := by
  have total : ∀ (ds : List Def), (∀ d ∈ ds, Begins src (d.test env) (J d) (Matches src M d)) → ∀ ⦃c⦄, Clear src c →
      ∃ b, Tests src (Def.testAny env ds c) b ∧ (b = true → ∃ d ∈ ds, Among src (J d).acc c) ∧ (∀ d ∈ ds, Tests src (d.test env c) true → b = true) := by
    intro ds
    induction ds with
    | nil => intro _ c _; exact ⟨false, Tests.pure, nofun, nofun⟩
    | cons d ds ih =>
      intro h c hc
      obtain ⟨b, h1, h2⟩ := (h d (.head _)).total hc
      obtain ⟨s, g1, g2, g3⟩ := ih (fun d hd => h d (.tail _ hd)) hc
      rw [Def.testAny]
      refine ⟨if b = true then true else s, Tests.bind h1 (Tests.ite (fun _ => Tests.pure) fun _ => g1), fun hb => ?_, fun e he ht => ?_⟩
      · cases b with
        | true => exact ⟨d, .head _, h2 rfl⟩
        | false =>
          obtain ⟨e, he, ha⟩ := g2 (by simpa using hb)
          exact ⟨e, .tail _ he, ha⟩
      · rcases List.mem_cons.mp he with rfl | he
        · rw [h1.same ht]; rfl
        · rw [g3 e he ht]; simp
  refine ⟨fun c hc => ?_, fun w ⟨d, hd, hw⟩ hdec => ?_, fun w ⟨d, hd, hw⟩ hdec => (h d hd).closes hw hdec⟩
  · obtain ⟨b, h1, h2, _⟩ := total ds h hc
    exact ⟨b, h1, fun hb => Among.flatMap.mpr (h2 hb)⟩
  · obtain ⟨c, w', rfl, ht, hf⟩ := (h d hd).starts hw hdec
    obtain ⟨b, h1, _, h3⟩ := total ds h (hdec.clear c (.head _))
    exact ⟨c, w', rfl, h1.congr (h3 d hd ht), Among.flatMap.mpr ⟨d, hd, hf⟩⟩

end
end Hdx

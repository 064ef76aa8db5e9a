/-
The list traits and the rules of css_parse, with items that keep their tokens.
-/
import Verif.Spec.CssText
import Verif.Lemmas.CssParts

namespace Hdx
open Spec Prog

theorem taken_perm {l m : List Cursor} (h : l.Perm m) : (taken l).Perm (taken m) := (h.filter _).map _

theorem Spec.Increasing.left {t u : List Cursor} (h : Increasing (t ++ u)) : Increasing t := (List.pairwise_append.mp h).1
theorem Spec.Increasing.right {t u : List Cursor} (h : Increasing (t ++ u)) : Increasing u := (List.pairwise_append.mp h).2.1

variable {ord : Bool}

namespace Spec.Kept
variable {l m t u : List Cursor}
theorem refl : Kept ord l (taken l) := ⟨[], by simp, by simp, fun _ _ => List.Sublist.refl _⟩
theorem of_eq (h : t = taken l) : Kept ord l t := h ▸ refl
theorem nil : Kept ord [] [] := refl
theorem append (h : Kept ord l t) (h' : Kept ord m u) : Kept ord (l ++ m) (t ++ u) := by
  obtain ⟨d, hd, hp, ho⟩ := h
  obtain ⟨d', hd', hp', ho'⟩ := h'
  refine ⟨d ++ d', fun c hc => (List.mem_append.mp hc).elim (hd c) (hd' c), (hp.append hp').trans ?_, fun e hi => ?_⟩
  · simp only [taken_append, List.append_assoc]
    exact List.Perm.append_left _ (List.perm_append_comm_assoc _ _ _)
  · rw [taken_append]
    exact (ho e hi.left).append (ho' e hi.right)
theorem cons {c : Cursor} (h : Kept ord l t) : Kept ord (c :: l) (taken [c] ++ t) := append (l := [c]) refl h
theorem mem (h : Kept ord l t) {c : Cursor} (hc : c ∈ l) (hp : placed c = true) : c ∈ t := by
  obtain ⟨d, _, h, _⟩ := h
  refine h.mem_iff.mpr (List.mem_append_left _ ?_)
  simp only [placed, Bool.and_eq_true, Bool.not_eq_true'] at hp
  exact List.mem_map.mpr ⟨c, List.mem_filter.mpr ⟨hc, hp.1⟩, by simp [strip, hp.2]⟩
/-- A rule, and the declarations and rules after it, which are written with all declarations first. -/
theorem rule {δ ρ : Type} {cd : δ → List Cursor} {cr : ρ → List Cursor} {ds : List (δ × Option Cursor)} {r : ρ} {rs more : List Cursor}
    (h : Kept ord (cr r) t) (h' : Kept ord (pairsCursors cd ds ++ (rs ++ more)) u) (hb : ord = true → ∀ d ∈ ds, before (cd d.1) (cr r) = true) :
    Kept ord (pairsCursors cd ds ++ (cr r ++ rs ++ more)) (t ++ u) := by
  have key := append h h'
  obtain ⟨dr, hd, hp, ho⟩ := key
  refine ⟨dr, hd, hp.trans (List.Perm.append_right _ (taken_perm ?_)), fun e hi => ?_⟩
  · simpa using List.perm_append_comm_assoc _ _ _
  · cases ds with
    | nil => simpa [pairsCursors] using ho e hi
    | cons d ds =>
      have := hb e d (by simp)
      simp only [before, List.any_eq_true, Bool.and_eq_true, decide_eq_true_eq] at this
      obtain ⟨x, hx, px, y, hy, py, lt⟩ := this
      have := (List.pairwise_append.mp hi).2.2 y (h.mem hy py) x (h'.mem (by simp [pairsCursors, hx]) px) py px
      omega
theorem drop {d : List Cursor} (h : Kept ord l t) (hd : ∀ c ∈ d, Droppable c) : Kept ord l (d ++ t) := by
  have := append (ord := ord) (l := []) (t := d) ⟨d, hd, by simp, fun _ _ => by simp⟩ h
  simpa using this
theorem dropAll {d : List Cursor} (hd : ∀ c ∈ d, Droppable c) : Kept ord [] d := ⟨d, hd, by simp, fun _ _ => by simp⟩
end Spec.Kept

/-- A program that keeps its tokens, if the result is good. -/
abbrev Saves {α : Type} (ord : Bool) (x : Prog α) (cur : α → List Cursor) (ok : α → Prop) : Prop := Does x fun a t => ok a → Kept ord (cur a) t

theorem Exact.saves {α : Type} {x : Prog α} {cur : α → List Cursor} (h : Exact x cur) (ok : α → Prop) : Saves ord x cur ok := h.mono fun _ _ h _ => .of_eq h

/-- A semicolon, if there is one. -/
theorem optSemicolon_does : Does (ifPeek (isKind .semicolon) (tok (isKind .semicolon))) fun _ t => ∀ c ∈ t, Droppable c :=
  (Does.ifPeek .kind (Does.kind (by decide))).mono fun o t h => by
    rcases h with ⟨_, rfl⟩ | ⟨c, _, rfl, hk⟩
    · simp
    · have := kind_of_isKind (by decide) hk
      simp only [List.mem_singleton, forall_eq]
      rw [strip_semicolon this]
      exact .inr (.inl this)

theorem optKind_total {k : Kind} {p p' : Parser} {d : Diag} {w : List Cursor} : ¬ Gives (ifPeek (isKind k) (tok (isKind k))) p (.error d) p' w := by
  intro h
  unfold ifPeek at h
  rcases gives_bind.mp h with ⟨c, p1, w1, w2, h1, h2, rfl⟩ | ⟨d, h1, _⟩
  · obtain ⟨c', hc, e, rfl, rfl⟩ := gives_peek.mp h1
    cases e
    rcases gives_bind.mp h2 with ⟨b, p2, w3, w4, h3, h4, rfl⟩ | ⟨d, h3, _⟩
    · obtain ⟨e, rfl, rfl⟩ := gives_pure.mp h3
      cases e
      rcases gives_ite.mp h4 with ⟨hk, h5⟩ | ⟨_, h5⟩
      · rcases gives_bind.mp h5 with ⟨a, p3, w5, w6, h6, h7, rfl⟩ | ⟨d, h6, _⟩
        · cases (gives_pure.mp h7).1
        · unfold tok at h6
          rcases gives_bind.mp h6 with ⟨a, p3, w5, w6, h7, h8, rfl⟩ | ⟨d, h7, _⟩
          · obtain ⟨c, hc', e, rfl, rfl⟩ := gives_peek.mp h7
            cases e
            rw [hc] at hc'
            cases hc'
            rcases gives_bind.mp h8 with ⟨b, p4, w7, w8, h9, h10, rfl⟩ | ⟨d, h9, _⟩
            · obtain ⟨e, rfl, rfl⟩ := gives_pure.mp h9
              cases e
              rcases gives_bind.mp h10 with ⟨b, p4, w7, w8, h11, h12, rfl⟩ | ⟨d, h11, _⟩
              · rw [if_pos hk] at h12
                cases (gives_pure.mp h12).1
              · obtain ⟨_, _, e, _⟩ := gives_take.mp h11; cases e
            · cases (gives_pure.mp h9).1
          · obtain ⟨_, _, e, _⟩ := gives_peek.mp h7; cases e
      · cases (gives_pure.mp h5).1
    · cases (gives_pure.mp h3).1
  · obtain ⟨_, _, e, _⟩ := gives_peek.mp h1; cases e

/-- The same, when the result is not looked at. -/
theorem resultSemicolon_does : Does (result (ifPeek (isKind .semicolon) (tok (isKind .semicolon)))) fun _ t => ∀ c ∈ t, Droppable c := by
  intro p p' r w hp hg
  obtain ⟨r1, h1, rfl⟩ := gives_result.mp hg
  obtain ⟨m, k⟩ := optSemicolon_does hp h1
  refine ⟨m, fun r e => ?_⟩
  cases e
  cases r1 with
  | ok a => exact k a rfl
  | error d => exact absurd h1 optKind_total

section
variable {α δ ρ : Type}

theorem itemsCursors_append (cur : ρ → List Cursor) (a b : List ρ) : itemsCursors cur (a ++ b) = itemsCursors cur a ++ itemsCursors cur b := by
  induction a with
  | nil => rfl
  | cons x a ih => simp [itemsCursors, ih]
theorem pairsCursors_append (cur : ρ → List Cursor) (a b : List (ρ × Option Cursor)) : pairsCursors cur (a ++ b) = pairsCursors cur a ++ pairsCursors cur b := by
  induction a with
  | nil => rfl
  | cons x a ih => simp [pairsCursors, ih]

theorem ruleListLoop_saves {item : Prog ρ} {cur : ρ → List Cursor} {ok : ρ → Prop} (hi : Saves ord item cur ok) : ∀ n items, Does (ruleListLoop item n items)
    fun a t => ∃ more, a.1 = items ++ more ∧ ((∀ r ∈ more, ok r) → Kept ord (itemsCursors cur more ++ a.2.toList) t) := by
  intro n
  induction n with
  | zero => intro items; exact Does.panic
  | succ n ih =>
    intro items
    unfold ruleListLoop
    refine Does.bind resultSemicolon_does fun _ t ht => Exact.look (Does.ask fun _ => rfl) fun e => Does.ite (fun _ => ?_) fun _ => ?_
    · exact .pure ⟨[], by simp, fun _ => (by simpa [itemsCursors] using Kept.dropAll ht)⟩
    · refine Exact.look (Does.peek fun _ => rfl) fun c => Does.ite (fun _ => ?_) fun _ => ?_
      · refine Exact.next .kind fun c => .pure ⟨[], by simp, fun _ => ?_⟩
        simpa [itemsCursors] using Kept.drop (Kept.refl (l := [c])) ht
      · refine Does.bind hi fun r t1 h1 => (ih _).mono fun a t2 h2 => ?_
        obtain ⟨more, e, h2⟩ := h2
        refine ⟨r :: more, by simp [e], fun hok => Kept.drop ?_ ht⟩
        have := Kept.append (h1 (hok r (by simp))) (h2 fun r hr => hok r (by simp [hr]))
        simpa [itemsCursors] using this

theorem ruleList_saves {item : Prog ρ} {cur : ρ → List Cursor} {ok : ρ → Prop} (hi : Saves ord item cur ok) (n : Nat) :
    Saves ord (ruleList item n) (ListBlock.cursors cur) fun b => ∀ r ∈ b.items, ok r := by
  unfold ruleList
  refine Exact.next .kind fun o => Does.bind (ruleListLoop_saves hi n []) fun a t h => .pure fun hok => ?_
  obtain ⟨more, e, h⟩ := h
  simp only [List.nil_append] at e
  subst e
  simpa [ListBlock.cursors] using Kept.cons (c := o) (h hok)

theorem declarationListLoop_saves {item : Prog δ} {cur : δ → List Cursor} {ok : δ → Prop} (hi : Saves ord item cur ok) : ∀ n items,
    Does (declarationListLoop item n items)
      fun a t => ∃ more, a.1 = items ++ more ∧ ((∀ r ∈ more, ok r.1) → Kept ord (pairsCursors cur more ++ a.2.toList) t) := by
  intro n
  induction n with
  | zero => intro items; exact Does.panic
  | succ n ih =>
    intro items
    unfold declarationListLoop
    refine Exact.look (Does.ask fun _ => rfl) fun e => Does.ite (fun _ => ?_) fun _ => ?_
    · exact .pure ⟨[], by simp, fun _ => Kept.nil⟩
    · refine Exact.look (Does.peek fun _ => rfl) fun c => Does.ite (fun _ => ?_) fun _ => ?_
      · exact Exact.next .kind fun c => .pure ⟨[], by simp, fun _ => by simpa [pairsCursors] using Kept.refl (l := [c])⟩
      · refine Does.bind hi fun r t1 h1 => Exact.next .optTok fun s => (ih _).mono fun a t2 h2 => ?_
        obtain ⟨more, e, h2⟩ := h2
        refine ⟨(r, s) :: more, by simp [e], fun hok => ?_⟩
        have := Kept.append (h1 (hok (r, s) (by simp))) (Kept.append (Kept.refl (l := s.toList)) (h2 fun r hr => hok r (by simp [hr])))
        simpa [pairsCursors] using this

theorem declarationList_saves {item : Prog δ} {cur : δ → List Cursor} {ok : δ → Prop} (hi : Saves ord item cur ok) (n : Nat) :
    Saves ord (declarationList item n) (ListBlock.pairCursors cur) fun b => ∀ r ∈ b.items, ok r.1 := by
  unfold declarationList
  refine Exact.next .kind fun o => Does.bind (declarationListLoop_saves hi n []) fun a t h => .pure fun hok => ?_
  obtain ⟨more, e, h⟩ := h
  simp only [List.nil_append] at e
  subst e
  simpa [ListBlock.pairCursors] using Kept.cons (c := o) (h hok)

/-- The cursors of a block: css_ast writes all declarations, then all rules. -/
def blockCursors (cd : δ → List Cursor) (cr : ρ → List Cursor) (b : BlockParts δ ρ) : List Cursor :=
  b.opening :: (pairsCursors cd b.declarations ++ itemsCursors cr b.rules ++ b.close.toList)

theorem firsts {cd : δ → List Cursor} {cr : ρ → List Cursor} {ds : List (δ × Option Cursor)} {rs : List ρ} (h : ord = true → declarationsFirst cd cr ds rs = true) :
    ord = true → ∀ d ∈ ds, ∀ r ∈ rs, before (cd d.1) (cr r) = true := fun e d hd r hr =>
  List.all_eq_true.mp (List.all_eq_true.mp (h e) d hd) r hr

theorem declarationRuleListLoop_saves {decl : Prog δ} {rule : Prog ρ} {cd : δ → List Cursor} {cr : ρ → List Cursor} {okd : δ → Prop} {okr : ρ → Prop}
    (hd : Saves ord decl cd okd) (hr : Saves ord rule cr okr) : ∀ n ds rs, Does (declarationRuleListLoop decl rule n ds rs)
      fun a t => ∃ d2 r2, a.1 = (ds ++ d2, rs ++ r2) ∧ ((∀ d ∈ d2, okd d.1) → (∀ r ∈ r2, okr r) → (ord = true → ∀ d ∈ d2, ∀ r ∈ r2, before (cd d.1) (cr r) = true) →
        Kept ord (pairsCursors cd d2 ++ itemsCursors cr r2 ++ a.2.toList) t) := by
  intro n
  induction n with
  | zero => intro ds rs; exact Does.panic
  | succ n ih =>
    intro ds rs
    unfold declarationRuleListLoop
    refine Exact.look (Does.ask fun _ => rfl) fun e => Does.ite (fun _ => ?_) fun _ => ?_
    · exact .pure ⟨[], [], by simp, fun _ _ _ => Kept.nil⟩
    · refine Exact.look (Does.peek fun _ => rfl) fun c => Does.ite (fun _ => ?_) fun _ => Does.ite (fun _ => ?_) fun _ => Does.ite (fun _ => ?_) fun _ => ?_
      · exact Exact.next .kind fun c => .pure ⟨[], [], by simp, fun _ _ _ => by simpa [pairsCursors, itemsCursors] using Kept.refl (l := [c])⟩
      · refine Does.bind hr fun r t1 h1 => (ih _ _).mono fun a t2 h2 => ?_
        obtain ⟨d2, r2, e, h2⟩ := h2
        refine ⟨d2, r :: r2, by simp [e], fun hok hok' hb => ?_⟩
        have := h2 hok (fun r hr => hok' r (by simp [hr])) fun e d hd r hr => hb e d hd r (by simp [hr])
        simpa [itemsCursors] using Kept.rule (h1 (hok' r (by simp))) (by simpa using this) fun e d hd => hb e d hd r (by simp)
      · refine Does.bind hd fun r t1 h1 => Exact.next .optTok fun s => (ih _ _).mono fun a t2 h2 => ?_
        obtain ⟨d2, r2, e, h2⟩ := h2
        refine ⟨(r, s) :: d2, r2, by simp [e], fun hok hok' hb => ?_⟩
        have := Kept.append (h1 (hok (r, s) (by simp))) (Kept.append (Kept.refl (l := s.toList)) (h2 (fun r hr => hok r (by simp [hr])) hok'
          fun e d hd => hb e d (by simp [hd])))
        simpa [pairsCursors] using this
      · exact Exact.look (Does.peekN fun _ => rfl) fun _ => Does.fail

theorem declarationRuleList_saves {decl : Prog δ} {rule : Prog ρ} {cd : δ → List Cursor} {cr : ρ → List Cursor} {okd : δ → Prop} {okr : ρ → Prop}
    (hd : Saves ord decl cd okd) (hr : Saves ord rule cr okr) (n : Nat) :
    Saves ord (declarationRuleList decl rule n) (blockCursors cd cr) fun b => (∀ d ∈ b.declarations, okd d.1) ∧ (∀ r ∈ b.rules, okr r) ∧ (ord = true → declarationsFirst cd cr b.declarations b.rules = true) := by
  unfold declarationRuleList
  refine Exact.next .kind fun o => Does.bind (declarationRuleListLoop_saves hd hr n [] []) fun a t h => .pure fun hok => ?_
  obtain ⟨d2, r2, e, h⟩ := h
  obtain ⟨⟨ds, rs⟩, close⟩ := a
  simp only [List.nil_append, Prod.mk.injEq] at e
  obtain ⟨rfl, rfl⟩ := e
  simpa [blockCursors] using Kept.cons (c := o) (h hok.1 hok.2.1 (firsts hok.2.2))

theorem commaPreludeLoop_saves {item : Prog α} {cur : α → List Cursor} {ok : α → Prop} (hi : Saves ord item cur ok) : ∀ n items,
    Does (commaPreludeLoop item n items) fun a t => ∃ more, a = items ++ more ∧ ((∀ r ∈ more, ok r.1) → Kept ord (pairsCursors cur more) t) := by
  intro n
  induction n with
  | zero => intro items; exact Does.panic
  | succ n ih =>
    intro items
    unfold commaPreludeLoop
    refine Does.bind hi fun r t1 h1 => Exact.next .optTok fun s => Exact.look (Does.peek fun _ => rfl) fun c => Does.ite (fun _ => ?_) fun _ => ?_
    · exact .pure ⟨[(r, s)], rfl, fun hok => by simpa [pairsCursors] using Kept.append (h1 (hok (r, s) (by simp))) (Kept.refl (l := s.toList))⟩
    · refine (ih _).mono fun a t2 h2 => ?_
      obtain ⟨more, e, h2⟩ := h2
      refine ⟨(r, s) :: more, by simp [e], fun hok => ?_⟩
      have := Kept.append (h1 (hok (r, s) (by simp))) (Kept.append (Kept.refl (l := s.toList)) (h2 fun r hr => hok r (by simp [hr])))
      simpa [pairsCursors] using this

theorem commaPrelude_saves {item : Prog α} {cur : α → List Cursor} {ok : α → Prop} (hi : Saves ord item cur ok) (n : Nat) :
    Saves ord (commaPrelude item n) (pairsCursors cur) fun l => ∀ r ∈ l, ok r.1 := (commaPreludeLoop_saves hi n []).mono fun a t h => by
  obtain ⟨more, rfl, h⟩ := h
  exact h

theorem preludeLoop_saves {item : Prog α} {cur : α → List Cursor} {ok : α → Prop} (hi : Saves ord item cur ok) : ∀ n items,
    Does (preludeLoop item n items) fun a t => ∃ more, a = items ++ more ∧ ((∀ r ∈ more, ok r) → Kept ord (itemsCursors cur more) t) := by
  intro n
  induction n with
  | zero => intro items; exact Does.panic
  | succ n ih =>
    intro items
    unfold preludeLoop
    refine Does.bind hi fun r t1 h1 => Exact.look (Does.peek fun _ => rfl) fun c => Does.ite (fun _ => ?_) fun _ => ?_
    · exact .pure ⟨[r], rfl, fun hok => by simpa [itemsCursors] using h1 (hok r (by simp))⟩
    · refine (ih _).mono fun a t2 h2 => ?_
      obtain ⟨more, e, h2⟩ := h2
      refine ⟨r :: more, by simp [e], fun hok => ?_⟩
      simpa [itemsCursors] using Kept.append (h1 (hok r (by simp))) (h2 fun r hr => hok r (by simp [hr]))

theorem preludeList_saves {item : Prog α} {cur : α → List Cursor} {ok : α → Prop} (hi : Saves ord item cur ok) (n : Nat) :
    Saves ord (preludeList item n) (itemsCursors cur) fun l => ∀ r ∈ l, ok r := (preludeLoop_saves hi n []).mono fun a t h => by
  obtain ⟨more, rfl, h⟩ := h
  exact h

theorem declarationOf_saves {ν : Type} {valid : Cursor → Prog Bool} {value : Cursor → Prog ν} {cur : ν → List Cursor} {ok : ν → Prop} (hv : Inspects valid)
    (h : ∀ c, Saves ord (value c) cur ok) : Saves ord (declarationOf valid value) (Decl.cursors cur) fun d => ok d.value := by
  unfold declarationOf
  refine Exact.next .kind fun n => Exact.look (Does.looks hv fun _ => rfl) fun b => Does.ite (fun _ => Does.fail) fun _ => ?_
  refine Exact.next .kind fun c => Does.bind (h n) fun v t hv => Exact.next (Exact.opt isBangImportant_inspects .important) fun i => .pure fun hok => ?_
  have := Kept.cons (c := n) (Kept.cons (c := c) ((hv hok).append (Kept.refl (l := (i.map BangImportant.cursors).getD []))))
  simpa [Decl.cursors] using this

theorem atRule_saves {β : Type} {name : Option (List Char)} {prelude : Prog α} {block : Prog β} {cp : α → List Cursor} {cb : β → List Cursor} {okp : α → Prop}
    {okb : β → Prop} (hp : Saves ord prelude cp okp) (hb : Saves ord block cb okb) :
    Saves ord (atRule name prelude block) (fun x => x.1 :: ((x.2.1.map cp).getD [] ++ cb x.2.2)) fun x => (∀ a ∈ x.2.1, okp a) ∧ okb x.2.2 := by
  unfold atRule
  refine Exact.next .kind fun a => ?_
  cases name
  all_goals
    refine Exact.look (by first | exact Does.pure rfl | exact Does.eqCase fun _ => rfl) fun b => ?_
    refine Does.ite (fun _ => Does.fail) fun _ => Exact.look (Does.peek fun _ => rfl) fun c => Exact.look (Does.ask fun _ => rfl) fun e => ?_
    dsimp only
    refine Does.ite (fun _ => ?_) fun _ => ?_
    · refine Does.bind (P := fun (o : Option α) t => o = none ∧ t = []) (Does.pure ⟨rfl, rfl⟩) fun o t ⟨e, e'⟩ => ?_
      subst e; subst e'
      exact Does.bind hb fun b u hb => .pure fun hok => by simpa using Kept.cons (c := a) (hb hok.2)
    · refine Does.bind hp fun x t h => ?_
      refine Does.bind (P := fun (o : Option α) t => o = some x ∧ t = []) (Does.pure ⟨rfl, rfl⟩) fun o t ⟨e, e'⟩ => ?_
      subst e; subst e'
      refine Does.bind hb fun b u hb => .pure fun hok => ?_
      simpa using Kept.cons (c := a) ((h (hok.1 x rfl)).append (hb hok.2))

/-! ### Blocks -/

theorem optWs_does : Does (ifPeek isWs whitespace) fun _ t => ∀ c ∈ t, Droppable c := by
  refine Does.ofModes (.ifPeek (fun _ => by unfold isWs; keeps) .whitespace) fun p _ a p' w h => ?_
  obtain ⟨rfl, ⟨c, rfl, hk⟩ | ⟨rfl, _⟩⟩ := gives_ifWs h
  · have := kind_of_isKind (by decide) hk
    intro d hd
    simp only [Option.toList, taken_kind (by decide) hk, List.mem_singleton, strip_plain (by decide) hk (by decide) (by decide)] at hd
    subst hd
    exact .inl this
  · intro d hd; simp at hd

/-- A declaration that is tried: nothing is taken unless there is one. -/
theorem tryDeclaration_does {test : Cursor → Prog Bool} (hi : Inspects test) (ht : ∀ c p d q w, ¬ Gives (test c) p (.error d) q w) {x : Prog α}
    {P : α → List Cursor → Prop} (hx : Does x P) :
    Does (result (ifPeek test (tryParse x))) fun r t => match r with
      | .ok (some a) => P a t
      | _ => t = [] := by
  intro p p' r w hp hg
  obtain ⟨r1, h1, rfl⟩ := gives_result.mp hg
  obtain ⟨m, k⟩ := Does.ifPeek hi (Does.tryParse hx) hp h1
  refine ⟨m, fun r e => ?_⟩
  cases e
  cases r1 with
  | ok o =>
    rcases k o rfl with ⟨rfl, e⟩ | ⟨a, rfl, h⟩
    · exact e
    · exact h
  | error d =>
    have := gives_ifLooks_error (fun h => hi h) ht h1
    obtain ⟨rfl, _⟩ := gives_tryParse_error.mp this
    rfl

theorem Does.inTotal {s : Bool} {β : Type} {x : Prog α} {k : α → Prog β} {P : α → List Cursor → Prop} {Q : β → List Cursor → Prop} (hx : Does x P)
    (ht : ∀ p d q w, ¬ Gives x p (.error d) q w) (hk : ∀ a t, P a t → DoesIn s (k a) fun b u => Q b (t ++ u)) : DoesIn s (x >>= k) Q := by
  intro p p' r w hp hg
  rcases gives_bind.mp hg with ⟨a, p1, w1, w2, h1, h2, rfl⟩ | ⟨d, h1, _⟩
  · obtain ⟨m1, k1⟩ := hx hp h1
    obtain ⟨m2, k2⟩ := hk a _ (k1 a rfl) m1.1 h2
    exact ⟨⟨m2.1, m2.2.1.trans m1.2.1, m2.2.2⟩, fun b e => by rw [taken_append]; exact k2 b e⟩
  · exact absurd h1 (ht _ _ _ _)

theorem blockLoop_saves {isDecl : Cursor → Prog Bool} {decl : Prog δ} {rule : Prog ρ} {cd : δ → List Cursor} {cr : ρ → List Cursor} {okd : δ → Prop} {okr : ρ → Prop}
    (hi : Inspects isDecl) (ht : ∀ c p d q w, ¬ Gives (isDecl c) p (.error d) q w) (hd : Saves ord decl cd okd) (hr : Saves ord rule cr okr) : ∀ n ds rs, Does (blockLoop isDecl decl rule n ds rs)
      fun a t => ∃ d2 r2, a = (ds ++ d2, rs ++ r2) ∧ ((∀ d ∈ d2, okd d.1) → (∀ r ∈ r2, okr r) → (ord = true → ∀ d ∈ d2, ∀ r ∈ r2, before (cd d.1) (cr r) = true) → Kept ord (pairsCursors cd d2 ++ itemsCursors cr r2) t) := by
  intro n
  induction n with
  | zero => intro ds rs; exact Does.panic
  | succ n ih =>
    intro ds rs
    unfold blockLoop
    have again : ∀ t, (∀ c ∈ t, Droppable c) → Does (blockLoop isDecl decl rule n ds rs)
      fun a u => ∃ d2 r2, a = (ds ++ d2, rs ++ r2) ∧ ((∀ d ∈ d2, okd d.1) → (∀ r ∈ r2, okr r) → (ord = true → ∀ d ∈ d2, ∀ r ∈ r2, before (cd d.1) (cr r) = true) →
        Kept ord (pairsCursors cd d2 ++ itemsCursors cr r2) (t ++ u)) := fun t ht => (ih ds rs).mono fun a u h => by
      obtain ⟨d2, r2, e, h⟩ := h
      exact ⟨d2, r2, e, fun h1 h2 h3 => Kept.drop (h h1 h2 h3) ht⟩
    have nested : ∀ old, DoesIn old (result rule >>= fun r => setState old fun _ => ofResult r >>= fun r => blockLoop isDecl decl rule n ds (rs ++ [r]))
      fun a t => ∃ d2 r2, a = (ds ++ d2, rs ++ r2) ∧ ((∀ d ∈ d2, okd d.1) → (∀ r ∈ r2, okr r) → (ord = true → ∀ d ∈ d2, ∀ r ∈ r2, before (cd d.1) (cr r) = true) → Kept ord (pairsCursors cd d2 ++ itemsCursors cr r2) t) := by
      intro old
      refine Does.inResult hr fun r t h => Does.inSetState (Does.bind (P := fun x t => r = .ok x ∧ t = []) (Does.ofResult fun a e => ⟨e, rfl⟩) fun x t' ⟨e, e'⟩ => ?_)
      subst e; subst e'
      refine (ih _ _).mono fun a u h' => ?_
      obtain ⟨d2, r2, e, h'⟩ := h'
      refine ⟨d2, x :: r2, by simp [e], fun h1 h2 h3 => ?_⟩
      have := h' h1 (fun r hr => h2 r (by simp [hr])) fun e d hd r hr => h3 e d hd r (by simp [hr])
      simpa [itemsCursors] using Kept.rule (more := []) (h x rfl (h2 x (by simp))) (by simpa using this) fun e d hd => h3 e d hd x (by simp)
    refine Does.bind optWs_does fun ws t hdr => Does.ite (fun _ => again t hdr) fun _ => ?_
    refine Does.bind optSemicolon_does fun semi t2 ht2 => ?_
    have hdr' : ∀ c ∈ t ++ t2, Droppable c := fun c hc => (List.mem_append.mp hc).elim (hdr c) (ht2 c)
    refine Does.mono (P := fun a u => ∃ d2 r2, a = (ds ++ d2, rs ++ r2) ∧ ((∀ d ∈ d2, okd d.1) → (∀ r ∈ r2, okr r) → (ord = true → ∀ d ∈ d2, ∀ r ∈ r2, before (cd d.1) (cr r) = true) →
      Kept ord (pairsCursors cd d2 ++ itemsCursors cr r2) u)) ?_ fun a u h => by
        obtain ⟨d2, r2, e, h⟩ := h
        exact ⟨d2, r2, e, fun h1 h2 h3 => by rw [← List.append_assoc]; exact Kept.drop (h h1 h2 h3) hdr'⟩
    refine Does.ite (fun _ => ih ds rs) fun _ => Exact.look (Does.ask fun _ => rfl) fun e => Does.ite (fun _ => ?_) fun _ => ?_
    · exact .pure ⟨[], [], by simp, fun _ _ _ => Kept.nil⟩
    refine Exact.look (Does.peek fun _ => rfl) fun c => Does.ite (fun _ => ?_) fun _ => ?_
    · exact .pure ⟨[], [], by simp, fun _ _ _ => Kept.nil⟩
    refine Does.setStateIn fun old => Does.inPeek fun c => Does.inIte (fun _ => nested old) fun _ => ?_
    refine Does.inTotal (tryDeclaration_does hi ht hd) (fun p d q w h => by obtain ⟨_, _, e⟩ := gives_result.mp h; cases e) fun r t h => ?_
    match r, h with
    | .ok (some d), h =>
      refine Does.inSetState (Exact.next .optTok fun semi => (ih _ _).mono fun a u h' => ?_)
      obtain ⟨d2, r2, e, h'⟩ := h'
      refine ⟨(d, semi) :: d2, r2, by simp [e], fun h1 h2 h3 => ?_⟩
      have := (h (h1 (d, semi) (by simp))).append ((Kept.refl (l := semi.toList)).append (h' (fun r hr => h1 r (by simp [hr])) h2 fun e d hd => h3 e d (by simp [hd])))
      simpa [pairsCursors] using this
    | .ok none, h => subst h; exact nested old
    | .error _, h => subst h; exact nested old

theorem blockOf_saves {isDecl : Cursor → Prog Bool} {decl : Prog δ} {rule : Prog ρ} {cd : δ → List Cursor} {cr : ρ → List Cursor} {okd : δ → Prop} {okr : ρ → Prop}
    (hi : Inspects isDecl) (ht : ∀ c p d q w, ¬ Gives (isDecl c) p (.error d) q w) (hd : Saves ord decl cd okd) (hr : Saves ord rule cr okr) (n : Nat) :
    Saves ord (blockOf isDecl decl rule n) (blockCursors cd cr) fun b => (∀ d ∈ b.declarations, okd d.1) ∧ (∀ r ∈ b.rules, okr r) ∧ (ord = true → declarationsFirst cd cr b.declarations b.rules = true) := by
  unfold blockOf
  refine Exact.next .kind fun o => Does.bind (blockLoop_saves hi ht hd hr n [] []) fun a t h => Exact.next .optTok fun close => .pure fun hok => ?_
  obtain ⟨d2, r2, e, h⟩ := h
  obtain ⟨ds, rs⟩ := a
  simp only [List.nil_append, Prod.mk.injEq] at e
  obtain ⟨rfl, rfl⟩ := e
  simpa [blockCursors] using Kept.cons (c := o) ((h hok.1 hok.2.1 (firsts hok.2.2)).append (Kept.refl (l := close.toList)))

/-! ### Qualified rules -/

theorem qualifiedLead_does : Does qualifiedLead fun l t => l = .other → t = [] :=
  Does.ofModes qualifiedLead_modes fun p _ a p' w h e => by subst e; rw [(qualifiedLead_other h).2]; rfl

theorem qualifiedRule_saves {β γ : Type} {prelude : Prog α} {block : Prog β} {bad : Prog γ} {cp : α → List Cursor} {cb : β → List Cursor} {okp : α → Prop}
    {okb : β → Prop} (hp : Saves ord prelude cp okp) (hb : Saves ord block cb okb) (hbad : Usual bad) :
    Saves ord (qualifiedRule prelude block bad) (fun x => cp x.1 ++ cb x.2) fun x => okp x.1 ∧ okb x.2 := by
  unfold qualifiedRule
  refine Exact.look (Does.ask fun _ => rfl) fun e => Does.ite (fun _ => Does.ofResult fun _ e => by cases e) fun _ => ?_
  refine Exact.look (Does.ask fun _ => rfl) fun n => Exact.look (Does.peek fun _ => rfl) fun c => Does.ite (fun _ => ?_) fun _ => ?_
  · exact Exact.look (Does.peekN fun _ => rfl) fun _ => Does.fail
  refine Exact.look (Does.ask fun _ => rfl) fun chk => ?_
  have rest : Saves ord (setStop (KindSet.new [.leftCurly]) fun old => do
      let prelude ← result prelude
      setStop old fun _ => do
        let prelude ← ofResult prelude
        let block ← block
        pure (prelude, block)) (fun x => cp x.1 ++ cb x.2) fun x => okp x.1 ∧ okb x.2 := by
    refine Does.setStop hp fun r t h => Does.bind (P := fun x t => r = .ok x ∧ t = []) (Does.ofResult fun a e => ⟨e, rfl⟩) fun a t' ⟨e, e'⟩ => ?_
    subst e; subst e'
    exact Does.bind hb fun b u hb => .pure fun hok => by simpa using (h a rfl hok.1).append (hb hok.2)
  have lost : ∀ {η : Type} {x : Prog η} {P : α × β → List Cursor → Prop}, Usual x → Does (x >>= fun _ => fail .badDeclaration chk.cursor) P := fun hx =>
    Does.bind hx fun _ _ _ => Does.fail
  have all : ∀ (r : Except Diag Lead), (r = .ok .other ∨ r ≠ .ok .dashedColon) → Saves ord (ofResult r >>= fun l => match l with
        | .dashedColonNested => do
          let _ ← bad
          fail .badDeclaration chk.cursor
        | .dashedColon => do
          let _ ← result block
          fail .badDeclaration chk.cursor
        | _ =>
          setStop (KindSet.new [.leftCurly]) fun old => do
            let prelude ← result prelude
            setStop old fun _ => do
              let prelude ← ofResult prelude
              let block ← block
              pure (prelude, block)) (fun x => cp x.1 ++ cb x.2) fun x => okp x.1 ∧ okb x.2 := by
    intro r hr
    refine Does.bind (P := fun x t => r = .ok x ∧ t = []) (Does.ofResult fun a e => ⟨e, rfl⟩) fun l t' ⟨e, e'⟩ => ?_
    subst e; subst e'
    cases l
    · exact rest
    · exact rest
    · exact lost hbad
    · exact lost (Does.usual (Does.result hb))
  refine Does.attempt qualifiedLead_does (fun r t hk h => ?_) fun r hk => ?_
  · simp only [Bool.or_eq_true, beq_iff_eq] at hk
    rcases hk with rfl | rfl
    · refine Does.bind (P := fun x t => x = .dashedColon ∧ t = []) (Does.ofResult fun a e => ⟨by cases e; rfl, rfl⟩) fun l t' ⟨e, e'⟩ => ?_
      subst e; subst e'
      exact lost (Does.usual (Does.result hb))
    · rw [h _ rfl rfl]
      exact all _ (.inl rfl)
  · refine all r (.inr fun e => ?_)
    subst e
    cases hk

end
end Hdx

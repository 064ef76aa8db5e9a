/-
Property C77: no token of a style sheet is lost by css_ast's tree.
-/
import Verif.Props.CssSheet

namespace Hdx
open Spec Prog

variable {ord : Bool}

theorem kept_of_map {l w d : List Cursor} (hd : ∀ c ∈ d, Droppable c) (h : (taken w).Perm (l.map strip ++ d)) (ho : ord = true → (l.map strip).Sublist (taken w)) :
    Kept ord l (taken w) := by
  have : ∀ c ∈ l, notEof c = true := by
    intro c hc
    have hm : strip c ∈ taken w := h.mem_iff.mpr (List.mem_append_left _ (List.mem_map_of_mem hc))
    unfold taken at hm
    obtain ⟨d, hd, e⟩ := List.mem_map.mp hm
    rw [← notEof_strip, ← e, notEof_strip]
    exact (List.mem_filter.mp hd).2
  have e : taken l = l.map strip := by rw [taken, List.filter_eq_self.mpr this]
  exact ⟨d, hd, e ▸ h, fun o _ => e ▸ ho o⟩

theorem componentValue_does (n : Nat) : Exact (componentValue n) ComponentValue.cursors :=
  Does.ofModes (componentValue_modes n) fun _ _ _ _ _ h => taken_of_map (componentValue_taken n h)

/-- A bad declaration inside of a block: it is kept. -/
theorem badDeclarationLoop_kept {item : Prog ComponentValue} (hi : Exact item ComponentValue.cursors) : ∀ (n : Nat) {values vs : List ComponentValue}
    {p p' : Parser} {w : List Cursor}, UsualSkip p.skip → p.nested = true → Gives (badDeclarationLoop item n values) p (.ok vs) p' w →
      ∃ more, vs = values ++ more ∧ taken w = taken (ComponentValue.cursorsOf more) := by
  intro n
  induction n with
  | zero => intro _ _ _ _ _ _ _ h; exact absurd h gives_panic
  | succ n ih =>
    intro values vs p p' w hp hn h
    unfold badDeclarationLoop at h
    obtain ⟨b, p1, w1, w2, rfl, h1, h2⟩ := step h
    obtain ⟨_, rfl, rfl⟩ := gives_atEnd.mp h1
    rcases gives_ite.mp h2 with ⟨_, h3⟩ | ⟨_, h3⟩
    · obtain ⟨e, rfl, rfl⟩ := gives_pure.mp h3
      cases e
      exact ⟨[], by simp, rfl⟩
    obtain ⟨c, hc, h4⟩ := step_peek h3
    rcases gives_ite.mp h4 with ⟨_, h5⟩ | ⟨_, h5⟩
    · obtain ⟨v, p2, w3, w4, rfl, h6, h7⟩ := step h5
      obtain ⟨e, rfl, rfl⟩ := gives_pure.mp h7
      cases e
      exact ⟨[v], rfl, by simpa [ComponentValue.cursorsOf] using (hi hp h6).2 v rfl⟩
    have last : ∀ {w2 : List Cursor}, Gives (item >>= fun v => badDeclarationLoop item n (values ++ [v])) p1 (.ok vs) p' w2 →
        ∃ more, vs = values ++ more ∧ taken w2 = taken (ComponentValue.cursorsOf more) := by
      intro w2 h
      obtain ⟨v, p2, w3, w4, rfl, h6, h7⟩ := step h
      obtain ⟨m, k⟩ := hi hp h6
      obtain ⟨more, rfl, e⟩ := ih m.1 (m.2.2.trans hn) h7
      exact ⟨v :: more, by simp, by simp [ComponentValue.cursorsOf, e, k v rfl]⟩
    rcases gives_ite.mp h5 with ⟨_, h6⟩ | ⟨_, h6⟩
    · obtain ⟨b, p2, w3, w4, rfl, h7, h8⟩ := step h6
      obtain ⟨e, rfl, rfl⟩ := gives_nested.mp h7
      cases e
      rw [hn] at h8
      obtain ⟨e, rfl, rfl⟩ := gives_pure.mp h8
      cases e
      exact ⟨[], by simp, rfl⟩
    · exact last h6

theorem missingPrelude_does {α : Type} {start : Nat} {P : α → List Cursor → Prop} : Does (missingPrelude start) P := by
  unfold missingPrelude
  exact Exact.look (Does.ask fun _ => rfl) fun n => Does.ofResult fun _ e => by cases e

section
variable {τ : Type} {V : Values τ} {good : τ → Bool}

mutual
/-- `Whole` and, if `ord`, `InOrder`. -/
def WholeIn (ord : Bool) (V : Values τ) (good : τ → Bool) : CssRule τ → Bool
  | .charset _ _ _ semi => semi.isSome
  | .container _ query _ rules _ => (query.all fun q => q.condition.all affirms) && WholeInAll ord V good rules
  | .fontFace _ block => block.items.all (goodValue good)
  | .keyframes _ _ block => block.items.all fun k => k.block.items.all fun d => goodValue good d.1
  | .layerStatement _ _ _ => true
  | .layerBlock _ _ _ rules _ => WholeInAll ord V good rules
  | .media _ query _ decls rules _ => (query.all fun q => q.condition.all affirms) && (decls.all fun d => goodValue good d.1) && WholeInAll ord V good rules
      && (!ord || declarationsFirst (Decl.cursors (StyleValue.cursors V)) (CssRule.cursors V) decls rules)
  | .page _ _ block => (block.declarations.all fun d => goodValue good d.1)
      && (block.rules.all fun m => m.block.items.all fun d => goodValue good d.1)
      && (!ord || declarationsFirst (Decl.cursors (StyleValue.cursors V)) (MarginRule.cursors V) block.declarations block.rules)
  | .property _ _ _ => true
  | .supports _ cond _ rules _ => goodCondition (goodFeature good) cond && WholeInAll ord V good rules
  | .document _ _ _ _ rules _ => WholeInAll ord V good rules
  | .webkitKeyframes _ _ block => block.items.all fun k => k.block.items.all fun d => goodValue good d.1
  | .unknownAt r => !ord || Flat r
  | .style _ _ decls rules _ => (decls.all fun d => goodValue good d.1) && WholeInAll ord V good rules
      && (!ord || declarationsFirst (Decl.cursors (StyleValue.cursors V)) (CssRule.cursors V) decls rules)
  | .unknown r => !ord || Flat r
  | .bad _ => true
/-- The same for every rule of the list. -/
def WholeInAll (ord : Bool) (V : Values τ) (good : τ → Bool) : List (CssRule τ) → Bool
  | [] => true
  | r :: rs => WholeIn ord V good r && WholeInAll ord V good rs
end

mutual
theorem wholeIn_of : ∀ {r : CssRule τ}, Whole good r = true → (ord = true → InOrder V r = true) → WholeIn ord V good r = true
  | .charset .., h, _ => h
  | .container .., h, h' => by
    simp only [Whole, WholeIn, InOrder, Bool.and_eq_true] at h h' ⊢
    exact ⟨h.1, wholeInAll_of h.2 h'⟩
  | .fontFace .., h, _ => h
  | .keyframes .., h, _ => h
  | .layerStatement .., _, _ => rfl
  | .layerBlock .., h, h' => by
    simp only [Whole, WholeIn, InOrder] at h h' ⊢
    exact wholeInAll_of h h'
  | .media .., h, h' => by
    simp only [Whole, WholeIn, InOrder, Bool.and_eq_true, Bool.or_eq_true, Bool.not_eq_true'] at h h' ⊢
    exact ⟨⟨h.1, wholeInAll_of h.2 fun o => (h' o).2⟩, by cases ord <;> simp_all⟩
  | .page .., h, h' => by
    simp only [Whole, WholeIn, InOrder, Bool.and_eq_true, Bool.or_eq_true, Bool.not_eq_true'] at h h' ⊢
    exact ⟨h, by cases ord <;> simp_all⟩
  | .property .., _, _ => rfl
  | .supports .., h, h' => by
    simp only [Whole, WholeIn, InOrder, Bool.and_eq_true] at h h' ⊢
    exact ⟨h.1, wholeInAll_of h.2 h'⟩
  | .document .., h, h' => by
    simp only [Whole, WholeIn, InOrder] at h h' ⊢
    exact wholeInAll_of h h'
  | .webkitKeyframes .., h, _ => h
  | .unknownAt .., h, h' => by
    simp only [WholeIn, InOrder, Bool.or_eq_true, Bool.not_eq_true'] at h' ⊢
    cases ord <;> simp_all
  | .style .., h, h' => by
    simp only [Whole, WholeIn, InOrder, Bool.and_eq_true, Bool.or_eq_true, Bool.not_eq_true'] at h h' ⊢
    exact ⟨⟨h.1, wholeInAll_of h.2 fun o => (h' o).2⟩, by cases ord <;> simp_all⟩
  | .unknown .., h, h' => by
    simp only [WholeIn, InOrder, Bool.or_eq_true, Bool.not_eq_true'] at h' ⊢
    cases ord <;> simp_all
  | .bad .., _, _ => rfl
theorem wholeInAll_of : ∀ {rs : List (CssRule τ)}, WholeAll good rs = true → (ord = true → InOrderAll V rs = true) → WholeInAll ord V good rs = true
  | [], _, _ => rfl
  | r :: rs, h, h' => by
    simp only [WholeAll, WholeInAll, InOrderAll, Bool.and_eq_true] at h h' ⊢
    exact ⟨wholeIn_of h.1 fun o => (h' o).1, wholeInAll_of h.2 fun o => (h' o).2⟩
end

theorem wholeAll_iff {rs : List (CssRule τ)} : WholeInAll ord V good rs = true ↔ ∀ r ∈ rs, WholeIn ord V good r = true := by
  induction rs with
  | nil => simp [WholeInAll]
  | cons r rs ih => simp [WholeInAll, ih]

theorem cursorsOf_items (rs : List (CssRule τ)) : itemsCursors (CssRule.cursors V) rs = CssRule.cursorsOf V rs := by
  induction rs with
  | nil => rfl
  | cons r rs ih => simp [itemsCursors, CssRule.cursorsOf, ih]

/-- A rule that keeps its tokens. -/
abbrev SavesRule (ord : Bool) (V : Values τ) (good : τ → Bool) (x : Prog (CssRule τ)) : Prop := Saves ord x (CssRule.cursors V) fun r => WholeIn ord V good r = true

theorem badRule_saves (n : Nat) : SavesRule ord V good (badRule n) := by
  intro p p' r w hp hg
  unfold badRule at hg
  replace hg := gives_setState.mp hg
  rcases gives_bind.mp hg with ⟨a, p1, w1, w2, h1, h2, rfl⟩ | ⟨d, h1, _⟩
  · obtain ⟨r1, h3, e⟩ := gives_result.mp h1
    cases e
    have hm := badDeclaration_modes n h3
    have hs := Same.of_modes (p := { p with nested := true }) hp hm
    replace h2 := gives_setState.mp h2
    rcases gives_bind.mp h2 with ⟨a, p2, w3, w4, h4, h5, rfl⟩ | ⟨d, h4, e⟩
    · obtain ⟨rfl, rfl, rfl⟩ := gives_ofResult.mp h4
      obtain ⟨rfl, rfl, rfl⟩ := gives_pure.mp h5
      refine ⟨⟨hs.1, hs.2.1, rfl⟩, fun r e _ => ?_⟩
      cases e
      obtain ⟨more, e, h⟩ := badDeclarationLoop_kept (componentValue_does n) n (p := { p with nested := true }) hp rfl h3
      simp only [List.nil_append] at e
      subst e
      simpa [CssRule.cursors] using Kept.of_eq h
    · subst e
      obtain ⟨_, rfl, rfl⟩ := gives_ofResult.mp h4
      exact ⟨⟨hs.1, hs.2.1, rfl⟩, fun r e => by cases e⟩
  · obtain ⟨_, _, e⟩ := gives_result.mp h1; cases e

theorem unknownAtRule_saves (m n : Nat) : SavesRule ord V good (unknownAtRule (rule m) n : Prog (CssRule τ)) := by
  unfold unknownAtRule
  refine Does.bind (P := fun r t => (ord = true → Flat r = true) → Kept ord r.cursors t) (Does.ofModes (genericAtRule_modes (rule_modes m) n) fun _ _ r _ w h hf => ?_)
    fun r t h => .pure fun hok => by simpa [CssRule.cursors] using h fun o => by simpa [WholeIn, o] using hok
  obtain ⟨d, hd, hp⟩ := ruleText_perm (genericAtRule_text (rule_text m) h)
  exact kept_of_map hd hp fun o => ruleText_sublist (genericAtRule_text (rule_text m) h) (hf o)

theorem unknownQualifiedRule_saves (m n : Nat) : SavesRule ord V good (unknownQualifiedRule (rule m) n : Prog (CssRule τ)) := by
  unfold unknownQualifiedRule
  refine Does.bind (P := fun r t => (ord = true → Flat r = true) → Kept ord r.cursors t) (Does.ofModes (genericQualifiedRule_modes (rule_modes m) n) fun _ _ r _ w h hf => ?_)
    fun r t h => .pure fun hok => by simpa [CssRule.cursors] using h fun o => by simpa [WholeIn, o] using hok
  obtain ⟨d, hd, hp⟩ := ruleText_perm (genericQualifiedRule_text (rule_text m) h)
  exact kept_of_map hd hp fun o => ruleText_sublist (genericQualifiedRule_text (rule_text m) h) (hf o)

theorem charsetRule_saves : SavesRule ord V good (charsetRule : Prog (CssRule τ)) := by
  unfold charsetRule
  refine Exact.next .kind fun a => Exact.look (Does.eqCase fun _ => rfl) fun b => Does.ite (fun _ => by exactly) fun _ => ?_
  refine Exact.next .whitespace fun s => Exact.next .kind fun str => Does.bind (Exact.kind (k := .semicolon)).result fun r t h => .pure fun hok => ?_
  cases r with
  | ok c => exact .of_eq (by simp [CssRule.cursors, okOf, h c rfl, taken_cons _ (_ :: _)])
  | error d => cases hok

variable {r : Prog (CssRule τ)} (hr : SavesRule ord V good r) (n : Nat)
include hr

theorem containerRule_saves : SavesRule ord V good (containerRule r n) := by
  unfold containerRule
  refine Exact.look (Does.ask fun _ => rfl) fun start => Does.bind (atRule_saves (preludeList_saves (containerCondition_saves n) n) (ruleList_saves hr n)) fun x t h => ?_
  obtain ⟨a, q, b⟩ := x
  cases q with
  | none => exact missingPrelude_does
  | some q =>
    refine .pure fun hok => ?_
    simp only [WholeIn, Bool.and_eq_true, List.all_eq_true, wholeAll_iff] at hok
    have := h ⟨fun x hx => by cases hx; exact hok.1, hok.2⟩
    simpa [CssRule.cursors, ListBlock.cursors, cursorsOf_items] using this

theorem layerBlock_saves : Saves ord (layerBlock r n) (fun x => x.elim (fun c => [c]) (ListBlock.cursors (CssRule.cursors V)))
    fun x => ∀ b, x = .inr b → ∀ r ∈ b.items, WholeIn ord V good r = true := by
  unfold layerBlock
  refine Exact.next (.optTok (k := .semicolon)) fun o => ?_
  cases o with
  | some c => exact .pure fun _ => by simpa using Kept.refl
  | none =>
    refine Does.bind (ruleList_saves hr n) fun b t h => .pure fun hok => ?_
    simpa using h (hok b rfl)

theorem layerRule_saves : SavesRule ord V good (layerRule r n) := by
  unfold layerRule
  refine Does.bind (atRule_saves (commaPrelude_saves ((layerName_does n).saves fun _ => True) n) (layerBlock_saves hr n)) fun x t h => ?_
  obtain ⟨a, names, b⟩ := x
  cases b with
  | inl semi =>
    refine .pure fun _ => ?_
    simpa [CssRule.cursors] using h ⟨fun _ _ _ _ => trivial, fun _ e => by cases e⟩
  | inr b =>
    have key : Does (Pure.pure (CssRule.layerBlock a names b.opening b.items b.close)) fun (x : CssRule τ) u => WholeIn ord V good x = true → Kept ord (x.cursors V) (t ++ u) := by
      refine .pure fun hok => ?_
      simp only [WholeIn, wholeAll_iff] at hok
      have := h ⟨fun _ _ _ _ => trivial, fun _ e => by cases e; exact hok⟩
      simpa [CssRule.cursors, ListBlock.cursors, cursorsOf_items] using this
    cases names with
    | none => exact key
    | some names => match names, key with
      | [], key => exact key
      | [_], key => exact key
      | _ :: _ :: _, _ => exact Does.fail

theorem supportsRule_saves (hV : KeepsValues ord V good) : SavesRule ord V good (supportsRule V r n) := by
  unfold supportsRule
  refine Exact.look (Does.ask fun _ => rfl) fun start => Does.bind (atRule_saves (supportsCondition_saves hV n) (ruleList_saves hr n)) fun x t h => ?_
  obtain ⟨a, q, b⟩ := x
  cases q with
  | none => exact missingPrelude_does
  | some q =>
    refine .pure fun hok => ?_
    simp only [WholeIn, Bool.and_eq_true, wholeAll_iff] at hok
    have := h ⟨fun x hx => by cases hx; exact hok.1, hok.2⟩
    simpa [CssRule.cursors, ListBlock.cursors, cursorsOf_items] using this

theorem documentRule_saves (moz : Bool) : SavesRule ord V good (documentRule moz r n) := by
  unfold documentRule
  refine Does.bind (atRule_saves (commaPrelude_saves (documentMatcher_does.saves fun _ => True) n) (ruleList_saves hr n)) fun x t h => ?_
  obtain ⟨a, q, b⟩ := x
  cases q with
  | none => exact Does.fail
  | some q =>
    refine .pure fun hok => ?_
    simp only [WholeIn, wholeAll_iff] at hok
    have := h ⟨fun _ _ _ _ => trivial, hok⟩
    simpa [CssRule.cursors, ListBlock.cursors, cursorsOf_items] using this

theorem mediaRule_saves (hV : KeepsValues ord V good) : SavesRule ord V good (mediaRule V r n) := by
  unfold mediaRule
  refine Exact.look (Does.ask fun _ => rfl) fun start => Does.bind (atRule_saves (preludeList_saves (mediaQuery_saves n) n)
    (blockOf_saves (fun _ _ _ _ _ h => isDeclaration_looks h) isDeclaration_total (property_saves hV n) hr n)) fun x t h => ?_
  obtain ⟨a, q, b⟩ := x
  cases q with
  | none => exact missingPrelude_does
  | some q =>
    refine .pure fun hok => ?_
    simp only [WholeIn, Bool.and_eq_true, List.all_eq_true, wholeAll_iff] at hok
    have := h ⟨fun x hx => by cases hx; exact hok.1.1.1, fun d hd => hok.1.1.2 d hd, hok.1.2, fun o => by simpa [o] using hok.2⟩
    simpa [CssRule.cursors, blockCursors, cursorsOf_items] using this

theorem styleRule_saves (hV : KeepsValues ord V good) : SavesRule ord V good (styleRule V r n) := by
  unfold styleRule
  refine Does.bind (qualifiedRule_saves (Exact.saves (cur := Sel.listCursors) (selectorListFuel_does n) fun _ => True)
    (blockOf_saves (fun _ _ _ _ _ h => isDeclaration_looks h) isDeclaration_total (property_saves hV n) hr n) (Does.keeps (badDeclaration_modes n))) fun x t h => .pure fun hok => ?_
  obtain ⟨a, b⟩ := x
  simp only [WholeIn, wholeAll_iff, Bool.and_eq_true, List.all_eq_true] at hok
  have := h ⟨trivial, hok.1.1, hok.1.2, fun o => by simpa [o] using hok.2⟩
  simpa [CssRule.cursors, blockCursors, cursorsOf_items] using this

omit hr

theorem fontFaceRule_saves (hV : KeepsValues ord V good) : SavesRule ord V good (fontFaceRule V n) := by
  unfold fontFaceRule
  refine Does.bind (atRule_saves (noPrelude_does.saves fun _ => True) (ruleList_saves (fontFaceProperty_saves hV n) n)) fun x t h => .pure fun hok => ?_
  have := h ⟨fun _ _ => trivial, List.all_eq_true.mp hok⟩
  obtain ⟨a, q, b⟩ := x
  cases q <;> simpa [CssRule.cursors] using this

theorem keyframesRule_saves (hV : KeepsValues ord V good) : SavesRule ord V good (keyframesRule V n) := by
  unfold keyframesRule
  refine Does.bind (atRule_saves (keyframesName_does.saves fun _ => True) (ruleList_saves (keyframe_saves hV n) n)) fun x t h => .pure fun hok => ?_
  have := h ⟨fun _ _ => trivial, List.all_eq_true.mp hok⟩
  obtain ⟨a, q, b⟩ := x
  cases q <;> simpa [CssRule.cursors] using this

theorem webkitKeyframesRule_saves (hV : KeepsValues ord V good) : SavesRule ord V good (webkitKeyframesRule V n) := by
  unfold webkitKeyframesRule
  refine Exact.look (Does.ask fun _ => rfl) fun start => Does.bind (atRule_saves (keyframesName_does.saves fun _ => True) (ruleList_saves (keyframe_saves hV n) n)) fun x t h => ?_
  obtain ⟨a, q, b⟩ := x
  cases q with
  | none => exact missingPrelude_does
  | some q => exact .pure fun hok => by simpa [CssRule.cursors] using h ⟨fun _ _ => trivial, List.all_eq_true.mp hok⟩

theorem pageRule_saves (hV : KeepsValues ord V good) : SavesRule ord V good (pageRule V n) := by
  unfold pageRule
  refine Does.bind (atRule_saves (commaPrelude_saves ((pageSelector_does n).saves fun _ => True) n)
    (declarationRuleList_saves (property_saves hV n) (marginRule_saves hV n) n)) fun x t h => .pure fun hok => ?_
  simp only [WholeIn, Bool.and_eq_true] at hok
  have := h ⟨fun _ _ _ _ => trivial, List.all_eq_true.mp hok.1.1, List.all_eq_true.mp hok.1.2, fun o => by simpa [o] using hok.2⟩
  obtain ⟨a, q, b⟩ := x
  cases q <;> simpa [CssRule.cursors, blockCursors] using this

theorem propertyRule_saves : SavesRule ord V good (propertyRule n : Prog (CssRule τ)) := by
  unfold propertyRule
  refine Does.bind (atRule_saves (ord := ord) ((Exact.test (.pureTest (g := isDashed))).saves fun _ => True) (declarationList_saves (propertyRuleProperty_saves n) n)) fun x t h => ?_
  have := h ⟨fun _ _ => trivial, fun _ _ => trivial⟩
  obtain ⟨a, q, b⟩ := x
  cases q with
  | none => exact Does.fail
  | some q => exact .pure fun _ => by simpa [CssRule.cursors] using this

include hr in
theorem knownAtRule_saves (hV : KeepsValues ord V good) {nested : Bool} {name : List Char} {x : Prog (CssRule τ)} (h : knownAtRule V r n nested name = some x) :
    SavesRule ord V good x := by
  unfold knownAtRule at h
  have pick : ∀ {b : Prop} [Decidable b] {o o' : Option (Prog (CssRule τ))}, (if b then o else o') = some x → o = some x ∨ o' = some x := by
    intro b _ o o' h
    by_cases hb : b
    · rw [if_pos hb] at h; exact .inl h
    · rw [if_neg hb] at h; exact .inr h
  have ok : ∀ {y : Prog (CssRule τ)}, SavesRule ord V good y → some y = some x → SavesRule ord V good x := fun hy e => Option.some.inj e ▸ hy
  rcases pick h with h | h
  · exact ok (containerRule_saves hr n) h
  rcases pick h with h | h
  · exact ok (layerRule_saves hr n) h
  rcases pick h with h | h
  · exact ok (mediaRule_saves hr n hV) h
  rcases pick h with h | h
  · exact ok (todoParser_does) h
  rcases pick h with h | h
  · exact ok (supportsRule_saves hr n hV) h
  rcases pick h with h | h
  · cases h
  rcases pick h with h | h
  · exact ok (charsetRule_saves) h
  rcases pick h with h | h
  · exact ok (todoParser_does) h
  rcases pick h with h | h
  · exact ok (todoParser_does) h
  rcases pick h with h | h
  · exact ok (fontFaceRule_saves n hV) h
  rcases pick h with h | h
  · exact ok (todoParser_does) h
  rcases pick h with h | h
  · exact ok (todoParser_does) h
  rcases pick h with h | h
  · exact ok (todoParser_does) h
  rcases pick h with h | h
  · exact ok (keyframesRule_saves n hV) h
  rcases pick h with h | h
  · exact ok (todoParser_does) h
  rcases pick h with h | h
  · exact ok (pageRule_saves n hV) h
  rcases pick h with h | h
  · exact ok (propertyRule_saves n) h
  rcases pick h with h | h
  · exact ok (todoParser_does) h
  rcases pick h with h | h
  · exact ok (documentRule_saves hr n _) h
  rcases pick h with h | h
  · exact ok (webkitKeyframesRule_saves n hV) h
  rcases pick h with h | h
  · exact ok (documentRule_saves hr n _) h
  cases h

include hr in
theorem atCssRule_saves (hV : KeepsValues ord V good) (m : Nat) (nested : Bool) : SavesRule ord V good (atCssRule V r (rule m) n nested) := by
  unfold atCssRule
  refine Exact.look (Does.peekN fun _ => rfl) fun c => Exact.look (Does.strLower fun _ => rfl) fun s => ?_
  split
  · exact unknownAtRule_saves m n
  · next x hx =>
    refine Does.attempt (knownAtRule_saves hr n hV hx) (fun res t hk h => ?_) fun res hk => ?_
    · cases res with
      | ok a => exact .pure fun hok => by simpa using h a rfl hok
      | error d => cases hk
    · cases res with
      | ok a => cases hk
      | error d => exact unknownAtRule_saves m n

include hr in
theorem qualifiedCssRule_saves (hV : KeepsValues ord V good) (m : Nat) (nested : Bool) : SavesRule ord V good (qualifiedCssRule V r (rule m) n nested) := by
  unfold qualifiedCssRule
  refine Does.attempt (styleRule_saves hr n hV) (fun res t hk h => ?_) fun res hk => ?_
  · cases res with
    | ok a => exact .pure fun hok => by simpa using h a rfl hok
    | error d => cases hk
  · cases res with
    | ok a => cases hk
    | error d =>
      refine Does.ite (fun _ => ?_) fun _ => unknownQualifiedRule_saves m n
      refine Does.attempt (unknownQualifiedRule_saves (ord := ord) (V := V) (good := good) m n) (fun res t hk h => ?_) fun res hk => ?_
      · cases res with
        | ok a => exact .pure fun hok => by simpa using h a rfl hok
        | error d => cases hk
      · cases res with
        | ok a => cases hk
        | error d => exact badRule_saves n

end

section
variable {τ : Type} {V : Values τ} {good : τ → Bool}

theorem cssRule_saves (hV : KeepsValues ord V good) : ∀ n b, SavesRule ord V good (cssRule V n b) := by
  intro n
  induction n with
  | zero => intro b; exact Does.panic
  | succ n ih =>
    intro b
    unfold cssRule
    refine Exact.look (Does.peek fun _ => rfl) fun c => Does.ite (fun _ => ?_) fun _ => ?_
    · exact atCssRule_saves (ih false) (n + 1) hV n b
    · exact qualifiedCssRule_saves (ih true) (n + 1) hV n b

theorem optCdc_does : Does (ifPeek (isKind .cdcOrCdo) (tok (isKind .cdcOrCdo))) fun _ t => ∀ c ∈ t, Droppable c :=
  (Does.ifPeek .kind (Does.kind (by decide))).mono fun o t h => by
    rcases h with ⟨_, rfl⟩ | ⟨c, _, rfl, hk⟩
    · simp
    · have := kind_of_isKind (by decide) hk
      simp only [List.mem_singleton, forall_eq]
      have e : strip c = c := strip_plain (k := .cdcOrCdo) (by decide) hk (by decide) (by decide)
      rw [e]
      exact .inr (.inr this)

theorem cssStyleSheetLoop_saves {rule : Prog (CssRule τ)} (hr : SavesRule ord V good rule) : ∀ n rules, Does (styleSheetLoop rule n rules)
    fun rs t => ∃ more, rs = rules ++ more ∧ (WholeInAll ord V good more = true → Kept ord (CssRule.cursorsOf V more) t) := by
  intro n
  induction n with
  | zero => intro rules; exact Does.panic
  | succ n ih =>
    intro rules
    unfold styleSheetLoop
    refine Does.bind optWs_does fun ws t ht => Does.ite (fun _ => (ih rules).mono fun rs u h => ?_) fun _ => ?_
    · obtain ⟨more, e, h⟩ := h
      exact ⟨more, e, fun hok => (h hok).drop ht⟩
    refine Does.bind optCdc_does fun cdc t' ht' => Does.ite (fun _ => (ih rules).mono fun rs u h => ?_) fun _ => ?_
    · obtain ⟨more, e, h⟩ := h
      exact ⟨more, e, fun hok => ((h hok).drop ht').drop ht⟩
    have done : ∃ more, rules = rules ++ more ∧ (WholeInAll ord V good more = true → Kept ord (CssRule.cursorsOf V more) (t ++ (t' ++ []))) :=
      ⟨[], by simp, fun _ => (Kept.nil.drop ht').drop ht⟩
    refine Exact.look (Does.ask fun _ => rfl) fun b => Does.ite (fun _ => .pure done) fun _ => ?_
    refine Exact.look (Does.peek fun _ => rfl) fun c => Does.ite (fun _ => .pure done) fun _ => ?_
    refine Does.bind hr fun r u h => (ih _).mono fun rs v hv => ?_
    obtain ⟨more, rfl, hm⟩ := hv
    refine ⟨r :: more, by simp, fun hok => ?_⟩
    simp only [WholeInAll, Bool.and_eq_true] at hok
    exact (((h hok.1).append (hm hok.2)).drop ht').drop ht

end
end Hdx

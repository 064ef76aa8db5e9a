/-
The visits of a style sheet, rule by rule.
-/
import Verif.Spec.Highlight
import Verif.Lemmas.VisitMarks

namespace Hdx
open Spec

variable {τ : Type}

/-- The visits of a rule without those of the rules in it. -/
def CssRule.ownVisits : CssRule τ → List (Visit τ)
  | .charset .. => [.other "visit_charset_rule"]
  | .container _ query _ _ _ => .other "visit_container_rule" :: query.flatMap ContainerCondition.visits
  | .fontFace _ b => .other "visit_font_face_rule" :: b.items.flatMap fun _ => [.other "visit_font_face_rule_property", .other "visit_style_value"]
  | .keyframes _ _ b => .other "visit_keyframes_rule" :: b.items.flatMap Keyframe.visits
  | .layerStatement _ names _ => .other "visit_layer_rule" :: (names.getD []).map fun _ => .other "visit_layer_name"
  | .layerBlock _ names _ _ _ => .other "visit_layer_rule" :: (names.getD []).map fun _ => .other "visit_layer_name"
  | .media .. => []
  | .page _ selectors b => .other "visit_page_rule" :: ((selectors.getD []).map (fun _ => .other "visit_page_selector")
      ++ declarationVisits b.declarations ++ b.rules.flatMap MarginRule.visits)
  | .property _ name b => .propertyRule name :: b.items.map fun d => .propertyRuleProperty d.1
  | .supports _ cond _ _ _ => .other "visit_supports_rule" :: cond.visits SupportsFeature.visits
  | .document moz _ matchers _ _ _ =>
    if moz then [.other "visit_moz_document_rule"] else .other "visit_document_rule" :: matchers.map fun _ => .other "visit_document_matcher"
  | .webkitKeyframes .. => []
  | .unknownAt _ => [.other "visit_unknown_at_rule"]
  | .style selectors opening ds _ close => .other "visit_style_rule" :: (selectorVisits selectors ++ .styleDeclaration opening close :: declarationVisits ds)
  | .unknown _ => [.other "visit_unknown_qualified_rule"]
  | .bad _ => []

/-- What the visits are, or that there is a panic. -/
def WalkSpec (rs : List (CssRule τ)) (x : Except Panic (List (Visit τ))) : Prop :=
  (x = .ok (rs.flatMap CssRule.ownVisits) ∧ ∀ r ∈ rs, Unfinished r = false) ∨ (x = .error .todo ∧ ∃ r ∈ rs, Unfinished r = true)

theorem WalkSpec.leaf {r : CssRule τ} {vs : List (Visit τ)} (h : vs = r.ownVisits) (hu : Unfinished r = false) : WalkSpec [r] (.ok vs) :=
  .inl ⟨by simp [h], by simpa using hu⟩
theorem WalkSpec.group {r : CssRule τ} {rs : List (CssRule τ)} {x : Except Panic (List (Visit τ))} (h : WalkSpec rs x) (hu : Unfinished r = false) :
    WalkSpec (r :: rs) (andThen r.ownVisits x) := by
  rcases h with ⟨rfl, h⟩ | ⟨rfl, h⟩
  · refine .inl ⟨by simp [andThen, Except.map], ?_⟩
    intro r' hr
    rcases List.mem_cons.mp hr with rfl | hr
    · exact hu
    · exact h _ hr
  · obtain ⟨r', h1, h2⟩ := h
    exact .inr ⟨rfl, r', by simp [h1], h2⟩

mutual
theorem CssRule.visits_walks : ∀ r : CssRule τ, WalkSpec (walked r) r.visits
  | .charset .. => by unfold walked CssRule.visits; exact .leaf rfl rfl
  | .container _ _ _ rules _ => by unfold walked CssRule.visits; exact (CssRule.visitsOf_walks rules).group (r := .container ..) rfl
  | .fontFace .. => by unfold walked CssRule.visits; exact .leaf rfl rfl
  | .keyframes .. => by unfold walked CssRule.visits; exact .leaf rfl rfl
  | .layerStatement .. => by unfold walked CssRule.visits; exact .leaf rfl rfl
  | .layerBlock _ _ _ rules _ => by unfold walked CssRule.visits; exact (CssRule.visitsOf_walks rules).group (r := .layerBlock ..) rfl
  | .media .. => by unfold walked CssRule.visits; exact .inr ⟨rfl, _, List.mem_singleton.mpr rfl, rfl⟩
  | .page .. => by unfold walked CssRule.visits; exact .leaf rfl rfl
  | .property .. => by unfold walked CssRule.visits; exact .leaf rfl rfl
  | .supports _ _ _ rules _ => by unfold walked CssRule.visits; exact (CssRule.visitsOf_walks rules).group (r := .supports ..) rfl
  | .document moz _ _ _ rules _ => by
    unfold walked CssRule.visits
    cases moz with
    | true => exact .leaf rfl rfl
    | false => exact (CssRule.visitsOf_walks rules).group (r := .document false ..) rfl
  | .webkitKeyframes .. => by unfold walked CssRule.visits; exact .inr ⟨rfl, _, List.mem_singleton.mpr rfl, rfl⟩
  | .unknownAt _ => by unfold walked CssRule.visits; exact .leaf rfl rfl
  | .style _ _ _ rules _ => by unfold walked CssRule.visits; exact (CssRule.visitsOf_walks rules).group (r := .style ..) rfl
  | .unknown _ => by unfold walked CssRule.visits; exact .leaf rfl rfl
  | .bad _ => by unfold walked CssRule.visits; exact .leaf rfl rfl
theorem CssRule.visitsOf_walks : ∀ rs : List (CssRule τ), WalkSpec (walkedAll rs) (CssRule.visitsOf rs)
  | [] => by unfold walkedAll CssRule.visitsOf; exact .inl ⟨rfl, nofun⟩
  | r :: rs => by
    unfold walkedAll CssRule.visitsOf
    rcases CssRule.visits_walks r with ⟨h1, h2⟩ | ⟨h1, r', h2, h3⟩
    · rw [h1]
      rcases CssRule.visitsOf_walks rs with ⟨g1, g2⟩ | ⟨g1, r', g2, g3⟩
      · rw [g1]
        refine .inl ⟨by simp [andThen, Except.map], fun r hr => ?_⟩
        rcases List.mem_append.mp hr with hr | hr
        · exact h2 _ hr
        · exact g2 _ hr
      · rw [g1]
        exact .inr ⟨rfl, r', by simp [g2], g3⟩
    · rw [h1]
      exact .inr ⟨rfl, r', by simp [h2], h3⟩
end

/-- The visits of a style sheet that are of use. -/
theorem sheetVisits_walks : ∀ rs : List (CssRule τ),
    (∃ vs, sheetVisits rs = .ok vs ∧ (∀ r ∈ walkedAll rs, Unfinished r = false) ∧
      ∀ {β : Type} (f : Visit τ → List β), (∀ s, f (.other s) = []) → vs.flatMap f = (walkedAll rs).flatMap fun r => r.ownVisits.flatMap f) ∨
    (sheetVisits rs = .error .todo ∧ ∃ r ∈ walkedAll rs, Unfinished r = true)
  | [] => .inl ⟨[], rfl, by unfold walkedAll; nofun, fun _ _ => by unfold walkedAll; rfl⟩
  | r :: rs => by
    unfold walkedAll sheetVisits
    rcases CssRule.visits_walks r with ⟨h1, h2⟩ | ⟨h1, r', h2, h3⟩
    · rw [h1]
      rcases sheetVisits_walks rs with ⟨vs, g1, g2, g3⟩ | ⟨g1, r', g2, g3⟩
      · rw [g1]
        refine .inl ⟨_, rfl, fun r hr => ?_, fun f hf => ?_⟩
        · rcases List.mem_append.mp hr with hr | hr
          · exact h2 _ hr
          · exact g2 _ hr
        · simp [hf, g3 f hf, List.flatMap_assoc]
      · rw [g1]
        exact .inr ⟨rfl, r', by simp [g2], g3⟩
    · rw [h1]
      exact .inr ⟨rfl, r', by simp [h2], h3⟩

theorem sheetVisits_own {rs : List (CssRule τ)} {vs : List (Visit τ)} (h : sheetVisits rs = .ok vs) {β : Type} (f : Visit τ → List β) (hf : ∀ s, f (.other s) = []) :
    vs.flatMap f = (walkedAll rs).flatMap fun r => r.ownVisits.flatMap f := by
  rcases sheetVisits_walks rs with ⟨vs', g1, _, g3⟩ | ⟨g1, _⟩
  · rw [h] at g1; cases g1; exact g3 f hf
  · rw [h] at g1; cases g1

mutual
theorem walked_mem : ∀ {r x : CssRule τ}, x ∈ walked r → x ∈ rulesIn r
  | .charset .., x, h => by unfold walked at h; unfold rulesIn; exact h
  | .container _ _ _ rules _, x, h => by
    unfold walked at h; unfold rulesIn
    exact (List.mem_cons.mp h).elim (fun e => by simp [e]) fun h => List.mem_cons_of_mem _ (walkedAll_mem h)
  | .fontFace .., x, h => by unfold walked at h; unfold rulesIn; exact h
  | .keyframes .., x, h => by unfold walked at h; unfold rulesIn; exact h
  | .layerStatement .., x, h => by unfold walked at h; unfold rulesIn; exact h
  | .layerBlock _ _ _ rules _, x, h => by
    unfold walked at h; unfold rulesIn
    exact (List.mem_cons.mp h).elim (fun e => by simp [e]) fun h => List.mem_cons_of_mem _ (walkedAll_mem h)
  | .media .., x, h => by unfold walked at h; unfold rulesIn; simp_all
  | .page .., x, h => by unfold walked at h; unfold rulesIn; exact h
  | .property .., x, h => by unfold walked at h; unfold rulesIn; exact h
  | .supports _ _ _ rules _, x, h => by
    unfold walked at h; unfold rulesIn
    exact (List.mem_cons.mp h).elim (fun e => by simp [e]) fun h => List.mem_cons_of_mem _ (walkedAll_mem h)
  | .document true _ _ _ rules _, x, h => by unfold walked at h; unfold rulesIn; simp_all
  | .document false _ _ _ rules _, x, h => by
    unfold walked at h; unfold rulesIn
    exact (List.mem_cons.mp h).elim (fun e => by simp [e]) fun h => List.mem_cons_of_mem _ (walkedAll_mem h)
  | .webkitKeyframes .., x, h => by unfold walked at h; unfold rulesIn; exact h
  | .unknownAt _, x, h => by unfold walked at h; unfold rulesIn; exact h
  | .style _ _ _ rules _, x, h => by
    unfold walked at h; unfold rulesIn
    exact (List.mem_cons.mp h).elim (fun e => by simp [e]) fun h => List.mem_cons_of_mem _ (walkedAll_mem h)
  | .unknown _, x, h => by unfold walked at h; unfold rulesIn; exact h
  | .bad _, x, h => by unfold walked at h; unfold rulesIn; exact h
theorem walkedAll_mem : ∀ {rs : List (CssRule τ)} {x : CssRule τ}, x ∈ walkedAll rs → x ∈ rulesInAll rs
  | [], x, h => by unfold walkedAll at h; cases h
  | r :: rs, x, h => by
    unfold walkedAll at h; unfold rulesInAll
    exact (List.mem_append.mp h).elim (fun h => by simp [walked_mem h]) fun h => by simp [walkedAll_mem h]
end

/-! ### What is shown at a visit -/

/-- What is to be shown at a visit. -/
def Visit.shows : Visit τ → List Shown
  | .tag kind c => [⟨"Tag", tagShows kind, ⟨c.offset, c.endOffset⟩⟩]
  | .pseudoClass vendor colon ident => [⟨"PseudoClass", if vendor = .standard then [] else ["Deprecated"], ⟨colon.offset, ident.endOffset⟩⟩]
  | .styleDeclaration opening close => braceShows opening :: close.toList.map braceShows
  | .property d => declarationShows d.name d.colon (NotKnown d.value)
  | .propertyRule name => [⟨"Declaration", ["Custom"], ⟨name.offset, name.endOffset⟩⟩]
  | .propertyRuleProperty d => declarationShows d.name d.colon (NotKnownDescriptor d.value)
  | .other _ => []

theorem selector_shows (ss : List (List Sel × Option Cursor)) : (selectorVisits ss : List (Visit τ)).flatMap Visit.shows = selectorsShow ss := by
  have one : ∀ s : Sel, (s.visits : List (Visit τ)).flatMap Visit.shows = pieceShows s := by
    intro s
    cases s <;> try rfl
    · rename_i v _ _ _; cases v <;> rfl
    · rename_i v _ _ _ _; cases v <;> rfl
  simp [selectorVisits, Visit.shows, selectorsShow, List.flatMap_assoc, one]

theorem property_shows (d : Decl (StyleValue τ)) : (propertyVisits d).flatMap Visit.shows = declarationShows d.name d.colon (NotKnown d.value) := by
  simp [propertyVisits, Visit.shows]
theorem declarations_show (ds : List (Decl (StyleValue τ) × Option Cursor)) : (declarationVisits ds).flatMap Visit.shows = declarationsShow ds := by
  simp [declarationVisits, List.flatMap_assoc, property_shows, declarationsShow]

theorem others_show {α : Type} (l : List α) (s : α → String) : (l.map fun a => (Visit.other (s a) : Visit τ)).flatMap Visit.shows = [] := by
  simp [Visit.shows, List.flatMap_map]

theorem own_shows (r : CssRule τ) : r.ownVisits.flatMap Visit.shows = ruleShows r := by
  cases r with
  | container _ q _ _ _ =>
    have one : ∀ f : ContainerFeature, (f.visits : List (Visit τ)).flatMap Visit.shows = [] := by intro f; cases f <;> rfl
    have two : ∀ c : ContainerCondition, (c.visits : List (Visit τ)).flatMap Visit.shows = [] := by
      intro c
      unfold ContainerCondition.visits
      cases c.condition with
      | none => rfl
      | some c => cases c <;> simp [Condition.visits, one, List.flatMap_assoc]
    simp [CssRule.ownVisits, ruleShows, List.flatMap_assoc, two, Visit.shows]
  | fontFace _ b => simp [CssRule.ownVisits, ruleShows, List.flatMap_assoc, Visit.shows]
  | keyframes _ _ b =>
    have one : ∀ k : Keyframe τ, k.visits.flatMap Visit.shows = declarationsShow k.block.items := by
      intro k
      simp [Keyframe.visits, Visit.shows, List.flatMap_map, declarations_show]
    simp only [CssRule.ownVisits, ruleShows, List.flatMap_assoc, List.flatMap_cons, Visit.shows, one, List.nil_append]
  | layerStatement _ ns _ => simp [CssRule.ownVisits, ruleShows, Visit.shows, List.flatMap_map]
  | layerBlock _ ns _ _ _ => simp [CssRule.ownVisits, ruleShows, Visit.shows, List.flatMap_map]
  | page _ s b => simp [CssRule.ownVisits, ruleShows, Visit.shows, List.flatMap_map, List.flatMap_assoc, MarginRule.visits, declarations_show]
  | property _ n b => simp [CssRule.ownVisits, ruleShows, Visit.shows, List.flatMap_map]
  | supports _ q _ _ _ =>
    have one : ∀ f : SupportsFeature τ, f.visits.flatMap Visit.shows = featureShows f := by
      intro f; cases f <;> simp [SupportsFeature.visits, selector_shows, property_shows, featureShows]
    simp only [CssRule.ownVisits, ruleShows, List.flatMap_cons, Visit.shows, List.nil_append]
    cases q <;> simp [Condition.visits, featuresOf, List.flatMap_assoc, one, List.flatMap_map]
  | document moz _ _ _ _ _ => cases moz <;> simp [CssRule.ownVisits, ruleShows, Visit.shows, List.flatMap_map]
  | style ss o ds _ c => simp [CssRule.ownVisits, ruleShows, Visit.shows, selector_shows, declarations_show]
  | charset _ _ _ _ => rfl
  | media _ _ _ _ _ _ => rfl
  | webkitKeyframes _ _ _ => rfl
  | unknownAt _ => rfl
  | unknown _ => rfl
  | bad _ => rfl

theorem sheet_shows {rs : List (CssRule τ)} {vs : List (Visit τ)} (h : sheetVisits rs = .ok vs) : vs.flatMap Visit.shows = (walkedAll rs).flatMap ruleShows := by
  rw [sheetVisits_own h Visit.shows fun _ => rfl]
  simp only [own_shows]

end Hdx

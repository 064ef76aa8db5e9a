/-
The tokens the highlighter looks at are among those the parser took.
-/
import Verif.Lemmas.Marks

namespace Hdx
open Spec Prog

variable {τ : Type}

/-- The tokens the highlighter looks at. -/
def Visit.marks : Visit τ → List Cursor
  | .tag _ c => [c]
  | .pseudoClass _ colon ident => [colon, ident]
  | .styleDeclaration opening close => opening :: close.toList
  | .property d => [d.name, d.colon]
  | .propertyRule name => [name]
  | .propertyRuleProperty d => [d.name, d.colon]
  | .other _ => []

/-- The same for many visits. -/
def marksOf (vs : List (Visit τ)) : List Cursor := vs.flatMap Visit.marks

@[simp] theorem marksOf_nil : marksOf ([] : List (Visit τ)) = [] := rfl
@[simp] theorem marksOf_cons {v : Visit τ} {vs : List (Visit τ)} : marksOf (v :: vs) = v.marks ++ marksOf vs := by simp [marksOf]
@[simp] theorem marksOf_append {a b : List (Visit τ)} : marksOf (a ++ b) = marksOf a ++ marksOf b := by simp [marksOf]
@[simp] theorem marks_other {s : String} : (Visit.other s : Visit τ).marks = [] := rfl
theorem marksOf_flatMap {α : Type} {f : α → List (Visit τ)} {l : List α} : marksOf (l.flatMap f) = l.flatMap fun a => marksOf (f a) := by
  induction l with
  | nil => rfl
  | cons a l ih => simp [List.flatMap_cons, ih]
theorem marksOf_others {α : Type} {f : α → String} {l : List α} : marksOf (l.map fun a => (Visit.other (f a) : Visit τ)) = [] := by
  induction l with
  | nil => rfl
  | cons a l ih => simp [ih]

/-! ### Selectors -/

/-- The tokens of a component of a selector that the highlighter looks at. -/
def selMarks : Sel → List Cursor
  | .tag _ c => [c]
  | .pseudoClass _ _ colon ident => [colon, ident]
  | _ => []

theorem marksOf_sel (s : Sel) : marksOf (s.visits : List (Visit τ)) = selMarks s := by
  cases s <;> try rfl
  · rename_i v _ _ _; cases v <;> rfl
  · rename_i v _ _ _ _; cases v <;> rfl

theorem marksOf_selectors (l : List (List Sel × Option Cursor)) : marksOf (selectorVisits l : List (Visit τ)) = l.flatMap fun s => s.1.flatMap selMarks := by
  simp only [selectorVisits, marksOf_cons, marks_other, List.nil_append, marksOf_flatMap, marksOf_sel]

namespace Marks

theorem adjacentName {names : List (List Char)} : Marks [] (Hdx.adjacentName names) fun r => [r.2] := by
  unfold Hdx.adjacentName
  refine setSkip fun _ => bind (result kind) fun r => setSkip fun _ => ofResult fun i hi => then_ fun s => ite (fun _ => .pure ?_) fun _ => then_ fun _ => .fail
  subst hi
  exact .rfl
theorem pseudoClassOf {names : List (List Char)} : Marks [] (Hdx.pseudoClassOf names) fun r => [r.2.1, r.2.2] := by
  unfold Hdx.pseudoClassOf
  exact bind kind fun c => bind adjacentName fun n => .pure .rfl
theorem tryVendors {α : Type} {m : α → List Cursor} {parse : Vendor → Prog α} {otherwise : Prog (Vendor × α)} (hp : ∀ v, Marks [] (parse v) m) (ho : Marks [] otherwise fun r => m r.2) :
    ∀ vs, Marks [] (Hdx.tryVendors parse otherwise vs) fun r => m r.2
  | [] => ho
  | v :: vs => by
    unfold Hdx.tryVendors
    refine bind (result (tryParse (hp v))) fun r => ?_
    cases r with
    | ok a => exact .pure (by simpa [okMarks] using Amongst.rfl)
    | error e => exact tryVendors hp ho vs
theorem pseudoClass : Marks [] Hdx.pseudoClass fun r => [r.2.2.1, r.2.2.2] := by
  unfold Hdx.pseudoClass
  refine attempt pseudoClassOf (fun r hr => ?_) fun r hr => ?_
  · cases r with
    | ok a => exact .pure .rfl
    | error e => cases hr
  · cases r with
    | ok a => cases hr
    | error e => exact then_ fun c => tryVendors (m := fun r : List Char × Cursor × Cursor => [r.2.1, r.2.2]) (fun _ => pseudoClassOf) (then_ fun _ => .fail) _
theorem buildTag {c : Cursor} : Marks [c] (Hdx.buildTag c) fun r => [r.2] := by
  have kw : ∀ {names : List (List Char)}, ∀ p, Succ (buildKeyword names c) p fun r _ _ => r.2 = c := by
    intro names p
    unfold buildKeyword
    exact Succ.bind (Succ.strLower fun s => Succ.ite (fun _ => Succ.pure rfl) fun _ => Succ.panic)
  have one : ∀ {names : List (List Char)} {f : List Char × Cursor → TagKind × Cursor} (_ : ∀ x, (f x).2 = x.2), Marks [c] (do
      let k ← buildKeyword names c
      Pure.pure (f k)) fun r => [r.2] := by
    intro names f hf p a p' w hg
    obtain ⟨k, p1, w1, w2, h1, h2, rfl⟩ := gives_bind_ok.mp hg
    obtain ⟨e, rfl, rfl⟩ := gives_pure.mp h2
    cases e
    show Amongst [(f k).2] _
    rw [hf, kw p h1]
    intro x; simp [List.count_cons]
  unfold Hdx.buildTag
  refine then_ fun _ => ite (fun _ => one fun _ => rfl) fun _ => then_ fun _ => ite (fun _ => one fun _ => rfl) fun _ => then_ fun _ => ite (fun _ => one fun _ => rfl) fun _ =>
    then_ fun _ => ite (fun _ => .pure .rfl) fun _ => then_ fun _ => ite (fun _ => one fun _ => rfl) fun _ => then_ fun _ => ite (fun _ => one fun _ => rfl) fun _ => .pure .rfl

theorem selectorComponent {compound : Prog (List Sel)} {list : Prog (List (List Sel × Option Cursor))} {n : Nat} : Marks [] (Hdx.selectorComponent compound list n) selMarks := by
  have fpc : Marks [] (functionalPseudoClass list n) selMarks := by
    unfold functionalPseudoClass
    refine setSkip fun _ => then_ fun _ => then_ fun _ => setSkip fun _ => ofResult fun _ _ => ofResult fun _ _ => ?_
    unfold functionalPseudoClassValue
    exact ite (fun _ => then_ fun _ => then_ fun _ => .pure .nil) fun _ => ite (fun _ => then_ fun _ => then_ fun _ => .pure .nil) fun _ =>
      ite (fun _ => then_ fun _ => then_ fun _ => .pure .nil) fun _ => ite (fun _ => then_ fun _ => then_ fun _ => .pure .nil) fun _ => then_ fun _ => then_ fun _ => .pure .nil
  have fpe : Marks [] (functionalPseudoElement compound n) selMarks := by
    unfold functionalPseudoElement
    exact then_ fun _ => then_ fun _ => then_ fun _ => ite (fun _ => then_ fun _ => then_ fun _ => .pure .nil) fun _ => ite (fun _ => then_ fun _ => then_ fun _ => .pure .nil) fun _ =>
      ite (fun _ => then_ fun _ => then_ fun _ => .pure .nil) fun _ => .fail
  unfold Hdx.selectorComponent
  refine setSkip fun _ => then_ fun c => ite (fun _ => ?_) fun _ => ite (fun _ => ?_) fun _ => ite (fun _ => setSkip fun _ => then_ fun _ => .pure .nil) fun _ =>
    ite (fun _ => ite (fun _ => ?_) fun _ => ite (fun _ => ?_) fun _ => setSkip fun _ => then_ fun _ => .pure .nil) fun _ => ite (fun _ => ?_) fun _ => ?_
  · unfold selIdent
    refine then_ fun _ => ite (fun _ => setSkip fun _ => then_ fun _ => .pure .nil) fun _ => bind take fun c => setSkip fun _ => ite (fun _ => ?_) fun _ => then_ fun _ => .fail
    intro p a p' w hg
    obtain ⟨t, p1, w1, w2, h1, h2, rfl⟩ := gives_bind_ok.mp hg
    obtain ⟨e, rfl, rfl⟩ := gives_pure.mp h2
    cases e
    have := buildTag _ h1
    simpa [selMarks] using this
  · exact then_ fun _ => setSkip fun _ => ite (fun _ => .pure .nil) fun _ => then_ fun _ => .fail
  · exact then_ fun _ => setSkip fun _ => ite (fun _ => then_ fun _ => then_ fun _ => .pure .nil) fun _ => .fail
  · exact then_ fun _ => setSkip fun _ => ite (fun _ => then_ fun _ => .pure .nil) fun _ => then_ fun _ => .pure .nil
  · unfold selColon
    refine then_ fun _ => ite (fun _ => ?_) fun _ => ite (fun _ => ?_) fun _ => ite (fun _ => setSkip fun _ => fpc) fun _ => .fail
    · unfold selColonColon
      exact then_ fun _ => setSkip fun _ => ite (fun _ => then_ fun _ => .pure .nil) fun _ => ite (fun _ => fpe) fun _ => .fail
    · unfold selColonIdent
      exact setSkip fun _ => then_ fun b => ite (fun _ => then_ fun _ => .pure .nil) fun _ => bind pseudoClass fun e => .pure .rfl
  · unfold selOther
    exact then_ fun _ => setSkip fun _ => consumeTrivia <| setSkip fun _ => ofResult fun _ _ => .pure .nil

theorem compoundLoop {component : Prog Sel} (h : Marks [] component selMarks) : ∀ n acc pre, Amongst (acc.flatMap selMarks) pre →
    Marks pre (Hdx.compoundLoop component n acc) fun l => l.flatMap selMarks
  | 0, _, _, _ => .panic
  | n + 1, acc, pre, hi => by
    unfold Hdx.compoundLoop
    refine then_ fun _ => ite (fun _ => .pure hi) fun _ => then_ fun _ => ite (fun _ => .pure hi) fun _ => bind h fun s => compoundLoop h n _ _ ?_
    intro x; have := hi x; simp at *; omega
theorem compoundSelector : ∀ n, Marks [] (Hdx.compoundSelector n) fun l => l.flatMap selMarks
  | 0 => .panic
  | n + 1 => consumeTrivia (compoundLoop selectorComponent _ _ _ .nil)
theorem selectorListLoop : ∀ n m acc pre, Amongst (acc.flatMap fun s => s.1.flatMap selMarks) pre →
    Marks pre (Hdx.selectorListLoop (Hdx.compoundSelector m) n acc) fun l => l.flatMap fun s => s.1.flatMap selMarks
  | 0, _, _, _, _ => .panic
  | n + 1, m, acc, pre, hi => by
    unfold Hdx.selectorListLoop
    refine then_ fun _ => ite (fun _ => .pure hi) fun _ => then_ fun _ => ite (fun _ => .pure hi) fun _ => bind (compoundSelector m) fun s => then_ fun _ => selectorListLoop n m _ _ ?_
    intro x; have := hi x; simp at *; omega
theorem selectorListFuel (n : Nat) : Marks [] (Hdx.selectorListFuel n) fun l => marksOf (selectorVisits l : List (Visit τ)) :=
  (selectorListLoop n n [] [] .nil).mono fun l => by rw [marksOf_selectors]; exact .rfl

/-! ### Declarations -/

theorem declarationOf {ν : Type} {valid : Cursor → Prog Bool} {value : Cursor → Prog ν} : Marks [] (Hdx.declarationOf valid value) fun d => [d.name, d.colon] := by
  unfold Hdx.declarationOf
  exact bind kind fun n => then_ fun _ => ite (fun _ => .fail) fun _ => bind kind fun c => then_ fun _ => then_ fun _ => .pure .rfl
variable {V : Values τ}
theorem property (n : Nat) : Marks [] (Hdx.property V n) fun d => marksOf (propertyVisits d) := declarationOf.mono fun _ => .rfl

theorem declarations (ds : List (Decl (StyleValue τ) × Option Cursor)) : marksOf (declarationVisits ds) = ds.flatMap fun d => marksOf (propertyVisits d.1) := by
  simp only [declarationVisits, marksOf_flatMap]

theorem keyframe (n : Nat) : Marks [] (Hdx.keyframe V n) fun k => marksOf k.visits := by
  unfold Hdx.keyframe
  refine bind (qualifiedRule (any _) (declarationList (property n) n)) fun ⟨s, b⟩ => .pure ?_
  intro x
  simp [Keyframe.visits, marksOf_others, declarations, List.count_cons]
  omega
theorem marginRule (n : Nat) : Marks [] (Hdx.marginRule V n) fun k => marksOf k.visits := by
  unfold Hdx.marginRule
  refine bind (atRule (any _) (declarationList (property n) n)) fun ⟨_, _, b⟩ => then_ fun _ => ite (fun _ => .pure ?_) fun _ => then_ fun _ => .fail
  intro x
  simp [MarginRule.visits, declarations, List.count_cons]
  omega
theorem supportsFeature (n : Nat) : Marks [] (Hdx.supportsFeature V n) fun f => marksOf f.visits := by
  unfold Hdx.supportsFeature
  refine then_ fun o => then_ fun c => ite (fun _ => then_ fun k => ite (fun _ => bind (selectorListFuel n) fun s => then_ fun _ =>
    ite (fun _ => then_ fun _ => .pure .rfl) fun _ => .pure .rfl) fun _ => .panic) fun _ => ?_
  cases o with
  | none => exact then_ fun _ => .fail
  | some o => exact bind (property n) fun d => then_ fun _ => .pure .rfl
theorem supportsCondition (n : Nat) : Marks [] (Hdx.supportsCondition V n) fun c => marksOf (c.visits SupportsFeature.visits) := by
  have e : ∀ c : Condition (SupportsFeature τ), marksOf (c.visits SupportsFeature.visits) = (featuresOf c).flatMap fun f => marksOf f.visits := by
    intro c
    cases c <;> simp [Condition.visits, featuresOf, marksOf_flatMap, List.flatMap_map]
  unfold Hdx.supportsCondition
  refine then_ fun _ => ite (fun _ => bind (supportsFeature n) fun f => .pure .rfl) fun _ => ?_
  exact (condition (supportsFeature n) n).mono fun c => by rw [e]; exact .rfl

/-! ### Rules -/

/-- The tokens of a rule that the highlighter looks at. -/
def _root_.Hdx.ruleMarks (r : CssRule τ) : List Cursor := match r.visits with
  | .ok vs => marksOf vs
  | .error _ => []

theorem _root_.Hdx.visitsOf_marks : ∀ {rs : List (CssRule τ)} {vs : List (Visit τ)}, CssRule.visitsOf rs = .ok vs → marksOf vs = rs.flatMap ruleMarks
  | [], vs, h => by rw [CssRule.visitsOf] at h; cases h; rfl
  | r :: rs, vs, h => by
    rw [CssRule.visitsOf] at h
    cases hr : r.visits with
    | error e => rw [hr] at h; cases h
    | ok v =>
      rw [hr] at h
      simp only [andThen] at h
      cases hs : CssRule.visitsOf rs with
      | error e => rw [hs] at h; cases h
      | ok v' =>
        rw [hs] at h
        cases h
        have := visitsOf_marks hs
        simp [ruleMarks, hr, this]

/-- A rule with rules in it. -/
theorem _root_.Hdx.ruleMarks_of {r : CssRule τ} {a : List (Visit τ)} {rs : List (CssRule τ)} (h : r.visits = andThen a (CssRule.visitsOf rs)) :
    Amongst (ruleMarks r) (marksOf a ++ rs.flatMap ruleMarks) := by
  unfold ruleMarks
  rw [h]
  unfold andThen
  cases hs : CssRule.visitsOf rs with
  | error e => exact .nil
  | ok v =>
    intro x
    simp only [Except.map, marksOf_append, visitsOf_marks hs]
    exact Nat.le_refl _

theorem knownAtRule {rule : Prog (CssRule τ)} (hr : Marks [] rule ruleMarks) (n : Nat) (nested : Bool) (name : List Char) :
    ∀ x, Hdx.knownAtRule V rule n nested name = some x → Marks [] x ruleMarks := by
  have pick : ∀ {b : Prop} [Decidable b] {x : Prog (CssRule τ)} {y : Option (Prog (CssRule τ))}, Marks [] x ruleMarks →
      (∀ z, y = some z → Marks [] z ruleMarks) → ∀ z, (if b then some x else y) = some z → Marks [] z ruleMarks := by
    intro b _ x y hx hy z e
    split at e
    · cases e; exact hx
    · exact hy z e
  have drop : ∀ {b : Prop} [Decidable b] {y : Option (Prog (CssRule τ))},
      (∀ z, y = some z → Marks [] z ruleMarks) → ∀ z, (if b then none else y) = some z → Marks [] z ruleMarks := by
    intro b _ y hy z e
    split at e
    · cases e
    · exact hy z e
  have todo : Marks [] (todoParser : Prog (CssRule τ)) ruleMarks := then_ fun _ => .ofErr
  have miss : ∀ {pre : List Cursor} {s : Nat}, Marks pre (missingPrelude s : Prog (CssRule τ)) ruleMarks := fun {_ _} => then_ fun _ => .ofErr
  have container : Marks [] (containerRule rule n) ruleMarks := by
    unfold containerRule
    refine then_ fun s => bind (atRule (any _) (ruleList hr n)) fun ⟨a, q, b⟩ => ?_
    cases q with
    | none => exact miss
    | some q =>
      refine .pure ((ruleMarks_of (rs := b.items) rfl).trans ?_)
      have : marksOf (q.flatMap (ContainerCondition.visits : _ → List (Visit τ))) = [] := by
        have one : ∀ f : ContainerFeature, marksOf (f.visits : List (Visit τ)) = [] := by intro f; cases f <;> rfl
        have two : ∀ c : ContainerCondition, marksOf (c.visits : List (Visit τ)) = [] := by
          intro c
          unfold ContainerCondition.visits
          cases c.condition with
          | none => rfl
          | some c => cases c <;> simp [Condition.visits, one, marksOf_flatMap]
        simp [marksOf_flatMap, two]
      intro x
      simp [this, List.count_cons]
      omega
  have layer : Marks [] (layerRule rule n) ruleMarks := by
    unfold layerRule
    refine bind (atRule (any _) (m' := fun b => match b with | .inl _ => [] | .inr l => l.items.flatMap ruleMarks) ?_) fun ⟨a, q, b⟩ => ?_
    · unfold Hdx.layerBlock
      refine then_ fun o => ?_
      cases o with
      | some s => exact .pure .nil
      | none => exact bind (ruleList hr n) fun b => .pure (by intro x; simp [List.count_cons]; omega)
    · match b, q with
      | .inl s, q => exact .pure (by unfold ruleMarks CssRule.visits; simp only [marksOf_cons, marks_other, marksOf_others]; exact .nil)
      | .inr b, none => exact .pure ((ruleMarks_of (rs := b.items) rfl).trans (by intro x; simp))
      | .inr b, some [] => exact .pure ((ruleMarks_of (rs := b.items) rfl).trans (by intro x; simp))
      | .inr b, some [y] => exact .pure ((ruleMarks_of (rs := b.items) rfl).trans (by intro x; simp))
      | .inr b, some ((f, _) :: _ :: _) => exact .fail
  have media : Marks [] (mediaRule V rule n) ruleMarks := by
    unfold mediaRule
    refine then_ fun s => then_ fun ⟨a, q, b⟩ => ?_
    cases q with
    | none => exact miss
    | some q => exact .pure (by unfold ruleMarks CssRule.visits; exact .nil)
  have supports : Marks [] (supportsRule V rule n) ruleMarks := by
    unfold supportsRule
    refine then_ fun s => bind (atRule (supportsCondition n) (ruleList hr n)) fun ⟨a, q, b⟩ => ?_
    cases q with
    | none => exact miss
    | some q =>
      refine .pure ((ruleMarks_of (rs := b.items) rfl).trans ?_)
      intro x
      simp [List.count_cons]
      omega
  have charset : Marks [] (charsetRule : Prog (CssRule τ)) ruleMarks := by
    unfold charsetRule
    exact then_ fun a => then_ fun b => ite (fun _ => then_ fun _ => .fail) fun _ => then_ fun _ => then_ fun _ => then_ fun _ => .pure .nil
  have fontFace : Marks [] (fontFaceRule V n) ruleMarks := by
    unfold fontFaceRule
    refine then_ fun ⟨a, q, b⟩ => .pure ?_
    unfold ruleMarks CssRule.visits
    have : ∀ l : List (Decl (StyleValue τ)), marksOf (l.flatMap fun _ => ([.other "visit_font_face_rule_property", .other "visit_style_value"] : List (Visit τ))) = [] := by
      intro l
      induction l with
      | nil => rfl
      | cons a l ih => simp [List.flatMap_cons, ih]
    simp only [marksOf_cons, marks_other, this]
    exact .nil
  have keyframes : Marks [] (keyframesRule V n) ruleMarks := by
    unfold keyframesRule
    refine bind (atRule (any _) (ruleList (keyframe n) n)) fun ⟨a, q, b⟩ => .pure ?_
    unfold ruleMarks CssRule.visits
    intro x
    simp [marksOf_flatMap, List.count_cons]
    omega
  have webkit : Marks [] (webkitKeyframesRule V n) ruleMarks := by
    unfold webkitKeyframesRule
    refine then_ fun s => then_ fun ⟨a, q, b⟩ => ?_
    cases q with
    | none => exact miss
    | some q => exact .pure (by unfold ruleMarks CssRule.visits; exact .nil)
  have page : Marks [] (pageRule V n) ruleMarks := by
    unfold pageRule
    refine bind (atRule (any _) (declarationRuleList (property n) (marginRule n) n)) fun ⟨a, q, b⟩ => .pure ?_
    unfold ruleMarks CssRule.visits
    intro x
    simp [marksOf_flatMap, marksOf_others, declarations, List.count_cons]
    omega
  have prop : Marks [] (propertyRule n : Prog (CssRule τ)) ruleMarks := by
    unfold Hdx.propertyRule
    refine bind (atRule (m := fun c => [c]) (m' := fun b => b.items.flatMap fun d => [d.1.name, d.1.colon]) (tok Inspects.pureTest) ?_) fun ⟨a, q, b⟩ => ?_
    · refine (declarationList (D := fun d : Decl PropertyRuleValue => [d.name, d.colon]) ?_ n).mono fun b => ?_
      · unfold propertyRuleProperty
        refine bind declarationOf fun d => ?_
        split
        · exact .fail
        · exact .pure .rfl
      · intro x; simp [List.count_cons]; omega
    · cases q with
      | none => exact .fail
      | some q =>
        refine .pure ?_
        unfold ruleMarks CssRule.visits
        have : ∀ l : List (Decl PropertyRuleValue × Option Cursor), marksOf (l.map fun d => (Visit.propertyRuleProperty d.1 : Visit τ)) = l.flatMap fun d => [d.1.name, d.1.colon] := by
          intro l
          simp [marksOf, List.flatMap_map, Visit.marks]
        intro x
        simp [this, Visit.marks]
  have document : ∀ moz, Marks [] (documentRule moz rule n) ruleMarks := by
    intro moz
    unfold documentRule
    refine bind (atRule (any _) (ruleList hr n)) fun ⟨a, q, b⟩ => ?_
    cases q with
    | none => exact .fail
    | some q =>
      cases moz with
      | true => exact .pure (by unfold ruleMarks CssRule.visits; exact .nil)
      | false =>
        refine .pure ((ruleMarks_of (rs := b.items) rfl).trans ?_)
        intro x
        simp [marksOf_others, List.count_cons]
        omega
  unfold Hdx.knownAtRule
  refine pick container <| pick layer <| pick media <| pick todo <| pick supports <| drop <| pick charset <| pick todo <| pick todo <| pick fontFace <| pick todo <|
    pick todo <| pick todo <| pick keyframes <| pick todo <| pick page <| pick prop <| pick todo <| pick (document _) <| pick webkit <| pick (document _) nofun

theorem cssRule : ∀ n nested, Marks [] (Hdx.cssRule V n nested) ruleMarks
  | 0, _ => .panic
  | n + 1, nested => by
    have unknownAt : ∀ {g : Prog Rule} {m : Nat}, Marks [] (unknownAtRule g m : Prog (CssRule τ)) ruleMarks := fun {_ _} => then_ fun _ => .pure .nil
    have unknown : ∀ {g : Prog Rule} {m : Nat}, Marks [] (unknownQualifiedRule g m : Prog (CssRule τ)) ruleMarks := fun {_ _} => then_ fun _ => .pure .nil
    have bad : ∀ {m : Nat}, Marks [] (badRule m : Prog (CssRule τ)) ruleMarks := fun {_} =>
      setState fun _ => then_ fun _ => setState fun _ => then_ fun _ => .pure .nil
    unfold Hdx.cssRule
    refine then_ fun _ => ite (fun _ => ?_) fun _ => ?_
    · unfold atCssRule
      refine then_ fun _ => then_ fun s => ?_
      split
      · exact unknownAt
      · next x hx =>
        refine attempt (knownAtRule (cssRule n false) _ _ _ x hx) (fun r h => ?_) fun r h => ?_
        · cases r with
          | ok r => exact .pure .rfl
          | error _ => cases h
        · cases r with
          | ok r => cases h
          | error _ => exact unknownAt
    · unfold qualifiedCssRule
      refine attempt (m1 := ruleMarks) ?_ (fun r h => ?_) fun r h => ?_
      · unfold styleRule
        refine bind (qualifiedRule (selectorListFuel (τ := τ) _) (blockOf (property _) (cssRule n true) _)) fun ⟨s, b⟩ => .pure ((ruleMarks_of (rs := b.rules) rfl).trans ?_)
        intro x
        simp [declarations, Visit.marks, List.count_cons]
        omega
      · cases r with
        | ok r => exact .pure .rfl
        | error _ => cases h
      · cases r with
        | ok r => cases h
        | error _ =>
          refine ite (fun _ => attempt unknown (fun r h => ?_) fun r h => ?_) fun _ => unknown
          · cases r with
            | ok r => exact .pure .rfl
            | error _ => cases h
          · cases r with
            | ok r => cases h
            | error _ => exact bad

theorem styleSheetLoop {rule : Prog (CssRule τ)} (hr : Marks [] rule ruleMarks) : ∀ n rs pre, Amongst (rs.flatMap ruleMarks) pre →
    Marks pre (Hdx.styleSheetLoop rule n rs) fun rs => rs.flatMap ruleMarks
  | 0, _, _, _ => .panic
  | n + 1, rs, pre, h => by
    unfold Hdx.styleSheetLoop
    refine then_ fun _ => ite (fun _ => styleSheetLoop hr n rs _ h) fun _ => then_ fun _ => ite (fun _ => styleSheetLoop hr n rs _ h) fun _ => then_ fun _ =>
      ite (fun _ => .pure h) fun _ => then_ fun _ => ite (fun _ => .pure h) fun _ => bind hr fun r => styleSheetLoop hr n _ _ ?_
    intro x; have := h x; simp at *; omega

theorem cssStyleSheet : Marks [] (Hdx.cssStyleSheet V) fun rs => rs.flatMap ruleMarks := read fun _ => styleSheetLoop (cssRule _ _) _ [] [] .nil

end Marks

theorem sheetVisits_marks : ∀ {rs : List (CssRule τ)} {vs : List (Visit τ)}, sheetVisits rs = .ok vs → marksOf vs = rs.flatMap ruleMarks
  | [], vs, h => by rw [sheetVisits] at h; cases h; rfl
  | r :: rs, vs, h => by
    rw [sheetVisits] at h
    cases hr : r.visits with
    | error e => rw [hr] at h; cases h
    | ok v =>
      rw [hr] at h
      simp only [andThen] at h
      cases hs : sheetVisits rs with
      | error e => rw [hs] at h; cases h
      | ok v' =>
        rw [hs] at h
        cases h
        have := sheetVisits_marks hs
        simp [ruleMarks, hr, this]

end Hdx

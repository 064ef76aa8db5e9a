/-
Property C77: no token of a style sheet is lost by css_ast's tree.
-/
import Verif.Lemmas.Kept

namespace Hdx
open Spec Prog

variable {ord : Bool}

/-! ### Parts -/

theorem keyframesName_does : Exact keyframesName fun c => [c] := by
  unfold keyframesName
  exactly
  · exact Exact.kind
  · simp

theorem keyframeSelector_does : Exact keyframeSelector fun s => [s.cursor] := by
  unfold keyframeSelector
  refine Exact.next (Exact.opt .keyword .keyword) fun o => ?_
  cases o with
  | some x => obtain ⟨k, c⟩ := x; exact Does.ite (fun _ => .pure (by simp [KeyframeSelector.cursor])) fun _ => .pure (by simp [KeyframeSelector.cursor])
  | none => exact Exact.next (.test (isDimensionOf_inspects _)) fun c => Does.ite (fun _ => .pure (by simp [KeyframeSelector.cursor])) fun _ => Does.fail

theorem layerPartsCursors_append (a b : List (Cursor × Cursor)) : layerPartsCursors (a ++ b) = layerPartsCursors a ++ layerPartsCursors b := by
  induction a with
  | nil => rfl
  | cons x a ih => simp [layerPartsCursors, ih]

theorem layerNameLoop_does : ∀ n parts, Does (layerNameLoop n parts) fun a t => ∃ more, a = parts ++ more ∧ t = taken (layerPartsCursors more) := by
  intro n
  induction n with
  | zero => intro parts; exact Does.panic
  | succ n ih =>
    intro parts
    unfold layerNameLoop
    refine Exact.look (Does.peek fun _ => rfl) fun c => Exact.look (Does.looks .delim fun _ => rfl) fun b => Does.ite (fun _ => ?_) fun _ => ?_
    · refine Exact.next .delim fun d => Exact.next .kind fun i => (ih _).mono fun a t h => ?_
      obtain ⟨more, rfl, rfl⟩ := h
      exact ⟨(d, i) :: more, by simp, by simp [layerPartsCursors, taken_cons _ (_ :: _), taken_cons _ (layerPartsCursors _)]⟩
    · exact .pure ⟨[], by simp, rfl⟩

theorem layerName_does (n : Nat) : Exact (layerName n) LayerName.cursors := by
  unfold layerName
  refine Exact.next .kind fun f => Does.bind (layerNameLoop_does n []) fun a t h => .pure ?_
  obtain ⟨more, rfl, rfl⟩ := h
  simp [LayerName.cursors, taken_cons _ (layerPartsCursors _)]

theorem pagePseudoClass_writes : Writes pagePseudoClass (fun x => [x.2.1, x.2.2]) := by
  refine Succ.writes fun p => ?_
  unfold pagePseudoClass
  refine .bind (.tok .kind fun c p1 _ _ _ => .setSkip (.bind (.result ?_ fun d p2 w _ => ?_)))
  · intro k p2 w hk
    rw [keyword_writes hk]
    exact .setSkip (.bind (.ofOk (.pure (by simp))))
  · exact .setSkip (.bind .ofErr)

theorem pagePseudoClass_does : Exact pagePseudoClass fun x => [x.2.1, x.2.2] := by
  refine Does.of pagePseudoClass_writes ?_
  unfold pagePseudoClass
  have := @keyword_modes PAGE_PSEUDO_CLASSES
  keeps

theorem pagePseudosLoop_does : ∀ n acc, Does (pagePseudosLoop n acc) fun a t => ∃ more, a = acc ++ more ∧ t = taken (pagePseudosCursors more) := by
  intro n
  induction n with
  | zero => intro acc; exact Does.panic
  | succ n ih =>
    intro acc
    unfold pagePseudosLoop
    refine Exact.look (Does.peek fun _ => rfl) fun c => Does.ite (fun _ => ?_) fun _ => ?_
    · refine Exact.next pagePseudoClass_does fun x => (ih _).mono fun a t h => ?_
      obtain ⟨more, rfl, rfl⟩ := h
      obtain ⟨k, c, i⟩ := x
      exact ⟨(k, c, i) :: more, by simp, by simp [pagePseudosCursors, taken_cons _ (_ :: _), taken_cons _ (pagePseudosCursors _)]⟩
    · exact .pure ⟨[], by simp, rfl⟩

theorem pageSelector_does (n : Nat) : Exact (pageSelector n) PageSel.cursors := by
  unfold pageSelector
  refine Exact.next .optTok fun f => Does.bind (pagePseudosLoop_does n []) fun a t h => .pure ?_
  obtain ⟨more, rfl, rfl⟩ := h
  simp [PageSel.cursors]

theorem documentMatcher_does : Exact documentMatcher DocumentMatcher.cursors := by
  unfold documentMatcher
  exactly
  all_goals simp [DocumentMatcher.cursors, taken_cons _ (_ :: _)]

theorem propertyRuleValue_does (n : Nat) (name : Cursor) : Exact (propertyRuleValue n name) PropertyRuleValue.cursors := by
  unfold propertyRuleValue
  refine Exact.look isKeyword_does fun b => Does.ite (fun _ => ?_) fun _ => ?_
  · refine Exact.look (buildKeyword_does.mono fun _ _ h => h.2) fun x => ?_
    obtain ⟨k, _⟩ := x
    exactly
    all_goals simp [PropertyRuleValue.cursors]
  · exactly
    simp [PropertyRuleValue.cursors]

theorem alwaysTrue_inspects : Inspects fun _ => (pure true : Prog Bool) := .pureTest (g := fun _ => true)

theorem propertyRuleProperty_saves (n : Nat) : Saves ord (propertyRuleProperty n) (Decl.cursors PropertyRuleValue.cursors) fun _ => True := by
  unfold propertyRuleProperty
  refine Does.bind (declarationOf_saves (ord := ord) alwaysTrue_inspects fun c => (propertyRuleValue_does n c).saves fun _ => True) fun d t h => ?_
  split
  · exact Does.fail
  · exact .pure (by simpa using h)

/-! ### Conditions -/

theorem conditionLoop_usual {φ : Type} {feature : Prog φ} (hf : Usual feature) : ∀ n fs f kw, Usual (conditionLoop feature n fs f kw) := by
  intro n
  induction n with
  | zero => intro fs f kw; exact Does.panic
  | succ n ih =>
    intro fs f kw
    unfold conditionLoop
    have h1 := fun (c : Cursor) => Does.keeps (@isKeyword_modes CONDITION_KEYWORDS c)
    have h2 := fun (c : Cursor) => Does.keeps (@buildKeyword_modes CONDITION_KEYWORDS c)
    usual
    all_goals first
      | exact h1 _
      | exact h2 _
      | exact ih _ _ _

theorem condition_usual {φ : Type} {feature : Prog φ} (hf : Usual feature) (n : Nat) : Usual (condition feature n) := by
  have h1 := fun (c : Cursor) => Does.keeps (@isKeyword_modes CONDITION_KEYWORDS c)
  have h2 := fun (c : Cursor) => Does.keeps (@buildKeyword_modes CONDITION_KEYWORDS c)
  have h3 : Usual (ifPeek (isKeyword CONDITION_KEYWORDS) (keyword CONDITION_KEYWORDS)) := Does.keeps (.ifPeek (fun _ => isKeyword_modes _) keyword_modes)
  have h4 := conditionLoop_usual hf
  unfold condition
  usual
  all_goals first
    | exact h1 _
    | exact h2 _
    | exact h4 _ _ _ _

theorem condition_saves {φ : Type} {feature : Prog φ} {cur : φ → List Cursor} {good : φ → Bool} (hb : Bracketed feature)
    (hf : Saves ord feature cur fun f => good f = true) (n : Nat) :
    Saves ord (condition feature n) (Condition.cursors cur) fun c => goodCondition good c = true := by
  refine Does.ofUsual (condition_usual hf.usual n) fun p hp cond p' w h => ?_
  obtain ⟨_, f, p1, w1, h1, c, _, hrest⟩ := condition_step hb h
  obtain ⟨m1, k1⟩ := hf hp h1
  rcases hrest with ⟨rfl, rfl, rfl, _⟩ | ⟨p2, g, w2, hn, h2, rfl, hc⟩
  · exact fun hg => k1 f rfl hg
  · have m2 : Same p1 p2 := .of_modes m1.1 (next_modes hn)
    obtain ⟨_, k2⟩ := hf m2.1 h2
    have : good f = true → good g = true → Kept ord (cur f ++ (c :: cur g)) (taken (w1 ++ c :: w2)) := by
      intro hf hg
      rw [taken_append, taken_cons]
      exact (k1 f rfl hf).append (Kept.cons (k2 g rfl hg))
    rcases hc with ⟨_, rfl, _⟩ | ⟨_, rfl, _⟩ | ⟨_, rfl⟩
    · intro h
      simp only [goodCondition, List.all_cons, List.all_nil, Bool.and_true, Bool.and_eq_true] at h
      simpa [Condition.cursors, chainCursors] using this h.1 h.2
    · intro h
      simp only [goodCondition, List.all_cons, List.all_nil, Bool.and_true, Bool.and_eq_true] at h
      simpa [Condition.cursors, chainCursors] using this h.1 h.2
    · intro h; cases h

theorem affirms_good {φ : Type} {c : Condition φ} (h : affirms c = true) : goodCondition (fun _ => true) c = true := by
  cases c
  · rfl
  · cases h
  · simp [goodCondition]
  · simp [goodCondition]

theorem affirms_all {q : MediaQuery} : (q.condition.all affirms = true) ↔ ∀ c ∈ q.condition, affirms c = true := by
  cases q.condition <;> simp

theorem mediaQuery_saves (n : Nat) : Saves ord (mediaQuery n) MediaQuery.cursors fun q => q.condition.all affirms = true := by
  have hc : Saves ord (condition mediaFeature n) (Condition.cursors MediaFeature.cursors) fun c => affirms c = true :=
    (condition_saves bracketed_mediaFeature (mediaFeature_does.saves fun _ => (true : Bool) = true) n).mono fun c t h ha => h (affirms_good ha)
  have rest : ∀ pre type, Does (mediaQueryRest n pre type) fun q t => q.condition.all affirms = true →
      Kept ord q.cursors (taken ((pre.map (·.2)).toList ++ (type.map (·.2)).toList) ++ t) := by
    intro pre type
    unfold mediaQueryRest
    refine Exact.look (Does.peekN fun _ => rfl) fun c => ?_
    have next : ∀ b : Bool, Does (if b = true then do
        let and ← tok (isKind .ident)
        let cond ← condition mediaFeature n
        pure ⟨pre, type, some and, some cond⟩
      else pure ⟨pre, type, none, none⟩ : Prog MediaQuery) fun q t => q.condition.all affirms = true →
        Kept ord q.cursors (taken ((pre.map (·.2)).toList ++ (type.map (·.2)).toList) ++ t) := by
      intro b
      refine Does.ite (fun _ => ?_) fun _ => .pure fun _ => ?_
      · refine Exact.next .kind fun a => Does.bind hc fun c t h => .pure fun hok => ?_
        have := (Kept.refl (l := (pre.map (·.2)).toList ++ (type.map (·.2)).toList)).append (Kept.cons (c := a) (h (by simpa using hok)))
        simpa [MediaQuery.cursors] using this
      · simpa [MediaQuery.cursors] using Kept.refl (l := (pre.map (·.2)).toList ++ (type.map (·.2)).toList)
    dsimp only
    split
    · exact Exact.look (Does.eqCase fun _ => rfl) next
    · exact Exact.look (Does.pure rfl) next
  have mt : ∀ c, Does (isMediaType c) fun _ t => t = [] := fun c => by
    unfold isMediaType
    exactly
  have bt : ∀ c, Does (buildMediaType c) fun x t => x.2 = c ∧ t = [] := fun c => by
    unfold buildMediaType
    exactly
    all_goals exact ⟨rfl, rfl⟩
  unfold mediaQuery
  refine Exact.look (Does.peek fun _ => rfl) fun c => Does.ite (fun _ => ?_) fun _ => ?_
  · exact Does.bind hc fun c t h => .pure fun hok => by simpa [MediaQuery.cursors] using h (by simpa using hok)
  refine Exact.next .kind fun c => Exact.look isKeyword_does fun b => Does.ite (fun _ => ?_) fun _ => Exact.look (mt c) fun b => Does.ite (fun _ => ?_) fun _ => ?_
  · refine Does.bind buildKeyword_does fun x t ⟨e, e'⟩ => ?_
    subst e'
    refine Exact.look (Does.peek fun _ => rfl) fun d => Does.ite (fun _ => ?_) fun _ => ?_
    · refine Exact.next .kind fun c' => Exact.look (mt c') fun b => Does.ite (fun _ => ?_) fun _ => ?_
      · refine Does.bind (bt c') fun x' t ⟨e2, e'⟩ => ?_
        subst e'
        exact (rest _ _).mono fun q t h hok => by simpa [e, e2, taken_cons c [c']] using h hok
      · exactly
    · exact (rest _ _).mono fun q t h hok => by simpa [e] using h hok
  · refine Does.bind (bt c) fun x' t ⟨e2, e'⟩ => ?_
    subst e'
    exact (rest _ _).mono fun q t h hok => by simpa [e2] using h hok
  · exactly

theorem containerCondition_saves (n : Nat) : Saves ord (containerCondition n) ContainerCondition.cursors fun q => q.condition.all affirms = true := by
  have hc : Saves ord (condition containerFeature n) (Condition.cursors ContainerFeature.cursors) fun c => affirms c = true :=
    (condition_saves bracketed_containerFeature (containerFeature_does.saves fun _ => (true : Bool) = true) n).mono fun c t h ha => h (affirms_good ha)
  unfold containerCondition
  refine Exact.look (Does.peekN fun _ => rfl) fun c => ?_
  have next : ∀ b : Bool, Saves ord (if b = true then do
      let name ← tok (isKind .ident)
      let q ← ifPeek (fun c => pure (c.token.isKind .function || c.token.isKind .ident)) (condition containerFeature n)
      pure ⟨some name, q⟩
    else do
      let q ← condition containerFeature n
      pure ⟨none, some q⟩) ContainerCondition.cursors fun q => q.condition.all affirms = true := by
    intro b
    refine Does.ite (fun _ => ?_) fun _ => ?_
    · refine Exact.next .kind fun a => Does.bind (Does.ifPeek (.pureTest (g := fun c => c.token.isKind .function || c.token.isKind .ident)) hc) fun o t h => .pure fun hok => ?_
      rcases h with ⟨rfl, rfl⟩ | ⟨q, rfl, h⟩
      · simpa [ContainerCondition.cursors] using Kept.refl (l := [a])
      · simpa [ContainerCondition.cursors] using Kept.cons (c := a) (h (by simpa using hok))
    · exact Does.bind hc fun q t h => .pure fun hok => by simpa [ContainerCondition.cursors] using h (by simpa using hok)
  dsimp only
  split
  · exact Exact.look (Does.strLower fun _ => rfl) fun s => Exact.look (Does.pure rfl) next
  · exact Exact.look (Does.pure rfl) next

/-! ### Declarations -/

theorem rawValue_does (n : Nat) : Exact (rawValue n) ComponentValue.cursorsOf := by
  intro p p' r w hp hg
  unfold rawValue at hg
  replace hg := gives_setStop.mp (gives_setState.mp hg)
  rcases gives_bind.mp hg with ⟨a, p1, w1, w2, h1, h2, rfl⟩ | ⟨d, h1, _⟩
  · obtain ⟨m, k⟩ := (Exact.values (n := n)).result (p := { p with nested := true, stop := KindSet.RIGHT_CURLY_OR_SEMICOLON }) hp h1
    obtain ⟨rfl, rfl, rfl⟩ := gives_ofResult.mp (gives_setStop.mp (gives_setState.mp h2))
    refine ⟨⟨m.1, rfl, rfl⟩, fun v e => ?_⟩
    have := k _ rfl v e
    simpa using this
  · obtain ⟨_, _, e⟩ := gives_result.mp h1; cases e

theorem run_of_runLog {α : Type} {x : Prog α} {p p' : Parser} {r : Except Diag α} {w : List Cursor} (h : Gives x p r p' w) : x.run p = .ok (r, p') :=
  run_of_gives h

section
variable {τ : Type} {V : Values τ} {good : τ → Bool}

theorem Spec.KeepsValues.does (hV : KeepsValues ord V good) {name : List Char} (hn : name ∈ V.names) : Saves ord (V.parser name) V.cursors fun v => good v = true := by
  intro p p' r w hp hg
  have hr := run_of_gives hg
  refine ⟨⟨hV.skip _ hn _ _ _ hr hp, (hV.modes _ hn _ _ _ hr hp).1, (hV.modes _ hn _ _ _ hr hp).2⟩, fun v e hok => ?_⟩
  subst e
  exact hV.kept _ hn _ _ _ _ hg hp hok

theorem isComputed_does {c : Cursor} : Does (isComputed c) fun _ t => t = [] := Does.looks .functionOf fun _ => rfl

theorem buildKeyword_mem {names : List (List Char)} {c : Cursor} : Does (buildKeyword names c) fun x t => x.1 ∈ names ∧ t = [] :=
  Does.ofModes (buildKeyword_modes c) fun _ _ _ _ _ h => by
    obtain ⟨rfl, rfl, s, _, hm, e⟩ := gives_buildKeyword.mp h
    cases e
    exact ⟨by simpa using hm, rfl⟩

theorem valueEnds_does : Does valueEnds fun _ t => t = [] := by
  unfold valueEnds
  refine Exact.look (Does.ask fun _ => rfl) fun b => Does.ite (fun _ => .pure rfl) fun _ => Exact.look (Does.peekN fun _ => rfl) fun c => ?_
  exact Does.ite (fun _ => .pure rfl) fun _ => Exact.look (Does.peek fun _ => rfl) fun c => Does.looks .delim fun _ => rfl

/-- A value that is good, if it is that of a property css_ast knows. -/
def goodStyle (good : τ → Bool) : StyleValue τ → Bool
  | .typed _ v => good v
  | _ => true

theorem typedValue_does (hV : KeepsValues ord V good) (name : Cursor) : Does (typedValue V name) fun r t => ∀ v, r = .inl v → goodStyle good v = true → Kept ord (v.cursors V) t := by
  have other : ∀ t, Does (peek >>= fun c => isComputed c >>= fun b => pure (.inr b) : Prog (StyleValue τ ⊕ Bool))
      fun r u => ∀ v, r = .inl v → goodStyle good v = true → Kept ord (v.cursors V) (t ++ u) := fun t =>
    Exact.look (Does.peek fun _ => rfl) fun c => Exact.look isComputed_does fun b => .pure fun v e => by cases e
  unfold typedValue
  refine Exact.look isKeyword_does fun b => Does.ite (fun _ => ?_) fun _ => other []
  refine Does.bind buildKeyword_mem fun x t ⟨hn, e⟩ => ?_
  subst e
  obtain ⟨n, _⟩ := x
  refine Does.bind (hV.does hn).result fun r t h => ?_
  cases r with
  | ok v =>
    refine Exact.look valueEnds_does fun b => Does.ite (fun _ => .pure fun v' e hok => ?_) fun _ => other t
    cases e
    simpa [StyleValue.cursors] using h v rfl hok
  | error d => exact other t

theorem styleValue_saves (hV : KeepsValues ord V good) (n : Nat) (name : Cursor) : Saves ord (styleValue V n name) (StyleValue.cursors V) fun v => goodStyle good v = true := by
  have raw : ∀ (f : List ComponentValue → StyleValue τ), (∀ vs, (f vs).cursors V = ComponentValue.cursorsOf vs) →
      Saves ord (rawValue n >>= fun vs => pure (f vs)) (StyleValue.cursors V) fun v => goodStyle good v = true := fun f hf =>
    Exact.next (rawValue_does n) fun vs => .pure fun _ => by rw [hf]; simpa using Kept.refl
  unfold styleValue
  refine Does.ite (fun _ => raw _ fun _ => rfl) fun _ => Exact.next (Exact.opt .keyword .keyword) fun o => ?_
  match o with
  | some (k, c) => exact .pure fun _ => by simpa [StyleValue.cursors] using Kept.refl (l := [c])
  | none =>
    refine Exact.look (Does.peek fun _ => rfl) fun c => Exact.look isComputed_does fun b => Does.ite (fun _ => ?_) fun _ => ?_
    · exact raw .computed fun _ => rfl
    · refine Does.attempt (typedValue_does hV name) (fun r t hk h => ?_) fun r hk => ?_
      · match r, hk with
        | .ok (.inl v), _ =>
          refine Does.bind (P := fun x t => x = .inl v ∧ t = []) (Does.ofResult fun a e => ⟨by cases e; rfl, rfl⟩) fun l t' ⟨e, e'⟩ => ?_
          subst e; subst e'
          exact .pure fun hok => by simpa using h _ rfl v rfl hok
      · refine Does.bind (P := fun x t => r = .ok x ∧ t = []) (Does.ofResult fun a e => ⟨e, rfl⟩) fun l t' ⟨e, e'⟩ => ?_
        subst e; subst e'
        match l, hk with
        | .inr true, _ => exact raw .computed fun _ => rfl
        | .inr false, _ => exact raw .unknown fun _ => rfl

theorem property_saves (hV : KeepsValues ord V good) (n : Nat) : Saves ord (property V n) (Decl.cursors (StyleValue.cursors V)) fun d => goodValue good d = true :=
  declarationOf_saves alwaysTrue_inspects fun c => styleValue_saves hV n c

theorem fontFaceProperty_saves (hV : KeepsValues ord V good) (n : Nat) : Saves ord (fontFaceProperty V n) (Decl.cursors (StyleValue.cursors V)) fun d => goodValue good d = true :=
  declarationOf_saves .keyword fun c => styleValue_saves hV n c

theorem keyframe_saves (hV : KeepsValues ord V good) (n : Nat) : Saves ord (keyframe V n) (Keyframe.cursors V) fun k => (k.block.items.all fun d => goodValue good d.1) = true := by
  unfold keyframe
  refine Does.bind (qualifiedRule_saves (commaPrelude_saves (keyframeSelector_does.saves fun _ => True) n) (declarationList_saves (property_saves hV n) n)
    (Does.keeps (badDeclaration_modes n))) fun x t h => .pure fun hok => ?_
  simpa [Keyframe.cursors] using h ⟨fun _ _ => trivial, fun d hd => List.all_eq_true.mp hok d hd⟩

theorem noPrelude_does : Exact noPrelude fun _ => [] := by
  unfold noPrelude
  exactly
  rfl

theorem marginRule_saves (hV : KeepsValues ord V good) (n : Nat) : Saves ord (marginRule V n) (MarginRule.cursors V) fun m => (m.block.items.all fun d => goodValue good d.1) = true := by
  unfold marginRule
  refine Does.bind (atRule_saves (noPrelude_does.saves fun _ => True) (declarationList_saves (property_saves hV n) n)) fun x t h => ?_
  refine Exact.look (Does.strLower fun _ => rfl) fun s => Does.ite (fun _ => .pure fun hok => ?_) fun _ => by exactly
  have := h ⟨fun _ _ => trivial, fun d hd => List.all_eq_true.mp hok d hd⟩
  have e : ∀ o : Option Unit, (o.map fun _ => ([] : List Cursor)).getD [] = [] := by intro o; cases o <;> rfl
  simpa [MarginRule.cursors, e] using this

theorem supportsFeature_saves (hV : KeepsValues ord V good) (n : Nat) : Saves ord (supportsFeature V n) (SupportsFeature.cursors V) fun f => goodFeature good f = true := by
  unfold supportsFeature
  refine Exact.next .optTok fun o => Exact.look (Does.peek fun _ => rfl) fun c => Does.ite (fun _ => ?_) fun _ => ?_
  · refine Exact.next .functionOf fun x => ?_
    obtain ⟨k, f⟩ := x
    refine Does.ite (fun _ => ?_) fun _ => Does.panic
    refine Exact.next (selectorListFuel_does n) fun l => Exact.next .kind fun close => Does.ite (fun _ => Exact.next .kind fun oc => .pure fun _ => .of_eq ?_) fun _ =>
      .pure fun _ => .of_eq ?_
    · simp [SupportsFeature.cursors, taken_cons _ (_ ++ _), taken_cons _ [_]]
    · simp [SupportsFeature.cursors, taken_cons _ (_ ++ _)]
  · cases o with
    | some o =>
      refine Does.bind (property_saves hV n) fun p t h => Exact.next .optTok fun close => .pure fun hok => ?_
      simpa [SupportsFeature.cursors] using Kept.cons (c := o) ((h hok).append (Kept.refl (l := close.toList)))
    | none => exact Exact.look (Does.peekN fun _ => rfl) fun _ => Does.fail

theorem bracketed_supportsFeature (n : Nat) : Bracketed (supportsFeature V n) := by
  intro p c s hc hw f p' h
  obtain ⟨w, hg⟩ := gives_of_run h
  have hi : c.token.isKind .ident = true := (isKind_iff (by decide)).mpr hw.1
  have no : ∀ k, k ≠ .eof → k ≠ .ident → ¬ c.token.isKind k = true := fun k h1 h2 h => h2 (((isKind_iff h1).mp h).symm.trans hw.1)
  unfold supportsFeature at hg
  obtain ⟨o, p1, w1, w2, rfl, h1, h2⟩ := step hg
  obtain ⟨rfl, ⟨d, rfl, hn, hk⟩ | ⟨rfl, rfl⟩⟩ := gives_ifKind h1
  · rw [peek_of_next hn] at hc
    cases hc
    exact no _ (by decide) (by decide) hk
  · obtain ⟨d, hd, h3⟩ := step_peek h2
    rw [hd] at hc
    cases hc
    rcases gives_ite.mp h3 with ⟨hk, _⟩ | ⟨_, h4⟩
    · exact no _ (by decide) (by decide) hk
    · obtain ⟨_, _, _, _, rfl, _, h5⟩ := step h4
      exact not_fail h5

theorem supportsCondition_saves (hV : KeepsValues ord V good) (n : Nat) :
    Saves ord (supportsCondition V n) (Condition.cursors (SupportsFeature.cursors V)) fun c => goodCondition (goodFeature good) c = true := by
  unfold supportsCondition
  refine Exact.look (Does.peek fun _ => rfl) fun c => Does.ite (fun _ => ?_) fun _ => ?_
  · exact Does.bind (supportsFeature_saves hV n) fun f t h => .pure fun hok => by simpa [Condition.cursors] using h hok
  · exact condition_saves (bracketed_supportsFeature n) (supportsFeature_saves hV n) n

end

end Hdx

/-
At-rules with rules in them: what is between the at-keyword and the block is read.
-/
import Verif.Lemmas.AtRuleWalks
import Verif.Spec.SheetSyntax

namespace Hdx
open Spec Prog
section
variable {src : List Char} {n : Nat}

theorem functionOf_yields {names : List (List Char)} {k : List Char} {f : Cursor} {rest : List Cursor} (hf : IsKind .function f) (hn : Named src f k) (hk : k ∈ names) :
    Yields src (f :: rest) (functionOf names) rest fun x => x = (k, f) := by
  unfold functionOf
  refine Yields.bind (Yields.tok (P' := fun x => x = f) ?_ rfl) ?_
  · unfold isFunctionOf
    rw [if_pos (show f.token.isKind .function = true from hf)]
    exact lower_tests hn (Tests.pure.congr (by simpa using hk))
  · rintro _ rfl
    exact build_yields hn hk

theorem matcher_yields {m : DocumentMatcher} {rest : List Cursor} (hm : GroupHead.Fits.MatcherFits src m) : Yields src (m.cursors ++ rest) documentMatcher rest fun x => x = m := by
  obtain ⟨_, hl, hm⟩ := hm
  have fn {k : List Char} {f s c : Cursor} {r : DocumentMatcher} (hk : k ∈ DOCUMENT_FUNCTIONS) (h : StringFunction src k f s c)
      (hr : (if k == c!"url" then DocumentMatcher.urlFunction f s c else .urlPrefix f s c) = r) :
      Yields src (f :: s :: c :: rest) documentMatcher rest fun x => x = r := by
    obtain ⟨h1, h2, h3, h4⟩ := h
    unfold documentMatcher
    refine Yields.peek (Yields.neg (IsKind.other h1 (by decide) (by decide) (by decide)) (Yields.bind (functionOf_yields h1 h2 hk) ?_))
    rintro _ rfl
    refine Yields.bind (Yields.tok (P' := fun x => x = s) ((Tests.kind).congr h3) rfl) ?_
    rintro _ rfl
    refine Yields.bind (Yields.tok (P' := fun x => x = c) ((Tests.kind).congr h4) rfl) ?_
    rintro _ rfl
    subst hr
    repeat' split
    all_goals first | exact Yields.pure rfl | exact absurd ‹_› ‹_›
  cases m with
  | url c =>
    show Yields src (c :: rest) _ _ _
    unfold documentMatcher
    refine Yields.peek (Yields.pos hl (Yields.bind (Yields.tok (P' := fun x => x = c) ((Tests.kind).congr hl) rfl) ?_))
    rintro _ rfl
    exact Yields.pure rfl
  | urlFunction f s c => exact fn (by decide) hl rfl
  | urlPrefix f s c =>
    obtain ⟨k, hk, h⟩ := hl
    have : ∀ k ∈ [c!"url-prefix", c!"domain", c!"media-document", c!"regexp"], k ∈ DOCUMENT_FUNCTIONS ∧ (k == c!"url") = false := by decide
    exact fn (this k hk).1 h (by rw [(this k hk).2]; rfl)
  | _ => exact hm.elim

theorem matcher_first {m : DocumentMatcher} (hm : GroupHead.Fits.MatcherFits src m) : ∃ c r, m.cursors = c :: r ∧ c.token.inSet KindSet.LEFT_CURLY_OR_SEMICOLON = false := by
  obtain ⟨_, hl, hm⟩ := hm
  cases m with
  | url c => exact ⟨_, _, rfl, not_in hl (by decide) (by decide)⟩
  | urlFunction f s c => exact ⟨_, _, rfl, not_in hl.1 (by decide) (by decide)⟩
  | urlPrefix f s c =>
    obtain ⟨k, hk, h⟩ := hl
    exact ⟨_, _, rfl, not_in h.1 (by decide) (by decide)⟩
  | _ => exact hm.elim

theorem matchers_walks {fuel : Nat} (hfu : n ≤ fuel) {ms : List (DocumentMatcher × Option Cursor)} {e : Cursor} {rest : List Cursor} (hm : Listed (fun m => GroupHead.Fits.MatcherFits src m) ms) (he : IsKind .leftCurly e) :
    Walks src n (pairsCursors DocumentMatcher.cursors ms ++ e :: rest) (commaPrelude documentMatcher fuel) (e :: rest) fun x => x = ms :=
  commaPrelude_walks hfu (.inl he) (fun _ h => matcher_first h) (fun _ h _ _ _ => (matcher_yields h).walks) hm

/-! ### Queries -/

theorem mediaPrelude_walks {fuel : Nat} (hfu : n ≤ fuel) {q : MediaQuery} {c : Cursor} {rest : List Cursor} (hq : QueryRead src q) (hc : IsKind .leftCurly c) :
    Walks src n (q.cursors ++ c :: rest) (preludeList (mediaQuery fuel) fuel) (c :: rest) fun x => x = [q] := by
  refine Walks.room fun hlen => ?_
  obtain ⟨f, rfl⟩ : ∃ f, fuel = f + 1 := ⟨fuel - 1, by omega⟩
  exact (preludeOne_yields hc (mediaQuery_yields hq hc)).walks

theorem mediaQuery_first {q : MediaQuery} (hq : QueryRead src q) : ∃ c r, q.cursors = c :: r ∧ c.token.inSet KindSet.LEFT_CURLY_OR_SEMICOLON = false := by
  obtain ⟨h1, h2, h3, h4, h5⟩ := hq
  obtain ⟨pre, ty, and, cond⟩ := q
  rcases h5 with ⟨e1, e2, e3, e4⟩ | ⟨e1, e2⟩
  · cases e1; cases e2; cases e3
    cases cond with
    | none => cases e4
    | some x =>
      obtain ⟨o, r, e, ho⟩ := condition_first (F := FeatureRead src) (cur := MediaFeature.cursors) (fun f hf => mediaFeature_first hf) (h4 x rfl)
      exact ⟨o, r, e, not_in ho (by decide) (by decide)⟩
  · cases ty with
    | none => cases e1
    | some t =>
      have hi := mediaType_ident (h2 t rfl).1
      cases pre with
      | none => exact ⟨_, _, rfl, not_in hi (by decide) (by decide)⟩
      | some k => exact ⟨_, _, rfl, not_in (h1 k rfl).1.1 (by decide) (by decide)⟩

theorem containersPrelude_walks {fuel : Nat} (hfu : n ≤ fuel) {qs : List ContainerCondition} {c : Cursor} {rest : List Cursor} (hq : ContainersRead src qs) (hc : IsKind .leftCurly c) :
    Walks src n ((qs.map ContainerCondition.cursors).flatten ++ c :: rest) (preludeList (containerCondition fuel) fuel) (c :: rest) fun x => x = qs := by
  refine Walks.room fun hlen => ?_
  by_cases hf : fuel = 0
  · omega
  by_cases hf1 : fuel = 1
  · subst hf1
    have : (qs.map ContainerCondition.cursors).flatten = [] := by
      refine List.eq_nil_of_length_eq_zero ?_
      simp at hlen ⊢
      omega
    exfalso
    rcases containers_cases hq with ⟨n, rfl, hn⟩ | ⟨q, rfl, hq⟩ | ⟨n, q, rfl, hn, hq⟩
    · exact absurd this (by simp [ContainerCondition.cursors])
    · obtain ⟨o, r, e, ho⟩ := condition_first (F := ContainerFeatureRead src) (cur := ContainerFeature.cursors) (fun f hf => containerFeature_first hf) hq
      exact absurd this (by simp [ContainerCondition.cursors, e])
    · exact absurd this (by simp [ContainerCondition.cursors])
  · obtain ⟨f, rfl⟩ : ∃ f, fuel = f + 2 := ⟨fuel - 2, by omega⟩
    exact (containers_yields (fuel' := f + 1) hq hc).walks

theorem containers_first {qs : List ContainerCondition} (hq : ContainersRead src qs) : ∃ c r, (qs.map ContainerCondition.cursors).flatten = c :: r ∧ c.token.inSet KindSet.LEFT_CURLY_OR_SEMICOLON = false := by
  rcases containers_cases hq with ⟨n, rfl, hn⟩ | ⟨q, rfl, hq⟩ | ⟨n, q, rfl, hn, hq⟩
  · exact ⟨n, _, rfl, not_in hn.1 (by decide) (by decide)⟩
  · obtain ⟨o, r, e, ho⟩ := condition_first (F := ContainerFeatureRead src) (cur := ContainerFeature.cursors) (fun f hf => containerFeature_first hf) hq
    exact ⟨o, r, by simp [ContainerCondition.cursors, e], not_in ho (by decide) (by decide)⟩
  · exact ⟨n, _, rfl, not_in hn.1 (by decide) (by decide)⟩

/-! ### At-rules -/

section
variable {α β : Type} {P : α → Prop} {Q : β → Prop}

/-- At-rules with something before the block; what is before the block is read with fewer tokens than before the at-keyword. -/
theorem atRule_steps {name : Option (List Char)} {prelude : Prog α} {block : Prog β} {head cs' : List Cursor} {a o c : Cursor} {pre body : List Cursor} (e : solid head = a :: c :: pre)
    (ha : IsKind .atKeyword a) (hn : Tests src (nameTest name a) true) (hc : c.token.inSet KindSet.LEFT_CURLY_OR_SEMICOLON = false) (ho : IsKind .leftCurly o)
    (hp : Walks src n (c :: (pre ++ o :: solid body)) prelude (o :: solid body) P) (hb : Steps src n (o :: body) block cs' Q) :
    Steps src (n + 1) (head ++ o :: body) (atRule name prelude block) cs' fun x => x.1 = a ∧ (∃ v, x.2.1 = some v ∧ P v) ∧ Q x.2.2 := by
  have hot := notTrivia_of ho (by decide) (by decide)
  obtain ⟨x, y, rfl, hx, hy⟩ := solid_split (a := [a]) (b := c :: pre) e
  rw [atRule_eq, List.append_assoc]
  have hfull : solid (x ++ (y ++ o :: body)) = a :: (c :: (pre ++ o :: solid body)) := by
    rw [solid_append, solid_append, hx, hy, solid_cons hot]; rfl
  have hrest : solid (y ++ o :: body) = c :: (pre ++ o :: solid body) := by
    rw [solid_append, hy, solid_cons hot]; rfl
  refine Steps.eat (cs1 := y ++ o :: body) (P := fun d => d = a) (Yields.steps ?_ (List.suffix_append ..)) ?_ ?_
  · rw [hfull, hrest]
    exact Yields.tok ((Tests.kind).congr ha) rfl
  · rw [hfull, hrest]
    intro h
    have := congrArg List.length h
    simp at this
  rintro _ rfl
  refine Steps.test hn (Steps.neg (by simp) ?_)
  unfold atRuleRest
  refine Steps.peek hrest (Steps.atEnd hrest ?_)
  rw [if_neg (by simp [hc])]
  refine Steps.bind (cs1 := o :: body) (P := P) (Walks.steps ?_ (List.suffix_append ..)) ?_
  · rw [hrest, solid_cons hot]; exact hp
  intro v hv
  refine Steps.bind (P := fun o => o = some v) (Steps.pure rfl) ?_
  rintro _ rfl
  exact Steps.bind hb fun b hb => Steps.pure ⟨rfl, ⟨v, rfl, hv⟩, hb⟩

/-- At-rules with nothing before the block. -/
theorem atRule_steps_none {name : Option (List Char)} {prelude : Prog α} {block : Prog β} {head cs' : List Cursor} {a o : Cursor} {body : List Cursor} (e : solid head = [a])
    (ha : IsKind .atKeyword a) (hn : Tests src (nameTest name a) true) (ho : IsKind .leftCurly o) (hb : Steps src n (o :: body) block cs' Q) :
    Steps src (n + 1) (head ++ o :: body) (atRule name prelude block) cs' fun x => x.1 = a ∧ x.2.1 = none ∧ Q x.2.2 := by
  have hot := notTrivia_of ho (by decide) (by decide)
  rw [atRule_eq]
  have hfull : solid (head ++ o :: body) = a :: (o :: solid body) := by rw [solid_append, e, solid_cons hot]; rfl
  refine Steps.eat (cs1 := o :: body) (P := fun d => d = a) (Yields.steps ?_ (List.suffix_append ..)) ?_ ?_
  · rw [hfull, solid_cons hot]
    exact Yields.tok ((Tests.kind).congr ha) rfl
  · rw [hfull, solid_cons hot]
    intro h
    have := congrArg List.length h
    simp at this
  rintro _ rfl
  refine Steps.test hn (Steps.neg (by simp) ?_)
  unfold atRuleRest
  refine Steps.peek (solid_cons hot) (Steps.atEnd (solid_cons hot) ?_)
  rw [if_pos (by simp [leftCurly_in ho])]
  refine Steps.bind (P := fun o => o = none) (Steps.pure rfl) ?_
  rintro _ rfl
  exact Steps.bind hb fun b hb => Steps.pure ⟨rfl, rfl, hb⟩

theorem Steps.lower {cs cs' : List Cursor} {c : Cursor} {s : List Char} {f : List Char → Prog β} (h : Named src c s) (hf : Steps src n cs (f s) cs' Q) : Steps src n cs (strLower c >>= f) cs' Q := by
  intro p hp hr
  obtain ⟨b, q2, w2, g1, g2, g3⟩ := hf hp hr
  exact ⟨b, q2, _, gives_seq (Tests.lower h hp.on.source) g1, g2, g3⟩

end

/-- The parser of an at-rule with rules in it. -/
def groupParser (rule : Prog (CssRule Val)) (fuel : Nat) : GroupHead → Prog (CssRule Val)
  | .container _ => containerRule rule fuel
  | .layer _ => layerRule rule fuel
  | .document moz _ => documentRule moz rule fuel

theorem group_steps {rule : Prog (CssRule Val)} {fuel : Nat} (hfu : n ≤ fuel) {g : GroupHead} {head rest : List Cursor} {a o close : Cursor} {body : List Cursor} {R : List (CssRule Val) → Prop}
    (e : solid head = a :: g.tokens) (ha : AtCalled src g.name a) (hg : g.Fits src) (ho : IsKind .leftCurly o)
    (hb : Steps src n (o :: body) (ruleList rule fuel) rest fun b => b.opening = o ∧ R b.items ∧ b.close = some close) :
    Steps src (n + 1) (head ++ o :: body) (groupParser rule fuel g) rest fun r => ∃ rs, r = g.rule a o rs close ∧ R rs := by
  have hot := notTrivia_of ho (by decide) (by decide)
  cases g with
  | container qs =>
    obtain ⟨c, r, h1, h2⟩ := containers_first hg
    have hp := containersPrelude_walks (rest := solid body) hfu hg ho
    have e' : solid head = a :: c :: r := by rw [e]; show a :: (qs.map ContainerCondition.cursors).flatten = _; rw [h1]
    rw [h1] at hp
    unfold groupParser containerRule
    refine Steps.offset fun start => Steps.bind (atRule_steps e' ha.1 (called_test ha) h2 ho hp hb) ?_
    rintro ⟨_, _, ⟨_, _, _⟩⟩ ⟨rfl, ⟨_, rfl, rfl⟩, rfl, h, rfl⟩
    exact Steps.pure ⟨_, rfl, h⟩
  | layer l =>
    have hb' : Steps src n (o :: body) (layerBlock rule fuel) rest fun x => ∃ b, x = .inr b ∧ b.opening = o ∧ R b.items ∧ b.close = some close := by
      unfold layerBlock
      refine Steps.ifPeek_none (solid_cons hot) ((Tests.kind).congr (not_kind ho (by decide) (by decide) (by decide))) ?_
      exact Steps.bind hb fun b h => Steps.pure ⟨b, rfl, h⟩
    unfold groupParser layerRule
    cases l with
    | none =>
      refine Steps.bind (atRule_steps_none e ha.1 (called_test ha) ho hb') ?_
      rintro ⟨_, _, _⟩ ⟨rfl, rfl, ⟨_, _, _⟩, rfl, rfl, h, rfl⟩
      exact Steps.pure ⟨_, rfl, h⟩
    | some x =>
      have hx : LayerNameLabel x := hg x rfl
      have hp := layers_walks (src := src) (n := n) (ns := [(x, none)]) (rest := solid body) hfu ⟨hx, rfl⟩ (.inl ho)
      have e1 : pairsCursors LayerName.cursors [(x, none)] = x.first :: layerPartsCursors x.parts := by simp [pairsCursors, LayerName.cursors]
      rw [e1] at hp
      refine Steps.bind (atRule_steps (c := x.first) (pre := layerPartsCursors x.parts) e ha.1 (called_test ha) (not_in hx.1 (by decide) (by decide)) ho hp hb') ?_
      rintro ⟨_, _, _⟩ ⟨rfl, ⟨_, rfl, rfl⟩, ⟨_, _, _⟩, rfl, rfl, h, rfl⟩
      exact Steps.pure ⟨_, rfl, h⟩
  | document moz ms =>
    obtain ⟨c, r, h1, h2⟩ := listed_first (cur := DocumentMatcher.cursors) (fun m hm => matcher_first hm) hg
    have hp := matchers_walks (rest := solid body) hfu hg ho
    have e' : solid head = a :: c :: r := by rw [e]; show a :: pairsCursors DocumentMatcher.cursors ms = _; rw [h1]
    rw [h1] at hp
    unfold groupParser documentRule
    refine Steps.bind (atRule_steps e' ha.1 (called_test ha) h2 ho hp hb) ?_
    rintro ⟨_, _, ⟨_, _, _⟩⟩ ⟨rfl, ⟨_, rfl, rfl⟩, rfl, h, rfl⟩
    exact Steps.pure ⟨_, rfl, h⟩

theorem media_steps {rule : Prog (CssRule Val)} {fuel : Nat} (hfu : n ≤ fuel) {q : MediaQuery} {head rest : List Cursor} {a o close : Cursor} {body : List Cursor}
    {R : List (Decl (StyleValue Val) × Option Cursor) → List (CssRule Val) → Prop} (e : solid head = a :: q.cursors) (ha : AtCalled src c!"media" a) (hq : QueryRead src q) (ho : IsKind .leftCurly o)
    (hb : Steps src n (o :: body) (blockOf isDeclaration (Hdx.property realValues fuel) rule fuel) rest fun b => b.opening = o ∧ R b.declarations b.rules ∧ b.close = some close) :
    Steps src (n + 1) (head ++ o :: body) (mediaRule realValues rule fuel) rest fun r => ∃ ds rs, r = .media a [q] o ds rs (some close) ∧ R ds rs := by
  obtain ⟨c, r, h1, h2⟩ := mediaQuery_first hq
  have hp := mediaPrelude_walks (rest := solid body) hfu hq ho
  rw [h1] at hp e
  unfold mediaRule
  refine Steps.offset fun start => Steps.bind (atRule_steps e ha.1 (called_test ha) h2 ho hp hb) ?_
  rintro ⟨_, _, ⟨_, _, _, _⟩⟩ ⟨rfl, ⟨_, rfl, rfl⟩, rfl, h, rfl⟩
  exact Steps.pure ⟨_, _, rfl, h⟩

/-! ### The parser for an at-rule -/

theorem known_leaf {rule : Prog (CssRule Val)} {fuel : Nat} {nested : Bool} {l : LeafRule} (h : nested = true → l.name ∈ nestedNames) :
    knownAtRule realValues rule fuel nested l.name = some (leafParser rule fuel l) := by
  cases l with
  | keyframes w =>
    cases w with
    | true =>
      cases nested
      · rfl
      · exact absurd (h rfl) (by show ¬ (c!"-webkit-keyframes" ∈ nestedNames); decide)
    | false =>
      cases nested
      · rfl
      · exact absurd (h rfl) (by show ¬ (c!"keyframes" ∈ nestedNames); decide)
  | layers => cases nested <;> rfl
  | fontFace =>
    cases nested
    · rfl
    · exact absurd (h rfl) (by show ¬ (c!"font-face" ∈ nestedNames); decide)
  | page =>
    cases nested
    · rfl
    · exact absurd (h rfl) (by show ¬ (c!"page" ∈ nestedNames); decide)
  | property =>
    cases nested
    · rfl
    · exact absurd (h rfl) (by show ¬ (c!"property" ∈ nestedNames); decide)

theorem known_group {rule : Prog (CssRule Val)} {fuel : Nat} {nested : Bool} {g : GroupHead} (h : nested = true → g.name ∈ nestedNames) :
    knownAtRule realValues rule fuel nested g.name = some (groupParser rule fuel g) := by
  cases g with
  | container => cases nested <;> rfl
  | layer => cases nested <;> rfl
  | document moz =>
    cases moz with
    | true =>
      cases nested
      · rfl
      · exact absurd (h rfl) (by show ¬ (c!"-moz-document" ∈ nestedNames); decide)
    | false =>
      cases nested
      · rfl
      · exact absurd (h rfl) (by show ¬ (c!"document" ∈ nestedNames); decide)

theorem leaf_called {l : LeafRule} (hl : l.Fits src) : ∃ a r, l.tokens = a :: r ∧ AtCalled src l.name a := by
  cases l <;> exact ⟨_, _, rfl, hl.1⟩

/-- A rule that begins with an at-keyword of a known name. -/
theorem atCssRule_steps {rule : Prog (CssRule Val)} {generic : Prog Rule} {fuel : Nat} {nested : Bool} {cs cs' : List Cursor} {a : Cursor} {more : List Cursor} {name : List Char} {parser : Prog (CssRule Val)}
    {P : CssRule Val → Prop} (e : solid cs = a :: more) (ha : AtCalled src name a) (hk : knownAtRule realValues rule fuel nested name = some parser) (hp : Steps src n cs parser cs' P) :
    Steps src n cs (atCssRule realValues rule generic fuel nested) cs' P := by
  unfold atCssRule
  refine Steps.peekN1 e (Steps.lower ha.2.1 ?_)
  rw [hk]
  exact Steps.attempt hp (fun _ _ => rfl) fun b hb => Steps.pure hb

end
end Hdx

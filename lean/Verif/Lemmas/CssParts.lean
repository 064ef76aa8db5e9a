/-
The parts of css_ast's at-rules: each keeps the tokens it takes.
-/
import Verif.Lemmas.SelectorModes
import Verif.Props.Conditions

namespace Hdx
open Spec Prog

theorem taken_cons (c : Cursor) (l : List Cursor) : taken (c :: l) = taken [c] ++ taken l := taken_append [c] l

theorem notEof_strip (c : Cursor) : notEof (strip c) = notEof c := by unfold strip; split <;> rfl

theorem taken_of_map {l w : List Cursor} (h : l.map strip = taken w) : taken w = taken l := by
  have : ∀ c ∈ l, notEof c = true := by
    intro c hc
    have : strip c ∈ taken w := h ▸ List.mem_map_of_mem hc
    unfold taken at this
    obtain ⟨d, hd, e⟩ := List.mem_map.mp this
    rw [← notEof_strip, ← e, notEof_strip]
    exact (List.mem_filter.mp hd).2
  rw [← h, taken, List.filter_eq_self.mpr this]

/-- A program that is written back exactly. -/
abbrev Exact {α : Type} (x : Prog α) (cur : α → List Cursor) : Prop := Does x fun a t => t = taken (cur a)

namespace Exact
variable {α β : Type}
theorem kind {k : Kind} : Exact (tok (isKind k)) fun c => [c] := Does.of writes_isKind (tokKind_modes k)
theorem delim {ch : Char} : Exact (tok (isDelim ch)) fun c => [c] := Does.of writes_isDelim (tokDelim_modes ch)
theorem any : Exact Hdx.any fun c => [c] := Does.of writes_any any_modes
theorem keyword {names : List (List Char)} : Exact (Hdx.keyword names) fun x => [x.2] := Does.of keyword_writes keyword_modes
theorem functionOf {names : List (List Char)} : Exact (Hdx.functionOf names) fun x => [x.2] := Does.of (functionOf_writes _) (functionOf_modes _)
theorem whitespace : Exact Prog.whitespace fun c => [c] := Does.whitespace
theorem values {n : Nat} : Exact (componentValues n) ComponentValue.cursorsOf :=
  Does.ofModes (componentValues_modes n) fun _ _ _ _ _ h => taken_of_map (componentValues_taken h).symm
theorem important : Exact bangImportant BangImportant.cursors := Does.of bangImportant_writes bangImportant_modes
theorem opt {x : Prog α} {cur : α → List Cursor} {test : Cursor → Prog Bool} (ht : Inspects test) (hx : Exact x cur) :
    Exact (ifPeek test x) fun o => (o.map cur).getD [] := (Does.ifPeek ht hx).mono fun o t h => by
  rcases h with ⟨rfl, rfl⟩ | ⟨a, rfl, rfl⟩ <;> rfl
theorem optTok {k : Kind} : Exact (ifPeek (isKind k) (tok (isKind k))) fun o => o.toList := (opt .kind kind).mono fun o t h => by
  cases o <;> exact h
/-- A step that takes nothing. -/
theorem look {x : Prog α} {f : α → Prog β} {P : β → List Cursor → Prop} (hx : Does x fun _ t => t = []) (hf : ∀ a, Does (f a) P) : Does (x >>= f) P :=
  Does.bind hx fun a t e => by subst e; exact hf a
/-- A step that is written back. -/
theorem next {x : Prog α} {cur : α → List Cursor} {f : α → Prog β} {P : β → List Cursor → Prop} (hx : Exact x cur)
    (hf : ∀ a, Does (f a) fun b u => P b (taken (cur a) ++ u)) : Does (x >>= f) P := Does.bind hx fun a t e => by subst e; exact hf a
end Exact

theorem isBangImportant_inspects : Inspects isBangImportant := fun _ _ _ _ _ h => isBangImportant_looks h

theorem buildKeyword_does {names : List (List Char)} {c : Cursor} : Does (buildKeyword names c) fun x t => x.2 = c ∧ t = [] :=
  Does.ofModes (buildKeyword_modes c) fun _ _ _ _ _ h => by
    obtain ⟨rfl, rfl, s, _, _, e⟩ := gives_buildKeyword.mp h
    cases e
    exact ⟨rfl, rfl⟩

theorem isKeyword_does {names : List (List Char)} {c : Cursor} : Does (isKeyword names c) fun _ t => t = [] := Does.looks .keyword fun _ => rfl

/-- Follows the text of a program of single tokens. -/
macro "exactly" : tactic => `(tactic| repeat' (first
  | assumption
  | (with_reducible exact Does.fail) | (with_reducible exact Does.panic)
  | (with_reducible (refine Exact.look (Does.peek fun _ => rfl) (fun _ => ?_)))
  | (with_reducible (refine Exact.look (Does.peekN fun _ => rfl) (fun _ => ?_)))
  | (with_reducible (refine Exact.look (Does.str fun _ => rfl) (fun _ => ?_)))
  | (with_reducible (refine Exact.look (Does.strLower fun _ => rfl) (fun _ => ?_)))
  | (with_reducible (refine Exact.look (Does.eqCase fun _ => rfl) (fun _ => ?_)))
  | (with_reducible (refine Exact.look (Does.ask fun _ => rfl) (fun _ => ?_)))
  | (with_reducible (refine Exact.look (Does.pure rfl) (fun _ => ?_)))
  | (with_reducible (refine Exact.look isKeyword_does (fun _ => ?_)))
  | (with_reducible (refine Exact.next Exact.kind (fun _ => ?_)))
  | (with_reducible (refine Exact.next Exact.delim (fun _ => ?_)))
  | (with_reducible (refine Exact.next Exact.any (fun _ => ?_)))
  | (with_reducible (refine Exact.next Exact.keyword (fun _ => ?_)))
  | (with_reducible (refine Exact.next Exact.functionOf (fun _ => ?_)))
  | (with_reducible (refine Exact.next Exact.optTok (fun _ => ?_)))
  | (with_reducible (refine Exact.next Exact.values (fun _ => ?_)))
  | (with_reducible (refine Exact.next Exact.whitespace (fun _ => ?_)))
  | (with_reducible (refine Does.ite (fun _ => ?_) (fun _ => ?_)))
  | (with_reducible (refine Does.pure ?_))
  | split | (dsimp only)))

/-! ### Media features -/

theorem isDimensionOf_inspects (u : DimensionUnit) : Inspects (isDimensionOf u) := by
  intro c p r p' w h
  unfold isDimensionOf at h
  rcases gives_ite.mp h with ⟨_, h⟩ | ⟨_, h⟩
  · rcases gives_ite.mp h with ⟨_, h⟩ | ⟨_, h⟩
    · exact (gives_pure.mp h).2
    · obtain ⟨_, _, _, rfl, rfl⟩ := gives_ask.mp h; exact ⟨rfl, rfl⟩
  · exact (gives_pure.mp h).2
theorem isAnyDimension_inspects (us : List DimensionUnit) : Inspects (isAnyDimension us) := by
  induction us with
  | nil => exact .pureTest (g := fun _ => false)
  | cons u us ih =>
    intro c p r p' w h
    unfold isAnyDimension at h
    rcases gives_bind.mp h with ⟨a, p1, w1, w2, h1, h2, rfl⟩ | ⟨d, h1, _⟩
    · obtain ⟨rfl, rfl⟩ := isDimensionOf_inspects u h1
      rcases gives_ite.mp h2 with ⟨_, h⟩ | ⟨_, h⟩
      · obtain ⟨_, rfl, rfl⟩ := gives_pure.mp h; exact ⟨rfl, rfl⟩
      · obtain ⟨rfl, rfl⟩ := ih h; exact ⟨rfl, rfl⟩
    · exact isDimensionOf_inspects u h1
theorem isLength_inspects : Inspects isLength := by
  intro c p r p' w h
  unfold isLength at h
  rcases gives_ite.mp h with ⟨_, h⟩ | ⟨_, h⟩
  · exact (gives_pure.mp h).2
  · exact isAnyDimension_inspects _ h

/-- A test that looks only does not change the modes. -/
theorem Inspects.modes {test : Cursor → Prog Bool} (ht : Inspects test) (c : Cursor) : KeepsModes (test c) := fun _ _ _ _ h => by rw [(ht h).1]
theorem Exact.test {test : Cursor → Prog Bool} (ht : Inspects test) : Exact (tok test) fun c => [c] := Does.tok ht ht.modes

theorem comparison_does : Exact comparison Comparison.cursors := Does.of comparison_writes comparison_modes

theorem discreteFeature_does {ν : Type} {name : List Char} {value : Prog ν} {cur : ν → List Cursor} (hv : Exact value cur) :
    Exact (discreteFeature name value) (Feature.cursors cur) := by
  unfold discreteFeature
  exactly
  · refine Exact.next hv fun v => ?_
    exactly
    simp [Feature.cursors, taken_cons _ (_ :: _), taken_cons _ (_ ++ _)]
  · simp [Feature.cursors, taken_cons _ (_ :: _)]

theorem rangedFeature_does {ν : Type} {names : List (List Char)} {legacy : List Char → Bool} {value : Prog ν} {cur : ν → List Cursor} (hv : Exact value cur) :
    Exact (rangedFeature names legacy value) (Ranged.cursors cur) := by
  unfold rangedFeature
  refine Exact.next .kind fun o => ?_
  refine Exact.look (Does.peek fun _ => rfl) fun c => ?_
  refine Exact.next (Exact.opt .keyword .keyword) fun n => ?_
  cases n with
  | some n =>
    obtain ⟨v, n⟩ := n
    exactly
    · refine Exact.next hv fun v => ?_
      exactly
      simp [Ranged.cursors, taken_cons _ (_ :: _), taken_cons _ (_ ++ _)]
    · refine Exact.next comparison_does fun v => Exact.next hv fun v => ?_
      exactly
      simp [Ranged.cursors, taken_cons _ (_ :: _), taken_cons _ (_ ++ _)]
  | none =>
    refine Exact.next hv fun v => Exact.next comparison_does fun k => ?_
    exactly
    · simp [Ranged.cursors, taken_cons _ (_ :: _), taken_cons _ (_ ++ _)]
    · refine Exact.next comparison_does fun v => Exact.next hv fun v => ?_
      exactly
      simp [Ranged.cursors, taken_cons _ (_ :: _), taken_cons _ (_ ++ _)]

theorem isCssInt_inspects : Inspects isCssInt := .pureTest (g := fun c => c.token.isKind .number && c.token.isInt)
theorem isCssFloat_inspects : Inspects isCssFloat := .pureTest (g := fun c => c.token.isKind .number && c.token.isFloat)

theorem mediaValue_does (v : MediaValue) : Exact v.parser fun c => [c] := by
  cases v
  · exact .test isLength_inspects
  · exact .test isCssInt_inspects
  · exact .test isCssFloat_inspects

theorem todoParser_does {α : Type} {P : α → List Cursor → Prop} : Does todoParser P := by
  unfold todoParser
  exact Exact.look (Does.ask fun _ => rfl) fun n => Does.ofResult fun _ e => by cases e

theorem mediaFeatureOf_does (variant : List Char) (m : MediaSpec) : Exact (mediaFeatureOf variant m) MediaFeature.cursors := by
  cases m
  · exact Exact.next (discreteFeature_does .keyword) fun f => .pure (by simp [MediaFeature.cursors])
  · exact Exact.next (discreteFeature_does .any) fun f => .pure (by simp [MediaFeature.cursors])
  · exact Exact.next (rangedFeature_does (mediaValue_does _)) fun f => .pure (by simp [MediaFeature.cursors])
  · exact todoParser_does

theorem hackFeature_does : Exact hackFeature MediaFeature.cursors := by
  unfold hackFeature
  exactly
  simp [MediaFeature.cursors, taken_cons _ (_ :: _)]

theorem mediaFeature_does : Exact mediaFeature MediaFeature.cursors := by
  unfold mediaFeature
  exactly
  · refine Does.attempt (mediaFeatureOf_does _ _) (fun r t hk h => ?_) fun r hk => ?_
    · cases r with
      | ok a => exact .pure (by simp [h a rfl])
      | error d => cases hk
    · cases r with
      | ok a => cases hk
      | error d =>
        refine Does.bind hackFeature_does.result fun r t h => ?_
        cases r with
        | ok a => exact .pure (by simp [h a rfl])
        | error _ => exact Does.ofResult fun _ e => by cases e
  all_goals exact mediaFeatureOf_does _ _

theorem ratio_does : Exact ratio Ratio.cursors := by
  unfold ratio
  refine Exact.next (.test isCssInt_inspects) fun a => Exact.next (Exact.opt .delim .delim) fun o => ?_
  refine Does.ite (fun _ => Exact.next (.test isCssInt_inspects) fun b => ?_) fun _ => ?_
  · cases o <;> exact .pure (by simp [Ratio.cursors, taken_cons _ (_ :: _)])
  · cases o <;> exact .pure (by simp [Ratio.cursors, taken_cons _ (_ :: _)])

theorem containerFeatureOf_does (c : Cursor) : Exact (containerFeatureOf c) ContainerFeature.cursors := by
  unfold containerFeatureOf
  refine Exact.look isKeyword_does fun b => Does.ite (fun _ => ?_) fun _ => ?_
  · refine Exact.look (buildKeyword_does.mono fun _ _ h => h.2) fun x => ?_
    obtain ⟨k, _⟩ := x
    refine Does.ite (fun _ => ?_) fun _ => Does.ite (fun _ => ?_) fun _ => ?_
    · exact Exact.next (rangedFeature_does ratio_does) fun f => .pure (by simp [ContainerFeature.cursors])
    · exact Exact.next (discreteFeature_does .keyword) fun f => .pure (by simp [ContainerFeature.cursors])
    · exact Exact.next (rangedFeature_does (.test isLength_inspects)) fun f => .pure (by simp [ContainerFeature.cursors])
  · exactly

theorem containerFeature_does : Exact containerFeature ContainerFeature.cursors := by
  unfold containerFeature
  exactly
  all_goals exact containerFeatureOf_does _

/-! ### Features begin with a bracket -/

theorem rewind_lexer {α : Type} {x : Prog α} {p p1 : Parser} {r : Except Diag α} {w : List Cursor} (h : Gives x p r p1 w) :
    (p1.rewind p.checkpoint).lexer = p.lexer := by
  obtain ⟨h1, h2⟩ := runLog_source x h
  simp [Parser.rewind, Parser.checkpoint, Lexer.rewind, Lexer.checkpoint, h1, h2]

theorem Spec.Bracketed.look {α φ : Type} {x : Prog α} {f : α → Prog φ} (hx : ∀ ⦃p p' r w⦄, Gives x p r p' w → p' = p) (hf : ∀ a, Bracketed (f a)) :
    Bracketed (x >>= f) := by
  intro p c s hc hw a p' h
  obtain ⟨w, hg⟩ := gives_of_run h
  obtain ⟨b, p1, w1, w2, rfl, h1, h2⟩ := step hg
  rw [hx h1] at h2
  exact hf b p c s hc hw a p' (run_of_gives h2)

theorem Spec.Bracketed.ite {φ : Type} {b : Prop} [Decidable b] {x y : Prog φ} (hx : Bracketed x) (hy : Bracketed y) : Bracketed (if b then x else y) := by
  split
  · exact hx
  · exact hy
theorem Spec.Bracketed.fail {φ : Type} {d : DiagCode} {c : Cursor} : Bracketed (Prog.fail d c : Prog φ) := by
  intro p _ s _ _ f p' h; obtain ⟨w, hg⟩ := gives_of_run h; exact not_fail hg
theorem Spec.Bracketed.panic {φ : Type} {e : Panic} : Bracketed (Prog.panic e : Prog φ) := by
  intro p _ s _ _ f p' h; obtain ⟨w, hg⟩ := gives_of_run h; exact gives_panic hg
/-- What follows a feature in brackets does not matter. -/
theorem Spec.Bracketed.bind {α φ : Type} {x : Prog α} {f : α → Prog φ} (hx : Bracketed x) : Bracketed (x >>= f) := by
  intro p c s hc hw a p' h
  obtain ⟨w, hg⟩ := gives_of_run h
  obtain ⟨b, p1, w1, w2, rfl, h1, h2⟩ := step hg
  exact hx p c s hc hw b p1 (run_of_gives h1)
theorem ask_same {α : Type} {f : Parser → Except Panic α} ⦃p p' r w⦄ (h : Gives (Prog.ask f) p r p' w) : p' = p := by
  obtain ⟨_, _, _, rfl, _⟩ := gives_ask.mp h; rfl
theorem isKeyword_same {names : List (List Char)} {c : Cursor} ⦃p p' r w⦄ (h : Gives (isKeyword names c) p r p' w) : p' = p := (isKeyword_keeps h).1
theorem buildKeyword_same {names : List (List Char)} {c : Cursor} ⦃p p' : Parser⦄ ⦃r w⦄ (h : Gives (buildKeyword names c) p r p' w) : p' = p := by
  obtain ⟨rfl, _⟩ := gives_buildKeyword.mp h; rfl

theorem bracketed_mediaFeatureOf (variant : List Char) (m : MediaSpec) : Bracketed (mediaFeatureOf variant m) := by
  cases m
  · exact Bracketed.bind bracketed_discrete
  · exact Bracketed.bind bracketed_discrete
  · exact Bracketed.bind bracketed_ranged
  · intro p c s _ _ f p' h
    obtain ⟨w, hg⟩ := gives_of_run h
    unfold mediaFeatureOf todoParser at hg
    obtain ⟨b, p1, w1, w2, rfl, h1, h2⟩ := step hg
    cases (gives_ofResult.mp h2).1

theorem discreteFeature_modes {ν : Type} {value : Prog ν} (hv : KeepsModes value) {name : List Char} : KeepsModes (discreteFeature name value) := by
  unfold discreteFeature
  keeps
theorem rangedFeature_modes {ν : Type} {value : Prog ν} (hv : KeepsModes value) {names : List (List Char)} {legacy : List Char → Bool} :
    KeepsModes (rangedFeature names legacy value) := by
  have h1 := @isKeyword_modes
  have h2 := @keyword_modes
  have h3 := comparison_modes
  unfold rangedFeature
  keeps <;> first | exact h1 _ | exact h2

theorem mediaFeatureOf_modes (variant : List Char) (m : MediaSpec) : KeepsModes (mediaFeatureOf variant m) := by
  cases m with
  | discrete name keys => exact .bind (discreteFeature_modes keyword_modes) fun _ => .pure
  | boolean name => exact .bind (discreteFeature_modes any_modes) fun _ => .pure
  | ranged v names legacy =>
    refine .bind (rangedFeature_modes ?_) fun _ => .pure
    cases v
    · exact .tok isLength_inspects.modes
    · exact .tok isCssInt_inspects.modes
    · exact .tok isCssFloat_inspects.modes
  | todo => exact .bind .ask fun _ => .ofResult

theorem bracketed_hack : Bracketed hackFeature := bracketed_of_leftParen

theorem bracketed_mediaFeature : Bracketed mediaFeature := by
  unfold mediaFeature
  refine Bracketed.look ask_same fun c => Bracketed.ite ?_ ?_
  · refine Bracketed.look ask_same fun s => ?_
    split
    · exact .fail
    · rename_i variant m _
      intro p c s hc hw f p' h
      obtain ⟨w, hg⟩ := gives_of_run h
      obtain ⟨r1, p1, w1, w2, h1, ⟨h, rfl, h2⟩ | ⟨h, rfl, h2⟩⟩ := gives_attempt.mp hg
      · cases r1 with
        | ok a => exact bracketed_mediaFeatureOf _ _ p c s hc hw a p1 (run_of_gives h1)
        | error d => cases h
      · cases r1 with
        | ok a => cases h
        | error d =>
          obtain ⟨r3, p3, w3, w4, rfl, h3, h4⟩ := step h2
          obtain ⟨r5, h5, e⟩ := gives_result.mp h3
          cases e
          cases r3 with
          | error e => cases (gives_ofResult.mp h4).1
          | ok b =>
            have hl := rewind_lexer h1
            have hs : (p1.rewind p.checkpoint).skip = p.skip := by
              have := mediaFeatureOf_modes _ _ h1
              simp only [modes, Prod.mk.injEq] at this
              exact this.1
            refine bracketed_hack (p1.rewind p.checkpoint) c s ?_ ?_ b p3 (run_of_gives h5)
            · unfold Parser.peekNext at hc ⊢; rw [hl, hs]; exact hc
            · rw [hl]; exact hw
  · refine Bracketed.look ask_same fun c4 => ?_
    have key : ∀ c : Cursor, Bracketed (if (!c.token.isKind .ident) = true then do
        let c ← any
        fail .unexpected c
      else do
        let s ← strLower c
        match mediaSpec s with
        | none => fail .unexpectedIdent c
        | some (variant, spec) => mediaFeatureOf variant spec) := by
      intro c
      refine Bracketed.ite ?_ ?_
      · intro p _ s _ _ f p' h
        obtain ⟨w, hg⟩ := gives_of_run h
        obtain ⟨b, p1, w1, w2, rfl, h1, h2⟩ := step hg
        exact not_fail h2
      · refine Bracketed.look ask_same fun s => ?_
        split
        · exact .fail
        · exact bracketed_mediaFeatureOf _ _
    dsimp only
    split
    · exact Bracketed.look (fun _ _ _ _ h => (gives_pure.mp h).2.1) key
    · exact Bracketed.look ask_same key

theorem bracketed_containerFeatureOf (c : Cursor) : Bracketed (containerFeatureOf c) := by
  unfold containerFeatureOf
  refine Bracketed.look isKeyword_same fun b => Bracketed.ite ?_ ?_
  · refine Bracketed.look buildKeyword_same fun x => ?_
    obtain ⟨k, _⟩ := x
    refine Bracketed.ite ?_ (Bracketed.ite ?_ ?_)
    · exact Bracketed.bind bracketed_ranged
    · exact Bracketed.bind bracketed_discrete
    · exact Bracketed.bind bracketed_ranged
  · exact Bracketed.look ask_same fun _ => .fail

theorem bracketed_containerFeature : Bracketed containerFeature := by
  unfold containerFeature
  refine Bracketed.look ask_same fun c => Bracketed.ite .panic (Bracketed.look ask_same fun c2 => Bracketed.ite (bracketed_containerFeatureOf _) ?_)
  refine Bracketed.look ask_same fun c3 => ?_
  dsimp only
  split
  · exact Bracketed.look (fun _ _ _ _ h => (gives_pure.mp h).2.1) bracketed_containerFeatureOf
  · exact Bracketed.look ask_same bracketed_containerFeatureOf

end Hdx

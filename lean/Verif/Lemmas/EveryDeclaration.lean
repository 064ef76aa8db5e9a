/-
What holds of every declaration that can be parsed holds of every declaration in a style sheet.
-/
import Verif.Spec.Declarations
import Verif.Props.SelectorLabels
import Verif.Props.Parser

namespace Hdx
open Spec Prog

variable {τ : Type} {V : Values τ} {src : List Char} {f : Features} {Q : Decl (StyleValue τ) → Prop}

/-- The parser has come here from the beginning of the source. -/
def Reached (src : List Char) (f : Features) (p : Parser) : Prop := utf8Len src < 65536 ∧ ∃ w, Moved (Parser.newWithFeatures src f) p w

theorem Reached.source {p : Parser} (h : Reached src f p) : p.lexer.source = src := by obtain ⟨_, w, m⟩ := h; exact m.source
theorem Reached.new (h : utf8Len src < 65536) : Reached src f (Parser.newWithFeatures src f) := ⟨h, [], .refl _⟩
theorem Reached.moved {p p' : Parser} {α : Type} {x : Prog α} {r : Except Diag α} {w : List Cursor} (h : Reached src f p) (hg : Gives x p r p' w) : Moved p p' w := by
  obtain ⟨hs, v, m⟩ := h
  refine Prog.runLog_moved x ?_ ?_ (m.fits (by simp [Fits, Parser.newWithFeatures])) hg
  · rw [m.errors]; simp [Parser.newWithFeatures]
  · rw [m.source]; exact hs
theorem Reached.run {p p' : Parser} {α : Type} {x : Prog α} {r : Except Diag α} {w : List Cursor} (h : Reached src f p) (hg : Gives x p r p' w) : Reached src f p' := by
  have m' := h.moved hg
  obtain ⟨hs, v, m⟩ := h
  exact ⟨hs, _, m.trans m'⟩
theorem Reached.back {p p' : Parser} {α : Type} {x : Prog α} {r : Except Diag α} {w : List Cursor} (h : Reached src f p) (hg : Gives x p r p' w) :
    Reached src f (p'.rewind p.checkpoint) := by
  have m' := h.moved hg
  obtain ⟨hs, v, m⟩ := h
  have hf := m.fits (by simp [Fits, Parser.newWithFeatures])
  rw [m'.rewind (by rw [m.errors]; simp [Parser.newWithFeatures]) (by have := hf.2; rw [m.source] at this; simp [Parser.newWithFeatures, Lexer.newWithFeatures] at this; omega)]
  exact ⟨hs, v, m.source, m.features, m.errors, m.tokens, m.fits⟩

/-- Something that stays so whatever is parsed. -/
class Stable (I : Parser → Prop) : Prop where
  run {p p' : Parser} {α : Type} {x : Prog α} {r : Except Diag α} {w : List Cursor} : I p → Gives x p r p' w → I p'
  back {p p' : Parser} {α : Type} {x : Prog α} {r : Except Diag α} {w : List Cursor} : I p → Gives x p r p' w → I (p'.rewind p.checkpoint)
  modes {p : Parser} (skip stop : KindSet) (nested : Bool) : I p → I { p with skip := skip, stop := stop, nested := nested }

instance : Stable (Reached src f) where
  run h hg := h.run hg
  back h hg := h.back hg
  modes _ _ _ h := ⟨h.1, h.2.imp fun _ m => ⟨m.source, m.features, m.errors, m.tokens, m.fits⟩⟩

instance : Stable (fun p => p.lexer.source = src) where
  run h hg := (runLog_source _ hg).1.trans h
  back h hg := (runLog_source _ hg).1.trans h
  modes _ _ _ h := h

/-- Every successful run of `x` where `I` is so gives a result in `P`. -/
def Runs {α : Type} (I : Parser → Prop) (x : Prog α) (P : α → Prop) : Prop := ∀ ⦃p : Parser⦄, I p → Succ x p fun a _ _ => P a

variable {I : Parser → Prop} [Stable I]

namespace Runs
variable {α β ρ δ φ : Type} {P : α → Prop} {R : ρ → Prop} {D : δ → Prop} {F : φ → Prop}

theorem pure {a : α} (h : P a) : Runs I (Pure.pure a) P := fun _ _ => Succ.pure h
theorem fail {d : DiagCode} {c : Cursor} : Runs I (Prog.fail d c : Prog α) P := fun _ _ => Succ.fail
theorem panic {e : Panic} : Runs I (Prog.panic e : Prog α) P := fun _ _ => Succ.panic
theorem bind {R : β → Prop} {x : Prog α} {g : α → Prog β} (hx : Runs I x P) (hf : ∀ a, P a → Runs I (g a) R) : Runs I (x >>= g) R := by
  intro p hp b p' w hg
  obtain ⟨a, p1, w1, w2, h1, h2, rfl⟩ := gives_bind_ok.mp hg
  exact hf a (hx hp h1) (Stable.run hp h1) h2
theorem any (x : Prog α) : Runs I x fun _ => True := fun _ _ _ _ _ _ => trivial
theorem then_ {R : β → Prop} {x : Prog α} {g : α → Prog β} (hf : ∀ a, Runs I (g a) R) : Runs I (x >>= g) R := bind (any x) fun a _ => hf a
theorem ite {b : Prop} [Decidable b] {x y : Prog α} (hx : b → Runs I x P) (hy : ¬ b → Runs I y P) : Runs I (if b then x else y) P :=
  fun _ hp => Succ.ite (fun h => hx h hp) (fun h => hy h hp)
theorem mono {P' : α → Prop} {x : Prog α} (h : Runs I x P) (hi : ∀ a, P a → P' a) : Runs I x P' := fun _ hp _ _ _ hg => hi _ (h hp hg)
theorem setSkip {s : KindSet} {k : KindSet → Prog α} (h : ∀ o, Runs I (k o) P) : Runs I (Prog.setSkip s k) P :=
  fun p hp _ _ _ hg => h p.skip (p := { p with skip := s }) (Stable.modes _ _ _ hp) hg
theorem result {x : Prog α} (h : Runs I x P) : Runs I (Prog.result x) fun r => ∀ a, r = .ok a → P a := by
  intro p hp r p' w hg
  obtain ⟨r1, h1, e⟩ := gives_result.mp hg
  cases e
  rintro a rfl
  exact h hp h1
theorem ofResult {r : Except Diag α} (h : ∀ a, r = .ok a → P a) : Runs I (Prog.ofResult r) P := fun _ _ => Succ.ofResult h
theorem ifPeek {test : Cursor → Prog Bool} {x : Prog α} (hx : Runs I x P) : Runs I (Prog.ifPeek test x) fun o => ∀ a ∈ o, P a := by
  intro p hp o p' w hg
  obtain ⟨c, b, p1, w1, w2, hc, h1, rfl, ⟨rfl, a, rfl, hb⟩ | ⟨rfl, rfl, rfl, rfl⟩⟩ := gives_ifPeek.mp hg
  · rintro a' ⟨⟩
    exact hx (Stable.run hp h1) hb
  · rintro a' ⟨⟩
theorem attempt {R : β → Prop} {body : Prog β} {keep : Except Diag β → Bool} {k : Except Diag β → Prog α} (hb : Runs I body R)
    (hk : ∀ r, (∀ b, r = .ok b → R b) → Runs I (k r) P) : Runs I (Prog.attempt body keep k) P := by
  intro p hp
  refine Succ.attempt fun r p1 w1 h1 => ?_
  have hr : ∀ b, r = .ok b → R b := by rintro b rfl; exact hb hp h1
  exact ⟨fun _ => hk r hr (Stable.run hp h1), fun _ => hk r hr (Stable.back hp h1)⟩
theorem tryParse {x : Prog α} (h : Runs I x P) : Runs I (Prog.tryParse x) P := attempt h fun _ hr => ofResult hr
theorem setState {s : Bool} {k : Bool → Prog α} (h : ∀ o, Runs I (k o) P) : Runs I (Prog.setState s k) P :=
  fun p hp _ _ _ hg => h p.nested (p := { p with nested := s }) (Stable.modes _ _ _ hp) hg
theorem setStop {s : KindSet} {k : KindSet → Prog α} (h : ∀ o, Runs I (k o) P) : Runs I (Prog.setStop s k) P :=
  fun p hp _ _ _ hg => h p.stop (p := { p with stop := s }) (Stable.modes _ _ _ hp) hg
theorem read {k : Parser → Prog α} (h : ∀ p, Runs I (k p) P) : Runs I (Prog.read k) P := fun p hp _ _ _ hg => h p hp hg

theorem ruleListLoop {item : Prog ρ} (h : Runs I item R) : ∀ n items, (∀ r ∈ items, R r) → Runs I (Hdx.ruleListLoop item n items) fun x => ∀ r ∈ x.1, R r
  | 0, _, _ => .panic
  | n + 1, items, hi => by
    unfold Hdx.ruleListLoop
    refine then_ fun _ => then_ fun _ => ite (fun _ => .pure hi) fun _ => then_ fun _ => ite (fun _ => then_ fun _ => .pure hi) fun _ => ?_
    refine bind h fun r hr => ruleListLoop h n _ ?_
    intro x hx
    rcases List.mem_append.mp hx with hx | hx
    · exact hi x hx
    · rw [List.mem_singleton.mp hx]; exact hr
theorem ruleList {item : Prog ρ} (h : Runs I item R) (n : Nat) : Runs I (Hdx.ruleList item n) fun b => ∀ r ∈ b.items, R r := by
  unfold Hdx.ruleList
  exact then_ fun _ => bind (ruleListLoop h n [] nofun) fun ⟨items, close⟩ hx => .pure hx

theorem declarationListLoop {item : Prog δ} (h : Runs I item D) : ∀ n items, (∀ r ∈ items, D r.1) → Runs I (Hdx.declarationListLoop item n items) fun x => ∀ r ∈ x.1, D r.1
  | 0, _, _ => .panic
  | n + 1, items, hi => by
    unfold Hdx.declarationListLoop
    refine then_ fun _ => ite (fun _ => .pure hi) fun _ => then_ fun _ => ite (fun _ => then_ fun _ => .pure hi) fun _ => ?_
    refine bind h fun r hr => then_ fun _ => declarationListLoop h n _ ?_
    intro x hx
    rcases List.mem_append.mp hx with hx | hx
    · exact hi x hx
    · rw [List.mem_singleton.mp hx]; exact hr
theorem declarationList {item : Prog δ} (h : Runs I item D) (n : Nat) : Runs I (Hdx.declarationList item n) fun b => ∀ r ∈ b.items, D r.1 := by
  unfold Hdx.declarationList
  exact then_ fun _ => bind (declarationListLoop h n [] nofun) fun ⟨items, close⟩ hx => .pure hx

theorem declarationRuleListLoop {decl : Prog δ} {rule : Prog ρ} (hd : Runs I decl D) (hr : Runs I rule R) : ∀ n ds rs, (∀ d ∈ ds, D d.1) → (∀ r ∈ rs, R r) →
    Runs I (Hdx.declarationRuleListLoop decl rule n ds rs) fun x => (∀ d ∈ x.1.1, D d.1) ∧ ∀ r ∈ x.1.2, R r
  | 0, _, _, _, _ => .panic
  | n + 1, ds, rs, h1, h2 => by
    unfold Hdx.declarationRuleListLoop
    refine then_ fun _ => ite (fun _ => .pure ⟨h1, h2⟩) fun _ => then_ fun _ => ite (fun _ => then_ fun _ => .pure ⟨h1, h2⟩) fun _ =>
      ite (fun _ => bind hr fun r hr' => declarationRuleListLoop hd hr n _ _ h1 ?_) fun _ =>
      ite (fun _ => bind hd fun d hd' => then_ fun _ => declarationRuleListLoop hd hr n _ _ ?_ h2) fun _ => then_ fun _ => .fail
    · intro x hx
      rcases List.mem_append.mp hx with hx | hx
      · exact h2 x hx
      · rw [List.mem_singleton.mp hx]; exact hr'
    · intro x hx
      rcases List.mem_append.mp hx with hx | hx
      · exact h1 x hx
      · rw [List.mem_singleton.mp hx]; exact hd'
theorem declarationRuleList {decl : Prog δ} {rule : Prog ρ} (hd : Runs I decl D) (hr : Runs I rule R) (n : Nat) :
    Runs I (Hdx.declarationRuleList decl rule n) fun b => (∀ d ∈ b.declarations, D d.1) ∧ ∀ r ∈ b.rules, R r := by
  unfold Hdx.declarationRuleList
  exact then_ fun _ => bind (declarationRuleListLoop hd hr n [] [] nofun nofun) fun ⟨⟨ds, rs⟩, close⟩ hx => .pure hx

theorem blockLoop {isDecl : Cursor → Prog Bool} {decl : Prog δ} {rule : Prog ρ} (hd : Runs I decl D) (hr : Runs I rule R) : ∀ n ds rs, (∀ d ∈ ds, D d.1) → (∀ r ∈ rs, R r) →
    Runs I (Hdx.blockLoop isDecl decl rule n ds rs) fun x => (∀ d ∈ x.1, D d.1) ∧ ∀ r ∈ x.2, R r
  | 0, _, _, _, _ => .panic
  | n + 1, ds, rs, h1, h2 => by
    have more : ∀ old, Runs I (do
        let r ← Prog.result rule
        Prog.setState old fun _ => do
          let r ← Prog.ofResult r
          Hdx.blockLoop isDecl decl rule n ds (rs ++ [r])) fun x => (∀ d ∈ x.1, D d.1) ∧ ∀ r ∈ x.2, R r := by
      intro old
      refine bind (result hr) fun r hr' => setState fun _ => bind (ofResult hr') fun r hr' => blockLoop hd hr n _ _ h1 ?_
      intro x hx
      rcases List.mem_append.mp hx with hx | hx
      · exact h2 x hx
      · rw [List.mem_singleton.mp hx]; exact hr'
    unfold Hdx.blockLoop
    refine then_ fun _ => ite (fun _ => blockLoop hd hr n _ _ h1 h2) fun _ => then_ fun _ => ite (fun _ => blockLoop hd hr n _ _ h1 h2) fun _ => then_ fun _ =>
      ite (fun _ => .pure ⟨h1, h2⟩) fun _ => then_ fun _ => ite (fun _ => .pure ⟨h1, h2⟩) fun _ => setState fun old => then_ fun _ =>
      ite (fun _ => more old) fun _ => bind (result (ifPeek (tryParse hd))) fun d hd' => ?_
    match d with
    | .ok (some d) =>
      refine setState fun _ => then_ fun _ => blockLoop hd hr n _ _ ?_ h2
      intro x hx
      rcases List.mem_append.mp hx with hx | hx
      · exact h1 x hx
      · rw [List.mem_singleton.mp hx]; exact hd' _ rfl d rfl
    | .ok none => exact more old
    | .error _ => exact more old
theorem blockOf {isDecl : Cursor → Prog Bool} {decl : Prog δ} {rule : Prog ρ} (hd : Runs I decl D) (hr : Runs I rule R) (n : Nat) :
    Runs I (Hdx.blockOf isDecl decl rule n) fun b => (∀ d ∈ b.declarations, D d.1) ∧ ∀ r ∈ b.rules, R r := by
  unfold Hdx.blockOf
  exact then_ fun _ => bind (blockLoop hd hr n [] [] nofun nofun) fun ⟨ds, rs⟩ hx => then_ fun _ => .pure hx

theorem atRule {name : Option (List Char)} {prelude : Prog α} {block : Prog β} {B : β → Prop} (hp : Runs I prelude P) (hb : Runs I block B) :
    Runs I (Hdx.atRule name prelude block) fun x => (∀ a ∈ x.2.1, P a) ∧ B x.2.2 := by
  unfold Hdx.atRule
  refine then_ fun at' => ?_
  have rest : ∀ (ok : Bool), Runs I (if (!ok) = true then Prog.fail .other at' else (do
      let c ← Prog.peek
      let e ← Prog.atEnd
      let pre ← if e || c.token.inSet KindSet.LEFT_CURLY_OR_SEMICOLON then Pure.pure none else do
        let a ← prelude
        Pure.pure (some a)
      let b ← block
      Pure.pure (at', pre, b))) fun x => (∀ a ∈ x.2.1, P a) ∧ B x.2.2 := by
    intro ok
    refine ite (fun _ => .fail) fun _ => then_ fun _ => then_ fun _ => ?_
    refine ite (fun _ => bind (P := fun o => o = none) (.pure rfl) fun o ho => bind hb fun b hb => .pure ⟨?_, hb⟩) fun _ =>
      bind hp fun a ha => bind (P := fun o => o = some a) (.pure rfl) fun o ho => bind hb fun b hb => .pure ⟨?_, hb⟩
    · subst ho; nofun
    · subst ho
      intro x hx
      cases hx
      exact ha
  cases name with
  | none => exact rest true
  | some n => exact then_ rest
theorem qualifiedRule {γ : Type} {prelude : Prog α} {block : Prog β} {bad : Prog γ} {B : β → Prop} (hp : Runs I prelude P) (hb : Runs I block B) :
    Runs I (Hdx.qualifiedRule prelude block bad) fun x => P x.1 ∧ B x.2 := by
  unfold Hdx.qualifiedRule
  refine then_ fun _ => ite (fun _ => .ofResult nofun) fun _ => then_ fun _ => then_ fun _ => ite (fun _ => then_ fun _ => .fail) fun _ => then_ fun c =>
    attempt (any _) fun lead _ => then_ fun l => ?_
  have rest : Runs I (Prog.setStop (KindSet.new [.leftCurly]) fun old => do
      let prelude ← Prog.result prelude
      Prog.setStop old fun _ => do
        let prelude ← Prog.ofResult prelude
        let block ← block
        Pure.pure (prelude, block)) fun x => P x.1 ∧ B x.2 :=
    setStop fun _ => bind (result hp) fun _ h => setStop fun _ => bind (ofResult h) fun _ h => bind hb fun _ h' => .pure ⟨h, h'⟩
  cases l
  case dashedColonNested => exact then_ fun _ => .fail
  case dashedColon => exact then_ fun _ => .fail
  all_goals exact rest

theorem conditionLoop {feature : Prog φ} (h : Runs I feature F) : ∀ n fs fe kw, (∀ x ∈ fs, F x.1) → F fe → Runs I (Hdx.conditionLoop feature n fs fe kw) fun r => ∀ x ∈ r, F x.1
  | 0, _, _, _, _, _ => .panic
  | n + 1, fs, fe, kw, h1, h2 => by
    unfold Hdx.conditionLoop
    have add : ∀ {fs : List (φ × Option Cursor)} {f : φ} {o : Option Cursor}, (∀ x ∈ fs, F x.1) → F f → ∀ x ∈ fs ++ [(f, o)], F x.1 := by
      intro fs f o h1 h2 x hx
      rcases List.mem_append.mp hx with hx | hx
      · exact h1 x hx
      · rw [List.mem_singleton.mp hx]; exact h2
    refine bind h fun g hg => then_ fun c => then_ fun b => ite (fun _ => then_ fun v => ite (fun _ => conditionLoop h n _ _ _ (add h1 h2) hg) fun _ => ?_) fun _ => ?_
    · exact .pure (add (add h1 h2) hg)
    · exact .pure (add (add h1 h2) hg)
theorem condition {feature : Prog φ} (h : Runs I feature F) (n : Nat) : Runs I (Hdx.condition feature n) fun c => ∀ f ∈ featuresOf c, F f := by
  have one : ∀ {f : φ} {c : Condition φ}, F f → featuresOf c = [f] → ∀ x ∈ featuresOf c, F x := by
    intro f c hf e x hx
    rw [e] at hx
    rw [List.mem_singleton.mp hx]; exact hf
  have all : ∀ {fs : List (φ × Option Cursor)} {c : Condition φ}, (∀ x ∈ fs, F x.1) → featuresOf c = fs.map (·.1) → ∀ x ∈ featuresOf c, F x := by
    intro fs c hf e x hx
    rw [e] at hx
    obtain ⟨y, hy, rfl⟩ := List.mem_map.mp hx
    exact hf y hy
  unfold Hdx.condition
  refine then_ fun c => then_ fun b => ite (fun _ => then_ fun v => ite (fun _ => bind h fun f hf => .pure (one hf rfl)) fun _ => .fail) fun _ => bind h fun f hf => then_ fun kw => ?_
  match kw with
  | none => exact .pure (one hf rfl)
  | some (variant, kw) =>
    refine ite (fun _ => bind (conditionLoop h n _ _ _ nofun hf) fun fs hfs => .pure (all hfs rfl)) fun _ =>
      ite (fun _ => bind (conditionLoop h n _ _ _ nofun hf) fun fs hfs => .pure (all hfs rfl)) fun _ => bind h fun g hg => .pure (one hg rfl)

end Runs

/-! ### Rules -/

/-- Every declaration that can be parsed is in `Q`. -/
def EachDeclaration (I : Parser → Prop) (V : Values τ) (Q : Decl (StyleValue τ) → Prop) : Prop :=
  ∀ valid, Inspects valid → ∀ n, Runs I (declarationOf valid (styleValue V n)) Q

theorem mem_declarationsOf {rs : List (CssRule τ)} (h : ∀ r ∈ rs, ∀ d ∈ declarations r, Q d) : ∀ d ∈ declarationsOf rs, Q d := by
  induction rs with
  | nil => nofun
  | cons r rs ih =>
    intro d hd
    rw [declarationsOf] at hd
    rcases List.mem_append.mp hd with hd | hd
    · exact h r (.head _) d hd
    · exact ih (fun r hr => h r (.tail _ hr)) d hd

section
variable (hq : EachDeclaration I V Q)
include hq

theorem property_each (n : Nat) : Runs I (property V n) Q := hq _ (.pureTest (g := fun _ => true)) n
theorem keyframe_each (n : Nat) : Runs I (keyframe V n) fun k => ∀ d ∈ k.block.items, Q d.1 := by
  unfold keyframe
  exact Runs.bind (Runs.qualifiedRule (.any _) (Runs.declarationList (property_each hq n) n)) fun ⟨_, b⟩ h => .pure h.2
theorem marginRule_each (n : Nat) : Runs I (marginRule V n) fun k => ∀ d ∈ k.block.items, Q d.1 := by
  unfold marginRule
  exact Runs.bind (Runs.atRule (.any _) (Runs.declarationList (property_each hq n) n)) fun ⟨_, _, b⟩ h => Runs.then_ fun _ => Runs.ite (fun _ => .pure h.2) fun _ =>
    Runs.then_ fun _ => .fail
theorem supportsFeature_each (n : Nat) : Runs I (supportsFeature V n) fun f => ∀ d ∈ supportsDeclarations f, Q d := by
  unfold supportsFeature
  refine Runs.then_ fun o => Runs.then_ fun c => Runs.ite (fun _ => Runs.then_ fun k => Runs.ite (fun _ => Runs.then_ fun _ => Runs.then_ fun _ =>
    Runs.ite (fun _ => Runs.then_ fun _ => .pure nofun) fun _ => .pure nofun) fun _ => .panic) fun _ => ?_
  cases o with
  | none => exact Runs.then_ fun _ => .fail
  | some o =>
    refine Runs.bind (property_each hq n) fun d hd => Runs.then_ fun _ => .pure fun x hx => ?_
    rw [supportsDeclarations, List.mem_singleton] at hx
    rw [hx]; exact hd
theorem supportsCondition_each (n : Nat) : Runs I (supportsCondition V n) fun c => ∀ f ∈ featuresOf c, ∀ d ∈ supportsDeclarations f, Q d := by
  unfold supportsCondition
  refine Runs.then_ fun _ => Runs.ite (fun _ => Runs.bind (supportsFeature_each hq n) fun f hf => .pure fun x hx => ?_) fun _ => Runs.condition (supportsFeature_each hq n) n
  rw [featuresOf, List.mem_singleton] at hx
  rw [hx]; exact hf

omit hq in
theorem pairs_each {ds : List (Decl (StyleValue τ) × Option Cursor)} (h : ∀ d ∈ ds, Q d.1) : ∀ d ∈ ds.map (·.1), Q d := by
  intro d hd
  obtain ⟨x, hx, rfl⟩ := List.mem_map.mp hd
  exact h x hx

theorem knownAtRule_each {rule : Prog (CssRule τ)} (hr : Runs I rule fun r => ∀ d ∈ declarations r, Q d) (n : Nat) (nested : Bool) (name : List Char) :
    ∀ x, knownAtRule V rule n nested name = some x → Runs I x fun r => ∀ d ∈ declarations r, Q d := by
  have pick : ∀ {b : Prop} [Decidable b] {x : Prog (CssRule τ)} {y : Option (Prog (CssRule τ))}, (Runs I x fun r => ∀ d ∈ declarations r, Q d) →
      (∀ z, y = some z → Runs I z fun r => ∀ d ∈ declarations r, Q d) → ∀ z, (if b then some x else y) = some z → Runs I z fun r => ∀ d ∈ declarations r, Q d := by
    intro b _ x y hx hy z e
    split at e
    · cases e; exact hx
    · exact hy z e
  have drop : ∀ {b : Prop} [Decidable b] {y : Option (Prog (CssRule τ))},
      (∀ z, y = some z → Runs I z fun r => ∀ d ∈ declarations r, Q d) → ∀ z, (if b then none else y) = some z → Runs I z fun r => ∀ d ∈ declarations r, Q d := by
    intro b _ y hy z e
    split at e
    · cases e
    · exact hy z e
  have todo : Runs I (todoParser : Prog (CssRule τ)) fun r => ∀ d ∈ declarations r, Q d := Runs.then_ fun _ => .ofResult nofun
  have miss : ∀ {s : Nat}, Runs I (missingPrelude s : Prog (CssRule τ)) fun r => ∀ d ∈ declarations r, Q d := fun {_} => Runs.then_ fun _ => .ofResult nofun
  have container : Runs I (containerRule rule n) fun r => ∀ d ∈ declarations r, Q d := by
    unfold containerRule
    refine Runs.then_ fun s => Runs.bind (Runs.atRule (.any _) (Runs.ruleList hr n)) fun ⟨a, q, b⟩ h => ?_
    cases q with
    | none => exact miss
    | some q => exact .pure (by rw [declarations]; exact mem_declarationsOf h.2)
  have layer : Runs I (layerRule rule n) fun r => ∀ d ∈ declarations r, Q d := by
    unfold layerRule
    refine Runs.bind (Runs.atRule (.any _) (B := fun b => ∀ l, b = .inr l → ∀ r ∈ l.items, ∀ d ∈ declarations r, Q d) ?_) fun ⟨a, q, b⟩ h => ?_
    · unfold layerBlock
      refine Runs.then_ fun o => ?_
      cases o with
      | some s => exact .pure nofun
      | none => exact Runs.bind (Runs.ruleList hr n) fun b hb => .pure fun l e => by cases e; exact hb
    · match b, q with
      | .inl s, q => exact .pure nofun
      | .inr b, none => exact .pure (by rw [declarations]; exact mem_declarationsOf (h.2 b rfl))
      | .inr b, some [] => exact .pure (by rw [declarations]; exact mem_declarationsOf (h.2 b rfl))
      | .inr b, some [x] => exact .pure (by rw [declarations]; exact mem_declarationsOf (h.2 b rfl))
      | .inr b, some ((f, _) :: _ :: _) => exact .fail
  have media : Runs I (mediaRule V rule n) fun r => ∀ d ∈ declarations r, Q d := by
    unfold mediaRule
    refine Runs.then_ fun s => Runs.bind (Runs.atRule (.any _) (Runs.blockOf (property_each hq n) hr n)) fun ⟨a, q, b⟩ h => ?_
    cases q with
    | none => exact miss
    | some q =>
      refine .pure fun d hd => ?_
      rw [declarations] at hd
      rcases List.mem_append.mp hd with hd | hd
      · exact pairs_each h.2.1 d hd
      · exact mem_declarationsOf h.2.2 d hd
  have supports : Runs I (supportsRule V rule n) fun r => ∀ d ∈ declarations r, Q d := by
    unfold supportsRule
    refine Runs.then_ fun s => Runs.bind (Runs.atRule (supportsCondition_each hq n) (Runs.ruleList hr n)) fun ⟨a, q, b⟩ h => ?_
    cases q with
    | none => exact miss
    | some q =>
      refine .pure fun d hd => ?_
      rw [declarations] at hd
      rcases List.mem_append.mp hd with hd | hd
      · obtain ⟨f, hf, hd⟩ := List.mem_flatMap.mp hd
        exact h.1 q rfl f hf d hd
      · exact mem_declarationsOf h.2 d hd
  have charset : Runs I (charsetRule : Prog (CssRule τ)) fun r => ∀ d ∈ declarations r, Q d := by
    unfold charsetRule
    refine Runs.then_ fun a => Runs.then_ fun b => Runs.ite (fun _ => Runs.then_ fun _ => .fail) fun _ => Runs.then_ fun _ => Runs.then_ fun _ => Runs.then_ fun _ => .pure nofun
  have fontFace : Runs I (fontFaceRule V n) fun r => ∀ d ∈ declarations r, Q d := by
    unfold fontFaceRule
    exact Runs.bind (Runs.atRule (.any _) (Runs.ruleList (hq _ .keyword n) n)) fun ⟨a, q, b⟩ h => .pure (by rw [declarations]; exact h.2)
  have frames : ∀ {b : ListBlock (Keyframe τ)}, (∀ k ∈ b.items, ∀ d ∈ k.block.items, Q d.1) → ∀ d ∈ b.items.flatMap fun k => k.block.items.map (·.1), Q d := by
    intro b h d hd
    obtain ⟨k, hk, hd⟩ := List.mem_flatMap.mp hd
    exact pairs_each (h k hk) d hd
  have keyframes : Runs I (keyframesRule V n) fun r => ∀ d ∈ declarations r, Q d := by
    unfold keyframesRule
    exact Runs.bind (Runs.atRule (.any _) (Runs.ruleList (keyframe_each hq n) n)) fun ⟨a, q, b⟩ h => .pure (by rw [declarations]; exact frames h.2)
  have webkit : Runs I (webkitKeyframesRule V n) fun r => ∀ d ∈ declarations r, Q d := by
    unfold webkitKeyframesRule
    refine Runs.then_ fun s => Runs.bind (Runs.atRule (.any _) (Runs.ruleList (keyframe_each hq n) n)) fun ⟨a, q, b⟩ h => ?_
    cases q with
    | none => exact miss
    | some q => exact .pure (by rw [declarations]; exact frames h.2)
  have page : Runs I (pageRule V n) fun r => ∀ d ∈ declarations r, Q d := by
    unfold pageRule
    refine Runs.bind (Runs.atRule (.any _) (Runs.declarationRuleList (property_each hq n) (marginRule_each hq n) n)) fun ⟨a, q, b⟩ h => .pure fun d hd => ?_
    rw [declarations] at hd
    rcases List.mem_append.mp hd with hd | hd
    · exact pairs_each h.2.1 d hd
    · obtain ⟨k, hk, hd⟩ := List.mem_flatMap.mp hd
      exact pairs_each (h.2.2 k hk) d hd
  have prop : Runs I (propertyRule n : Prog (CssRule τ)) fun r => ∀ d ∈ declarations r, Q d := by
    unfold propertyRule
    refine Runs.then_ fun ⟨a, q, b⟩ => ?_
    cases q with
    | none => exact .fail
    | some q => exact .pure nofun
  have document : ∀ moz, Runs I (documentRule moz rule n) fun r => ∀ d ∈ declarations r, Q d := by
    intro moz
    unfold documentRule
    refine Runs.bind (Runs.atRule (.any _) (Runs.ruleList hr n)) fun ⟨a, q, b⟩ h => ?_
    cases q with
    | none => exact .fail
    | some q => exact .pure (by rw [declarations]; exact mem_declarationsOf h.2)
  unfold knownAtRule
  refine pick container <| pick layer <| pick media <| pick todo <| pick supports <| drop <| pick charset <| pick todo <| pick todo <| pick fontFace <| pick todo <|
    pick todo <| pick todo <| pick keyframes <| pick todo <| pick page <| pick prop <| pick todo <| pick (document _) <| pick webkit <| pick (document _) nofun

theorem cssRule_each : ∀ n nested, Runs I (cssRule V n nested) fun r => ∀ d ∈ declarations r, Q d
  | 0, _ => .panic
  | n + 1, nested => by
    have unknownAt : ∀ {g : Prog Rule} {m : Nat}, Runs I (unknownAtRule g m : Prog (CssRule τ)) fun r => ∀ d ∈ declarations r, Q d := fun {_ _} => Runs.then_ fun _ => .pure nofun
    have unknown : ∀ {g : Prog Rule} {m : Nat}, Runs I (unknownQualifiedRule g m : Prog (CssRule τ)) fun r => ∀ d ∈ declarations r, Q d := fun {_ _} => Runs.then_ fun _ => .pure nofun
    have bad : ∀ {m : Nat}, Runs I (badRule m : Prog (CssRule τ)) fun r => ∀ d ∈ declarations r, Q d := fun {_} =>
      Runs.setState fun _ => Runs.then_ fun _ => Runs.setState fun _ => Runs.then_ fun _ => .pure nofun
    unfold cssRule
    refine Runs.then_ fun _ => Runs.ite (fun _ => ?_) fun _ => ?_
    · unfold atCssRule
      refine Runs.then_ fun _ => Runs.then_ fun s => ?_
      split
      · exact unknownAt
      · next x hx =>
        refine Runs.attempt (knownAtRule_each hq (cssRule_each n false) _ _ _ x hx) fun r h => ?_
        cases r with
        | ok r => exact .pure (h r rfl)
        | error _ => exact unknownAt
    · unfold qualifiedCssRule
      refine Runs.attempt (R := fun r => ∀ d ∈ declarations r, Q d) ?_ fun r h => ?_
      · unfold styleRule
        refine Runs.bind (Runs.qualifiedRule (.any _) (Runs.blockOf (property_each hq _) (cssRule_each n true) _)) fun ⟨s, b⟩ h => .pure fun d hd => ?_
        rw [declarations] at hd
        rcases List.mem_append.mp hd with hd | hd
        · exact pairs_each h.2.1 d hd
        · exact mem_declarationsOf h.2.2 d hd
      · cases r with
        | ok r => exact .pure (h r rfl)
        | error _ =>
          refine Runs.ite (fun _ => Runs.attempt unknown fun r h => ?_) fun _ => unknown
          cases r with
          | ok r => exact .pure (h r rfl)
          | error _ => exact bad

omit hq in
theorem styleSheetLoop_each {rule : Prog (CssRule τ)} (hr : Runs I rule fun r => ∀ d ∈ declarations r, Q d) : ∀ n rs, (∀ r ∈ rs, ∀ d ∈ declarations r, Q d) →
    Runs I (styleSheetLoop rule n rs) fun rs => ∀ d ∈ declarationsOf rs, Q d
  | 0, _, _ => .panic
  | n + 1, rs, h => by
    unfold styleSheetLoop
    refine Runs.then_ fun _ => Runs.ite (fun _ => styleSheetLoop_each hr n rs h) fun _ => Runs.then_ fun _ => Runs.ite (fun _ => styleSheetLoop_each hr n rs h) fun _ => Runs.then_ fun _ =>
      Runs.ite (fun _ => .pure (mem_declarationsOf h)) fun _ => Runs.then_ fun _ => Runs.ite (fun _ => .pure (mem_declarationsOf h)) fun _ => Runs.bind hr fun r hr' =>
      styleSheetLoop_each hr n _ ?_
    intro x hx
    rcases List.mem_append.mp hx with hx | hx
    · exact h x hx
    · rw [List.mem_singleton.mp hx]; exact hr'

/-- What holds of every declaration that can be parsed holds of every declaration in a style sheet. -/
theorem cssStyleSheet_each : Runs I (cssStyleSheet V) fun rs => ∀ d ∈ declarationsOf rs, Q d :=
  Runs.read fun _ => styleSheetLoop_each (cssRule_each hq _ _) _ [] nofun

end
end Hdx

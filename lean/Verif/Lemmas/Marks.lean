/-
The tokens a program reports are among those it took from the source, each at most as often.
-/
import Verif.Props.SelectorLabels
import Verif.Model.Highlight
import Verif.Spec.Declarations

namespace Hdx
open Spec Prog

/-- Every cursor is at most as often in `m` as in `w`. -/
def Amongst (m w : List Cursor) : Prop := ∀ c, m.count c ≤ w.count c

theorem Amongst.nil {w : List Cursor} : Amongst [] w := fun _ => by simp
theorem Amongst.rfl {w : List Cursor} : Amongst w w := fun _ => Nat.le_refl _
theorem Amongst.trans {a b c : List Cursor} (h : Amongst a b) (h' : Amongst b c) : Amongst a c := fun x => Nat.le_trans (h x) (h' x)

macro "among" : tactic => `(tactic| (intro c; simp only [List.count_append, List.count_cons, List.count_nil, List.flatMap_append, List.flatMap_cons, List.flatMap_nil, List.append_nil]; (try omega)))

/-- Every successful run of `x`, after the cursors `pre` were taken, gives a result whose `m` is among the cursors taken. -/
def Marks {α : Type} (pre : List Cursor) (x : Prog α) (m : α → List Cursor) : Prop := ∀ p : Parser, Succ x p fun a _ w => Amongst (m a) (pre ++ w)

/-- The marks of a result. -/
def okMarks {α : Type} (m : α → List Cursor) : Except Diag α → List Cursor
  | .ok a => m a
  | .error _ => []

namespace Marks
variable {α β ρ δ φ : Type} {pre : List Cursor} {m : α → List Cursor} {R : ρ → List Cursor} {D : δ → List Cursor} {F : φ → List Cursor}

theorem pure {a : α} (h : Amongst (m a) pre) : Marks pre (Pure.pure a) m := fun _ => Succ.pure (by simpa using h)
theorem fail {d : DiagCode} {c : Cursor} : Marks pre (Prog.fail d c : Prog α) m := fun _ => Succ.fail
theorem panic {e : Panic} : Marks pre (Prog.panic e : Prog α) m := fun _ => Succ.panic
theorem ofErr {d : Diag} : Marks pre (Prog.ofResult (.error d) : Prog α) m := fun _ => Succ.ofErr
theorem bind {m' : β → List Cursor} {x : Prog α} {g : α → Prog β} (hx : Marks [] x m) (hf : ∀ a, Marks (pre ++ m a) (g a) m') : Marks pre (x >>= g) m' := by
  intro p b p' w hg
  obtain ⟨a, p1, w1, w2, h1, h2, rfl⟩ := gives_bind_ok.mp hg
  intro c
  have e1 := hx _ h1 c
  have e2 := hf a _ h2 c
  simp only [List.count_append, List.count_nil] at *
  omega
theorem any (x : Prog α) : Marks pre x fun _ => [] := fun _ _ _ _ _ => .nil
theorem then_ {m' : β → List Cursor} {x : Prog α} {g : α → Prog β} (hf : ∀ a, Marks pre (g a) m') : Marks pre (x >>= g) m' :=
  bind (any x) fun a => by simpa using hf a
theorem ite {b : Prop} [Decidable b] {x y : Prog α} (hx : b → Marks pre x m) (hy : ¬ b → Marks pre y m) : Marks pre (if b then x else y) m :=
  fun p => Succ.ite (fun h => hx h p) (fun h => hy h p)
theorem mono {m' : α → List Cursor} {x : Prog α} (h : Marks pre x m) (hi : ∀ a, Amongst (m' a) (m a)) : Marks pre x m' := fun _ _ _ _ hg => (hi _).trans (h _ hg)
theorem setSkip {s : KindSet} {k : KindSet → Prog α} (h : ∀ o, Marks pre (k o) m) : Marks pre (Prog.setSkip s k) m := fun p => Succ.setSkip (h p.skip _)
theorem setState {s : Bool} {k : Bool → Prog α} (h : ∀ o, Marks pre (k o) m) : Marks pre (Prog.setState s k) m :=
  fun p _ _ _ hg => h p.nested { p with nested := s } hg
theorem setStop {s : KindSet} {k : KindSet → Prog α} (h : ∀ o, Marks pre (k o) m) : Marks pre (Prog.setStop s k) m :=
  fun p _ _ _ hg => h p.stop { p with stop := s } hg
theorem consumeTrivia {k : Prog α} (h : Marks pre k m) : Marks pre (Prog.consumeTrivia k) m := fun _ => Succ.consumeTrivia fun q _ => h q
theorem read {k : Parser → Prog α} (h : ∀ p, Marks pre (k p) m) : Marks pre (Prog.read k) m := fun p _ _ _ hg => h p p hg
theorem result {x : Prog α} (h : Marks pre x m) : Marks pre (Prog.result x) (okMarks m) := by
  intro p r p' w hg
  obtain ⟨r1, h1, e⟩ := gives_result.mp hg
  cases e
  cases r with
  | ok a => exact h _ h1
  | error d => exact .nil
theorem ofResult {m' : β → List Cursor} {r : Except Diag α} {g : α → Prog β} (h : ∀ a, r = .ok a → Marks pre (g a) m') : Marks pre (Prog.ofResult r >>= g) m' := by
  cases r with
  | error d =>
    intro p b p' w hg
    obtain ⟨a, p1, w1, w2, h1, h2, rfl⟩ := gives_bind_ok.mp hg
    obtain ⟨e, _⟩ := gives_ofResult.mp h1
    cases e
  | ok a =>
    intro p b p' w hg
    obtain ⟨a', p1, w1, w2, h1, h2, rfl⟩ := gives_bind_ok.mp hg
    obtain ⟨e, rfl, rfl⟩ := gives_ofResult.mp h1
    cases e
    exact h _ (Eq.refl _) _ h2
theorem pureBind {m' : β → List Cursor} {a : α} {g : α → Prog β} (h : Marks pre (g a) m') : Marks pre (Pure.pure a >>= g) m' := by
  intro p b p' w hg
  obtain ⟨a', p1, w1, w2, h1, h2, rfl⟩ := gives_bind_ok.mp hg
  obtain ⟨e, rfl, rfl⟩ := gives_pure.mp h1
  cases e
  exact h _ h2
theorem ifPeek {test : Cursor → Prog Bool} {x : Prog α} (hx : Marks [] x m) : Marks [] (Prog.ifPeek test x) fun o => o.toList.flatMap m := by
  intro p o p' w hg
  obtain ⟨c, b, p1, w1, w2, hc, h1, rfl, ⟨rfl, a, rfl, hb⟩ | ⟨rfl, rfl, rfl, rfl⟩⟩ := gives_ifPeek.mp hg
  · intro c
    have := hx _ hb c
    simp at *
    omega
  · exact .nil
theorem attempt {m1 : β → List Cursor} {body : Prog β} {keep : Except Diag β → Bool} {k : Except Diag β → Prog α} (hb : Marks [] body m1)
    (hk : ∀ r, keep r = true → Marks (pre ++ okMarks m1 r) (k r) m) (hk' : ∀ r, keep r = false → Marks pre (k r) m) : Marks pre (Prog.attempt body keep k) m := by
  intro p
  refine Succ.attempt fun r p1 w1 h1 => ⟨fun e => ?_, fun e => hk' r e _⟩
  intro a p2 w2 h2 c
  have h3 := hk r e _ h2 c
  cases r with
  | ok b =>
    have h4 := hb _ h1 c
    simp only [okMarks, List.count_append, List.count_nil] at *
    omega
  | error d =>
    simp only [okMarks, List.count_append, List.count_nil] at *
    omega
theorem tok {test : Cursor → Prog Bool} (ht : Inspects test) : Marks [] (Prog.tok test) fun c => [c] := fun _ => Succ.tok ht fun _ _ _ _ _ => .rfl
theorem kind {k : Kind} : Marks [] (Prog.tok (Prog.isKind k)) fun c => [c] := tok Inspects.kind
theorem take : Marks [] Prog.take fun c => [c] := fun _ => Succ.take fun _ _ _ => .rfl
theorem close {k : Kind} : Marks [] (Prog.ifPeek (Prog.isKind k) (Prog.tok (Prog.isKind k))) fun o => o.toList := (ifPeek kind).mono fun o => by cases o <;> exact .rfl
/-- The last step of a program. -/
theorem last {m' : α → List Cursor} {x : Prog α} (h : Marks [] x m) (hi : ∀ a, Amongst (m' a) (pre ++ m a)) : Marks pre x m' := by
  intro p a p' w hg c
  have h1 := h _ hg c
  have h2 := hi a c
  simp only [List.count_append, List.count_nil] at *
  omega
theorem tryParse {x : Prog α} (h : Marks [] x m) : Marks [] (Prog.tryParse x) m := by
  unfold Prog.tryParse
  refine attempt h (fun r hr => ?_) fun r hr => ?_
  · cases r with
    | ok a => exact pure (by simpa [okMarks] using Amongst.rfl)
    | error d => exact ofErr
  · cases r with
    | ok a => cases hr
    | error d => exact ofErr

theorem ruleListLoop {item : Prog ρ} (h : Marks [] item R) : ∀ n items pre, Amongst (items.flatMap R) pre →
    Marks pre (Hdx.ruleListLoop item n items) fun x => x.1.flatMap R ++ x.2.toList
  | 0, _, _, _ => .panic
  | n + 1, items, pre, hi => by
    unfold Hdx.ruleListLoop
    refine then_ fun _ => then_ fun _ => ite (fun _ => .pure (by simpa using hi)) fun _ => then_ fun _ => ite (fun _ => bind kind fun c => .pure ?_) fun _ => ?_
    · intro x; have := hi x; simp at *; omega
    · refine bind h fun r => ruleListLoop h n _ _ ?_
      intro x; have := hi x; simp at *; omega
theorem ruleList {item : Prog ρ} (h : Marks [] item R) (n : Nat) : Marks [] (Hdx.ruleList item n) fun b => b.opening :: b.items.flatMap R ++ b.close.toList := by
  unfold Hdx.ruleList
  refine bind kind fun o => bind (ruleListLoop h n [] [] .nil) fun ⟨items, close⟩ => .pure ?_
  intro c; simp

theorem declarationListLoop {item : Prog δ} (h : Marks [] item D) : ∀ n items pre, Amongst (items.flatMap fun d => D d.1) pre →
    Marks pre (Hdx.declarationListLoop item n items) fun x => (x.1.flatMap fun d => D d.1) ++ x.2.toList
  | 0, _, _, _ => .panic
  | n + 1, items, pre, hi => by
    unfold Hdx.declarationListLoop
    refine then_ fun _ => ite (fun _ => .pure (by simpa using hi)) fun _ => then_ fun _ => ite (fun _ => bind kind fun c => .pure ?_) fun _ => ?_
    · intro x; have := hi x; simp at *; omega
    · refine bind h fun r => then_ fun _ => declarationListLoop h n _ _ ?_
      intro x; have := hi x; simp at *; omega
theorem declarationList {item : Prog δ} (h : Marks [] item D) (n : Nat) :
    Marks [] (Hdx.declarationList item n) fun b => b.opening :: (b.items.flatMap fun d => D d.1) ++ b.close.toList := by
  unfold Hdx.declarationList
  refine bind kind fun o => bind (declarationListLoop h n [] [] .nil) fun ⟨items, close⟩ => .pure ?_
  intro c; simp

theorem declarationRuleListLoop {decl : Prog δ} {rule : Prog ρ} (hd : Marks [] decl D) (hr : Marks [] rule R) : ∀ n ds rs pre,
    Amongst ((ds.flatMap fun d => D d.1) ++ rs.flatMap R) pre →
    Marks pre (Hdx.declarationRuleListLoop decl rule n ds rs) fun x => (x.1.1.flatMap fun d => D d.1) ++ x.1.2.flatMap R ++ x.2.toList
  | 0, _, _, _, _ => .panic
  | n + 1, ds, rs, pre, hi => by
    unfold Hdx.declarationRuleListLoop
    refine then_ fun _ => ite (fun _ => .pure (by simpa using hi)) fun _ => then_ fun _ => ite (fun _ => bind kind fun c => .pure ?_) fun _ =>
      ite (fun _ => bind hr fun r => declarationRuleListLoop hd hr n _ _ _ ?_) fun _ =>
      ite (fun _ => bind hd fun d => then_ fun _ => declarationRuleListLoop hd hr n _ _ _ ?_) fun _ => then_ fun _ => .fail
    all_goals intro x; have := hi x; simp at *; omega
theorem declarationRuleList {decl : Prog δ} {rule : Prog ρ} (hd : Marks [] decl D) (hr : Marks [] rule R) (n : Nat) :
    Marks [] (Hdx.declarationRuleList decl rule n) fun b => b.opening :: ((b.declarations.flatMap fun d => D d.1) ++ b.rules.flatMap R) ++ b.close.toList := by
  unfold Hdx.declarationRuleList
  refine bind kind fun o => bind (declarationRuleListLoop hd hr n [] [] [] .nil) fun ⟨⟨ds, rs⟩, close⟩ => .pure ?_
  intro c; simp

theorem blockLoop {isDecl : Cursor → Prog Bool} {decl : Prog δ} {rule : Prog ρ} (hd : Marks [] decl D) (hr : Marks [] rule R) : ∀ n ds rs pre,
    Amongst ((ds.flatMap fun d => D d.1) ++ rs.flatMap R) pre →
    Marks pre (Hdx.blockLoop isDecl decl rule n ds rs) fun x => (x.1.flatMap fun d => D d.1) ++ x.2.flatMap R
  | 0, _, _, _, _ => .panic
  | n + 1, ds, rs, pre, hi => by
    have more : ∀ old pre', Amongst pre pre' → Marks pre' (do
        let r ← Prog.result rule
        Prog.setState old fun _ => do
          let r ← Prog.ofResult r
          Hdx.blockLoop isDecl decl rule n ds (rs ++ [r])) fun x => (x.1.flatMap fun d => D d.1) ++ x.2.flatMap R := by
      intro old pre' hp
      refine bind (result hr) fun r => setState fun _ => ofResult fun r hr' => blockLoop hd hr n _ _ _ ?_
      subst hr'
      intro x; have := hi x; have := hp x; simp [okMarks] at *; omega
    unfold Hdx.blockLoop
    refine then_ fun _ => ite (fun _ => blockLoop hd hr n _ _ _ hi) fun _ => then_ fun _ => ite (fun _ => blockLoop hd hr n _ _ _ hi) fun _ => then_ fun _ =>
      ite (fun _ => .pure hi) fun _ => then_ fun _ => ite (fun _ => .pure hi) fun _ => setState fun old => then_ fun _ =>
      ite (fun _ => more old _ .rfl) fun _ => bind (result (ifPeek (tryParse hd))) fun d => ?_
    match d with
    | .ok (some d) =>
      refine setState fun _ => then_ fun _ => blockLoop hd hr n _ _ _ ?_
      intro x; have := hi x; simp [okMarks] at *; omega
    | .ok none => exact more old _ (by simpa [okMarks] using Amongst.rfl)
    | .error _ => exact more old _ (by simpa [okMarks] using Amongst.rfl)
theorem blockOf {isDecl : Cursor → Prog Bool} {decl : Prog δ} {rule : Prog ρ} (hd : Marks [] decl D) (hr : Marks [] rule R) (n : Nat) :
    Marks [] (Hdx.blockOf isDecl decl rule n) fun b => b.opening :: ((b.declarations.flatMap fun d => D d.1) ++ b.rules.flatMap R) ++ b.close.toList := by
  unfold Hdx.blockOf
  refine bind kind fun o => bind (blockLoop hd hr n [] [] [] .nil) fun ⟨ds, rs⟩ => bind close fun c => .pure ?_
  intro c; simp

theorem atRule {m' : β → List Cursor} {name : Option (List Char)} {prelude : Prog α} {block : Prog β} (hp : Marks [] prelude m) (hb : Marks [] block m') :
    Marks [] (Hdx.atRule name prelude block) fun x => x.2.1.toList.flatMap m ++ m' x.2.2 := by
  unfold Hdx.atRule
  refine then_ fun at' => ?_
  have rest : ∀ (ok : Bool), Marks [] (if (!ok) = true then Prog.fail .other at' else (do
      let c ← Prog.peek
      let e ← Prog.atEnd
      let pre ← if e || c.token.inSet KindSet.LEFT_CURLY_OR_SEMICOLON then Pure.pure none else do
        let a ← prelude
        Pure.pure (some a)
      let b ← block
      Pure.pure (at', pre, b))) fun x => x.2.1.toList.flatMap m ++ m' x.2.2 := by
    intro ok
    refine ite (fun _ => .fail) fun _ => then_ fun _ => then_ fun _ => ?_
    refine ite (fun _ => pureBind (bind hb fun b => .pure ?_)) fun _ => bind hp fun a => pureBind (bind hb fun b => .pure ?_)
    all_goals intro x; simp
  cases name with
  | none => exact rest true
  | some n => exact then_ rest
theorem qualifiedRule {γ : Type} {m' : β → List Cursor} {prelude : Prog α} {block : Prog β} {bad : Prog γ} (hp : Marks [] prelude m) (hb : Marks [] block m') :
    Marks [] (Hdx.qualifiedRule prelude block bad) fun x => m x.1 ++ m' x.2 := by
  unfold Hdx.qualifiedRule
  have rest : Marks [] (Prog.setStop (KindSet.new [.leftCurly]) fun old => do
      let prelude ← Prog.result prelude
      Prog.setStop old fun _ => do
        let prelude ← Prog.ofResult prelude
        let block ← block
        Pure.pure (prelude, block)) fun x => m x.1 ++ m' x.2 := by
    refine setStop fun _ => bind (result hp) fun r => setStop fun _ => ofResult fun a ha => bind hb fun b => .pure ?_
    subst ha
    intro x; simp [okMarks]
  have all : ∀ (lead : Except Diag Lead) (c : Cursor), Marks [] (Prog.ofResult lead >>= fun l => match l with
        | .dashedColonNested => do
          let _ ← bad
          Prog.fail .badDeclaration c
        | .dashedColon => do
          let _ ← Prog.result block
          Prog.fail .badDeclaration c
        | _ =>
          Prog.setStop (KindSet.new [.leftCurly]) fun old => do
            let prelude ← Prog.result prelude
            Prog.setStop old fun _ => do
              let prelude ← Prog.ofResult prelude
              let block ← block
              Pure.pure (prelude, block)) fun x => m x.1 ++ m' x.2 := by
    intro lead c
    refine ofResult fun l _ => ?_
    cases l
    case dashedColonNested => exact then_ fun _ => .fail
    case dashedColon => exact then_ fun _ => .fail
    all_goals exact rest
  refine then_ fun _ => ite (fun _ => .ofErr) fun _ => then_ fun _ => then_ fun _ => ite (fun _ => then_ fun _ => .fail) fun _ => then_ fun c =>
    attempt (any _) (fun lead _ => ?_) fun lead _ => all lead _
  have : ([] : List Cursor) ++ okMarks (fun _ : Lead => []) lead = [] := by cases lead <;> rfl
  rw [this]
  exact all lead _

theorem conditionLoop {feature : Prog φ} (h : Marks [] feature F) : ∀ n fs fe kw pre, Amongst ((fs.flatMap fun x => F x.1) ++ F fe) pre →
    Marks pre (Hdx.conditionLoop feature n fs fe kw) fun r => r.flatMap fun x => F x.1
  | 0, _, _, _, _, _ => .panic
  | n + 1, fs, fe, kw, pre, hi => by
    unfold Hdx.conditionLoop
    refine bind h fun g => then_ fun c => then_ fun b => ite (fun _ => then_ fun v => ite (fun _ => conditionLoop h n _ _ _ _ ?_) fun _ => .pure ?_) fun _ => .pure ?_
    all_goals intro x; have := hi x; simp at *; omega
theorem condition {feature : Prog φ} (h : Marks [] feature F) (n : Nat) : Marks [] (Hdx.condition feature n) fun c => (featuresOf c).flatMap F := by
  unfold Hdx.condition
  refine then_ fun c => then_ fun b => ite (fun _ => then_ fun v => ite (fun _ => bind h fun f => .pure ?_) fun _ => .fail) fun _ => bind h fun f => then_ fun kw => ?_
  · intro x; simp [featuresOf]
  match kw with
  | none => exact .pure (by intro x; simp [featuresOf])
  | some (variant, kw) =>
    refine ite (fun _ => ?_) fun _ => ite (fun _ => ?_) fun _ => bind h fun g => .pure ?_
    · intro p b p' w hg
      obtain ⟨fs, p1, w1, w2, h1, h2, rfl⟩ := gives_bind_ok.mp hg
      obtain ⟨e, rfl, rfl⟩ := gives_pure.mp h2
      cases e
      have := conditionLoop h n [] f kw ([] ++ F f) (by simpa using Amongst.rfl) _ h1
      intro x
      have := this x
      simp only [featuresOf, List.flatMap_map, List.append_nil] at *
      exact this
    · intro p b p' w hg
      obtain ⟨fs, p1, w1, w2, h1, h2, rfl⟩ := gives_bind_ok.mp hg
      obtain ⟨e, rfl, rfl⟩ := gives_pure.mp h2
      cases e
      have := conditionLoop h n [] f kw ([] ++ F f) (by simpa using Amongst.rfl) _ h1
      intro x
      have := this x
      simp only [featuresOf, List.flatMap_map, List.append_nil] at *
      exact this
    · intro x; simp [featuresOf]
end Marks
end Hdx

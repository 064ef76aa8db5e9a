/-
Property C61: parsers leave the modes of the parser (what is skipped, where to stop, the nesting state) as they found them.
-/
import Verif.Props.Rules
import Verif.Model.Features
import Verif.Model.Nth

namespace Hdx
open Spec Prog

/-- The modes of a parser: the kinds it skips, the kinds it stops at, and whether it is inside a block. -/
def Spec.modes (p : Parser) : KindSet × KindSet × Bool := (p.skip, p.stop, p.nested)

/-- Whatever the program returns - a value or an error -, the modes afterwards are those of before. -/
def KeepsModes {α : Type} (x : Prog α) : Prop := ∀ ⦃p p' : Parser⦄ ⦃r : Except Diag α⦄ ⦃w : List Cursor⦄, Gives x p r p' w → modes p' = modes p

theorem next_modes {p p' : Parser} {c : Cursor} (h : p.next = .ok (c, p')) : modes p' = modes p := by
  unfold Parser.next at h
  cases hl : Parser.nextLoop p.skip p.lexer p.trivia with
  | error e => rw [hl] at h; cases h
  | ok y => rw [hl] at h; cases h; rfl

namespace KeepsModes

theorem ret {α : Type} {r : Except Diag α} : KeepsModes (Prog.ret r) := by
  intro p p' r w h; obtain ⟨_, rfl, _⟩ := gives_ret.mp h; rfl
theorem pure {α : Type} {a : α} : KeepsModes (Pure.pure a : Prog α) := ret
theorem fail {α : Type} {d : DiagCode} {c : Cursor} : KeepsModes (Prog.fail d c : Prog α) := ret
theorem ofResult {α : Type} {r : Except Diag α} : KeepsModes (Prog.ofResult r) := ret
theorem panic {α : Type} {e : Panic} : KeepsModes (Prog.panic e : Prog α) := fun _ _ _ _ h => absurd h gives_panic
theorem ask {α : Type} {f : Parser → Except Panic α} : KeepsModes (Prog.ask f) := by
  intro p p' r w h; obtain ⟨_, _, _, rfl, _⟩ := gives_ask.mp h; rfl
theorem bind {α β : Type} {x : Prog α} {f : α → Prog β} (hx : KeepsModes x) (hf : ∀ a, KeepsModes (f a)) : KeepsModes (x >>= f) := by
  intro p p' r w h
  rcases gives_bind.mp h with ⟨a, p1, w1, w2, h1, h2, rfl⟩ | ⟨d, h1, _⟩
  · exact (hf a h2).trans (hx h1)
  · exact hx h1
theorem result {α : Type} {x : Prog α} (hx : KeepsModes x) : KeepsModes (Prog.result x) := by
  intro p p' r w h; obtain ⟨r1, h1, _⟩ := gives_result.mp h; exact hx h1
theorem next {α : Type} {k : Cursor → Prog α} (hk : ∀ c, KeepsModes (k c)) : KeepsModes (Prog.next k) := by
  intro p p' r w h; obtain ⟨c, p1, w1, h1, h2, _⟩ := gives_next.mp h; exact (hk c h2).trans (next_modes h1)
theorem take : KeepsModes Prog.take := next fun _ => ret
theorem ite {α : Type} {b : Prop} [Decidable b] {x y : Prog α} (hx : KeepsModes x) (hy : KeepsModes y) : KeepsModes (if b then x else y) := by
  split
  · exact hx
  · exact hy
theorem attempt {α β : Type} {body : Prog β} {keep : Except Diag β → Bool} {k : Except Diag β → Prog α} (hb : KeepsModes body) (hk : ∀ r, KeepsModes (k r)) :
    KeepsModes (Prog.attempt body keep k) := by
  intro p p' r w h
  obtain ⟨r1, p1, w1, w2, h1, ⟨_, _, h2⟩ | ⟨_, _, h2⟩⟩ := gives_attempt.mp h
  · exact (hk _ h2).trans (hb h1)
  · exact (hk _ h2).trans (show modes p1 = modes p from hb h1)
theorem tryParse {α : Type} {x : Prog α} (hx : KeepsModes x) : KeepsModes (Prog.tryParse x) := attempt hx fun _ => ofResult
theorem tok {test : Cursor → Prog Bool} (ht : ∀ c, KeepsModes (test c)) : KeepsModes (Prog.tok test) :=
  bind ask fun c => bind (ht c) fun _ => bind take fun _ => ite pure fail
theorem ifPeek {α : Type} {test : Cursor → Prog Bool} {body : Prog α} (ht : ∀ c, KeepsModes (test c)) (hb : KeepsModes body) :
    KeepsModes (Prog.ifPeek test body) :=
  bind ask fun c => bind (ht c) fun _ => ite (bind hb fun _ => pure) pure
/-- `let old = p.set_stop(s); let r = x; p.set_stop(old); k(r)` -/
theorem setStop {α β : Type} {s : KindSet} {x : Prog α} {k : Except Diag α → Prog β} (hx : KeepsModes x) (hk : ∀ r, KeepsModes (k r)) :
    KeepsModes (Prog.setStop s fun old => Prog.result x >>= fun r => Prog.setStop old fun _ => k r) := by
  intro p p' r w h
  rcases gives_bind.mp (gives_setStop.mp h) with ⟨a, p1, w1, w2, h1, h2, rfl⟩ | ⟨d, h1, _⟩
  · obtain ⟨r1, h1, e⟩ := gives_result.mp h1
    have m1 := hx h1
    have m2 := hk _ (gives_setStop.mp h2)
    simp only [modes, Prod.mk.injEq] at m1 m2 ⊢
    exact ⟨m2.1.trans m1.1, m2.2.1, m2.2.2.trans m1.2.2⟩
  · obtain ⟨_, _, e⟩ := gives_result.mp h1; cases e
/-- `let old = p.set_skip(s); let r = x; p.set_skip(old); k(r)` -/
theorem setSkip {α β : Type} {s : KindSet} {x : Prog α} {k : Except Diag α → Prog β} (hx : KeepsModes x) (hk : ∀ r, KeepsModes (k r)) :
    KeepsModes (Prog.setSkip s fun old => Prog.result x >>= fun r => Prog.setSkip old fun _ => k r) := by
  intro p p' r w h
  rcases gives_bind.mp (gives_setSkip.mp h) with ⟨a, p1, w1, w2, h1, h2, rfl⟩ | ⟨d, h1, _⟩
  · obtain ⟨r1, h1, e⟩ := gives_result.mp h1
    have m1 := hx h1
    have m2 := hk _ (gives_setSkip.mp h2)
    simp only [modes, Prod.mk.injEq] at m1 m2 ⊢
    exact ⟨m2.1, m2.2.1.trans m1.2.1, m2.2.2.trans m1.2.2⟩
  · obtain ⟨_, _, e⟩ := gives_result.mp h1; cases e
/-- `let old = p.set_state(s); let r = x; p.set_state(old); k(r)` -/
theorem setState {α β : Type} {s : Bool} {x : Prog α} {k : Except Diag α → Prog β} (hx : KeepsModes x) (hk : ∀ r, KeepsModes (k r)) :
    KeepsModes (Prog.setState s fun old => Prog.result x >>= fun r => Prog.setState old fun _ => k r) := by
  intro p p' r w h
  rcases gives_bind.mp (gives_setState.mp h) with ⟨a, p1, w1, w2, h1, h2, rfl⟩ | ⟨d, h1, _⟩
  · obtain ⟨r1, h1, e⟩ := gives_result.mp h1
    have m1 := hx h1
    have m2 := hk _ (gives_setState.mp h2)
    simp only [modes, Prod.mk.injEq] at m1 m2 ⊢
    exact ⟨m2.1.trans m1.1, m2.2.1.trans m1.2.1, m2.2.2⟩
  · obtain ⟨_, _, e⟩ := gives_result.mp h1; cases e
theorem whitespace : KeepsModes Prog.whitespace := by
  intro p p' r w h
  unfold Prog.whitespace at h
  obtain ⟨c, p1, w1, h1, h2, _⟩ := gives_next.mp (gives_setSkip.mp h)
  have m1 := next_modes h1
  have m2 := (ite pure fail) (gives_setSkip.mp h2)
  simp only [modes, Prod.mk.injEq] at m1 m2 ⊢
  exact ⟨m2.1, m2.2.1.trans m1.2.1, m2.2.2.trans m1.2.2⟩

end KeepsModes

/-- Proves `KeepsModes` of a program by following its text. -/
macro "keeps" : tactic => `(tactic| repeat' (first
  | assumption
  | exact KeepsModes.ret | exact KeepsModes.pure | exact KeepsModes.fail | exact KeepsModes.ofResult | exact KeepsModes.panic
  | exact KeepsModes.ask | exact KeepsModes.take | exact KeepsModes.whitespace
  | refine KeepsModes.setStop ?_ (fun _ => ?_) | refine KeepsModes.setSkip ?_ (fun _ => ?_) | refine KeepsModes.setState ?_ (fun _ => ?_)
  | refine KeepsModes.result ?_ | refine KeepsModes.tryParse ?_ | refine KeepsModes.tok (fun _ => ?_) | refine KeepsModes.ifPeek (fun _ => ?_) ?_
  | refine KeepsModes.bind ?_ (fun _ => ?_) | refine KeepsModes.ite ?_ ?_ | refine KeepsModes.attempt ?_ (fun _ => ?_)
  | split | (dsimp only)))

theorem componentValuesLoop_modes {item : Prog ComponentValue} (hi : KeepsModes item) : ∀ n acc, KeepsModes (componentValuesLoop item n acc) := by
  intro n
  induction n with
  | zero => intro acc; exact .panic
  | succ n ih => intro acc; unfold componentValuesLoop; keeps; exact ih _

theorem functionLoop_modes {item : Prog ComponentValue} (hi : KeepsModes item) : ∀ n acc, KeepsModes (functionLoop item n acc) := by
  intro n
  induction n with
  | zero => intro acc; exact .panic
  | succ n ih => intro acc; unfold functionLoop; keeps; exact ih _

theorem componentValue_modes : ∀ n, KeepsModes (componentValue n) := by
  intro n
  induction n with
  | zero => exact .panic
  | succ n ih =>
    have hl := componentValuesLoop_modes ih n []
    have hf := functionLoop_modes ih n []
    unfold componentValue simpleBlock functionBlock
    keeps

theorem componentValues_modes (n : Nat) : KeepsModes (componentValues n) := componentValuesLoop_modes (componentValue_modes n) n []

theorem bangImportant_modes : KeepsModes bangImportant := by
  unfold bangImportant Prog.eqIgnoreAsciiCase; keeps

theorem isBangImportant_modes (c : Cursor) : KeepsModes (isBangImportant c) := by unfold isBangImportant; keeps
theorem isDeclaration_modes (c : Cursor) : KeepsModes (isDeclaration c) := by unfold isDeclaration; keeps

theorem declaration_modes (n : Nat) : KeepsModes (declaration n) := by
  have h1 := componentValues_modes n
  have h2 := bangImportant_modes
  unfold declaration
  keeps

theorem badDeclaration_modes (n : Nat) : KeepsModes (badDeclaration n) := by
  unfold badDeclaration
  have hi := componentValue_modes n
  generalize [] = acc
  generalize hm : n = m
  conv in componentValue _ => rw [← hm]
  clear hm
  induction m generalizing acc with
  | zero => exact .panic
  | succ m ih => unfold badDeclarationLoop; keeps <;> exact ih _

theorem blockLoop_modes {δ ρ : Type} {isDecl : Cursor → Prog Bool} {decl : Prog δ} {rule : Prog ρ} (h1 : ∀ c, KeepsModes (isDecl c)) (h2 : KeepsModes decl)
    (h3 : KeepsModes rule) : ∀ n ds rs, KeepsModes (blockLoop isDecl decl rule n ds rs) := by
  intro n
  induction n with
  | zero => intro ds rs; exact .panic
  | succ n ih =>
    intro ds rs
    unfold blockLoop
    refine KeepsModes.bind (by keeps) fun _ => KeepsModes.ite (ih _ _) ?_
    refine KeepsModes.bind (by keeps) fun _ => KeepsModes.ite (ih _ _) ?_
    refine KeepsModes.bind (by keeps) fun _ => KeepsModes.ite (by keeps) ?_
    refine KeepsModes.bind (by keeps) fun _ => KeepsModes.ite (by keeps) ?_
    intro p p' r w h
    replace h := gives_setState.mp h
    have useRule : ∀ {q : Parser} {v : List Cursor}, q.skip = p.skip → q.stop = p.stop → Gives (result rule >>= fun r => Prog.setState p.nested fun _ => ofResult r >>= fun r =>
        blockLoop isDecl decl rule n ds (rs ++ [r])) q r p' v → modes p' = modes p := by
      intro q v e1 e2 h
      rcases gives_bind.mp h with ⟨a, p1, w1, w2, h1, h2, rfl⟩ | ⟨d, h1, _⟩
      · obtain ⟨r1, h1, e⟩ := gives_result.mp h1
        have m1 := h3 h1
        have m2 := (KeepsModes.bind KeepsModes.ofResult fun _ => ih _ _) (gives_setState.mp h2)
        simp only [modes, Prod.mk.injEq] at m1 m2 ⊢
        exact ⟨m2.1.trans (m1.1.trans e1), m2.2.1.trans (m1.2.1.trans e2), m2.2.2⟩
      · obtain ⟨_, _, e⟩ := gives_result.mp h1; cases e
    rcases gives_bind.mp h with ⟨c, q1, v1, v2, hc, h', rfl⟩ | ⟨d, hc, _⟩
    · obtain ⟨c', _, _, rfl, rfl⟩ := gives_peek.mp hc
      replace h := gives_ite.mp h'
      rcases h with ⟨_, h⟩ | ⟨_, h⟩
      · exact useRule (q := { p with nested := true }) rfl rfl h
      · rcases gives_bind.mp h with ⟨a, q2, w1, w2, h4, h5, rfl⟩ | ⟨d, h4, _⟩
        · obtain ⟨r1, h4, e⟩ := gives_result.mp h4
          have m1 := (KeepsModes.ifPeek h1 (KeepsModes.tryParse h2)) h4
          simp only [modes, Prod.mk.injEq] at m1
          split at h5
          · have m2 := (KeepsModes.bind (by keeps) fun _ => ih _ _) (gives_setState.mp h5)
            simp only [modes, Prod.mk.injEq] at m2 ⊢
            exact ⟨m2.1.trans m1.1, m2.2.1.trans m1.2.1, m2.2.2⟩
          · exact useRule m1.1 m1.2.1 h5
        · obtain ⟨_, _, e⟩ := gives_result.mp h4; cases e
    · obtain ⟨_, _, e, _⟩ := gives_peek.mp hc; cases e

theorem block_modes {r : Prog Rule} (hr : KeepsModes r) (n : Nat) : KeepsModes (block r n) := by
  have hl := blockLoop_modes isDeclaration_modes (declaration_modes n) hr n [] []
  unfold block blockOf
  keeps

theorem qualifiedLead_modes : KeepsModes qualifiedLead := by unfold qualifiedLead; keeps

theorem qualifiedRule_modes {α β γ : Type} {prelude : Prog α} {block : Prog β} {bad : Prog γ} (h1 : KeepsModes prelude) (h2 : KeepsModes block)
    (h3 : KeepsModes bad) : KeepsModes (qualifiedRule prelude block bad) := by
  have := qualifiedLead_modes
  unfold qualifiedRule
  keeps

theorem genericQualifiedRule_modes {r : Prog Rule} (hr : KeepsModes r) (n : Nat) : KeepsModes (genericQualifiedRule r n) := by
  have h := qualifiedRule_modes (componentValues_modes n) (block_modes hr n) (badDeclaration_modes n)
  unfold genericQualifiedRule
  keeps

theorem atRule_modes {α β : Type} (name : Option (List Char)) {prelude : Prog α} {block : Prog β} (h1 : KeepsModes prelude) (h2 : KeepsModes block) :
    KeepsModes (atRule name prelude block) := by
  unfold atRule Prog.eqIgnoreAsciiCase
  keeps

theorem optionalBlock_modes {r : Prog Rule} (hr : KeepsModes r) (n : Nat) : KeepsModes (optionalBlock r n) := by
  have h := block_modes hr n
  unfold optionalBlock
  keeps

theorem genericAtRule_modes {r : Prog Rule} (hr : KeepsModes r) (n : Nat) : KeepsModes (genericAtRule r n) := by
  have h := atRule_modes none (componentValues_modes n) (optionalBlock_modes hr n)
  unfold genericAtRule
  keeps

theorem rule_modes : ∀ n, KeepsModes (rule n) := by
  intro n
  induction n with
  | zero => exact .panic
  | succ n ih =>
    have h1 := genericAtRule_modes ih (n + 1)
    have h2 := genericQualifiedRule_modes ih (n + 1)
    unfold rule
    keeps

theorem styleSheetLoop_modes {ρ : Type} {r : Prog ρ} (hr : KeepsModes r) : ∀ n rs, KeepsModes (styleSheetLoop r n rs) := by
  intro n
  induction n with
  | zero => intro rs; exact .panic
  | succ n ih => intro rs; unfold styleSheetLoop; keeps <;> exact ih _

theorem isKeyword_modes {names : List (List Char)} (c : Cursor) : KeepsModes (isKeyword names c) := by unfold isKeyword Prog.strLower; keeps
theorem buildKeyword_modes {names : List (List Char)} (c : Cursor) : KeepsModes (buildKeyword names c) := by unfold buildKeyword Prog.strLower; keeps
theorem keyword_modes {names : List (List Char)} : KeepsModes (keyword names) :=
  .bind (.tok isKeyword_modes) buildKeyword_modes
theorem isDoubleDelim_modes {a b : Char} (c : Cursor) : KeepsModes (isDoubleDelim a b c) := by unfold isDoubleDelim; keeps
theorem doubleDelim_modes {a b : Char} : KeepsModes (doubleDelim a b) := by unfold doubleDelim; keeps
theorem comparison_modes : KeepsModes comparison := by
  have h1 := @isDoubleDelim_modes
  have h2 := @doubleDelim_modes
  unfold comparison
  keeps <;> first | exact h1 _ | exact h2
theorem any_modes : KeepsModes any := .tok fun _ => .pure
theorem conditionLoop_modes {φ : Type} {feature : Prog φ} (hf : KeepsModes feature) : ∀ n fs f kw, KeepsModes (conditionLoop feature n fs f kw) := by
  intro n
  induction n with
  | zero => intro fs f kw; exact .panic
  | succ n ih =>
    intro fs f kw
    have h1 := @isKeyword_modes
    have h2 := @buildKeyword_modes
    unfold conditionLoop
    keeps <;> first | exact h1 _ | exact h2 _ | exact ih _ _ _
theorem nthNumber_modes {a b cs} : KeepsModes (nthNumber a b cs) := by unfold nthNumber; keeps
theorem nthSign_modes {a b cs} : KeepsModes (nthSign a b cs) := by
  have h := @nthNumber_modes
  unfold nthSign
  keeps <;> exact h
theorem nthN_modes {c cs} : KeepsModes (nthN c cs) := by
  have h := @nthSign_modes
  unfold nthN Prog.strLower
  keeps <;> exact h
theorem nthFirst_modes {c} : KeepsModes (nthFirst c) := by
  have h := @nthN_modes
  have := any_modes
  unfold nthFirst
  keeps <;> exact h

/-! ## C61

Each of these holds from every state of the parser - any source, any position, any skip and stop set, inside or outside a block - and for both
outcomes: a value or an error. -/

theorem KeepsModes.run {α : Type} {x : Prog α} (hx : KeepsModes x) {p p' : Parser} {r : Except Diag α} (h : x.run p = .ok (r, p')) :
    p'.skip = p.skip ∧ p'.stop = p.stop ∧ p'.nested = p.nested := by
  unfold Prog.run at h
  cases hr : x.runLog p with
  | error e => rw [hr] at h; cases h
  | ok y =>
    obtain ⟨r1, q, w⟩ := y
    rw [hr] at h
    simp only [Except.map, Except.ok.injEq, Prod.mk.injEq] at h
    obtain ⟨rfl, rfl⟩ := h
    have := hx hr
    simp only [modes, Prod.mk.injEq] at this
    exact this

theorem C61_component_values {n : Nat} {p p' : Parser} {r : Except Diag (List ComponentValue)} (h : (componentValues n).run p = .ok (r, p')) :
    p'.skip = p.skip ∧ p'.stop = p.stop ∧ p'.nested = p.nested := (componentValues_modes n).run h
theorem C61_declaration {n : Nat} {p p' : Parser} {r : Except Diag Declaration} (h : (declaration n).run p = .ok (r, p')) :
    p'.skip = p.skip ∧ p'.stop = p.stop ∧ p'.nested = p.nested := (declaration_modes n).run h
theorem C61_bad_declaration {n : Nat} {p p' : Parser} {r : Except Diag (List ComponentValue)} (h : (badDeclaration n).run p = .ok (r, p')) :
    p'.skip = p.skip ∧ p'.stop = p.stop ∧ p'.nested = p.nested := (badDeclaration_modes n).run h
theorem C61_rule {n : Nat} {p p' : Parser} {r : Except Diag Rule} (h : (rule n).run p = .ok (r, p')) :
    p'.skip = p.skip ∧ p'.stop = p.stop ∧ p'.nested = p.nested := (rule_modes n).run h
theorem C61_style_sheet {p p' : Parser} {r : Except Diag (List Rule)} (h : styleSheet.run p = .ok (r, p')) :
    p'.skip = p.skip ∧ p'.stop = p.stop ∧ p'.nested = p.nested := (styleSheetLoop_modes (rule_modes _) _ []).run (p := p) (x := styleSheetLoop (rule p.fuel) p.fuel []) h
theorem C61_nth {p p' : Parser} {r : Except Diag Nth} (h : nth.run p = .ok (r, p')) :
    p'.skip = p.skip ∧ p'.stop = p.stop ∧ p'.nested = p.nested := by
  refine KeepsModes.run (x := nth) ?_ h
  exact .bind .ask fun _ => .ite (.bind (.tok fun _ => .pure) fun _ => .pure) (.ite (.bind (.tok fun _ => .pure) fun _ => .bind .ask fun _ =>
    .ite .pure (.ite .pure nthFirst_modes)) (.bind any_modes fun _ => nthFirst_modes))
/-- Blocks, and the traits for qualified rules and at-rules, with any grammar for their parts that leaves the modes alone. -/
theorem C61_block {δ ρ : Type} {isDecl : Cursor → Prog Bool} {decl : Prog δ} {rule : Prog ρ} (h1 : ∀ c, KeepsModes (isDecl c)) (h2 : KeepsModes decl)
    (h3 : KeepsModes rule) {n : Nat} {p p' : Parser} {r : Except Diag (BlockParts δ ρ)} (h : (blockOf isDecl decl rule n).run p = .ok (r, p')) :
    p'.skip = p.skip ∧ p'.stop = p.stop ∧ p'.nested = p.nested := by
  refine KeepsModes.run (x := blockOf isDecl decl rule n) ?_ h
  have hl := blockLoop_modes h1 h2 h3 n [] []
  unfold blockOf
  keeps
theorem C61_qualified_rule {α β γ : Type} {prelude : Prog α} {block : Prog β} {bad : Prog γ} (h1 : KeepsModes prelude) (h2 : KeepsModes block)
    (h3 : KeepsModes bad) {p p' : Parser} {r : Except Diag (α × β)} (h : (qualifiedRule prelude block bad).run p = .ok (r, p')) :
    p'.skip = p.skip ∧ p'.stop = p.stop ∧ p'.nested = p.nested := (qualifiedRule_modes h1 h2 h3).run h
theorem C61_at_rule {α β : Type} {name : Option (List Char)} {prelude : Prog α} {block : Prog β} (h1 : KeepsModes prelude) (h2 : KeepsModes block)
    {p p' : Parser} {r : Except Diag (Cursor × Option α × β)} (h : (atRule name prelude block).run p = .ok (r, p')) :
    p'.skip = p.skip ∧ p'.stop = p.stop ∧ p'.nested = p.nested := (atRule_modes name h1 h2).run h
/-- Features and conditions, with any value, and any feature, that leaves the modes alone. -/
theorem C61_ranged_feature {ν : Type} {value : Prog ν} (hv : KeepsModes value) {names : List (List Char)} {legacy : List Char → Bool} {p p' : Parser}
    {r : Except Diag (Ranged ν)} (h : (rangedFeature names legacy value).run p = .ok (r, p')) :
    p'.skip = p.skip ∧ p'.stop = p.stop ∧ p'.nested = p.nested := by
  refine KeepsModes.run (x := rangedFeature names legacy value) ?_ h
  have h1 := @isKeyword_modes
  have h2 := @keyword_modes
  have h3 := comparison_modes
  unfold rangedFeature
  keeps <;> first | exact h1 _ | exact h2
theorem C61_discrete_feature {ν : Type} {value : Prog ν} (hv : KeepsModes value) {name : List Char} {p p' : Parser}
    {r : Except Diag (Feature ν)} (h : (discreteFeature name value).run p = .ok (r, p')) :
    p'.skip = p.skip ∧ p'.stop = p.stop ∧ p'.nested = p.nested := by
  refine KeepsModes.run (x := discreteFeature name value) ?_ h
  unfold discreteFeature Prog.eqIgnoreAsciiCase
  keeps
theorem C61_condition {φ : Type} {feature : Prog φ} (hf : KeepsModes feature) {n : Nat} {p p' : Parser}
    {r : Except Diag (Condition φ)} (h : (condition feature n).run p = .ok (r, p')) :
    p'.skip = p.skip ∧ p'.stop = p.stop ∧ p'.nested = p.nested := by
  refine KeepsModes.run (x := condition feature n) ?_ h
  have h1 := @isKeyword_modes
  have h2 := @keyword_modes
  have h3 := @conditionLoop_modes φ feature hf
  have h4 := @buildKeyword_modes
  unfold condition
  keeps <;> first | exact h1 _ | exact h2 | exact h3 _ _ _ _ | exact h4 _

/-- An error does occur with the modes changed in between: `a b` has no block, and the stop set is back to what it was. -/
example : ((rule 10).run { Parser.new c!"a b" with stop := KindSet.new [.comma] }).map (fun r => (r.1.toOption.isSome, r.2.stop == KindSet.new [.comma], r.2.offset))
    = .ok (false, true, 3) := by decide +kernel

/-- With C35: for the grammars above, a failed `try_parse` leaves no trace at all. -/
theorem C35_no_trace {α : Type} {p p' : Parser} {prog : Prog α} (hk : KeepsModes prog) {d : Diag} (he : p.errors.length < 256)
    (hs : byteLen p.lexer.source < 65536) (hf : Fits p.trivia p.lexer) (h : Parser.tryParse prog.run p = .ok (.error d, p')) : p' = p := by
  obtain ⟨_, _, _, h4⟩ := C35_partial he hs hf h
  unfold Parser.tryParse at h
  cases hr : prog.run p with
  | error e => rw [hr] at h; cases h
  | ok y =>
    obtain ⟨r, q⟩ := y
    rw [hr] at h
    have hm := hk.run hr
    cases r with
    | ok a => simp only [Except.ok.injEq, Prod.mk.injEq] at h; cases h.1
    | error d' =>
      simp only [Except.ok.injEq, Prod.mk.injEq] at h
      obtain ⟨_, rfl⟩ := h
      exact h4 hm.1 hm.2.1 hm.2.2

/-- The rules of a style sheet are such a grammar. -/
theorem C35_rule {n : Nat} {p p' : Parser} {d : Diag} (he : p.errors.length < 256)
    (hs : byteLen p.lexer.source < 65536) (hf : Fits p.trivia p.lexer) (h : Parser.tryParse (rule n).run p = .ok (.error d, p')) : p' = p :=
  C35_no_trace (rule_modes n) he hs hf h

end Hdx

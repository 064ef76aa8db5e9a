/-
Property C80: the parts of the rules of a style sheet are what they are labelled as.
-/
import Verif.Spec.RuleLabels
import Verif.Lemmas.EveryDeclaration
import Verif.Props.ValueSound

namespace Hdx
open Spec Prog

variable {τ : Type} {V : Values τ} {src : List Char}

/-! ### Lists -/

namespace Says
variable {α β ρ δ φ ν : Type} {P : α → Prop} {R : ρ → Prop} {D : δ → Prop} {F : φ → Prop} {N : ν → Prop}

theorem called {c : Cursor} {name : List Char} : Says src (Prog.eqIgnoreAsciiCase c name) fun b => b = true → Called src c name :=
  ask fun p a hp ha hb => .inr (by rw [hp] at ha; rw [ha, hb])
theorem setState {s : Bool} {k : Bool → Prog α} (h : ∀ o, Says src (k o) P) : Says src (Prog.setState s k) P := Runs.setState (I := fun p => p.lexer.source = src) h
theorem setStop {s : KindSet} {k : KindSet → Prog α} (h : ∀ o, Says src (k o) P) : Says src (Prog.setStop s k) P := Runs.setStop (I := fun p => p.lexer.source = src) h
theorem read {k : Parser → Prog α} (h : ∀ p, Says src (k p) P) : Says src (Prog.read k) P := Runs.read (I := fun p => p.lexer.source = src) h

theorem snoc {xs : List α} {x : α} (h : ∀ a ∈ xs, P a) (hx : P x) : ∀ a ∈ xs ++ [x], P a := by
  intro a ha
  rcases List.mem_append.mp ha with ha | ha
  · exact h a ha
  · rw [List.mem_singleton.mp ha]; exact hx

theorem ruleListLoop {item : Prog ρ} (h : Says src item R) : ∀ n items, (∀ r ∈ items, R r) →
    Says src (Hdx.ruleListLoop item n items) fun x => (∀ r ∈ x.1, R r) ∧ Closes .rightCurly x.2
  | 0, _, _ => .panic
  | n + 1, items, hi => by
    unfold Hdx.ruleListLoop
    refine then_ fun _ => then_ fun _ => ite (fun _ => .pure ⟨hi, nofun⟩) fun _ => then_ fun _ => ite (fun _ => bind kind fun c hc => .pure ⟨hi, ?_⟩) fun _ => ?_
    · rintro _ ⟨⟩; exact hc
    exact bind h fun r hr => ruleListLoop h n _ (snoc hi hr)
theorem ruleList {item : Prog ρ} (h : Says src item R) (n : Nat) : Says src (Hdx.ruleList item n) fun b => (∀ r ∈ b.items, R r) ∧ Braces b.opening b.close := by
  unfold Hdx.ruleList
  exact bind kind fun o ho => bind (ruleListLoop h n [] nofun) fun ⟨items, close⟩ hx => .pure ⟨hx.1, ho, hx.2⟩

theorem declarationListLoop {item : Prog δ} (h : Says src item D) : ∀ n items, CommaLabel D .semicolon items →
    Says src (Hdx.declarationListLoop item n items) fun x => CommaLabel D .semicolon x.1 ∧ Closes .rightCurly x.2
  | 0, _, _ => .panic
  | n + 1, items, hi => by
    unfold Hdx.declarationListLoop
    refine then_ fun _ => ite (fun _ => .pure ⟨hi, nofun⟩) fun _ => then_ fun _ => ite (fun _ => bind kind fun c hc => .pure ⟨hi, ?_⟩) fun _ => ?_
    · rintro _ ⟨⟩; exact hc
    exact bind h fun r hr => bind closes fun s hs => declarationListLoop h n _ (snoc hi ⟨hr, hs⟩)
theorem declarationList {item : Prog δ} (h : Says src item D) (n : Nat) :
    Says src (Hdx.declarationList item n) fun b => CommaLabel D .semicolon b.items ∧ Braces b.opening b.close := by
  unfold Hdx.declarationList
  exact bind kind fun o ho => bind (declarationListLoop h n [] nofun) fun ⟨items, close⟩ hx => .pure ⟨hx.1, ho, hx.2⟩

theorem declarationRuleListLoop {decl : Prog δ} {rule : Prog ρ} (hd : Says src decl D) (hr : Says src rule R) : ∀ n ds rs, CommaLabel D .semicolon ds → (∀ r ∈ rs, R r) →
    Says src (Hdx.declarationRuleListLoop decl rule n ds rs) fun x => (CommaLabel D .semicolon x.1.1 ∧ ∀ r ∈ x.1.2, R r) ∧ Closes .rightCurly x.2
  | 0, _, _, _, _ => .panic
  | n + 1, ds, rs, h1, h2 => by
    unfold Hdx.declarationRuleListLoop
    refine then_ fun _ => ite (fun _ => .pure ⟨⟨h1, h2⟩, nofun⟩) fun _ => then_ fun _ => ite (fun _ => bind kind fun c hc => .pure ⟨⟨h1, h2⟩, ?_⟩) fun _ =>
      ite (fun _ => bind hr fun r hr' => declarationRuleListLoop hd hr n _ _ h1 (snoc h2 hr')) fun _ =>
      ite (fun _ => bind hd fun d hd' => bind closes fun s hs => declarationRuleListLoop hd hr n _ _ (snoc h1 ⟨hd', hs⟩) h2) fun _ => then_ fun _ => .fail
    rintro _ ⟨⟩; exact hc
theorem declarationRuleList {decl : Prog δ} {rule : Prog ρ} (hd : Says src decl D) (hr : Says src rule R) (n : Nat) :
    Says src (Hdx.declarationRuleList decl rule n) fun b => (CommaLabel D .semicolon b.declarations ∧ ∀ r ∈ b.rules, R r) ∧ Braces b.opening b.close := by
  unfold Hdx.declarationRuleList
  exact bind kind fun o ho => bind (declarationRuleListLoop hd hr n [] [] nofun nofun) fun ⟨⟨ds, rs⟩, close⟩ hx => .pure ⟨hx.1, ho, hx.2⟩

theorem blockLoop {isDecl : Cursor → Prog Bool} {decl : Prog δ} {rule : Prog ρ} (hd : Says src decl D) (hr : Says src rule R) : ∀ n ds rs, CommaLabel D .semicolon ds → (∀ r ∈ rs, R r) →
    Says src (Hdx.blockLoop isDecl decl rule n ds rs) fun x => CommaLabel D .semicolon x.1 ∧ ∀ r ∈ x.2, R r
  | 0, _, _, _, _ => .panic
  | n + 1, ds, rs, h1, h2 => by
    have more : ∀ old, Says src (do
        let r ← Prog.result rule
        Prog.setState old fun _ => do
          let r ← Prog.ofResult r
          Hdx.blockLoop isDecl decl rule n ds (rs ++ [r])) fun x => CommaLabel D .semicolon x.1 ∧ ∀ r ∈ x.2, R r := by
      intro old
      exact bind (result hr) fun r hr' => setState fun _ => bind (ofResult hr') fun r hr' => blockLoop hd hr n _ _ h1 (snoc h2 hr')
    unfold Hdx.blockLoop
    refine then_ fun _ => ite (fun _ => blockLoop hd hr n _ _ h1 h2) fun _ => then_ fun _ => ite (fun _ => blockLoop hd hr n _ _ h1 h2) fun _ => then_ fun _ =>
      ite (fun _ => .pure ⟨h1, h2⟩) fun _ => then_ fun _ => ite (fun _ => .pure ⟨h1, h2⟩) fun _ => setState fun old => then_ fun _ =>
      ite (fun _ => more old) fun _ => bind (result (ifPeek (tryParse hd))) fun d hd' => ?_
    match d with
    | .ok (some d) => exact setState fun _ => bind closes fun s hs => blockLoop hd hr n _ _ (snoc h1 ⟨hd' _ rfl d rfl, hs⟩) h2
    | .ok none => exact more old
    | .error _ => exact more old
theorem blockOf {isDecl : Cursor → Prog Bool} {decl : Prog δ} {rule : Prog ρ} (hd : Says src decl D) (hr : Says src rule R) (n : Nat) :
    Says src (Hdx.blockOf isDecl decl rule n) fun b => (CommaLabel D .semicolon b.declarations ∧ ∀ r ∈ b.rules, R r) ∧ Braces b.opening b.close := by
  unfold Hdx.blockOf
  exact bind kind fun o ho => bind (blockLoop hd hr n [] [] nofun nofun) fun ⟨ds, rs⟩ hx => bind closes fun c hc => .pure ⟨hx, ho, hc⟩

theorem atRuleAny {prelude : Prog α} {block : Prog β} {B : β → Prop} (hb : Says src block B) :
    Says src (Hdx.atRule none prelude block) fun x => IsKind .atKeyword x.1 ∧ B x.2.2 := by
  unfold Hdx.atRule
  refine bind kind fun at' ha => ?_
  have rest : ∀ (ok : Bool), Says src (if (!ok) = true then Prog.fail .other at' else (do
      let c ← Prog.peek
      let e ← Prog.atEnd
      let pre ← if e || c.token.inSet KindSet.LEFT_CURLY_OR_SEMICOLON then Pure.pure none else do
        let a ← prelude
        Pure.pure (some a)
      let b ← block
      Pure.pure (at', pre, b))) fun x => IsKind .atKeyword x.1 ∧ B x.2.2 := by
    intro ok
    exact ite (fun _ => .fail) fun _ => then_ fun _ => then_ fun _ => ite (fun _ => then_ fun o => bind hb fun b hb => .pure ⟨ha, hb⟩) fun _ =>
      then_ fun a => then_ fun o => bind hb fun b hb => .pure ⟨ha, hb⟩
  exact rest true
theorem atRule {name : List Char} {prelude : Prog α} {block : Prog β} {B : β → Prop} (hp : Says src prelude P) (hb : Says src block B) :
    Says src (Hdx.atRule (some name) prelude block) fun x => AtNamed src name x.1 ∧ (∀ a ∈ x.2.1, P a) ∧ B x.2.2 := by
  unfold Hdx.atRule
  refine bind kind fun at' ha => bind called fun ok hok => ?_
  refine ite (fun _ => .fail) fun hn => then_ fun _ => then_ fun _ => ?_
  have hc : AtNamed src name at' := ⟨ha, hok (by simpa using hn)⟩
  refine ite (fun _ => bind (P := fun o => o = none) (.pure rfl) fun o ho => bind hb fun b hb => .pure ⟨hc, ?_, hb⟩) fun _ =>
    bind hp fun a ha' => bind (P := fun o => o = some a) (.pure rfl) fun o ho => bind hb fun b hb => .pure ⟨hc, ?_, hb⟩
  · subst ho; nofun
  · subst ho
    intro x hx
    cases hx
    exact ha'

theorem qualifiedRule {γ : Type} {prelude : Prog α} {block : Prog β} {bad : Prog γ} {B : β → Prop} (hp : Says src prelude P) (hb : Says src block B) :
    Says src (Hdx.qualifiedRule prelude block bad) fun x => P x.1 ∧ B x.2 := Runs.qualifiedRule (I := fun p => p.lexer.source = src) hp hb

theorem commaPreludeLoop {item : Prog α} (h : Says src item P) : ∀ n items, CommaLabel P .comma items →
    Says src (Hdx.commaPreludeLoop item n items) fun x => x ≠ [] ∧ CommaLabel P .comma x
  | 0, _, _ => .panic
  | n + 1, items, hi => by
    unfold Hdx.commaPreludeLoop
    exact bind h fun a ha => bind closes fun c hc => then_ fun _ => ite (fun _ => .pure ⟨by simp, snoc hi ⟨ha, hc⟩⟩) fun _ => commaPreludeLoop h n _ (snoc hi ⟨ha, hc⟩)
theorem commaPrelude {item : Prog α} (h : Says src item P) (n : Nat) : Says src (Hdx.commaPrelude item n) fun x => x ≠ [] ∧ CommaLabel P .comma x :=
  commaPreludeLoop h n [] nofun
theorem preludeLoop {item : Prog α} (h : Says src item P) : ∀ n items, (∀ a ∈ items, P a) → Says src (Hdx.preludeLoop item n items) fun x => x ≠ [] ∧ ∀ a ∈ x, P a
  | 0, _, _ => .panic
  | n + 1, items, hi => by
    unfold Hdx.preludeLoop
    exact bind h fun a ha => then_ fun _ => ite (fun _ => .pure ⟨by simp, snoc hi ha⟩) fun _ => preludeLoop h n _ (snoc hi ha)
theorem preludeList {item : Prog α} (h : Says src item P) (n : Nat) : Says src (Hdx.preludeList item n) fun x => x ≠ [] ∧ ∀ a ∈ x, P a := preludeLoop h n [] nofun

/-! ### Features and conditions -/

theorem comparison : Says src Hdx.comparison ComparisonLabel := by
  unfold Hdx.comparison
  refine then_ fun c => ?_
  split
  · refine ite (fun _ => bind delim fun c h => .pure h) fun _ => ite (fun _ => then_ fun b => ite (fun _ => bind doubleDelim fun x h => .pure h) fun _ => bind delim fun c h => .pure h) fun _ =>
      ite (fun _ => then_ fun b => ite (fun _ => bind doubleDelim fun x h => .pure h) fun _ => bind delim fun c h => .pure h) fun _ => .fail
  · exact .fail

theorem discreteFeature {name : List Char} {value : Prog ν} (h : Says src value N) : Says src (Hdx.discreteFeature name value) (FeatureLabel src name N) := by
  unfold Hdx.discreteFeature
  refine bind kind fun o ho => bind kind fun n hn => bind called fun b hb => ite (fun _ => .fail) fun hh => then_ fun _ => ite (fun _ => ?_) fun _ => ?_
  · exact bind kind fun c hc => bind h fun v hv => bind kind fun cl hcl => .pure ⟨ho, ⟨hn, hb (by simpa using hh)⟩, hc, hv, hcl⟩
  · exact bind kind fun cl hcl => .pure ⟨ho, ⟨hn, hb (by simpa using hh)⟩, hcl⟩

theorem rangedFeature {names legacy : List (List Char)} {old : List Char → Bool} (ho : ∀ s ∈ names, old s = legacy.contains s) {value : Prog ν} (h : Says src value N) :
    Says src (Hdx.rangedFeature names old value) (RangedLabel src names legacy N) := by
  have plain : ∀ {k : List Char} {n : Cursor}, KeywordLabel src names (k, n) → ¬ old k = true → RangedLabel.Plain src names legacy n := by
    intro k n hk ho'
    refine ⟨k, hk, fun hm => ho' ?_⟩
    rw [ho k hk.2.2]
    simpa using hm
  unfold Hdx.rangedFeature
  refine bind kind fun o ho => then_ fun c => bind (ifPeek keyword) fun n hn => ?_
  match n with
  | some (k, n) =>
    have hk := hn _ rfl
    refine then_ fun d => ite (fun _ => bind kind fun c hc => bind h fun v hv => bind kind fun cl hcl => .pure ⟨ho, ⟨k, hk⟩, hc, hv, hcl⟩) fun _ =>
      ite (fun _ => .fail) fun hl => bind comparison fun c hc => bind h fun v hv => bind kind fun cl hcl => .pure ⟨ho, plain hk hl, hc, hv, hcl⟩
  | none =>
    refine bind h fun l hl => bind comparison fun c hc => then_ fun _ => bind keyword fun ⟨k, n⟩ hk => ite (fun _ => .fail) fun ho' => then_ fun d =>
      ite (fun _ => bind kind fun cl hcl => .pure ⟨ho, hl, hc, plain hk ho', hcl⟩) fun _ => bind comparison fun c' hc' => bind h fun r hr => bind kind fun cl hcl =>
        .pure ⟨ho, hl, hc, plain hk ho', hc', hr, hcl⟩

theorem conditionLoop {feature : Prog φ} (h : Says src feature F) : ∀ n fs fe kw, F fe →
    Says src (Hdx.conditionLoop feature n fs fe kw) fun r => ∃ rest, r = fs ++ (fe, some kw) :: rest ∧ ∀ x ∈ rest, F x.1 ∧ ∀ k ∈ x.2, ConditionWord src c!"and" k
  | 0, _, _, _, _ => .panic
  | n + 1, fs, fe, kw, hf => by
    unfold Hdx.conditionLoop
    have last : ∀ g, F g → Says src (Pure.pure ((fs ++ [(fe, some kw)]) ++ [(g, none)])) fun r =>
        ∃ rest, r = fs ++ (fe, some kw) :: rest ∧ ∀ x ∈ rest, F x.1 ∧ ∀ k ∈ x.2, ConditionWord src c!"and" k :=
      fun g hg => .pure ⟨[(g, none)], by simp, by simpa using hg⟩
    refine bind h fun g hg => then_ fun c => bind (isKeyword c) fun b hb => ite (fun hbt => bind buildKeyword fun ⟨v, k⟩ hk => ite (fun hv => ?_) fun _ => last g hg) fun _ => last g hg
    refine (conditionLoop h n _ g k hg).mono fun r ⟨rest, e, hr⟩ => ⟨(g, some k) :: rest, by simp [e], ?_⟩
    intro x hx
    rcases List.mem_cons.mp hx with rfl | hx
    · refine ⟨hg, ?_⟩
      rintro _ ⟨⟩
      obtain ⟨e1, e2, e3⟩ := hk
      dsimp only at e1 e2
      subst e1
      rw [beq_iff_eq.mp hv] at e2
      exact ⟨(hb.1 hbt).1, e2⟩
    · exact hr x hx

theorem condition {feature : Prog φ} (h : Says src feature F) (n : Nat) : Says src (Hdx.condition feature n) (ConditionLabel src F) := by
  unfold Hdx.condition
  refine then_ fun c => then_ fun b => ite (fun _ => then_ fun v => ite (fun _ => bind h fun f hf => .pure hf) fun _ => .fail) fun _ =>
    bind h fun f hf => bind (ifPeek keyword) fun kw hkw => ?_
  match kw with
  | none => exact .pure hf
  | some (k, c) =>
    obtain ⟨hc, hn, hm⟩ := hkw _ rfl
    refine ite (fun hk => bind (conditionLoop h n _ _ _ hf) fun fs ⟨rest, e, hr⟩ => .pure ?_) fun hk =>
      ite (fun hk => bind (conditionLoop h n _ _ _ hf) fun fs ⟨rest, e, hr⟩ => .pure ?_) fun hk' => bind h fun g hg => .pure ⟨⟨hc, ?_⟩, hg⟩
    · subst e
      intro x hx
      rcases List.mem_cons.mp hx with rfl | hx
      · refine ⟨hf, ?_⟩
        rintro _ ⟨⟩
        exact ⟨hc, by rw [← beq_iff_eq.mp hk]; exact hn⟩
      · exact hr x hx
    · exact ⟨f, c, rest, e, hf, ⟨hc, by rw [← beq_iff_eq.mp hk]; exact hn⟩, hr⟩
    · have : k = c!"not" := by
        simp only [CONDITION_KEYWORDS, List.mem_cons, List.not_mem_nil, or_false] at hm
        simp only [beq_iff_eq] at hk hk'
        rcases hm with h | h | h
        · exact absurd h hk
        · exact h
        · exact absurd h hk'
      rw [← this]; exact hn

theorem bang : Says src bangImportant fun i => IsDelim '!' i.bang ∧ IsWord src c!"important" i.important := by
  unfold bangImportant
  exact bind delim fun b hb => bind kind fun i hi => bind called fun c hc => ite (fun h => .pure ⟨hb, hi, hc h⟩) fun _ => .fail
theorem declarationOf {valid : Cursor → Prog Bool} {value : Cursor → Prog ν} {W : Cursor → Prop} {N : Cursor → ν → Prop}
    (hv : ∀ c, IsKind .ident c → Says src (valid c) fun b => b = true → W c) (hn : ∀ c, IsKind .ident c → Says src (value c) (N c)) :
    Says src (Hdx.declarationOf valid value) fun d => DeclLabel src d ∧ W d.name ∧ N d.name d.value := by
  unfold Hdx.declarationOf
  refine bind kind fun n h => bind (hv n h) fun b hb => ite (fun _ => .fail) fun h' => bind kind fun c hc => bind (hn n h) fun v hv => bind (ifPeek bang) fun i hi => .pure ?_
  exact ⟨⟨h, hc, hi⟩, hb (by simpa using h'), hv⟩

end Says

/-! ### Media queries -/

theorem property_says (n : Nat) : Says src (property V n) (DeclLabel src) :=
  (Says.declarationOf (W := fun _ => True) (N := fun _ _ => True) (fun _ _ => .pure fun _ => trivial) fun _ _ => .any _).mono fun _ h => h.1

theorem Spec.RangedLabel.mono {ν : Type} {N N' : ν → Prop} {names names' legacy legacy' : List (List Char)} {f : Ranged ν} (hn : ∀ s ∈ names, s ∈ names')
    (hl : ∀ s ∈ legacy', s ∈ legacy) (hv : ∀ v, N v → N' v) (h : RangedLabel src names legacy N f) : RangedLabel src names' legacy' N' f := by
  have plain : ∀ {n : Cursor}, RangedLabel.Plain src names legacy n → RangedLabel.Plain src names' legacy' n :=
    fun {_} ⟨s, ⟨h1, h2, h3⟩, h4⟩ => ⟨s, ⟨h1, h2, hn s h3⟩, fun h => h4 (hl s h)⟩
  match f, h with
  | .left .., ⟨a, b, c, d, e⟩ => exact ⟨a, plain b, c, hv _ d, e⟩
  | .right .., ⟨a, b, c, d, e⟩ => exact ⟨a, hv _ b, c, plain d, e⟩
  | .range .., ⟨a, b, c, d, e, f, g⟩ => exact ⟨a, hv _ b, c, plain d, e, hv _ f, g⟩
  | .legacy .., ⟨a, ⟨s, b1, b2, b3⟩, c, d, e⟩ => exact ⟨a, ⟨s, b1, b2, hn s b3⟩, c, hv _ d, e⟩

theorem isCssInt_says (c : Cursor) : Says src (isCssInt c) fun b => b = true → IsInteger c := .pure fun h => by
  rw [Bool.and_eq_true] at h; exact h
theorem isCssFloat_says (c : Cursor) : Says src (isCssFloat c) fun b => b = true → IsKind .number c := .pure fun h => by
  rw [Bool.and_eq_true] at h; exact h.1

theorem mediaValue_says (v : MediaValue) : Says src v.parser (match v with
    | .length => MediaType.Takes src .lengths
    | .int => MediaType.Takes src .integers
    | .float => MediaType.Takes src .numbers) := by
  cases v with
  | length => exact Says.tok isLength_inspects isLength_says
  | int => exact Says.tok isCssInt_inspects isCssInt_says
  | float => exact Says.tok isCssFloat_inspects isCssFloat_says

/-- The row of the table of hdx agrees with the table of the specification. -/
def agrees : List Char × List (List Char) × MediaSpec → Bool
  | (label, _, .discrete name keys) => label == labelOf name && mediaTypes.any fun r => r.1 == name && (match r.2 with
    | .words ks => ks == keys
    | _ => false)
  | (label, _, .boolean name) => label == labelOf name && mediaTypes.any fun r => r.1 == name && (match r.2 with
    | .mqBoolean => true
    | _ => false)
  | (label, _, .ranged value names legacy) => wrongLabels.contains label || mediaTypes.any fun r => label == labelOf r.1 &&
      names.all (fun s => (r.1 :: minMax r.1).contains s) && (minMax r.1).all (fun s => legacy.contains s) && (match value, r.2 with
    | .length, .lengths => true
    | .int, .integers => true
    | .float, .numbers => true
    | _, _ => false)
  | (_, _, .todo) => true

theorem all_agree : ∀ r ∈ MEDIA_FEATURES, agrees r = true := by decide +kernel

theorem mediaFeatureOf_says {label : List Char} {names : List (List Char)} {spec : MediaSpec} (h : agrees (label, names, spec) = true) :
    Says src (mediaFeatureOf label spec) (MediaFeatureLabel src) := by
  match spec with
  | .discrete name keys =>
    unfold agrees at h
    rw [Bool.and_eq_true, List.any_eq_true] at h
    obtain ⟨h1, ⟨n, t⟩, hm, h2⟩ := h
    rw [Bool.and_eq_true] at h2
    obtain ⟨h2, h3⟩ := h2
    have h2 := beq_iff_eq.mp h2
    dsimp only at h2 h3
    subst h2
    match t, h3 with
    | .words ks, h3 =>
      dsimp only at h3
      have := beq_iff_eq.mp h3
      subst this
      exact Says.bind (Says.discreteFeature Says.keyword) fun f hf => .pure ⟨_, _, hm, beq_iff_eq.mp h1, hf⟩
  | .boolean name =>
    unfold agrees at h
    rw [Bool.and_eq_true, List.any_eq_true] at h
    obtain ⟨h1, ⟨n, t⟩, hm, h2⟩ := h
    rw [Bool.and_eq_true] at h2
    obtain ⟨h2, h3⟩ := h2
    have h2 := beq_iff_eq.mp h2
    dsimp only at h2 h3
    subst h2
    match t, h3 with
    | .mqBoolean, h3 => exact Says.bind (Says.discreteFeature (Says.any _)) fun f hf => .pure ⟨_, hm, beq_iff_eq.mp h1, hf⟩
  | .ranged value ns legacy =>
    unfold agrees at h
    rw [Bool.or_eq_true, List.any_eq_true] at h
    refine Says.bind (Says.rangedFeature (legacy := legacy) (fun _ _ => rfl) (mediaValue_says value)) fun f hf => .pure ?_
    rcases h with h | ⟨⟨n, t⟩, hm, h⟩
    · exact .inl (by simpa using h)
    · refine .inr ⟨n, t, hm, ?_⟩
      simp only [Bool.and_eq_true, beq_iff_eq, List.all_eq_true, List.contains_iff_mem] at h
      obtain ⟨⟨⟨h1, h2⟩, h3⟩, h4⟩ := h
      refine ⟨h1, hf.mono h2 h3 ?_⟩
      intro v hv
      match value, t, h4, hv with
      | .length, .lengths, _, hv => exact hv
      | .int, .integers, _, hv => exact hv
      | .float, .numbers, _, hv => exact hv
  | .todo => exact Says.then_ fun _ => .ofResult nofun

theorem hackFeature_says : Says src hackFeature (MediaFeatureLabel src) := by
  unfold hackFeature
  refine Says.bind .kind fun o ho => Says.bind .kind fun n hn => Says.bind .called fun b hb => Says.ite (fun _ => Says.then_ fun _ => .fail) fun h => ?_
  refine Says.bind .kind fun c hc => Says.bind .kind fun v hv => Says.bind (P := fun s => v.strSlice src = .ok s) (Says.ask fun p a hp ha => by rw [hp] at ha; exact ha) fun s hs => ?_
  refine Says.ite (fun _ => .fail) fun hne => Says.bind .kind fun cl hcl => .pure ⟨ho, ⟨hn, hb (by simpa using h)⟩, hc, hv, ?_, hcl⟩
  rw [hs]; congr 1; simpa using hne

theorem mediaSpec_agrees {name label : List Char} {spec : MediaSpec} (h : mediaSpec name = some (label, spec)) : ∃ names, agrees (label, names, spec) = true := by
  unfold mediaSpec at h
  obtain ⟨⟨l, ns, sp⟩, hf, e⟩ := Option.map_eq_some_iff.mp h
  cases e
  exact ⟨ns, all_agree _ (List.mem_of_find?_eq_some hf)⟩

theorem mediaFeature_says : Says src mediaFeature (MediaFeatureLabel src) := by
  unfold mediaFeature
  refine Says.then_ fun c => Says.ite (fun _ => Says.then_ fun s => ?_) fun _ => Says.then_ fun c4 => ?_
  · split
    · exact .fail
    · next l spec hs =>
      obtain ⟨ns, ha⟩ := mediaSpec_agrees hs
      refine Says.attempt (mediaFeatureOf_says ha) fun r h => ?_
      cases r with
      | ok f => exact .pure (h f rfl)
      | error e =>
        refine Says.bind (Says.result hackFeature_says) fun r h => ?_
        cases r with
        | ok f => exact .pure (h f rfl)
        | error _ => exact .ofResult nofun
  · have rest : ∀ c : Cursor, Says src (if (!c.token.isKind .ident) = true then do
          let c ← any
          Prog.fail .unexpected c
        else do
          let s ← strLower c
          match mediaSpec s with
          | none => Prog.fail .unexpectedIdent c
          | some (variant, spec) => mediaFeatureOf variant spec) (MediaFeatureLabel src) := by
      intro c
      refine Says.ite (fun _ => Says.then_ fun _ => .fail) fun _ => Says.then_ fun s => ?_
      split
      · exact .fail
      · next l spec hs =>
        obtain ⟨ns, ha⟩ := mediaSpec_agrees hs
        exact mediaFeatureOf_says ha
    exact Says.ite (fun _ => rest _) fun _ => Says.then_ rest

theorem buildMediaType_says {c : Cursor} (hc : IsKind .ident c) : Says src (buildMediaType c) (MediaTypeLabel src) := by
  unfold buildMediaType
  refine Says.bind .strLower fun s hs => Says.ite (fun h => .pure ⟨hc, hs, by simpa [MEDIA_TYPES] using h⟩) fun h => Says.ite (fun _ => .panic) fun h' => .pure ⟨hc, s, hs, ?_⟩
  simp only [MEDIA_TYPES, NOT_MEDIA_TYPES, List.contains_iff_mem, List.mem_cons, List.not_mem_nil, or_false, not_or] at h h' ⊢
  grind

/-- A token that was tested before it was taken. -/
theorem Says.seen {α : Type} {P : α → Prop} {test : Cursor → Prog Bool} (hi : Inspects test) {T : Cursor → Prop} (ht : ∀ c, Says src (test c) fun b => b = true → T c) {k : Kind}
    {f : Cursor → Prog α} {g : Prog α} (hf : ∀ a, T a → IsKind k a → Says src (f a) P) (hg : Says src g P) :
    Says src (Prog.peekN 1 >>= fun c => test c >>= fun b => if b = true then Prog.tok (Prog.isKind k) >>= f else g) P := by
  intro p hp a p' w h
  obtain ⟨c, p1, w1, w2, h1, h2, rfl⟩ := gives_bind_ok.mp h
  obtain ⟨c', hc, e, rfl, rfl⟩ := gives_peekN.mp h1
  cases e
  obtain ⟨b, p2, w3, w4, h3, h4, rfl⟩ := gives_bind_ok.mp h2
  obtain ⟨rfl, rfl⟩ := hi h3
  split at h4
  · next hb =>
    subst hb
    obtain ⟨d, p3, w5, w6, h5, h6, rfl⟩ := gives_bind_ok.mp h4
    obtain ⟨hn, hk, rfl⟩ := (gives_tok_pure (fun h => Inspects.kind h)).mp h5
    obtain ⟨q, hq⟩ := next_of_peekN1 hc
    rw [hn] at hq
    cases hq
    exact hf _ (ht _ hp h3 rfl) (Says.kind hp h5) ((runLog_source _ h5).1.trans hp) h6
  · exact hg hp h4

theorem mediaQueryRest_says {n : Nat} {pre : Option (List Char × Cursor)} {type : Option (Option (List Char) × Cursor)}
    (hp : ∀ k ∈ pre, KeywordLabel src [c!"not", c!"only"] k) (ht : ∀ t ∈ type, MediaTypeLabel src t) (hs : pre.isSome ∨ type.isSome) :
    Says src (mediaQueryRest n pre type) (MediaQueryLabel src) := by
  have hno : ¬ (pre = none ∧ type = none) := by rintro ⟨rfl, rfl⟩; simp at hs
  have e : mediaQueryRest n pre type = (peekN 1 >>= fun c => (if c.token.isKind .ident then Prog.eqIgnoreAsciiCase c c!"and" else pure false) >>= fun b =>
      if b = true then tok (isKind .ident) >>= fun a => condition mediaFeature n >>= fun cond => Pure.pure (⟨pre, type, some a, some cond⟩ : MediaQuery)
      else Pure.pure ⟨pre, type, none, none⟩) := by
    unfold mediaQueryRest
    congr 1; funext c
    split <;> rfl
  rw [e]
  refine Says.seen (T := fun c => Called src c c!"and") ?_ ?_ (fun a ha hk => Says.bind (Says.condition mediaFeature_says n) fun c hc => .pure ⟨hp, ht, ?_, ?_, fun h => absurd h hno, fun _ => by simp⟩)
    (.pure ⟨hp, ht, nofun, nofun, fun h => absurd h hno, fun _ => by simp⟩)
  · intro c p r p' w h
    dsimp only at h
    split at h
    · obtain ⟨_, _, _, rfl, rfl⟩ := gives_eqCase.mp h; exact ⟨rfl, rfl⟩
    · obtain ⟨_, rfl, rfl⟩ := gives_pure.mp h; exact ⟨rfl, rfl⟩
  · exact fun c => Says.ite (fun _ => .called) fun _ => .pure (by simp)
  · rintro _ ⟨⟩; exact ⟨hk, ha⟩
  · rintro _ ⟨⟩; exact hc

theorem mediaQuery_says (n : Nat) : Says src (mediaQuery n) (MediaQueryLabel src) := by
  unfold mediaQuery
  refine Says.then_ fun c => Says.ite (fun _ => Says.bind (Says.condition mediaFeature_says n) fun c hc => .pure ⟨nofun, nofun, nofun, ?_, fun _ => by simp, by simp⟩) fun _ => ?_
  · rintro _ ⟨⟩; exact hc
  refine Says.bind .kind fun c hc => Says.then_ fun b => Says.ite (fun _ => Says.bind .buildKeyword fun pre hpre => Says.then_ fun d => ?_) fun _ => Says.then_ fun b => ?_
  · obtain ⟨e, hpre⟩ := hpre
    have hpre : ∀ k ∈ some pre, KeywordLabel src [c!"not", c!"only"] k := by
      rintro _ ⟨⟩
      exact ⟨by rw [e]; exact hc, by rw [e]; exact hpre.1, hpre.2⟩
    refine Says.ite (fun _ => Says.bind .kind fun c hc => Says.then_ fun b => Says.ite (fun _ => Says.bind (buildMediaType_says hc) fun t ht => ?_) fun _ => Says.then_ fun _ => .fail)
      fun _ => mediaQueryRest_says hpre nofun (by simp)
    exact mediaQueryRest_says hpre (by rintro _ ⟨⟩; exact ht) (by simp)
  · exact Says.ite (fun _ => Says.bind (buildMediaType_says hc) fun t ht => mediaQueryRest_says nofun (by rintro _ ⟨⟩; exact ht) (by simp)) fun _ => Says.then_ fun _ => .fail

/-! ### Containers -/

theorem ratio_says : Says src Hdx.ratio RatioLabel := by
  unfold Hdx.ratio
  refine Says.bind (Says.tok isCssInt_inspects isCssInt_says) fun n hn => Says.bind (Says.ifPeek .delim) fun s hs => Says.ite (fun h => ?_) fun h => ?_
  · refine Says.bind (Says.tok isCssInt_inspects isCssInt_says) fun d hd => .pure ⟨hn, .inr ?_⟩
    obtain ⟨s, rfl⟩ := Option.isSome_iff_exists.mp h
    exact ⟨s, d, rfl, rfl, hs s rfl, hd⟩
  · exact .pure ⟨hn, .inl ⟨by simpa using h, rfl⟩⟩

theorem containerFeatureOf_says (c : Cursor) : Says src (containerFeatureOf c) (ContainerFeatureLabel src) := by
  unfold containerFeatureOf
  refine Says.then_ fun b => Says.ite (fun _ => Says.bind .buildKeyword fun ⟨k, _⟩ hk => ?_) fun _ => Says.then_ fun _ => .fail
  have old : ∀ {k : List Char}, ∀ s ∈ [k], (fun _ => false) s = ([] : List (List Char)).contains s := fun {_} _ _ => rfl
  refine Says.ite (fun _ => Says.bind (Says.rangedFeature (legacy := []) old ratio_says) fun f hf => .pure hf) fun h1 =>
    Says.ite (fun _ => Says.bind (Says.discreteFeature .keyword) fun f hf => .pure hf) fun h2 =>
    Says.bind (Says.rangedFeature (legacy := []) old (Says.tok isLength_inspects isLength_says)) fun f hf => .pure ⟨?_, hf⟩
  have hm := hk.2.2
  simp only [CONTAINER_FEATURES, List.mem_cons, List.not_mem_nil, or_false, beq_iff_eq] at hm h1 h2 ⊢
  grind

theorem containerFeature_says : Says src containerFeature (ContainerFeatureLabel src) := by
  unfold containerFeature
  refine Says.then_ fun c => Says.ite (fun _ => .panic) fun _ => Says.then_ fun c2 => Says.ite (fun _ => containerFeatureOf_says _) fun _ => Says.then_ fun c3 => ?_
  exact Says.ite (fun _ => containerFeatureOf_says _) fun _ => Says.then_ fun c => containerFeatureOf_says _

theorem containerCondition_says (n : Nat) : Says src (containerCondition n) (ContainerLabel src) := by
  have e : containerCondition n = (peekN 1 >>= fun c => (if c.token.isKind .ident then do
        let s ← strLower c
        pure (!NOT_CONTAINER_NAMES.contains s)
      else pure false) >>= fun b =>
      if b = true then tok (isKind .ident) >>= fun name => (do
        let q ← ifPeek (fun c => pure (c.token.isKind .function || c.token.isKind .ident)) (condition containerFeature n)
        Pure.pure (⟨some name, q⟩ : ContainerCondition))
      else do
        let q ← condition containerFeature n
        Pure.pure ⟨none, some q⟩) := by
    unfold containerCondition
    congr 1; funext c
    split
    · refine congrArg Prog.read (funext fun p => ?_)
      dsimp only
      cases c.parseStrLower p.lexer.source <;> rfl
    · rfl
  rw [e]
  refine Says.seen (T := fun c => ∃ s, Named src c s ∧ s ∉ [c!"none", c!"and", c!"not", c!"or"]) ?_ ?_ (fun a ha hk => ?_) ?_
  · intro c p r p' w h
    dsimp only at h
    split at h
    · rcases gives_bind.mp h with ⟨s, p1, w1, w2, h1, h2, rfl⟩ | ⟨d, h1, _⟩
      · obtain ⟨_, _, _, rfl, rfl⟩ := gives_strLower.mp h1
        obtain ⟨_, rfl, rfl⟩ := gives_pure.mp h2
        exact ⟨rfl, rfl⟩
      · obtain ⟨_, _, e, _⟩ := gives_strLower.mp h1; cases e
    · obtain ⟨_, rfl, rfl⟩ := gives_pure.mp h; exact ⟨rfl, rfl⟩
  · exact fun c => Says.ite (fun _ => Says.bind .strLower fun s hs => .pure fun h => ⟨s, hs, by simpa [NOT_CONTAINER_NAMES] using h⟩) fun _ => .pure (by simp)
  · exact Says.bind (Says.ifPeek (Says.condition containerFeature_says n)) fun q hq => .pure ⟨by rintro _ ⟨⟩; exact ⟨hk, ha⟩, hq, nofun⟩
  · exact Says.bind (Says.condition containerFeature_says n) fun q hq => .pure ⟨nofun, by rintro _ ⟨⟩; exact hq, fun _ => rfl⟩

/-! ### Parts of at-rules -/

theorem keyframesName_says : Says src keyframesName (KeyframesNameLabel src) := by
  unfold keyframesName
  refine Says.then_ fun c => Says.ite (fun _ => Says.kind.mono fun _ h => .inl h) fun _ => Says.bind .kind fun c hc => Says.bind .str fun s hs =>
    Says.ite (fun _ => .fail) fun h => .pure (.inr ⟨hc, s, hs, by simpa [RESERVED_KEYFRAMES] using h⟩)

theorem upTo100 {w : BitVec 32} (h : f32UpTo100 w = true) : AtLeast 0 w ∧ AtMost 100 w := by
  have e : F32.ofRat 100 1 = 0x42c80000 := by decide +kernel
  have hu := units_ofRat (n := 100) (by decide)
  rw [e] at hu
  simp only [f32UpTo100, Bool.or_eq_true, decide_eq_true_eq, beq_iff_eq] at h
  rcases h with h | rfl
  · exact ⟨.inl ⟨Nat.lt_of_le_of_lt h (by decide +kernel), by simp⟩, .inr (by rw [← hu]; exact units_mono h)⟩
  · exact ⟨.inr ⟨rfl, by decide⟩, .inl (by decide)⟩

theorem keyframeSelector_says : Says src keyframeSelector (KeyframeSelectorLabel src) := by
  unfold keyframeSelector
  refine Says.bind (Says.ifPeek .keyword) fun o ho => ?_
  match o with
  | some (k, c) =>
    obtain ⟨h1, h2, h3⟩ := ho _ rfl
    refine Says.ite (fun h => .pure ⟨h1, by rw [← beq_iff_eq.mp h]; exact h2⟩) fun h => .pure ⟨h1, ?_⟩
    have : k = c!"to" := by
      simp only [List.mem_cons, List.not_mem_nil, or_false] at h3
      rcases h3 with h3 | h3
      · exact absurd (beq_iff_eq.mpr h3) h
      · exact h3
    rw [← this]; exact h2
  | none =>
    exact Says.bind (Says.tok (isDimensionOf_inspects _) isPercent_says) fun c hc => Says.ite (fun h => .pure ⟨hc, upTo100 h⟩) fun _ => .fail

theorem layerNameLoop_says : ∀ n parts, (∀ x ∈ parts, IsDelim '.' x.1 ∧ IsKind .ident x.2) →
    Says src (layerNameLoop n parts) fun parts => ∀ x ∈ parts, IsDelim '.' x.1 ∧ IsKind .ident x.2
  | 0, _, _ => .panic
  | n + 1, parts, h => by
    unfold layerNameLoop
    exact Says.then_ fun _ => Says.then_ fun _ => Says.ite (fun _ => Says.bind .delim fun d hd => Says.bind .kind fun i hi => layerNameLoop_says n _ (Says.snoc h ⟨hd, hi⟩)) fun _ => .pure h
theorem layerName_says (n : Nat) : Says src (layerName n) LayerNameLabel := by
  unfold layerName
  exact Says.bind .kind fun f hf => Says.bind (layerNameLoop_says n [] nofun) fun ps hp => .pure ⟨hf, hp⟩

theorem pagePseudoClass_says : Says src pagePseudoClass fun x => IsKind .colon x.2.1 ∧ KeywordLabel src [c!"left", c!"right", c!"first", c!"blank"] (x.1, x.2.2) := by
  unfold pagePseudoClass
  exact Says.bind .kind fun c hc => Says.setSkip fun _ => Says.bind (Says.result .keyword) fun k hk => Says.setSkip fun _ => Says.bind (.ofResult hk) fun ⟨k, i⟩ hk => .pure ⟨hc, hk⟩
theorem pagePseudosLoop_says : ∀ n ps, (∀ x ∈ ps, IsKind .colon x.2.1 ∧ KeywordLabel src [c!"left", c!"right", c!"first", c!"blank"] (x.1, x.2.2)) →
    Says src (pagePseudosLoop n ps) fun ps => ∀ x ∈ ps, IsKind .colon x.2.1 ∧ KeywordLabel src [c!"left", c!"right", c!"first", c!"blank"] (x.1, x.2.2)
  | 0, _, _ => .panic
  | n + 1, ps, h => by
    unfold pagePseudosLoop
    exact Says.then_ fun _ => Says.ite (fun _ => Says.bind pagePseudoClass_says fun x hx => pagePseudosLoop_says n _ (Says.snoc h hx)) fun _ => .pure h
theorem pageSelector_says (n : Nat) : Says src (pageSelector n) (PageSelectorLabel src) := by
  unfold pageSelector
  exact Says.bind .closes fun t ht => Says.bind (pagePseudosLoop_says n [] nofun) fun ps hp => .pure ⟨ht, hp⟩

theorem documentMatcher_says : Says src documentMatcher (MatcherLabel src) := by
  unfold documentMatcher
  refine Says.then_ fun c => Says.ite (fun _ => Says.bind .kind fun c hc => .pure hc) fun _ => Says.bind functionOf_says fun ⟨k, f⟩ hf => Says.bind .kind fun s hs => Says.bind .kind fun c hc => ?_
  obtain ⟨h1, h2, h3⟩ := hf
  refine Says.ite (fun h => .pure ⟨h1, by rw [← beq_iff_eq.mp h]; exact h2, hs, hc⟩) fun h => ?_
  have : MatcherLabel src (.urlPrefix f s c) := by
    refine ⟨k, ?_, h1, h2, hs, hc⟩
    simp only [DOCUMENT_FUNCTIONS, List.mem_cons, List.not_mem_nil, or_false] at h3 ⊢
    rcases h3 with h3 | h3
    · exact absurd (beq_iff_eq.mpr h3) h
    · exact h3
  exact Says.ite (fun _ => .pure this) fun _ => Says.ite (fun _ => .pure this) fun _ => Says.ite (fun _ => .pure this) fun _ => .pure this

theorem propertyRuleValue_says {n : Nat} (name : Cursor) (hn : IsKind .ident name) : Says src (propertyRuleValue n name) (PropertyValueLabel src name) := by
  unfold propertyRuleValue
  refine Says.bind (.isKeyword name) fun b hb => Says.ite (fun h => Says.bind .buildKeyword fun ⟨k, _⟩ hk => ?_) fun h => Says.then_ fun vs => .pure fun s hs hn' => ?_
  · obtain ⟨_, h2, h3⟩ := hk
    refine Says.ite (fun h => Says.then_ fun vs => .pure (by rw [PropertyValueLabel, ← beq_iff_eq.mp h]; exact h2)) fun ha => Says.ite (fun h => Says.bind .keyword fun ⟨k, c⟩ hk => .pure
      ⟨by rw [← beq_iff_eq.mp h]; exact h2, hk⟩) fun hb => Says.bind .kind fun c hc => .pure ⟨?_, hc⟩
    have : k = c!"syntax" := by
      simp only [PROPERTY_RULE_NAMES, List.mem_cons, List.not_mem_nil, or_false, beq_iff_eq] at h3 ha hb
      grind
    rw [← this]; exact h2
  · obtain ⟨t, ht, hm⟩ := hb.2 (by simpa using h) hn
    rw [hn'.det ht] at hs
    apply hm
    simp only [PROPERTY_RULE_NAMES, List.mem_cons, List.not_mem_nil, or_false] at hs ⊢
    grind

theorem propertyRuleProperty_says (n : Nat) : Says src (propertyRuleProperty n) fun d => DeclLabel src d ∧ PropertyValueLabel src d.name d.value ∧ d.important = none := by
  unfold propertyRuleProperty
  refine Says.bind (Says.declarationOf (W := fun _ => True) (fun _ _ => .pure fun _ => trivial) propertyRuleValue_says) fun d hd => ?_
  split
  · exact .fail
  · next h => exact .pure ⟨hd.1, hd.2.2, h⟩

theorem fontFaceProperty_says (n : Nat) : Says src (fontFaceProperty V n) fun d => DeclLabel src d ∧ ∃ n ∈ fontDescriptors, ConditionWord src n d.name := by
  refine (Says.declarationOf (W := fun c => ∃ n ∈ fontDescriptors, ConditionWord src n c) (N := fun _ _ => True) (fun c hc => ?_) fun _ _ => .any _).mono fun _ h => ⟨h.1, h.2.1⟩
  refine (Says.isKeyword c).mono fun b h hb => ?_
  obtain ⟨h1, s, hs, hm⟩ := h.1 hb
  have : ∀ s ∈ FONT_FACE_NAMES, s ∈ fontDescriptors := by decide
  exact ⟨s, this s hm, h1, hs⟩

theorem keyframe_says (n : Nat) : Says src (keyframe V n) (KeyframeLabel src) := by
  unfold keyframe
  exact Says.bind (Says.qualifiedRule (Says.commaPrelude keyframeSelector_says n) (Says.declarationList (property_says n) n)) fun ⟨s, b⟩ h => .pure ⟨h.1.1, h.1.2, h.2.2, h.2.1⟩

theorem marginRule_says (n : Nat) : Says src (marginRule V n) fun m => (∃ n ∈ marginNames, AtNamed src n m.atKeyword) ∧ Braces m.block.opening m.block.close ∧
    CommaLabel (DeclLabel src) .semicolon m.block.items := by
  unfold marginRule
  refine Says.bind (Says.atRuleAny (Says.declarationList (property_says n) n)) fun ⟨a, _, b⟩ h => Says.bind .strLower fun s hs => Says.ite (fun hm => .pure ⟨?_, h.2.2, h.2.1⟩) fun _ =>
    Says.then_ fun _ => .fail
  rw [Bool.and_eq_true, List.contains_iff_mem] at hm
  have : ∀ s ∈ MARGIN_NAMES, s ∈ marginNames := by decide
  exact ⟨s, this s hm.2, h.1, .inl hs⟩

theorem next_end {p p' : Parser} {c : Cursor} (h : p.next = .ok (c, p')) : p'.lexer.offset = c.offset + c.token.len.toNat := by
  unfold Parser.next at h
  cases hn : Parser.nextLoop p.skip p.lexer p.trivia with
  | error e => rw [hn] at h; cases h
  | ok r =>
    obtain ⟨c', l', tr'⟩ := r
    rw [hn] at h
    simp only [Except.map, Except.ok.injEq, Prod.mk.injEq] at h
    obtain ⟨rfl, rfl⟩ := h
    show l'.offset = _
    revert hn
    generalize p.lexer = l, p.trivia = tr, p.skip = sk
    intro hn
    induction l, tr using Parser.nextLoop.induct (skip := sk) with
    | case1 l tr e he => rw [Parser.nextLoop] at hn; split at hn <;> simp_all
    | case2 l tr t l2 he hk =>
      rw [Parser.nextLoop] at hn
      split at hn
      · cases hn
      · rename_i h2
        rw [he] at h2
        cases h2
        rw [if_pos hk] at hn
        cases hn
        exact (advance_keeps he).2.2
    | case3 l tr t l2 he hk hz =>
      rw [Parser.nextLoop] at hn
      split at hn
      · cases hn
      · rename_i h2
        rw [he] at h2
        cases h2
        rw [if_neg hk, dif_pos hz] at hn
        cases hn
    | case4 l tr t l2 he hk hz ih =>
      rw [Parser.nextLoop] at hn
      split at hn
      · cases hn
      · rename_i h2
        rw [he] at h2
        cases h2
        rw [if_neg hk, dif_neg hz] at hn
        exact ih hn

theorem next_none {p p' : Parser} {c : Cursor} (hp : p.skip = KindSet.NONE) (h : p.next = .ok (c, p')) : c.offset = p.lexer.offset := by
  unfold Parser.next at h
  rw [Parser.nextLoop] at h
  split at h
  · cases h
  · rw [if_pos (by rw [hp, inSet_none]; simp)] at h
    cases h
    rfl

/-- The name of a pseudo-class follows the colon at once. -/
theorem pseudoClassOf_touches {names : List (List Char)} : Says src (pseudoClassOf names) fun r => Touch r.2.1 r.2.2 := by
  intro p hp
  unfold pseudoClassOf
  refine Succ.bind (Succ.tok Inspects.kind fun c p1 h1 _ _ => ?_)
  refine Succ.bind (Succ.mono (Q := fun a _ _ => a.2.offset = p1.lexer.offset) ?_ fun a p2 w2 h2 => Succ.pure ?_)
  · unfold adjacentName
    refine Succ.setSkip (Succ.bind (Succ.result (Succ.tok Inspects.kind fun i p2 h2 _ _ => Succ.setSkip (Succ.bind (Succ.ofOk ?_))) fun d p2 w2 _ => ?_))
    · exact Succ.bind (Succ.strLower fun s => Succ.ite (fun _ => Succ.pure (next_none (p := { p1 with skip := KindSet.NONE }) rfl h2)) fun _ => Succ.bind (Succ.str fun _ => Succ.fail))
    · exact Succ.setSkip (Succ.bind Succ.ofErr)
  · show _ = _
    rw [h2, next_end h1]

theorem pseudoClass_touches : Says src pseudoClass fun r => Touch r.2.2.1 r.2.2.2 := by
  unfold pseudoClass
  refine Says.attempt pseudoClassOf_touches fun r hr => ?_
  cases r with
  | ok a => exact Says.pure (hr a rfl)
  | error e =>
    refine Says.then_ fun c => ?_
    exact tryVendors_says (P := fun v (a : List Char × Cursor × Cursor) => Touch a.2.1 a.2.2) (fun v => pseudoClassOf_touches) failReading_says _

theorem Says.and {α : Type} {x : Prog α} {P Q : α → Prop} (h : Says src x P) (h' : Says src x Q) : Says src x fun a => P a ∧ Q a := fun _ hp _ _ _ hg => ⟨h hp hg, h' hp hg⟩

theorem selectorComponent_piece {compound : Prog (List Sel)} {list : Prog (List (List Sel × Option Cursor))} (n : Nat) :
    Says src (selectorComponent compound list n) (PieceLabel src) := by
  have fpc : Says src (functionalPseudoClass list n) (PieceLabel src) := by
    unfold functionalPseudoClass
    refine .setSkip fun _ => .then_ fun _ => .then_ fun _ => .setSkip fun _ => .then_ fun _ => .then_ fun _ => ?_
    unfold functionalPseudoClassValue
    exact .ite (fun _ => .then_ fun _ => .then_ fun _ => .pure trivial) fun _ => .ite (fun _ => .then_ fun _ => .then_ fun _ => .pure trivial) fun _ =>
      .ite (fun _ => .then_ fun _ => .then_ fun _ => .pure trivial) fun _ => .ite (fun _ => .then_ fun _ => .then_ fun _ => .pure trivial) fun _ => .then_ fun _ => .then_ fun _ => .pure trivial
  have fpe : Says src (functionalPseudoElement compound n) (PieceLabel src) := by
    unfold functionalPseudoElement
    exact .then_ fun _ => .then_ fun _ => .then_ fun _ => .ite (fun _ => .then_ fun _ => .then_ fun _ => .pure trivial) fun _ =>
      .ite (fun _ => .then_ fun _ => .then_ fun _ => .pure trivial) fun _ => .ite (fun _ => .then_ fun _ => .then_ fun _ => .pure trivial) fun _ => .fail
  have ns : Says src namespaceSelector (fun n => PieceLabel src (.ns n)) := namespaceSelector_says.mono fun a h => by unfold PieceLabel Label; exact h
  unfold selectorComponent
  refine .setSkip fun _ => .then_ fun c => .ite (fun _ => ?_) fun _ => .ite (fun _ => ?_) fun _ => .ite (fun _ => .setSkip fun _ => .bind attributeSelector_says fun a ha => .pure ha) fun _ =>
    .ite (fun _ => .ite (fun _ => ?_) fun _ => .ite (fun _ => ?_) fun _ => .setSkip fun _ => .bind combinator_says fun a ha => .pure ha) fun _ => .ite (fun _ => ?_) fun _ => ?_
  · unfold selIdent
    refine .then_ fun _ => .ite (fun _ => .setSkip fun _ => .bind ns fun n hn => .pure hn) fun _ => .then_ fun c => .setSkip fun _ => .ite (fun hk => ?_) fun _ => .then_ fun _ => .fail
    exact .bind (buildTag_says hk) fun t ht => .pure (by show TagLabel src t.1 t.2; rw [ht.1]; exact ht.2)
  · exact .then_ fun c => .setSkip fun _ => .ite (fun h => .pure h) fun _ => .then_ fun _ => .fail
  · refine .then_ fun _ => .setSkip fun _ => .ite (fun _ => ?_) fun _ => .fail
    unfold classSelector
    exact Says.bind Says.delim fun d hd => Says.bind Says.kind fun n hn => Says.pure ⟨hd, hn⟩
  · exact .then_ fun _ => .setSkip fun _ => .ite (fun _ => .bind ns fun n hn => .pure hn) fun _ => .then_ fun _ => .pure trivial
  · unfold selColon
    refine .then_ fun _ => .ite (fun _ => ?_) fun _ => .ite (fun _ => ?_) fun _ => .ite (fun _ => .setSkip fun _ => fpc) fun _ => .fail
    · unfold selColonColon
      exact .then_ fun _ => .setSkip fun _ => .ite (fun _ => .bind pseudoElement_says fun e he => .pure ⟨he.1.1, he.1.2, he.2⟩) fun _ => .ite (fun _ => fpe) fun _ => .fail
    · unfold selColonIdent
      exact .setSkip fun _ => .then_ fun b => .ite (fun _ => .bind pseudoClassOf_says fun e he => .pure he) fun _ =>
        .bind (.and pseudoClass_says pseudoClass_touches) fun e he => .pure he
  · unfold selOther
    exact .bind (.result combinator_says) fun r hr => .setSkip fun _ => .consumeTrivia <| .setSkip fun _ => .bind (.ofResult hr) fun c hc => .pure hc

theorem compoundLoop_piece {component : Prog Sel} (h : Says src component (PieceLabel src)) : ∀ n acc, (∀ x ∈ acc, PieceLabel src x) →
    Says src (compoundLoop component n acc) fun l => ∀ x ∈ l, PieceLabel src x
  | 0, _, _ => .panic
  | n + 1, acc, hi => by
    unfold compoundLoop
    exact .then_ fun _ => .ite (fun _ => .pure hi) fun _ => .then_ fun _ => .ite (fun _ => .pure hi) fun _ => .bind h fun s hs => compoundLoop_piece h n _ (Says.snoc hi hs)
theorem compoundSelector_piece : ∀ n, Says src (compoundSelector n) fun l => ∀ x ∈ l, PieceLabel src x
  | 0 => .panic
  | n + 1 => .consumeTrivia (compoundLoop_piece (selectorComponent_piece n) _ _ nofun)
theorem selectorListLoop_piece : ∀ n m acc, SelectorsLabel src acc → Says src (selectorListLoop (compoundSelector m) n acc) (SelectorsLabel src)
  | 0, _, _, _ => .panic
  | n + 1, m, acc, hi => by
    unfold selectorListLoop
    exact .then_ fun _ => .ite (fun _ => .pure hi) fun _ => .then_ fun _ => .ite (fun _ => .pure hi) fun _ => .bind (compoundSelector_piece m) fun s hs => .bind .closes fun c hc =>
      selectorListLoop_piece n m _ (Says.snoc hi ⟨hs, hc⟩)
theorem selectorListFuel_piece (n : Nat) : Says src (selectorListFuel n) (SelectorsLabel src) := selectorListLoop_piece n n [] nofun

theorem supportsFeature_says (n : Nat) : Says src (supportsFeature V n) (SupportsLabel src) := by
  unfold supportsFeature
  refine Says.bind .closes fun o ho => Says.then_ fun c => Says.ite (fun _ => Says.bind functionOf_says fun ⟨k, f⟩ hf => Says.ite (fun hk => Says.bind (selectorListFuel_piece n) fun ss hss => Says.bind .kind fun c hc => ?_)
    fun _ => .panic) fun _ => ?_
  · obtain ⟨h1, h2, _⟩ := hf
    have h2 : Named src f c!"selector" := by rw [← beq_iff_eq.mp hk]; exact h2
    refine Says.ite (fun h => Says.bind .kind fun d hd => .pure ⟨ho, h1, h2, hss, hc, ?_, by simp [h]⟩) fun h => .pure ⟨ho, h1, h2, hss, hc, nofun, by simpa using h⟩
    rintro _ ⟨⟩; exact hd
  · cases o with
    | none => exact Says.then_ fun _ => .fail
    | some o => exact Says.bind (property_says n) fun d hd => Says.bind .closes fun c hc => .pure ⟨ho o rfl, hd, hc⟩

theorem supportsCondition_says (n : Nat) : Says src (supportsCondition V n) (ConditionLabel src (SupportsLabel src)) := by
  unfold supportsCondition
  exact Says.then_ fun _ => Says.ite (fun _ => Says.bind (supportsFeature_says n) fun f hf => .pure hf) fun _ => Says.condition (supportsFeature_says n) n

/-! ### Rules -/

theorem mem_rulesInAll {R : CssRule τ → Prop} {rs : List (CssRule τ)} (h : ∀ r ∈ rs, ∀ x ∈ rulesIn r, R x) : ∀ x ∈ rulesInAll rs, R x := by
  induction rs with
  | nil => nofun
  | cons r rs ih =>
    intro x hx
    rw [rulesInAll] at hx
    rcases List.mem_append.mp hx with hx | hx
    · exact h r (.head _) x hx
    · exact ih (fun r hr => h r (.tail _ hr)) x hx

/-- What is to be shown for every rule. -/
abbrev AllLabels (src : List Char) (r : CssRule τ) : Prop := ∀ x ∈ rulesIn r, RuleLabel src x

theorem knownAtRule_says {rule : Prog (CssRule τ)} (hr : Says src rule (AllLabels src)) (n : Nat) (nested : Bool) (name : List Char) :
    ∀ x, knownAtRule V rule n nested name = some x → Says src x (AllLabels src) := by
  have pick : ∀ {b : Prop} [Decidable b] {x : Prog (CssRule τ)} {y : Option (Prog (CssRule τ))}, (Says src x (AllLabels src)) →
      (∀ z, y = some z → Says src z (AllLabels src)) → ∀ z, (if b then some x else y) = some z → Says src z (AllLabels src) := by
    intro b _ x y hx hy z e
    split at e
    · cases e; exact hx
    · exact hy z e
  have drop : ∀ {b : Prop} [Decidable b] {y : Option (Prog (CssRule τ))},
      (∀ z, y = some z → Says src z (AllLabels src)) → ∀ z, (if b then none else y) = some z → Says src z (AllLabels src) := by
    intro b _ y hy z e
    split at e
    · cases e
    · exact hy z e
  have todo : Says src (todoParser : Prog (CssRule τ)) (AllLabels src) := Says.then_ fun _ => .ofResult nofun
  have miss : ∀ {s : Nat}, Says src (missingPrelude s : Prog (CssRule τ)) (AllLabels src) := fun {_} => Says.then_ fun _ => .ofResult nofun
  have one : ∀ {r x : CssRule τ}, RuleLabel src r → x ∈ [r] → RuleLabel src x := fun {_ _} h hx => by rw [List.mem_singleton.mp hx]; exact h
  have many : ∀ {r x : CssRule τ} {rs : List (CssRule τ)}, RuleLabel src r → (∀ r ∈ rs, AllLabels src r) → x ∈ r :: rulesInAll rs → RuleLabel src x := by
    intro r x rs h hs hx
    rcases List.mem_cons.mp hx with rfl | hx
    · exact h
    · exact mem_rulesInAll hs x hx
  have container : Says src (containerRule rule n) (AllLabels src) := by
    unfold containerRule
    refine Says.then_ fun s => Says.bind (Says.atRule (Says.preludeList (containerCondition_says n) n) (Says.ruleList hr n)) fun ⟨a, q, b⟩ h => ?_
    cases q with
    | none => exact miss
    | some q => exact .pure fun x hx => many (r := .container ..) ⟨h.1, (h.2.1 q rfl).1, (h.2.1 q rfl).2, h.2.2.2⟩ h.2.2.1 (by rw [rulesIn] at hx; exact hx)
  have layer : Says src (layerRule rule n) (AllLabels src) := by
    unfold layerRule
    refine Says.bind (Says.atRule (Says.commaPrelude (layerName_says n) n) (B := fun b => match b with
      | .inl s => IsKind .semicolon s
      | .inr b => (∀ r ∈ b.items, AllLabels src r) ∧ Braces b.opening b.close) ?_) fun ⟨a, q, b⟩ h => ?_
    · unfold layerBlock
      refine Says.bind .closes fun o ho => ?_
      cases o with
      | some s => exact .pure (ho s rfl)
      | none => exact Says.bind (Says.ruleList hr n) fun b hb => .pure hb
    · match b, q with
      | .inl s, q => exact .pure fun x hx => one (r := .layerStatement ..) ⟨h.1, fun l hl => (h.2.1 l hl).2, h.2.2⟩ (by rw [rulesIn] at hx; exact hx; all_goals nofun)
      | .inr b, none => exact .pure fun x hx => many (r := .layerBlock _ none _ _ _) ⟨h.1, nofun, h.2.2.2⟩ h.2.2.1 (by rw [rulesIn] at hx; exact hx)
      | .inr b, some [] => exact absurd rfl (h.2.1 [] rfl).1
      | .inr b, some [l] =>
        refine .pure fun x hx => many (r := .layerBlock ..) ⟨h.1, ?_, h.2.2.2⟩ h.2.2.1 (by rw [rulesIn] at hx; exact hx)
        rintro _ ⟨⟩; exact ⟨(h.2.1 _ rfl).2, rfl⟩
      | .inr b, some ((f, _) :: _ :: _) => exact .fail
  have media : Says src (mediaRule V rule n) (AllLabels src) := by
    unfold mediaRule
    refine Says.then_ fun s => Says.bind (Says.atRule (Says.preludeList (mediaQuery_says n) n) (Says.blockOf (property_says n) hr n)) fun ⟨a, q, b⟩ h => ?_
    cases q with
    | none => exact miss
    | some q => exact .pure fun x hx => many (r := .media ..) ⟨h.1, (h.2.1 q rfl).1, (h.2.1 q rfl).2, h.2.2.2, h.2.2.1.1⟩ h.2.2.1.2 (by rw [rulesIn] at hx; exact hx)
  have supports : Says src (supportsRule V rule n) (AllLabels src) := by
    unfold supportsRule
    refine Says.then_ fun s => Says.bind (Says.atRule (supportsCondition_says n) (Says.ruleList hr n)) fun ⟨a, q, b⟩ h => ?_
    cases q with
    | none => exact miss
    | some q => exact .pure fun x hx => many (r := .supports ..) ⟨h.1, h.2.1 q rfl, h.2.2.2⟩ h.2.2.1 (by rw [rulesIn] at hx; exact hx)
  have charset : Says src (charsetRule : Prog (CssRule τ)) (AllLabels src) := by
    unfold charsetRule
    refine Says.bind .kind fun a ha => Says.bind .called fun b hb => Says.ite (fun _ => Says.then_ fun _ => .fail) fun hn => Says.bind .whitespace fun w hw => Says.bind .kind fun s hs =>
      Says.bind (Says.result .kind) fun r hr => .pure fun x hx => one (r := .charset ..) ⟨⟨ha, hb (by simpa using hn)⟩, hw, hs, ?_⟩ (by rw [rulesIn] at hx; exact hx; all_goals nofun)
    cases r with
    | ok c => rintro _ ⟨⟩; exact hr c rfl
    | error _ => nofun
  have fontFace : Says src (fontFaceRule V n) (AllLabels src) := by
    unfold fontFaceRule
    exact Says.bind (Says.atRule (.any _) (Says.ruleList (fontFaceProperty_says n) n)) fun ⟨a, q, b⟩ h => .pure fun x hx => one (r := .fontFace ..) ⟨h.1, h.2.2.2, h.2.2.1⟩
      (by rw [rulesIn] at hx; exact hx; all_goals nofun)
  have keyframes : Says src (keyframesRule V n) (AllLabels src) := by
    unfold keyframesRule
    exact Says.bind (Says.atRule keyframesName_says (Says.ruleList (keyframe_says n) n)) fun ⟨a, q, b⟩ h => .pure fun x hx => one (r := .keyframes ..) ⟨h.1, h.2.1, h.2.2.2, h.2.2.1⟩
      (by rw [rulesIn] at hx; exact hx; all_goals nofun)
  have webkit : Says src (webkitKeyframesRule V n) (AllLabels src) := by
    unfold webkitKeyframesRule
    refine Says.then_ fun s => Says.bind (Says.atRule keyframesName_says (Says.ruleList (keyframe_says n) n)) fun ⟨a, q, b⟩ h => ?_
    cases q with
    | none => exact miss
    | some q => exact .pure fun x hx => one (r := .webkitKeyframes ..) ⟨h.1, h.2.1 q rfl, h.2.2.2, h.2.2.1⟩ (by rw [rulesIn] at hx; exact hx; all_goals nofun)
  have page : Says src (pageRule V n) (AllLabels src) := by
    unfold pageRule
    exact Says.bind (Says.atRule (Says.commaPrelude (pageSelector_says n) n) (Says.declarationRuleList (property_says n) (marginRule_says n) n)) fun ⟨a, q, b⟩ h => .pure fun x hx =>
      one (r := .page ..) ⟨h.1, fun l hl => (h.2.1 l hl).2, h.2.2.2, h.2.2.1.1, h.2.2.1.2⟩ (by rw [rulesIn] at hx; exact hx; all_goals nofun)
  have prop : Says src (propertyRule n : Prog (CssRule τ)) (AllLabels src) := by
    unfold propertyRule
    refine Says.bind (Says.atRule (P := IsDashedIdent) (Says.tok (.pureTest (g := isDashed)) fun c => .pure fun h => ?_) (Says.declarationList (propertyRuleProperty_says n) n)) fun ⟨a, q, b⟩ h => ?_
    · rw [isDashed, Bool.and_eq_true] at h; exact h
    · cases q with
      | none => exact .fail
      | some q => exact .pure fun x hx => one (r := .property ..) ⟨h.1, h.2.1 q rfl, h.2.2.2, h.2.2.1⟩ (by rw [rulesIn] at hx; exact hx; all_goals nofun)
  have document : ∀ moz, Says src (documentRule moz rule n) (AllLabels src) := by
    intro moz
    unfold documentRule
    refine Says.bind (Says.atRule (Says.commaPrelude documentMatcher_says n) (Says.ruleList hr n)) fun ⟨a, q, b⟩ h => ?_
    cases q with
    | none => exact .fail
    | some q => exact .pure fun x hx => many (r := .document ..) ⟨h.1, (h.2.1 q rfl).1, (h.2.1 q rfl).2, h.2.2.2⟩ h.2.2.1 (by rw [rulesIn] at hx; exact hx)
  unfold knownAtRule
  refine pick container <| pick layer <| pick media <| pick todo <| pick supports <| drop <| pick charset <| pick todo <| pick todo <| pick fontFace <| pick todo <|
    pick todo <| pick todo <| pick keyframes <| pick todo <| pick page <| pick prop <| pick todo <| pick (document _) <| pick webkit <| pick (document _) nofun

theorem cssRule_says : ∀ n nested, Says src (cssRule V n nested) (AllLabels src)
  | 0, _ => .panic
  | n + 1, nested => by
    have triv : ∀ {r x : CssRule τ}, RuleLabel src r → x ∈ [r] → RuleLabel src x := fun {_ _} h hx => by rw [List.mem_singleton.mp hx]; exact h
    have unknownAt : ∀ {g : Prog Rule} {m : Nat}, Says src (unknownAtRule g m : Prog (CssRule τ)) (AllLabels src) := fun {_ _} => Says.then_ fun _ => .pure fun x hx =>
      triv (r := .unknownAt _) trivial (by rw [rulesIn] at hx; exact hx; all_goals nofun)
    have unknown : ∀ {g : Prog Rule} {m : Nat}, Says src (unknownQualifiedRule g m : Prog (CssRule τ)) (AllLabels src) := fun {_ _} => Says.then_ fun _ => .pure fun x hx =>
      triv (r := .unknown _) trivial (by rw [rulesIn] at hx; exact hx; all_goals nofun)
    have bad : ∀ {m : Nat}, Says src (badRule m : Prog (CssRule τ)) (AllLabels src) := fun {_} =>
      Says.setState fun _ => Says.then_ fun _ => Says.setState fun _ => Says.then_ fun _ => .pure fun x hx => triv (r := .bad _) trivial (by rw [rulesIn] at hx; exact hx; all_goals nofun)
    unfold cssRule
    refine Says.then_ fun _ => Says.ite (fun _ => ?_) fun _ => ?_
    · unfold atCssRule
      refine Says.then_ fun _ => Says.then_ fun s => ?_
      split
      · exact unknownAt
      · next x hx =>
        refine Says.attempt (knownAtRule_says (cssRule_says n false) _ _ _ x hx) fun r h => ?_
        cases r with
        | ok r => exact .pure (h r rfl)
        | error _ => exact unknownAt
    · unfold qualifiedCssRule
      refine Says.attempt (Q := AllLabels src) ?_ fun r h => ?_
      · unfold styleRule
        refine Says.bind (Says.qualifiedRule (selectorListFuel_piece _) (Says.blockOf (property_says _) (cssRule_says n true) _)) fun ⟨s, b⟩ h => .pure fun x hx => ?_
        rw [rulesIn] at hx
        rcases List.mem_cons.mp hx with rfl | hx
        · exact ⟨h.1, h.2.2, h.2.1.1⟩
        · exact mem_rulesInAll h.2.1.2 x hx
      · cases r with
        | ok r => exact .pure (h r rfl)
        | error _ =>
          refine Says.ite (fun _ => Says.attempt unknown fun r h => ?_) fun _ => unknown
          cases r with
          | ok r => exact .pure (h r rfl)
          | error _ => exact bad

theorem styleSheetLoop_says {rule : Prog (CssRule τ)} (hr : Says src rule (AllLabels src)) : ∀ n rs, (∀ r ∈ rs, AllLabels src r) →
    Says src (styleSheetLoop rule n rs) fun rs => ∀ r ∈ rulesInAll rs, RuleLabel src r
  | 0, _, _ => .panic
  | n + 1, rs, h => by
    unfold styleSheetLoop
    exact Says.then_ fun _ => Says.ite (fun _ => styleSheetLoop_says hr n rs h) fun _ => Says.then_ fun _ => Says.ite (fun _ => styleSheetLoop_says hr n rs h) fun _ => Says.then_ fun _ =>
      Says.ite (fun _ => .pure (mem_rulesInAll h)) fun _ => Says.then_ fun _ => Says.ite (fun _ => .pure (mem_rulesInAll h)) fun _ => Says.bind hr fun r hr' =>
      styleSheetLoop_says hr n _ (Says.snoc h hr')

/-! ### C80 -/

/-- Every rule in a style sheet that was parsed, at every depth, has the parts that its label says, for any table of property types. -/
theorem C80_style_sheet {p p' : Parser} {rules : List (CssRule τ)} (h : (cssStyleSheet V).run p = .ok (.ok rules, p')) :
    ∀ r ∈ rulesInAll rules, RuleLabel p.lexer.source r := by
  obtain ⟨w, hg⟩ := gives_of_run h
  exact (Says.read fun q => styleSheetLoop_says (cssRule_says (V := V) _ _) _ [] nofun) (p := p) rfl hg

/-! ### Examples -/

/-- What a rule is labelled as, and some of the labels of its parts, with their texts. -/
def Spec.describe {τ : Type} (src : List Char) : CssRule τ → List (List Char)
  | .document _ _ ms _ _ _ => c!"document" :: ms.flatMap fun m => match m.1 with
    | .url c => [c!"url", text c]
    | .urlFunction _ s _ => [c!"url()", text s]
    | .urlPrefix _ s _ => [c!"url-prefix()", text s]
    | .domain _ s _ => [c!"domain()", text s]
    | .mediaDocument _ s _ => [c!"media-document()", text s]
    | .regexp _ s _ => [c!"regexp()", text s]
  | .keyframes _ n b => c!"keyframes" :: (n.toList.map text ++ b.items.flatMap fun k => k.selectors.map fun s => text s.1.cursor)
  | .layerStatement _ ns _ => c!"layer;" :: (ns.getD []).map fun l => l.1.cursors.flatMap text
  | .layerBlock _ ns _ _ _ => c!"layer{}" :: (ns.getD []).map fun l => l.1.cursors.flatMap text
  | .media _ qs _ _ _ _ => c!"media" :: qs.flatMap fun q =>
    (q.precondition.toList.map (·.1) ++ q.mediaType.toList.map fun t => text t.2) ++ (match q.condition with
      | some (.is (.ranged l _)) => [l]
      | some (.is (.discrete l _)) => [l]
      | some (.is (.boolean l _)) => [l]
      | some (.and fs) => c!"and" :: fs.map fun _ => c!"_"
      | some (.or fs) => c!"or" :: fs.map fun _ => c!"_"
      | some (.not _ _) => [c!"not"]
      | _ => [])
  | .page _ ss _ => c!"page" :: (ss.getD []).flatMap fun s => s.1.pseudos.map fun x => x.1
  | .property _ n b => c!"property" :: text n :: b.items.map fun d => match d.1.value with
    | .initialValue _ => c!"initial-value"
    | .syntax _ => c!"syntax"
    | .inherits k _ => c!"inherits " ++ k
    | .unknown _ => c!"unknown"
  | .charset _ _ s _ => [c!"charset", text s]
  | .container .. => [c!"container"]
  | .fontFace _ b => c!"font-face" :: b.items.map fun d => text d.name
  | .webkitKeyframes _ n _ => [c!"-webkit-keyframes", text n]
  | .supports .. => [c!"supports"]
  | .style .. => [c!"style"]
  | .unknownAt _ => [c!"unknown at-rule"]
  | .unknown _ => [c!"unknown"]
  | .bad _ => [c!"bad"]
where
  /-- The text of a token. -/
  text (c : Cursor) : List Char := ((c.strSlice src).toOption).getD []

/-- The rules of a style sheet. -/
def Spec.describeSheet (src : List Char) : Option (List (List (List Char))) :=
  match (cssStyleSheet realValues).run (Parser.new src) with
  | .ok (.ok rules, _) => some ((rulesInAll rules).map (describe src))
  | _ => none

example : describeSheet c!"@media not screen and (width:1px){@page :first{}a{b{}}}" =
    some [[c!"media", c!"not", c!"screen", c!"Width"], [c!"page", c!"first"], [c!"style"], [c!"style"]] := by decide +kernel
example : describeSheet c!"@document url(a), url-prefix('b'){a{}}@keyframes y{from,50%,100%{top:1px}}@layer a.b,c;@layer a{}" =
    some [[c!"document", c!"url", c!"url(a)", c!"url-prefix()", c!"'b'"], [c!"style"], [c!"keyframes", c!"y", c!"from", c!"50%", c!"100%"], [c!"layer;", c!"a.b", c!"c"],
      [c!"layer{}", c!"a"]] := by decide +kernel
example : describeSheet c!"@media (1px<width<=2px){}@media (min-width<1px){}@layer a,b{}@keyframes x{100.5%{}}@keyframes none{}" =
    some [[c!"media", c!"Width"], [c!"unknown at-rule"], [c!"unknown at-rule"], [c!"unknown at-rule"], [c!"unknown at-rule"]] := by decide +kernel
example : describeSheet c!"@property --a{syntax:'*';inherits:true;initial-value:red}" =
    some [[c!"property", c!"--a", c!"syntax", c!"inherits true", c!"initial-value"]] := by decide +kernel
example : describeSheet c!"@container a (width>1px){}@supports (a:b){c{}}@-moz-document url(x){}@-webkit-keyframes a{}@CHARSET 'x'a{}" =
    some [[c!"container"], [c!"supports"], [c!"style"], [c!"document", c!"url", c!"url(x)"], [c!"-webkit-keyframes", c!"a"], [c!"charset", c!"'x'"], [c!"style"]] := by decide +kernel

/-- `domain()` is labelled as `url-prefix()`. -/
theorem C80_counterexample_domain : describeSheet c!"@document domain('x'){}" = some [[c!"document", c!"url-prefix()", c!"'x'"]] := by decide +kernel
/-- Names that CSS does not allow for keyframes are taken. -/
theorem C80_counterexample_keyframes : describeSheet c!"@keyframes NONE{}@keyframes revert{}@keyframes none{}" =
    some [[c!"keyframes", c!"NONE"], [c!"keyframes", c!"revert"], [c!"unknown at-rule"]] := by decide +kernel
/-- The dots of a layer may have whitespace around, the commas may be missing. -/
theorem C80_counterexample_layer : describeSheet c!"@layer a . b;@layer a b;" = some [[c!"layer;", c!"a.b"], [c!"layer;", c!"a", c!"b"]] := by decide +kernel
/-- `not` without a type is a query of its own, and the condition after it another one. -/
theorem C80_counterexample_not : describeSheet c!"@media not (width:1px){}" = some [[c!"media", c!"not", c!"Width"]] := by decide +kernel
/-- Two media queries need a comma in CSS; with one it is not taken as a `@media` rule. -/
theorem C80_counterexample_comma : describeSheet c!"@media screen print{}@media screen,print{}" =
    some [[c!"media", c!"screen", c!"print"], [c!"unknown at-rule"]] := by decide +kernel
/-- A condition of three features is not taken. -/
theorem C80_counterexample_three : describeSheet c!"@media (hover) or (hover){}@media (hover) or (hover) or (hover){}" =
    some [[c!"media", c!"or", c!"_", c!"_"], [c!"unknown at-rule"]] := by decide +kernel
/-- The value of a feature that is a boolean may be any token. -/
theorem C80_counterexample_boolean : describeSheet c!"@media (grid:(){}" = some [[c!"media", c!"Grid"]] := by decide +kernel
/-- The value of a descriptor takes the next one along. -/
theorem C80_counterexample_property : describeSheet c!"@property --a{initial-value:red;inherits:true}" =
    some [[c!"property", c!"--a", c!"initial-value"]] := by decide +kernel

end Hdx

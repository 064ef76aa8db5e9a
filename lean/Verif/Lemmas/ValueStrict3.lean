/-
The values of definitions: in a strict text, parsing them comes to an end.
-/
import Verif.Lemmas.ValueStrict2

namespace Hdx
open Spec Prog

/-- A type of values that can be tested for and parsed. -/
structure LeafFine (src : Text) (l : Leaf) : Prop where
  test : Probes src l.test
  parser : Fine src src.fuel l.parser

theorem LeafFine.single {src : Text} {test : Cursor → Prog Bool} (h : Probes src test) : LeafFine src (.single test) := ⟨h, EatsIf.piece h⟩
theorem LeafFine.keywords {src : Text} {names : List (List Char)} : LeafFine src (.keywords names) := ⟨.keyword, EatsIf.seq EatsIf.keyword.fine fun _ => EatsIf.pure id⟩

/-! ### What must hold of a definition -/

/-- The type is one that can be parsed. -/
def DefType.ok (good : List Char → Bool) : DefType → Bool
  | .color => good c!"Color"
  | .image => good c!"Image"
  | .image1D => good c!"Image1D"
  | .custom name => good name
  | _ => true

/-- The range is one that code can be written for. -/
def DefRange.ok : DefRange → Bool
  | .range _ _ => false
  | _ => true

mutual
/-- The test of the definition answers. -/
def Def.testOk (good : List Char → Bool) : Def → Bool
  | .type t => t.ok fun n => good n || n == c!"CalcSize"
  | .ident _ => true
  | .function _ _ => true
  | .optional d => d.testOk good
  | .comb [] _ => false
  | .comb (d :: ds) s =>
    match s with
    | .ordered => d.testOk good
    | _ => Def.testAnyOk good (d :: ds)
  | .group d _ => d.testOk good
  | .mult d _ => d.testOk good
  | .punct _ => false
/-- All of them do. -/
def Def.testAnyOk (good : List Char → Bool) : List Def → Bool
  | [] => true
  | d :: ds => d.testOk good && Def.testAnyOk good ds
end

/-- The types of an `||` can be parsed. -/
def optionsOk (good : List Char → Bool) (ds : List Def) : Bool :=
  match Def.types ds with
  | some ts => ts.all (DefType.ok good)
  | none => false

/-- The code that captures the value comes to an end. -/
def Def.stepsOk (good : List Char → Bool) : Def → Bool
  | .type t => t.ok good && t.checks.ok
  | .function _ d => d.stepsOk good
  | .mult (.type t) (.range (.fixed _)) => t.ok good && t.checks.ok
  | .mult d (.commas .none) => d.stepsOk good
  | .optional (.type t) => t.ok good
  | .comb ds .options => optionsOk good ds
  | .group d .none => d.stepsOk good
  | _ => false

/-- The type that has no parser. -/
def Def.isUnfinished : Def → Bool
  | .type (.custom name) => name == c!"CalcSize"
  | _ => false

/-- A function, of any name as far as the test for it goes. -/
def Def.isFunction : Def → Bool
  | .function _ _ => true
  | _ => false

/-- The alternatives that are tested for one after the other. The type without a parser is only looked for after a function, of any name, was: by then
the next token is no function. -/
def tryOthersOk (good : List Char → Bool) (fn : Bool) : List (Nat × Def) → Bool
  | [] => true
  | (_, d) :: ds => ((fn && d.isUnfinished) || (d.testOk good && d.stepsOk good)) && tryOthersOk good (fn || d.isFunction) ds

/-- The other alternatives. -/
def otherAlternativesOk (good : List Char → Bool) : List (Nat × Def) → Bool
  | [(_, d)] => d.stepsOk good
  | others => tryOthersOk good false others

/-- Alternatives. -/
def alternativesOk (good : List Char → Bool) (ds : List Def) : Bool :=
  let others := Def.others 0 ds
  if ds.any Def.isWord then
    !(Def.keywords ds).isEmpty && ((Def.customIndex ds).isSome || others.isEmpty || otherAlternativesOk good others)
  else otherAlternativesOk good others

/-- The parser of the definition comes to an end. -/
def Def.parserOk (good : List Char → Bool) : Def → Bool
  | .type t => t.ok good && t.checks.ok
  | .comb ds .alternatives => alternativesOk good ds
  | .comb ds .options => optionsOk good ds
  | .comb ds .ordered => ds.all (Def.stepsOk good)
  | .mult d (.range (.range start stop)) => (Def.repeated d start stop).all (Def.stepsOk good)
  | .mult d (.range (.fixed n)) => (List.replicate n d).all (Def.stepsOk good)
  | .mult _ .zeroOrMore => false
  | .mult d m => Def.stepsOk good (.mult d m)
  | _ => false

/-! ### Definitions whose parts are fine -/

section
variable {src : Text} {env : List Char → Leaf} {good : List Char → Bool}

theorem DefType.leaf_fine (he : ∀ n, good n = true → LeafFine src (env n)) {t : DefType} (h : t.ok good = true) : LeafFine src (t.leaf env) := by
  cases t with
  | length r => exact .single .length
  | lengthPercentage r => exact .single .lengthPercentage
  | angle r => exact .single .angle
  | time r => exact .single .time
  | resolution r => exact .single .resolution
  | integer r => exact .single .of
  | number r => exact .single .of
  | percentage r => exact .single .of
  | color => exact he _ h
  | string => exact .single .kind
  | image => exact he _ h
  | image1D => exact he _ h
  | dashedIdent => exact .single .of
  | customIdent => exact .single .kind
  | custom name => exact he _ h

theorem DefType.test_probes (he : ∀ n, good n = true → LeafFine src (env n)) (hc : (env c!"CalcSize").test = isNamed c!"calc-size") {t : DefType}
    (h : t.ok (fun n => good n || n == c!"CalcSize") = true) : Probes src (t.leaf env).test := by
  have hall : ∀ n, (good n || n == c!"CalcSize") = true → Probes src (env n).test := by
    intro n hn
    rw [Bool.or_eq_true] at hn
    rcases hn with hn | hn
    · exact (he n hn).test
    · have : n = c!"CalcSize" := by simpa using hn
      subst this
      rw [hc]; exact .named
  cases t with
  | color => exact hall _ h
  | image => exact hall _ h
  | image1D => exact hall _ h
  | custom name => exact hall _ h
  | length r => exact .length
  | lengthPercentage r => exact .lengthPercentage
  | angle r => exact .angle
  | time r => exact .time
  | resolution r => exact .resolution
  | integer r => exact .of
  | number r => exact .of
  | percentage r => exact .of
  | string => exact .kind
  | dashedIdent => exact .of
  | customIdent => exact .kind

theorem DefType.steps_fine (he : ∀ n, good n = true → LeafFine src (env n)) {t : DefType} (h : t.ok good = true) (hr : t.checks.ok = true) :
    Fine src src.fuel (t.steps env) := by
  unfold DefType.steps
  refine EatsIf.seq EatsIf.offset fun s => EatsIf.seq (leaf_fine he h).parser fun v => ?_
  cases hc : t.checks with
  | to n => exact EatsIf.ite (EatsIf.seq EatsIf.offset fun _ => EatsIf.ofErr) (EatsIf.pure id)
  | «from» n => exact EatsIf.ite (EatsIf.seq EatsIf.offset fun _ => EatsIf.ofErr) (EatsIf.pure id)
  | range a b => rw [hc] at hr; cases hr
  | none => exact EatsIf.pure id
  | fixed n => exact EatsIf.pure id

mutual
theorem Def.test_probes (he : ∀ n, good n = true → LeafFine src (env n)) (hc : (env c!"CalcSize").test = isNamed c!"calc-size") : ∀ d : Def, d.testOk good = true → Probes src (d.test env)
  | .type t, h => by
    obtain ⟨g, hg⟩ := DefType.test_probes he hc (t := t) (by simpa [Def.testOk] using h)
    exact ⟨g, fun p cs c hl hk => by unfold Def.test; exact hg p cs c hl hk⟩
  | .ident _, _ => ⟨fun c => c.token.isKind .ident, fun p cs c hl hk => by unfold Def.test; exact gives_pure.mpr ⟨rfl, rfl, rfl⟩⟩
  | .function _ _, _ => ⟨fun c => c.token.isKind .function, fun p cs c hl hk => by unfold Def.test; exact gives_pure.mpr ⟨rfl, rfl, rfl⟩⟩
  | .optional d, h => by
    obtain ⟨g, hg⟩ := Def.test_probes he hc d (by simpa [Def.testOk] using h)
    exact ⟨g, fun p cs c hl hk => by unfold Def.test; exact hg p cs c hl hk⟩
  | .comb [] _, h => by simp [Def.testOk] at h
  | .comb (d :: ds) s, h => by
    have h1 : Probes src (d.test env) → s = .ordered → Probes src (Def.test env (.comb (d :: ds) s)) := by
      rintro ⟨g, hg⟩ rfl
      exact ⟨g, fun p cs c hl hk => by unfold Def.test; exact hg p cs c hl hk⟩
    have h2 : Probes src (Def.testAny env (d :: ds)) → s ≠ .ordered → Probes src (Def.test env (.comb (d :: ds) s)) := by
      rintro ⟨g, hg⟩ hs
      refine ⟨g, fun p cs c hl hk => ?_⟩
      unfold Def.test
      cases s with
      | ordered => exact absurd rfl hs
      | _ => exact hg p cs c hl hk
    cases s with
    | ordered => exact h1 (Def.test_probes he hc d (by simpa [Def.testOk] using h)) rfl
    | allMustOccur => exact h2 (Def.testAny_probes he hc (d :: ds) (by simpa [Def.testOk] using h)) (by simp)
    | options => exact h2 (Def.testAny_probes he hc (d :: ds) (by simpa [Def.testOk] using h)) (by simp)
    | alternatives => exact h2 (Def.testAny_probes he hc (d :: ds) (by simpa [Def.testOk] using h)) (by simp)
  | .group d _, h => by
    obtain ⟨g, hg⟩ := Def.test_probes he hc d (by simpa [Def.testOk] using h)
    exact ⟨g, fun p cs c hl hk => by unfold Def.test; exact hg p cs c hl hk⟩
  | .mult d _, h => by
    obtain ⟨g, hg⟩ := Def.test_probes he hc d (by simpa [Def.testOk] using h)
    exact ⟨g, fun p cs c hl hk => by unfold Def.test; exact hg p cs c hl hk⟩
  | .punct _, h => by simp [Def.testOk] at h
theorem Def.testAny_probes (he : ∀ n, good n = true → LeafFine src (env n)) (hc : (env c!"CalcSize").test = isNamed c!"calc-size") : ∀ ds : List Def, Def.testAnyOk good ds = true → Probes src (Def.testAny env ds)
  | [], _ => ⟨fun _ => false, fun p cs c hl hk => by unfold Def.testAny; exact gives_pure.mpr ⟨rfl, rfl, rfl⟩⟩
  | d :: ds, h => by
    rw [Def.testAnyOk, Bool.and_eq_true] at h
    obtain ⟨g, hg⟩ := Def.test_probes he hc d h.1
    obtain ⟨g2, hg2⟩ := Def.testAny_probes he hc ds h.2
    exact ⟨_, fun p cs c hl hk => by unfold Def.testAny; exact Probes.by_either hg hg2 p cs c hl hk⟩
end

theorem commaLoop_fine {item : Prog Val} : ∀ m vs, Fine src m item → Fine src m (commaLoop item m vs)
  | 0, _, _ => EatsIf.zero
  | m + 1, vs, hi => by
    unfold commaLoop
    refine EatsIf.seq hi fun v => EatsIf.bind (EatsIf.ifPeek (fun _ _ => EatsIf.isKind) (EatsIf.tokKind (by decide))) (fun o ho => ?_) fun o ho => ?_
    · exact EatsIf.ite (EatsIf.pure id) (commaLoop_fine m _ (hi.mono (by omega)))
    · have : o = none := by
        cases o with
        | none => rfl
        | some c => exact absurd ⟨c, rfl, trivial⟩ ho
      subst this
      exact EatsIf.pure id

/-- The options that have no value yet. -/
def notYet (vs : List (Option Val)) : Nat := vs.countP fun v => v.isNone

theorem optionsRound_fine : ∀ (ls : List Leaf), (∀ l ∈ ls, LeafFine src l) → ∀ vs : List (Option Val),
    FineR src src.fuel (fun r => ∀ vs', r = some vs' → notYet vs' < notYet vs) (optionsRound ls vs)
  | [], _, [] => by unfold optionsRound; exact FineR.pure (by simp)
  | [], _, _ :: _ => by unfold optionsRound; exact FineR.pure (by simp)
  | l :: ls, _, [] => by unfold optionsRound; exact FineR.pure (by simp)
  | l :: ls, h, some v :: vs => by
    unfold optionsRound
    refine (optionsRound_fine ls (fun x hx => h x (by simp [hx])) vs).seq fun r hr => ?_
    cases r with
    | none => exact FineR.pure (by simp)
    | some vs' =>
      refine FineR.pure fun w hw => ?_
      cases hw
      simpa [notYet] using hr vs' rfl
  | l :: ls, h, none :: vs => by
    unfold optionsRound
    have hk : FineR src src.fuel (Known src) Prog.peek := fun p cs hl _ => by
      obtain ⟨c, hc, hk⟩ := hl.peek
      exact ⟨.ok c, p, [], cs, gives_peek.mpr ⟨c, hc, rfl, rfl, rfl⟩, hl, List.suffix_rfl, fun a ha => by cases ha; exact hk⟩
    refine hk.seq fun c hc => (FineR.of ((h l (by simp)).test.fine hc)).seq fun b _ => FineR.ite (fun _ => ?_) fun _ => ?_
    · refine (FineR.of (h l (by simp)).parser).seq fun v _ => FineR.pure fun w hw => ?_
      cases hw
      simp [notYet]
    · refine (optionsRound_fine ls (fun x hx => h x (by simp [hx])) vs).seq fun r hr => ?_
      cases r with
      | none => exact FineR.pure (by simp)
      | some vs' =>
        refine FineR.pure fun w hw => ?_
        cases hw
        have := hr vs' rfl
        simp only [notYet, List.countP_cons] at this ⊢
        simp only [Option.isNone_none, if_true]
        omega

theorem optionsLoop_fine {ls : List Leaf} (h : ∀ l ∈ ls, LeafFine src l) : ∀ m vs, notYet vs < m → Fine src src.fuel (optionsLoop ls m vs)
  | 0, _, hm => absurd hm (by omega)
  | m + 1, vs, hm => by
    unfold optionsLoop
    refine (optionsRound_fine ls h vs).seqE fun r hr => ?_
    cases r with
    | some vs' => exact optionsLoop_fine h m vs' (by have := hr vs' rfl; omega)
    | none => exact EatsIf.ite (EatsIf.seq EatsIf.any fun _ => EatsIf.fail) (EatsIf.pure id)

theorem options_fine (he : ∀ n, good n = true → LeafFine src (env n)) {ds : List Def} (h : optionsOk good ds = true) : Fine src src.fuel (options env ds) := by
  unfold options
  unfold optionsOk at h
  cases ht : Def.types ds with
  | none => rw [ht] at h; cases h
  | some ts =>
    rw [ht] at h
    have hall := List.all_eq_true.mp h
    refine EatsIf.seq (optionsLoop_fine (fun l hl => ?_) _ _ ?_) fun _ => EatsIf.pure id
    · obtain ⟨t, h1, rfl⟩ := List.mem_map.mp hl
      exact DefType.leaf_fine he (hall t h1)
    · have := List.countP_le_length (p := fun v : Option Val => v.isNone) (l := ts.map fun _ => none)
      simp only [notYet, List.length_map] at this ⊢
      omega

theorem Def.steps_fine (hst : src.strict = true) (he : ∀ n, good n = true → LeafFine src (env n)) : ∀ d : Def, d.stepsOk good = true → Fine src src.fuel (d.steps env) := by
  intro d
  induction d using Def.stepsOk.induct with
  | case1 t => 
    intro h
    simp only [Def.stepsOk, Bool.and_eq_true] at h
    unfold Def.steps
    exact DefType.steps_fine he h.1 h.2
  | case2 name d ih =>
    intro h
    unfold Def.steps
    refine EatsIf.openFunction hst fun c hc => EatsIf.seq (ih (by simpa [Def.stepsOk] using h)) fun v => EatsIf.seq (EatsIf.ifTok .kind) fun _ => EatsIf.pure id
  | case3 t n =>
    intro h
    simp only [Def.stepsOk, Bool.and_eq_true] at h
    unfold Def.steps
    refine EatsIf.seq (EatsIf.sequence fun x hx => ?_) fun _ => EatsIf.pure id
    rw [List.eq_of_mem_replicate hx]
    exact DefType.steps_fine he h.1 h.2
  | case4 d ih =>
    intro h
    have ih := ih (by simpa [Def.stepsOk] using h)
    have e : Def.steps env (.mult d (.commas .none)) = Prog.read fun p => (commaLoop (d.steps env) p.fuel [] >>= fun vs => pure (.fields vs)) := by rw [Def.steps]
    rw [e]
    refine EatsIf.read (P := fun _ => False) fun p hp => EatsIf.seq ?_ fun _ => EatsIf.pure id
    rw [hp]
    exact commaLoop_fine _ _ ih
  | case5 t =>
    intro h
    have := DefType.leaf_fine he (t := t) (by simpa [Def.stepsOk] using h)
    unfold Def.steps
    exact EatsIf.seq (EatsIf.ifPeek (P := fun _ => False) (fun _ hk => this.test.fine hk) this.parser).fine fun _ => EatsIf.pure id
  | case6 ds =>
    intro h
    unfold Def.steps
    exact options_fine he (by simpa [Def.stepsOk] using h)
  | case7 d ih =>
    intro h
    unfold Def.steps
    exact ih (by simpa [Def.stepsOk] using h)
  | case8 d _ _ _ _ _ _ _ => 
    intro h
    unfold Def.stepsOk at h
    split at h <;> first | contradiction | (exfalso; simp_all)

theorem tryOthers_goes (hst : src.strict = true) (he : ∀ n, good n = true → LeafFine src (env n)) (hc : (env c!"CalcSize").test = isNamed c!"calc-size") :
    ∀ (ds : List (Nat × Def)) (fn : Bool), tryOthersOk good fn ds = true → ∀ {p : Parser} {cs : List Cursor}, Left src p cs → cs.length < src.fuel →
      (fn = true → ∀ c, p.peekN 1 = .ok c → c.token.isKind .function = false) → Goes src p cs (fun _ => False) (tryOthers env ds)
  | [], _, _, p, cs, hl, hn, _ => .of (EatsIf.seq EatsIf.any fun _ => EatsIf.fail) hl hn
  | (i, d) :: ds, fn, h, p, cs, hl, hn, hf => by
    unfold tryOthers
    rw [tryOthersOk, Bool.and_eq_true] at h
    obtain ⟨c, hp, hk⟩ : ∃ c, p.peekN 1 = .ok c ∧ Known src c := hl.peekN 0
    refine Goes.peekN hp ?_
    have h1 := h.1
    rw [Bool.or_eq_true, Bool.and_eq_true, Bool.and_eq_true] at h1
    rcases h1 with ⟨rfl, h1⟩ | h1
    · have hno := hf rfl c hp
      have ht : d.test env c = isNamed c!"calc-size" c := by
        unfold Def.isUnfinished at h1
        split at h1
        · rename_i name
          have : name = c!"CalcSize" := by simpa using h1
          subst this
          simp only [Def.test, DefType.leaf]
          rw [hc]
        · cases h1
      rw [ht, isNamed, hno]
      refine Goes.seq (.pure hl id) fun b p' w cs' hg hl' hs => ?_
      obtain ⟨hb, rfl, -⟩ := gives_pure.mp hg
      cases hb
      have := hs.length_le
      exact tryOthers_goes hst he hc ds true h.2 hl' (by omega) hf
    · have hpr := Def.test_probes he hc d h1.1
      refine Goes.seq (.of (hpr.fine hk) hl hn) fun b p' w cs' hg hl' hs => ?_
      have := hs.length_le
      cases b with
      | true => exact .of (EatsIf.seq (Def.steps_fine hst he d h1.2) fun _ => EatsIf.pure id) hl' (by omega)
      | false =>
        obtain ⟨f, hpr⟩ := hpr
        have he' := hg.symm.trans (hpr p cs c hl hk)
        simp only [Except.ok.injEq, Prod.mk.injEq] at he'
        obtain ⟨-, rfl, -⟩ := he'
        refine tryOthers_goes hst he hc ds _ h.2 hl' (by omega) fun hfn c' hc' => ?_
        rw [hp] at hc'; cases hc'
        rw [Bool.or_eq_true] at hfn
        rcases hfn with hfn | hfn
        · exact hf hfn c hp
        · unfold Def.isFunction at hfn
          split at hfn
          · have hg : Gives (Pure.pure (c.token.isKind .function)) p' (.ok false) p' w := hg
            obtain ⟨hb, -⟩ := gives_pure.mp hg
            simpa using hb.symm
          · cases hfn

theorem tryOthers_fine (hst : src.strict = true) (he : ∀ n, good n = true → LeafFine src (env n)) (hc : (env c!"CalcSize").test = isNamed c!"calc-size")
    (ds : List (Nat × Def)) (h : tryOthersOk good false ds = true) : Fine src src.fuel (tryOthers env ds) :=
  fun _ _ hl hn => tryOthers_goes hst he hc ds false h hl hn fun h => by cases h

theorem otherAlternatives_fine (hst : src.strict = true) (he : ∀ n, good n = true → LeafFine src (env n)) (hc : (env c!"CalcSize").test = isNamed c!"calc-size") :
    ∀ ds : List (Nat × Def), otherAlternativesOk good ds = true → Fine src src.fuel (otherAlternatives env ds)
  | [(_, d)], h => EatsIf.seq (Def.steps_fine hst he d h) fun _ => EatsIf.pure id
  | [], h => tryOthers_fine hst he hc _ h
  | _ :: _ :: _, h => tryOthers_fine hst he hc _ h

theorem alternatives_fine (hst : src.strict = true) (he : ∀ n, good n = true → LeafFine src (env n)) (hc : (env c!"CalcSize").test = isNamed c!"calc-size")
    {ds : List Def} (h : alternativesOk good ds = true) : Fine src src.fuel (alternatives env ds) := by
  unfold alternatives
  unfold alternativesOk at h
  dsimp only at h ⊢
  split
  · rename_i hw
    rw [if_pos hw, Bool.and_eq_true] at h
    split
    · rename_i hk
      rw [hk] at h; simp at h
    refine EatsIf.seq (EatsIf.ifPeek (fun _ hk => EatsIf.isKeyword hk) EatsIf.keyword).fine fun o => ?_
    obtain _ | ⟨k, c⟩ := o
    · dsimp only
      cases hi : Def.customIndex ds with
      | some i => exact EatsIf.seq (EatsIf.tokTest .kind) fun _ => EatsIf.pure id
      | none =>
        dsimp only
        split
        · exact EatsIf.anySeq fun c hk => EatsIf.seq (EatsIf.strOf hst hk) fun _ => EatsIf.fail
        · rename_i he'
          refine otherAlternatives_fine hst he hc _ ?_
          have := h.2
          simpa [hi, he'] using this
    · exact EatsIf.pure id
  · rename_i hw
    rw [if_neg hw] at h
    exact otherAlternatives_fine hst he hc _ h

theorem ordered_fine (hst : src.strict = true) (he : ∀ n, good n = true → LeafFine src (env n)) {ds : List Def} (h : ds.all (Def.stepsOk good) = true) :
    Fine src src.fuel (ordered env ds) := by
  unfold ordered
  refine EatsIf.seq (EatsIf.sequence fun x hx => ?_) fun _ => EatsIf.pure id
  obtain ⟨d, h1, rfl⟩ := List.mem_map.mp hx
  exact Def.steps_fine hst he d (List.all_eq_true.mp h d h1)

theorem Def.parser_fine (hst : src.strict = true) (he : ∀ n, good n = true → LeafFine src (env n)) (hc : (env c!"CalcSize").test = isNamed c!"calc-size")
    (d : Def) (h : d.parserOk good = true) : Fine src src.fuel (d.parser env) := by
  unfold Def.parserOk at h
  split at h
  · rw [Bool.and_eq_true] at h
    unfold Def.parser
    exact EatsIf.seq (DefType.steps_fine he h.1 h.2) fun _ => EatsIf.pure id
  · unfold Def.parser; exact alternatives_fine hst he hc h
  · unfold Def.parser; exact options_fine he h
  · unfold Def.parser; exact ordered_fine hst he h
  · unfold Def.parser; exact ordered_fine hst he h
  · unfold Def.parser; exact ordered_fine hst he h
  · cases h
  · rw [Def.parser]
    · exact EatsIf.seq (Def.steps_fine hst he _ h) fun _ => EatsIf.pure id
    all_goals simp_all
  · cases h

theorem Def.leaf_fine (hst : src.strict = true) (he : ∀ n, good n = true → LeafFine src (env n)) (hc : (env c!"CalcSize").test = isNamed c!"calc-size")
    {d : Def} (h1 : d.testOk good = true) (h2 : d.parserOk good = true) : LeafFine src (d.leaf env) :=
  ⟨Def.test_probes he hc d h1, Def.parser_fine hst he hc d h2⟩
end
end Hdx

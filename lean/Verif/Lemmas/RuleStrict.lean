/-
Rules, whatever the parser skips: in a strict text, parsing them comes to an end.
-/
import Verif.Lemmas.ValueStrict4
import Verif.Model.AtRules

namespace Hdx
open Spec Prog

namespace EatsIf
variable {α β : Type} {src : Text} {n : Nat} {P : α → Prop} {Q : β → Prop}

/-! ### Conditions and media queries -/

/-- A condition consumes a token, since a feature does. -/
theorem conditionEats {φ : Type} {feature : Prog φ} (hf : Eats src n feature) : Eats src n (Hdx.condition feature n) := by
  cases n with
  | zero => exact zero
  | succ n =>
  unfold Hdx.condition
  refine peekSeq fun c hk => wordSeq hk (fun hw => ?_) (fun _ => ?_)
  · rw [if_pos rfl]
    exact seq (buildKeyword hw) fun x => ite (eat hf fun _ => pure id) fail
  · rw [if_neg (by simp)]
    refine eat hf fun f => seq (ifPeek (fun c hk => isKeyword hk) keyword).fine fun kw => ?_
    have hf' : Eats src n feature := hf.mono (by omega)
    have hl : ∀ f kw, Fine src n (Hdx.conditionLoop feature (n + 1) [] f kw) := fun f kw => (conditionLoop (n + 1) _ _ _ hf).mono (by omega)
    split
    · exact pure id
    · exact ite (seq (hl _ _) fun _ => pure id) (ite (seq (hl _ _) fun _ => pure id) (seq hf'.fine fun _ => pure id))

theorem todoParser : EatsIf src n P (Hdx.todoParser : Prog α) := seq offset fun _ => ofErr

theorem mediaValue {v : MediaValue} : Fine src n v.parser := by
  cases v
  · exact tokTest .length
  · exact tokTest .of
  · exact tokTest .of

theorem mediaFeatureOf {variant : List Char} {spec : MediaSpec} : Eats src n (Hdx.mediaFeatureOf variant spec) := by
  cases n with
  | zero => exact zero
  | succ n =>
    cases spec with
    | discrete name keys => exact map (discreteFeature keyword.fine)
    | boolean name => exact map booleanFeature
    | ranged value names legacy => exact map (rangedFeature mediaValue)
    | todo => exact todoParser

theorem hackFeature (hst : src.strict = true) : Eats src n Hdx.hackFeature := by
  cases n with
  | zero => exact zero
  | succ n =>
    unfold Hdx.hackFeature
    refine eat (tokKind (by decide)) fun o => ?_
    refine FineR.tokKind.seqE fun name hn => ?_
    refine seq (eqCase (hn.1 (.inl (kind_of_isKind (by decide) hn.2)))) fun b => ite (seq (strOf hst hn.1) fun _ => fail) ?_
    refine seq (tokKind (by decide)).fine fun colon => ?_
    refine FineR.tokKind.seqE fun value hv => ?_
    refine seq (ask fun p cs hl => ?_) fun s => ite fail (seq (tokKind (by decide)).fine fun _ => pure id)
    obtain ⟨s, hs⟩ := hv.1.whole hst
    exact ⟨s, by rw [hl.source]; exact hs, id⟩

theorem mediaFeature (hst : src.strict = true) : Eats src n Hdx.mediaFeature := by
  unfold Hdx.mediaFeature
  refine peekNSeq fun c hk => ?_
  split
  · rename_i hi
    refine seq (strLower (hk (.inl (kind_of_isKind (by decide) hi)))) fun s => ?_
    split
    · exact fail
    · refine attempt mediaFeatureOf (fun r hr => ?_) (fun a _ _ => pure id)
      match r, hr with
      | .ok a, hr => exact absurd (hr a rfl trivial) (by simp [Except.toBool])
      | .error d, _ =>
        cases n with
        | zero => exact zero
        | succ n =>
          refine bind (hackFeature hst).result ?_ ?_
          · rintro r ⟨a, rfl, _⟩; exact pure id
          · rintro (d | a) h
            · exact ofErr
            · exact absurd ⟨a, rfl, trivial⟩ h
  · refine peekNSeq fun c4 hk4 => ?_
    have tail : ∀ c, Known src c → Eats src n (if (!c.token.isKind .ident) = true then (do
        let c ← Hdx.any
        Prog.fail .unexpected c) else (do
        let s ← Prog.strLower c
        match mediaSpec s with
        | none => Prog.fail .unexpectedIdent c
        | some (variant, spec) => Hdx.mediaFeatureOf variant spec)) := by
      intro c hk
      split
      · exact seq any fun _ => fail
      · rename_i hi
        simp only [Bool.not_eq_true', Bool.not_eq_false] at hi
        refine seq (strLower (hk (.inl (kind_of_isKind (by decide) hi)))) fun s => ?_
        split
        · exact fail
        · exact mediaFeatureOf
    split
    · exact tail _ hk4
    · exact peekNSeq fun c5 hk5 => tail _ hk5

theorem mediaTypeSeq {c : Cursor} (hk : Known src c) {k : Bool → Prog β}
    (h1 : (∀ s, c.parseStrLower src.chars = .ok s → NOT_MEDIA_TYPES.contains s = false) → c.token.isKind .ident = true → EatsIf src n Q (k true)) (h2 : EatsIf src n Q (k false)) :
    EatsIf src n Q (isMediaType c >>= k) := by
  unfold isMediaType
  split
  · rename_i hi
    obtain ⟨s, hs⟩ := (hk (.inl (kind_of_isKind (by decide) hi))).2.1
    intro p cs hl hn
    have hg : Gives (do let s ← Prog.strLower c; Pure.pure (!NOT_MEDIA_TYPES.contains s) : Prog Bool) p (.ok (!NOT_MEDIA_TYPES.contains s)) p [] :=
      gives_seq (w2 := []) (gives_strLower.mpr ⟨s, by rw [hl.source]; exact hs, rfl, rfl, rfl⟩) (gives_pure.mpr ⟨rfl, rfl, rfl⟩)
    have hk : EatsIf src n Q (k (!NOT_MEDIA_TYPES.contains s)) := by
      cases hc : NOT_MEDIA_TYPES.contains s with
      | true => exact h2
      | false => exact h1 (fun s' hs' => by rw [hs] at hs'; cases hs'; exact hc) hi
    obtain ⟨r, p', w, cs', j1, j2⟩ := hk hl hn
    exact ⟨r, p', _, cs', gives_seq hg j1, j2⟩
  · exact h2

theorem buildMediaType {c : Cursor} (hk : Known src c) (hi : c.token.isKind .ident = true) (h : ∀ s, c.parseStrLower src.chars = .ok s → NOT_MEDIA_TYPES.contains s = false) :
    Fine src n (Hdx.buildMediaType c) := by
  obtain ⟨s, hs⟩ := (hk (.inl (kind_of_isKind (by decide) hi))).2.1
  intro p cs hl hn
  unfold Hdx.buildMediaType
  have hg : Gives (Prog.strLower c) p (.ok s) p [] := gives_strLower.mpr ⟨s, by rw [hl.source]; exact hs, rfl, rfl, rfl⟩
  have hrest : Fine src n (if MEDIA_TYPES.contains s = true then Pure.pure (some s, c) else if NOT_MEDIA_TYPES.contains s = true then .panic .unwrap
      else Pure.pure (none, c) : Prog (Option (List Char) × Cursor)) := by
    rw [h s hs]; exact ite (pure id) (by rw [if_neg (by simp)]; exact pure id)
  obtain ⟨r, p', w, cs', j1, j2⟩ := hrest hl hn
  exact ⟨r, p', _, cs', gives_seq hg j1, j2⟩

theorem mediaQueryRest (hst : src.strict = true) {fuel : Nat} (hf : n ≤ fuel) {pre : Option (List Char × Cursor)} {type : Option (Option (List Char) × Cursor)} :
    Fine src n (Hdx.mediaQueryRest fuel pre type) := by
  unfold Hdx.mediaQueryRest
  refine peekNSeq fun c hk => ?_
  have tail : ∀ b : Bool, Fine src n (if b = true then (do
      let and ← Prog.tok (Prog.isKind .ident)
      let cond ← Hdx.condition Hdx.mediaFeature fuel
      Pure.pure ⟨pre, type, some and, some cond⟩) else Pure.pure ⟨pre, type, none, none⟩ : Prog MediaQuery) := fun b =>
    ite (seq (tokKind (by decide)).fine fun _ => seq ((conditionEats (n := fuel) (mediaFeature hst)).mono hf).fine fun _ => pure id) (pure id)
  split
  · rename_i hi
    exact seq (eqCase (hk (.inl (kind_of_isKind (by decide) hi)))) tail
  · exact tail false

theorem mediaQuery (hst : src.strict = true) {fuel : Nat} (hf : n ≤ fuel) : Eats src n (Hdx.mediaQuery fuel) := by
  cases n with
  | zero => exact zero
  | succ n =>
  unfold Hdx.mediaQuery
  refine peekSeq fun c hk => ite (map ((conditionEats (n := fuel) (mediaFeature hst)).mono hf)) ?_
  refine tokKindSeq (by decide) fun c hi hk => ?_
  have typed : ∀ {c}, c.token.isKind .ident = true → Known src c → ∀ pre, Fine src n (isMediaType c >>= fun b => if b = true then (do
      let type ← Hdx.buildMediaType c
      Hdx.mediaQueryRest fuel pre (some type)) else (do
      let _ ← Prog.str c
      Prog.fail .unexpectedIdent c)) := by
    intro c hi hk pre
    refine mediaTypeSeq hk (fun h _ => ?_) ?_
    · rw [if_pos rfl]
      exact seq (buildMediaType hk hi h) fun _ => mediaQueryRest hst (by omega)
    · rw [if_neg (by simp)]
      exact seq (strOf hst hk) fun _ => fail
  refine wordSeq hk (fun hw => ?_) (fun _ => ?_)
  · rw [if_pos rfl]
    refine seq (buildKeyword hw) fun pre => seq peek fun d => ite ?_ (mediaQueryRest hst (by omega))
    exact FineR.tokKind.seqE fun c hc => typed hc.2 hc.1 _
  · rw [if_neg (by simp)]
    exact typed hi hk _

/-! ### Declarations -/

theorem rawValue {fuel : Nat} (hf : n ≤ fuel) : Fine src n (Hdx.rawValue fuel) :=
  setState fun _ => setStop fun _ => seq ((componentValues fuel).mono hf).result.fine fun _ => setState fun _ => setStop fun _ => ofResult

theorem isComputed {c : Cursor} (hk : Known src c) : Fine src n (Hdx.isComputed c) := Probes.functionOf.fine hk

theorem valueEnds : Fine src n Hdx.valueEnds := by
  unfold Hdx.valueEnds
  exact seq atEnd fun _ => ite (pure id) (seq peekN fun _ => ite (pure id) (seq peek fun _ => isDelim))

/-- The key of a word is one of the names. -/
theorem buildKeywordR {names : List (List Char)} {c : Cursor} (h : wordIn src.chars names c = true) : FineR src n (fun r => r.1 ∈ names) (Hdx.buildKeyword names c) := by
  intro p cs hl _
  simp only [wordIn, Bool.and_eq_true] at h
  obtain ⟨_, h⟩ := h
  split at h
  · rename_i s hs
    exact ⟨_, p, [], cs, gives_buildKeyword.mpr ⟨rfl, rfl, s, by rw [hl.source]; exact hs, h, rfl⟩, hl, List.suffix_rfl,
      fun _ h' => by cases h'; exact List.contains_iff_mem.mp h⟩
  · cases h

theorem typedValue {τ : Type} {V : Values τ} {name : Cursor} (hV : ∀ m ∈ V.names, Fine src n (V.parser m)) (hk : Known src name) : Fine src n (Hdx.typedValue V name) := by
  unfold Hdx.typedValue
  have computed : Fine src n (do
      let c ← Prog.peek
      let computed ← Hdx.isComputed c
      Pure.pure (.inr computed) : Prog (StyleValue τ ⊕ Bool)) := peekSeq fun c hk => seq (isComputed hk) fun _ => pure id
  refine wordSeq hk (fun hw => ?_) (fun _ => computed)
  rw [if_pos rfl]
  refine (buildKeywordR hw).seqE fun m hm => ?_
  obtain ⟨m, c⟩ := m
  refine seq (hV m hm).result.fine fun r => ?_
  split
  · exact seq valueEnds fun _ => ite (pure id) computed
  · exact computed

theorem styleValue {τ : Type} {V : Values τ} {name : Cursor} {fuel : Nat} (hf : n ≤ fuel) (hV : ∀ m ∈ V.names, Fine src n (V.parser m)) (hk : Known src name) :
    Fine src n (Hdx.styleValue V fuel name) := by
  unfold Hdx.styleValue
  refine ite (seq (rawValue hf) fun _ => pure id) (seq (ifPeek (fun _ hk => isKeyword hk) keyword).fine fun r => ?_)
  split
  · exact pure id
  · refine peekSeq fun c hc => seq (isComputed hc) fun _ => ite (seq (rawValue hf) fun _ => pure id) ?_
    refine attempt (typedValue hV hk) (fun r _ => ?_) (fun _ h => h.elim)
    refine seq ofResult fun v => ?_
    split
    · exact pure id
    · exact seq (rawValue hf) fun _ => pure id
    · exact seq (rawValue hf) fun _ => pure id

theorem declarationOf {ν : Type} {valid : Cursor → Prog Bool} {value : Cursor → Prog ν} (hv : ∀ c, Known src c → Fine src n (valid c))
    (hx : ∀ c, Known src c → Fine src n (value c)) : Eats src (n + 1) (Hdx.declarationOf valid value) := by
  unfold Hdx.declarationOf
  refine tokKindSeq (by decide) fun c hi hk => seq (hv c hk) fun b => ite fail ?_
  exact seq (tokKind (by decide)).fine fun _ => seq (hx c hk) fun _ => seq (ifPeek (fun _ _ => isBangImportant) (bangImportant n)).fine fun _ => pure id

theorem property {τ : Type} {V : Values τ} {fuel : Nat} (hf : n ≤ fuel) (hV : ∀ m ∈ V.names, Fine src n (V.parser m)) : Eats src n (Hdx.property V fuel) := by
  cases n with
  | zero => exact zero
  | succ n => exact declarationOf (fun _ _ => pure id) fun c hk => styleValue (by omega) (fun m hm => (hV m hm).mono (by omega)) hk

theorem fontFaceProperty {τ : Type} {V : Values τ} {fuel : Nat} (hf : n ≤ fuel) (hV : ∀ m ∈ V.names, Fine src n (V.parser m)) : Eats src n (Hdx.fontFaceProperty V fuel) := by
  cases n with
  | zero => exact zero
  | succ n => exact declarationOf (fun _ hk => isKeyword hk) fun c hk => styleValue (by omega) (fun m hm => (hV m hm).mono (by omega)) hk

theorem propertyRuleValue {fuel : Nat} (hf : n ≤ fuel) {name : Cursor} (hk : Known src name) : Fine src n (Hdx.propertyRuleValue fuel name) := by
  unfold Hdx.propertyRuleValue
  refine wordSeq hk (fun hw => ?_) (fun _ => ?_)
  · rw [if_pos rfl]
    refine seq (buildKeyword hw) fun r => ?_
    obtain ⟨k, c⟩ := r
    exact ite (seq ((componentValues fuel).mono hf) fun _ => pure id) (ite (seq keyword.fine fun _ => pure id) (seq (tokKind (by decide)).fine fun _ => pure id))
  · rw [if_neg (by simp)]
    exact seq ((componentValues fuel).mono hf) fun _ => pure id

theorem propertyRuleProperty {fuel : Nat} (hf : n ≤ fuel) : Eats src n (Hdx.propertyRuleProperty fuel) := by
  cases n with
  | zero => exact zero
  | succ n =>
    unfold Hdx.propertyRuleProperty
    refine eat (declarationOf (fun _ _ => pure id) fun c hk => propertyRuleValue (by omega) hk) fun d => ?_
    split
    · exact fail
    · exact pure id

/-! ### Lists -/

theorem ruleListLoop {ρ : Type} {item : Prog ρ} : ∀ m k items, m ≤ k → Eats src m item → Fine src m (Hdx.ruleListLoop item k items)
  | 0, _, _, _, _ => zero
  | m + 1, 0, _, h, _ => absurd h (by omega)
  | m + 1, k + 1, items, h, hi => by
    unfold Hdx.ruleListLoop
    refine seq (kindOpt (by decide)).result.fine fun _ => seq atEnd fun _ => ite (pure id) (seq peek fun c => ite ?_ ?_)
    · exact seq (tokKind (by decide)).fine fun _ => pure id
    · exact eat hi fun _ => ruleListLoop m k _ (by omega) (hi.mono (by omega))

theorem ruleList {ρ : Type} {item : Prog ρ} {fuel : Nat} (hf : n ≤ fuel) (hi : Eats src n item) : Eats src (n + 1) (Hdx.ruleList item fuel) := by
  unfold Hdx.ruleList
  refine eat (tokKind (by decide)) fun o => seq (ruleListLoop n fuel [] hf hi) fun x => ?_
  obtain ⟨_, _⟩ := x
  exact pure id

theorem declarationListLoop {δ : Type} {item : Prog δ} : ∀ m k items, m ≤ k → Eats src m item → Fine src m (Hdx.declarationListLoop item k items)
  | 0, _, _, _, _ => zero
  | m + 1, 0, _, h, _ => absurd h (by omega)
  | m + 1, k + 1, items, h, hi => by
    unfold Hdx.declarationListLoop
    refine seq atEnd fun _ => ite (pure id) (seq peek fun c => ite ?_ ?_)
    · exact seq (tokKind (by decide)).fine fun _ => pure id
    · exact eat hi fun _ => seq (kindOpt (by decide)).fine fun _ => declarationListLoop m k _ (by omega) (hi.mono (by omega))

theorem declarationList {δ : Type} {item : Prog δ} {fuel : Nat} (hf : n ≤ fuel) (hi : Eats src n item) : Eats src (n + 1) (Hdx.declarationList item fuel) := by
  unfold Hdx.declarationList
  refine eat (tokKind (by decide)) fun o => seq (declarationListLoop n fuel [] hf hi) fun x => ?_
  obtain ⟨_, _⟩ := x
  exact pure id

theorem commaPreludeLoop {item : Prog α} : ∀ m k items, m ≤ k → Eats src m item → Fine src m (Hdx.commaPreludeLoop item k items)
  | 0, _, _, _, _ => zero
  | m + 1, 0, _, h, _ => absurd h (by omega)
  | m + 1, k + 1, items, h, hi => by
    unfold Hdx.commaPreludeLoop
    exact eat hi fun _ => seq (kindOpt (by decide)).fine fun _ => seq peek fun c => ite (pure id) (commaPreludeLoop m k _ (by omega) (hi.mono (by omega)))

theorem commaPrelude {item : Prog α} {fuel : Nat} (hf : n ≤ fuel) (hi : Eats src n item) : Fine src n (Hdx.commaPrelude item fuel) := commaPreludeLoop n fuel [] hf hi

theorem preludeLoop {item : Prog α} : ∀ m k items, m ≤ k → Eats src m item → Fine src m (Hdx.preludeLoop item k items)
  | 0, _, _, _, _ => zero
  | m + 1, 0, _, h, _ => absurd h (by omega)
  | m + 1, k + 1, items, h, hi => by
    unfold Hdx.preludeLoop
    exact eat hi fun _ => seq peek fun c => ite (pure id) (preludeLoop m k _ (by omega) (hi.mono (by omega)))

theorem preludeList {item : Prog α} {fuel : Nat} (hf : n ≤ fuel) (hi : Eats src n item) : Fine src n (Hdx.preludeList item fuel) := preludeLoop n fuel [] hf hi

theorem noPrelude : Fine src n Hdx.noPrelude := by
  unfold Hdx.noPrelude
  exact seq peek fun _ => ite (pure id) fail

/-! ### Parts of at-rules -/

theorem keyframesName (hst : src.strict = true) : Fine src n Hdx.keyframesName := by
  unfold Hdx.keyframesName
  refine seq peek fun c => ite (tokKind (by decide)).fine ?_
  exact FineR.tokKind.seqE fun c hc => seq (strOf hst hc.1) fun _ => ite fail (pure id)

theorem by_dimensionOf {u : DimensionUnit} : ProbesBy src (isDimensionOf u) fun c => c.token.isKind .dimension && (c.token.dimensionUnit == u || Probes.same src.chars u.macroName c) := by
  refine Probes.by_guarded (test := fun c => if c.token.dimensionUnit == u then Pure.pure true else Prog.eqIgnoreAsciiCase c u.macroName)
    (g := fun c => c.token.dimensionUnit == u || Probes.same src.chars u.macroName c) fun p cs c hl hk hi => ?_
  split
  · rename_i h; exact gives_pure.mpr ⟨by simp [h], rfl, rfl⟩
  · rename_i h
    simpa [h] using Probes.gives_same (o := u.macroName) hl (hk (.inr (.inr (.inr (.inr (.inr (.inl (kind_of_isKind (by decide) hi))))))))

theorem keyframeSelector : Eats src n Hdx.keyframeSelector := by
  cases n with
  | zero => exact zero
  | succ n =>
    unfold Hdx.keyframeSelector
    refine bind (ifPeek (fun _ hk => isKeyword hk) keyword) ?_ ?_
    · rintro r ⟨⟨k, c⟩, rfl, _⟩
      exact ite (pure id) (pure id)
    · rintro (_ | a) h
      · refine eat (eatsBy by_dimensionOf fun c h => ?_) fun _ => ite (pure id) fail
        simp only [Bool.and_eq_true] at h
        exact isKind_notEof (by decide) h.1
      · exact absurd ⟨a, rfl, trivial⟩ h

theorem layerNameLoop : ∀ m k parts, m ≤ k → Fine src m (Hdx.layerNameLoop k parts)
  | 0, _, _, _ => zero
  | m + 1, 0, _, h => absurd h (by omega)
  | m + 1, k + 1, parts, h => by
    unfold Hdx.layerNameLoop
    refine seq peek fun c => seq isDelim fun _ => ite ?_ (pure id)
    exact eat tokDelim fun _ => seq (tokKind (by decide)).fine fun _ => layerNameLoop m k _ (by omega)

theorem layerName {fuel : Nat} (hf : n ≤ fuel) : Eats src n (Hdx.layerName fuel) := by
  cases n with
  | zero => exact zero
  | succ n => exact eat (tokKind (by decide)) fun _ => seq (layerNameLoop n fuel [] (by omega)) fun _ => pure id

theorem documentMatcher : Eats src n Hdx.documentMatcher := by
  cases n with
  | zero => exact zero
  | succ n =>
    unfold Hdx.documentMatcher
    refine seq peek fun c => ite (map (tokKind (by decide))) (eat functionOf fun r => ?_)
    obtain ⟨k, name⟩ := r
    refine seq (tokKind (by decide)).fine fun _ => seq (tokKind (by decide)).fine fun _ => ?_
    exact ite (pure id) (ite (pure id) (ite (pure id) (ite (pure id) (pure id))))

theorem missingPrelude {start : Nat} : EatsIf src n P (Hdx.missingPrelude start : Prog α) := seq offset fun _ => ofErr

section
variable {τ : Type} {V : Values τ} {fuel : Nat}

theorem keyframe (hf : n ≤ fuel) (hV : ∀ m ∈ V.names, Fine src n (V.parser m)) : Eats src n (Hdx.keyframe V fuel) := by
  cases n with
  | zero => exact zero
  | succ n =>
    unfold Hdx.keyframe
    refine eat (qualifiedRule (commaPrelude hf keyframeSelector) (declarationList (by omega) (property (by omega) fun m hm => (hV m hm).mono (by omega)))
      ((badDeclaration fuel).mono hf)) fun r => ?_
    obtain ⟨_, _⟩ := r
    exact pure id

/-- Something that eats, with what is known of its result. -/
theorem eatR {R : α → Prop} {x : Prog α} {f : α → Prog β} (hx : Eats src (n + 1) x) (hr : FineR src (n + 1) R x) (h : ∀ a, R a → Fine src n (f a)) :
    EatsIf src (n + 1) Q (x >>= f) := by
  intro p cs hl hn
  obtain ⟨r, p', w, cs', g1, g2, g3, g4⟩ := hx hl hn
  obtain ⟨r', q', w', cs2, j1, j2, j3, j4⟩ := hr hl hn
  have e : (Except.ok (r, p', w) : Except Panic _) = .ok (r', q', w') := g1.symm.trans j1
  cases e
  cases r with
  | error d => exact ⟨.error d, p', w, cs', gives_bind.mpr (.inr ⟨d, g1, rfl⟩), g2, g3, fun _ h => by cases h⟩
  | ok a =>
    have hlt := g4 a rfl trivial
    obtain ⟨r, p2, w2, cs3, k1, k2, k3, _⟩ := h a (j4 a rfl) g2 (by omega)
    have := k3.length_le
    exact ⟨r, p2, _, cs3, gives_seq g1 k1, k2, k3.trans g3, fun _ _ _ => by omega⟩

/-- In a strict text, the only one of the functions is `selector(`. -/
theorem supportsFunction (hst : src.strict = true) {f : List Char × Cursor → Prog β} (h : ∀ c, Fine src n (f (c!"selector", c))) :
    EatsIf src (n + 1) Q (Hdx.functionOf SUPPORTS_FUNCTIONS >>= f) := by
  refine eatR functionOf (R := fun r => r.1 = c!"selector") ?_ fun r hr => by obtain ⟨k, c⟩ := r; cases hr; exact h c
  refine (FineR.tokBy fun _ _ _ hl hk => gives_functionIn hl hk).seq fun c hc => ?_
  intro p cs hl _
  obtain ⟨hk, hc⟩ := hc
  simp only [functionIn, Bool.and_eq_true] at hc
  obtain ⟨hi, h'⟩ := hc
  split at h'
  · rename_i s hs
    have hno := (hk.calm hst).supports (kind_of_isKind (by decide) hi) s hs
    have : s = c!"selector" := by
      have hm := List.contains_iff_mem.mp h'
      simp only [SUPPORTS_FUNCTIONS, List.mem_cons, List.not_mem_nil, or_false, not_or] at hm hno
      rcases hm with h | h | h
      · exact absurd h hno.1
      · exact absurd h hno.2
      · exact h
    exact ⟨_, p, [], cs, gives_buildKeyword.mpr ⟨rfl, rfl, s, by rw [hl.source]; exact hs, h', rfl⟩, hl, List.suffix_rfl,
      fun _ h' => by cases h'; exact this⟩
  · cases h'

theorem supportsFeature (hst : src.strict = true) (hf : n ≤ fuel) (hV : ∀ m ∈ V.names, Fine src n (V.parser m)) : Eats src n (Hdx.supportsFeature V fuel) := by
  cases n with
  | zero => exact zero
  | succ n =>
    unfold Hdx.supportsFeature
    have body : ∀ (opening : Option Cursor) (c : Cursor), Fine src (n + 1) (do
        let selectors ← selectorListFuel fuel
        let close ← Prog.tok (Prog.isKind .rightParen)
        if opening.isSome = true then do
          let openClose ← Prog.tok (Prog.isKind .rightParen)
          Pure.pure (.selector opening c selectors close (some openClose))
        else Pure.pure (.selector opening c selectors close none) : Prog (SupportsFeature τ)) := fun opening c =>
      seq ((selectorListFuel_strict hst fuel).mono (by omega)) fun _ => seq (tokKind (by decide)).fine fun _ =>
        ite (seq (tokKind (by decide)).fine fun _ => pure id) (pure id)
    have hfun : ∀ opening, Eats src (n + 1) (do
        let (k, function) ← Hdx.functionOf SUPPORTS_FUNCTIONS
        if (k == c!"selector") = true then do
          let selectors ← selectorListFuel fuel
          let close ← Prog.tok (Prog.isKind .rightParen)
          if opening.isSome = true then do
            let openClose ← Prog.tok (Prog.isKind .rightParen)
            Pure.pure (.selector opening function selectors close (some openClose))
          else Pure.pure (.selector opening function selectors close none)
        else .panic .todo : Prog (SupportsFeature τ)) := by
      intro opening
      refine supportsFunction hst fun c => ?_
      dsimp only
      rw [if_pos (by decide)]
      exact (body opening c).mono (by omega)
    refine bind (kindOpt (by decide)) (fun o ho => ?_) (fun o ho => ?_)
    · refine seq peek fun c => ite ((hfun o).mono (by omega)).fine ?_
      cases o with
      | none => cases ho
      | some opening =>
        exact seq (property (by omega) fun m hm => (hV m hm).mono (by omega)).fine fun _ => seq (kindOpt (by decide)).fine fun _ => pure id
    · refine seq peek fun c => ite (hfun o) ?_
      cases o with
      | some opening => exact absurd rfl ho
      | none => exact seq peekN fun _ => fail

theorem supportsCondition (hst : src.strict = true) (hV : ∀ m ∈ V.names, Fine src n (V.parser m)) : Fine src n (Hdx.supportsCondition V n) := by
  unfold Hdx.supportsCondition
  exact seq peek fun c => ite (map (supportsFeature hst (Nat.le_refl _) hV)).fine (conditionEats (supportsFeature hst (Nat.le_refl _) hV)).fine

/-! ### Rules -/

theorem charsetRule (hst : src.strict = true) : Eats src n (Hdx.charsetRule : Prog (CssRule τ)) := by
  cases n with
  | zero => exact zero
  | succ n =>
    unfold Hdx.charsetRule
    refine tokKindSeq (by decide) fun c hi hk => seq (eqCase (hk (.inr (.inr (.inl (kind_of_isKind (by decide) hi)))))) fun _ => ite ?_ ?_
    · exact seq (strOf hst hk) fun _ => fail
    · exact seq whitespace.fine fun _ => seq (tokKind (by decide)).fine fun _ => seq (tokKind (by decide)).result.fine fun _ => pure id

theorem layerBlock {rule : Prog (CssRule τ)} (hf : n ≤ fuel) (hr : Eats src n rule) : Fine src n (Hdx.layerBlock rule fuel) := by
  unfold Hdx.layerBlock
  refine seq (kindOpt (by decide)).fine fun o => ?_
  split
  · exact pure id
  · exact seq ((ruleList hf hr).mono (by omega)).fine fun _ => pure id

section
variable {rule : Prog (CssRule τ)} (hst : src.strict = true) (hf : n ≤ fuel) (hr : Eats src n rule) (hV : ∀ m ∈ V.names, Fine src n (V.parser m))
include hst hf

theorem fontFaceRule (hV : ∀ m ∈ V.names, Fine src n (V.parser m)) : Eats src (n + 1) (Hdx.fontFaceRule V fuel) := by
  unfold Hdx.fontFaceRule
  refine eat (atRule noPrelude ((ruleList hf (fontFaceProperty hf hV)).mono (by omega)).fine) fun r => ?_
  obtain ⟨_, _, _⟩ := r
  exact pure id

theorem keyframesRule (hV : ∀ m ∈ V.names, Fine src n (V.parser m)) : Eats src (n + 1) (Hdx.keyframesRule V fuel) := by
  unfold Hdx.keyframesRule
  refine eat (atRule (keyframesName hst) ((ruleList hf (keyframe hf hV)).mono (by omega)).fine) fun r => ?_
  obtain ⟨_, _, _⟩ := r
  exact pure id

theorem webkitKeyframesRule (hV : ∀ m ∈ V.names, Fine src n (V.parser m)) : Eats src (n + 1) (Hdx.webkitKeyframesRule V fuel) := by
  unfold Hdx.webkitKeyframesRule
  refine seq offset fun _ => eat (atRule (keyframesName hst) ((ruleList hf (keyframe hf hV)).mono (by omega)).fine) fun r => ?_
  obtain ⟨_, o, _⟩ := r
  cases o
  · exact missingPrelude
  · exact pure id

include hr in
theorem layerRule : Eats src (n + 1) (Hdx.layerRule rule fuel) := by
  unfold Hdx.layerRule
  refine eat (atRule (commaPrelude hf (layerName hf)) (layerBlock hf hr)) fun r => ?_
  obtain ⟨at', names, b⟩ := r
  dsimp only
  split
  · exact pure id
  · exact pure id
  · split
    · exact fail
    · exact pure id

include hr in
theorem mediaRule (hV : ∀ m ∈ V.names, Fine src n (V.parser m)) : Eats src (n + 1) (Hdx.mediaRule V rule fuel) := by
  unfold Hdx.mediaRule
  refine seq offset fun _ => eat (atRule (preludeList hf (mediaQuery hst hf))
    ((blockOf n fuel hf (fun _ _ => isDeclaration) (property hf hV) hr).mono (by omega)).fine) fun r => ?_
  obtain ⟨_, o, _⟩ := r
  cases o
  · exact missingPrelude
  · exact pure id

theorem propertyRule : Eats src (n + 1) (Hdx.propertyRule fuel : Prog (CssRule τ)) := by
  unfold Hdx.propertyRule
  refine eat (atRule (tokTest .of) ((declarationList hf (propertyRuleProperty hf)).mono (by omega)).fine) fun r => ?_
  obtain ⟨_, o, _⟩ := r
  cases o
  · exact fail
  · exact pure id

include hr in
theorem supportsRule (hV : ∀ m ∈ V.names, Fine src fuel (V.parser m)) : Eats src (n + 1) (Hdx.supportsRule V rule fuel) := by
  unfold Hdx.supportsRule
  refine seq offset fun _ => eat (atRule ((supportsCondition hst hV).mono hf) ((ruleList hf hr).mono (by omega)).fine) fun r => ?_
  obtain ⟨_, o, _⟩ := r
  cases o
  · exact missingPrelude
  · exact pure id

include hr in
theorem documentRule {moz : Bool} : Eats src (n + 1) (Hdx.documentRule moz rule fuel) := by
  unfold Hdx.documentRule
  refine eat (atRule (commaPrelude hf documentMatcher) ((ruleList hf hr).mono (by omega)).fine) fun r => ?_
  obtain ⟨_, o, _⟩ := r
  cases o
  · exact fail
  · exact pure id

include hr in
theorem knownAtRule (hV : ∀ m ∈ V.names, Fine src fuel (V.parser m)) {nested : Bool} {name : List Char} (hn : name ∉ [c!"page", c!"container"]) :
    ∀ x, Hdx.knownAtRule V rule fuel nested name = some x → Eats src (n + 1) x := by
  have hV' : ∀ m ∈ V.names, Fine src n (V.parser m) := fun m hm => (hV m hm).mono hf
  simp only [List.mem_cons, List.not_mem_nil, or_false, not_or] at hn
  intro x hx
  unfold Hdx.knownAtRule at hx
  rw [if_neg (by simpa using hn.2)] at hx
  have pick : ∀ {b : Bool} {y : Prog (CssRule τ)} {q : Option (Prog (CssRule τ))}, (if b = true then some y else q) = some x →
      (b = true → Eats src (n + 1) y) → (q = some x → Eats src (n + 1) x) → Eats src (n + 1) x := by
    intro b y q h h1 h2
    cases b
    · exact h2 h
    · cases h; exact h1 rfl
  have pickNone : ∀ {b : Bool} {q : Option (Prog (CssRule τ))}, (if b = true then none else q) = some x →
      (q = some x → Eats src (n + 1) x) → Eats src (n + 1) x := by
    intro b q h h2
    cases b
    · exact h2 h
    · cases h
  refine pick hx (fun _ => layerRule hst hf hr) fun hx => ?_
  refine pick hx (fun _ => mediaRule hst hf hr hV') fun hx => ?_
  refine pick hx (fun _ => todoParser) fun hx => ?_
  refine pick hx (fun _ => supportsRule hst hf hr hV) fun hx => ?_
  refine pickNone hx fun hx => ?_
  refine pick hx (fun _ => charsetRule hst) fun hx => ?_
  refine pick hx (fun _ => todoParser) fun hx => ?_
  refine pick hx (fun _ => todoParser) fun hx => ?_
  refine pick hx (fun _ => fontFaceRule hst hf hV') fun hx => ?_
  refine pick hx (fun _ => todoParser) fun hx => ?_
  refine pick hx (fun _ => todoParser) fun hx => ?_
  refine pick hx (fun _ => todoParser) fun hx => ?_
  refine pick hx (fun _ => keyframesRule hst hf hV') fun hx => ?_
  refine pick hx (fun _ => todoParser) fun hx => ?_
  refine pick hx (fun h => absurd (by simpa using h) hn.1) fun hx => ?_
  refine pick hx (fun _ => propertyRule hst hf) fun hx => ?_
  refine pick hx (fun _ => todoParser) fun hx => ?_
  refine pick hx (fun _ => documentRule hst hf hr) fun hx => ?_
  refine pick hx (fun _ => webkitKeyframesRule hst hf hV') fun hx => ?_
  refine pick hx (fun _ => documentRule hst hf hr) fun hx => ?_
  cases hx

theorem unknownAtRule {generic : Prog Rule} (hg : Eats src n generic) : Eats src (n + 1) (Hdx.unknownAtRule generic fuel : Prog (CssRule τ)) :=
  eat (genericAtRule n fuel hf hg) fun _ => pure id

end

/-- A parser that is tried first. -/
theorem orAttempt {x y : Prog α} {k : Except Diag α → Prog α} (hk : ∀ a, k (.ok a) = Pure.pure a) (he : ∀ d, k (.error d) = y) (hx : Eats src n x) (hy : Eats src n y) : Eats src n (Prog.attempt x (fun r => r.toBool) k) := by
  refine attempt hx (fun r hr => ?_) (fun a _ _ => by rw [hk]; exact pure id)
  match r, hr with
  | .ok a, hr => exact absurd (hr a rfl trivial) (by simp [Except.toBool])
  | .error d, _ => rw [he]; exact hy

end

/-! ### Rules in a block

The last resort for a rule in a block is a bad declaration, which may consist of nothing; but then the block ends there. -/

/-- The block ends here. -/
def _root_.Hdx.Closes (p : Parser) (cs : List Cursor) : Prop := (∃ c, p.peekNext = .ok c ∧ c.token.isKind .rightCurly = true) ∨ cs = []

/-- If it succeeds it has consumed a token, or the block ends. -/
def _root_.Hdx.EatsOrCloses (src : Text) (n : Nat) (x : Prog α) : Prop :=
  ∀ ⦃p : Parser⦄ ⦃cs : List Cursor⦄, Left src p cs → cs.length < n →
    ∃ r p' w cs', Gives x p r p' w ∧ Left src p' cs' ∧ cs' <:+ cs ∧ ∀ a, r = .ok a → cs'.length < cs.length ∨ Closes p' cs'

theorem orCloses {x : Prog α} (h : Eats src n x) : EatsOrCloses src n x := by
  intro p cs hl hn
  obtain ⟨r, p', w, cs', h1, h2, h3, h4⟩ := h hl hn
  exact ⟨r, p', w, cs', h1, h2, h3, fun a ha => .inl (h4 a ha trivial)⟩

theorem badDeclarationLoop_closes {item : Prog ComponentValue} {n : Nat} {acc : List ComponentValue} (hi : Eats src n item) : EatsOrCloses src n (Hdx.badDeclarationLoop item n acc) := by
  cases n with
  | zero => exact orCloses zero
  | succ n =>
  intro p cs hl hn
  unfold Hdx.badDeclarationLoop
  obtain ⟨c, hc, hk⟩ := hl.peek
  have hae := hl.stream.at_end
  have g0 : Gives Prog.atEnd p (.ok p.lexer.atEnd) p [] := gives_atEnd.mpr ⟨rfl, rfl, rfl⟩
  by_cases he : cs = []
  · subst he
    rw [hae] at g0
    refine ⟨.ok acc, p, [] ++ [], [], gives_seq g0 ?_, hl, List.suffix_rfl, fun _ _ => .inr (.inr rfl)⟩
    exact gives_pure.mpr ⟨rfl, rfl, rfl⟩
  have hae' : p.lexer.atEnd = false := by rw [hae]; cases cs; exact absurd rfl he; rfl
  rw [hae'] at g0
  suffices h : ∃ r p' w cs', Gives (if c.token.isKind .semicolon = true then (do
        let v ← item
        Pure.pure (acc ++ [v]))
      else if c.token.isKind .rightCurly = true then (do
        if ← Prog.isNested then Pure.pure acc
        else
          let _ ← Prog.tok (Prog.isKind .rightCurly)
          let v ← item
          Hdx.badDeclarationLoop item n (acc ++ [v]))
      else (do
        let v ← item
        Hdx.badDeclarationLoop item n (acc ++ [v])) : Prog (List ComponentValue)) p r p' w ∧ Left src p' cs' ∧ cs' <:+ cs ∧ ∀ a, r = .ok a → cs'.length < cs.length ∨ Closes p' cs' by
    obtain ⟨r, p', w, cs', h1, h2⟩ := h
    refine ⟨r, p', [] ++ w, cs', gives_seq g0 ?_, h2⟩
    rw [if_neg (by simp)]
    exact gives_of_peek hc h1
  have loop : ∀ acc, Fine src n (Hdx.badDeclarationLoop item n acc) := fun acc => badDeclarationLoop n _ (hi.mono (by omega))
  split
  · exact orCloses (eat hi fun _ => pure id) hl hn
  split
  · rename_i hr
    have g1 : Gives Prog.isNested p (.ok p.nested) p [] := gives_ask.mpr ⟨_, rfl, rfl, rfl, rfl⟩
    cases hn' : p.nested with
    | true =>
      rw [hn'] at g1
      refine ⟨.ok acc, p, [] ++ [], cs, gives_seq g1 ?_, hl, List.suffix_rfl, fun _ _ => .inr (.inl ⟨c, hc, hr⟩)⟩
      exact gives_pure.mpr ⟨rfl, rfl, rfl⟩
    | false =>
      rw [hn'] at g1
      have h2 : Eats src (n + 1) (do
          let _ ← Prog.tok (Prog.isKind .rightCurly)
          let v ← item
          Hdx.badDeclarationLoop item n (acc ++ [v]) : Prog (List ComponentValue)) :=
        eat (tokKind (by decide)) fun _ => seq (hi.mono (by omega)).fine fun _ => loop _
      obtain ⟨r, p', w, cs', h1, h2⟩ := orCloses h2 hl hn
      refine ⟨r, p', [] ++ w, cs', gives_seq g1 ?_, h2⟩
      rw [if_neg (by simp)]
      exact h1
  · exact orCloses (eat hi fun _ => loop _) hl hn

theorem badRule {τ : Type} {fuel : Nat} (hf : n ≤ fuel) : EatsOrCloses src n (Hdx.badRule fuel : Prog (CssRule τ)) := by
  intro p cs hl hn
  have hb : EatsOrCloses src fuel (Hdx.badDeclaration fuel) := badDeclarationLoop_closes (componentValue fuel)
  obtain ⟨r, p', w, cs', h1, h2, h3, h4⟩ := hb (hl.congr (q := { p with nested := true }) rfl rfl) (by omega)
  unfold Hdx.badRule
  cases r with
  | error d =>
    refine ⟨.error d, { p' with nested := p.nested }, w ++ [], cs', gives_setState.mpr (gives_seq (gives_result.mpr ⟨_, h1, rfl⟩) (gives_setState.mpr ?_)),
      h2.congr rfl rfl, h3, fun a ha => by cases ha⟩
    exact gives_bind.mpr (.inr ⟨d, gives_ofResult.mpr ⟨rfl, rfl, rfl⟩, rfl⟩)
  | ok a =>
    refine ⟨.ok (.bad a), { p' with nested := p.nested }, w ++ ([] ++ []), cs', gives_setState.mpr (gives_seq (gives_result.mpr ⟨_, h1, rfl⟩) (gives_setState.mpr ?_)),
      h2.congr rfl rfl, h3, fun _ _ => h4 a rfl⟩
    exact gives_seq (gives_ofResult.mpr ⟨rfl, rfl, rfl⟩) (gives_pure.mpr ⟨rfl, rfl, rfl⟩)

/-- A parser that is tried first. -/
theorem orAttemptCloses {x y : Prog α} {k : Except Diag α → Prog α} (hk : ∀ a, k (.ok a) = Pure.pure a) (he : ∀ d, k (.error d) = y) (hx : Eats src n x) (hy : EatsOrCloses src n y) : EatsOrCloses src n (Prog.attempt x (fun r => r.toBool) k) := by
  intro p cs hl hn
  obtain ⟨r, p', w, cs', h1, h2, h3, h4⟩ := hx hl hn
  cases r with
  | ok a => exact ⟨.ok a, p', w ++ [], cs', gives_attempt.mpr ⟨_, p', w, [], h1, .inl ⟨rfl, rfl, by rw [hk]; exact gives_pure.mpr ⟨rfl, rfl, rfl⟩⟩⟩, h2, h3, fun _ _ => .inl (h4 a rfl trivial)⟩
  | error d =>
    obtain ⟨s1, s2⟩ := runLog_source x h1
    have hl' : Left src (p'.rewind p.checkpoint) cs := by
      refine ⟨h2.source, hl.stream.congr ?_ ?_ ?_, h2.skip, hl.names⟩
      · simp [Parser.rewind, Lexer.rewind, s1]
      · simp [Parser.rewind, Lexer.rewind, s2]
      · simp [Parser.rewind, Lexer.rewind, Parser.checkpoint, Lexer.checkpoint]
    obtain ⟨r2, p2, w2, cs2, j1, j2⟩ := hy hl' hn
    exact ⟨r2, p2, _, cs2, gives_attempt.mpr ⟨_, p', w, w2, h1, .inr ⟨rfl, rfl, by rw [he]; exact j1⟩⟩, j2⟩

/-- White space before a token: if it is skipped anyway, the token stays the next one. -/
theorem dropWhile_past {γ : Type} {a b q : γ → Bool} {x y : γ} : ∀ {l : List γ}, (l.dropWhile a).head? = some x → b x = false → q x = false →
    (l.dropWhile b).head? = some y → q y = true → (((l.dropWhile b).tail).dropWhile a).head? = some x
  | [], h, _, _, _, _ => by cases h
  | z :: l, h1, h2, h3, h4, h5 => by
    by_cases hb : b z = true
    · rw [List.dropWhile_cons_of_pos hb] at h4 ⊢
      by_cases ha : a z = true
      · rw [List.dropWhile_cons_of_pos ha] at h1
        exact dropWhile_past h1 h2 h3 h4 h5
      · rw [List.dropWhile_cons_of_neg ha] at h1
        cases h1; rw [hb] at h2; cases h2
    · rw [List.dropWhile_cons_of_neg hb] at h4 ⊢
      have e : z = y := by simpa using h4
      by_cases ha : a z = true
      · rw [List.dropWhile_cons_of_pos ha] at h1; exact h1
      · rw [List.dropWhile_cons_of_neg ha] at h1
        have e' : z = x := by simpa using h1
        rw [← e', e, h5] at h3; cases h3

/-- At the end of a block, the loop ends. -/
theorem blockLoop_closes {δ ρ : Type} {isDecl : Cursor → Prog Bool} {decl : Prog δ} {rule : Prog ρ} : ∀ (k : Nat) {p : Parser} {cs : List Cursor} (ds : List (δ × Option Cursor)) (rs : List ρ),
    Left src p cs → Closes p cs → cs.length ≤ k → 1 ≤ k → Goes src p cs (fun _ => False) (Hdx.blockLoop isDecl decl rule k ds rs)
  | 0, _, _, _, _, _, _, _, h => absurd h (by omega)
  | k + 1, p, cs, ds, rs, hl, hc, hk, _ => by
    unfold Hdx.blockLoop
    obtain ⟨c, hpeek, _⟩ := hl.peek
    have hpe := hpeek
    rw [peekNext_stream hl.stream] at hpe
    have hcases : c.token.isKind .rightCurly = true ∧ cs ≠ [] ∨ cs = [] := by
      rcases hc with ⟨c', h1, h2⟩ | h
      · rw [hpeek] at h1; cases h1
        refine .inl ⟨h2, ?_⟩
        rintro rfl
        simp only [firstOutside, List.dropWhile_nil, List.head?_nil, Option.getD_none] at hpe
        cases hpe
        exact absurd h2 (show ¬ Token.EOF.isKind .rightCurly = true by decide)
      · exact .inr h
    have hsemi : c.token.isKind .semicolon = false := by
      rcases hcases with ⟨h, _⟩ | rfl
      · cases hs : c.token.isKind .semicolon with
        | false => rfl
        | true => rw [isKind_iff (by decide)] at h hs; rw [h] at hs; cases hs
      · simp only [firstOutside, List.dropWhile_nil, List.head?_nil, Option.getD_none] at hpe
        cases hpe; exact (by decide : Token.EOF.isKind .semicolon = false)
    have hws : Gives (Prog.isWs c) p (.ok ((firstWsOrOutside p.lexer p.skip cs).token.isKind .whitespace)) p [] :=
      gives_ask.mpr ⟨_, by rw [peekWs_stream hl.stream]; rfl, rfl, rfl, rfl⟩
    have rest : Goes src p cs (fun _ => False) (do
        let semi ← Prog.ifPeek (Prog.isKind .semicolon) (Prog.tok (Prog.isKind .semicolon))
        if semi.isSome = true then Hdx.blockLoop isDecl decl rule k ds rs
        else if ← Prog.atEnd then Pure.pure (ds, rs)
        else
          let c ← Prog.peek
          if c.token.isKind .rightCurly = true then Pure.pure (ds, rs)
          else
            Prog.setState true fun old => do
              let c ← Prog.peek
              if c.token.isKind .atKeyword = true then do
                let r ← Prog.result rule
                Prog.setState old fun _ => do
                  let r ← Prog.ofResult r
                  Hdx.blockLoop isDecl decl rule k ds (rs ++ [r])
              else do
                let d ← Prog.result (Prog.ifPeek isDecl (Prog.tryParse decl))
                match d with
                | .ok (some d) =>
                  Prog.setState old fun _ => do
                    let semi ← Prog.ifPeek (Prog.isKind .semicolon) (Prog.tok (Prog.isKind .semicolon))
                    Hdx.blockLoop isDecl decl rule k (ds ++ [(d, semi)]) rs
                | _ => do
                  let r ← Prog.result rule
                  Prog.setState old fun _ => do
                    let r ← Prog.ofResult r
                    Hdx.blockLoop isDecl decl rule k ds (rs ++ [r])) := by
      have g1 : Gives (Prog.ifPeek (Prog.isKind .semicolon) (Prog.tok (Prog.isKind .semicolon))) p (.ok none) p [] :=
        gives_ifPeek.mpr ⟨c, false, p, [], [], hpeek, gives_pure.mpr ⟨by rw [hsemi], rfl, rfl⟩, rfl, .inr ⟨rfl, rfl, rfl, rfl⟩⟩
      have g2 : Gives Prog.atEnd p (.ok p.atEnd) p [] := gives_atEnd.mpr ⟨rfl, rfl, rfl⟩
      refine ⟨.ok (ds, rs), p, [] ++ ([] ++ []), cs, gives_seq g1 ?_, hl, List.suffix_rfl, fun _ _ h => h.elim⟩
      rw [if_neg (by simp)]
      refine gives_seq g2 ?_
      split
      · exact gives_pure.mpr ⟨rfl, rfl, rfl⟩
      · rename_i hne
        refine gives_of_peek hpeek ?_
        rcases hcases with ⟨h, _⟩ | rfl
        · rw [if_pos h]; exact gives_pure.mpr ⟨rfl, rfl, rfl⟩
        · exact absurd (show p.atEnd = true from hl.stream.at_end) hne
    cases hw : (firstWsOrOutside p.lexer p.skip cs).token.isKind .whitespace with
    | false =>
      rw [hw] at hws
      have g1 : Gives (Prog.ifPeek Prog.isWs Prog.whitespace) p (.ok none) p [] :=
        gives_ifPeek.mpr ⟨c, false, p, [], [], hpeek, hws, rfl, .inr ⟨rfl, rfl, rfl, rfl⟩⟩
      obtain ⟨r, p', w, cs', h1, h2⟩ := rest
      exact ⟨r, p', _, cs', gives_seq g1 h1, h2⟩
    | true =>
      rw [hw] at hws
      have hlw : Left src { p with skip := KindSet.COMMENTS } cs := ⟨hl.source, hl.stream, .lit (s := KindSet.COMMENTS) (by decide), hl.names⟩
      obtain ⟨l', a, b, c1, c2⟩ := next_stream hlw.stream
      have hsuf : (cs.dropWhile (fun c => c.token.inSet KindSet.COMMENTS)).tail <:+ cs := (List.tail_suffix _).trans (List.dropWhile_suffix _)
      generalize hq : ({ { p with skip := KindSet.COMMENTS } with lexer := l', trivia := p.trivia ++ cs.takeWhile (fun c => c.token.inSet KindSet.COMMENTS) } : Parser) = q at a
      have hql : q.lexer = l' := by rw [← hq]
      have hl2 : Left src { q with skip := p.skip } (cs.dropWhile (fun c => c.token.inSet KindSet.COMMENTS)).tail :=
        ⟨by rw [← hl.source]; show q.lexer.source = _; rw [hql]; exact c1, by show Stream q.lexer _; rw [hql]; exact b, hl.skip, fun c hc => hl.names c (hsuf.subset hc)⟩
      have gw : Gives Prog.whitespace p (if (firstOutside p.lexer KindSet.COMMENTS cs).token.isKind .whitespace then .ok (firstOutside p.lexer KindSet.COMMENTS cs)
          else .error ⟨.unexpected, (firstOutside p.lexer KindSet.COMMENTS cs).span⟩) { q with skip := p.skip } [firstOutside p.lexer KindSet.COMMENTS cs] := by
        unfold Prog.whitespace
        refine gives_setSkip.mpr (gives_next.mpr ⟨_, q, [], a, gives_setSkip.mpr ?_, rfl⟩)
        show Gives (if (firstOutside p.lexer KindSet.COMMENTS cs).token.isKind .whitespace = true then _ else _) _ _ _ _
        split
        · exact gives_pure.mpr ⟨rfl, rfl, rfl⟩
        · exact gives_fail.mpr ⟨rfl, rfl, rfl⟩
      cases hy : (firstOutside p.lexer KindSet.COMMENTS cs).token.isKind .whitespace with
      | false =>
        rw [hy] at gw
        have g1 : Gives (Prog.ifPeek Prog.isWs Prog.whitespace) p (.error ⟨.unexpected, (firstOutside p.lexer KindSet.COMMENTS cs).span⟩) { q with skip := p.skip }
            ([] ++ [firstOutside p.lexer KindSet.COMMENTS cs]) := by
          unfold Prog.ifPeek
          refine gives_of_peek hpeek (gives_seq hws ?_)
          rw [if_pos rfl]
          exact gives_bind.mpr (.inr ⟨_, gw, rfl⟩)
        exact ⟨_, _, _, _, gives_bind.mpr (.inr ⟨_, g1, rfl⟩), hl2, hsuf, fun _ _ h => h.elim⟩
      | true =>
        rw [hy] at gw
        have g1 : Gives (Prog.ifPeek Prog.isWs Prog.whitespace) p (.ok (some (firstOutside p.lexer KindSet.COMMENTS cs))) { q with skip := p.skip }
            ([] ++ [firstOutside p.lexer KindSet.COMMENTS cs]) :=
          gives_ifPeek.mpr ⟨c, true, p, [], _, hpeek, hws, rfl, .inl ⟨rfl, _, rfl, gw⟩⟩
        have hne : cs.dropWhile (fun c => c.token.inSet KindSet.COMMENTS) ≠ [] := by
          intro he
          rw [firstOutside, he] at hy
          exact absurd hy (show ¬ Token.EOF.isKind .whitespace = true by decide)
        have hlt : (cs.dropWhile (fun c => c.token.inSet KindSet.COMMENTS)).tail.length < cs.length := by
          have h1 := (List.dropWhile_suffix (l := cs) (fun c => c.token.inSet KindSet.COMMENTS)).length_le
          have h2 := List.length_pos_iff.mpr hne
          rw [List.length_tail]; omega
        have hcl : ((cs.dropWhile (fun c => c.token.inSet KindSet.COMMENTS)).tail.dropWhile (fun c => c.token.inSet p.skip)).head? = some c ∧ c.token.isKind .rightCurly = true := by
          rcases hcases with ⟨hr, hne'⟩ | rfl
          · refine ⟨?_, hr⟩
            have hhead : (cs.dropWhile (fun c => c.token.inSet p.skip)).head? = some c := by
              cases hh : (cs.dropWhile (fun c => c.token.inSet p.skip)).head? with
              | some d => simp only [firstOutside, hh, Option.getD_some] at hpe; cases hpe; rfl
              | none =>
                simp only [firstOutside, hh, Option.getD_none] at hpe
                cases hpe
                exact absurd hr (show ¬ Token.EOF.isKind .rightCurly = true by decide)
            have hk := kind_of_isKind (by decide) hr
            refine dropWhile_past (q := fun c => c.token.isKind .whitespace) (y := firstOutside p.lexer KindSet.COMMENTS cs) hhead ?_ ?_ ?_ hy
            · cases hx : c.token.inSet KindSet.COMMENTS with
              | false => rfl
              | true => rw [inSet_of_kind (by decide) hr] at hx; exact absurd hx (by decide)
            · cases hx : c.token.isKind .whitespace with
              | false => rfl
              | true => rw [isKind_iff (by decide), hk] at hx; cases hx
            · cases hd : cs.dropWhile (fun c => c.token.inSet KindSet.COMMENTS) with
              | nil => exact absurd hd hne
              | cons z zs => simp [firstOutside, hd]
          · exact absurd rfl hne
        have hne2 : (cs.dropWhile (fun c => c.token.inSet KindSet.COMMENTS)).tail ≠ [] := by
          intro he; rw [he] at hcl; cases hcl.1
        have hpos := List.length_pos_iff.mpr hne2
        obtain ⟨r, p', w, cs', h1, h2, h3, _⟩ := blockLoop_closes k ds rs hl2 (.inl ⟨c, by rw [peekNext_stream hl2.stream]; simp [firstOutside, hcl.1], hcl.2⟩) (by omega) (by omega)
        exact ⟨r, p', _ ++ w, cs', gives_seq g1 (by rw [if_pos (by simp)]; exact h1), h2, h3.trans hsuf, fun _ _ h => h.elim⟩

theorem blockLoopStrict {δ ρ : Type} {isDecl : Cursor → Prog Bool} {decl : Prog δ} {rule : Prog ρ} (n : Nat) (hi : ∀ c, Known src c → Fine src n (isDecl c))
    (hd : Eats src n decl) (hr : EatsOrCloses src n rule) : ∀ m k ds rs, m ≤ n → m + 1 ≤ k → Fine src m (Hdx.blockLoop isDecl decl rule k ds rs)
  | 0, k, _, _, _, _ => zero
  | m + 1, 0, _, _, _, h => absurd h (by omega)
  | m + 1, k + 1, ds, rs, h1, h2 => by
    have ih := fun ds rs => blockLoopStrict n hi hd hr m k ds rs (by omega) (by omega)
    unfold Hdx.blockLoop
    refine bind wsOpt (fun o h => ?_) (fun o h => ?_)
    · rw [if_pos h]; exact ih ds rs
    rw [if_neg h]
    refine bind (kindOpt (by decide)) (fun o h => ?_) (fun o h => ?_)
    · rw [if_pos h]; exact ih ds rs
    rw [if_neg h]
    refine seq atEnd fun _ => ite (pure id) (seq peek fun c => ite (pure id) (setState fun old => seq peek fun c => ?_))
    have fin : Fine src (m + 1) (Prog.result rule >>= fun r => Prog.setState old fun _ => (Prog.ofResult r >>= fun r => Hdx.blockLoop isDecl decl rule k ds (rs ++ [r]))) := by
      intro p cs hl hn
      obtain ⟨r, p', w, cs', g1, g2, g3, g4⟩ := hr hl (by omega)
      have hlen := g3.length_le
      have g1' : Gives (Prog.result rule) p (.ok r) p' w := gives_result.mpr ⟨r, g1, rfl⟩
      have hl' : Left src { p' with nested := old } cs' := g2.congr rfl rfl
      cases r with
      | error d =>
        exact ⟨.error d, _, _, cs', gives_seq g1' (gives_setState.mpr (gives_bind.mpr (.inr ⟨d, gives_ofResult.mpr ⟨rfl, rfl, rfl⟩, rfl⟩))), hl', g3, fun _ _ h => h.elim⟩
      | ok a =>
        have go : Goes src { p' with nested := old } cs' (fun _ => False) (Hdx.blockLoop isDecl decl rule k ds (rs ++ [a])) := by
          rcases g4 a rfl with h | h
          · exact ih _ _ hl' (by omega)
          · exact blockLoop_closes k _ _ hl' h (by omega) (by omega)
        obtain ⟨r2, p2, w2, cs2, j1, j2, j3, _⟩ := go
        exact ⟨r2, p2, _, cs2, gives_seq g1' (gives_setState.mpr (gives_seq (gives_ofResult.mpr ⟨rfl, rfl, rfl⟩) j1)), j2, j3.trans g3, fun _ _ h => h.elim⟩
    refine ite fin ?_
    refine bind (ifPeek (fun c hc => (hi c hc).mono h1) (hd.mono h1).tryParse).result ?_ ?_
    · rintro r ⟨a, rfl, b, rfl, _⟩
      exact setState fun _ => seq (kindOpt (by decide)).fine fun _ => ih _ _
    · intro r h
      split
      · rename_i d
        exact absurd ⟨_, rfl, d, rfl, trivial⟩ h
      · exact fin

theorem blockOfStrict {δ ρ : Type} {isDecl : Cursor → Prog Bool} {decl : Prog δ} {rule : Prog ρ} (n k : Nat) (h : n + 1 ≤ k) (hi : ∀ c, Known src c → Fine src n (isDecl c))
    (hd : Eats src n decl) (hr : EatsOrCloses src n rule) : Eats src (n + 1) (Hdx.blockOf isDecl decl rule k) := by
  unfold Hdx.blockOf
  refine eat (tokKind (by decide)) fun o => seq (blockLoopStrict n hi hd hr n k _ _ (Nat.le_refl _) h) fun x => ?_
  obtain ⟨ds, rs⟩ := x
  exact seq (kindOpt (by decide)).fine fun _ => pure id

theorem styleRule {τ : Type} {V : Values τ} {fuel : Nat} {nestedRule : Prog (CssRule τ)} (hst : src.strict = true) (hf : n + 1 ≤ fuel) (hr : EatsOrCloses src n nestedRule) (hV : ∀ m ∈ V.names, Fine src n (V.parser m)) :
    Eats src (n + 1) (Hdx.styleRule V nestedRule fuel) := by
  unfold Hdx.styleRule
  refine eat (qualifiedRule ((selectorListFuel_strict hst fuel).mono hf) (blockOfStrict n fuel hf (fun _ _ => isDeclaration) (property (by omega) hV) hr)
    ((badDeclaration fuel).mono hf)) fun r => ?_
  obtain ⟨_, _⟩ := r
  exact pure id


section
variable {τ : Type} {V : Values τ} {fuel : Nat}

theorem unknownQualifiedRule {generic : Prog Rule} (hf : n + 1 ≤ fuel) (hg : Eats src n generic) : Eats src (n + 1) (Hdx.unknownQualifiedRule generic fuel : Prog (CssRule τ)) :=
  eat (genericQualifiedRule n fuel hf hg) fun _ => pure id

theorem qualifiedCssRule {nestedRule : Prog (CssRule τ)} {generic : Prog Rule} (hst : src.strict = true) (hf : n + 1 ≤ fuel) (hr : EatsOrCloses src n nestedRule)
    (hg : Eats src n generic) (hV : ∀ m ∈ V.names, Fine src n (V.parser m)) : EatsOrCloses src (n + 1) (Hdx.qualifiedCssRule V nestedRule generic fuel true) := by
  unfold Hdx.qualifiedCssRule
  exact orAttemptCloses (fun _ => rfl) (fun _ => rfl) (styleRule hst hf hr hV) (orAttemptCloses (fun _ => rfl) (fun _ => rfl) (unknownQualifiedRule hf hg) (badRule hf))

theorem topCssRule {nestedRule : Prog (CssRule τ)} {generic : Prog Rule} (hst : src.strict = true) (hf : n + 1 ≤ fuel) (hr : EatsOrCloses src n nestedRule)
    (hg : Eats src n generic) (hV : ∀ m ∈ V.names, Fine src n (V.parser m)) : Eats src (n + 1) (Hdx.qualifiedCssRule V nestedRule generic fuel false) := by
  unfold Hdx.qualifiedCssRule
  exact orAttempt (fun _ => rfl) (fun _ => rfl) (styleRule hst hf hr hV) (unknownQualifiedRule hf hg)

theorem atCssRule {rule : Prog (CssRule τ)} {generic : Prog Rule} {nested : Bool} (hst : src.strict = true) (hf : n ≤ fuel) (hr : Eats src n rule)
    (hg : Eats src n generic) (hV : ∀ m ∈ V.names, Fine src fuel (V.parser m)) {p : Parser} {cs : List Cursor} {c : Cursor} (hl : Left src p cs) (hn : cs.length < n + 1)
    (hc : p.peekNext = .ok c) (hk : c.token.isKind .atKeyword = true) : Goes src p cs (fun _ => True) (Hdx.atCssRule V rule generic fuel nested) := by
  unfold Hdx.atCssRule
  obtain ⟨c', q, cs', h1, _, _, _, _, hkn⟩ := hl.next
  have := peek_of_next h1
  rw [hc] at this; cases this
  refine Goes.peekN (peekN1_of_next h1) ?_
  have hkind := kind_of_isKind (by decide) hk
  obtain ⟨s, hs⟩ := (hkn (.inr (.inr (.inl hkind)))).2.1
  have hg1 : Gives (Prog.strLower c) p (.ok s) p [] := gives_strLower.mpr ⟨s, by rw [hl.source]; exact hs, rfl, rfl, rfl⟩
  have hx : Eats src (n + 1) (match Hdx.knownAtRule V rule fuel nested s with
      | none => Hdx.unknownAtRule generic fuel
      | some parser =>
        Prog.attempt parser (fun r => r.toBool) fun r =>
          match r with
          | .ok r => Pure.pure r
          | .error _ => Hdx.unknownAtRule generic fuel) := by
    split
    · exact unknownAtRule hst hf hg
    · rename_i parser hp
      exact orAttempt (fun _ => rfl) (fun _ => rfl) (knownAtRule hst hf hr hV ((hkn.calm hst).rules hkind s hs) _ hp) (unknownAtRule hst hf hg)
  obtain ⟨r, p', w, cs2, j1, j2⟩ := hx hl hn
  exact ⟨r, p', _, cs2, gives_seq hg1 j1, j2⟩

theorem cssRule (hst : src.strict = true) : ∀ n, (∀ m ∈ V.names, Fine src n (V.parser m)) → Eats src n (Hdx.cssRule V n false) ∧ EatsOrCloses src n (Hdx.cssRule V n true)
  | 0, _ => ⟨zero, orCloses zero⟩
  | n + 1, hV => by
    have hV' : ∀ m ∈ V.names, Fine src n (V.parser m) := fun m hm => (hV m hm).mono (by omega)
    obtain ⟨h1, h2⟩ := cssRule hst n hV'
    refine ⟨fun p cs hl hn => ?_, fun p cs hl hn => ?_⟩ <;> unfold Hdx.cssRule <;> obtain ⟨c, hc, _⟩ := hl.peek
    · have : Goes src p cs (fun _ => True) (if c.token.isKind .atKeyword = true then Hdx.atCssRule V (Hdx.cssRule V n false) (Hdx.rule n) (n + 1) false
          else Hdx.qualifiedCssRule V (Hdx.cssRule V n true) (Hdx.rule n) (n + 1) false) := by
        split
        · rename_i hk
          exact atCssRule hst (by omega) h1 (rule n) hV hl hn hc hk
        · exact topCssRule hst (Nat.le_refl _) h2 (rule n) hV' hl hn
      obtain ⟨r, p', w, cs', j1, j2⟩ := this
      exact ⟨r, p', w, cs', gives_of_peek hc j1, j2⟩
    · by_cases hk : c.token.isKind .atKeyword = true
      · obtain ⟨r, p', w, cs', j1, j2, j3, j4⟩ := atCssRule (nested := true) hst (Nat.le_succ n) h1 (rule n) hV hl hn hc hk
        exact ⟨r, p', w, cs', gives_of_peek hc (by rw [if_pos hk]; exact j1), j2, j3, fun a ha => .inl (j4 a ha trivial)⟩
      · obtain ⟨r, p', w, cs', j1, j2⟩ := qualifiedCssRule hst (Nat.le_refl _) h2 (rule n) hV' hl hn
        exact ⟨r, p', w, cs', gives_of_peek hc (by rw [if_neg hk]; exact j1), j2⟩

theorem cssStyleSheet (hst : src.strict = true) (hV : ∀ m ∈ V.names, Fine src src.fuel (V.parser m)) : Fine src src.fuel (Hdx.cssStyleSheet V) := by
  unfold Hdx.cssStyleSheet
  refine read fun p hp => ?_
  rw [hp]
  exact styleSheetLoop _ _ (cssRule hst _ hV).1

end
end EatsIf
end Hdx

/-
Definitions that take all that they allow: functions, lists, alternatives.
-/
import Verif.Lemmas.CompleteDefs

namespace Hdx
open Spec Prog

section
variable {src : List Char} {env : List Char → Leaf} {E : List Char → Option Info} {M : Meaning}

/-! ### Functions -/

theorem function_test {name : List Char} {d : Def} : (Def.function name d).test env = isKind .function := by funext c; rw [Def.test]
theorem type_test {t : DefType} : (Def.type t).test env = (t.leaf env).test := by funext c; rw [Def.test]
theorem ident_test {name : List Char} : (Def.ident name).test env = isKind .ident := by funext c; rw [Def.test]

theorem function_inv {name : List Char} {d : Def} {w : List Cursor} (h : Matches src M (.function name d) w) : ∃ f v close, w = f :: (v ++ Option.toList close) ∧
    IsKind .function f ∧ Called src f (name.map asciiLower) ∧ Matches src M d v ∧ Closes .rightParen close := by
  cases h with
  | function h1 h2 h3 h4 => exact ⟨_, _, _, rfl, h1, h2, h3, h4⟩
theorem type_inv {t : DefType} {w : List Cursor} (h : Matches src M (.type t) w) : MatchesType src M t w := by
  cases h with | type h => exact h

theorem count_cons (c : Cursor) (w : List Cursor) : closings (c :: w) = closings [c] + closings w ∧ opens (c :: w) = opens [c] + opens w :=
  ⟨closings_append [c] w, opens_append [c] w⟩
theorem count_function {c : Cursor} (h : IsKind .function c) : closings [c] = 0 ∧ opens [c] = 1 := by
  have h2 := IsKind.other h (by decide) (k' := .rightParen) (by decide) (by decide)
  have h1 : c.token.isKind .function = true := h
  simp [closings, opens, h1, h2]
theorem count_close {c : Cursor} (h : IsKind .rightParen c) : closings [c] = 1 ∧ opens [c] = 0 := by
  have h2 := IsKind.other h (by decide) (k' := .function) (by decide) (by decide)
  have h1 : c.token.isKind .rightParen = true := h
  simp [closings, opens, h1, h2]

/-- The function is closed. -/
theorem closed_function {f : Cursor} {w : List Cursor} {close : Option Cursor} (hf : IsKind .function f) (hcl : Closes .rightParen close)
    (hw : Decent src w → closings w ≤ opens w) (ht : Tidy src (f :: (w ++ close.toList))) : ∃ k, close = some k ∧ IsKind .rightParen k ∧ Tidy src w ∧ Clear src f := by
  have hd := ht.decent
  have hdw := hd.cons.2.left
  have h1 := hw hdw
  have h2 := ht.closed
  have h3 := count_function hf
  have h4 := count_cons f (w ++ close.toList)
  rw [h4.1, h4.2, closings_append, opens_append, h3.1, h3.2] at h2
  cases close with
  | none =>
    simp [closings, opens] at h2
    simp only [closings, opens] at h1
    omega
  | some k =>
    have hk := hcl k rfl
    have h5 := count_close hk
    simp only [Option.toList_some, h5.1, h5.2] at h2
    exact ⟨k, rfl, hk, hdw.tidy (by omega), hd.cons.1⟩

theorem function_complete {name : List Char} {d : Def} {J : Info} (hn : lowerName name = true) (hp : plainName (kebab name) = true)
    (hJ : Complete src ⟨d.test env, d.steps env⟩ J (Matches src M d)) (ha : apartAll J.more [.kind .rightParen] = true) :
    Complete src ⟨(Def.function name d).test env, (Def.function name d).steps env⟩ ⟨[.kind .function], [.func (kebab name)], []⟩ (Matches src M (.function name d)) := by
  have named : ∀ {f : Cursor}, IsKind .function f → Called src f (name.map asciiLower) → Clear src f → Named src f (kebab name) := fun hf hcall hc => by
    rw [← lowerName_eq hn] at hcall
    exact hcall.named hc (.inr (.inl hf)) (plainName_spec hp)
  rw [function_test]
  refine ⟨fun c hc => ⟨_, Tests.kind, fun h => Among.one.mpr h⟩, fun w hw hd => ?_, fun w hw hd => ?_, fun w c rest hw ht hc _ => ?_⟩
  · obtain ⟨f, w, close, rfl, hf, hcall, hw, hcl⟩ := function_inv hw
    exact ⟨_, _, rfl, Tests.kind.congr hf, Among.one.mpr ⟨hf, named hf hcall hd.cons.1⟩⟩
  · obtain ⟨f, w, close, rfl, hf, hcall, hw, hcl⟩ := function_inv hw
    · skip
      have h1 := hJ.closes hw hd.cons.2.left
      have h3 := count_function hf
      have h4 := count_cons f (w ++ close.toList)
      rw [h4.1, h4.2, closings_append, opens_append, h3.1, h3.2]
      cases close with
      | none => simp [closings, opens] at h1 ⊢; omega
      | some k =>
        have h5 := count_close (hcl k rfl)
        simp only [Option.toList_some, h5.1, h5.2]
        omega
  · obtain ⟨f, w, close, rfl, hf, hcall, hw', hcl⟩ := function_inv hw
    · obtain ⟨k, rfl, hk, htw, hfc⟩ := closed_function hf hcl (fun hd => hJ.closes hw' hd) ht
      have hkc : Clear src k := clear_of_kind hk (by decide) (by decide) (by decide) (by decide)
      obtain ⟨s, hs, he, _⟩ := hfc (.inr (.inl hf))
      have hns := named hf hcall hfc
      show Yields src _ (Def.steps env (.function name d)) _ _
      rw [Def.steps]
      rw [show f :: (w ++ (some k).toList) ++ c :: rest = f :: (w ++ k :: (c :: rest)) by simp]
      refine Yields.bind (Yields.tok (P' := fun x => x = f) (Tests.kind.congr hf) rfl) fun x hx => ?_
      subst hx
      refine Yields.test (Tests.eqCase (he _ (plainName_spec hp))) ?_
      rw [hs.same hns, decide_eq_true rfl]
      refine Yields.neg (by decide) ?_
      refine Yields.bind (hJ.parse hw' htw hkc fun h => apartAll_spec hkc ha h (Among.one.mpr hk)) fun v hv => ?_
      refine Yields.bind (Yields.ifPeek_some (Tests.kind.congr hk) (Yields.tok (P' := fun x => x = k) (Tests.kind.congr hk) rfl)) fun o ⟨a, ho, ha'⟩ => ?_
      subst ho ha'
      refine Yields.pure ?_
      simp only [Val.cursors, Val.cursorsOf, Val.opt, Option.map_some, List.append_nil, List.singleton_append]
      exact (hv.append_right _).cons _

/-! ### Lists -/

theorem commas_complete {d : Def} {J : Info} (hJ : Complete src ⟨d.test env, d.steps env⟩ J (Matches src M d)) (ha : apartAll J.more [.kind .comma] = true) {x : Prog Val}
    (hx : ∀ {ts ts' : List Cursor} {P : List Cursor → Prop}, (∀ p : Parser, ts.length + 1 < p.fuel → Yields src ts (commaLoop (d.steps env) p.fuel []) ts' fun r => P (Val.fields r).cursors) →
      Yields src ts x ts' fun v => P v.cursors) :
    Complete src ⟨d.test env, x⟩ ⟨J.acc, J.firsts, .kind .comma :: J.more⟩ (Matches src M (.mult d (.commas .none))) := by
  have inv : ∀ {w}, Matches src M (.mult d (.commas .none)) w → Commas (Matches src M d) w := fun h => by
    cases h with | commas h _ => exact commas_of h
  refine ⟨hJ.total, fun w hw hd => (inv hw).starts hJ hd, fun w hw hd => (inv hw).closes hJ hd, fun w c rest hw ht hc hm => ?_⟩
  refine hx (P := fun cs => cs.Perm w) fun p hp => Yields.mono (commas hJ ha hc (fun h => hm (Among.cons.mpr (.inr h))) (fun h => hm (Among.cons.mpr (.inl h))) p.fuel w [] ?_ (inv hw) ht)
    fun r ⟨us, e, h⟩ => ?_
  · simp at hp; omega
  · subst e; simpa [Val.cursors] using h

theorem typeTimes {t : DefType} {n : Nat} {w : List Cursor} (h : MatchesTimes src M (.type t) n w) : Times (MatchesType src M t) n w := by
  induction n generalizing w with
  | zero => cases h; exact .none
  | succ m ih => cases h with | more h1 h2 => exact .more (type_inv h1) (ih h2)

theorem fixed_complete {t : DefType} {J : Info} (hE : EnvComplete src env E M) (hJ : typeInfo E t = some J) {n : Nat} (hn : 1 ≤ n) (ha : apartAll J.more J.firsts = true)
    {x : Prog Val} (hx : x = (do let vs ← sequence (List.replicate n (t.steps env)); pure (.fields vs))) :
    Complete src ⟨(t.leaf env).test, x⟩ J (Matches src M (.mult (.type t) (.range (.fixed n)))) := by
  have hl := typeInfo_leaf hE hJ
  have hs := typeInfo_steps hE hJ
  have inv : ∀ {w}, Matches src M (.mult (.type t) (.range (.fixed n))) w → Times (MatchesType src M t) n w := fun h => by
    cases h with
    | times h hr =>
      cases hr
      exact typeTimes h
  refine ⟨hl.total, fun w hw hd => ?_, fun w hw hd => (inv hw).closes hl hd, fun w c rest hw ht hc hm => ?_⟩
  · cases inv hw with
    | none => omega
    | more hw' _ =>
      obtain ⟨c, w', rfl, h⟩ := hl.starts hw' hd.left
      exact ⟨c, _, rfl, h⟩
  · show Yields src _ x _ _
    rw [hx]
    have := repeated hl ha hs rfl rfl (rest := rest) hc hm n 0 n w (.inl rfl) (Nat.le_refl _) (Nat.le_refl _) (inv hw) ht
    rw [List.replicate_zero, List.append_nil] at this
    exact Yields.bind this fun vs hv => Yields.pure (by simpa [Val.cursors] using hv)

theorem options_complete {ds : List Def} {I : Info} (hE : EnvComplete src env E M) (h : optionsInfo E ds = some I) :
    Complete src ⟨Def.testAny env ds, options env ds⟩ I (Matches src M (.comb ds .options)) := by
  unfold optionsInfo at h
  split at h
  · next ts hts =>
    split at h
    · next hcond =>
      rw [Bool.and_eq_true] at hcond
      cases h
      have hds := types_map hts
      have hd : Described E ts := fun t ht => by
        have := List.all_eq_true.mp hcond.1 t ht
        cases hI : typeInfo E t with
        | none => rw [hI] at this; cases this
        | some I => exact ⟨I, rfl, by simpa [hI] using this⟩
      have types : ∀ {d w}, d ∈ ds → Matches src M d w → ∃ t ∈ ts, d = .type t ∧ MatchesType src M t w := fun {d w} hm hw => by
        rw [hds] at hm
        obtain ⟨t, ht, rfl⟩ := List.mem_map.mp hm
        cases hw with | type hw => exact ⟨t, ht, rfl, hw⟩
      have hb := testAny_begins (src := src) (env := env) (M := M) (ds := ds) (J := fun d => match d with | .type t => infoOf E t | _ => ⟨[], [], []⟩) fun d hm => by
        rw [hds] at hm
        obtain ⟨t, ht, rfl⟩ := List.mem_map.mp hm
        have hc := (hd.complete hE ht).1
        rw [type_test]
        exact ⟨hc.total, fun w hw hdw => hc.starts (type_inv hw) hdw, fun w hw hdw => hc.closes (type_inv hw) hdw⟩
      have flat : ∀ (f : Info → List Head), (ds.flatMap fun d => f (match d with | .type t => infoOf E t | _ => ⟨[], [], []⟩)) = ts.flatMap fun t => f (infoOf E t) := fun f => by
        rw [hds, List.flatMap_map]
      have hclose : ∀ {es rest w}, (es ++ rest).Perm ds → MatchesSeq src M es w → Decent src w → closings w ≤ opens w := fun {es rest w} hp hm hdw =>
        seq_closes (fun d hdm w hw hdw => by
          obtain ⟨t, ht, rfl, hw'⟩ := types (hp.mem_iff.mp (List.mem_append_left _ hdm)) hw
          exact (hd.complete hE ht).1.closes hw' hdw) hm hdw
      refine ⟨fun c hc => ?_, fun w hw hdw => ?_, fun w hw hdw => ?_, fun w c rest hw ht hc hm => ?_⟩
      · have := hb.total hc
        rw [flat fun I => I.acc] at this
        exact this
      · cases hw with
        | @some es rest _ w hne hp hm =>
          cases hm with
          | nil => exact absurd rfl hne
          | @cons e w0 es v h1 h2 =>
            obtain ⟨c, w', rfl, h⟩ := hb.starts ⟨e, hp.mem_iff.mp (by simp), h1⟩ hdw.left
            rw [flat fun I => I.firsts] at h
            exact ⟨c, _, rfl, h⟩
      · cases hw with
        | some hne hp hm => exact hclose hp hm hdw
      · cases hw with
        | @some es other _ w hne hp hm' =>
          show Yields src _ (options env ds) _ _
          unfold options
          rw [hts]
          have hu : unfilled ts (ts.map fun _ => none) = ds := by
            rw [hds]
            clear hts hds hcond hd types hb flat hclose hp hm hc ht
            induction ts with
            | nil => rfl
            | cons t ts ih => simp [unfilled, ih]
          have hlen : es.length < ts.length + 1 := by
            have := hp.length_eq
            rw [hds] at this
            simp at this
            omega
          have := options_loop hE hd hcond.2 (rest := rest) hc (fun t ht ha => hm (Among.flatMap.mpr ⟨t, ht, ha⟩)) (ts.length + 1) es other w (ts.map fun _ => none)
            hlen (by simp) (by rw [hu]; exact hp) hm' ht (.inl hne)
          refine Yields.bind this fun vs hv => Yields.pure ?_
          rw [cursorsOf_none (vs := ts.map fun _ => none) (by simp)] at hv
          simpa [Val.cursors] using hv
    · cases h
  · cases h

/-! ### The code for one value -/

/-- A description for the code that captures one value. -/
def stepInfo (E : List Char → Option Info) : Def → Option Info
  | .type t => typeInfo E t
  | .function name d =>
    match stepInfo E d with
    | some J => if lowerName name && plainName (kebab name) && apartAll J.more [.kind .rightParen] then some ⟨[.kind .function], [.func (kebab name)], []⟩ else none
    | none => none
  | .mult (.type t) (.range (.fixed n)) =>
    match typeInfo E t with
    | some J => if 1 ≤ n && apartAll J.more J.firsts then some J else none
    | none => none
  | .mult d (.commas .none) =>
    match stepInfo E d with
    | some J => if apartAll J.more [.kind .comma] then some ⟨J.acc, J.firsts, .kind .comma :: J.more⟩ else none
    | none => none
  | .comb ds .options => if ds.isEmpty then none else optionsInfo E ds
  | .group d .none => stepInfo E d
  | _ => none

theorem comb_test {ds : List Def} (h : ds ≠ []) {s : DefStyle} (hs : s ≠ .ordered) : (Def.comb ds s).test env = Def.testAny env ds := by
  cases ds with
  | nil => exact absurd rfl h
  | cons d ds => cases s <;> first | exact absurd rfl hs | (funext c; rw [Def.test] <;> nofun)

theorem stepInfo_complete (hE : EnvComplete src env E M) : ∀ (d : Def) {I : Info}, stepInfo E d = some I → Complete src ⟨d.test env, d.steps env⟩ I (Matches src M d)
  | .type t, I, h => by
    rw [stepInfo] at h
    have := typeInfo_steps hE h
    rw [type_test, Def.steps]
    exact this.mono fun w hw => type_inv hw
  | .function name d, I, h => by
    rw [stepInfo] at h
    split at h
    · next J hJ =>
      split at h
      · next hc =>
        cases h
        simp only [Bool.and_eq_true] at hc
        exact function_complete hc.1.1 hc.1.2 (stepInfo_complete hE d hJ) hc.2
      · cases h
    · cases h
  | .mult (.type t) (.range (.fixed n)), I, h => by
    rw [stepInfo] at h
    split at h
    · next J hJ =>
      split at h
      · next hc =>
        cases h
        simp only [Bool.and_eq_true, decide_eq_true_eq] at hc
        have : (Def.mult (.type t) (.range (.fixed n))).test env = (t.leaf env).test := by funext c; rw [Def.test, Def.test]
        rw [this, Def.steps]
        exact fixed_complete hE hJ hc.1 hc.2 rfl
      · cases h
    · cases h
  | .mult d (.commas .none), I, h => by
    rw [stepInfo] at h
    split at h
    · next J hJ =>
      split at h
      · next hc =>
        cases h
        have : (Def.mult d (.commas .none)).test env = d.test env := by funext c; rw [Def.test]
        rw [this, Def.steps]
        exact commas_complete (stepInfo_complete hE d hJ) hc fun hx => Yields.read fun p hp => Yields.bind (hx p hp) fun vs hv => Yields.pure hv
      · cases h
    · cases h
  | .comb ds .options, I, h => by
    rw [stepInfo] at h
    split at h
    · cases h
    · next hne =>
      rw [comb_test (by simpa using hne) (by decide), Def.steps]
      exact options_complete hE h
  | .group d .none, I, h => by
    rw [stepInfo] at h
    have : (Def.group d .none).test env = d.test env := by funext c; rw [Def.test]
    rw [this, Def.steps]
    exact (stepInfo_complete hE d h).mono fun w hw => by cases hw with | group hw => exact hw
  | .ident _, _, h | .optional _, _, h | .punct _, _, h | .comb _ .ordered, _, h | .comb _ .allMustOccur, _, h | .comb _ .alternatives, _, h
  | .group _ .oneMustOccur, _, h | .group _ .oneOrMore, _, h | .group _ (.range _), _, h
  | .mult _ .zeroOrMore, _, h | .mult _ .oneOrMore, _, h | .mult _ (.commas (.range _ _)), _, h | .mult _ (.commas (.from _)), _, h | .mult _ (.commas (.to _)), _, h
  | .mult _ (.commas (.fixed _)), _, h | .mult _ (.range .none), _, h | .mult _ (.range (.range _ _)), _, h | .mult _ (.range (.from _)), _, h
  | .mult _ (.range (.to _)), _, h | .mult (.ident _) (.range (.fixed _)), _, h | .mult (.function _ _) (.range (.fixed _)), _, h
  | .mult (.optional _) (.range (.fixed _)), _, h | .mult (.comb _ _) (.range (.fixed _)), _, h | .mult (.group _ _) (.range (.fixed _)), _, h
  | .mult (.mult _ _) (.range (.fixed _)), _, h | .mult (.punct _) (.range (.fixed _)), _, h => by simp [stepInfo] at h

/-! ### Alternatives -/

/-- A description for one of the alternatives. -/
def choiceInfo (E : List Char → Option Info) : Def → Option Info
  | .ident n => if lowerName n && plainName (kebab n) then some ⟨[.kind .ident], [.word (kebab n)], []⟩ else none
  | .type .dashedIdent => none
  | d => stepInfo E d

/-- It, if there is one. -/
def choiceOf (E : List Char → Option Info) (d : Def) : Info := (choiceInfo E d).getD ⟨[], [], []⟩

/-- The alternatives that are not keywords are found. -/
def altApart (E : List Char → Option Info) (ds : List Def) : Bool :=
  if (Def.customIndex ds).isSome then (ds.filter fun d => !d.isWord).isEmpty && !(Def.keywords ds).isEmpty
  else inOrder (choiceOf E) (ds.filter fun d => !d.isWord) &&
    (ds.filter fun d => !d.isWord).all fun d => apartAll (choiceOf E d).firsts ((Def.keywords ds).map Head.word)

/-- A description for alternatives. -/
def altInfo (E : List Char → Option Info) (ds : List Def) : Option Info :=
  if ds.all (fun d => (choiceInfo E d).isSome) && !ds.isEmpty && altApart E ds then
    some ⟨ds.flatMap fun d => (choiceOf E d).acc, ds.flatMap fun d => (choiceOf E d).firsts, ds.flatMap fun d => (choiceOf E d).more⟩
  else none

theorem choice_not_word {d : Def} (h : d.isWord = false) : choiceInfo E d = stepInfo E d := by
  unfold choiceInfo
  split
  · cases h
  · cases h
  · rfl

theorem ident_inv {name : List Char} {w : List Cursor} (h : Matches src M (.ident name) w) : ∃ c, w = [c] ∧ IsWord src (name.map asciiLower) c := by
  cases h with | ident h => exact ⟨_, rfl, h⟩

theorem choice_begins (hE : EnvComplete src env E M) {d : Def} (h : (choiceInfo E d).isSome = true) : Begins src (d.test env) (choiceOf E d) (Matches src M d) := by
  obtain ⟨I, hI⟩ := Option.isSome_iff_exists.mp h
  have e : choiceOf E d = I := by unfold choiceOf; rw [hI]; rfl
  rw [e]
  unfold choiceInfo at hI
  split at hI
  · next n =>
    split at hI
    · next hc =>
      cases hI
      simp only [Bool.and_eq_true] at hc
      rw [ident_test]
      refine ⟨fun c hc => ⟨_, Tests.kind, fun h => Among.one.mpr h⟩, fun w hw hd => ?_, fun w hw hd => ?_⟩
      · obtain ⟨c, rfl, hk, hcall⟩ := ident_inv hw
        rw [← lowerName_eq hc.1] at hcall
        exact ⟨c, [], rfl, Tests.kind.congr hk, Among.one.mpr ⟨hk, hcall.named (hd.clear c (.head _)) (.inl hk) (plainName_spec hc.2)⟩⟩
      · obtain ⟨c, rfl, hk, _⟩ := ident_inv hw
        rw [closings_one (hs := [.kind .ident]) (hd.clear c (.head _)) (Among.one.mpr hk) (by decide)]
        exact Nat.zero_le _
    · cases hI
  · cases hI
  · exact (stepInfo_complete hE d hI).begins

theorem keywords_mem {ds : List Def} {n : List Char} (h : .ident n ∈ ds) : kebab n ∈ Def.keywords ds := by
  induction ds with
  | nil => cases h
  | cons d ds ih =>
    rcases List.mem_cons.mp h with rfl | h
    · rw [Def.keywords]; exact .head _
    · have := ih h
      cases d <;> simp [Def.keywords, this]

theorem others_mem {ds : List Def} {d : Def} (hd : d ∈ ds) (hw : d.isWord = false) (i : Nat) : ∃ j, (j, d) ∈ Def.others i ds := by
  induction ds generalizing i with
  | nil => cases hd
  | cons e ds ih =>
    unfold Def.others
    rcases List.mem_cons.mp hd with rfl | hd
    · rw [hw]; exact ⟨i, .head _⟩
    · obtain ⟨j, hj⟩ := ih hd (i + 1)
      split
      · exact ⟨j, hj⟩
      · exact ⟨j, .tail _ hj⟩
theorem others_filter {ds : List Def} (i : Nat) : (Def.others i ds).map (·.2) = ds.filter fun d => !d.isWord := by
  induction ds generalizing i with
  | nil => rfl
  | cons e ds ih =>
    unfold Def.others
    split
    · next h => rw [List.filter_cons_of_neg (by simp [h]), ih]
    · next h => rw [List.filter_cons_of_pos (by simpa using h), List.map_cons, ih]

theorem tryOthers_yields (hE : EnvComplete src env E M) {d : Def} {w rest : List Cursor} {c : Cursor} (hw : Matches src M d w) (ht : Tidy src w) (hc : Clear src c) :
    ∀ (os : List (Nat × Def)), (∀ x ∈ os, (choiceInfo E x.2).isSome = true ∧ x.2.isWord = false ∧ ¬ Among src (choiceOf E x.2).more c) → inOrder (choiceOf E) (os.map (·.2)) = true →
      d ∈ os.map (·.2) → Yields src (w ++ c :: rest) (tryOthers env os) (c :: rest) fun v => v.cursors.Perm w := by
  intro os
  induction os with
  | nil => intro _ _ h; cases h
  | cons x os ih =>
    obtain ⟨i, e⟩ := x
    intro h ho hm
    rw [List.map_cons, inOrder, Bool.and_eq_true] at ho
    unfold tryOthers
    obtain ⟨h1, h2, h3⟩ := h _ (.head _)
    obtain ⟨I, hI⟩ := Option.isSome_iff_exists.mp h1
    have eI : choiceOf E e = I := by unfold choiceOf; rw [hI]; rfl
    have hcomp := stepInfo_complete (src := src) hE e (I := I) (by rw [← choice_not_word h2]; exact hI)
    by_cases hed : e = d
    · subst hed
      obtain ⟨f, w', rfl, hf, _⟩ := hcomp.starts hw ht.decent
      exact Yields.peekN1 (Yields.test hf (Yields.pos rfl (Yields.bind (hcomp.parse hw ht hc (by rw [← eI]; exact h3)) fun v hv => Yields.pure hv)))
    · have hm' : d ∈ os.map (·.2) := by
        rcases List.mem_cons.mp hm with h | h
        · exact absurd h.symm hed
        · exact h
      obtain ⟨y, hy, hyd⟩ := List.mem_map.mp hm'
      obtain ⟨g1, _, _⟩ := h y (.tail _ hy)
      rw [hyd] at g1
      obtain ⟨f, w', rfl, _, hf⟩ := (choice_begins (src := src) hE g1).starts hw ht.decent
      have hfc := ht.clear f (.head _)
      refine Yields.peekN1 (Yields.test (hcomp.no hfc fun ha => ?_) (Yields.neg (by decide) (ih (fun x hx => h x (.tail _ hx)) ho.2 hm')))
      rw [← eI] at ha
      exact apartAll_spec hfc (List.all_eq_true.mp ho.1 d hm') ha hf

theorem otherAlternatives_yields (hE : EnvComplete src env E M) {d : Def} {w rest : List Cursor} {c : Cursor} (hw : Matches src M d w) (ht : Tidy src w) (hc : Clear src c)
    (os : List (Nat × Def)) (h : ∀ x ∈ os, (choiceInfo E x.2).isSome = true ∧ x.2.isWord = false ∧ ¬ Among src (choiceOf E x.2).more c)
    (ho : inOrder (choiceOf E) (os.map (·.2)) = true) (hm : d ∈ os.map (·.2)) : Yields src (w ++ c :: rest) (otherAlternatives env os) (c :: rest) fun v => v.cursors.Perm w := by
  unfold otherAlternatives
  split
  · next i e =>
    have : d = e := by simpa using hm
    subst this
    obtain ⟨h1, h2, h3⟩ := h _ (.head _)
    obtain ⟨I, hI⟩ := Option.isSome_iff_exists.mp h1
    have eI : choiceOf E d = I := by unfold choiceOf; rw [hI]; rfl
    have hcomp := stepInfo_complete (src := src) hE d (I := I) (by rw [← choice_not_word h2]; exact hI)
    exact Yields.bind (hcomp.parse hw ht hc (by rw [← eI]; exact h3)) fun v hv => Yields.pure hv
  · exact tryOthers_yields hE hw ht hc os h ho hm

theorem keyword_yields {names : List (List Char)} {c : Cursor} {rest : List Cursor} (hc : Clear src c) (h : Among src (names.map .word) c) :
    Yields src (c :: rest) (keyword names) rest fun x => x.2 = c := by
  unfold keyword
  refine Yields.bind (Yields.tok (P' := fun x => x = c) (Exactly.words.yes hc h) rfl) fun x hx => ?_
  subst hx
  obtain ⟨hk, s, hs, hn⟩ := Among.words.mp h
  intro p hp
  refine ⟨(s, x), p, [], gives_buildKeyword.mpr ⟨rfl, rfl, s, by rw [hp.source]; exact hn, by simpa using hs, rfl⟩, hp, rfl⟩

theorem isWord_kind {d : Def} (h : d.isWord = true) (hc : (choiceInfo E d).isSome = true) {w : List Cursor} (hw : Matches src M d w) (hd : Decent src w) :
    ∃ c, w = [c] ∧ IsKind .ident c ∧ ((∃ n, d = .ident n ∧ Named src c (kebab n)) ∨ d = .type .customIdent) := by
  unfold Def.isWord at h
  split at h
  · next n =>
    simp only [choiceInfo] at hc
    split at hc
    · next hcond =>
      simp only [Bool.and_eq_true] at hcond
      obtain ⟨c, rfl, hk, hcall⟩ := ident_inv hw
      rw [← lowerName_eq hcond.1] at hcall
      exact ⟨c, rfl, hk, .inl ⟨n, rfl, hcall.named (hd.clear c (.head _)) (.inl hk) (plainName_spec hcond.2)⟩⟩
    · cases hc
  · obtain ⟨c, rfl, hk⟩ := type_inv hw
    exact ⟨c, rfl, hk, .inr rfl⟩
  · simp [choiceInfo] at hc
  · cases h

theorem customIndex_some {ds : List Def} (h : .type .customIdent ∈ ds) : (Def.customIndex ds).isSome = true := by
  induction ds with
  | nil => cases h
  | cons d ds ih =>
    rcases List.mem_cons.mp h with rfl | h
    · rfl
    · have := ih h
      unfold Def.customIndex
      split
      · next e => cases e
      · rfl
      · next e => cases e; rw [Option.isSome_map]; exact this

theorem alternatives_complete (hE : EnvComplete src env E M) {ds : List Def} {I : Info} (h : altInfo E ds = some I) :
    Complete src ⟨Def.testAny env ds, alternatives env ds⟩ I (Matches src M (.comb ds .alternatives)) := by
  unfold altInfo at h
  split at h
  · next hcond =>
    cases h
    rw [Bool.and_eq_true, Bool.and_eq_true] at hcond
    obtain ⟨⟨hall, _⟩, hcond⟩ := hcond
    unfold altApart at hcond
    replace hall : ∀ d ∈ ds, (choiceInfo E d).isSome = true := List.all_eq_true.mp hall
    have hb := testAny_begins (src := src) (env := env) (M := M) (J := choiceOf E) (ds := ds) fun d hd => choice_begins hE (hall d hd)
    have inv : ∀ {w}, Matches src M (.comb ds .alternatives) w → ∃ d ∈ ds, Matches src M d w := fun h => by
      cases h with | one h1 h2 => exact ⟨_, h1, h2⟩
    refine Begins.complete ⟨hb.total, fun w hw => hb.starts (inv hw), fun w hw => hb.closes (inv hw)⟩ fun w c rest hw ht hc hm => ?_
    obtain ⟨d, hd, hw⟩ := inv hw
    have hos : ∀ x ∈ Def.others 0 ds, (choiceInfo E x.2).isSome = true ∧ x.2.isWord = false ∧ ¬ Among src (choiceOf E x.2).more c := fun x hx => by
      have : x.2 ∈ ds.filter fun d => !d.isWord := by rw [← others_filter 0]; exact List.mem_map.mpr ⟨x, hx, rfl⟩
      rw [List.mem_filter] at this
      exact ⟨hall _ this.1, by simpa using this.2, fun ha => hm (Among.flatMap.mpr ⟨_, this.1, ha⟩)⟩
    unfold alternatives
    dsimp only
    by_cases hdw : d.isWord = true
    · refine Yields.pos (List.any_eq_true.mpr ⟨d, hd, hdw⟩) ?_
      obtain ⟨k, rfl, hk, hcase⟩ := isWord_kind hdw (hall d hd) hw ht.decent
      have hkc := ht.clear k (.head _)
      by_cases hin : Among src ((Def.keywords ds).map .word) k
      · have hne : ¬ (Def.keywords ds).isEmpty = true := by
          obtain ⟨_, s, hs, _⟩ := Among.words.mp hin
          intro he
          rw [List.isEmpty_iff] at he
          rw [he] at hs
          cases hs
        refine Yields.neg hne (Yields.bind (Yields.ifPeek_some (Exactly.words.yes hkc hin) (keyword_yields hkc hin)) fun o ⟨a, ho, ha⟩ => ?_)
        subst ho
        obtain ⟨s, x⟩ := a
        replace ha : x = k := ha
        subst ha
        exact Yields.pure (.refl _)
      · rcases hcase with ⟨n, rfl, hn⟩ | rfl
        · exact absurd (Among.words.mpr ⟨hk, _, keywords_mem hd, hn⟩) hin
        · have hci := customIndex_some hd
          rw [if_pos hci, Bool.and_eq_true] at hcond
          refine Yields.neg (by simpa using hcond.2) (Yields.bind (Yields.ifPeek_none (Exactly.words.no hkc hin)) fun o ho => ?_)
          subst ho
          dsimp only
          split
          · next i hi =>
            refine Yields.bind (Yields.tok (P' := fun x => x = k) (Tests.kind.congr hk) rfl) fun x hx => ?_
            subst hx
            exact Yields.pure (.refl _)
          · next hn => rw [hn] at hci; cases hci
    · replace hdw : d.isWord = false := by simpa using hdw
      have hdm : d ∈ ds.filter fun d => !d.isWord := List.mem_filter.mpr ⟨hd, by simpa using hdw⟩
      have hci : Def.customIndex ds = none := by
        cases hci : Def.customIndex ds with
        | none => rfl
        | some i =>
          rw [hci] at hcond
          simp only [Option.isSome_some, if_true, Bool.and_eq_true, List.isEmpty_iff] at hcond
          rw [hcond.1] at hdm
          cases hdm
      rw [hci] at hcond
      simp only [Option.isSome_none, Bool.false_eq_true, if_false, Bool.and_eq_true] at hcond
      have hdo : d ∈ (Def.others 0 ds).map (·.2) := by rw [others_filter]; exact hdm
      have hgo := otherAlternatives_yields (rest := rest) hE hw ht hc (Def.others 0 ds) hos (by rw [others_filter]; exact hcond.1) hdo
      by_cases hany : ds.any Def.isWord = true
      · refine Yields.pos hany ?_
        have hne : ¬ (Def.keywords ds).isEmpty = true := by
          obtain ⟨e, he, hew⟩ := List.any_eq_true.mp hany
          have hce := hall e he
          intro hemp
          rw [List.isEmpty_iff] at hemp
          unfold Def.isWord at hew
          split at hew
          · have := keywords_mem he
            rw [hemp] at this
            cases this
          · have := customIndex_some he
            rw [hci] at this
            cases this
          · simp [choiceInfo] at hce
          · cases hew
        obtain ⟨f, w', rfl, _, hf⟩ := (choice_begins (src := src) hE (hall d hd)).starts hw ht.decent
        have hfc := ht.clear f (.head _)
        refine Yields.neg hne (Yields.bind (Yields.ifPeek_none (Exactly.words.no hfc fun ha => ?_)) fun o ho => ?_)
        · exact apartAll_spec hfc (List.all_eq_true.mp hcond.2 d hdm) hf ha
        · subst ho
          rw [hci]
          refine Yields.neg ?_ hgo
          intro hemp
          rw [List.isEmpty_iff] at hemp
          rw [hemp] at hdo
          cases hdo
      · exact Yields.neg hany hgo
  · cases h

/-! ### Definitions -/

/-- A description for a definition. -/
def defInfo (E : List Char → Option Info) : Def → Option Info
  | .type t => typeInfo E t
  | .comb ds .alternatives => altInfo E ds
  | .comb ds .options => if ds.isEmpty then none else optionsInfo E ds
  | .comb [.type a, .optional (.type b)] .ordered =>
    match typeInfo E a, typeInfo E b with
    | some A, some B => if apartAll A.more B.firsts then some ⟨A.acc, A.firsts, A.more ++ (B.acc ++ B.more)⟩ else none
    | _, _ => none
  | .mult (.type t) (.range (.range a b)) =>
    match typeInfo E t with
    | some J => if 1 ≤ a && a ≤ b && apartAll J.more J.firsts then some ⟨J.acc, J.firsts, J.acc ++ J.more⟩ else none
    | none => none
  | .mult (.type t) (.range (.fixed n)) =>
    match typeInfo E t with
    | some J => if 1 ≤ n && apartAll J.more J.firsts then some J else none
    | none => none
  | .mult d (.commas .none) =>
    match stepInfo E d with
    | some J => if apartAll J.more [.kind .comma] then some ⟨J.acc, J.firsts, .kind .comma :: J.more⟩ else none
    | none => none
  | _ => none

theorem altInfo_nonempty {ds : List Def} {I : Info} (h : altInfo E ds = some I) : ds ≠ [] := by
  rintro rfl
  simp [altInfo] at h

theorem repeated_map {α : Type _} (f : Def → α) (d : Def) {a b : Nat} (h : a ≤ b) :
    (Def.repeated d a b).map f = List.replicate a (f d) ++ List.replicate (b - a) (f (.optional d)) := by
  unfold Def.repeated
  apply List.ext_getElem
  · simp; omega
  · intro i h1 h2
    simp only [List.map_map, List.getElem_map, List.getElem_range, Function.comp, List.getElem_append, List.length_replicate, List.getElem_replicate]
    split <;> split <;> first | rfl | omega

theorem defInfo_complete (hE : EnvComplete src env E M) (d : Def) {I : Info} (h : defInfo E d = some I) : Complete src (d.leaf env) I (Matches src M d) := by
  unfold Def.leaf
  unfold defInfo at h
  split at h
  · next t =>
    rw [type_test, Def.parser]
    have := typeInfo_steps hE h
    exact ⟨this.total, fun w hw => this.starts (type_inv hw), fun w hw => this.closes (type_inv hw), fun w c rest hw ht hc hm =>
      Yields.bind (this.parse (type_inv hw) ht hc hm) fun v hv => Yields.pure (by simpa [Val.cursors, Val.cursorsOf] using hv)⟩
  · next ds =>
    rw [comb_test (altInfo_nonempty h) (by decide), Def.parser]
    exact alternatives_complete hE h
  · next ds =>
    split at h
    · cases h
    · next hne =>
      rw [comb_test (by simpa using hne) (by decide), Def.parser]
      exact options_complete hE h
  · next a b =>
    split at h
    · next A B hA hB =>
      split at h
      · next hap =>
        cases h
        have ha := typeInfo_steps hE hA
        have hb := typeInfo_leaf hE hB
        have inv : ∀ {w}, Matches src M (.comb [.type a, .optional (.type b)] .ordered) w → ∃ u v, w = u ++ v ∧ MatchesType src M a u ∧ (v = [] ∨ MatchesType src M b v) := fun h => by
          cases h with
          | ordered h =>
            cases h with
            | cons h1 h2 =>
              cases h2 with
              | cons h2 h3 =>
                cases h3
                refine ⟨_, _, rfl, type_inv h1, ?_⟩
                cases h2 with
                | absent => exact .inl rfl
                | present h2 => exact .inr (by rw [List.append_nil]; exact type_inv h2)
        have hclose : ∀ {v}, (v = [] ∨ MatchesType src M b v) → Decent src v → closings v ≤ opens v := fun h hd => by
          rcases h with rfl | h
          · exact Nat.le_refl _
          · exact hb.closes h hd
        have hte : (Def.comb [.type a, .optional (.type b)] .ordered).test env = (a.leaf env).test := by funext c; rw [Def.test, Def.test]
        rw [hte, Def.parser]
        refine ⟨ha.total, fun w hw hd => ?_, fun w hw hd => ?_, fun w c rest hw ht hc hm => ?_⟩
        · obtain ⟨u, v, rfl, hu, _⟩ := inv hw
          obtain ⟨c, w', rfl, h⟩ := ha.starts hu hd.left
          exact ⟨c, _, rfl, h⟩
        · obtain ⟨u, v, rfl, hu, hv⟩ := inv hw
          rw [closings_append, opens_append]
          have h1 := ha.closes hu hd.left
          have h2 := hclose hv hd.right
          omega
        · obtain ⟨u, v, rfl, hu, hv⟩ := inv hw
          have hd := ht.decent
          obtain ⟨t1, t2⟩ := ht.split (ha.closes hu hd.left) (hclose hv hd.right)
          rw [Among.append, Among.append] at hm
          show Yields src _ (ordered env _) _ _
          unfold ordered
          simp only [List.map_cons, List.map_nil, sequence, Def.steps]
          rw [List.append_assoc]
          refine Yields.bind (P := fun vs => (Val.cursorsOf vs).Perm (u ++ v)) ?_ fun vs hvs => Yields.pure (by simpa [Val.cursors] using hvs)
          rcases hv with rfl | hv
          · refine Yields.bind (ha.parse hu t1 hc fun h => hm (.inl h)) fun x hx => ?_
            refine Yields.bind (P := fun vs => Val.cursorsOf vs = []) ?_ fun vs hvs => Yields.pure (by simpa [Val.cursorsOf, hvs] using hx)
            refine Yields.bind (P := fun v => v.cursors = []) (Yields.bind (Yields.ifPeek_none (hb.no hc fun h => hm (.inr (.inl h)))) fun o ho => ?_) fun v hv =>
              Yields.bind (P := fun vs => vs = []) (Yields.pure rfl) fun vs hvs => Yields.pure (by simp [Val.cursorsOf, hv, hvs])
            subst ho
            exact Yields.pure rfl
          · obtain ⟨f, v', rfl, hf, hff⟩ := hb.starts hv hd.right
            have hfc := t2.clear f (.head _)
            refine Yields.bind (ha.parse hu t1 hfc fun h => apartAll_spec hfc hap h hff) fun x hx => ?_
            refine Yields.bind (P := fun vs => (Val.cursorsOf vs).Perm (f :: v')) ?_ fun vs hvs => Yields.pure (by simpa [Val.cursorsOf] using hx.append hvs)
            refine Yields.bind (P := fun x => x.cursors.Perm (f :: v')) (Yields.bind (Yields.ifPeek_some hf (hb.parse hv t2 hc fun h => hm (.inr (.inr h)))) fun o ⟨y, ho, hy⟩ => ?_)
              fun v hv => Yields.bind (P := fun vs => vs = []) (Yields.pure rfl) fun vs hvs => Yields.pure (by simpa [Val.cursorsOf, hvs] using hv)
            subst ho
            exact Yields.pure (by simpa [Val.cursors, Val.cursorsOf, Val.opt] using hy)
      · cases h
    · cases h
  · next t a b =>
    split at h
    · next J hJ =>
      split at h
      · next hc =>
        cases h
        simp only [Bool.and_eq_true, decide_eq_true_eq] at hc
        have hl := typeInfo_leaf hE hJ
        have hs := typeInfo_steps hE hJ
        have inv : ∀ {w}, Matches src M (.mult (.type t) (.range (.range a b))) w → ∃ n, a ≤ n ∧ n ≤ b ∧ Times (MatchesType src M t) n w := fun h => by
          cases h with | times h hr => exact ⟨_, hr.1, hr.2, typeTimes h⟩
        have hte : (Def.mult (.type t) (.range (.range a b))).test env = (t.leaf env).test := by funext c; rw [Def.test, Def.test]
        rw [hte, Def.parser]
        refine ⟨hl.total, fun w hw hd => ?_, fun w hw hd => ?_, fun w c rest hw ht hcl hm => ?_⟩
        · obtain ⟨n, h1, _, h⟩ := inv hw
          cases h with
          | none => omega
          | more hw' _ =>
            obtain ⟨c, w', rfl, h⟩ := hl.starts hw' hd.left
            exact ⟨c, _, rfl, h⟩
        · obtain ⟨n, h1, _, h⟩ := inv hw
          exact h.closes hl hd
        · obtain ⟨n, h1, h2, h⟩ := inv hw
          rw [Among.append] at hm
          show Yields src _ (ordered env _) _ _
          unfold ordered
          rw [repeated_map _ _ hc.1.2, Def.steps, Def.steps]
          exact Yields.bind (repeated hl hc.2 hs rfl rfl hcl (fun h => hm (.inr h)) a (b - a) n w (.inr fun h => hm (.inl h)) h1 (by omega) h ht) fun vs hv =>
            Yields.pure (by simpa [Val.cursors] using hv)
      · cases h
    · cases h
  · next t n =>
    split at h
    · next J hJ =>
      split at h
      · next hc =>
        cases h
        simp only [Bool.and_eq_true, decide_eq_true_eq] at hc
        have hte : (Def.mult (.type t) (.range (.fixed n))).test env = (t.leaf env).test := by funext c; rw [Def.test, Def.test]
        rw [hte, Def.parser]
        refine fixed_complete hE hJ hc.1 hc.2 ?_
        unfold ordered
        rw [List.map_replicate, Def.steps]
      · cases h
    · cases h
  · rename_i d
    split at h
    · next J hJ =>
      split at h
      · next hc =>
        cases h
        have hte : (Def.mult d (.commas .none)).test env = d.test env := by funext c; rw [Def.test]
        have hp : (Def.mult d (.commas .none)).parser env = (do let v ← Def.steps env (.mult d (.commas .none)); pure (.fields [v])) := by
          rw [Def.parser] <;> nofun
        rw [hte, hp, Def.steps]
        exact commas_complete (stepInfo_complete hE d hJ) hc fun hx => Yields.bind (Yields.read fun p hp => Yields.bind (hx p hp) fun vs hv => Yields.pure hv) fun v hv =>
          Yields.pure (by simpa [Val.cursors, Val.cursorsOf] using hv)
      · cases h
    · cases h
  · cases h

end
end Hdx

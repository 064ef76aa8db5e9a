/-
Lists of declarations, of rules and of what is between commas are read.
-/
import Verif.Lemmas.DeclWalks
import Verif.Spec.AtRuleSyntax

namespace Hdx
open Spec Prog
section
variable {src : List Char} {α β γ δ ρ : Type} {n : Nat} {ts ts1 ts' : List Cursor} {P : α → Prop} {Q : β → Prop}

namespace Walks

/-- There are fewer tokens than `n`. -/
theorem room {x : Prog α} (h : ts.length < n → Walks src n ts x ts' P) : Walks src n ts x ts' P := by
  intro p hp hr
  obtain ⟨cs, h1, h2, _⟩ := hp.stream
  refine h ?_ hp hr
  have := hr cs h1
  have := List.length_filter_le (fun c : Cursor => !c.token.inSet KindSet.TRIVIA) cs
  rw [← h2]
  unfold solid
  omega
theorem atEnd {c : Cursor} {f : Bool → Prog β} (h : Walks src n (c :: ts) (f false) ts' Q) : Walks src n (c :: ts) (Prog.atEnd >>= f) ts' Q := by
  intro p hp hr
  obtain ⟨b, q2, w2, g1, g2, g3⟩ := h hp hr
  exact ⟨b, q2, _, gives_seq (gives_atEnd.mpr ⟨by rw [hp.not_end], rfl, rfl⟩) g1, g2, g3⟩
theorem ask {g : Parser → Except Panic α} {f : α → Prog β} (hg : ∀ p, ∃ a, g p = .ok a) (h : ∀ a, Walks src n ts (f a) ts' Q) : Walks src n ts (Prog.ask g >>= f) ts' Q := by
  intro p hp hr
  obtain ⟨a, ha⟩ := hg p
  obtain ⟨b, q2, w2, g1, g2, g3⟩ := h a hp hr
  exact ⟨b, q2, _, gives_seq (gives_ask.mpr ⟨a, ha, rfl, rfl, rfl⟩) g1, g2, g3⟩
theorem offset {f : Nat → Prog β} (h : ∀ a, Walks src n ts (f a) ts' Q) : Walks src n ts (Prog.offset >>= f) ts' Q := by
  intro p hp hr
  obtain ⟨b, q2, w2, g1, g2, g3⟩ := h p.offset hp hr
  exact ⟨b, q2, _, gives_seq (gives_offset.mpr ⟨rfl, rfl, rfl⟩) g1, g2, g3⟩
theorem ofResult {a : α} {f : α → Prog β} (h : Walks src n ts (f a) ts' Q) : Walks src n ts (Prog.ofResult (.ok a) >>= f) ts' Q := h
theorem setStop {s : KindSet} {k : KindSet → Prog α} (h : ∀ s, Walks src n ts (k s) ts' P) : Walks src n ts (Prog.setStop s k) ts' P := by
  intro p hp hr
  obtain ⟨a, q, w, h1, h2, h3⟩ := h p.stop (p := { p with stop := s }) (hp.congr rfl rfl) (hr.congr rfl)
  exact ⟨a, q, w, gives_setStop.mpr h1, h2, h3⟩
theorem tok {test : Cursor → Prog Bool} {c : Cursor} {f : Cursor → Prog β} (ht : Tests src (test c) true) (h : Walks src n ts (f c) ts' Q) :
    Walks src n (c :: ts) (Prog.tok test >>= f) ts' Q :=
  bind (P := fun d => d = c) (Yields.tok (P' := fun d => d = c) ht rfl).walks (by rintro _ rfl; exact h)
theorem ifPeek_none {test : Cursor → Prog Bool} {body : Prog α} {c : Cursor} {f : Option α → Prog β} (ht : Tests src (test c) false) (h : Walks src n (c :: ts) (f none) ts' Q) :
    Walks src n (c :: ts) (Prog.ifPeek test body >>= f) ts' Q :=
  bind (P := fun o => o = none) (Yields.ifPeek_none ht).walks (by rintro _ rfl; exact h)
/-- A token, if it is there. -/
theorem maybe {test : Cursor → Prog Bool} {o : Option Cursor} {c : Cursor} {f : Option Cursor → Prog β} (hs : ∀ d ∈ o, Tests src (test d) true) (hn : o = none → Tests src (test c) false)
    (h : Walks src n (c :: ts) (f o) ts' Q) : Walks src n (o.toList ++ c :: ts) (Prog.ifPeek test (Prog.tok test) >>= f) ts' Q := by
  cases o with
  | none => exact ifPeek_none (hn rfl) h
  | some d =>
    refine bind (P := fun o => o = some d) ?_ (by rintro _ rfl; exact h)
    exact ((Yields.ifPeek_some (P := fun x => x = d) (hs d rfl) (Yields.tok (hs d rfl) rfl)).mono (by rintro _ ⟨_, rfl, rfl⟩; rfl)).walks
theorem lower {c : Cursor} {s : List Char} {f : List Char → Prog β} (h : Named src c s) (hf : Walks src n ts (f s) ts' Q) : Walks src n ts (strLower c >>= f) ts' Q := by
  intro p hp hr
  obtain ⟨b, q2, w2, g1, g2, g3⟩ := hf hp hr
  exact ⟨b, q2, _, gives_seq (Tests.lower h hp.source) g1, g2, g3⟩

end Walks

/-! ### Items that end with a semicolon -/

section
variable {ι : Type} {body : ι → List Cursor} {semi : ι → Option Cursor}

/-- The tokens of some items. -/
def textOf (body : ι → List Cursor) (semi : ι → Option Cursor) (is : List ι) : List Cursor := (is.map fun i => body i ++ (semi i).toList).flatten

theorem textOf_cons {i : ι} {is : List ι} {rest : List Cursor} : textOf body semi (i :: is) ++ rest = body i ++ ((semi i).toList ++ (textOf body semi is ++ rest)) := by simp [textOf]

theorem text_first {is : List ι} {rest : List Cursor} {e : Cursor} (hfirst : ∀ i ∈ is, ∃ c r, body i = c :: r ∧ c.token.isKind .semicolon = false ∧ c.token.isKind .rightCurly = false)
    (he : e.token.isKind .semicolon = false) : ∃ c r, textOf body semi is ++ e :: rest = c :: r ∧ c.token.isKind .semicolon = false := by
  cases is with
  | nil => exact ⟨e, rest, rfl, he⟩
  | cons i is =>
    obtain ⟨c, r, h1, h2, _⟩ := hfirst i (.head _)
    refine ⟨c, r ++ ((semi i).toList ++ (textOf body semi is ++ e :: rest)), ?_, h2⟩
    rw [textOf_cons, h1]
    rfl

/-- The loop of a list of declarations. -/
theorem declarationLoop_walks {item : Prog δ} {B : ι → δ → Prop} {close : Cursor} {rest : List Cursor} (hc : IsKind .rightCurly close) : ∀ (is : List ι) (k : Nat) (acc : List (δ × Option Cursor)),
    (∀ i ∈ is, ∃ c r, body i = c :: r ∧ c.token.isKind .semicolon = false ∧ c.token.isKind .rightCurly = false) → (∀ i ∈ is, ∀ c ∈ semi i, IsKind .semicolon c) →
    (∀ i b, i :: b <:+ is → Walks src n (body i ++ ((semi i).toList ++ (textOf body semi b ++ close :: rest))) item ((semi i).toList ++ (textOf body semi b ++ close :: rest)) (B i)) →
    (textOf body semi is).length < k →
    Walks src n (textOf body semi is ++ close :: rest) (declarationListLoop item k acc) rest
      fun r => ∃ xs, r = (acc ++ xs, some close) ∧ Each (fun i x => B i x.1 ∧ x.2 = semi i) is xs
  | _, 0, _, _, _, _, h => absurd h (by omega)
  | [], k + 1, acc, hfirst, hsemi, hitem, hk => by
    unfold declarationListLoop
    refine Walks.atEnd (Walks.neg (by simp) (Walks.peek (Walks.pos hc ?_)))
    exact Walks.tok ((Tests.kind).congr hc) (Walks.pure ⟨[], by simp, trivial⟩)
  | i :: is, k + 1, acc, hfirst, hsemi, hitem, hk => by
    obtain ⟨c, r, h1, h2, h3⟩ := hfirst i (.head _)
    have hi := hitem i is List.suffix_rfl
    rw [textOf_cons]
    have hlen : (textOf body semi is).length < k := by
      have : (textOf body semi (i :: is)).length = (body i).length + ((semi i).toList.length + (textOf body semi is).length) := by
        rw [← List.append_nil (textOf body semi (i :: is)), textOf_cons]; simp
      rw [h1] at this
      simp only [List.length_cons] at this
      omega
    have ih := fun acc => declarationLoop_walks hc is k acc (fun j hj => hfirst j (.tail _ hj)) (fun j hj => hsemi j (.tail _ hj)) (fun j b hb => hitem j b (hb.trans (List.suffix_cons ..))) hlen
    obtain ⟨d, s, h4, h5⟩ := text_first (semi := semi) (rest := rest) (fun j hj => hfirst j (.tail _ hj)) (not_kind hc (l := .semicolon) (by decide) (by decide) (by decide))
    unfold declarationListLoop
    rw [h1] at hi ⊢
    refine Walks.atEnd (Walks.neg (by simp) (Walks.peek (Walks.neg (by simp [h3]) ?_)))
    refine Walks.bind hi fun x hx => ?_
    rw [h4] at ih ⊢
    refine Walks.maybe (fun c hc => (Tests.kind).congr (hsemi i (.head _) c hc)) (fun _ => (Tests.kind).congr h5) ((ih _).mono ?_)
    rintro _ ⟨xs, rfl, h⟩
    exact ⟨(x, semi i) :: xs, by simp, ⟨hx, rfl⟩, h⟩

/-- The loop of a list of rules; a semicolon may be left from what is before. -/
theorem ruleLoop_walks {item : Prog ρ} {B : ι → ρ → Prop} {close : Cursor} {rest : List Cursor} (hc : IsKind .rightCurly close) : ∀ (is : List ι) (k : Nat) (acc : List ρ) (pending : Option Cursor),
    (∀ c ∈ pending, IsKind .semicolon c) → (∀ i ∈ is, ∃ c r, body i = c :: r ∧ c.token.isKind .semicolon = false ∧ c.token.isKind .rightCurly = false) →
    (∀ i ∈ is, ∀ c ∈ semi i, IsKind .semicolon c) →
    (∀ i b, i :: b <:+ is → Walks src n (body i ++ ((semi i).toList ++ (textOf body semi b ++ close :: rest))) item ((semi i).toList ++ (textOf body semi b ++ close :: rest)) (B i)) →
    (textOf body semi is).length < k →
    Walks src n (pending.toList ++ (textOf body semi is ++ close :: rest)) (ruleListLoop item k acc) rest fun r => ∃ xs, r = (acc ++ xs, some close) ∧ Each B is xs
  | _, 0, _, _, _, _, _, _, h => absurd h (by omega)
  | is, k + 1, acc, pending, hp, hfirst, hsemi, hitem, hk => by
    have hns := not_kind hc (l := .semicolon) (by decide) (by decide) (by decide)
    obtain ⟨d, s, h4, h5⟩ := text_first (semi := semi) (rest := rest) hfirst hns
    unfold ruleListLoop
    have hstep : ∀ {f : Except Diag (Option Cursor) → Prog (List ρ × Option Cursor)} {Q : List ρ × Option Cursor → Prop}, (∀ o, Walks src n (d :: s) (f o) rest Q) →
        Walks src n (pending.toList ++ d :: s) (result (ifPeek (Prog.isKind .semicolon) (tok (Prog.isKind .semicolon))) >>= f) rest Q := by
      intro f Q h
      refine Walks.bind (P := fun _ => True) (ts1 := d :: s) ?_ fun o _ => h o
      refine Walks.mono (P := fun r => ∃ a, r = .ok a ∧ True) (Walks.result ?_) fun _ _ => trivial
      cases pending with
      | none => exact ((Yields.ifPeek_none ((Tests.kind).congr h5)).mono fun _ _ => trivial).walks
      | some c =>
        have hc := (Tests.kind (src := src)).congr (hp c rfl)
        exact ((Yields.ifPeek_some hc (Yields.tok (P' := fun _ => True) hc trivial)).mono fun _ _ => trivial).walks
    rw [h4]
    refine hstep fun _ => ?_
    refine Walks.atEnd (Walks.neg (by simp) (Walks.peek ?_))
    cases is with
    | nil =>
      cases h4
      exact Walks.pos hc (Walks.tok ((Tests.kind).congr hc) (Walks.pure ⟨[], by simp, trivial⟩))
    | cons i is =>
      obtain ⟨c, r, h1, h2, h3⟩ := hfirst i (.head _)
      have hi := hitem i is List.suffix_rfl
      rw [textOf_cons, h1] at h4
      cases h4
      have hlen : (textOf body semi is).length < k := by
        have : (textOf body semi (i :: is)).length = (body i).length + ((semi i).toList.length + (textOf body semi is).length) := by
          rw [← List.append_nil (textOf body semi (i :: is)), textOf_cons]; simp
        rw [h1] at this
        simp only [List.length_cons] at this
        omega
      rw [h1] at hi
      refine Walks.neg (by simp [h3]) (Walks.bind hi fun x hx => ?_)
      refine (ruleLoop_walks hc is k _ (semi i) (hsemi i (.head _)) (fun j hj => hfirst j (.tail _ hj)) (fun j hj => hsemi j (.tail _ hj)) (fun j b hb => hitem j b (hb.trans (List.suffix_cons ..))) hlen).mono ?_
      rintro _ ⟨xs, rfl, h⟩
      exact ⟨x :: xs, by simp, hx, h⟩

end

/-! ### Lists of declarations -/

/-- A declaration without its semicolon. -/
def declBody (d : DeclText) : List Cursor := d.name :: d.colon :: (d.value.tokens ++ importantTokens d.important)

theorem declsTokens_text (ds : List DeclText) : declsTokens ds = textOf declBody DeclText.semicolon ds := by
  unfold declsTokens textOf
  congr 2
  funext d
  simp [DeclText.tokens, declBody]

theorem declsFit_at {ds : List DeclText} (h : DeclsFit src ds) : ∀ {d : DeclText} {b : List DeclText}, d :: b <:+ ds → d.Fits src ∧ (d.semicolon = none → b = []) := by
  induction ds with
  | nil => intro d b hb; exact absurd (List.suffix_nil.mp hb) (by simp)
  | cons e ds ih =>
    intro d b hb
    rcases List.suffix_cons_iff.mp hb with hb | hb
    · cases hb; exact ⟨h.1, h.2.1⟩
    · exact ih h.2.2 hb

theorem decl_first {ds : List DeclText} (h : DeclsFit src ds) : ∀ d ∈ ds, ∃ c r, declBody d = c :: r ∧ c.token.isKind .semicolon = false ∧ c.token.isKind .rightCurly = false := by
  intro d hd
  obtain ⟨a, b, rfl⟩ := List.append_of_mem hd
  have hf := (declsFit_at h (List.suffix_append a (d :: b))).1
  exact ⟨_, _, rfl, not_kind hf.name.1 (by decide) (by decide) (by decide), not_kind hf.name.1 (by decide) (by decide) (by decide)⟩

theorem decl_semi {ds : List DeclText} (h : DeclsFit src ds) : ∀ d ∈ ds, ∀ c ∈ d.semicolon, IsKind .semicolon c := by
  intro d hd
  obtain ⟨a, b, rfl⟩ := List.append_of_mem hd
  exact (declsFit_at h (List.suffix_append a (d :: b))).1.semicolon

theorem decl_item {valid : Cursor → Prog Bool} {fuel : Nat} (hfu : n ≤ fuel) {ds : List DeclText} {close : Cursor} {rest : List Cursor} (h : DeclsFit src ds) (hc : IsKind .rightCurly close)
    {d : DeclText} {b : List DeclText} (hb : d :: b <:+ ds) (hv : Tests src (valid d.name) true) :
    Walks src n (declBody d ++ (d.semicolon.toList ++ (textOf declBody DeclText.semicolon b ++ close :: rest))) (declarationOf valid (styleValue realValues fuel))
      (d.semicolon.toList ++ (textOf declBody DeclText.semicolon b ++ close :: rest)) d.Becomes := by
  obtain ⟨hf, hl⟩ := declsFit_at h hb
  have := decl_walks (rest := textOf declBody DeclText.semicolon b ++ close :: rest) hfu hv hf fun hs => by
    rw [hl hs]
    exact ⟨close, rest, rfl, hc⟩
  have e : d.tokens ++ (textOf declBody DeclText.semicolon b ++ close :: rest) = declBody d ++ (d.semicolon.toList ++ (textOf declBody DeclText.semicolon b ++ close :: rest)) := by
    simp [DeclText.tokens, declBody]
  rw [← e]
  exact this

/-- A block of declarations. -/
theorem declarationList_walks {fuel : Nat} (hfu : n ≤ fuel) {ds : List DeclText} {o close : Cursor} {rest : List Cursor} (ho : IsKind .leftCurly o) (h : DeclsFit src ds) (hc : IsKind .rightCurly close) :
    Walks src n (o :: (declsTokens ds ++ close :: rest)) (declarationList (property realValues fuel) fuel) rest
      fun b => b.opening = o ∧ DeclsBecome ds b.items ∧ b.close = some close := by
  refine Walks.room fun hlen => ?_
  unfold declarationList
  refine Walks.tok ((Tests.kind).congr ho) ?_
  rw [declsTokens_text] at hlen ⊢
  refine Walks.bind (declarationLoop_walks (B := DeclText.Becomes) hc ds fuel [] (decl_first h) (decl_semi h) (fun d b hb => decl_item hfu h hc hb Tests.pure) ?_) ?_
  · simp only [List.length_cons, List.length_append] at hlen
    omega
  rintro _ ⟨xs, rfl, hx⟩
  exact Walks.pure ⟨rfl, hx, rfl⟩

/-! ### What is between commas -/

/-- Items with commas between them. -/
theorem listed_walks {cur : α → List Cursor} {item : Prog α} {P : α → Prop} {e : Cursor} {rest : List Cursor} (he : IsKind .leftCurly e ∨ IsKind .semicolon e)
    (hfirst : ∀ a, P a → ∃ c r, cur a = c :: r ∧ c.token.inSet KindSet.LEFT_CURLY_OR_SEMICOLON = false)
    (hitem : ∀ a, P a → ∀ c r, (IsKind .comma c ∨ c = e) → Walks src n (cur a ++ c :: r) item (c :: r) fun x => x = a) :
    ∀ (as : List (α × Option Cursor)) (k : Nat) (acc : List (α × Option Cursor)), Listed P as → as.length < k →
      Walks src n (pairsCursors cur as ++ e :: rest) (commaPreludeLoop item k acc) (e :: rest) fun r => r = acc ++ as
  | [], _, _, h, _ => absurd h id
  | _, 0, _, _, h => absurd h (by omega)
  | [(a, o)], k + 1, acc, h, hk => by
    obtain ⟨ha, rfl⟩ := h
    have hne : e.token.isKind .comma = false := by
      rcases he with h | h
      · exact not_kind h (by decide) (by decide) (by decide)
      · exact not_kind h (by decide) (by decide) (by decide)
    unfold commaPreludeLoop
    simp only [pairsCursors, Option.toList_none, List.append_nil]
    refine Walks.bind (hitem a ha e rest (.inr rfl)) ?_
    rintro _ rfl
    refine Walks.ifPeek_none ((Tests.kind).congr hne) (Walks.peek (Walks.pos ?_ (Walks.pure rfl)))
    rcases he with h | h
    · rw [inSet_of_kind (k := .leftCurly) (by decide) h]; decide
    · rw [inSet_of_kind (k := .semicolon) (by decide) h]; decide
  | (a, o) :: b :: as, k + 1, acc, h, hk => by
    obtain ⟨ha, ⟨m, rfl, hm⟩, hmore⟩ := h
    have ih := listed_walks (rest := rest) he hfirst hitem (b :: as) k (acc ++ [(a, some m)]) hmore (by simp at hk ⊢; omega)
    obtain ⟨c, r, e1, hc⟩ : ∃ c r, pairsCursors cur (b :: as) ++ e :: rest = c :: r ∧ c.token.inSet KindSet.LEFT_CURLY_OR_SEMICOLON = false := by
      have hb : P b.1 := by
        cases as with
        | nil => exact hmore.1
        | cons x xs => exact hmore.1
      obtain ⟨c, r, h1, h2⟩ := hfirst b.1 hb
      exact ⟨c, r ++ b.2.toList ++ pairsCursors cur as ++ e :: rest, by simp [pairsCursors, h1], h2⟩
    have e0 : pairsCursors cur ((a, some m) :: b :: as) ++ e :: rest = cur a ++ m :: (pairsCursors cur (b :: as) ++ e :: rest) := by
      conv => lhs; unfold pairsCursors
      simp
    rw [e0]
    unfold commaPreludeLoop
    refine Walks.bind (hitem a ha m _ (.inl hm)) ?_
    rintro _ rfl
    rw [e1] at ih ⊢
    refine Walks.maybe (o := some m) (fun d hd => by cases hd; exact (Tests.kind).congr hm) nofun ?_
    refine Walks.peek (Walks.neg (by simp [hc]) (ih.mono ?_))
    rintro _ rfl
    simp

theorem listed_length {cur : α → List Cursor} {P : α → Prop} (hne : ∀ a, P a → ∃ c r, cur a = c :: r) : ∀ (as : List (α × Option Cursor)), Listed P as → as.length ≤ (pairsCursors cur as).length
  | [], h => absurd h id
  | [(a, o)], h => by
    obtain ⟨c, r, h1⟩ := hne a h.1
    simp [pairsCursors, h1]
  | (a, o) :: b :: as, h => by
    have := listed_length hne (b :: as) h.2.2
    obtain ⟨c, r, h1⟩ := hne a h.1
    unfold pairsCursors
    simp [h1] at this ⊢
    omega

theorem commaPrelude_walks {cur : α → List Cursor} {item : Prog α} {P : α → Prop} {e : Cursor} {rest : List Cursor} {fuel : Nat} (hfu : n ≤ fuel) (he : IsKind .leftCurly e ∨ IsKind .semicolon e)
    (hfirst : ∀ a, P a → ∃ c r, cur a = c :: r ∧ c.token.inSet KindSet.LEFT_CURLY_OR_SEMICOLON = false)
    (hitem : ∀ a, P a → ∀ c r, (IsKind .comma c ∨ c = e) → Walks src n (cur a ++ c :: r) item (c :: r) fun x => x = a) {as : List (α × Option Cursor)} (h : Listed P as) :
    Walks src n (pairsCursors cur as ++ e :: rest) (commaPrelude item fuel) (e :: rest) fun r => r = as := by
  refine Walks.room fun hlen => ?_
  refine (listed_walks he hfirst hitem as fuel [] h ?_).mono (by rintro _ rfl; simp)
  have := listed_length (fun a ha => (hfirst a ha).imp fun c => Exists.imp fun r => And.left) as h
  simp only [List.length_append] at hlen
  omega

/-! ### Rules -/

/-- A rule with selectors and a block. -/
theorem qualifiedRule_walks {prelude : Prog α} {block : Prog β} {bad : Prog γ} {c : Cursor} {more : List Cursor} (hd : isDashed c = false) (hk : c.token.isKind .rightCurly = false)
    (hp : Walks src n (c :: more) prelude ts1 P) (hb : Walks src n ts1 block ts' Q) : Walks src n (c :: more) (qualifiedRule prelude block bad) ts' fun x => P x.1 ∧ Q x.2 := by
  unfold qualifiedRule
  refine Walks.atEnd (Walks.neg (by simp) (Walks.ask (fun p => ⟨_, rfl⟩) fun nested => Walks.peek (Walks.neg (by simp [hk]) (Walks.ask (fun p => ⟨_, rfl⟩) fun _ => ?_))))
  refine Walks.attempt (ts1 := c :: more) (Q := fun l => l = .other) (Walks.peek (Walks.neg (by simp [hd]) (Walks.pure rfl))) ?_ ?_
  · rintro _ rfl; rfl
  rintro _ rfl
  refine Walks.ofResult (Walks.setStop fun _ => Walks.bind hp.result ?_)
  rintro _ ⟨a, rfl, ha⟩
  exact Walks.setStop fun _ => Walks.ofResult (Walks.bind hb fun b hb => Walks.pure ⟨ha, hb⟩)

/-- What an at-rule tests of its name. -/
def nameTest (name : Option (List Char)) (c : Cursor) : Prog Bool :=
  match name with
  | some n => Prog.eqIgnoreAsciiCase c n
  | none => pure true

/-- An at-rule after the at-keyword. -/
def atRuleRest (prelude : Prog α) (block : Prog β) (a : Cursor) : Prog (Cursor × Option α × β) := do
  let c ← peek
  let e ← atEnd
  let pre ← if e || c.token.inSet KindSet.LEFT_CURLY_OR_SEMICOLON then pure none else do
    let a ← prelude
    pure (some a)
  let b ← block
  pure (a, pre, b)

theorem atRule_eq (name : Option (List Char)) (prelude : Prog α) (block : Prog β) :
    atRule name prelude block = (tok (Prog.isKind .atKeyword) >>= fun a => nameTest name a >>= fun ok => if !ok then fail .other a else atRuleRest prelude block a) := by
  cases name <;> rfl

/-- With something before the block. -/
theorem atRuleRest_some {prelude : Prog α} {block : Prog β} {a c : Cursor} {more : List Cursor} (hc : c.token.inSet KindSet.LEFT_CURLY_OR_SEMICOLON = false)
    (hp : Walks src n (c :: more) prelude ts1 P) (hb : Walks src n ts1 block ts' Q) :
    Walks src n (c :: more) (atRuleRest prelude block a) ts' fun x => x.1 = a ∧ (∃ v, x.2.1 = some v ∧ P v) ∧ Q x.2.2 := by
  unfold atRuleRest
  refine Walks.peek (Walks.atEnd ?_)
  rw [if_neg (by simp [hc])]
  refine Walks.bind hp fun v hv => Walks.bind (P := fun o => o = some v) (Walks.pure rfl) ?_
  rintro _ rfl
  exact Walks.bind hb fun b hb => Walks.pure ⟨rfl, ⟨v, rfl, hv⟩, hb⟩

/-- With nothing before the block. -/
theorem atRuleRest_none {prelude : Prog α} {block : Prog β} {a c : Cursor} {more : List Cursor} (hc : c.token.inSet KindSet.LEFT_CURLY_OR_SEMICOLON = true)
    (hb : Walks src n (c :: more) block ts' Q) : Walks src n (c :: more) (atRuleRest prelude block a) ts' fun x => x.1 = a ∧ x.2.1 = none ∧ Q x.2.2 := by
  unfold atRuleRest
  refine Walks.peek (Walks.atEnd ?_)
  rw [if_pos (by simp [hc])]
  refine Walks.bind (P := fun o => o = none) (Walks.pure rfl) ?_
  rintro _ rfl
  exact Walks.bind hb fun b hb => Walks.pure ⟨rfl, rfl, hb⟩

theorem atRule_walks {name : Option (List Char)} {prelude : Prog α} {block : Prog β} {a : Cursor} {R : Cursor × Option α × β → Prop} (ha : IsKind .atKeyword a) (hn : Tests src (nameTest name a) true)
    (h : Walks src n ts (atRuleRest prelude block a) ts' R) : Walks src n (a :: ts) (atRule name prelude block) ts' R := by
  rw [atRule_eq]
  exact Walks.tok ((Tests.kind).congr ha) (Walks.test hn (Walks.neg (by simp) h))

theorem leftCurly_in {c : Cursor} (h : IsKind .leftCurly c) : c.token.inSet KindSet.LEFT_CURLY_OR_SEMICOLON = true := by
  rw [inSet_of_kind (k := .leftCurly) (by decide) h]; decide

end
end Hdx

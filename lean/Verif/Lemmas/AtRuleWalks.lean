/-
At-rules without rules in them are read.
-/
import Verif.Lemmas.ListWalks
import Verif.Lemmas.MediaYields

namespace Hdx
open Spec Prog
section
variable {src : List Char} {n : Nat}

theorem not_in {k : Kind} {c : Cursor} (h : IsKind k c) (hk : k ≠ .eof) (hs : KindSet.LEFT_CURLY_OR_SEMICOLON.contains k = false) : c.token.inSet KindSet.LEFT_CURLY_OR_SEMICOLON = false := by
  rw [inSet_of_kind hk h]; exact hs

/-! ### Names of layers -/

theorem layerLoop_walks {c : Cursor} {rest : List Cursor} (hc : c.token.isKind .delim = false) : ∀ (ps : List (Cursor × Cursor)) (k : Nat) (acc : List (Cursor × Cursor)),
    (∀ x ∈ ps, IsDelim '.' x.1 ∧ IsKind .ident x.2) → ps.length < k →
    Walks src n (layerPartsCursors ps ++ c :: rest) (layerNameLoop k acc) (c :: rest) fun r => r = acc ++ ps
  | _, 0, _, _, h => absurd h (by omega)
  | [], k + 1, acc, _, _ => by
    unfold layerNameLoop
    refine Walks.peek (Walks.test (b := false) (Tests.pure.congr (by simp [hc])) (Walks.neg (by simp) (Walks.pure (by simp))))
  | (d, i) :: ps, k + 1, acc, h, hk => by
    obtain ⟨hd, hi⟩ := h (d, i) (.head _)
    unfold layerNameLoop
    refine Walks.peek (Walks.test (isDelim_tests hd) (Walks.pos rfl (Walks.tok (isDelim_tests hd) (Walks.tok ((Tests.kind).congr hi) ?_))))
    refine (layerLoop_walks hc ps k _ (fun x hx => h x (.tail _ hx)) (by simp at hk; omega)).mono ?_
    rintro _ rfl
    simp

theorem layerParts_length (ps : List (Cursor × Cursor)) : ps.length ≤ (layerPartsCursors ps).length := by
  induction ps with
  | nil => exact Nat.le_refl _
  | cons x ps ih =>
    obtain ⟨d, i⟩ := x
    simp only [layerPartsCursors, List.length_cons]
    omega

theorem layerName_walks {fuel : Nat} (hfu : n ≤ fuel) {l : LayerName} {c : Cursor} {rest : List Cursor} (hl : LayerNameLabel l) (hc : c.token.isKind .delim = false) :
    Walks src n (l.cursors ++ c :: rest) (layerName fuel) (c :: rest) fun x => x = l := by
  refine Walks.room fun hlen => ?_
  unfold layerName
  refine Walks.tok ((Tests.kind).congr hl.1) (Walks.bind (layerLoop_walks hc l.parts fuel [] hl.2 ?_) ?_)
  · have := layerParts_length l.parts
    simp [LayerName.cursors] at hlen
    omega
  rintro _ rfl
  exact Walks.pure (by cases l; rfl)

/-- What follows an item of a list is not a delimiter. -/
theorem after_item {c e : Cursor} (he : IsKind .leftCurly e ∨ IsKind .semicolon e) (hc : IsKind .comma c ∨ c = e) {k : Kind} (hk : k ≠ .eof) (h1 : Kind.leftCurly ≠ k) (h2 : Kind.semicolon ≠ k) (h3 : Kind.comma ≠ k) :
    c.token.isKind k = false := by
  rcases hc with h | rfl
  · exact not_kind h (by decide) hk h3
  · rcases he with h | h
    · exact not_kind h (by decide) hk h1
    · exact not_kind h (by decide) hk h2

theorem layers_walks {fuel : Nat} (hfu : n ≤ fuel) {ns : List (LayerName × Option Cursor)} {e : Cursor} {rest : List Cursor} (hn : Listed LayerNameLabel ns) (he : IsKind .leftCurly e ∨ IsKind .semicolon e) :
    Walks src n (pairsCursors LayerName.cursors ns ++ e :: rest) (commaPrelude (layerName fuel) fuel) (e :: rest) fun x => x = ns :=
  commaPrelude_walks hfu he (fun l hl => ⟨_, _, rfl, not_in hl.1 (by decide) (by decide)⟩)
    (fun l hl c r hc => layerName_walks hfu hl (after_item he hc (by decide) (by decide) (by decide) (by decide))) hn

theorem listed_first {α : Type} {cur : α → List Cursor} {P : α → Prop} {Q : Cursor → Prop} (h : ∀ a, P a → ∃ c r, cur a = c :: r ∧ Q c) {as : List (α × Option Cursor)} (hl : Listed P as) :
    ∃ c r, pairsCursors cur as = c :: r ∧ Q c := by
  match as, hl with
  | [(a, o)], hl =>
    obtain ⟨c, r, h1, h2⟩ := h a hl.1
    exact ⟨c, _, by simp [pairsCursors, h1]; rfl, h2⟩
  | (a, o) :: b :: as, hl =>
    obtain ⟨c, r, h1, h2⟩ := h a hl.1
    exact ⟨c, _, by rw [pairsCursors, h1]; rfl, h2⟩

/-! ### Keyframes -/

theorem upTo100_of {w : BitVec 32} (h : AtLeast 0 w ∧ AtMost 100 w) : f32UpTo100 w = true := by
  have := upTo_of (n := 100) (by decide) h
  have e : F32.ofRat (100 : Nat) 1 = 0x42c80000 := by decide +kernel
  unfold f32UpTo at this
  unfold f32UpTo100
  rw [e] at this
  simp only [Bool.or_eq_true, Bool.and_eq_true, decide_eq_true_eq, beq_iff_eq] at this ⊢
  rcases this with h | h
  · exact .inr h
  · exact .inl h.2

theorem keyframeSelector_yields {s : KeyframeSelector} {c : Cursor} {rest : List Cursor} (hs : KeyframeSelectorLabel src s) (hc : Clear src s.cursor) :
    Yields src (s.cursor :: rest) keyframeSelector rest fun x => x = s := by
  unfold keyframeSelector
  cases s with
  | «from» c =>
    refine Yields.bind (Yields.ifPeek_some (Exactly.words.yes hc (Among.words.mpr ⟨hs.1, c!"from", by decide, hs.2⟩)) (keyword_yields' hs.1 hs.2 hc (by decide))) ?_
    rintro _ ⟨_, rfl, rfl⟩
    exact Yields.pos (by decide) (Yields.pure rfl)
  | to c =>
    refine Yields.bind (Yields.ifPeek_some (Exactly.words.yes hc (Among.words.mpr ⟨hs.1, c!"to", by decide, hs.2⟩)) (keyword_yields' hs.1 hs.2 hc (by decide))) ?_
    rintro _ ⟨_, rfl, rfl⟩
    exact Yields.neg (by decide) (Yields.pure rfl)
  | percent c =>
    obtain ⟨h1, h2⟩ := hs
    refine Yields.bind (Yields.ifPeek_none (Exactly.words.no hc ?_)) ?_
    · rw [Among.words]
      exact fun h => IsKind.other h.1 (by decide) (by decide) (by decide) h1.1
    rintro _ rfl
    refine Yields.bind (Yields.tok (P' := fun x => x = c) (Exactly.percent.yes hc (Among.one.mpr (h1.has hc (plainName_spec (by decide))))) rfl) ?_
    rintro _ rfl
    exact Yields.pos (upTo100_of h2) (Yields.pure rfl)

theorem keyframeSelector_dashed {s : KeyframeSelector} (hs : KeyframeSelectorLabel src s) (hc : Clear src s.cursor) : isDashed s.cursor = false := by
  unfold isDashed
  cases s with
  | «from» c => rw [KeyframeSelector.cursor, undashed hs.1 hc hs.2 (by decide)]; simp
  | to c => rw [KeyframeSelector.cursor, undashed hs.1 hc hs.2 (by decide)]; simp
  | percent c => rw [KeyframeSelector.cursor, not_kind hs.1.1 (l := .ident) (by decide) (by decide) (by decide)]; rfl

theorem keyframeSelector_kind {s : KeyframeSelector} (hs : KeyframeSelectorLabel src s) : IsKind .ident s.cursor ∨ IsKind .dimension s.cursor := by
  cases s with
  | «from» c => exact .inl hs.1
  | to c => exact .inl hs.1
  | percent c => exact .inr hs.1.1

theorem frame_first {f : FrameText} (hf : f.Fits src) : ∃ c r, f.tokens = c :: r ∧ isDashed c = false ∧ c.token.isKind .semicolon = false ∧ c.token.isKind .rightCurly = false := by
  obtain ⟨c, r, h1, s, rfl, h2⟩ := listed_first (cur := fun s : KeyframeSelector => [s.cursor]) (Q := fun c => ∃ s : KeyframeSelector, s.cursor = c ∧ KeyframeSelectorLabel src s ∧ Clear src s.cursor)
    (fun s hs => ⟨_, _, rfl, s, rfl, hs⟩) hf.selectors
  refine ⟨_, _, by rw [FrameText.tokens, h1]; rfl, keyframeSelector_dashed h2.1 h2.2, ?_⟩
  rcases keyframeSelector_kind h2.1 with h | h
  · exact ⟨not_kind h (by decide) (by decide) (by decide), not_kind h (by decide) (by decide) (by decide)⟩
  · exact ⟨not_kind h (by decide) (by decide) (by decide), not_kind h (by decide) (by decide) (by decide)⟩

theorem keyframe_walks {fuel : Nat} (hfu : n ≤ fuel) {f : FrameText} {rest : List Cursor} (hf : f.Fits src) : Walks src n (f.tokens ++ rest) (keyframe realValues fuel) rest f.Becomes := by
  obtain ⟨c, r, h1, h2, _, h3⟩ := frame_first hf
  have e : f.tokens ++ rest = pairsCursors (fun s => [s.cursor]) f.selectors ++ f.opening :: (declsTokens f.declarations ++ f.close :: rest) := by simp [FrameText.tokens]
  have hp : Walks src n (f.tokens ++ rest) (commaPrelude keyframeSelector fuel) (f.opening :: (declsTokens f.declarations ++ f.close :: rest)) fun x => x = f.selectors := by
    rw [e]
    refine commaPrelude_walks hfu (.inl hf.opening) (fun s hs => ⟨_, _, rfl, ?_⟩) (fun s hs c r _ => (keyframeSelector_yields (c := c) hs.1 hs.2).walks) hf.selectors
    rcases keyframeSelector_kind hs.1 with h | h
    · exact not_in h (by decide) (by decide)
    · exact not_in h (by decide) (by decide)
  unfold keyframe
  rw [h1] at hp ⊢
  refine Walks.bind (qualifiedRule_walks h2 h3 hp (declarationList_walks hfu hf.opening hf.declarations hf.close)) ?_
  rintro ⟨ss, b⟩ ⟨rfl, h4, h5, h6⟩
  exact Walks.pure ⟨rfl, h4, h5, h6⟩

theorem keyframesName_yields {c : Cursor} {rest : List Cursor} (h : KeyframesNameLabel src c) : Yields src (c :: rest) keyframesName rest fun x => x = c := by
  unfold keyframesName
  refine Yields.peek ?_
  rcases h with h | ⟨h, s, hs, hn⟩
  · exact Yields.pos h (Yields.tok ((Tests.kind).congr h) rfl)
  · refine Yields.neg (by simp [not_kind h (l := .string) (by decide) (by decide) (by decide)]) ?_
    refine Yields.bind (Yields.tok (P' := fun x => x = c) ((Tests.kind).congr h) rfl) ?_
    rintro _ rfl
    intro p hp
    refine ⟨_, p, [], gives_seq (w1 := []) (gives_ask.mpr ⟨s, by rw [hp.source]; exact hs, rfl, rfl, rfl⟩) ?_, hp, rfl⟩
    rw [if_neg (by
      intro h'
      exact hn (List.contains_iff_mem.mp h'))]
    exact gives_pure.mpr ⟨rfl, rfl, rfl⟩

/-! ### Pages -/

theorem pagePseudo_yields {k : List Char} {a b : Cursor} {rest : List Cursor} (ha : IsKind .colon a) (hb : KeywordLabel src PAGE_PSEUDO_CLASSES (k, b)) (hc : Clear src b) (ht : Touch a b) :
    Yields src (a :: b :: rest) pagePseudoClass rest fun x => x = (k, a, b) := by
  intro p hp
  obtain ⟨q, k1, k2, r, k3, k4⟩ := hp.touch ht
  have hq : q.skip = KindSet.TRIVIA := k2.skip
  have hsrc : r.lexer.source = src := k4.source
  refine ⟨(k, a, b), { r with skip := KindSet.TRIVIA }, [a] ++ ([b] ++ []), ?_, k4, rfl⟩
  have t1 : Gives (Prog.tok (Prog.isKind .colon)) p (.ok a) q [a] := by
    unfold Prog.tok
    refine gives_of_peek (peek_of_next k1) (gives_seq (w1 := []) ((Tests.kind).congr ha hp.source) ?_)
    exact gives_seq (w1 := [a]) (w2 := []) (gives_take.mpr ⟨_, k1, rfl, rfl⟩) (gives_pure.mpr ⟨rfl, rfl, rfl⟩)
  have t2 : Gives (Prog.tok (isKeyword PAGE_PSEUDO_CLASSES)) { q with skip := KindSet.NONE } (.ok b) r [b] := by
    unfold Prog.tok
    refine gives_of_peek (peek_of_next k3) (gives_seq (w1 := []) (Exactly.words.yes hc (Among.words.mpr ⟨hb.1, k, hb.2.2, hb.2.1⟩) k2.source) ?_)
    exact gives_seq (w1 := [b]) (w2 := []) (gives_take.mpr ⟨_, k3, rfl, rfl⟩) (gives_pure.mpr ⟨rfl, rfl, rfl⟩)
  have t3 : Gives (keyword PAGE_PSEUDO_CLASSES) { q with skip := KindSet.NONE } (.ok (k, b)) r ([b] ++ []) := by
    unfold keyword
    exact gives_seq t2 (gives_buildKeyword.mpr ⟨rfl, rfl, k, by rw [hsrc]; exact hb.2.1, List.contains_iff_mem.mpr hb.2.2, rfl⟩)
  unfold pagePseudoClass
  refine gives_seq t1 (gives_setSkip.mpr ?_)
  have := gives_result.mpr ⟨_, t3, rfl⟩
  refine gives_seq (w1 := [b]) (w2 := []) (by simpa using this) (gives_setSkip.mpr ?_)
  rw [hq]
  exact gives_pure.mpr ⟨rfl, rfl, rfl⟩

theorem pagePseudos_yields {c : Cursor} {rest : List Cursor} (hc : c.token.isKind .colon = false) : ∀ (ps : List (List Char × Cursor × Cursor)) (k : Nat) (acc : List (List Char × Cursor × Cursor)),
    (∀ x ∈ ps, (IsKind .colon x.2.1 ∧ KeywordLabel src PAGE_PSEUDO_CLASSES (x.1, x.2.2)) ∧ Touch x.2.1 x.2.2 ∧ Clear src x.2.2) → ps.length < k →
    Yields src (pagePseudosCursors ps ++ c :: rest) (pagePseudosLoop k acc) (c :: rest) fun r => r = acc ++ ps
  | _, 0, _, _, h => absurd h (by omega)
  | [], k + 1, acc, _, _ => by
    unfold pagePseudosLoop
    exact Yields.peek (Yields.neg (by simp [hc]) (Yields.pure (by simp)))
  | (w, a, b) :: ps, k + 1, acc, h, hk => by
    obtain ⟨⟨h1, h2⟩, h3, h4⟩ := h _ (.head _)
    unfold pagePseudosLoop
    refine Yields.peek (Yields.pos h1 (Yields.bind (pagePseudo_yields h1 h2 h4 h3) ?_))
    rintro _ rfl
    refine (pagePseudos_yields hc ps k _ (fun x hx => h x (.tail _ hx)) (by simp at hk; omega)).mono ?_
    rintro _ rfl
    simp

theorem pagePseudos_length (ps : List (List Char × Cursor × Cursor)) : ps.length ≤ (pagePseudosCursors ps).length := by
  induction ps with
  | nil => exact Nat.le_refl _
  | cons x ps ih =>
    obtain ⟨w, d, i⟩ := x
    simp only [pagePseudosCursors, List.length_cons]
    omega

theorem pageSelector_walks {fuel : Nat} (hfu : n ≤ fuel) {s : PageSel} {c : Cursor} {rest : List Cursor} (hs : PageSelectorFits src s) (hc : c.token.isKind .colon = false) (hi : c.token.isKind .ident = false) :
    Walks src n (s.cursors ++ c :: rest) (pageSelector fuel) (c :: rest) fun x => x = s := by
  refine Walks.room fun hlen => ?_
  obtain ⟨⟨h1, h2⟩, h3, h4⟩ := hs
  have hl := pagePseudos_yields (src := src) (rest := rest) hc s.pseudos fuel [] (fun x hx => ⟨h2 x hx, h4 x hx⟩) (by
    have := pagePseudos_length s.pseudos
    simp [PageSel.cursors] at hlen
    omega)
  obtain ⟨d, r, e, hd⟩ : ∃ d r, pagePseudosCursors s.pseudos ++ c :: rest = d :: r ∧ d.token.isKind .ident = false := by
    cases hp : s.pseudos with
    | nil => exact ⟨c, rest, rfl, hi⟩
    | cons x ps =>
      obtain ⟨w, a, b⟩ := x
      exact ⟨a, _, rfl, not_kind (h2 (w, a, b) (by rw [hp]; exact .head _)).1 (by decide) (by decide) (by decide)⟩
  unfold pageSelector PageSel.cursors
  rw [List.append_assoc]
  rw [e] at hl ⊢
  refine Walks.maybe (fun x hx => (Tests.kind).congr (h1 x hx)) (fun _ => (Tests.kind).congr hd) (Walks.bind hl.walks ?_)
  rintro _ rfl
  exact Walks.pure (by cases s; rfl)

theorem pageSelector_first {s : PageSel} (hs : PageSelectorFits src s) : ∃ c r, s.cursors = c :: r ∧ c.token.inSet KindSet.LEFT_CURLY_OR_SEMICOLON = false := by
  obtain ⟨⟨h1, h2⟩, h3, h4⟩ := hs
  unfold PageSel.cursors
  cases ht : s.pageType with
  | some c => exact ⟨c, _, rfl, not_in (h1 c ht) (by decide) (by decide)⟩
  | none =>
    cases hp : s.pseudos with
    | nil => exact absurd hp (h3 ht)
    | cons x ps =>
      obtain ⟨w, a, b⟩ := x
      exact ⟨a, _, rfl, not_in (h2 (w, a, b) (by rw [hp]; exact .head _)).1 (by decide) (by decide)⟩

theorem margin_mem {m : List Char} (h : m ∈ marginNames) : m ∈ MARGIN_NAMES := by
  have : ∀ m ∈ marginNames, m ∈ MARGIN_NAMES := by decide
  exact this m h

theorem marginRule_walks {fuel : Nat} (hfu : n ≤ fuel) {a o close : Cursor} {ds : List DeclText} {rest : List Cursor} (ha : IsKind .atKeyword a) (hm : ∃ m ∈ marginNames, Named src a m)
    (ho : IsKind .leftCurly o) (hd : DeclsFit src ds) (hc : IsKind .rightCurly close) :
    Walks src n (a :: o :: (declsTokens ds ++ close :: rest)) (marginRule realValues fuel) rest
      fun m => m.atKeyword = a ∧ m.block.opening = o ∧ DeclsBecome ds m.block.items ∧ m.block.close = some close := by
  obtain ⟨m, hm, hn⟩ := hm
  unfold marginRule
  refine Walks.bind (atRule_walks ha Tests.pure (atRuleRest_none (leftCurly_in ho) (declarationList_walks hfu ho hd hc))) ?_
  rintro ⟨a', pre, b⟩ ⟨rfl, _, h1, h2, h3⟩
  refine Walks.lower hn (Walks.pos ?_ (Walks.pure ⟨rfl, h1, h2, h3⟩))
  rw [Bool.and_eq_true]
  exact ⟨ha, List.contains_iff_mem.mpr (margin_mem hm)⟩

/-- The declarations and rules of a page. -/
theorem pageLoop_walks {fuel : Nat} (hfu : n ≤ fuel) {close : Cursor} {rest : List Cursor} (hc : IsKind .rightCurly close) : ∀ (ps : List PagePart) (k : Nat)
    (ds : List (Decl (StyleValue Val) × Option Cursor)) (ms : List (MarginRule Val)), PartsFit src ps → (ps.map PagePart.tokens).flatten.length < k →
    Walks src n ((ps.map PagePart.tokens).flatten ++ close :: rest) (declarationRuleListLoop (property realValues fuel) (marginRule realValues fuel) k ds ms) rest
      fun r => ∃ ds' ms', r = ((ds ++ ds', ms ++ ms'), some close) ∧ PartsBecome ps ds' ms'
  | _, 0, _, _, _, h => absurd h (by omega)
  | [], k + 1, ds, ms, _, _ => by
    unfold declarationRuleListLoop
    refine Walks.atEnd (Walks.neg (by simp) (Walks.peek (Walks.pos hc ?_)))
    exact Walks.tok ((Tests.kind).congr hc) (Walks.pure ⟨[], [], by simp, rfl, rfl⟩)
  | .declaration d :: ps, k + 1, ds, ms, ⟨hd, hl, hps⟩, hk => by
    have e : ((PagePart.declaration d :: ps).map PagePart.tokens).flatten ++ close :: rest = d.tokens ++ ((ps.map PagePart.tokens).flatten ++ close :: rest) := by simp [PagePart.tokens]
    have hlen : (ps.map PagePart.tokens).flatten.length < k := by
      simp [PagePart.tokens, DeclText.tokens] at hk ⊢
      omega
    have hy := decl_walks (src := src) (valid := fun _ => pure true) (rest := (ps.map PagePart.tokens).flatten ++ close :: rest) hfu Tests.pure hd fun hs => by
      rw [hl hs]
      exact ⟨close, rest, rfl, hc⟩
    have hi := hd.name.1
    obtain ⟨x, r, e2, hx⟩ : ∃ x r, (ps.map PagePart.tokens).flatten ++ close :: rest = x :: r ∧ x.token.isKind .semicolon = false := by
      cases ps with
      | nil => exact ⟨close, rest, rfl, not_kind hc (by decide) (by decide) (by decide)⟩
      | cons q qs =>
        cases q with
        | declaration d' => exact ⟨d'.name, _, rfl, not_kind hps.1.name.1 (by decide) (by decide) (by decide)⟩
        | margin a o b c => exact ⟨a, _, rfl, not_kind hps.1 (by decide) (by decide) (by decide)⟩
    rw [e]
    have ih := fun ds ms => pageLoop_walks hfu (rest := rest) hc ps k ds ms hps hlen
    unfold declarationRuleListLoop
    rw [show d.tokens = d.name :: d.colon :: (d.value.tokens ++ (importantTokens d.important ++ d.semicolon.toList)) from rfl] at hy ⊢
    refine Walks.atEnd (Walks.neg (by simp) (Walks.peek (Walks.neg (by simp [not_kind hi (l := .rightCurly) (by decide) (by decide) (by decide)])
      (Walks.neg (by simp [not_kind hi (l := .atKeyword) (by decide) (by decide) (by decide)]) (Walks.pos hi ?_)))))
    refine Walks.bind hy fun v hv => ?_
    rw [e2] at ih ⊢
    refine Walks.maybe (fun c hc => (Tests.kind).congr (hd.semicolon c hc)) (fun _ => (Tests.kind).congr hx) ((ih _ _).mono ?_)
    rintro _ ⟨ds', ms', rfl, h⟩
    exact ⟨(v, d.semicolon) :: ds', ms', by simp, v, ds', rfl, hv, h⟩
  | .margin a o body c :: ps, k + 1, ds, ms, ⟨ha, hm, ho, hb, hcl, hps⟩, hk => by
    have e : ((PagePart.margin a o body c :: ps).map PagePart.tokens).flatten ++ close :: rest = a :: o :: (declsTokens body ++ c :: ((ps.map PagePart.tokens).flatten ++ close :: rest)) := by
      simp [PagePart.tokens]
    have hlen : (ps.map PagePart.tokens).flatten.length < k := by
      simp [PagePart.tokens] at hk ⊢
      omega
    rw [e]
    unfold declarationRuleListLoop
    refine Walks.atEnd (Walks.neg (by simp) (Walks.peek (Walks.neg (by simp [not_kind ha (l := .rightCurly) (by decide) (by decide) (by decide)]) (Walks.pos ha ?_))))
    refine Walks.bind (marginRule_walks hfu ha hm ho hb hcl) fun m hm => ?_
    refine (pageLoop_walks hfu (rest := rest) hc ps k ds _ hps hlen).mono ?_
    rintro _ ⟨ds', ms', rfl, h⟩
    exact ⟨ds', m :: ms', by simp, m, ms', rfl, hm.1, hm.2.1, hm.2.2.1, hm.2.2.2, h⟩

/-! ### `@property` -/

/-- A descriptor without its semicolon. -/
def descriptorBody (d : DescriptorText) : List Cursor := [d.name, d.colon, match d.value with | .syntax c | .inherits _ c => c]

theorem descriptors_text (ds : List DescriptorText) : (ds.map DescriptorText.tokens).flatten = textOf descriptorBody DescriptorText.semicolon ds := rfl

theorem descriptorsFit_at {ds : List DescriptorText} (h : DescriptorsFit src ds) : ∀ {d : DescriptorText} {b : List DescriptorText}, d :: b <:+ ds → d.Fits src ∧ (d.semicolon = none → b = []) := by
  induction ds with
  | nil => intro d b hb; exact absurd (List.suffix_nil.mp hb) (by simp)
  | cons e ds ih =>
    intro d b hb
    rcases List.suffix_cons_iff.mp hb with hb | hb
    · cases hb; exact ⟨h.1, h.2.1⟩
    · exact ih h.2.2 hb

theorem descriptor_walks {fuel : Nat} {d : DescriptorText} {c : Cursor} {rest : List Cursor} (hd : d.Fits src) (hc : IsKind .rightCurly c ∨ IsKind .semicolon c) :
    Walks src n (descriptorBody d ++ c :: rest) (propertyRuleProperty fuel) (c :: rest) fun x => x.name = d.name ∧ x.colon = d.colon ∧ x.important = none ∧
      x.value = match d.value with
        | .syntax c => .syntax c
        | .inherits k c => .inherits k c := by
  obtain ⟨h1, h2, h3, h4, h5⟩ := hd
  have hv : Yields src ((match d.value with | .syntax c | .inherits _ c => c) :: c :: rest) (propertyRuleValue fuel d.name) (c :: rest) fun v => v = match d.value with
        | .syntax c => .syntax c
        | .inherits k c => .inherits k c := by
    unfold propertyRuleValue
    cases hd : d.value with
    | «syntax» x =>
      rw [hd] at h5
      refine Yields.test (Exactly.words.yes h2 (Among.words.mpr ⟨h1, c!"syntax", by decide, h5.1⟩)) (Yields.pos rfl (Yields.bind (build_yields h5.1 (by decide)) ?_))
      rintro _ rfl
      refine Yields.neg (by decide) (Yields.neg (by decide) ?_)
      refine Yields.bind (Yields.tok (P' := fun y => y = x) ((Tests.kind).congr h5.2) rfl) ?_
      rintro _ rfl
      exact Yields.pure rfl
    | inherits k x =>
      rw [hd] at h5
      refine Yields.test (Exactly.words.yes h2 (Among.words.mpr ⟨h1, c!"inherits", by decide, h5.1⟩)) (Yields.pos rfl (Yields.bind (build_yields h5.1 (by decide)) ?_))
      rintro _ rfl
      refine Yields.neg (by decide) (Yields.pos (by decide) ?_)
      refine Yields.bind (keyword_yields' h5.2.1.1 h5.2.1.2.1 h5.2.2 h5.2.1.2.2) ?_
      rintro _ rfl
      exact Yields.pure rfl
  refine Yields.walks ?_
  unfold propertyRuleProperty descriptorBody
  refine Yields.bind (ts1 := c :: rest) (P := fun x => x.name = d.name ∧ x.colon = d.colon ∧ x.important = none ∧
      x.value = match d.value with
        | .syntax c => .syntax c
        | .inherits k c => .inherits k c) ?_ ?_
  · unfold declarationOf
    refine Yields.bind (Yields.tok (P' := fun y => y = d.name) ((Tests.kind).congr h1) rfl) ?_
    rintro _ rfl
    refine Yields.test Tests.pure (Yields.neg (by simp) ?_)
    refine Yields.bind (Yields.tok (P' := fun y => y = d.colon) ((Tests.kind).congr h3) rfl) ?_
    rintro _ rfl
    refine Yields.bind hv ?_
    intro v hv
    refine Yields.bind (ending_yields (.plain hc)) ?_
    rintro _ rfl
    exact Yields.pure ⟨rfl, rfl, rfl, hv⟩
  · rintro ⟨nm, co, v, im⟩ ⟨rfl, rfl, rfl, rfl⟩
    exact Yields.pure ⟨rfl, rfl, rfl, rfl⟩

/-! ### The rules -/

theorem font_mem {m : List Char} (h : m ∈ fontDescriptors) : m ∈ FONT_FACE_NAMES := by
  have : ∀ m ∈ fontDescriptors, m ∈ FONT_FACE_NAMES := by decide
  exact this m h

/-- The parser of the at-rule. -/
def leafParser (rule : Prog (CssRule Val)) (fuel : Nat) : LeafRule → Prog (CssRule Val)
  | .layers .. => layerRule rule fuel
  | .fontFace .. => fontFaceRule realValues fuel
  | .keyframes w .. => if w then webkitKeyframesRule realValues fuel else keyframesRule realValues fuel
  | .page .. => pageRule realValues fuel
  | .property .. => propertyRule fuel

theorem Spec.Each.mono {α β : Type} {R S : α → β → Prop} (h : ∀ a b, R a b → S a b) : ∀ {as : List α} {bs : List β}, Each R as bs → Each S as bs
  | [], [], _ => trivial
  | a :: as, b :: bs, ⟨h1, h2⟩ => ⟨h a b h1, Spec.Each.mono h h2⟩

theorem frames_walks {fuel : Nat} (hfu : n ≤ fuel) {fs : List FrameText} {o close : Cursor} {rest : List Cursor} (ho : IsKind .leftCurly o) (hf : ∀ f ∈ fs, f.Fits src) (hc : IsKind .rightCurly close) :
    Walks src n (o :: ((fs.map FrameText.tokens).flatten ++ close :: rest)) (ruleList (keyframe realValues fuel) fuel) rest
      fun b => b.opening = o ∧ Each FrameText.Becomes fs b.items ∧ b.close = some close := by
  refine Walks.room fun hlen => ?_
  have e : (fs.map FrameText.tokens).flatten = textOf FrameText.tokens (fun _ => none) fs := by simp [textOf]
  unfold ruleList
  rw [e] at hlen ⊢
  refine Walks.tok ((Tests.kind).congr ho) (Walks.bind (ruleLoop_walks (B := FrameText.Becomes) hc fs fuel [] none nofun (fun f h => ?_) (fun _ _ => nofun) (fun f b hb => ?_) ?_) ?_)
  · obtain ⟨c, r, h1, _, h2⟩ := frame_first (hf f h)
    exact ⟨c, r, h1, h2⟩
  · exact keyframe_walks hfu (hf f (hb.subset (.head _)))
  · simp only [List.length_cons, List.length_append] at hlen
    omega
  rintro _ ⟨xs, rfl, hx⟩
  exact Walks.pure ⟨rfl, hx, rfl⟩

theorem called_test {name : List Char} {a : Cursor} (h : AtCalled src name a) : Tests src (nameTest (some name) a) true := Tests.eqCase h.2.2

theorem leaf_walks {rule : Prog (CssRule Val)} {fuel : Nat} (hfu : n ≤ fuel) {l : LeafRule} {rest : List Cursor} (hl : l.Fits src) :
    Walks src n (l.tokens ++ rest) (leafParser rule fuel l) rest l.Becomes := by
  cases l with
  | layers a ns s =>
    obtain ⟨ha, hn, hs⟩ := hl
    have e : (LeafRule.layers a ns s).tokens ++ rest = a :: (pairsCursors LayerName.cursors ns ++ s :: rest) := by simp [LeafRule.tokens]
    obtain ⟨c, r, h1, h2⟩ := listed_first (cur := LayerName.cursors) (Q := fun c => c.token.inSet KindSet.LEFT_CURLY_OR_SEMICOLON = false)
      (fun l hl => ⟨_, _, rfl, not_in hl.1 (by decide) (by decide)⟩) hn
    have hp := layers_walks (src := src) (rest := rest) hfu hn (.inr hs)
    rw [e]
    unfold leafParser layerRule
    rw [h1] at hp ⊢
    refine Walks.bind (atRule_walks ha.1 (called_test ha) (atRuleRest_some (Q := fun b => b = .inl s) (ts' := rest) h2 hp ?_)) ?_
    · have ht := (Tests.kind (src := src)).congr hs
      refine Walks.bind (Yields.walks (Yields.ifPeek_some (P := fun x => x = s) ht (Yields.tok ht rfl))) ?_
      rintro _ ⟨_, rfl, rfl⟩
      exact Walks.pure rfl
    · rintro ⟨_, _, _⟩ ⟨rfl, ⟨_, rfl, rfl⟩, rfl⟩
      exact Walks.pure rfl
  | fontFace a o ds c =>
    obtain ⟨ha, ho, hd, hn, hc⟩ := hl
    have e : (LeafRule.fontFace a o ds c).tokens ++ rest = a :: o :: (declsTokens ds ++ c :: rest) := by simp [LeafRule.tokens]
    rw [e]
    unfold leafParser fontFaceRule
    refine Walks.bind (atRule_walks ha.1 (called_test ha) (atRuleRest_none (leftCurly_in ho) (Q := fun b => b.opening = o ∧ Each DeclText.Becomes ds b.items ∧ b.close = some c) (ts' := rest) ?_)) ?_
    · refine Walks.room fun hlen => ?_
      unfold ruleList
      rw [declsTokens_text] at hlen ⊢
      refine Walks.tok ((Tests.kind).congr ho) (Walks.bind (ruleLoop_walks (B := DeclText.Becomes) hc ds fuel [] none nofun (decl_first hd) (decl_semi hd) (fun d b hb => decl_item hfu hd hc hb ?_) ?_) ?_)
      · have hf := (declsFit_at hd hb).1.name
        exact Exactly.words.yes hf.2.2 (Among.words.mpr ⟨hf.1, _, font_mem (hn d (hb.subset (.head _))), hf.2.1⟩)
      · simp only [List.length_cons, List.length_append] at hlen
        omega
      rintro _ ⟨xs, rfl, hx⟩
      exact Walks.pure ⟨rfl, hx, rfl⟩
    · rintro ⟨_, _, ⟨_, _, _⟩⟩ ⟨rfl, _, rfl, h, rfl⟩
      exact Walks.pure ⟨_, rfl, h⟩
  | keyframes w a nm o fs c =>
    obtain ⟨ha, hnm, ho, hf, hc⟩ := hl
    have e : (LeafRule.keyframes w a nm o fs c).tokens ++ rest = a :: nm :: o :: ((fs.map FrameText.tokens).flatten ++ c :: rest) := by simp [LeafRule.tokens]
    rw [e]
    have hin : nm.token.inSet KindSet.LEFT_CURLY_OR_SEMICOLON = false := by
      rcases hnm with h | h
      · exact not_in h (by decide) (by decide)
      · exact not_in h.1 (by decide) (by decide)
    have hb := frames_walks hfu (rest := rest) ho hf hc
    have hn := (keyframesName_yields (src := src) (rest := o :: ((fs.map FrameText.tokens).flatten ++ c :: rest)) hnm).walks (n := n)
    cases w with
    | true =>
      unfold leafParser webkitKeyframesRule
      refine Walks.pos rfl ?_
      refine Walks.offset fun start => ?_
      refine Walks.bind (atRule_walks ha.1 (called_test ha) (atRuleRest_some hin hn hb)) ?_
      rintro ⟨_, _, ⟨_, _, _⟩⟩ ⟨rfl, ⟨_, rfl, rfl⟩, rfl, h, rfl⟩
      exact Walks.pure ⟨_, rfl, h⟩
    | false =>
      unfold leafParser keyframesRule
      refine Walks.neg (by decide) ?_
      refine Walks.bind (atRule_walks ha.1 (called_test ha) (atRuleRest_some hin hn hb)) ?_
      rintro ⟨_, _, ⟨_, _, _⟩⟩ ⟨rfl, ⟨_, rfl, rfl⟩, rfl, h, rfl⟩
      exact Walks.pure ⟨_, rfl, h⟩
  | page a ss o ps c =>
    obtain ⟨ha, hs, ho, hps, hc⟩ := hl
    have e : (LeafRule.page a ss o ps c).tokens ++ rest = a :: (pairsCursors PageSel.cursors ss ++ o :: ((ps.map PagePart.tokens).flatten ++ c :: rest)) := by simp [LeafRule.tokens]
    rw [e]
    have hb : Walks src n (o :: ((ps.map PagePart.tokens).flatten ++ c :: rest)) (declarationRuleList (Hdx.property realValues fuel) (marginRule realValues fuel) fuel) rest
        fun b => b.opening = o ∧ PartsBecome ps b.declarations b.rules ∧ b.close = some c := by
      refine Walks.room fun hlen => ?_
      unfold declarationRuleList
      refine Walks.tok ((Tests.kind).congr ho) (Walks.bind (pageLoop_walks hfu hc ps fuel [] [] hps ?_) ?_)
      · simp only [List.length_cons, List.length_append] at hlen
        omega
      rintro _ ⟨ds', ms', rfl, h⟩
      exact Walks.pure ⟨rfl, h, rfl⟩
    unfold leafParser pageRule
    rcases hs with rfl | hs
    · refine Walks.bind (atRule_walks ha.1 (called_test ha) (atRuleRest_none (leftCurly_in ho) hb)) ?_
      rintro ⟨_, _, ⟨_, _, _, _⟩⟩ ⟨rfl, rfl, rfl, h, rfl⟩
      exact Walks.pure ⟨_, _, rfl, h⟩
    · have hp := commaPrelude_walks (src := src) (n := n) (rest := (ps.map PagePart.tokens).flatten ++ c :: rest) hfu (.inl ho) (cur := PageSel.cursors) (fun s hs => pageSelector_first hs)
        (fun s hs d r hd => pageSelector_walks hfu hs (after_item (.inl ho) hd (by decide) (by decide) (by decide) (by decide)) (after_item (.inl ho) hd (by decide) (by decide) (by decide) (by decide))) hs
      obtain ⟨x, r, h1, h2⟩ := listed_first (cur := PageSel.cursors) (fun s hs => pageSelector_first hs) hs
      have hne : ss ≠ [] := by rintro rfl; exact hs
      rw [h1] at hp ⊢
      refine Walks.bind (atRule_walks ha.1 (called_test ha) (atRuleRest_some h2 hp hb)) ?_
      rintro ⟨_, _, ⟨_, _, _, _⟩⟩ ⟨rfl, ⟨_, rfl, rfl⟩, rfl, h, rfl⟩
      refine Walks.pure ⟨_, _, ?_, h⟩
      rw [if_neg (by simpa using hne)]
  | property a nm o ds c =>
    obtain ⟨ha, hnm, ho, hd, hc⟩ := hl
    have e : (LeafRule.property a nm o ds c).tokens ++ rest = a :: nm :: o :: ((ds.map DescriptorText.tokens).flatten ++ c :: rest) := by simp [LeafRule.tokens]
    rw [e]
    have hb : Walks src n (o :: ((ds.map DescriptorText.tokens).flatten ++ c :: rest)) (declarationList (propertyRuleProperty fuel) fuel) rest
        fun b => b.opening = o ∧ Each DescriptorText.Becomes ds b.items ∧ b.close = some c := by
      refine Walks.room fun hlen => ?_
      unfold declarationList
      rw [descriptors_text] at hlen ⊢
      refine Walks.tok ((Tests.kind).congr ho) (Walks.bind (declarationLoop_walks (B := fun d x => x.name = d.name ∧ x.colon = d.colon ∧ x.important = none ∧
        x.value = match d.value with
          | .syntax c => .syntax c
          | .inherits k c => .inherits k c) hc ds fuel [] ?_ ?_ ?_ ?_) ?_)
      · intro d h
        obtain ⟨x, y, rfl⟩ := List.append_of_mem h
        have hf := (descriptorsFit_at hd (List.suffix_append x (d :: y))).1
        exact ⟨_, _, rfl, not_kind hf.1 (by decide) (by decide) (by decide), not_kind hf.1 (by decide) (by decide) (by decide)⟩
      · intro d h
        obtain ⟨x, y, rfl⟩ := List.append_of_mem h
        exact (descriptorsFit_at hd (List.suffix_append x (d :: y))).1.2.2.2.1
      · intro d b hb
        obtain ⟨hf, hl⟩ := descriptorsFit_at hd hb
        cases hs : d.semicolon with
        | none =>
          rw [hl hs]
          exact descriptor_walks hf (.inl hc)
        | some s => exact descriptor_walks hf (.inr (hf.2.2.2.1 s hs))
      · simp only [List.length_cons, List.length_append] at hlen
        omega
      rintro _ ⟨xs, rfl, hx⟩
      refine Walks.pure ⟨rfl, ?_, rfl⟩
      rw [List.nil_append]
      exact Each.mono (fun d x h => ⟨h.2, h.1⟩) hx
    have hdash : isDashed nm = true := by unfold isDashed; rw [Bool.and_eq_true]; exact hnm
    unfold leafParser propertyRule
    refine Walks.bind (atRule_walks ha.1 (called_test ha) (atRuleRest_some (P := fun x => x = nm) (not_in hnm.1 (by decide) (by decide)) (Yields.tok (P' := fun x => x = nm) (Tests.pure.congr hdash) rfl).walks hb)) ?_
    rintro ⟨_, _, ⟨_, _, _⟩⟩ ⟨rfl, ⟨_, rfl, rfl⟩, rfl, h, rfl⟩
    exact Walks.pure ⟨_, rfl, h⟩

end
end Hdx

/-
Declarations are read.
-/
import Verif.Spec.DeclSyntax
import Verif.Lemmas.Walks

namespace Hdx
open Spec Prog

section
variable {src : List Char}

theorem not_kind {k l : Kind} {c : Cursor} (h : IsKind k c) (hk : k ≠ .eof) (hl : l ≠ .eof) (hne : k ≠ l) : c.token.isKind l = false := by
  cases h' : c.token.isKind l
  · rfl
  · exact absurd (((isKind_iff hk).mp h).symm.trans ((isKind_iff hl).mp h')) (fun e => hne (by cases e; rfl))

theorem undashed {name : Cursor} {n : List Char} (hi : IsKind .ident name) (hcl : Clear src name) (hn : Named src name n) (hd : ¬ ['-', '-'] <+: n) : name.token.isDashedIdent = false := by
  cases hd' : name.token.isDashedIdent
  · rfl
  · obtain ⟨s, hs, _, _, h4⟩ := hcl (.inl hi)
    cases hs.same hn
    exact absurd (h4 hi hd') hd

theorem keyword_yields' {names : List (List Char)} {k : List Char} {c : Cursor} {rest : List Cursor} (hi : IsKind .ident c) (hn : Named src c k) (hc : Clear src c) (hk : k ∈ names) :
    Yields src (c :: rest) (keyword names) rest fun x => x = (k, c) := by
  unfold keyword
  refine Yields.bind (Yields.tok (P' := fun x => x = c) (Exactly.words.yes hc (Among.words.mpr ⟨hi, k, hk, hn⟩)) rfl) fun x hx => ?_
  subst hx
  intro p hp
  exact ⟨(k, x), p, [], gives_buildKeyword.mpr ⟨rfl, rfl, k, by rw [hp.source]; exact hn, List.contains_iff_mem.mpr hk, rfl⟩, hp, rfl⟩

theorem value_walks {n fuel : Nat} (hfu : n ≤ fuel) {name c : Cursor} {nm : List Char} {v : ValueText} {rest : List Cursor} (hi : IsKind .ident name) (hn : Named src name nm) (hcl : Clear src name)
    (hv : v.Fits src name nm) (hc : ValueOver c) (hraw : v.raw = true → IsKind .rightCurly c ∨ IsKind .semicolon c) :
    Walks src n (v.tokens ++ c :: rest) (styleValue realValues fuel name) (c :: rest) (v.Becomes nm) := by
  cases v with
  | typed w => exact (styleValue_yields hi hcl hn hv hc).walks
  | wide k d =>
    obtain ⟨h1, h2, h3, h4, h5⟩ := hv
    refine Yields.walks ?_
    unfold styleValue
    rw [if_neg (by rw [undashed hi hcl hn h5]; decide)]
    refine Yields.bind (Yields.ifPeek_some (Exactly.words.yes h3 (Among.words.mpr ⟨h1, k, h4, h2⟩)) (keyword_yields' h1 h2 h3 h4)) ?_
    rintro _ ⟨_, rfl, rfl⟩
    exact Yields.pure rfl
  | custom w =>
    unfold styleValue
    refine Walks.pos hv.1 (Walks.bind (rawValue_walks hfu hv.2 (hraw rfl)) fun vs h => Walks.pure ⟨vs, rfl, h⟩)
  | computed w =>
    obtain ⟨h1, h2, f, hf, hk, hfc, hnm⟩ := hv
    obtain ⟨w', rfl⟩ : ∃ w', w = f :: w' := by cases w with
      | nil => cases hf
      | cons x xs => cases hf; exact ⟨xs, rfl⟩
    unfold styleValue
    refine Walks.neg (by rw [undashed hi hcl hn h1]; decide) ?_
    refine Walks.bind (Yields.walks (Yields.ifPeek_none (Exactly.no Exactly.words hfc ?_))) ?_
    · rw [Among.words]
      exact fun h => IsKind.other h.1 (by decide) (by decide) (by decide) hk
    rintro _ rfl
    dsimp only
    refine Walks.peek (Walks.test (Exactly.yes Exactly.funcs hfc (Among.funcs.mpr ⟨hk, hnm⟩)) (Walks.pos rfl ?_))
    exact Walks.bind (rawValue_walks hfu h2 (hraw rfl)) fun vs h => Walks.pure ⟨vs, rfl, h⟩
  | unknown w =>
    obtain ⟨h1, hun, h2, hf⟩ := hv
    obtain ⟨f, w', e, hfc, hwide, hcomp⟩ : ∃ f w', w ++ c :: rest = f :: w' ∧ Clear src f ∧ (IsKind .ident f → ∀ k ∈ WIDE_KEYWORDS, ¬ Named src f k) ∧ (IsKind .function f → ∀ k ∈ computing, ¬ Named src f k) := by
      cases w with
      | nil =>
        refine ⟨c, rest, rfl, valueOver_clear hc, ?_, ?_⟩ <;> intro hk <;> exfalso <;> rcases hraw rfl with h | h <;> exact IsKind.other h (by decide) (by decide) (by decide) hk
      | cons x xs => exact ⟨x, _, rfl, hf x rfl⟩
    have hnc : Tests src (isComputed f) false := by
      refine Exactly.no Exactly.funcs hfc ?_
      rw [Among.funcs]
      rintro ⟨h, k, hk, h'⟩
      exact hcomp h k hk h'
    have key : Walks src n (f :: w') (rawValue fuel) (c :: rest) (ReadsAs w) := by rw [← e]; exact rawValue_walks hfu h2 (hraw rfl)
    show Walks src n (w ++ c :: rest) _ _ _
    rw [e]
    unfold styleValue
    refine Walks.neg (by rw [undashed hi hcl hn h1]; decide) ?_
    refine Walks.bind (Yields.walks (Yields.ifPeek_none (Exactly.no Exactly.words hfc ?_))) ?_
    · rw [Among.words]
      rintro ⟨h, k, hk, h'⟩
      exact hwide h k hk h'
    rintro _ rfl
    dsimp only
    refine Walks.peek (Walks.test hnc (Walks.neg (by decide) ?_))
    refine Walks.undo (b := .inr false) ?_ rfl ?_
    · intro p hp
      have hno : Tests src (isKeyword realValues.names name) false := by
        refine Exactly.no Exactly.words hcl ?_
        rw [Among.words]
        rintro ⟨_, k, hk, h'⟩
        cases hn.same h'
        obtain ⟨row, hr, hr'⟩ := List.mem_map.mp hk
        exact hun row hr hr'
      unfold typedValue
      refine gives_seq (w1 := []) (hno hp.source) ?_
      rw [if_neg (by decide)]
      exact gives_of_peek hp.peek (gives_seq (w1 := []) (hnc hp.source) (gives_pure.mpr ⟨rfl, rfl, rfl⟩))
    · exact Walks.bind (ts1 := f :: w') (Q := _) (P := fun r => r = .inr false) (fun p hp _ => ⟨_, p, [], gives_ofResult.mpr ⟨rfl, rfl, rfl⟩, hp, rfl⟩) (by
        rintro _ rfl
        exact Walks.bind key fun vs h => Walks.pure ⟨vs, rfl, h⟩)

theorem Spec.Ending.kind {c : Cursor} {r X : List Cursor} (h : Ending src none (c :: r) X) : IsKind .rightCurly c ∨ IsKind .semicolon c := by
  cases h
  assumption

theorem decl_ending {d : DeclText} {rest : List Cursor} (hd : d.Fits src) (hr : d.semicolon = none → ∃ c more, rest = c :: more ∧ IsKind .rightCurly c) :
    Ending src d.important (importantTokens d.important ++ (d.semicolon.toList ++ rest)) (d.semicolon.toList ++ rest) := by
  cases hi : d.important with
  | some b =>
    obtain ⟨h1, h2, h3⟩ := hd.important b hi
    exact .important h1 h2 h3
  | none =>
    cases hs : d.semicolon with
    | some s => exact .plain (.inr (hd.semicolon s hs))
    | none =>
      obtain ⟨c, more, rfl, hc⟩ := hr hs
      exact .plain (.inl hc)

/-- A declaration, up to the semicolon. -/
theorem decl_walks {n : Nat} {valid : Cursor → Prog Bool} {fuel : Nat} (hfu : n ≤ fuel) {d : DeclText} {rest : List Cursor} (hv : Tests src (valid d.name) true) (hd : d.Fits src)
    (hr : d.semicolon = none → ∃ c more, rest = c :: more ∧ IsKind .rightCurly c) :
    Walks src n (d.tokens ++ rest) (declarationOf valid (styleValue realValues fuel)) (d.semicolon.toList ++ rest) d.Becomes := by
  have e : d.tokens ++ rest = d.name :: d.colon :: (d.value.tokens ++ (importantTokens d.important ++ (d.semicolon.toList ++ rest))) := by simp [DeclText.tokens]
  have ht := decl_ending hd hr
  rw [e]
  unfold declarationOf
  refine Walks.bind (P := fun c => c = d.name) (Yields.tok (P' := fun c => c = d.name) ((Tests.kind).congr hd.name.1) rfl).walks ?_
  rintro _ rfl
  refine Walks.test hv ?_
  refine Walks.neg (by decide) ?_
  refine Walks.bind (P := fun c => c = d.colon) (Yields.tok (P' := fun c => c = d.colon) ((Tests.kind).congr hd.colon) rfl).walks ?_
  rintro _ rfl
  obtain ⟨c, r, e2, hc⟩ := ht.over
  rw [e2] at ht ⊢
  refine Walks.bind (value_walks hfu hd.name.1 hd.name.2.1 hd.name.2.2 hd.value hc fun hr => ?_) ?_
  · rw [hd.raw hr] at ht
    exact ht.kind
  intro v hv
  refine Walks.bind (ending_yields ht).walks ?_
  rintro _ rfl
  exact .pure ⟨rfl, rfl, rfl, hv⟩

end
end Hdx

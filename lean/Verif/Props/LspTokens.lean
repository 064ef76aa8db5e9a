/-
Property C45: semantic tokens.
-/
import Verif.Spec.Lsp
import Verif.Props.Decode

namespace Hdx.Lsp
open Hdx.Spec Hdx.Lsp.Spec

/-! ## C45 Semantic tokens -/

theorem lineOf_append (a b : List Char) : lineOf (a ++ b) = lineOf a + lineOf b := by simp [lineOf]

theorem columnOf_append {a b : List Char} (h : '\n' ∉ b) : columnOf (a ++ b) = columnOf a + b.length := by
  have hr : ∀ x ∈ b.reverse, decide (x ≠ '\n') = true := by
    intro x hx
    simp only [List.mem_reverse] at hx
    simp only [decide_eq_true_eq]
    rintro rfl; exact h hx
  simp only [columnOf, List.reverse_append]
  rw [List.takeWhile_append_of_pos hr, List.length_append, List.length_reverse]; omega

theorem columnOf_newline (a b : List Char) : columnOf (a ++ '\n' :: b) = columnOf b := by
  by_cases h : '\n' ∈ b
  · obtain ⟨x, y, rfl, hy⟩ : ∃ x y, b = x ++ '\n' :: y ∧ '\n' ∉ y := by
      induction b with
      | nil => simp at h
      | cons c b ih =>
        by_cases hb : '\n' ∈ b
        · obtain ⟨x, y, h1, h2⟩ := ih hb
          exact ⟨c :: x, y, by rw [h1]; rfl, h2⟩
        · rcases List.mem_cons.mp h with h | h
          · exact ⟨[], b, by rw [h]; rfl, hb⟩
          · exact absurd h hb
    have key : ∀ z : List Char, columnOf (z ++ '\n' :: y) = y.length := by
      intro z
      have : z ++ '\n' :: y = (z ++ ['\n']) ++ y := by simp
      rw [this, columnOf_append hy]
      simp [columnOf]
    rw [key, ← List.cons_append, ← List.append_assoc, key]
  · have e : a ++ '\n' :: b = (a ++ ['\n']) ++ b := by simp
    have e2 : columnOf b = columnOf ([] ++ b) := rfl
    rw [e, columnOf_append h, e2, columnOf_append h]
    simp [columnOf]

/-- Later positions are later. -/
theorem lineCol_mono {a m : List Char} : lineOf a ≤ lineOf (a ++ m) ∧ (lineOf a = lineOf (a ++ m) → columnOf a ≤ columnOf (a ++ m)) := by
  refine ⟨by rw [lineOf_append]; omega, fun h => ?_⟩
  have : '\n' ∉ m := by
    rw [lineOf_append] at h
    rw [← List.count_eq_zero]
    simp only [lineOf] at h; omega
  rw [columnOf_append this]; omega

theorem prefix_of_le {a b a' b' : List Char} (h : a ++ b = a' ++ b') (hl : byteLen a ≤ byteLen a') : ∃ m, a' = a ++ m := by
  rw [List.append_eq_append_iff] at h
  rcases h with ⟨m, h1, _⟩ | ⟨m, h1, _⟩
  · exact ⟨m, h1⟩
  · refine ⟨[], ?_⟩
    subst h1
    rw [byteLen_eq, byteLen_eq, utf8Len_append] at hl
    have : m = [] := Classical.byContradiction fun hm => by have := utf8Len_pos hm; omega
    simp [this]

/-- A span starts on a character boundary of the source. -/
def StartsAt (source : List Char) (s : Span) (pre : List Char) : Prop := ∃ post, source = pre ++ post ∧ s.start = byteLen pre

theorem deltas_ok {source : List Char} : ∀ (hs : List Highlight) {pre0 post0 : List Char}, source = pre0 ++ post0 →
    hs.Pairwise (fun a b => a.span.start ≤ b.span.start) → (∀ h ∈ hs, byteLen pre0 ≤ h.span.start ∧ ∃ pre, StartsAt source h.span pre) →
    ∃ data, deltas source (lineOf pre0) (columnOf pre0) hs = .ok data ∧ data.map (·.1) = hs
      ∧ (decodeDeltas ⟨lineOf pre0, columnOf pre0⟩ (data.map (·.2))).length = data.length
      ∧ ∀ x ∈ data.zip (decodeDeltas ⟨lineOf pre0, columnOf pre0⟩ (data.map (·.2))), ∃ pre, StartsAt source x.1.1.span pre ∧ x.2 = ⟨lineOf pre, columnOf pre⟩
  | [], _, _, _, _, _ => ⟨[], rfl, rfl, rfl, by simp⟩
  | h :: hs, pre0, post0, e0, hp, hb => by
    obtain ⟨hle, pre, post, e, hst⟩ := hb h (by simp)
    obtain ⟨m, rfl⟩ := prefix_of_le (a := pre0) (b := post0) (a' := pre) (b' := post) (by rw [← e0, e]) (by rw [← hst]; exact hle)
    obtain ⟨m1, m2⟩ := lineCol_mono (a := pre0) (m := m)
    have hrest : ∀ h' ∈ hs, byteLen (pre0 ++ m) ≤ h'.span.start ∧ ∃ pre, StartsAt source h'.span pre := by
      intro h' hh'
      refine ⟨?_, (hb h' (by simp [hh'])).2⟩
      rw [← hst]
      exact (List.pairwise_cons.mp hp).1 h' hh'
    obtain ⟨data, d1, d2, d3, d4⟩ := deltas_ok hs e (List.pairwise_cons.mp hp).2 hrest
    have hlc : h.span.lineAndColumn source = .ok (lineOf (pre0 ++ m), columnOf (pre0 ++ m)) := by
      have := C27_value (pre0 ++ m) post h.span.stop
      rw [← hst, ← e] at this
      exact this
    have hnu : (decide (lineOf (pre0 ++ m) - lineOf pre0 = 0) && decide (columnOf (pre0 ++ m) < columnOf pre0)) = false := by
      by_cases hz : lineOf (pre0 ++ m) - lineOf pre0 = 0
      · have := m2 (by omega); simp; omega
      · simp [hz]
    have hq : (⟨lineOf pre0 + (lineOf (pre0 ++ m) - lineOf pre0), if lineOf (pre0 ++ m) - lineOf pre0 = 0 then
        columnOf pre0 + (if lineOf (pre0 ++ m) - lineOf pre0 = 0 then columnOf (pre0 ++ m) - columnOf pre0 else columnOf (pre0 ++ m))
        else (if lineOf (pre0 ++ m) - lineOf pre0 = 0 then columnOf (pre0 ++ m) - columnOf pre0 else columnOf (pre0 ++ m))⟩ : Position)
        = ⟨lineOf (pre0 ++ m), columnOf (pre0 ++ m)⟩ := by
      by_cases hz : lineOf (pre0 ++ m) - lineOf pre0 = 0
      · have := m2 (by omega)
        simp only [hz, if_true, Position.mk.injEq]; omega
      · simp only [hz, if_false, Position.mk.injEq, and_true]; omega
    refine ⟨(h, lineOf (pre0 ++ m) - lineOf pre0, if lineOf (pre0 ++ m) - lineOf pre0 = 0 then columnOf (pre0 ++ m) - columnOf pre0 else columnOf (pre0 ++ m)) :: data, ?_, ?_, ?_, ?_⟩
    · simp only [deltas, hlc]
      rw [if_neg (by omega), if_neg (by simpa using hnu), d1]
      simp [Except.map]
    · simp [d2]
    · simp only [List.map_cons, decodeDeltas, List.length_cons, hq, d3]
    · intro x hx
      simp only [List.map_cons, decodeDeltas, hq, List.zip_cons_cons, List.mem_cons] at hx
      rcases hx with rfl | hx
      · exact ⟨pre0 ++ m, ⟨post, e, hst⟩, rfl⟩
      · exact d4 x hx

/-- For every text and every set of highlights that start on character boundaries (in any order), there is no underflow; the data are
the highlights, sorted by span; and their deltas decode to the number of line feeds before each, and the number of characters since
the last one. -/
theorem C51_deltas {source : List Char} {hs : List Highlight} (hb : ∀ h ∈ hs, ∃ pre, StartsAt source h.span pre) :
    ∃ data, highlightData source hs = .ok data ∧ (data.map (·.1)).Perm hs ∧ (data.map (·.1)).Pairwise (fun a b => spanLe a.span b.span = true)
      ∧ (decodeDeltas ⟨0, 0⟩ (data.map (·.2))).length = data.length
      ∧ ∀ x ∈ data.zip (decodeDeltas ⟨0, 0⟩ (data.map (·.2))), ∃ pre, StartsAt source x.1.1.span pre ∧ x.2 = ⟨lineOf pre, columnOf pre⟩ := by
  have hpw : (hs.mergeSort fun a b => spanLe a.span b.span).Pairwise (fun a b => spanLe a.span b.span = true) := by
    refine List.pairwise_mergeSort ?_ ?_ hs
    · intro a b c
      simp only [spanLe, Bool.or_eq_true, Bool.and_eq_true, decide_eq_true_eq, beq_iff_eq]
      omega
    · intro a b
      simp only [spanLe, Bool.or_eq_true, Bool.and_eq_true, decide_eq_true_eq, beq_iff_eq]
      omega
  have hperm := List.mergeSort_perm hs fun a b => spanLe a.span b.span
  obtain ⟨data, d1, d2, d3, d4⟩ := deltas_ok (source := source) (hs.mergeSort fun a b => spanLe a.span b.span) (pre0 := []) (post0 := source) rfl
    (hpw.imp (by intro a b; simp only [spanLe, Bool.or_eq_true, Bool.and_eq_true, decide_eq_true_eq, beq_iff_eq]; omega))
    (fun h hh => ⟨Nat.zero_le _, hb h (hperm.mem_iff.mp hh)⟩)
  exact ⟨data, d1, d2 ▸ hperm, d2 ▸ hpw, d3, d4⟩

/-- Texts in which the server counts lines and columns as the protocol does: no characters outside the BMP, and no carriage return
that is not followed by a line feed. -/
structure SameCounting (source : List Char) : Prop where
  bmp : ∀ c ∈ source, c.toNat < 65536
  cr : ∀ a b, source = a ++ '\r' :: b → b.head? = some '\n'

theorem positionFrom_eq (p : Position) (l : List Char) (h1 : ∀ c ∈ l, c.toNat < 65536) (h2 : ∀ a b, l = a ++ '\r' :: b → b.head? = some '\n') :
    positionFrom p l = ⟨p.line + lineOf l, if '\n' ∈ l then columnOf l else p.character + l.length⟩ := by
  have nocr : ∀ {rest : List Char}, (∀ a b, '\r' :: rest = a ++ '\r' :: b → b.head? = some '\n') → rest.head? = some '\n' := fun h => h [] _ rfl
  fun_induction positionFrom p l with
  | case1 p => simp [lineOf]
  | case2 p rest ih =>
    rw [ih (fun c hc => h1 c (by simp [hc])) (fun a b e => h2 ('\r' :: '\n' :: a) b (by rw [e]; rfl))]
    have e1 : lineOf ('\r' :: '\n' :: rest) = lineOf rest + 1 := by simp [lineOf]
    have e2 : columnOf ('\r' :: '\n' :: rest) = columnOf rest := columnOf_newline ['\r'] rest
    have e3 : '\n' ∈ '\r' :: '\n' :: rest := by simp
    rw [if_pos e3, e1, e2]
    simp only [Position.mk.injEq]
    refine ⟨by omega, ?_⟩
    split
    · rfl
    · rename_i hn
      have := columnOf_append (a := []) (b := rest) hn
      simp [columnOf] at this ⊢; omega
  | case3 p rest ih =>
    rw [ih (fun c hc => h1 c (by simp [hc])) (fun a b e => h2 ('\n' :: a) b (by rw [e]; rfl))]
    have e1 : lineOf ('\n' :: rest) = lineOf rest + 1 := by simp [lineOf]
    have e2 : columnOf ('\n' :: rest) = columnOf rest := columnOf_newline [] rest
    have e3 : '\n' ∈ '\n' :: rest := by simp
    rw [if_pos e3, e1, e2]
    simp only [Position.mk.injEq]
    refine ⟨by omega, ?_⟩
    split
    · rfl
    · rename_i hn
      have := columnOf_append (a := []) (b := rest) hn
      simp [columnOf] at this ⊢; omega
  | case4 p rest hne ih =>
    have := h2 [] rest rfl
    cases rest with
    | nil => simp at this
    | cons c rest =>
      simp only [List.head?_cons, Option.some.injEq] at this
      subst this
      exact absurd rfl (hne rest)
  | case5 p c rest hn1 hn2 hn3 ih =>
    rw [ih (fun c hc => h1 c (by simp [hc])) (fun a b e => h2 (c :: a) b (by rw [e]; rfl))]
    have hc : c ≠ '\n' := fun e => hn2 e
    have hu : utf16Size c = 1 := by rw [utf16Size, if_pos (h1 c (by simp))]
    have e1 : lineOf (c :: rest) = lineOf rest := by simp [lineOf, List.count_cons_of_ne hc]
    simp only [Position.mk.injEq, e1, true_and]
    have e2 : ('\n' ∈ c :: rest) = ('\n' ∈ rest) := by simp [Ne.symm hc]
    simp only [e2, hu, List.length_cons]
    split
    · rename_i hm
      obtain ⟨x, y, rfl⟩ := List.append_of_mem hm
      rw [columnOf_newline, ← List.cons_append, columnOf_newline]
    · omega

theorem position_eq {pre : List Char} (h1 : ∀ c ∈ pre, c.toNat < 65536) (h2 : ∀ a b, pre = a ++ '\r' :: b → b.head? = some '\n') :
    position pre = ⟨lineOf pre, columnOf pre⟩ := by
  rw [position, positionFrom_eq _ _ h1 h2]
  simp only [Nat.zero_add, Position.mk.injEq, true_and]
  split
  · rfl
  · rename_i hn
    have := columnOf_append (a := []) (b := pre) hn
    simp [columnOf] at this ⊢; omega

/-- In texts that are counted alike, the deltas decode, as the protocol prescribes, to the position of every highlight, in the order
of the spans. Missing from the full C45: characters outside the BMP (`C45_counterexample`), lone carriage returns. -/
theorem C45_partial {source : List Char} {hs : List Highlight} (hsrc : SameCounting source)
    (hb : ∀ h ∈ hs, ∃ pre post, source = pre ++ post ∧ h.span.start = byteLen pre ∧ Cut pre post) :
    ∃ data, highlightData source hs = .ok data ∧ (data.map (·.1)).Perm hs ∧ (data.map (·.1)).Pairwise (fun a b => a.span.start ≤ b.span.start)
      ∧ (decodeDeltas ⟨0, 0⟩ (data.map (·.2))).length = data.length
      ∧ ∀ x ∈ data.zip (decodeDeltas ⟨0, 0⟩ (data.map (·.2))), ∃ pre post, source = pre ++ post ∧ byteLen pre = x.1.1.span.start ∧ x.2 = position pre := by
  obtain ⟨data, d1, d2, d3, d4, d5⟩ := C51_deltas (source := source) (hs := hs) fun h hh => by
    obtain ⟨pre, post, e1, e2, _⟩ := hb h hh
    exact ⟨pre, post, e1, e2⟩
  refine ⟨data, d1, d2, d3.imp (by intro a b; simp only [spanLe, Bool.or_eq_true, Bool.and_eq_true, decide_eq_true_eq, beq_iff_eq]; omega), d4, ?_⟩
  intro x hx
  obtain ⟨pre, ⟨post, e1, e2⟩, e3⟩ := d5 x hx
  have hm : x.1.1 ∈ hs := d2.mem_iff.mp (List.mem_map.mpr ⟨x.1, (List.of_mem_zip hx).1, rfl⟩)
  obtain ⟨pre', post', f1, f2, f3⟩ := hb _ hm
  have : pre' = pre := by
    obtain ⟨m, hm⟩ := prefix_of_le (a := pre) (b := post) (a' := pre') (b' := post') (by rw [← e1, f1]) (by omega)
    obtain ⟨m', hm'⟩ := prefix_of_le (a := pre') (b := post') (a' := pre) (b' := post) (by rw [← e1, f1]) (by omega)
    have := congrArg List.length hm
    have := congrArg List.length hm'
    simp only [List.length_append] at *
    have : m = [] := List.length_eq_zero_iff.mp (by omega)
    simp [hm, this]
  subst this
  refine ⟨pre', post', f1, f2.symm, ?_⟩
  rw [e3, position_eq (fun c hc => hsrc.bmp c (by rw [f1]; simp [hc]))]
  intro a b e
  cases b with
  | nil =>
    have h := hsrc.cr a post' (by rw [f1, e]; simp)
    exact absurd ⟨by rw [e]; simp, h⟩ f3
  | cons c b =>
    have h := hsrc.cr a (c :: b ++ post') (by rw [f1, e]; simp)
    simpa using h

/-- `a{b:c}` on two lines, with highlights given in another order. -/
example : highlightData c!"a{\r\nb:c}" [⟨14, 0, ⟨4, 5⟩⟩, ⟨1, 0, ⟨0, 1⟩⟩, ⟨18, 0, ⟨5, 6⟩⟩]
    = .ok [(⟨1, 0, ⟨0, 1⟩⟩, 0, 0), (⟨14, 0, ⟨4, 5⟩⟩, 1, 0), (⟨18, 0, ⟨5, 6⟩⟩, 0, 1)] := by
  have : ([⟨14, 0, ⟨4, 5⟩⟩, ⟨1, 0, ⟨0, 1⟩⟩, ⟨18, 0, ⟨5, 6⟩⟩] : List Highlight).mergeSort (fun a b => spanLe a.span b.span)
      = [⟨1, 0, ⟨0, 1⟩⟩, ⟨14, 0, ⟨4, 5⟩⟩, ⟨18, 0, ⟨5, 6⟩⟩] := by
    simp [List.mergeSort, List.MergeSort.Internal.splitInTwo, List.merge, spanLe]
  rw [highlightData, this]
  decide +kernel

/-- A character outside the BMP counts as one column, not two. -/
theorem C45_counterexample : highlightData c!"😀a" [⟨1, 0, ⟨4, 5⟩⟩] = .ok [(⟨1, 0, ⟨4, 5⟩⟩, 0, 1)] ∧ position c!"😀" = ⟨0, 2⟩ := by
  decide +kernel

/-- A span that starts inside a character - none of a parsed document does - would panic. -/
theorem C45_off_boundary : highlightData c!"é" [⟨1, 0, ⟨1, 2⟩⟩] = .error .underflow := by decide +kernel

end Hdx.Lsp

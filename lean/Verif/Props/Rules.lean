/-
Property C60: a style sheet's tree accounts for every token.
-/
import Verif.Spec.SheetText
import Verif.Lemmas.Writes
import Verif.Props.Features

namespace Hdx
open Spec Prog

theorem gives_attempt {α β : Type} {body : Prog β} {keep : Except Diag β → Bool} {k : Except Diag β → Prog α} {r : Except Diag α} {p p' : Parser}
    {w : List Cursor} : Gives (attempt body keep k) p r p' w ↔ ∃ r1 p1 w1 w2, Gives body p r1 p1 w1 ∧
      ((keep r1 = true ∧ w = w1 ++ w2 ∧ Gives (k r1) p1 r p' w2) ∨ (keep r1 = false ∧ w = w2 ∧ Gives (k r1) (p1.rewind p.checkpoint) r p' w2)) := by
  unfold Gives
  simp only [runLog]
  cases hb : body.runLog p with
  | error e => simp
  | ok y =>
    obtain ⟨r1, p1, w1⟩ := y
    simp only [Except.ok.injEq, Prod.mk.injEq]
    by_cases hk : keep r1 = true
    · simp only [hk, if_true]
      cases hf : (k r1).runLog p1 with
      | error e =>
        constructor
        · intro h; cases h
        · rintro ⟨_, _, _, _, ⟨rfl, rfl, rfl⟩, ⟨_, _, h⟩ | ⟨h, _⟩⟩
          · rw [hf] at h; cases h
          · rw [hk] at h; cases h
      | ok z =>
        obtain ⟨r2, p2, w2⟩ := z
        simp only [Except.map, Except.ok.injEq, Prod.mk.injEq]
        constructor
        · rintro ⟨rfl, rfl, rfl⟩
          exact ⟨_, _, _, w2, ⟨rfl, rfl, rfl⟩, .inl ⟨hk, rfl, hf⟩⟩
        · rintro ⟨_, _, _, _, ⟨rfl, rfl, rfl⟩, ⟨_, rfl, h⟩ | ⟨h, _⟩⟩
          · rw [hf] at h; cases h; exact ⟨rfl, rfl, rfl⟩
          · rw [hk] at h; cases h
    · have hk' : keep r1 = false := by simpa using hk
      simp only [hk', Bool.false_eq_true, if_false]
      constructor
      · intro h; exact ⟨_, _, _, w, ⟨rfl, rfl, rfl⟩, .inr ⟨hk', rfl, h⟩⟩
      · rintro ⟨_, _, _, _, ⟨rfl, rfl, rfl⟩, ⟨h, _⟩ | ⟨_, rfl, h⟩⟩
        · rw [hk'] at h; cases h
        · exact h

theorem gives_tryParse_ok {α : Type} {x : Prog α} {a : α} {p p' : Parser} {w : List Cursor} :
    Gives (tryParse x) p (.ok a) p' w ↔ Gives x p (.ok a) p' w := by
  unfold tryParse
  rw [gives_attempt]
  constructor
  · rintro ⟨r1, p1, w1, w2, h1, ⟨_, rfl, h⟩ | ⟨hk, rfl, h⟩⟩
    · obtain ⟨rfl, rfl, rfl⟩ := gives_ofResult.mp h; simpa using h1
    · obtain ⟨rfl, rfl, rfl⟩ := gives_ofResult.mp h; cases hk
  · intro h; exact ⟨_, _, w, [], h, .inl ⟨rfl, by simp, gives_ofResult.mpr ⟨rfl, rfl, rfl⟩⟩⟩

theorem gives_tryParse_error {α : Type} {x : Prog α} {d : Diag} {p p' : Parser} {w : List Cursor} :
    Gives (tryParse x) p (.error d) p' w ↔ w = [] ∧ ∃ p1 w1, Gives x p (.error d) p1 w1 ∧ p' = p1.rewind p.checkpoint := by
  unfold tryParse
  rw [gives_attempt]
  constructor
  · rintro ⟨r1, p1, w1, w2, h1, ⟨hk, rfl, h⟩ | ⟨hk, rfl, h⟩⟩
    · obtain ⟨rfl, rfl, rfl⟩ := gives_ofResult.mp h; cases hk
    · obtain ⟨rfl, rfl, rfl⟩ := gives_ofResult.mp h; exact ⟨rfl, _, _, h1, rfl⟩
  · rintro ⟨rfl, p1, w1, h, rfl⟩; exact ⟨_, _, w1, [], h, .inr ⟨rfl, rfl, gives_ofResult.mpr ⟨rfl, rfl, rfl⟩⟩⟩

theorem taken_kind {c : Cursor} {k : Kind} (hk : k ≠ .eof) (h : c.token.isKind k = true) : taken [c] = [strip c] := taken_one (isKind_notEof hk h)

theorem strip_plain {c : Cursor} {k : Kind} (hk : k ≠ .eof) (h : c.token.isKind k = true) (hs : PAIR_START.contains k = false)
    (he : PAIR_END.contains k = false) : strip c = c := by
  have hkk := (isKind_iff hk).mp h
  have h1 : c.token.kind ≠ .eof := by rw [hkk]; exact hk
  simp [strip, isBracket, inSet_kind h1, hkk, hs, he]

theorem kind_of_isKind {c : Cursor} {k : Kind} (hk : k ≠ .eof) (h : c.token.isKind k = true) : c.token.kind = k := (isKind_iff hk).mp h

/-- `parse_if_peek` of a node for one kind. -/
theorem gives_ifKind {k : Kind} {o : Option Cursor} {p p' : Parser} {w : List Cursor} (h : Gives (ifPeek (isKind k) (tok (isKind k))) p (.ok o) p' w) :
    w = o.toList ∧ ((∃ c, o = some c ∧ p.next = .ok (c, p') ∧ c.token.isKind k = true) ∨ (o = none ∧ p' = p)) := by
  replace h := gives_ifPeek.mp h
  obtain ⟨c, b, p1, w1, w2, hc, ht, rfl, h⟩ := h
  obtain ⟨_, rfl, rfl⟩ := gives_pure.mp ht
  rcases h with ⟨rfl, a, rfl, h⟩ | ⟨rfl, rfl, rfl, rfl⟩
  · obtain ⟨hn, rfl, hk⟩ := gives_isKind_ok.mp h
    exact ⟨rfl, .inl ⟨a, rfl, hn, hk⟩⟩
  · exact ⟨rfl, .inr ⟨rfl, rfl⟩⟩

/-- `parse_if_peek` of whitespace. -/
theorem gives_ifWs {o : Option Cursor} {p p' : Parser} {w : List Cursor} (h : Gives (ifPeek isWs whitespace) p (.ok o) p' w) :
    w = o.toList ∧ ((∃ c, o = some c ∧ c.token.isKind .whitespace = true) ∨ (o = none ∧ p' = p)) := by
  replace h := gives_ifPeek.mp h
  obtain ⟨c, b, p1, w1, w2, hc, ht, rfl, h⟩ := h
  obtain ⟨_, _, _, rfl, rfl⟩ := gives_ask.mp ht
  rcases h with ⟨rfl, a, rfl, h⟩ | ⟨rfl, rfl, rfl, rfl⟩
  · unfold whitespace at h
    replace h := gives_next.mp (gives_setSkip.mp h)
    obtain ⟨c, p1, w1, hn, h, rfl⟩ := h
    replace h := gives_ite.mp (gives_setSkip.mp h)
    rcases h with ⟨hk, h⟩ | ⟨hk, h⟩
    · obtain ⟨e, rfl, rfl⟩ := gives_pure.mp h
      cases e
      exact ⟨rfl, .inl ⟨a, rfl, hk⟩⟩
    · exact absurd h not_fail
  · exact ⟨rfl, .inr ⟨rfl, rfl⟩⟩

/-- The test does not change the parser. -/
def Looks (test : Cursor → Prog Bool) : Prop := ∀ {c p r p' w}, Gives (test c) p r p' w → p' = p ∧ w = []

theorem isBangImportant_looks : Looks isBangImportant := by
  intro c p r p' w h
  unfold isBangImportant at h
  replace h := gives_ite.mp h
  rcases h with ⟨_, h⟩ | ⟨_, h⟩
  · obtain ⟨_, _, _, rfl, rfl⟩ := gives_ask.mp h; exact ⟨rfl, rfl⟩
  · obtain ⟨_, rfl, rfl⟩ := gives_pure.mp h; exact ⟨rfl, rfl⟩

theorem isDeclaration_looks : Looks isDeclaration := by
  intro c p r p' w h
  unfold isDeclaration at h
  replace h := gives_ite.mp h
  rcases h with ⟨_, h⟩ | ⟨_, h⟩
  · rcases gives_bind.mp h with ⟨s, p1, w1, w2, h1, h2, rfl⟩ | ⟨d, h1, _⟩
    · obtain ⟨_, _, e, rfl, rfl⟩ := gives_peekN.mp h1
      obtain ⟨_, rfl, rfl⟩ := gives_pure.mp h2
      exact ⟨rfl, rfl⟩
    · obtain ⟨_, _, e, _⟩ := gives_peekN.mp h1; cases e
  · obtain ⟨_, rfl, rfl⟩ := gives_pure.mp h; exact ⟨rfl, rfl⟩

theorem gives_ifLooks {α : Type} {test : Cursor → Prog Bool} (ht : Looks test) {body : Prog α} {o : Option α} {p p' : Parser} {w : List Cursor}
    (h : Gives (ifPeek test body) p (.ok o) p' w) : (∃ a, o = some a ∧ Gives body p (.ok a) p' w) ∨ (o = none ∧ p' = p ∧ w = []) := by
  replace h := gives_ifPeek.mp h
  obtain ⟨c, b, p1, w1, w2, hc, h1, rfl, h⟩ := h
  obtain ⟨rfl, rfl⟩ := ht h1
  rcases h with ⟨rfl, a, rfl, h⟩ | ⟨rfl, rfl, rfl, rfl⟩
  · exact .inl ⟨a, rfl, by simpa using h⟩
  · exact .inr ⟨rfl, rfl, rfl⟩

theorem gives_ifLooks_error {α : Type} {test : Cursor → Prog Bool} (ht : Looks test) (he : ∀ c p d q w, ¬ Gives (test c) p (.error d) q w) {body : Prog α}
    {d : Diag} {p p' : Parser} {w : List Cursor} (h : Gives (ifPeek test body) p (.error d) p' w) : Gives body p (.error d) p' w := by
  unfold ifPeek at h
  rcases gives_bind.mp h with ⟨c, p1, w1, w2, h1, h2, rfl⟩ | ⟨d, h1, _⟩
  · obtain ⟨_, _, _, rfl, rfl⟩ := gives_peek.mp h1
    rcases gives_bind.mp h2 with ⟨b, p2, w3, w4, h3, h4, rfl⟩ | ⟨d, h3, _⟩
    · obtain ⟨rfl, rfl⟩ := ht h3
      rcases gives_ite.mp h4 with ⟨_, h5⟩ | ⟨_, h5⟩
      · rcases gives_bind.mp h5 with ⟨a, p2, w3, w4, h6, h7, rfl⟩ | ⟨d, h6, e⟩
        · cases (gives_pure.mp h7).1
        · cases e; exact h6
      · cases (gives_pure.mp h5).1
    · exact absurd h3 (he _ _ _ _ _)
  · obtain ⟨_, _, e, _⟩ := gives_peek.mp h1; cases e

theorem isDeclaration_total : ∀ c p d q w, ¬ Gives (isDeclaration c) p (.error d) q w := by
  intro c p d q w h
  unfold isDeclaration at h
  replace h := gives_ite.mp h
  rcases h with ⟨_, h⟩ | ⟨_, h⟩
  · rcases gives_bind.mp h with ⟨s, p1, w1, w2, h1, h2, rfl⟩ | ⟨d, h1, _⟩
    · cases (gives_pure.mp h2).1
    · obtain ⟨_, _, e, _⟩ := gives_peekN.mp h1; cases e
  · cases (gives_pure.mp h).1

theorem step_any {α β : Type} {x : Prog α} {f : α → Prog β} {p p' : Parser} {r : Except Diag β} {w : List Cursor} (hx : ∀ d q w, ¬ Gives x p (.error d) q w)
    (h : Gives (x >>= f) p r p' w) : ∃ a p1 w1 w2, w = w1 ++ w2 ∧ Gives x p (.ok a) p1 w1 ∧ Gives (f a) p1 r p' w2 := by
  rcases gives_bind.mp h with ⟨a, p1, w1, w2, h1, h2, e⟩ | ⟨d, h1, _⟩
  · exact ⟨a, p1, w1, w2, e, h1, h2⟩
  · exact absurd h1 (hx _ _ _)

theorem bangImportant_writes : Writes bangImportant BangImportant.cursors := by
  intro p p' a w h
  unfold bangImportant at h
  replace h := step_writes writes_isDelim h
  obtain ⟨c1, p1, w2, rfl, _, h⟩ := h
  replace h := step_isKind h
  obtain ⟨c2, p2, w3, rfl, _, _, h⟩ := h
  replace h := step h
  obtain ⟨b, p3, w4, w5, rfl, h1, h⟩ := h
  obtain ⟨_, _, _, rfl, rfl⟩ := gives_eqCase.mp h1
  replace h := gives_ite.mp h
  rcases h with ⟨_, h⟩ | ⟨_, h⟩
  · obtain ⟨e, rfl, rfl⟩ := gives_pure.mp h; cases e; rfl
  · exact absurd h not_fail

theorem componentValues_taken {n : Nat} {vs : List ComponentValue} {p p' : Parser} {w : List Cursor} (h : Gives (componentValues n) p (.ok vs) p' w) :
    taken w = valuesText vs := by
  obtain ⟨more, rfl, hm⟩ := componentValuesLoop_taken (item := componentValue n) (fun h => componentValue_taken n h) n h
  exact hm.symm

theorem declaration_taken {n : Nat} {d : Declaration} {p p' : Parser} {w : List Cursor} (h : Gives (declaration n) p (.ok d) p' w) :
    taken w = declarationText d ∧ ∀ semi : Option Cursor, (∀ c ∈ semi, c.token.kind = .semicolon) → DeclarationKinds d semi := by
  unfold declaration at h
  replace h := step_isKind h
  obtain ⟨c1, p1, w1, rfl, _, k1, h⟩ := h
  replace h := step_isKind h
  obtain ⟨c2, p2, w2, rfl, _, k2, h⟩ := h
  replace h := step h
  obtain ⟨vs, p3, w3, w4, rfl, h1, h⟩ := h
  replace h := step h
  obtain ⟨im, p4, w5, w6, rfl, h2, h⟩ := h
  obtain ⟨e, rfl, rfl⟩ := gives_pure.mp h
  cases e
  rw [show c1 :: c2 :: (w3 ++ (w5 ++ [])) = [c1] ++ ([c2] ++ (w3 ++ w5)) by simp]
  simp only [taken_append, taken_kind (by decide) k1, taken_kind (by decide) k2, componentValues_taken h1, declarationText]
  have k1' := kind_of_isKind (by decide) k1
  have k2' := kind_of_isKind (by decide) k2
  rcases gives_ifLooks isBangImportant_looks h2 with ⟨b, rfl, h3⟩ | ⟨rfl, rfl, rfl⟩
  · have hb : b.bang.token.isKind .delim = true ∧ b.bang.token.isChar '!' = true ∧ b.important.token.isKind .ident = true := by
      have h := h3
      unfold bangImportant at h
      replace h := step_writes writes_isDelim h
      obtain ⟨c1, p1, w2, rfl, h1, h⟩ := h
      replace h := step_isKind h
      obtain ⟨c2, p2, w3, rfl, _, hk2, h⟩ := h
      replace h := step h
      obtain ⟨b', p3, w4, w5, rfl, h1', h⟩ := h
      replace h := gives_ite.mp h
      rcases h with ⟨_, h⟩ | ⟨_, h⟩
      · obtain ⟨e, rfl, rfl⟩ := gives_pure.mp h
        cases e
        obtain ⟨c, hn, _, e⟩ := gives_tok.mp h1
        split at e
        · cases e; rename_i hh; exact ⟨by simp at hh; exact hh.1, by simp at hh; exact hh.2, hk2⟩
        · cases e
      · exact absurd h not_fail
    constructor
    · rw [bangImportant_writes h3]
      rw [show b.cursors = [b.bang] ++ [b.important] from rfl, taken_append, taken_kind (by decide) hb.1, taken_kind (by decide) hb.2.2]
      simp
    · intro semi hs
      refine ⟨k1', k2', ?_, hs⟩
      intro x hx; cases hx
      exact ⟨kind_of_isKind (by decide) hb.1, hb.2.1, kind_of_isKind (by decide) hb.2.2⟩
  · constructor
    · simp
    · intro semi hs; exact ⟨k1', k2', by simp, hs⟩

theorem blockLoop_text {rule : Prog Rule} (hr : ∀ {p r p' w}, Gives rule p (.ok r) p' w → RuleText r (taken w)) {m : Nat} :
    ∀ (n : Nat) {ds ds' : List (Declaration × Option Cursor)} {rs rs' : List Rule} {p p' : Parser} {w : List Cursor},
      Gives (blockLoop isDeclaration (declaration m) rule n ds rs) p (.ok (ds', rs')) p' w →
      ∃ dm rm, ds' = ds ++ dm ∧ rs' = rs ++ rm ∧ BodyText dm rm (taken w) := by
  intro n
  induction n with
  | zero => intro ds ds' rs rs' p p' w h; exact absurd h gives_panic
  | succ n ih =>
    intro ds ds' rs rs' p p' w h
    unfold blockLoop at h
    replace h := step h
    obtain ⟨ws, p1, w1, w2, rfl, h1, h⟩ := h
    obtain ⟨rfl, ⟨c, rfl, hk⟩ | ⟨rfl, rfl⟩⟩ := gives_ifWs h1
    · obtain ⟨dm, rm, rfl, rfl, hb⟩ := ih h
      refine ⟨dm, rm, rfl, rfl, ?_⟩
      rw [show (some c).toList ++ w2 = [c] ++ w2 from rfl, taken_append, taken_kind (by decide) hk, strip_plain (by decide) hk (by decide) (by decide)]
      exact .blank (.inl (kind_of_isKind (by decide) hk)) hb
    simp only [Option.isSome_none, Bool.false_eq_true, if_false] at h
    replace h := step h
    obtain ⟨semi, p2, w3, w4, rfl, h2, h⟩ := h
    obtain ⟨rfl, ⟨c, rfl, hn, hk⟩ | ⟨rfl, rfl⟩⟩ := gives_ifKind h2
    · obtain ⟨dm, rm, rfl, rfl, hb⟩ := ih h
      refine ⟨dm, rm, rfl, rfl, ?_⟩
      rw [show (none : Option Cursor).toList ++ ((some c).toList ++ w4) = [c] ++ w4 from rfl, taken_append, taken_kind (by decide) hk,
        strip_plain (by decide) hk (by decide) (by decide)]
      exact .blank (.inr (kind_of_isKind (by decide) hk)) hb
    simp only [Option.isSome_none, Bool.false_eq_true, if_false, Option.toList_none, List.nil_append] at h ⊢
    replace h := step h
    obtain ⟨e, p3, w5, w6, rfl, h3, h⟩ := h
    obtain ⟨_, rfl, rfl⟩ := gives_atEnd.mp h3
    replace h := gives_ite.mp h
    rcases h with ⟨_, h⟩ | ⟨_, h⟩
    · obtain ⟨e, rfl, rfl⟩ := gives_pure.mp h
      cases e
      exact ⟨[], [], by simp, by simp, .nil⟩
    replace h := step_peek h
    obtain ⟨c, hc, h⟩ := h
    replace h := gives_ite.mp h
    rcases h with ⟨_, h⟩ | ⟨_, h⟩
    · obtain ⟨e, rfl, rfl⟩ := gives_pure.mp h
      cases e
      exact ⟨[], [], by simp, by simp, .nil⟩
    replace h := step_peek (gives_setState.mp h)
    obtain ⟨c, hc, h⟩ := h
    have useRule : ∀ {q : Parser} {v : List Cursor}, Gives (result rule >>= fun r => setState p3.nested fun _ => ofResult r >>= fun r =>
        blockLoop isDeclaration (declaration m) rule n ds (rs ++ [r])) q (.ok (ds', rs')) p' v →
        ∃ dm rm, ds' = ds ++ dm ∧ rs' = rs ++ rm ∧ BodyText dm rm (taken v) := by
      intro q v h
      replace h := step h
      obtain ⟨r, p4, w7, w8, rfl, h4, h⟩ := h
      obtain ⟨r1, h4, e⟩ := gives_result.mp h4
      cases e
      replace h := step (gives_setState.mp h)
      obtain ⟨r, p5, w9, w10, rfl, h5, h⟩ := h
      obtain ⟨rfl, rfl, rfl⟩ := gives_ofResult.mp h5
      obtain ⟨dm, rm, rfl, rfl, hb⟩ := ih h
      refine ⟨dm, r :: rm, rfl, by simp, ?_⟩
      simp only [List.nil_append, taken_append]
      exact .rule (hr h4) hb
    replace h := gives_ite.mp h
    rcases h with ⟨_, h⟩ | ⟨_, h⟩
    · exact useRule h
    replace h := step h
    obtain ⟨d, p4, w7, w8, rfl, h4, h⟩ := h
    replace h4 := gives_result.mp h4
    obtain ⟨d1, h4, e⟩ := h4
    cases e
    cases d with
    | error e =>
      have h5 := gives_ifLooks_error isDeclaration_looks isDeclaration_total h4
      obtain ⟨rfl, _⟩ := gives_tryParse_error.mp h5
      exact useRule h
    | ok o =>
      rcases gives_ifLooks isDeclaration_looks h4 with ⟨d, rfl, h5⟩ | ⟨rfl, rfl, rfl⟩
      · simp only at h
        replace h := step (gives_setState.mp h)
        obtain ⟨semi, p5, w9, w10, rfl, h6, h⟩ := h
        obtain ⟨dm, rm, rfl, rfl, hb⟩ := ih h
        refine ⟨(d, semi) :: dm, rm, by simp, rfl, ?_⟩
        rw [gives_tryParse_ok] at h5
        replace h6 := gives_ifKind h6
        obtain ⟨rfl, h6⟩ := h6
        have hsk : ∀ c ∈ semi, c.token.kind = .semicolon := by
          intro c hc
          rcases h6 with ⟨c', rfl, _, hk⟩ | ⟨rfl, _⟩
          · cases hc; exact kind_of_isKind (by decide) hk
          · cases hc
        have hs : taken semi.toList = semi.toList := by
          rcases h6 with ⟨c, rfl, _, hk⟩ | ⟨rfl, _⟩
          · exact (taken_kind (by decide) hk).trans (by rw [strip_plain (by decide) hk (by decide) (by decide)]; rfl)
          · rfl
        simp only [List.nil_append, taken_append, (declaration_taken h5).1, hs]
        rw [← List.append_assoc]
        exact .declaration ((declaration_taken h5).2 _ hsk) hb
      · simp only [List.nil_append] at h ⊢
        exact useRule h

theorem taken_optional {k : Kind} (hk : k ≠ .eof) {o : Option Cursor} {p p' : Parser} {w : List Cursor}
    (h : Gives (ifPeek (isKind k) (tok (isKind k))) p (.ok o) p' w) : taken w = o.toList.map strip ∧ ∀ c ∈ o, c.token.kind = k := by
  replace h := gives_ifKind h
  obtain ⟨rfl, h⟩ := h
  rcases h with ⟨c, rfl, _, hc⟩ | ⟨rfl, _⟩
  · refine ⟨taken_kind hk hc, ?_⟩
    intro x hx; cases hx; exact kind_of_isKind hk hc
  · exact ⟨rfl, by simp⟩

theorem strip_semicolon {c : Cursor} (h : c.token.kind = .semicolon) : strip c = c :=
  strip_plain (k := .semicolon) (by decide) ((isKind_iff (by decide)).mpr h) (by decide) (by decide)

theorem strip_semicolons {o : Option Cursor} (h : ∀ c ∈ o, c.token.kind = .semicolon) : o.toList.map strip = o.toList := by
  cases o with
  | none => rfl
  | some c => simp [strip_semicolon (h c rfl)]

/-- The text of a block, without what is around it. -/
theorem block_text {rule : Prog Rule} (hr : ∀ {p r p' w}, Gives rule p (.ok r) p' w → RuleText r (taken w)) {n start : Nat}
    {b : BlockParts Declaration Rule} {p p' : Parser} {w : List Cursor} (h : Gives (block rule n) p (.ok (start, b)) p' w) :
    ∃ body, BodyText b.declarations b.rules body ∧ Curlies b.opening b.close ∧ taken w = [strip b.opening] ++ body ++ b.close.toList.map strip := by
  unfold block at h
  replace h := step h
  obtain ⟨_, p1, w1, w2, rfl, h1, h⟩ := h
  obtain ⟨_, rfl, rfl⟩ := gives_offset.mp h1
  replace h := step h
  obtain ⟨b1, p2, w3, w4, rfl, h2, h⟩ := h
  obtain ⟨e, rfl, rfl⟩ := gives_pure.mp h
  cases e
  unfold blockOf at h2
  replace h := h2
  replace h := step_isKind h
  obtain ⟨c, p3, w5, rfl, hn, hk, h⟩ := h
  replace h := step h
  obtain ⟨x, p4, w6, w7, rfl, h3, h⟩ := h
  obtain ⟨ds, rs⟩ := x
  simp only at h
  replace h := step h
  obtain ⟨close, p5, w8, w9, rfl, h4, h⟩ := h
  obtain ⟨e, rfl, rfl⟩ := gives_pure.mp h
  cases e
  obtain ⟨dm, rm, rfl, rfl, hb⟩ := blockLoop_text hr n h3
  refine ⟨taken w6, by simpa using hb, ⟨kind_of_isKind (by decide) hk, (taken_optional (by decide) h4).2⟩, ?_⟩
  rw [show [] ++ (c :: (w6 ++ (w8 ++ [])) ++ []) = [c] ++ (w6 ++ w8) by simp]
  simp only [taken_append, taken_kind (by decide) hk, (taken_optional (by decide) h4).1, List.append_assoc]

theorem qualifiedLead_other {p p' : Parser} {w : List Cursor} (h : Gives qualifiedLead p (.ok .other) p' w) : p' = p ∧ w = [] := by
  unfold qualifiedLead at h
  replace h := step_peek h
  obtain ⟨c, hc, h⟩ := h
  replace h := gives_ite.mp h
  rcases h with ⟨_, h⟩ | ⟨_, h⟩
  · replace h := step h
    obtain ⟨_, p1, w1, w2, rfl, h1, h⟩ := h
    replace h := step_peek h
    obtain ⟨c, hc, h⟩ := h
    replace h := gives_ite.mp h
    rcases h with ⟨_, h⟩ | ⟨_, h⟩
    · replace h := step h
      obtain ⟨_, p2, w3, w4, rfl, h2, h⟩ := h
      replace h := gives_ite.mp h
      rcases h with ⟨_, h⟩ | ⟨_, h⟩ <;> cases (gives_pure.mp h).1
    · cases (gives_pure.mp h).1
  · obtain ⟨_, rfl, rfl⟩ := gives_pure.mp h; exact ⟨rfl, rfl⟩

/-- A qualified rule that is parsed is its prelude and its block, and nothing else is taken. -/
theorem qualifiedRule_ok {α β γ : Type} {prelude : Prog α} {block : Prog β} {bad : Prog γ} {x : α × β} {p p' : Parser} {w : List Cursor}
    (h : Gives (qualifiedRule prelude block bad) p (.ok x) p' w) :
    ∃ q q1 w1 w2, w = w1 ++ w2 ∧ Gives prelude { q with stop := KindSet.new [.leftCurly] } (.ok x.1) q1 w1
      ∧ Gives block { q1 with stop := q.stop } (.ok x.2) p' w2 ∧ (q = p ∨ ∃ q', q = Parser.rewind q' p.checkpoint) := by
  unfold qualifiedRule at h
  replace h := step h
  obtain ⟨e, p1, w1, w2, rfl, h1, h⟩ := h
  obtain ⟨_, rfl, rfl⟩ := gives_atEnd.mp h1
  replace h := gives_ite.mp h
  rcases h with ⟨_, h⟩ | ⟨_, h⟩
  · cases (gives_ofResult.mp h).1
  replace h := step h
  obtain ⟨e, p1, w1, w2, rfl, h1, h⟩ := h
  obtain ⟨_, rfl, rfl⟩ := gives_nested.mp h1
  replace h := step_peek h
  obtain ⟨c, hc, h⟩ := h
  replace h := gives_ite.mp h
  rcases h with ⟨_, h⟩ | ⟨_, h⟩
  · replace h := step h
    obtain ⟨e, p1, w1, w2, rfl, h1, h⟩ := h
    exact absurd h not_fail
  replace h := step h
  obtain ⟨e, p2, w1, w2, rfl, h1, h⟩ := h
  obtain ⟨_, _, _, rfl, rfl⟩ := gives_ask.mp h1
  replace h := gives_attempt.mp h
  obtain ⟨lead, p3, w3, w4, h2, h⟩ := h
  have finish : ∀ {q : Parser} {v : List Cursor}, Gives (Prog.setStop (KindSet.new [.leftCurly]) fun old => do
            let prelude ← result prelude
            Prog.setStop old fun _ => do
              let prelude ← ofResult prelude
              let block ← block
              pure (prelude, block)) q (.ok x) p' v → ∃ q1 w1 w2, v = w1 ++ w2 ∧ Gives prelude { q with stop := KindSet.new [.leftCurly] } (.ok x.1) q1 w1
      ∧ Gives block { q1 with stop := q.stop } (.ok x.2) p' w2 := by
    intro q v h
    replace h := step (gives_setStop.mp h)
    obtain ⟨r, q1, v1, v2, rfl, h1, h⟩ := h
    obtain ⟨r1, h1, e⟩ := gives_result.mp h1
    cases e
    replace h := step (gives_setStop.mp h)
    obtain ⟨a, q2, v3, v4, rfl, h2, h⟩ := h
    obtain ⟨rfl, rfl, rfl⟩ := gives_ofResult.mp h2
    replace h := step h
    obtain ⟨b, q3, v5, v6, rfl, h3, h⟩ := h
    obtain ⟨e, rfl, rfl⟩ := gives_pure.mp h
    cases e
    exact ⟨q1, v1, v5, by simp, h1, h3⟩
  have body : ∀ {q : Parser} {l : Lead} {v : List Cursor}, Gives (match l with
        | .dashedColonNested => do
          let _ ← bad
          fail .badDeclaration e.cursor
        | .dashedColon => do
          let _ ← result block
          fail .badDeclaration e.cursor
        | _ =>
          Prog.setStop (KindSet.new [.leftCurly]) fun old => do
            let prelude ← result prelude
            Prog.setStop old fun _ => do
              let prelude ← ofResult prelude
              let block ← block
              pure (prelude, block)) q (.ok x) p' v → (l = .other ∨ l = .dashed) ∧ ∃ q1 w1 w2, v = w1 ++ w2 ∧ Gives prelude { q with stop := KindSet.new [.leftCurly] } (.ok x.1) q1 w1
      ∧ Gives block { q1 with stop := q.stop } (.ok x.2) p' w2 := by
    intro q l v h
    cases l with
    | dashedColonNested =>
      replace h := step h
      obtain ⟨e, p1, w1, w2, rfl, h1, h⟩ := h
      exact absurd h not_fail
    | dashedColon =>
      replace h := step h
      obtain ⟨e, p1, w1, w2, rfl, h1, h⟩ := h
      exact absurd h not_fail
    | other => exact ⟨.inl rfl, finish h⟩
    | dashed => exact ⟨.inr rfl, finish h⟩
  rcases h with ⟨hk, rfl, h⟩ | ⟨hk, rfl, h⟩
  · replace h := step h
    obtain ⟨l, q, v1, v2, rfl, h3, h⟩ := h
    obtain ⟨rfl, rfl, rfl⟩ := gives_ofResult.mp h3
    replace h := body h
    obtain ⟨hl, h⟩ := h
    rcases hl with rfl | rfl
    · obtain ⟨rfl, rfl⟩ := qualifiedLead_other h2
      obtain ⟨q1, v3, v4, rfl, h4, h5⟩ := h
      exact ⟨_, q1, v3, v4, by simp, h4, h5, .inl rfl⟩
    · cases hk
  · replace h := step h
    obtain ⟨l, q, v1, v2, rfl, h3, h⟩ := h
    obtain ⟨rfl, rfl, rfl⟩ := gives_ofResult.mp h3
    replace h := body h
    obtain ⟨hl, h⟩ := h
    obtain ⟨q1, v3, v4, rfl, h4, h5⟩ := h
    exact ⟨_, q1, v3, v4, by simp, h4, h5, .inr ⟨_, rfl⟩⟩

theorem genericQualifiedRule_text {rule : Prog Rule} (hr : ∀ {p r p' w}, Gives rule p (.ok r) p' w → RuleText r (taken w)) {n : Nat} {r : Rule}
    {p p' : Parser} {w : List Cursor} (h : Gives (genericQualifiedRule rule n) p (.ok r) p' w) : RuleText r (taken w) := by
  unfold genericQualifiedRule at h
  replace h := step h
  obtain ⟨x, p1, w1, w2, rfl, h1, h⟩ := h
  obtain ⟨pre, start, b⟩ := x
  simp only at h
  obtain ⟨e, rfl, rfl⟩ := gives_pure.mp h
  cases e
  obtain ⟨q, q1, v1, v2, rfl, h2, h3, _⟩ := qualifiedRule_ok h1
  obtain ⟨body, hb, hcur, ht⟩ := block_text hr h3
  rw [List.append_nil, taken_append, componentValues_taken h2, ht, ← List.append_assoc, ← List.append_assoc]
  exact .qualified hb hcur

theorem genericAtRule_text {rule : Prog Rule} (hr : ∀ {p r p' w}, Gives rule p (.ok r) p' w → RuleText r (taken w)) {n : Nat} {r : Rule}
    {p p' : Parser} {w : List Cursor} (h : Gives (genericAtRule rule n) p (.ok r) p' w) : RuleText r (taken w) := by
  unfold genericAtRule at h
  replace h := step (gives_setStop.mp h)
  obtain ⟨x, p1, w1, w2, rfl, h1, h⟩ := h
  replace h1 := gives_result.mp h1
  obtain ⟨r1, h1, e⟩ := h1
  cases e
  replace h := step (gives_setStop.mp h)
  obtain ⟨x, p2, w3, w4, rfl, h2, h⟩ := h
  obtain ⟨rfl, rfl, rfl⟩ := gives_ofResult.mp h2
  obtain ⟨name, pre, b⟩ := x
  simp only at h
  replace h := step h
  obtain ⟨extra, p3, w5, w6, rfl, h3, h⟩ := h
  obtain ⟨ht3, he3⟩ := taken_optional (by decide) h3
  rw [strip_semicolons he3] at ht3
  have hextra : Semicolon extra.toList := by
    cases extra with
    | none => exact .inl rfl
    | some c => exact .inr ⟨c, rfl, he3 c rfl⟩
  -- the at-rule itself
  unfold atRule at h1
  replace h1 := step_isKind h1
  obtain ⟨c, q1, v1, rfl, hn, hk, h1⟩ := h1
  replace h1 := step h1
  obtain ⟨_, q2, v2, v3, rfl, hp, h1⟩ := h1
  obtain ⟨_, rfl, rfl⟩ := gives_pure.mp hp
  rcases gives_ite.mp h1 with ⟨_, h4⟩ | ⟨_, h4⟩
  · exact absurd h4 not_fail
  replace h4 := step_peek h4
  obtain ⟨d, hd, h4⟩ := h4
  replace h4 := step h4
  obtain ⟨_, q3, v4, v5, rfl, ha, h4⟩ := h4
  obtain ⟨_, rfl, rfl⟩ := gives_atEnd.mp ha
  have hj : ∃ pre' q4 v6 v7, v5 = v6 ++ v7 ∧ taken v6 = (pre'.map valuesText).getD [] ∧
      Gives (optionalBlock rule n >>= fun b => pure (c, pre', b)) q4 (.ok (name, pre, b)) p1 v7 := by
    rcases gives_ite.mp h4 with ⟨_, h5⟩ | ⟨_, h5⟩
    · obtain ⟨o, q6, v10, v11, rfl, h6, h7⟩ := step h5
      obtain ⟨e, rfl, rfl⟩ := gives_pure.mp h6; cases e
      exact ⟨none, _, [], v11, by simp, rfl, h7⟩
    · obtain ⟨vs, q6, v10, v11, rfl, h6, h7⟩ := step h5
      obtain ⟨o, q7, v12, v13, rfl, h8, h9⟩ := step h7
      obtain ⟨e, rfl, rfl⟩ := gives_pure.mp h8; cases e
      exact ⟨some vs, _, v10, v13, by simp, by simp [componentValues_taken h6], h9⟩
  clear h4
  obtain ⟨pre', q4, v6, v7, rfl, hpt, h4⟩ := hj
  replace h4 := step h4
  obtain ⟨b', q5, v8, v9, rfl, hblk, h4⟩ := h4
  obtain ⟨e, rfl, rfl⟩ := gives_pure.mp h4
  cases e
  unfold optionalBlock at hblk
  replace hblk := step hblk
  obtain ⟨o, q6, v10, v11, rfl, ho, hblk⟩ := hblk
  have looks : Looks (isKind .leftCurly) := fun h => by obtain ⟨_, rfl, rfl⟩ := gives_pure.mp h; exact ⟨rfl, rfl⟩
  rcases gives_ifLooks looks ho with ⟨⟨start, bp⟩, rfl, ho'⟩ | ⟨rfl, rfl, rfl⟩
  · simp only at hblk
    obtain ⟨e, rfl, rfl⟩ := gives_pure.mp hblk
    cases e
    simp only at h
    obtain ⟨e, rfl, rfl⟩ := gives_pure.mp h
    cases e
    obtain ⟨body, hb, hcur, ht⟩ := block_text hr ho'
    have : taken (name :: ([] ++ ([] ++ (v6 ++ (v10 ++ [] ++ [])))) ++ ([] ++ (w5 ++ [])))
        = [name] ++ (pre.map valuesText).getD [] ++ [strip bp.opening] ++ body ++ bp.close.toList.map strip ++ extra.toList := by
      rw [show name :: ([] ++ ([] ++ (v6 ++ (v10 ++ [] ++ [])))) ++ ([] ++ (w5 ++ [])) = [name] ++ (v6 ++ (v10 ++ w5)) by simp]
      simp only [taken_append, taken_kind (by decide) hk, strip_plain (by decide) hk (by decide) (by decide), hpt, ht, ht3, List.append_assoc]
    rw [this]
    exact .atBlock hb hcur (kind_of_isKind (by decide) hk) hextra
  · simp only at hblk
    replace hblk := step hblk
    obtain ⟨semi, q7, v12, v13, rfl, hs, hblk⟩ := hblk
    obtain ⟨e, rfl, rfl⟩ := gives_pure.mp hblk
    cases e
    simp only at h
    obtain ⟨e, rfl, rfl⟩ := gives_pure.mp h
    cases e
    obtain ⟨hts, hes⟩ := taken_optional (by decide) hs
    rw [strip_semicolons hes] at hts
    have : taken (name :: ([] ++ ([] ++ (v6 ++ ([] ++ (v12 ++ []) ++ [])))) ++ ([] ++ (w5 ++ [])))
        = [name] ++ (pre.map valuesText).getD [] ++ semi.toList ++ extra.toList := by
      rw [show name :: ([] ++ ([] ++ (v6 ++ ([] ++ (v12 ++ []) ++ [])))) ++ ([] ++ (w5 ++ [])) = [name] ++ (v6 ++ (v12 ++ w5)) by simp]
      simp only [taken_append, taken_kind (by decide) hk, strip_plain (by decide) hk (by decide) (by decide), hpt, hts, ht3, List.append_assoc]
    rw [this]
    exact .atStatement (kind_of_isKind (by decide) hk) hes hextra

theorem rule_text : ∀ (n : Nat) {r : Rule} {p p' : Parser} {w : List Cursor}, Gives (rule n) p (.ok r) p' w → RuleText r (taken w) := by
  intro n
  induction n with
  | zero => intro r p p' w h; exact absurd h gives_panic
  | succ n ih =>
    intro r p p' w h
    unfold rule at h
    replace h := step_peek h
    obtain ⟨c, hc, h⟩ := h
    replace h := gives_ite.mp h
    rcases h with ⟨_, h⟩ | ⟨_, h⟩
    · exact genericAtRule_text ih h
    · exact genericQualifiedRule_text ih h

theorem styleSheetLoop_text {rule : Prog Rule} (hr : ∀ {p r p' w}, Gives rule p (.ok r) p' w → RuleText r (taken w)) :
    ∀ (n : Nat) {rs rs' : List Rule} {p p' : Parser} {w : List Cursor}, Gives (styleSheetLoop rule n rs) p (.ok rs') p' w →
      (∃ more, rs' = rs ++ more ∧ SheetText more (taken w)) ∧ (p'.atEnd = true ∨ ∃ c, p'.peekNext = .ok c ∧ c.token.isKind .eof = true) := by
  intro n
  induction n with
  | zero => intro rs rs' p p' w h; exact absurd h gives_panic
  | succ n ih =>
    intro rs rs' p p' w h
    unfold styleSheetLoop at h
    replace h := step h
    obtain ⟨ws, p1, w1, w2, rfl, h1, h⟩ := h
    obtain ⟨rfl, ⟨c, rfl, hk⟩ | ⟨rfl, rfl⟩⟩ := gives_ifWs h1
    · obtain ⟨⟨more, rfl, hb⟩, he⟩ := ih h
      refine ⟨⟨more, rfl, ?_⟩, he⟩
      rw [show (some c).toList ++ w2 = [c] ++ w2 from rfl, taken_append, taken_kind (by decide) hk, strip_plain (by decide) hk (by decide) (by decide)]
      exact .blank (.inl (kind_of_isKind (by decide) hk)) hb
    simp only [Option.isSome_none, Bool.false_eq_true, if_false] at h
    replace h := step h
    obtain ⟨semi, p2, w3, w4, rfl, h2, h⟩ := h
    obtain ⟨rfl, ⟨c, rfl, hn, hk⟩ | ⟨rfl, rfl⟩⟩ := gives_ifKind h2
    · obtain ⟨⟨more, rfl, hb⟩, he⟩ := ih h
      refine ⟨⟨more, rfl, ?_⟩, he⟩
      rw [show (none : Option Cursor).toList ++ ((some c).toList ++ w4) = [c] ++ w4 from rfl, taken_append, taken_kind (by decide) hk,
        strip_plain (by decide) hk (by decide) (by decide)]
      exact .blank (.inr (kind_of_isKind (by decide) hk)) hb
    simp only [Option.isSome_none, Bool.false_eq_true, if_false, Option.toList_none, List.nil_append] at h ⊢
    replace h := step h
    obtain ⟨e, p3, w5, w6, rfl, h3, h⟩ := h
    obtain ⟨e3, rfl, rfl⟩ := gives_atEnd.mp h3
    cases e3
    replace h := gives_ite.mp h
    rcases h with ⟨he, h⟩ | ⟨_, h⟩
    · obtain ⟨e, rfl, rfl⟩ := gives_pure.mp h
      cases e
      exact ⟨⟨[], by simp, .nil⟩, .inl he⟩
    replace h := step_peek h
    obtain ⟨c, hc, h⟩ := h
    replace h := gives_ite.mp h
    rcases h with ⟨he, h⟩ | ⟨_, h⟩
    · obtain ⟨e, rfl, rfl⟩ := gives_pure.mp h
      cases e
      exact ⟨⟨[], by simp, .nil⟩, .inr ⟨c, hc, he⟩⟩
    replace h := step h
    obtain ⟨r, p4, w7, w8, rfl, h4, h⟩ := h
    obtain ⟨⟨more, rfl, hb⟩, he⟩ := ih h
    refine ⟨⟨r :: more, by simp, ?_⟩, he⟩
    simp only [List.nil_append, taken_append]
    exact .rule (hr h4) hb

/-! ### What the tree writes -/

theorem strip_idem (c : Cursor) : strip (strip c) = strip c := by
  unfold strip
  split
  · rename_i h; simp
  · rename_i h; simp [h]

theorem curly_strip {o : Cursor} (h : o.token.kind = .leftCurly) (start : Nat) : strip ⟨start, o.token⟩ = strip o :=
  strip_start _ _ (by rw [inSet_kind (by rw [h]; decide), h]; decide)

theorem declaration_cursors (d : Declaration) : d.cursors.map strip = declarationText d := by
  unfold Declaration.cursors declarationText valuesText
  cases d.important <;> simp [BangImportant.cursors]

/-- A token that the tree does not keep. -/
def Spec.Droppable (c : Cursor) : Prop := c.token.kind = .whitespace ∨ c.token.kind = .semicolon ∨ c.token.kind = .cdcOrCdo

theorem semicolon_droppable {extra : List Cursor} (h : Semicolon extra) : ∀ c ∈ extra, Droppable c := by
  rcases h with rfl | ⟨c, rfl, h⟩
  · simp
  · simp only [List.mem_singleton, forall_eq]; exact .inr (.inl h)

theorem semi_map {semi : Option Cursor} (h : ∀ c ∈ semi, c.token.kind = .semicolon) : semi.toList.map strip = semi.toList := strip_semicolons h

theorem name_strip {c : Cursor} (h : c.token.kind = .atKeyword) : strip c = c :=
  strip_plain (k := .atKeyword) (by decide) ((isKind_iff (by decide)).mpr h) (by decide) (by decide)

theorem prelude_map (pre : Option (List ComponentValue)) :
    ((pre.map ComponentValue.cursorsOf).getD []).map strip = (pre.map valuesText).getD [] := by
  cases pre <;> rfl

theorem perm_shuffle {α : Type} (a b x y : List α) : List.Perm (a ++ (x ++ (b ++ y))) (a ++ b ++ (x ++ y)) := by
  rw [List.append_assoc]
  refine List.Perm.append_left a ?_
  rw [← List.append_assoc, ← List.append_assoc]
  exact List.Perm.append_right y List.perm_append_comm

mutual
theorem ruleText_perm : ∀ {r : Rule} {t : List Cursor}, RuleText r t → ∃ dropped, (∀ c ∈ dropped, Droppable c) ∧ t.Perm (r.cursors.map strip ++ dropped)
  | _, _, .qualified (opening := opening) (start := start) (close := close) (pre := pre) hb hc => by
    obtain ⟨dr, hd, hp⟩ := bodyText_perm hb
    refine ⟨dr, hd, ?_⟩
    simp only [Rule.cursors, List.map_append, List.map_cons, curly_strip hc.1, List.append_assoc, valuesText] at *
    refine List.Perm.append_left _ ?_
    simp only [List.cons_append, List.nil_append]
    refine List.Perm.cons _ ?_
    refine (List.Perm.append_right _ hp).trans ?_
    simp only [List.append_assoc]
    exact List.Perm.append_left _ (List.Perm.append_left _ List.perm_append_comm)
  | _, _, .atBlock (opening := opening) (start := start) (close := close) (pre := pre) (extra := extra) hb hc hn he => by
    obtain ⟨dr, hd, hp⟩ := bodyText_perm hb
    refine ⟨dr ++ extra, ?_, ?_⟩
    · intro c hc
      rcases List.mem_append.mp hc with h | h
      · exact hd c h
      · exact semicolon_droppable he c h
    simp only [Rule.cursors, List.map_append, List.map_cons, curly_strip hc.1, List.append_assoc, prelude_map, name_strip hn] at *
    simp only [List.cons_append, List.nil_append, List.append_assoc]
    refine List.Perm.cons _ (List.Perm.append_left _ (List.Perm.cons _ ?_))
    refine (List.Perm.append_right _ hp).trans ?_
    simp only [List.append_assoc]
    refine List.Perm.append_left _ (List.Perm.append_left _ ?_)
    rw [← List.append_assoc, ← List.append_assoc]
    exact List.Perm.append_right _ List.perm_append_comm
  | _, _, .atStatement (semi := semi) (pre := pre) (extra := extra) hn hs he => by
    refine ⟨extra, semicolon_droppable he, ?_⟩
    simp only [Rule.cursors, List.map_append, List.map_cons, prelude_map, name_strip hn, strip_semicolons hs, List.cons_append, List.nil_append]
    exact List.Perm.refl _
theorem bodyText_perm : ∀ {ds : List (Declaration × Option Cursor)} {rs : List Rule} {t : List Cursor}, BodyText ds rs t →
    ∃ dropped, (∀ c ∈ dropped, Droppable c) ∧ t.Perm ((declarationsCursors ds).map strip ++ (Rule.cursorsOf rs).map strip ++ dropped)
  | _, _, _, .nil => ⟨[], by simp, by simp [declarationsCursors, Rule.cursorsOf]⟩
  | _, _, _, .blank (c := c) hc hb => by
    obtain ⟨dr, hd, hp⟩ := bodyText_perm hb
    refine ⟨c :: dr, ?_, (List.Perm.cons c hp).trans List.perm_middle.symm⟩
    intro x hx
    rcases List.mem_cons.mp hx with rfl | h
    · rcases hc with h | h
      · exact .inl h
      · exact .inr (.inl h)
    · exact hd x h
  | _, _, _, .declaration (d := d) (semi := semi) hk hb => by
    obtain ⟨dr, hd, hp⟩ := bodyText_perm hb
    refine ⟨dr, hd, ?_⟩
    simp only [declarationsCursors, List.map_append, declaration_cursors, strip_semicolons hk.semicolon, List.append_assoc] at hp ⊢
    exact List.Perm.append_left _ (List.Perm.append_left _ hp)
  | _, _, _, .rule (r := r) (t := t) (rs := rs) (ds := ds) hr hb => by
    obtain ⟨dr, hd, hp⟩ := bodyText_perm hb
    obtain ⟨dr', hd', hp'⟩ := ruleText_perm hr
    refine ⟨dr' ++ dr, ?_, (List.Perm.append hp' hp).trans ?_⟩
    · intro x hx
      rcases List.mem_append.mp hx with h | h
      · exact hd' x h
      · exact hd x h
    simp only [Rule.cursorsOf, List.map_append, List.append_assoc]
    generalize (declarationsCursors ds).map strip = D
    generalize (Rule.cursorsOf rs).map strip = R
    generalize r.cursors.map strip = X
    -- X ++ (dr' ++ (D ++ (R ++ dr))) ~ D ++ (X ++ (R ++ (dr' ++ dr)))
    refine List.Perm.trans (l₂ := D ++ (X ++ (dr' ++ (R ++ dr)))) ?_ ?_
    · refine (List.Perm.append_left X ?_).trans (l₂ := X ++ (D ++ (dr' ++ (R ++ dr)))) ?_
      · rw [← List.append_assoc, ← List.append_assoc (as := D)]
        exact List.Perm.append_right _ List.perm_append_comm
      · rw [← List.append_assoc, ← List.append_assoc (as := D)]
        exact List.Perm.append_right _ List.perm_append_comm
    · refine List.Perm.append_left D (List.Perm.append_left X ?_)
      rw [← List.append_assoc, ← List.append_assoc (as := R)]
      exact List.Perm.append_right _ List.perm_append_comm
end

theorem sheetText_perm : ∀ {rs : List Rule} {t : List Cursor}, SheetText rs t →
    ∃ dropped, (∀ c ∈ dropped, Droppable c) ∧ t.Perm ((Rule.cursorsOf rs).map strip ++ dropped) := by
  intro rs t h
  induction h with
  | nil => exact ⟨[], by simp, by simp [Rule.cursorsOf]⟩
  | @blank rs c ts hc _ ih =>
    obtain ⟨dr, hd, hp⟩ := ih
    refine ⟨c :: dr, ?_, (List.Perm.cons c hp).trans List.perm_middle.symm⟩
    intro x hx
    rcases List.mem_cons.mp hx with rfl | h
    · rcases hc with h | h
      · exact .inl h
      · exact .inr (.inr h)
    · exact hd x h
  | @rule r t rs ts hr _ ih =>
    obtain ⟨dr, hd, hp⟩ := ih
    obtain ⟨dr', hd', hp'⟩ := ruleText_perm hr
    refine ⟨dr' ++ dr, ?_, (List.Perm.append hp' hp).trans ?_⟩
    · intro x hx
      rcases List.mem_append.mp hx with h | h
      · exact hd' x h
      · exact hd x h
    simp only [Rule.cursorsOf, List.map_append, List.append_assoc]
    refine List.Perm.append_left _ ?_
    rw [← List.append_assoc, ← List.append_assoc]
    exact List.Perm.append_right _ List.perm_append_comm

mutual
/-- No block in the rule has both declarations and rules. -/
def Spec.Flat : Rule → Bool
  | .qualified _ _ _ ds rs _ => (ds.isEmpty || rs.isEmpty) && Spec.FlatAll rs
  | .atBlock _ _ _ _ ds rs _ => (ds.isEmpty || rs.isEmpty) && Spec.FlatAll rs
  | .atStatement _ _ _ => true
/-- No block in the rules has both declarations and rules. -/
def Spec.FlatAll : List Rule → Bool
  | [] => true
  | r :: rs => Spec.Flat r && Spec.FlatAll rs
end

mutual
theorem ruleText_sublist : ∀ {r : Rule} {t : List Cursor}, RuleText r t → Flat r = true → (r.cursors.map strip).Sublist t
  | _, _, .qualified (opening := opening) (start := start) (close := close) (pre := pre) hb hc, hf => by
    simp only [Flat, Bool.and_eq_true] at hf
    have := bodyText_sublist hb hf.1 hf.2
    simp only [Rule.cursors, List.map_append, List.map_cons, curly_strip hc.1, List.append_assoc, valuesText, List.cons_append, List.nil_append]
    rw [← List.append_assoc]
    exact List.Sublist.append (List.Sublist.refl _) (List.Sublist.cons_cons _ (List.Sublist.append (by simpa using this) (List.Sublist.refl _)))
  | _, _, .atBlock (opening := opening) (start := start) (close := close) (pre := pre) (extra := extra) hb hc hn he, hf => by
    simp only [Flat, Bool.and_eq_true] at hf
    have := bodyText_sublist hb hf.1 hf.2
    simp only [Rule.cursors, List.map_append, List.map_cons, curly_strip hc.1, List.append_assoc, prelude_map, name_strip hn, List.cons_append, List.nil_append]
    rw [← List.append_assoc ((declarationsCursors _).map strip)]
    exact List.Sublist.cons_cons _ (List.Sublist.append (List.Sublist.refl _) (List.Sublist.cons_cons _ (List.Sublist.append this (List.sublist_append_left _ _))))
  | _, _, .atStatement (semi := semi) (pre := pre) (extra := extra) hn hs he, _ => by
    simp only [Rule.cursors, List.map_append, List.map_cons, prelude_map, name_strip hn, strip_semicolons hs, List.cons_append, List.nil_append]
    exact List.Sublist.cons_cons _ (List.sublist_append_left _ _)
theorem bodyText_sublist : ∀ {ds : List (Declaration × Option Cursor)} {rs : List Rule} {t : List Cursor}, BodyText ds rs t →
    (ds.isEmpty || rs.isEmpty) = true → FlatAll rs = true → ((declarationsCursors ds).map strip ++ (Rule.cursorsOf rs).map strip).Sublist t
  | _, _, _, .nil, _, _ => by simp [declarationsCursors, Rule.cursorsOf]
  | _, _, _, .blank (c := c) hc hb, h1, h2 => List.Sublist.cons _ (bodyText_sublist hb h1 h2)
  | _, _, _, .declaration (d := d) (semi := semi) hk hb, h1, h2 => by
    simp only [List.isEmpty_cons, Bool.false_or] at h1
    have := bodyText_sublist hb (by rw [h1]; simp) h2
    simp only [declarationsCursors, List.map_append, declaration_cursors, strip_semicolons hk.semicolon, List.append_assoc] at this ⊢
    exact List.Sublist.append (List.Sublist.refl _) (List.Sublist.append (List.Sublist.refl _) this)
  | _, _, _, .rule (r := r) (t := t) (rs := rs) (ds := ds) hr hb, h1, h2 => by
    simp only [List.isEmpty_cons, Bool.or_false] at h1
    simp only [FlatAll, Bool.and_eq_true] at h2
    have h := bodyText_sublist hb (by rw [h1]; simp) h2.2
    have h' := ruleText_sublist hr h2.1
    have hd : ds = [] := by simpa using h1
    subst hd
    simp only [declarationsCursors, List.map_nil, List.nil_append, Rule.cursorsOf, List.map_append] at h ⊢
    exact List.Sublist.append h' h
end

theorem sheetText_sublist {rs : List Rule} {t : List Cursor} (h : SheetText rs t) (hf : FlatAll rs = true) : ((Rule.cursorsOf rs).map strip).Sublist t := by
  induction h with
  | nil => simp [Rule.cursorsOf]
  | blank hc _ ih => exact List.Sublist.cons _ (ih hf)
  | rule hr _ ih =>
    simp only [FlatAll, Bool.and_eq_true] at hf
    simp only [Rule.cursorsOf, List.map_append]
    exact List.Sublist.append (ruleText_sublist hr hf.1) (ih hf.2)

/-! ### C60 -/

/-- For every source shorter than 64 KiB (see `C34_counterexample` for why) and every feature set: when a style sheet is parsed, the tokens of the
consumed text are dealt, in order, between the parser's trivia and a list `kept`; the tree of rules stands for `kept`, as `SheetText` says; and
nothing but trivia is left in the source. -/
theorem C60_source {src : List Char} {f : Features} {rules : List Rule} {p' : Parser} (hs : byteLen src < 65536)
    (h : styleSheet.run (Parser.newWithFeatures src f) = .ok (.ok rules, p')) :
    (∃ tokens kept, LexedUntil (Lexer.newWithFeatures src f) tokens p'.offset ∧ Dealt kept p'.trivia tokens ∧ SheetText rules (kept.map strip))
      ∧ (p'.atEnd = true ∨ ∃ c, p'.peekNext = .ok c ∧ c.token.isKind .eof = true) := by
  unfold Prog.run at h
  cases hr : styleSheet.runLog (Parser.newWithFeatures src f) with
  | error e => rw [hr] at h; cases h
  | ok y =>
    obtain ⟨r, q, w⟩ := y
    rw [hr] at h
    simp only [Except.map, Except.ok.injEq, Prod.mk.injEq] at h
    obtain ⟨rfl, rfl⟩ := h
    obtain ⟨tr, cs, a1, b1, c1⟩ := (Prog.runLog_moved styleSheet (by simp [Parser.newWithFeatures])
      (by rw [byteLen_eq] at hs; exact hs) (by simp [Fits, Parser.newWithFeatures]) hr).tokens
    simp only [Parser.newWithFeatures, List.nil_append] at a1
    have hl : Gives (styleSheetLoop (rule (Parser.newWithFeatures src f).fuel) (Parser.newWithFeatures src f).fuel []) (Parser.newWithFeatures src f)
      (.ok rules) q w := hr
    obtain ⟨⟨more, rfl, hm⟩, he⟩ := styleSheetLoop_text (rule_text _) _ hl
    exact ⟨⟨cs, w.filter notEof, b1, a1 ▸ c1, hm⟩, he⟩

/-- What the tree writes back is, but for the order and the position of brackets, everything that was taken, apart from whitespace, semicolons,
`<!--` and `-->`. -/
theorem C60_nothing_lost {src : List Char} {f : Features} {rules : List Rule} {p' : Parser} (hs : byteLen src < 65536)
    (h : styleSheet.run (Parser.newWithFeatures src f) = .ok (.ok rules, p')) :
    ∃ tokens kept dropped, LexedUntil (Lexer.newWithFeatures src f) tokens p'.offset ∧ Dealt kept p'.trivia tokens
      ∧ (∀ c ∈ dropped, Droppable c) ∧ (kept.map strip).Perm ((Rule.cursorsOf rules).map strip ++ dropped) := by
  obtain ⟨⟨tokens, kept, h1, h2, h3⟩, _⟩ := C60_source hs h
  obtain ⟨dropped, hd, hp⟩ := sheetText_perm h3
  exact ⟨tokens, kept, dropped, h1, h2, hd, hp⟩

/-- When no block has both declarations and rules, the order is kept as well: what is written is a sublist of what was taken. -/
theorem C60_in_order_partial {src : List Char} {f : Features} {rules : List Rule} {p' : Parser} (hs : byteLen src < 65536)
    (h : styleSheet.run (Parser.newWithFeatures src f) = .ok (.ok rules, p')) (hf : FlatAll rules = true) :
    ∃ tokens kept, LexedUntil (Lexer.newWithFeatures src f) tokens p'.offset ∧ Dealt kept p'.trivia tokens
      ∧ ((Rule.cursorsOf rules).map strip).Sublist (kept.map strip) := by
  obtain ⟨⟨tokens, kept, h1, h2, h3⟩, _⟩ := C60_source hs h
  exact ⟨tokens, kept, h1, h2, sheetText_sublist h3 hf⟩

/-- The kinds and the texts of the cursors that the tree of a style sheet writes. -/
def sheetWrites (src : List Char) : Except Panic (Option (List Kind)) :=
  (styleSheet.run (Parser.new src)).map fun r => r.1.toOption.map fun rs => (Rule.cursorsOf rs).map (·.token.kind)

/-- The hypotheses are met: an at-rule with a nested rule, a statement at-rule and a qualified rule. -/
example : sheetWrites c!"@x y{a{b:c}} @z w;\n<!--d e{f:g!important}" = .ok (some [.atKeyword, .whitespace, .ident, .leftCurly, .ident, .leftCurly, .ident, .colon,
    .ident, .rightCurly, .rightCurly, .atKeyword, .whitespace, .ident, .semicolon, .ident, .whitespace, .ident, .leftCurly, .ident, .colon, .ident, .delim, .ident,
    .rightCurly]) := by decide +kernel

/-- Declarations and nested rules do change places: `a{b{}c:1}` is written with the declaration first. -/
theorem C60_order_counterexample : sheetWrites c!"a{b{}c:1}" = .ok (some [.ident, .leftCurly, .ident, .colon, .number, .ident, .leftCurly, .rightCurly, .rightCurly]) := by
  decide +kernel

end Hdx

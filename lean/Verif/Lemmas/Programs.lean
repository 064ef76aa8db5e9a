/-
Running programs built with the combinators of Verif/Model/Grammar.lean.
-/
import Verif.Lemmas.TokenStream

namespace Hdx
open Spec
namespace Prog

theorem runLog_bindE {α β : Type} (x : Prog α) (f : Except Diag α → Prog β) (p : Parser) :
    (bindE x f).runLog p = match x.runLog p with
      | .error e => .error e
      | .ok (r, p', w) => ((f r).runLog p').map (fun y => (y.1, y.2.1, w ++ y.2.2)) := by
  induction x generalizing p with
  | ret r => simp only [bindE, runLog]; cases (f r).runLog p <;> rfl
  | panic e => rfl
  | read k ih => simp only [bindE, runLog]; exact ih _ _ _
  | next k ih =>
    simp only [bindE, runLog]
    cases p.next with
    | error e => rfl
    | ok y =>
      obtain ⟨c, p1⟩ := y
      simp only [ih]
      cases (k c).runLog p1 with
      | error e => rfl
      | ok z =>
        obtain ⟨r, p2, w⟩ := z
        simp only [Except.map]
        cases (f r).runLog p2 <;> rfl
  | consumeTrivia k ih =>
    simp only [bindE, runLog]
    cases p.consumeTrivia with
    | error e => rfl
    | ok y => exact ih _ _
  | setSkip s k ih => simp only [bindE, runLog]; exact ih _ _ _
  | setStop s k ih => simp only [bindE, runLog]; exact ih _ _ _
  | setState s k ih => simp only [bindE, runLog]; exact ih _ _ _
  | attempt body keep k ih1 ih2 =>
    simp only [bindE, runLog]
    cases body.runLog p with
    | error e => rfl
    | ok y =>
      obtain ⟨r, p1, w⟩ := y
      simp only
      split
      · simp only [ih2]
        cases (k r).runLog p1 with
        | error e => rfl
        | ok z =>
          obtain ⟨r2, p2, w2⟩ := z
          simp only [Except.map]
          cases (f r2).runLog p2 with
          | error e => rfl
          | ok u => simp [List.append_assoc]
      · exact ih2 _ _ _

/-- No program changes the source or the features. -/
theorem runLog_source {α : Type} (prog : Prog α) : ∀ {p p' : Parser} {r : Except Diag α} {w : List Cursor}, prog.runLog p = .ok (r, p', w) →
    p'.lexer.source = p.lexer.source ∧ p'.lexer.features = p.lexer.features := by
  induction prog with
  | ret r =>
    intro p p' r w h
    simp only [runLog, Except.ok.injEq, Prod.mk.injEq] at h
    obtain ⟨_, rfl, rfl⟩ := h
    exact ⟨rfl, rfl⟩
  | panic e => intro p p' r w h; cases h
  | read k ih => intro p p' r w h; exact ih p h
  | next k ih =>
    intro p p' r w h
    simp only [runLog] at h
    cases hn : p.next with
    | error e => rw [hn] at h; cases h
    | ok x =>
      obtain ⟨c, q⟩ := x
      rw [hn] at h
      simp only at h
      cases hk : (k c).runLog q with
      | error e => rw [hk] at h; cases h
      | ok y =>
        obtain ⟨r1, q1, w1⟩ := y
        rw [hk] at h
        simp only [Except.map, Except.ok.injEq, Prod.mk.injEq] at h
        obtain ⟨rfl, rfl, rfl⟩ := h
        have hm := (Parser.next_moved hn).1
        have := ih c hk
        exact ⟨this.1.trans hm.source, this.2.trans hm.features⟩
  | consumeTrivia k ih =>
    intro p p' r w h
    simp only [runLog] at h
    cases hn : p.consumeTrivia with
    | error e => rw [hn] at h; cases h
    | ok q =>
      rw [hn] at h
      have hm := (Parser.consumeTrivia_moved hn).1
      have := ih h
      exact ⟨this.1.trans hm.source, this.2.trans hm.features⟩
  | setSkip s k ih => intro p p' r w h; exact ih p.skip (p := (p.setSkip s).2) h
  | setStop s k ih => intro p p' r w h; exact ih p.stop (p := (p.setStop s).2) h
  | setState s k ih => intro p p' r w h; exact ih p.nested (p := (p.setState s).2) h
  | attempt body keep k ihb ihk =>
    intro p p' r w h
    simp only [runLog] at h
    cases hb : body.runLog p with
    | error e => rw [hb] at h; cases h
    | ok y =>
      obtain ⟨r1, q, w1⟩ := y
      rw [hb] at h
      simp only at h
      have hm := ihb hb
      by_cases hkeep : keep r1 = true
      · simp only [hkeep, if_true] at h
        cases hk : (k r1).runLog q with
        | error e => rw [hk] at h; cases h
        | ok y =>
          obtain ⟨r2, q2, w2⟩ := y
          rw [hk] at h
          simp only [Except.map, Except.ok.injEq, Prod.mk.injEq] at h
          obtain ⟨rfl, rfl, rfl⟩ := h
          have := ihk r1 hk
          exact ⟨this.1.trans hm.1, this.2.trans hm.2⟩
      · simp only [hkeep, Bool.false_eq_true, if_false] at h
        have := ihk r1 h
        exact ⟨this.1.trans hm.1, this.2.trans hm.2⟩

/-- The program returns `r` (a value or a diagnostic) and leaves the parser `p'`; `w` are the cursors taken. -/
def Gives {α : Type} (x : Prog α) (p : Parser) (r : Except Diag α) (p' : Parser) (w : List Cursor) : Prop := x.runLog p = .ok (r, p', w)

theorem gives_bindE {α β : Type} {x : Prog α} {f : Except Diag α → Prog β} {p p' : Parser} {r : Except Diag β} {w : List Cursor} :
    Gives (bindE x f) p r p' w ↔ ∃ r1 p1 w1 w2, Gives x p r1 p1 w1 ∧ Gives (f r1) p1 r p' w2 ∧ w = w1 ++ w2 := by
  unfold Gives
  rw [runLog_bindE]
  cases hx : x.runLog p with
  | error e => simp
  | ok y =>
    obtain ⟨r1, p1, w1⟩ := y
    cases hf : (f r1).runLog p1 with
    | error e => simp [Except.map, hf]
    | ok z =>
      obtain ⟨r2, p2, w2⟩ := z
      simp only [Except.map, Except.ok.injEq, Prod.mk.injEq, hf]
      constructor
      · rintro ⟨rfl, rfl, rfl⟩
        exact ⟨r1, p1, w1, w2, ⟨rfl, rfl, rfl⟩, by rw [hf], rfl⟩
      · rintro ⟨r1', p1', w1', w2', ⟨rfl, rfl, rfl⟩, h2, h3⟩
        rw [hf] at h2
        cases h2
        exact ⟨rfl, rfl, h3.symm⟩

theorem bind_def {α β : Type} (x : Prog α) (f : α → Prog β) : (x >>= f) = bind x f := rfl
theorem pure_def {α : Type} (a : α) : (pure a : Prog α) = ret (.ok a) := rfl

/-- A sequence that succeeds. -/
theorem gives_bind_ok {α β : Type} {x : Prog α} {f : α → Prog β} {p p' : Parser} {b : β} {w : List Cursor} :
    Gives (x >>= f) p (.ok b) p' w ↔ ∃ a p1 w1 w2, Gives x p (.ok a) p1 w1 ∧ Gives (f a) p1 (.ok b) p' w2 ∧ w = w1 ++ w2 := by
  rw [bind_def, bind, gives_bindE]
  constructor
  · rintro ⟨r1, p1, w1, w2, h1, h2, h3⟩
    cases r1 with
    | error d => simp [Gives, runLog] at h2
    | ok a => exact ⟨a, p1, w1, w2, h1, h2, h3⟩
  · rintro ⟨a, p1, w1, w2, h1, h2, h3⟩
    exact ⟨.ok a, p1, w1, w2, h1, h2, h3⟩

/-- A sequence, whatever its result. -/
theorem gives_bind {α β : Type} {x : Prog α} {f : α → Prog β} {p p' : Parser} {r : Except Diag β} {w : List Cursor} :
    Gives (x >>= f) p r p' w ↔ (∃ a p1 w1 w2, Gives x p (.ok a) p1 w1 ∧ Gives (f a) p1 r p' w2 ∧ w = w1 ++ w2)
      ∨ (∃ d, Gives x p (.error d) p' w ∧ r = .error d) := by
  rw [bind_def, bind, gives_bindE]
  constructor
  · rintro ⟨r1, p1, w1, w2, h1, h2, h3⟩
    cases r1 with
    | error d =>
      simp only [Gives, runLog, Except.ok.injEq, Prod.mk.injEq] at h2
      obtain ⟨rfl, rfl, rfl⟩ := h2
      exact .inr ⟨d, by rw [h3, List.append_nil]; exact h1, rfl⟩
    | ok a => exact .inl ⟨a, p1, w1, w2, h1, h2, h3⟩
  · rintro (⟨a, p1, w1, w2, h1, h2, h3⟩ | ⟨d, h1, rfl⟩)
    · exact ⟨.ok a, p1, w1, w2, h1, h2, h3⟩
    · exact ⟨.error d, p', w, [], h1, rfl, by simp⟩

theorem gives_ret {α : Type} {r r' : Except Diag α} {p p' : Parser} {w : List Cursor} :
    Gives (ret r) p r' p' w ↔ r' = r ∧ p' = p ∧ w = [] := by
  unfold Gives
  simp only [runLog, Except.ok.injEq, Prod.mk.injEq]
  constructor
  · rintro ⟨rfl, rfl, rfl⟩; exact ⟨rfl, rfl, rfl⟩
  · rintro ⟨rfl, rfl, rfl⟩; exact ⟨rfl, rfl, rfl⟩

theorem gives_pure {α : Type} {a : α} {r : Except Diag α} {p p' : Parser} {w : List Cursor} :
    Gives (pure a) p r p' w ↔ r = .ok a ∧ p' = p ∧ w = [] := gives_ret

theorem gives_fail {α : Type} {d : DiagCode} {c : Cursor} {r : Except Diag α} {p p' : Parser} {w : List Cursor} :
    Gives (fail d c) p r p' w ↔ r = .error ⟨d, c.span⟩ ∧ p' = p ∧ w = [] := gives_ret

theorem gives_ofResult {α : Type} {r r' : Except Diag α} {p p' : Parser} {w : List Cursor} :
    Gives (ofResult r) p r' p' w ↔ r' = r ∧ p' = p ∧ w = [] := gives_ret

theorem gives_panic {α : Type} {e : Panic} {r : Except Diag α} {p p' : Parser} {w : List Cursor} : ¬ Gives (panic e) p r p' w := by
  simp [Gives, runLog]

theorem gives_result {α : Type} {x : Prog α} {r : Except Diag (Except Diag α)} {p p' : Parser} {w : List Cursor} :
    Gives (result x) p r p' w ↔ ∃ r1, Gives x p r1 p' w ∧ r = .ok r1 := by
  rw [result, gives_bindE]
  constructor
  · rintro ⟨r1, p1, w1, w2, h1, h2, h3⟩
    rw [gives_ret] at h2
    obtain ⟨rfl, rfl, rfl⟩ := h2
    exact ⟨r1, by rw [h3, List.append_nil]; exact h1, rfl⟩
  · rintro ⟨r1, h1, rfl⟩
    exact ⟨r1, p', w, [], h1, rfl, by simp⟩

theorem gives_ask {α : Type} {f : Parser → Except Panic α} {r : Except Diag α} {p p' : Parser} {w : List Cursor} :
    Gives (ask f) p r p' w ↔ ∃ a, f p = .ok a ∧ r = .ok a ∧ p' = p ∧ w = [] := by
  unfold ask
  simp only [Gives, runLog]
  cases f p with
  | error e => simp [runLog]
  | ok a =>
    simp only [runLog, Except.ok.injEq, Prod.mk.injEq, exists_eq_left']
    constructor
    · rintro ⟨rfl, rfl, rfl⟩; exact ⟨rfl, rfl, rfl⟩
    · rintro ⟨rfl, rfl, rfl⟩; exact ⟨rfl, rfl, rfl⟩

theorem gives_next {α : Type} {k : Cursor → Prog α} {r : Except Diag α} {p p' : Parser} {w : List Cursor} :
    Gives (next k) p r p' w ↔ ∃ c p1 w1, p.next = .ok (c, p1) ∧ Gives (k c) p1 r p' w1 ∧ w = c :: w1 := by
  unfold Gives
  simp only [runLog]
  cases p.next with
  | error e => simp
  | ok y =>
    obtain ⟨c, p1⟩ := y
    simp only [Except.ok.injEq, Prod.mk.injEq]
    cases hk : (k c).runLog p1 with
    | error e => simp [Except.map]; intro _ a _; simp [hk] at a
    | ok z =>
      obtain ⟨r2, p2, w2⟩ := z
      simp only [Except.map, Except.ok.injEq, Prod.mk.injEq]
      constructor
      · rintro ⟨rfl, rfl, rfl⟩; exact ⟨c, p1, w2, ⟨rfl, rfl⟩, hk, rfl⟩
      · rintro ⟨c', p1', w1', ⟨rfl, rfl⟩, h2, h3⟩
        rw [hk] at h2
        cases h2
        exact ⟨rfl, rfl, h3.symm⟩

theorem gives_take {r : Except Diag Cursor} {p p' : Parser} {w : List Cursor} :
    Gives take p r p' w ↔ ∃ c, p.next = .ok (c, p') ∧ r = .ok c ∧ w = [c] := by
  rw [take, gives_next]
  constructor
  · rintro ⟨c, p1, w1, h1, h2, rfl⟩
    rw [gives_ret] at h2
    obtain ⟨rfl, rfl, rfl⟩ := h2
    exact ⟨c, h1, rfl, rfl⟩
  · rintro ⟨c, h1, rfl, rfl⟩
    exact ⟨c, p', [], h1, rfl, rfl⟩

theorem gives_setSkip {α : Type} {s : KindSet} {k : KindSet → Prog α} {r : Except Diag α} {p p' : Parser} {w : List Cursor} :
    Gives (setSkip s k) p r p' w ↔ Gives (k p.skip) { p with skip := s } r p' w := by simp only [Gives, runLog]; rfl
theorem gives_setStop {α : Type} {s : KindSet} {k : KindSet → Prog α} {r : Except Diag α} {p p' : Parser} {w : List Cursor} :
    Gives (setStop s k) p r p' w ↔ Gives (k p.stop) { p with stop := s } r p' w := by simp only [Gives, runLog]; rfl
theorem gives_setState {α : Type} {s : Bool} {k : Bool → Prog α} {r : Except Diag α} {p p' : Parser} {w : List Cursor} :
    Gives (setState s k) p r p' w ↔ Gives (k p.nested) { p with nested := s } r p' w := by simp only [Gives, runLog]; rfl

theorem gives_ite {α : Type} {b : Prop} [Decidable b] {x y : Prog α} {r : Except Diag α} {p p' : Parser} {w : List Cursor} :
    Gives (if b then x else y) p r p' w ↔ (b ∧ Gives x p r p' w) ∨ (¬ b ∧ Gives y p r p' w) := by
  by_cases h : b <;> simp [h]

theorem gives_peek {r : Except Diag Cursor} {p p' : Parser} {w : List Cursor} :
    Gives peek p r p' w ↔ ∃ c, p.peekNext = .ok c ∧ r = .ok c ∧ p' = p ∧ w = [] := gives_ask
theorem gives_atEnd {r : Except Diag Bool} {p p' : Parser} {w : List Cursor} :
    Gives atEnd p r p' w ↔ r = .ok p.atEnd ∧ p' = p ∧ w = [] := by
  rw [atEnd, gives_ask]; simp
theorem gives_offset {r : Except Diag Nat} {p p' : Parser} {w : List Cursor} :
    Gives offset p r p' w ↔ r = .ok p.offset ∧ p' = p ∧ w = [] := by
  rw [offset, gives_ask]; simp
theorem gives_nested {r : Except Diag Bool} {p p' : Parser} {w : List Cursor} :
    Gives isNested p r p' w ↔ r = .ok p.nested ∧ p' = p ∧ w = [] := by
  rw [isNested, gives_ask]; simp
theorem gives_nextIsStop {r : Except Diag Bool} {p p' : Parser} {w : List Cursor} :
    Gives nextIsStop p r p' w ↔ ∃ b, p.nextIsStop = .ok b ∧ r = .ok b ∧ p' = p ∧ w = [] := gives_ask

theorem peek_of_next {p p' : Parser} {c : Cursor} (h : p.next = .ok (c, p')) : p.peekNext = .ok c := by
  rw [Parser.C32_peek_next, h]; rfl

/-- `Parse` of a node whose `Peek` looks at the cursor only. -/
theorem gives_tok {g : Cursor → Bool} {r : Except Diag Cursor} {p p' : Parser} {w : List Cursor} :
    Gives (tok fun c => pure (g c)) p r p' w
      ↔ ∃ c, p.next = .ok (c, p') ∧ w = [c] ∧ r = if g c then .ok c else .error ⟨.unexpected, c.span⟩ := by
  unfold tok
  constructor
  · intro h
    rcases gives_bind.mp h with ⟨c, p1, w1, w2, h1, h2, rfl⟩ | ⟨d, h1, _⟩
    · obtain ⟨c', hp, e, rfl, rfl⟩ := gives_peek.mp h1
      cases e
      rcases gives_bind.mp h2 with ⟨b, p2, w3, w4, h3, h4, rfl⟩ | ⟨d, h1, _⟩
      · obtain ⟨e, rfl, rfl⟩ := gives_pure.mp h3
        cases e
        rcases gives_bind.mp h4 with ⟨c2, p3, w5, w6, h5, h6, rfl⟩ | ⟨d, h1, _⟩
        · obtain ⟨c3, hn, e, rfl⟩ := gives_take.mp h5
          cases e
          have := peek_of_next hn
          rw [this] at hp; cases hp
          refine ⟨c, ?_⟩
          by_cases hg : g c = true
          · rw [if_pos hg] at h6
            obtain ⟨rfl, rfl, rfl⟩ := gives_pure.mp h6
            exact ⟨hn, rfl, by rw [if_pos hg]⟩
          · rw [if_neg hg] at h6
            obtain ⟨rfl, rfl, rfl⟩ := gives_fail.mp h6
            exact ⟨hn, rfl, by rw [if_neg hg]⟩
        · obtain ⟨_, _, e, _⟩ := gives_take.mp h1; cases e
      · obtain ⟨e, _⟩ := gives_pure.mp h1; cases e
    · obtain ⟨_, _, e, _⟩ := gives_peek.mp h1; cases e
  · rintro ⟨c, hn, rfl, rfl⟩
    refine gives_bind.mpr (.inl ⟨c, p, [], [c], gives_peek.mpr ⟨c, peek_of_next hn, rfl, rfl, rfl⟩, ?_, rfl⟩)
    refine gives_bind.mpr (.inl ⟨g c, p, [], [c], gives_pure.mpr ⟨rfl, rfl, rfl⟩, ?_, rfl⟩)
    refine gives_bind.mpr (.inl ⟨c, p', [c], [], gives_take.mpr ⟨c, hn, rfl, rfl⟩, ?_, rfl⟩)
    by_cases hg : g c = true
    · rw [if_pos hg, if_pos hg]; exact gives_pure.mpr ⟨rfl, rfl, rfl⟩
    · rw [if_neg hg, if_neg hg]; exact gives_fail.mpr ⟨rfl, rfl, rfl⟩

end Prog
end Hdx

/-
Property C47: highlights of the latest text.
-/
import Verif.Spec.Lsp
import Verif.Model.Token

namespace Hdx.Lsp
open Hdx.Lsp.Spec

variable {π η : Type} (parse : List Char → Option π) (highlight : List Char → π → η)

/-- `n` steps of the two threads. -/
inductive Steps : Nat → Caller η × Worker η → Caller η × Worker η → Prop
  | refl {s} : Steps 0 s s
  | tail {n s t u} : Steps n s t → FileStep parse highlight t u → Steps (n + 1) s u

/-- service.rs:48-62: a new file: the caller has all of its operations before it, the thread parses the empty text. -/
def newFile (ops : List FileOp) : Caller η × Worker η := (⟨ops, false, []⟩, .parsing [])

/-- What is still to be answered. -/
def toCome : Caller η × Worker η → List (Option η)
  | (c, .idle t) => if c.waiting then [] else answers (fun t => (parse t).map (highlight t)) t c.ops
  | (c, .parsing t) => answers (fun t => (parse t).map (highlight t)) t c.ops
  | (c, .highlighting t) => (parse t).map (highlight t) :: answers (fun t => (parse t).map (highlight t)) t c.ops
  | (c, .sending t r) => some r :: answers (fun t => (parse t).map (highlight t)) t c.ops

/-- The invariant. -/
structure Inv (all : List (Option η)) (s : Caller η × Worker η) : Prop where
  replies : ∃ rest, s.1.got.map some ++ rest = all
  exact : ((∀ t, s.2 = .idle t → s.1.waiting = false) → s.1.got.map some ++ toCome parse highlight s = all)
  waits : (∀ t, s.2 = .parsing t → s.1.waiting = false) ∧ (∀ t, s.2 = .highlighting t → s.1.waiting = true)
    ∧ (∀ t r, s.2 = .sending t r → s.1.waiting = true)
  stuck : ∀ t, s.2 = .idle t → s.1.waiting = true → parse t = none

theorem inv_new (ops : List FileOp) :
    Inv parse highlight (answers (fun t => (parse t).map (highlight t)) [] ops) (newFile ops : Caller η × Worker η) where
  replies := ⟨_, rfl⟩
  exact := fun _ => rfl
  waits := by simp [newFile]
  stuck := by simp [newFile]

theorem inv_step {all : List (Option η)} {s s' : Caller η × Worker η} (h : Inv parse highlight all s) (hs : FileStep parse highlight s s') :
    Inv parse highlight all s' := by
  obtain ⟨h1, h2, h3, h4⟩ := h
  cases hs with
  | commit =>
    refine ⟨h1, fun _ => ?_, by simp, by simp⟩
    simpa [toCome, answers] using h2 (by simp)
  | parsed =>
    have w := h3.1 _ rfl
    simp only at w
    refine ⟨h1, fun _ => ?_, by simp, fun t ht hw => ?_⟩
    · have := h2 (by simp)
      simpa [toCome, w] using this
    · simp only at hw w
      rw [w] at hw; cases hw
  | ask =>
    refine ⟨h1, fun _ => ?_, by simp, by simp⟩
    simpa [toCome, answers] using h2 (by simp)
  | highlighted ho =>
    have w := h3.2.1 _ rfl
    refine ⟨h1, fun _ => ?_, ?_, by simp⟩
    · have := h2 (by simp)
      simpa [toCome, ho] using this
    · simpa using w
  | skipped ho =>
    have w := h3.2.1 _ rfl
    simp only at w
    refine ⟨h1, fun hh => ?_, by simp, fun t ht _ => ?_⟩
    · have := hh _ rfl
      simp only at this
      rw [w] at this; cases this
    · simp only [Worker.idle.injEq] at ht
      rw [← ht]; exact ho
  | @reply t r ops got =>
    have := h2 (by simp)
    refine ⟨⟨answers (fun t => (parse t).map (highlight t)) t ops, ?_⟩, fun _ => ?_, by simp, by simp⟩
    · simpa [toCome] using this
    · simpa [toCome] using this

theorem inv_steps {ops : List FileOp} {n : Nat} {s : Caller η × Worker η} (h : Steps parse highlight n (newFile ops) s) :
    Inv parse highlight (answers (fun t => (parse t).map (highlight t)) [] ops) s := by
  generalize hz : (newFile ops : Caller η × Worker η) = z at h
  induction h with
  | refl => subst hz; exact inv_new parse highlight ops
  | tail _ h2 ih => exact inv_step parse highlight (ih hz) h2

/-- In every interleaving, at every moment: the replies received so far are, in order, the highlights of the text committed last
before each request. -/
theorem C50_latest {ops : List FileOp} {n : Nat} {s : Caller η × Worker η} (h : Steps parse highlight n (newFile ops) s) :
    ∃ rest, s.1.got.map some ++ rest = answers (fun t => (parse t).map (highlight t)) [] ops := (inv_steps parse highlight h).replies

/-- The threads never get stuck before all requests are answered and the thread waits for more, if every text that is parsed
gives a style sheet. Missing from the full C47: texts that give none, see `C47_counterexample`. -/
theorem C47_answered_partial {ops : List FileOp} {n : Nat} {s : Caller η × Worker η} (hp : ∀ t, parse t ≠ none)
    (h : Steps parse highlight n (newFile ops) s) :
    (∃ s', FileStep parse highlight s s')
      ∨ (s.1.ops = [] ∧ s.1.waiting = false ∧ s.1.got.map some = answers (fun t => (parse t).map (highlight t)) [] ops) := by
  have inv := inv_steps parse highlight h
  obtain ⟨⟨ops', w, got⟩, wk⟩ := s
  obtain ⟨h1, h2, h3, h4⟩ := inv
  cases wk with
  | idle t =>
    have hw : w = false := by
      cases w with
      | false => rfl
      | true => exact absurd (h4 t rfl rfl) (hp t)
    subst hw
    cases ops' with
    | nil => exact .inr ⟨rfl, rfl, by simpa [toCome, answers] using h2 (by simp)⟩
    | cons op ops' =>
      cases op with
      | commit t' => exact .inl ⟨_, .commit⟩
      | highlights => exact .inl ⟨_, .ask⟩
  | parsing t => exact .inl ⟨_, .parsed⟩
  | highlighting t =>
    cases ho : parse t with
    | none => exact absurd ho (hp t)
    | some o => exact .inl ⟨_, .highlighted ho⟩
  | sending t r =>
    have : w = true := h3.2.2 t r rfl
    subst this
    exact .inl ⟨_, .reply⟩

/-- Steps that are left. -/
def stepsLeft : Caller η × Worker η → Nat
  | (c, .idle _) => 3 * c.ops.length
  | (c, .parsing _) => 3 * c.ops.length + 1
  | (c, .highlighting _) => 3 * c.ops.length + 2
  | (c, .sending _ _) => 3 * c.ops.length + 1

/-- There are at most three steps per operation, whatever the interleaving: with `C47_answered_partial`, every request returns. -/
theorem C50_terminates {ops : List FileOp} {n : Nat} {s : Caller η × Worker η} (h : Steps parse highlight n (newFile ops) s) :
    n ≤ 3 * ops.length + 1 := by
  have : n + stepsLeft s ≤ 3 * ops.length + 1 := by
    generalize hz : (newFile ops : Caller η × Worker η) = z at h
    induction h with
    | refl => subst hz; simp [newFile, stepsLeft]
    | tail _ h2 ih =>
      have := ih hz
      cases h2 <;> simp only [stepsLeft, List.length_cons] at * <;> omega
  omega

/-- A text that gives no style sheet at all: the request for its highlights is never answered, both threads wait for ever, and so
does everything behind it. -/
theorem C47_counterexample {t : List Char} (ht : parse t = none) (ops : List FileOp) :
    ∃ n, ∃ s : Caller η × Worker η, Steps parse highlight n (newFile (.commit t :: .highlights :: ops)) s ∧ s.1.waiting = true ∧ s.1.got = []
      ∧ s.1.ops = ops ∧ ∀ s', ¬ FileStep parse highlight s s' := by
  refine ⟨5, (⟨ops, true, []⟩, .idle t), ?_, rfl, rfl, rfl, ?_⟩
  · exact .tail (.tail (.tail (.tail (.tail .refl .parsed) .commit) .parsed) .ask) (.skipped ht)
  · intro s' hs
    cases hs

/-- Two requests, with a commit between. -/
example : ∃ n, ∃ s : Caller Nat × Worker Nat, Steps (fun t => some t.length) (fun _ n => n) n (newFile [.commit c!"ab", .highlights, .commit c!"abc", .highlights]) s
    ∧ s.1.got = [2, 3] :=
  ⟨_, (⟨[], false, [2, 3]⟩, .idle c!"abc"), .tail (.tail (.tail (.tail (.tail (.tail (.tail (.tail (.tail (.tail (.tail .refl .parsed) .commit) .parsed) .ask) (.highlighted rfl)) .reply)
    .commit) .parsed) .ask) (.highlighted rfl)) .reply, rfl⟩

end Hdx.Lsp

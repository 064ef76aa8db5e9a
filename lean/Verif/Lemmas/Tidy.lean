/-
Which tokens the parser skips: a program that never asks for anything but whitespace and comments to be skipped records nothing but whitespace and comments as
trivia. `Tidy` is a class, so that it can be inferred by following the text of a program.
-/
import Verif.Lemmas.SelectorModes
import Verif.Lemmas.Balanced

namespace Hdx
open Spec Prog

/-- Every token in the second list is in the first one, or is whitespace or a comment. -/
def Swept (a b : List Cursor) : Prop := ∀ c ∈ b, c ∈ a ∨ c.token.inSet KindSet.TRIVIA = true

theorem Swept.refl {a : List Cursor} : Swept a a := fun _ h => .inl h
theorem Swept.trans {a b c : List Cursor} (h : Swept a b) (h' : Swept b c) : Swept a c := fun x hx => by
  rcases h' x hx with h' | h'
  · exact h x h'
  · exact .inr h'
theorem Swept.take {a b : List Cursor} (n : Nat) (h : Swept a b) : Swept a (b.take n) := fun c hc => h c (List.mem_of_mem_take hc)

/-- The set has no more than whitespace and comments in it. -/
class Sweeps (s : KindSet) : Prop where
  out : ∀ n < 32, s.containsBits n = true → KindSet.TRIVIA.containsBits n = true

instance : Sweeps KindSet.NONE := ⟨by decide⟩
instance : Sweeps KindSet.COMMENTS := ⟨by decide⟩
instance : Sweeps KindSet.WHITESPACE := ⟨by decide⟩
instance : Sweeps KindSet.TRIVIA := ⟨by decide⟩

theorem sweeps_inSet {s : KindSet} (hs : Sweeps s) {t : Token} (h : t.inSet s = true) : t.inSet KindSet.TRIVIA = true := by
  have hb : t.kindBits < 32 := by
    have : ((t.w0 >>> 24) &&& 0b11111#32).toNat ≤ 31 := by rw [BitVec.toNat_and]; exact Nat.and_le_right
    unfold Token.kindBits; omega
  exact hs.out _ hb h

theorem nextLoop_swept {skip : KindSet} (hs : Sweeps skip) (l : Lexer) (tr : List Cursor) {c : Cursor} {l' : Lexer} {tr' : List Cursor}
    (h : Parser.nextLoop skip l tr = .ok (c, l', tr')) : Swept tr tr' := by
  fun_induction Parser.nextLoop skip l tr with
  | case1 => cases h
  | case2 => cases h; exact .refl
  | case3 => cases h
  | case4 l tr t l1 ha hc hz ih =>
    refine Swept.trans (fun x hx => ?_) (ih h)
    rcases List.mem_append.mp hx with hx | hx
    · exact .inl hx
    · cases List.mem_singleton.mp hx
      simp only [Bool.or_eq_true, Bool.not_eq_true', not_or, Bool.not_eq_false] at hc
      exact .inr (sweeps_inSet hs hc.2)

theorem consumeTriviaLoop_swept {skip : KindSet} (hs : Sweeps skip) (l : Lexer) (tr : List Cursor) {l' : Lexer} {tr' : List Cursor}
    (h : Parser.consumeTriviaLoop skip l tr = .ok (l', tr')) : Swept tr tr' := by
  fun_induction Parser.consumeTriviaLoop skip l tr with
  | case1 => cases h
  | case2 => cases h; exact .refl
  | case3 => cases h
  | case4 l tr t l1 ha hc hs' hz ih =>
    refine Swept.trans (fun x hx => ?_) (ih h)
    rcases List.mem_append.mp hx with hx | hx
    · exact .inl hx
    · cases List.mem_singleton.mp hx
      exact .inr (sweeps_inSet hs hs')
  | case5 => cases h; exact .refl

/-- Run on a parser that skips no more than whitespace and comments, the program leaves such a set to be skipped, and records nothing but whitespace and comments as trivia. -/
class Tidy {α : Type} (x : Prog α) : Prop where
  out : ∀ ⦃p p' : Parser⦄ ⦃r : Except Diag α⦄ ⦃w : List Cursor⦄, Sweeps p.skip → Gives x p r p' w → Sweeps p'.skip ∧ Swept p.trivia p'.trivia

namespace Tidy
variable {α β : Type}

instance ret {r : Except Diag α} : Tidy (Prog.ret r) := ⟨fun _ _ _ _ hp hg => by obtain ⟨_, rfl, _⟩ := gives_ret.mp hg; exact ⟨hp, .refl⟩⟩
instance pure {a : α} : Tidy (Pure.pure a : Prog α) := ret
instance fail {d : DiagCode} {c : Cursor} : Tidy (Prog.fail d c : Prog α) := ret
instance ofResult {r : Except Diag α} : Tidy (Prog.ofResult r) := ret
instance panic {e : Panic} : Tidy (Prog.panic e : Prog α) := ⟨fun _ _ _ _ _ hg => absurd hg gives_panic⟩
instance ask {f : Parser → Except Panic α} : Tidy (Prog.ask f) := ⟨fun _ _ _ _ hp hg => by obtain ⟨_, _, _, rfl, _⟩ := gives_ask.mp hg; exact ⟨hp, .refl⟩⟩
instance peek : Tidy Prog.peek := ask
instance peekN {n : Nat} : Tidy (Prog.peekN n) := ask
instance atEnd : Tidy Prog.atEnd := ask
instance offset : Tidy Prog.offset := ask
instance nextIsStop : Tidy Prog.nextIsStop := ask
instance isNested : Tidy Prog.isNested := ask
theorem read {k : Parser → Prog α} (h : ∀ p, Tidy (k p)) : Tidy (Prog.read k) := ⟨fun p _ _ _ hp hg => (h p).out hp hg⟩
theorem next {k : Cursor → Prog α} (h : ∀ c, Tidy (k c)) : Tidy (Prog.next k) := ⟨fun p p' r w hp hg => by
  simp only [Gives, runLog] at hg
  cases hn : p.next with
  | error e => rw [hn] at hg; cases hg
  | ok y =>
    obtain ⟨c, q⟩ := y
    rw [hn] at hg
    cases hr : (k c).runLog q with
    | error e => simp [hr, Except.map] at hg
    | ok z =>
      simp only [hr, Except.map, Except.ok.injEq, Prod.mk.injEq] at hg
      obtain ⟨rfl, rfl, _⟩ := hg
      unfold Parser.next at hn
      cases hl : Parser.nextLoop p.skip p.lexer p.trivia with
      | error e => simp [hl, Except.map] at hn
      | ok y =>
        simp only [hl, Except.map, Except.ok.injEq, Prod.mk.injEq] at hn
        obtain ⟨rfl, rfl⟩ := hn
        have := (h y.1).out (p := { p with lexer := y.2.1, trivia := y.2.2 }) hp hr
        exact ⟨this.1, (nextLoop_swept hp _ _ hl).trans this.2⟩⟩
instance take : Tidy Prog.take := next fun _ => ret
theorem consumeTrivia {k : Prog α} (h : Tidy k) : Tidy (Prog.consumeTrivia k) := ⟨fun p p' r w hp hg => by
  simp only [Gives, runLog] at hg
  cases hn : p.consumeTrivia with
  | error e => rw [hn] at hg; cases hg
  | ok q =>
    rw [hn] at hg
    unfold Parser.consumeTrivia at hn
    cases hl : Parser.consumeTriviaLoop p.skip p.lexer p.trivia with
    | error e => simp [hl, Except.map] at hn
    | ok y =>
      simp only [hl, Except.map, Except.ok.injEq] at hn
      subst hn
      have := h.out (p := { p with lexer := y.1, trivia := y.2 }) hp hg
      exact ⟨this.1, (consumeTriviaLoop_swept hp _ _ hl).trans this.2⟩⟩
theorem setSkip {s : KindSet} {k : KindSet → Prog α} (hs : Sweeps s) (h : ∀ old, Sweeps old → Tidy (k old)) : Tidy (Prog.setSkip s k) :=
  ⟨fun p _ _ _ hp hg => (h _ hp).out (p := { p with skip := s }) hs (gives_setSkip.mp hg)⟩
theorem setStop {s : KindSet} {k : KindSet → Prog α} (h : ∀ old, Tidy (k old)) : Tidy (Prog.setStop s k) :=
  ⟨fun p _ _ _ hp hg => (h _).out (p := { p with stop := s }) hp (gives_setStop.mp hg)⟩
theorem setState {s : Bool} {k : Bool → Prog α} (h : ∀ old, Tidy (k old)) : Tidy (Prog.setState s k) :=
  ⟨fun p _ _ _ hp hg => (h _).out (p := { p with nested := s }) hp (gives_setState.mp hg)⟩
theorem attempt {body : Prog β} {keep : Except Diag β → Bool} {k : Except Diag β → Prog α} (hb : Tidy body) (hk : ∀ r, Tidy (k r)) :
    Tidy (Prog.attempt body keep k) := ⟨fun p p' r w hp hg => by
  obtain ⟨r1, p1, w1, w2, h1, ⟨h, rfl, h2⟩ | ⟨h, rfl, h2⟩⟩ := gives_attempt.mp hg
  · have a := hb.out hp h1
    have b := (hk r1).out a.1 h2
    exact ⟨b.1, a.2.trans b.2⟩
  · have a := hb.out hp h1
    have b := (hk r1).out (p := p1.rewind p.checkpoint) a.1 h2
    exact ⟨b.1, (a.2.take _).trans b.2⟩⟩
theorem bindE {x : Prog α} {f : Except Diag α → Prog β} (hx : Tidy x) (hf : ∀ r, Tidy (f r)) : Tidy (Prog.bindE x f) := ⟨fun p p' r w hp hg => by
  obtain ⟨a, p1, w1, w2, h1, h2, rfl⟩ := gives_bindE.mp hg
  have a := hx.out hp h1
  have b := (hf _).out a.1 h2
  exact ⟨b.1, a.2.trans b.2⟩⟩
theorem bind {x : Prog α} {f : α → Prog β} (hx : Tidy x) (hf : ∀ a, Tidy (f a)) : Tidy (x >>= f) := bindE hx fun r => by
  cases r with
  | ok a => exact hf a
  | error d => exact ret
instance result {x : Prog α} [h : Tidy x] : Tidy (Prog.result x) := bindE h fun _ => ret
instance tryParse {x : Prog α} [h : Tidy x] : Tidy (Prog.tryParse x) := attempt h fun _ => ret
theorem ite {b : Prop} [Decidable b] {x y : Prog α} (hx : Tidy x) (hy : Tidy y) : Tidy (if b then x else y) := by split <;> assumption
end Tidy

/-- Proves `Tidy` of a program by following its text. -/
macro "tidy" : tactic => `(tactic| repeat' (first
  | assumption
  | (with_reducible infer_instance)
  | (with_reducible (refine Tidy.bind ?_ (fun _ => ?_)))
  | (with_reducible (refine Tidy.ite ?_ ?_))
  | (with_reducible (refine Tidy.result (h := ?_)))
  | (with_reducible (refine Tidy.tryParse (h := ?_)))
  | (with_reducible (refine Tidy.attempt ?_ (fun _ => ?_)))
  | (with_reducible (refine Tidy.setSkip ?_ (fun _ _ => ?_)))
  | (with_reducible (refine Tidy.setStop (fun _ => ?_)))
  | (with_reducible (refine Tidy.setState (fun _ => ?_)))
  | (with_reducible (refine Tidy.consumeTrivia ?_))
  | (with_reducible (refine Tidy.read (fun _ => ?_)))
  | (with_reducible (refine Tidy.next (fun _ => ?_)))
  | split | (dsimp only)))

end Hdx

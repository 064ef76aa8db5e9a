/-
A calculus for what a program does to a parser that skips one of the usual sets: it leaves the stop set and the nesting as they were, it
leaves one of the usual sets to be skipped, and, if it succeeds, its result and the tokens it took satisfy a predicate.
-/
import Verif.Props.Selectors
import Verif.Props.Rules

namespace Hdx
open Spec Prog

/-- What is left of the modes of a parser by any program, even if it fails. -/
def Same (p p' : Parser) : Prop := UsualSkip p'.skip ∧ p'.stop = p.stop ∧ p'.nested = p.nested

theorem Same.of_modes {p p' : Parser} (hp : UsualSkip p.skip) (h : modes p' = modes p) : Same p p' := by
  simp only [modes, Prod.mk.injEq] at h
  exact ⟨h.1 ▸ hp, h.2.1, h.2.2⟩

theorem Same.trans {p q r : Parser} (h1 : Same p q) (h2 : Same q r) : Same p r := ⟨h2.1, h2.2.1.trans h1.2.1, h2.2.2.trans h1.2.2⟩

/-- See above. -/
def Does {α : Type} (x : Prog α) (P : α → List Cursor → Prop) : Prop :=
  ∀ ⦃p p' : Parser⦄ ⦃r : Except Diag α⦄ ⦃w : List Cursor⦄, UsualSkip p.skip → Gives x p r p' w → Same p p' ∧ ∀ a, r = .ok a → P a (taken w)

/-- The same for a part of a program that begins with another nesting and ends with the nesting `s`. -/
def DoesIn {α : Type} (s : Bool) (x : Prog α) (P : α → List Cursor → Prop) : Prop :=
  ∀ ⦃p p' : Parser⦄ ⦃r : Except Diag α⦄ ⦃w : List Cursor⦄, UsualSkip p.skip → Gives x p r p' w →
    (UsualSkip p'.skip ∧ p'.stop = p.stop ∧ p'.nested = s) ∧ ∀ a, r = .ok a → P a (taken w)

abbrev Usual {α : Type} (x : Prog α) : Prop := Does x fun _ _ => True

namespace Does
variable {α β : Type}

theorem mono {x : Prog α} {P Q : α → List Cursor → Prop} (h : Does x P) (hq : ∀ a t, P a t → Q a t) : Does x Q := fun _ _ _ _ hp hg =>
  ⟨(h hp hg).1, fun a e => hq _ _ ((h hp hg).2 a e)⟩
theorem usual {x : Prog α} {P : α → List Cursor → Prop} (h : Does x P) : Usual x := h.mono fun _ _ _ => trivial
theorem and {x : Prog α} {P Q : α → List Cursor → Prop} (h : Does x P) (h' : Does x Q) : Does x fun a t => P a t ∧ Q a t := fun _ _ _ _ hp hg =>
  ⟨(h hp hg).1, fun a e => ⟨(h hp hg).2 a e, (h' hp hg).2 a e⟩⟩

theorem ofModes {x : Prog α} (hm : KeepsModes x) {P : α → List Cursor → Prop}
    (h : ∀ ⦃p : Parser⦄, UsualSkip p.skip → Succ x p fun a _ w => P a (taken w)) : Does x P := by
  intro p p' r w hp hg
  refine ⟨.of_modes hp (hm hg), ?_⟩
  rintro a rfl
  exact h hp hg

theorem ofUsual {x : Prog α} (hm : Usual x) {P : α → List Cursor → Prop}
    (h : ∀ ⦃p : Parser⦄, UsualSkip p.skip → Succ x p fun a _ w => P a (taken w)) : Does x P := by
  intro p p' r w hp hg
  refine ⟨(hm hp hg).1, ?_⟩
  rintro a rfl
  exact h hp hg

theorem of {x : Prog α} {cur : α → List Cursor} (hw : Writes x cur) (hm : KeepsModes x) : Does x fun a t => t = taken (cur a) :=
  ofModes hm fun _ _ _ _ _ hg => by rw [hw hg]

theorem keeps {x : Prog α} (hm : KeepsModes x) : Usual x := ofModes hm fun _ _ _ _ _ _ => trivial

theorem ret {r : Except Diag α} {P : α → List Cursor → Prop} (h : ∀ a, r = .ok a → P a []) : Does (Prog.ret r) P := by
  intro p p' r' w hp hg
  obtain ⟨rfl, rfl, rfl⟩ := gives_ret.mp hg
  exact ⟨⟨hp, rfl, rfl⟩, h⟩
theorem pure {a : α} {P : α → List Cursor → Prop} (h : P a []) : Does (Pure.pure a) P := ret fun b e => by cases e; exact h
theorem fail {d : DiagCode} {c : Cursor} {P : α → List Cursor → Prop} : Does (Prog.fail d c) P := ret fun _ e => by cases e
theorem ofResult {r : Except Diag α} {P : α → List Cursor → Prop} (h : ∀ a, r = .ok a → P a []) : Does (Prog.ofResult r) P := ret h
theorem panic {e : Panic} {P : α → List Cursor → Prop} : Does (Prog.panic e : Prog α) P := fun _ _ _ _ _ hg => absurd hg gives_panic
theorem ask {f : Parser → Except Panic α} {P : α → List Cursor → Prop} (h : ∀ a, P a []) : Does (Prog.ask f) P := by
  intro p p' r w hp hg
  obtain ⟨a, _, rfl, rfl, rfl⟩ := gives_ask.mp hg
  exact ⟨⟨hp, rfl, rfl⟩, fun b e => by cases e; exact h _⟩
theorem peek {P : Cursor → List Cursor → Prop} (h : ∀ c, P c []) : Does Prog.peek P := ask h
theorem peekN {n : Nat} {P : Cursor → List Cursor → Prop} (h : ∀ c, P c []) : Does (Prog.peekN n) P := ask h
theorem strLower {c : Cursor} {P : List Char → List Cursor → Prop} (h : ∀ s, P s []) : Does (Prog.strLower c) P := ask h
theorem str {c : Cursor} {P : List Char → List Cursor → Prop} (h : ∀ s, P s []) : Does (Prog.str c) P := ask h
theorem eqCase {c : Cursor} {o : List Char} {P : Bool → List Cursor → Prop} (h : ∀ s, P s []) : Does (Prog.eqIgnoreAsciiCase c o) P := ask h

theorem bind {x : Prog α} {f : α → Prog β} {P : α → List Cursor → Prop} {Q : β → List Cursor → Prop} (hx : Does x P)
    (hf : ∀ a t, P a t → Does (f a) fun b u => Q b (t ++ u)) : Does (x >>= f) Q := by
  intro p p' r w hp hg
  rcases gives_bind.mp hg with ⟨a, p1, w1, w2, h1, h2, rfl⟩ | ⟨d, h1, rfl⟩
  · obtain ⟨m1, k1⟩ := hx hp h1
    obtain ⟨m2, k2⟩ := hf a _ (k1 a rfl) m1.1 h2
    exact ⟨m1.trans m2, fun b e => by rw [taken_append]; exact k2 b e⟩
  · exact ⟨(hx hp h1).1, fun b e => by cases e⟩

theorem result {x : Prog α} {P : α → List Cursor → Prop} (hx : Does x P) : Does (Prog.result x) fun r t => ∀ a, r = .ok a → P a t := by
  intro p p' r w hp hg
  obtain ⟨r1, h1, rfl⟩ := gives_result.mp hg
  obtain ⟨m, k⟩ := hx hp h1
  exact ⟨m, fun r e => by cases e; exact k⟩

theorem ite {b : Prop} [Decidable b] {x y : Prog α} {P : α → List Cursor → Prop} (hx : b → Does x P) (hy : ¬ b → Does y P) :
    Does (if b then x else y) P := by
  split
  · next h => exact hx h
  · next h => exact hy h

theorem take : Does Prog.take fun c t => t = taken [c] := of (fun _ _ _ _ h => by obtain ⟨c, _, e, rfl⟩ := gives_take.mp h; cases e; rfl) KeepsModes.take

theorem setSkip {s : KindSet} (hs : UsualSkip s) {k : KindSet → Prog α} {P : α → List Cursor → Prop} (h : ∀ old, UsualSkip old → Does (k old) P) :
    Does (Prog.setSkip s k) P := by
  intro p p' r w hp hg
  obtain ⟨m, k⟩ := h _ hp (p := { p with skip := s }) hs (gives_setSkip.mp hg)
  exact ⟨⟨m.1, m.2.1, m.2.2⟩, k⟩

theorem consumeTrivia {x : Prog α} {P : α → List Cursor → Prop} (h : Does x P) : Does (Prog.consumeTrivia x) P := by
  intro p p' r w hp hg
  simp only [Gives, runLog] at hg
  cases hc : p.consumeTrivia with
  | error e => rw [hc] at hg; cases hg
  | ok q =>
    rw [hc] at hg
    have m := Same.of_modes hp (consumeTrivia_modes hc)
    obtain ⟨m2, k⟩ := h m.1 hg
    exact ⟨m.trans m2, k⟩

theorem attempt {body : Prog β} {keep : Except Diag β → Bool} {k : Except Diag β → Prog α} {P : β → List Cursor → Prop}
    {Q : α → List Cursor → Prop} (hb : Does body P)
    (hk : ∀ r t, keep r = true → (∀ a, r = .ok a → P a t) → Does (k r) fun b u => Q b (t ++ u)) (hr : ∀ r, keep r = false → Does (k r) Q) :
    Does (Prog.attempt body keep k) Q := by
  intro p p' r w hp hg
  obtain ⟨r1, p1, w1, w2, h1, ⟨h, rfl, h2⟩ | ⟨h, rfl, h2⟩⟩ := gives_attempt.mp hg
  · obtain ⟨m1, k1⟩ := hb hp h1
    obtain ⟨m2, k2⟩ := hk r1 _ h k1 m1.1 h2
    exact ⟨m1.trans m2, fun b e => by rw [taken_append]; exact k2 b e⟩
  · obtain ⟨m1, k1⟩ := hb hp h1
    obtain ⟨m2, k2⟩ := hr r1 h (p := p1.rewind p.checkpoint) m1.1 h2
    exact ⟨m1.trans ⟨m2.1, m2.2.1, m2.2.2⟩, k2⟩

theorem tryParse {x : Prog α} {P : α → List Cursor → Prop} (h : Does x P) : Does (Prog.tryParse x) P :=
  attempt h (fun r t _ hr => ofResult fun a e => by rw [List.append_nil]; exact hr a e) fun r hk => ofResult fun a e => by subst e; cases hk

theorem setStop {s : KindSet} {x : Prog α} {k : Except Diag α → Prog β} {P : α → List Cursor → Prop} {Q : β → List Cursor → Prop} (hx : Does x P)
    (hk : ∀ r t, (∀ a, r = .ok a → P a t) → Does (k r) fun b u => Q b (t ++ u)) :
    Does (Prog.setStop s fun old => Prog.result x >>= fun r => Prog.setStop old fun _ => k r) Q := by
  intro p p' r w hp hg
  rcases gives_bind.mp (gives_setStop.mp hg) with ⟨a, p1, w1, w2, h1, h2, rfl⟩ | ⟨d, h1, _⟩
  · obtain ⟨m1, k1⟩ := hx.result (p := { p with stop := s }) hp h1
    obtain ⟨m2, k2⟩ := hk a _ (k1 a rfl) (p := { p1 with stop := p.stop }) m1.1 (gives_setStop.mp h2)
    exact ⟨⟨m2.1, m2.2.1, m2.2.2.trans m1.2.2⟩, fun b e => by rw [taken_append]; exact k2 b e⟩
  · obtain ⟨_, _, e⟩ := gives_result.mp h1; cases e

theorem setState {s : Bool} {x : Prog α} {k : Except Diag α → Prog β} {P : α → List Cursor → Prop} {Q : β → List Cursor → Prop} (hx : Does x P)
    (hk : ∀ r t, (∀ a, r = .ok a → P a t) → Does (k r) fun b u => Q b (t ++ u)) :
    Does (Prog.setState s fun old => Prog.result x >>= fun r => Prog.setState old fun _ => k r) Q := by
  intro p p' r w hp hg
  rcases gives_bind.mp (gives_setState.mp hg) with ⟨a, p1, w1, w2, h1, h2, rfl⟩ | ⟨d, h1, _⟩
  · obtain ⟨m1, k1⟩ := hx.result (p := { p with nested := s }) hp h1
    obtain ⟨m2, k2⟩ := hk a _ (k1 a rfl) (p := { p1 with nested := p.nested }) m1.1 (gives_setState.mp h2)
    exact ⟨⟨m2.1, m2.2.1.trans m1.2.1, m2.2.2⟩, fun b e => by rw [taken_append]; exact k2 b e⟩
  · obtain ⟨_, _, e⟩ := gives_result.mp h1; cases e

/-- A node of one token of a kind. -/
theorem kind {k : Kind} (hk : k ≠ .eof) : Does (Prog.tok (Prog.isKind k)) fun c t => t = [strip c] ∧ c.token.isKind k = true :=
  ofModes (tokKind_modes k) fun _ _ => .tok .kind fun c _ _ hg _ => by
    have : c.token.isKind k = true := (Except.ok.inj (gives_pure.mp hg).1).symm
    exact ⟨taken_kind hk this, this⟩

theorem tok {test : Cursor → Prog Bool} (ht : Inspects test) (hm : ∀ c, KeepsModes (test c)) : Does (Prog.tok test) fun c t => t = taken [c] :=
  ofModes (.tok hm) fun _ _ => .tok ht fun _ _ _ _ _ => rfl

theorem looks {test : Cursor → Prog Bool} (ht : Inspects test) {c : Cursor} {P : Bool → List Cursor → Prop} (h : ∀ b, P b []) : Does (test c) P := by
  intro p p' r w hp hg
  obtain ⟨rfl, rfl⟩ := ht hg
  exact ⟨⟨hp, rfl, rfl⟩, fun b _ => h b⟩

theorem ifPeek {test : Cursor → Prog Bool} (ht : Inspects test) {x : Prog α} {P : α → List Cursor → Prop} (hx : Does x P) :
    Does (Prog.ifPeek test x) fun o t => (o = none ∧ t = []) ∨ ∃ a, o = some a ∧ P a t := by
  unfold Prog.ifPeek
  refine bind (P := fun _ t => t = []) (peek fun _ => rfl) fun c t e => ?_
  subst e
  refine bind (P := fun _ t => t = []) (looks ht fun _ => rfl) fun b t e => ?_
  subst e
  refine ite (fun _ => ?_) fun _ => ?_
  · exact bind hx fun a t h => pure (.inr ⟨a, rfl, by simpa using h⟩)
  · exact pure (.inl ⟨rfl, rfl⟩)

/-- An optional token. -/
theorem optional {k : Kind} (hk : k ≠ .eof) : Does (Prog.ifPeek (Prog.isKind k) (Prog.tok (Prog.isKind k))) fun o t => t = o.toList.map strip :=
  (ifPeek .kind (kind hk)).mono fun o t h => by
    rcases h with ⟨rfl, rfl⟩ | ⟨c, rfl, h, _⟩
    · rfl
    · simp [h]

theorem whitespace : Does Prog.whitespace fun c t => t = taken [c] := of whitespace_writes .whitespace

/-! ### The nesting -/

theorem setStateIn {s : Bool} {k : Bool → Prog α} {P : α → List Cursor → Prop} (h : ∀ old, DoesIn old (k old) P) : Does (Prog.setState s k) P := by
  intro p p' r w hp hg
  obtain ⟨m, k⟩ := h _ (p := { p with nested := s }) hp (gives_setState.mp hg)
  exact ⟨⟨m.1, m.2.1, m.2.2⟩, k⟩

theorem inPeek {s : Bool} {k : Cursor → Prog α} {P : α → List Cursor → Prop} (h : ∀ c, DoesIn s (k c) P) : DoesIn s (Prog.peek >>= k) P := by
  intro p p' r w hp hg
  rcases gives_bind.mp hg with ⟨a, p1, w1, w2, h1, h2, rfl⟩ | ⟨d, h1, _⟩
  · obtain ⟨_, _, _, rfl, rfl⟩ := gives_peek.mp h1
    exact h a hp h2
  · obtain ⟨_, _, e, _⟩ := gives_peek.mp h1; cases e

theorem inResult {s : Bool} {x : Prog α} {k : Except Diag α → Prog β} {P : α → List Cursor → Prop} {Q : β → List Cursor → Prop} (hx : Does x P)
    (hk : ∀ r t, (∀ a, r = .ok a → P a t) → DoesIn s (k r) fun b u => Q b (t ++ u)) : DoesIn s (Prog.result x >>= k) Q := by
  intro p p' r w hp hg
  rcases gives_bind.mp hg with ⟨a, p1, w1, w2, h1, h2, rfl⟩ | ⟨d, h1, _⟩
  · obtain ⟨m1, k1⟩ := hx.result hp h1
    obtain ⟨m2, k2⟩ := hk a _ (k1 a rfl) m1.1 h2
    exact ⟨⟨m2.1, m2.2.1.trans m1.2.1, m2.2.2⟩, fun b e => by rw [taken_append]; exact k2 b e⟩
  · obtain ⟨_, _, e⟩ := gives_result.mp h1; cases e

theorem inIte {s : Bool} {b : Prop} [Decidable b] {x y : Prog α} {P : α → List Cursor → Prop} (hx : b → DoesIn s x P) (hy : ¬ b → DoesIn s y P) :
    DoesIn s (if b then x else y) P := by
  split
  · next h => exact hx h
  · next h => exact hy h

theorem inSetState {s : Bool} {x : Prog α} {P : α → List Cursor → Prop} (h : Does x P) : DoesIn s (Prog.setState s fun _ => x) P := by
  intro p p' r w hp hg
  obtain ⟨m, k⟩ := h (p := { p with nested := s }) hp (gives_setState.mp hg)
  exact ⟨⟨m.1, m.2.1, m.2.2⟩, k⟩

end Does

namespace Usual
variable {α β : Type}
theorem bind {x : Prog α} {f : α → Prog β} (hx : Usual x) (hf : ∀ a, Usual (f a)) : Usual (x >>= f) := Does.bind hx fun a _ _ => hf a
theorem pure {a : α} : Usual (Pure.pure a : Prog α) := Does.pure trivial
theorem fail {d : DiagCode} {c : Cursor} : Usual (Prog.fail d c : Prog α) := Does.fail
theorem panic {e : Panic} : Usual (Prog.panic e : Prog α) := Does.panic
theorem ofResult {r : Except Diag α} : Usual (Prog.ofResult r) := Does.ofResult fun _ _ => trivial
theorem ask {f : Parser → Except Panic α} : Usual (Prog.ask f) := Does.ask fun _ => trivial
theorem peek : Usual Prog.peek := ask
theorem peekN {n : Nat} : Usual (Prog.peekN n) := ask
theorem atEnd : Usual Prog.atEnd := ask
theorem str {c : Cursor} : Usual (Prog.str c) := ask
theorem strLower {c : Cursor} : Usual (Prog.strLower c) := ask
theorem take : Usual Prog.take := Does.take.usual
theorem result {x : Prog α} (h : Usual x) : Usual (Prog.result x) := Does.usual (Does.result h)
theorem tryParse {x : Prog α} (h : Usual x) : Usual (Prog.tryParse x) := Does.tryParse h
theorem ite {b : Prop} [Decidable b] {x y : Prog α} (hx : Usual x) (hy : Usual y) : Usual (if b then x else y) := Does.ite (fun _ => hx) fun _ => hy
theorem setSkip {s : KindSet} (hs : UsualSkip s) {k : KindSet → Prog α} (h : ∀ old, UsualSkip old → Usual (k old)) : Usual (Prog.setSkip s k) :=
  Does.setSkip hs h
end Usual

/-- Proves `Usual` of a program by following its text. -/
macro "usual" : tactic => `(tactic| repeat' (first
  | assumption
  | (with_reducible exact Usual.pure) | (with_reducible exact Usual.fail) | (with_reducible exact Usual.panic) | (with_reducible exact Usual.ofResult)
  | (with_reducible exact Usual.ask) | (with_reducible exact Usual.peek) | (with_reducible exact Usual.peekN) | (with_reducible exact Usual.atEnd)
  | (with_reducible exact Usual.str) | (with_reducible exact Usual.strLower) | (with_reducible exact Usual.take)
  | (with_reducible (refine Usual.tryParse ?_)) | (with_reducible (refine Usual.ite ?_ ?_)) | (with_reducible (refine Usual.bind ?_ (fun _ => ?_)))
  | split | (dsimp only)))

end Hdx

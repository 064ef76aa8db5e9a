/-
A small calculus for what successful runs of a program do: `Succ x p Q` says that every successful run of `x` from the parser `p`
ends with a result, a parser and a list of taken cursors that satisfy `Q`.
-/
import Verif.Props.Modes
import Verif.Props.Features
import Verif.Model.Selectors

namespace Hdx
open Spec Prog

/-- See above. -/
def Succ {α : Type} (x : Prog α) (p : Parser) (Q : α → Parser → List Cursor → Prop) : Prop :=
  ∀ ⦃a : α⦄ ⦃p' : Parser⦄ ⦃w : List Cursor⦄, Gives x p (.ok a) p' w → Q a p' w

/-- A test that looks at the parser without changing it and cannot fail. -/
def Inspects (test : Cursor → Prog Bool) : Prop := ∀ ⦃c : Cursor⦄ ⦃p : Parser⦄ ⦃r : Except Diag Bool⦄ ⦃p' : Parser⦄ ⦃w : List Cursor⦄,
  Gives (test c) p r p' w → p' = p ∧ w = []

namespace Inspects
theorem pureTest {g : Cursor → Bool} : Inspects fun c => (Pure.pure (g c) : Prog Bool) := fun _ _ _ _ _ h => (gives_pure.mp h).2
theorem kind {k : Kind} : Inspects (Prog.isKind k) := pureTest (g := fun c => c.token.isKind k)
theorem delim {ch : Char} : Inspects (Prog.isDelim ch) := pureTest (g := fun c => c.token.isKind .delim && c.token.isChar ch)
theorem inSet {s : KindSet} : Inspects (Prog.inSet s) := pureTest (g := fun c => c.token.inSet s)
theorem keyword {names : List (List Char)} : Inspects (Hdx.isKeyword names) := fun _ _ _ _ _ h => isKeyword_keeps h
theorem doubleDelim {a b : Char} : Inspects (Hdx.isDoubleDelim a b) := fun _ _ _ _ _ h => isDoubleDelim_keeps h
theorem nsTag : Inspects Hdx.isNamespaceTag := pureTest (g := fun c => (c.token.isKind .delim && c.token.isChar '*') || c.token.isKind .ident)
theorem attrValue : Inspects Hdx.isAttributeValue := pureTest (g := fun c => c.token.isKind .ident || c.token.isKind .string)
theorem ask {f : Cursor → Parser → Except Panic Bool} : Inspects fun c => Prog.ask (f c) := fun _ _ _ _ _ h => by
  obtain ⟨_, _, _, rfl, rfl⟩ := gives_ask.mp h; exact ⟨rfl, rfl⟩
theorem readThen {s : Cursor → Prog (List Char)} {g : List Char → Bool} (hs : ∀ c {p r p' w}, Gives (s c) p r p' w → p' = p ∧ w = []) (b : Cursor → Bool) :
    Inspects fun c => if b c = true then s c >>= fun x => Pure.pure (g x) else Pure.pure false := by
  intro c p r p' w h
  rcases gives_ite.mp h with ⟨_, h⟩ | ⟨_, h⟩
  · rcases gives_bind.mp h with ⟨a, p1, w1, w2, h1, h2, rfl⟩ | ⟨d, h1, _⟩
    · obtain ⟨rfl, rfl⟩ := hs _ h1
      obtain ⟨_, rfl, rfl⟩ := gives_pure.mp h2
      exact ⟨rfl, rfl⟩
    · exact hs _ h1
  · exact (gives_pure.mp h).2
theorem functionOf {names : List (List Char)} : Inspects (Hdx.isFunctionOf names) :=
  readThen (s := Prog.strLower) (g := fun s => names.contains s) (fun _ {p r p' w} h => by
    obtain ⟨_, _, _, rfl, rfl⟩ := gives_ask.mp h; exact ⟨rfl, rfl⟩) (fun c => c.token.isKind .function)
theorem attrModifier : Inspects Hdx.isAttributeModifier :=
  readThen (s := Prog.str) (g := fun s => s == ['i'] || s == ['s'] || s == ['I'] || s == ['S']) (fun _ {p r p' w} h => by
    obtain ⟨_, _, _, rfl, rfl⟩ := gives_ask.mp h; exact ⟨rfl, rfl⟩) (fun c => c.token.isKind .ident)
end Inspects

namespace Succ
variable {α β : Type} {p : Parser}

theorem pure {a : α} {Q} (h : Q a p []) : Succ (Pure.pure a) p Q := by
  intro a p' w hg; obtain ⟨e, rfl, rfl⟩ := gives_pure.mp hg; cases e; exact h
theorem fail {d : DiagCode} {c : Cursor} {Q} : Succ (Prog.fail d c : Prog α) p Q := fun _ _ _ hg => absurd hg not_fail
theorem panic {e : Panic} {Q} : Succ (Prog.panic e : Prog α) p Q := fun _ _ _ hg => absurd hg gives_panic
theorem ofOk {a : α} {Q} (h : Q a p []) : Succ (Prog.ofResult (.ok a)) p Q := pure h
theorem ofErr {d : Diag} {Q} : Succ (Prog.ofResult (.error d) : Prog α) p Q := by
  intro a p' w hg; obtain ⟨e, _⟩ := gives_ofResult.mp hg; cases e
theorem ofResult {r : Except Diag α} {Q} (h : ∀ a, r = .ok a → Q a p []) : Succ (Prog.ofResult r) p Q := by
  intro a p' w hg; obtain ⟨e, rfl, rfl⟩ := gives_ofResult.mp hg; exact h a e.symm
theorem ask {f : Parser → Except Panic α} {Q} (h : ∀ a, f p = .ok a → Q a p []) : Succ (Prog.ask f) p Q := by
  intro a p' w hg; obtain ⟨b, e, e', rfl, rfl⟩ := gives_ask.mp hg; cases e'; exact h _ e
theorem bind {x : Prog α} {f : α → Prog β} {Q} (h : Succ x p fun a p1 w1 => Succ (f a) p1 fun b p2 w2 => Q b p2 (w1 ++ w2)) : Succ (x >>= f) p Q := by
  intro b p' w hg
  obtain ⟨a, p1, w1, w2, h1, h2, rfl⟩ := gives_bind_ok.mp hg
  exact h h1 h2
theorem result {x : Prog α} {Q} (h : Succ x p fun a p1 w => Q (.ok a) p1 w) (he : ∀ d p1 w, Gives x p (.error d) p1 w → Q (.error d) p1 w) :
    Succ (Prog.result x) p Q := by
  intro r p' w hg
  obtain ⟨r1, h1, e⟩ := gives_result.mp hg
  cases e
  cases r with
  | ok a => exact h h1
  | error d => exact he d _ _ h1
theorem take {Q} (h : ∀ c p', p.next = .ok (c, p') → Q c p' [c]) : Succ Prog.take p Q := by
  intro a p' w hg; obtain ⟨c, hn, e, rfl⟩ := gives_take.mp hg; cases e; exact h _ _ hn
theorem ite {b : Prop} [Decidable b] {x y : Prog α} {Q} (hx : b → Succ x p Q) (hy : ¬ b → Succ y p Q) : Succ (if b then x else y) p Q := by
  intro a p' w hg
  rcases gives_ite.mp hg with ⟨hb, h⟩ | ⟨hb, h⟩
  · exact hx hb h
  · exact hy hb h
theorem setSkip {s : KindSet} {k : KindSet → Prog α} {Q} (h : Succ (k p.skip) { p with skip := s } Q) : Succ (Prog.setSkip s k) p Q :=
  fun _ _ _ hg => h (gives_setSkip.mp hg)
theorem consumeTrivia {k : Prog α} {Q} (h : ∀ p', p.consumeTrivia = .ok p' → Succ k p' Q) : Succ (Prog.consumeTrivia k) p Q := by
  intro a p' w hg
  simp only [Gives, runLog] at hg
  cases hc : p.consumeTrivia with
  | error e => rw [hc] at hg; cases hg
  | ok q => rw [hc] at hg; exact h q hc hg
theorem of {x : Prog α} {cur : α → List Cursor} (hw : Writes x cur) (hm : KeepsModes x) {Q} (h : ∀ a p', modes p' = modes p → Q a p' (cur a)) : Succ x p Q := by
  intro a p' w hg
  rw [hw hg]
  exact h a p' (hm hg)
theorem done {x : Prog α} {cur : α → List Cursor} (hw : Writes x cur) {Q} (h : ∀ a p', Gives x p (.ok a) p' (cur a) → Q a p' (cur a)) : Succ x p Q := by
  intro a p' w hg
  have := hw hg
  subst this
  exact h a p' hg
theorem str {c : Cursor} {Q} (h : ∀ s, Q s p []) : Succ (Prog.str c) p Q := ask fun s _ => h s
theorem strLower {c : Cursor} {Q} (h : ∀ s, Q s p []) : Succ (Prog.strLower c) p Q := ask fun s _ => h s
theorem peek {Q} (h : ∀ c, p.peekNext = .ok c → Q c p []) : Succ Prog.peek p Q := ask h
theorem peekN {n : Nat} {Q} (h : ∀ c, p.peekN n = .ok c → Q c p []) : Succ (Prog.peekN n) p Q := ask h
theorem mono {x : Prog α} {Q Q'} (h : Succ x p Q) (hq : ∀ a p' w, Q a p' w → Q' a p' w) : Succ x p Q' := fun _ _ _ hg => hq _ _ _ (h hg)
theorem tok {test : Cursor → Prog Bool} (ht : Inspects test) {Q}
    (h : ∀ c p', p.next = .ok (c, p') → Gives (test c) p (.ok true) p [] → modes p' = modes p → Q c p' [c]) : Succ (Prog.tok test) p Q := by
  intro c p' w hg
  obtain ⟨hn, h3, rfl⟩ := (gives_tok_pure (fun h => ht h)).mp hg
  exact h _ _ hn h3 (next_modes hn)
theorem looks {test : Cursor → Prog Bool} (ht : Inspects test) {c : Cursor} {Q} (h : ∀ b, Gives (test c) p (.ok b) p [] → Q b p []) : Succ (test c) p Q := by
  intro b p' w hg
  obtain ⟨rfl, rfl⟩ := ht hg
  exact h b hg
theorem ifPeek {test : Cursor → Prog Bool} {x : Prog α} (ht : Inspects test) {Q} (hx : Succ x p fun a p1 w => Q (some a) p1 w) (hn : Q none p []) :
    Succ (Prog.ifPeek test x) p Q := by
  intro o p' w hg
  obtain ⟨c, b, p1, w1, w2, hc, h1, rfl, ⟨rfl, a, rfl, hb⟩ | ⟨rfl, rfl, rfl, rfl⟩⟩ := gives_ifPeek.mp hg
  · obtain ⟨rfl, rfl⟩ := ht h1
    exact hx hb
  · obtain ⟨rfl, rfl⟩ := ht h1
    exact hn
theorem attempt {body : Prog β} {keep : Except Diag β → Bool} {k : Except Diag β → Prog α} {Q}
    (h : ∀ r p1 w1, Gives body p r p1 w1 → (keep r = true → Succ (k r) p1 fun a p2 w2 => Q a p2 (w1 ++ w2))
      ∧ (keep r = false → Succ (k r) (p1.rewind p.checkpoint) Q)) : Succ (Prog.attempt body keep k) p Q := by
  intro a p' w hg
  obtain ⟨r1, p1, w1, w2, h1, ⟨hk, e, h2⟩ | ⟨hk, e, h2⟩⟩ := gives_attempt.mp hg
  · subst e; exact (h _ _ _ h1).1 hk h2
  · subst e; exact (h _ _ _ h1).2 (by simpa using hk) h2

end Succ

theorem Succ.writes {α : Type} {x : Prog α} {cur : α → List Cursor} (h : ∀ p, Succ x p fun a _ w => w = cur a) : Writes x cur :=
  fun p _ _ _ hg => h p hg


theorem whitespace_writes : Writes whitespace (fun c => [c]) := by
  intro p p' a w h
  unfold whitespace at h
  obtain ⟨c, p1, w1, h1, h2, rfl⟩ := gives_next.mp (gives_setSkip.mp h)
  rcases gives_ite.mp (gives_setSkip.mp h2) with ⟨_, h⟩ | ⟨_, h⟩
  · obtain ⟨e, rfl, rfl⟩ := gives_pure.mp h; cases e; rfl
  · exact absurd h not_fail

/-- Follows the text of a program. -/
macro "succ" : tactic => `(tactic| repeat' (with_reducible (first
  | (refine Succ.tok Inspects.kind (fun _ _ _ _ _ => ?_)) | (refine Succ.tok Inspects.delim (fun _ _ _ _ _ => ?_))
  | (refine Succ.tok Inspects.nsTag (fun _ _ _ _ _ => ?_)) | (refine Succ.tok Inspects.attrValue (fun _ _ _ _ _ => ?_))
  | (refine Succ.tok Inspects.functionOf (fun _ _ _ _ _ => ?_)) | (refine Succ.tok Inspects.attrModifier (fun _ _ _ _ _ => ?_))
  | (refine Succ.looks Inspects.keyword (fun _ _ => ?_)) | (refine Succ.looks Inspects.doubleDelim (fun _ _ => ?_))
  | (refine Succ.done doubleDelim_writes (fun _ _ _ => ?_)) | (refine Succ.done whitespace_writes (fun _ _ _ => ?_))
  | (refine Succ.str (fun _ => ?_)) | (refine Succ.strLower (fun _ => ?_)) | (refine Succ.peek (fun _ _ => ?_)) | (refine Succ.peekN (fun _ _ => ?_))
  | (refine Succ.ofOk ?_) | (refine Succ.ofErr) | (refine Succ.ofResult (fun _ _ => ?_))
  | (refine Succ.ask (fun _ _ => ?_)) | refine Succ.fail | refine Succ.panic | refine Succ.setSkip ?_
  | (refine Succ.ite (fun _ => ?_) (fun _ => ?_)) | refine Succ.pure ?_ | refine Succ.bind ?_)))

end Hdx

/-
A calculus for what the tokens a program takes are, on a given source.
-/
import Verif.Spec.ValueSyntax
import Verif.Lemmas.ValueSaves

namespace Hdx
open Spec Prog

/-- Every successful run of `x` on the source `src` gives a result and takes tokens that are in `P`. -/
def Reads {α : Type} (src : List Char) (x : Prog α) (P : α → List Cursor → Prop) : Prop :=
  ∀ ⦃p : Parser⦄, p.lexer.source = src → Succ x p fun a _ w => P a w

namespace Reads
variable {α β : Type} {src : List Char} {P : α → List Cursor → Prop} {Q : β → List Cursor → Prop}

theorem pure {a : α} (h : P a []) : Reads src (Pure.pure a) P := fun _ _ => Succ.pure h
theorem fail {d : DiagCode} {c : Cursor} : Reads src (Prog.fail d c : Prog α) P := fun _ _ => Succ.fail
theorem panic {e : Panic} : Reads src (Prog.panic e : Prog α) P := fun _ _ => Succ.panic
theorem error {d : Diag} : Reads src (Prog.ofResult (.error d) : Prog α) P := fun _ _ => Succ.ofErr
theorem mono {x : Prog α} {P' : α → List Cursor → Prop} (h : Reads src x P) (hi : ∀ a w, P a w → P' a w) : Reads src x P' :=
  fun _ hp _ _ _ hg => hi _ _ (h hp hg)
theorem bind {x : Prog α} {f : α → Prog β} (hx : Reads src x P) (hf : ∀ a w, P a w → Reads src (f a) fun b v => Q b (w ++ v)) :
    Reads src (x >>= f) Q := by
  intro p hp b p' w hg
  obtain ⟨a, p1, w1, w2, h1, h2, rfl⟩ := gives_bind_ok.mp hg
  exact hf a w1 (hx hp h1) ((runLog_source x h1).1.trans hp) h2
theorem ask {f : Parser → Except Panic α} (h : ∀ p a, p.lexer.source = src → f p = .ok a → P a []) : Reads src (Prog.ask f) P :=
  fun p hp => Succ.ask fun a ha => h p a hp ha
theorem ite {b : Prop} [Decidable b] {x y : Prog α} (hx : b → Reads src x P) (hy : ¬ b → Reads src y P) : Reads src (if b then x else y) P :=
  fun _ hp => Succ.ite (fun h => hx h hp) (fun h => hy h hp)
theorem read {k : Parser → Prog α} (h : ∀ p, Reads src (k p) P) : Reads src (Prog.read k) P := fun p hp _ _ _ hg => h p hp hg
/-- A step that takes nothing, and of whose result something is known. -/
theorem look {x : Prog α} {f : α → Prog β} {R : α → Prop} (hx : Reads src x fun a w => w = [] ∧ R a) (hf : ∀ a, R a → Reads src (f a) Q) :
    Reads src (x >>= f) Q := bind hx fun a w h => by rw [h.1]; exact hf a h.2
/-- Any token. -/
theorem next {x : Prog Cursor} {f : Cursor → Prog β} {T : Cursor → Prop} (hx : Reads src x fun c w => w = [c] ∧ T c)
    (hf : ∀ c, T c → Reads src (f c) fun b v => Q b (c :: v)) : Reads src (x >>= f) Q := bind hx fun c w h => by rw [h.1]; exact hf c h.2
theorem test {test : Cursor → Prog Bool} (hi : Inspects test) {T : Cursor → Prop} {c : Cursor} (ht : Says src (test c) fun b => b = true → T c) :
    Reads src (test c) fun b w => w = [] ∧ (b = true → T c) := fun p hp b p' w hg => ⟨(hi hg).2, ht hp hg⟩
theorem tok {test : Cursor → Prog Bool} (hi : Inspects test) {T : Cursor → Prop} (ht : ∀ c, Says src (test c) fun b => b = true → T c) :
    Reads src (Prog.tok test) fun c w => w = [c] ∧ T c := by
  intro p hp c p' w hg
  obtain ⟨hn, h3, rfl⟩ := (gives_tok_pure (fun h => hi h)).mp hg
  exact ⟨rfl, ht c hp h3 rfl⟩
theorem kind {k : Kind} : Reads src (Prog.tok (Prog.isKind k)) fun c w => w = [c] ∧ IsKind k c := tok Inspects.kind fun _ => .pure id
theorem ifPeek {test : Cursor → Prog Bool} (hi : Inspects test) {x : Prog α} (hx : Reads src x P) :
    Reads src (Prog.ifPeek test x) fun o w => (o = none ∧ w = []) ∨ ∃ a, o = some a ∧ P a w := by
  intro p hp o p' w hg
  obtain ⟨c, b, p1, w1, w2, hc, h1, rfl, ⟨rfl, a, rfl, hb⟩ | ⟨rfl, rfl, rfl, rfl⟩⟩ := gives_ifPeek.mp hg
  · obtain ⟨rfl, rfl⟩ := hi h1
    exact .inr ⟨a, rfl, hx hp hb⟩
  · exact .inl ⟨rfl, by rw [(hi h1).2]; rfl⟩
theorem optKind {k : Kind} : Reads src (Prog.ifPeek (Prog.isKind k) (Prog.tok (Prog.isKind k))) fun o w => w = o.toList ∧ Closes k o :=
  (ifPeek .kind kind).mono fun o w h => by
    rcases h with ⟨rfl, rfl⟩ | ⟨c, rfl, rfl, h⟩
    · exact ⟨rfl, nofun⟩
    · exact ⟨rfl, fun c' e => by cases e; exact h⟩
theorem any : Reads src Hdx.any fun c w => w = [c] ∧ True := by
  unfold Hdx.any
  exact tok (.pureTest (g := fun _ => true)) fun _ => (Says.any _).mono fun _ _ _ => trivial
theorem peek : Reads src Prog.peek fun _ w => w = [] ∧ True := ask fun _ _ _ _ => ⟨rfl, trivial⟩
theorem peekN {n : Nat} : Reads src (Prog.peekN n) fun _ w => w = [] ∧ True := ask fun _ _ _ _ => ⟨rfl, trivial⟩
theorem offset : Reads src Prog.offset fun _ w => w = [] ∧ True := ask fun _ _ _ _ => ⟨rfl, trivial⟩
theorem str {c : Cursor} : Reads src (Prog.str c) fun _ w => w = [] ∧ True := ask fun _ _ _ _ => ⟨rfl, trivial⟩
theorem strLower {c : Cursor} : Reads src (Prog.strLower c) fun s w => w = [] ∧ Named src c s := ask fun p a hp ha => ⟨rfl, by rw [hp] at ha; exact ha⟩
theorem eqCase {c : Cursor} {o : List Char} : Reads src (Prog.eqIgnoreAsciiCase c o) fun b w => w = [] ∧ (c.eqIgnoreAsciiCase src o = .ok b) :=
  ask fun p a hp ha => ⟨rfl, by rw [hp] at ha; exact ha⟩
theorem keyword {names : List (List Char)} : Reads src (Hdx.keyword names) fun r w => w = [r.2] ∧ IsKind .ident r.2 ∧ Named src r.2 r.1 ∧ r.1 ∈ names :=
  fun _ hp _ _ _ hg => ⟨keyword_writes hg, Says.keyword hp hg⟩

end Reads
end Hdx

/-
Programs on a known list of tokens, with fuel for all that is left; values that are kept as they are written.
-/
import Verif.Lemmas.Raw
import Verif.Props.ValueAccepts

namespace Hdx
open Spec Prog
section
variable {src : List Char} {α β : Type} {n : Nat} {ts ts1 ts' : List Cursor} {P : α → Prop} {Q : β → Prop}

/-- On the tokens `ts`, if there are fewer than `n` tokens in the rest of the source, the program succeeds, `ts'` are left, and `P` holds of the result. -/
def Walks (src : List Char) (n : Nat) (ts : List Cursor) (x : Prog α) (ts' : List Cursor) (P : α → Prop) : Prop :=
  ∀ ⦃p : Parser⦄, On src p ts → Room n p → ∃ a q w, Gives x p (.ok a) q w ∧ On src q ts' ∧ P a

theorem Yields.walks {x : Prog α} (h : Yields src ts x ts' P) : Walks src n ts x ts' P := fun _ hp _ => h hp

theorem Walks.steps {cs cs' : List Cursor} {x : Prog α} (h : Walks src n (solid cs) x (solid cs') P) (hsuf : cs' <:+ cs) : Steps src n cs x cs' P := by
  intro p hp hr
  obtain ⟨a, q, w, h1, h2, h3⟩ := h hp.on hr
  obtain ⟨hs, tail, hl, ht, hf⟩ := hp
  obtain ⟨cs1, g1, g2⟩ := runLog_suffix x h1 hl.stream
  obtain ⟨cs2, k1, k2, k3⟩ := h2.stream
  cases k1.det g1
  exact ⟨a, q, w, h1, ⟨h2.skip, _, hl.moved g1 g2 h2.source h2.skip, ahead_same g2 hsuf ht k2, k3⟩, h3⟩

namespace Walks

theorem pure {a : α} (h : P a) : Walks src n ts (Pure.pure a) ts P := (Yields.pure h).walks
theorem bind {x : Prog α} {f : α → Prog β} (hx : Walks src n ts x ts1 P) (hf : ∀ a, P a → Walks src n ts1 (f a) ts' Q) : Walks src n ts (x >>= f) ts' Q := by
  intro p hp hr
  obtain ⟨a, q, w, h1, h2, h3⟩ := hx hp hr
  obtain ⟨b, q2, w2, g1, g2, g3⟩ := hf a h3 h2 (room_between hp h1 hr)
  exact ⟨b, q2, _, gives_seq h1 g1, g2, g3⟩
theorem mono {x : Prog α} {P' : α → Prop} (h : Walks src n ts x ts' P) (hp : ∀ a, P a → P' a) : Walks src n ts x ts' P' := fun p hq hr => by
  obtain ⟨a, q, w, h1, h2, h3⟩ := h hq hr
  exact ⟨a, q, w, h1, h2, hp a h3⟩
theorem more {m : Nat} {x : Prog α} (h : Walks src m ts x ts' P) (hm : n ≤ m) : Walks src n ts x ts' P := fun _ hq hr => h hq (hr.mono hm)
theorem peek {c : Cursor} {f : Cursor → Prog β} (h : Walks src n (c :: ts) (f c) ts' Q) : Walks src n (c :: ts) (Prog.peek >>= f) ts' Q := by
  intro p hp hr
  obtain ⟨b, q2, w2, g1, g2, g3⟩ := h hp hr
  exact ⟨b, q2, _, gives_of_peek hp.peek g1, g2, g3⟩
theorem test {x : Prog Bool} {b : Bool} {f : Bool → Prog β} (hx : Tests src x b) (h : Walks src n ts (f b) ts' Q) : Walks src n ts (x >>= f) ts' Q := by
  intro p hp hr
  obtain ⟨a, q2, w2, g1, g2, g3⟩ := h hp hr
  exact ⟨a, q2, _, gives_seq (hx hp.source) g1, g2, g3⟩
theorem pos {b : Prop} [Decidable b] {x y : Prog α} (hb : b) (h : Walks src n ts x ts' P) : Walks src n ts (if b then x else y) ts' P := by rw [if_pos hb]; exact h
theorem neg {b : Prop} [Decidable b] {x y : Prog α} (hb : ¬ b) (h : Walks src n ts y ts' P) : Walks src n ts (if b then x else y) ts' P := by rw [if_neg hb]; exact h
theorem attempt {body : Prog β} {keep : Except Diag β → Bool} {k : Except Diag β → Prog α}
    (hb : Walks src n ts body ts1 Q) (hk : ∀ b, Q b → keep (.ok b) = true) (h : ∀ b, Q b → Walks src n ts1 (k (.ok b)) ts' P) : Walks src n ts (Prog.attempt body keep k) ts' P := by
  intro p hp hr
  obtain ⟨b, q, w, h1, h2, h3⟩ := hb hp hr
  obtain ⟨a, q2, w2, g1, g2, g3⟩ := h b h3 h2 (room_between hp h1 hr)
  exact ⟨a, q2, _, gives_attempt.mpr ⟨_, _, _, _, h1, .inl ⟨hk b h3, rfl, g1⟩⟩, g2, g3⟩
/-- The first part does nothing but look, and is undone. -/
theorem undo {body : Prog β} {keep : Except Diag β → Bool} {k : Except Diag β → Prog α} {b : β} (hb : ∀ ⦃p : Parser⦄, On src p ts → Gives body p (.ok b) p []) (hk : keep (.ok b) = false)
    (h : Walks src n ts (k (.ok b)) ts' P) : Walks src n ts (Prog.attempt body keep k) ts' P := by
  intro p hp hr
  have e : (p.rewind p.checkpoint).lexer = p.lexer := rfl
  obtain ⟨a, q2, w2, g1, g2, g3⟩ := h (p := p.rewind p.checkpoint) (hp.congr e rfl) (hr.congr e)
  exact ⟨a, q2, _, gives_attempt.mpr ⟨_, _, _, _, hb hp, .inr ⟨hk, rfl, g1⟩⟩, g2, g3⟩
theorem result {x : Prog α} (h : Walks src n ts x ts' P) : Walks src n ts (Prog.result x) ts' fun r => ∃ a, r = .ok a ∧ P a := by
  intro p hp hr
  obtain ⟨a, q, w, h1, h2, h3⟩ := h hp hr
  exact ⟨_, q, w, gives_result.mpr ⟨_, h1, rfl⟩, h2, a, rfl, h3⟩

end Walks

theorem units_of_raw {S : KindSet} (hS : ∀ k ∈ .function :: valueKinds, k ≠ .semicolon → S.contains k = false) (hS' : ∀ k e, Mirror k e → S.contains k = false) {w : List Cursor} (h : RawTokens w) : Units S w := by
  induction h with
  | nil => exact .nil
  | @single c cs h1 h2 _ ih => exact .cons (u := [c]) (.single h1) rfl (hS _ (.tail _ h1) h2) ih
  | @block o e inner cs h1 h2 _ ih =>
    have := Units.cons (S := S) (u := o :: (inner ++ [e])) (.block h1 h2) rfl (hS' _ _ h1) ih
    simpa using this
  | @function f e inner cs h1 h2 h3 _ ih =>
    have := Units.cons (S := S) (u := f :: (inner ++ [e])) (.function h1 h2 h3) rfl (by rw [h1]; exact hS _ (.head _) (by decide)) ih
    simpa using this

theorem rawValue_walks {m : Nat} (hm : n ≤ m) {w rest : List Cursor} {e : Cursor} (hw : RawTokens w) (he : IsKind .rightCurly e ∨ IsKind .semicolon e) :
    Walks src n (w ++ e :: rest) (rawValue m) (e :: rest) (ReadsAs w) := by
  intro p hp hr
  have hX : Units KindSet.RIGHT_CURLY_OR_SEMICOLON w := units_of_raw (by decide) (fun k e h => by cases h <;> decide) hw
  have he' : KindSet.RIGHT_CURLY_OR_SEMICOLON.contains e.token.kind = true := by
    rcases he with h | h <;> rw [(isKind_iff (by decide)).mp h] <;> decide
  obtain ⟨vs, q, w', h1, h2, h3, h4⟩ := loop_runs (item_runs m) he' m (p := { p with nested := true, stop := KindSet.RIGHT_CURLY_OR_SEMICOLON }) (acc := []) hX (hp.congr rfl rfl)
    ((hr.mono hm).congr rfl) ((hr.mono hm).congr rfl) rfl
  refine ⟨vs, { q with nested := p.nested, stop := p.stop }, w' ++ [], ?_, h2.congr rfl rfl, h4⟩
  unfold rawValue
  refine gives_setState.mpr (gives_setStop.mpr (gives_seq (gives_result.mpr ⟨_, h1, rfl⟩) ?_))
  exact gives_setState.mpr (gives_setStop.mpr (gives_ofResult.mpr ⟨rfl, rfl, rfl⟩))

end
end Hdx

/-
Tokens with nothing between them; looking further ahead.
-/
import Verif.Spec.Touch
import Verif.Lemmas.Walks

namespace Hdx
open Spec Prog
section
variable {src : List Char} {α β : Type} {n : Nat}

theorem Stream.offsets {l : Lexer} {xs r : List Cursor} {b : Cursor} (h : Stream l (xs ++ b :: r)) : l.offset + xs.length ≤ b.offset := by
  induction xs generalizing l with
  | nil => cases h; exact Nat.le_refl _
  | cons x xs ih =>
    cases h with
    | cons ha hk hz h' =>
      have := ih h'
      rw [(advance_keeps ha).2.2] at this
      simp
      omega

theorem Stream.after {l : Lexer} {pre r : List Cursor} {a : Cursor} (h : Stream l (pre ++ a :: r)) : ∃ l' : Lexer, Stream l' r ∧ l'.offset = a.offset + a.token.len.toNat := by
  induction pre generalizing l with
  | nil =>
    cases h with
    | cons ha hk hz h' => exact ⟨_, h', (advance_keeps ha).2.2⟩
  | cons x xs ih =>
    cases h with
    | cons ha hk hz h' => exact ih h'

/-- After a token that touches the next, the next is there even if nothing is skipped. -/
theorem On.touch {p : Parser} {a b : Cursor} {ts : List Cursor} (h : On src p (a :: b :: ts)) (ht : Touch a b) :
    ∃ q, p.next = .ok (a, q) ∧ On src q (b :: ts) ∧ ∃ r, ({ q with skip := KindSet.NONE } : Parser).next = .ok (b, r) ∧ On src { r with skip := KindSet.TRIVIA } ts := by
  obtain ⟨hsrc, hskip, cs, hst, hs, hf⟩ := h
  obtain ⟨pre, rest, rfl, h1, h2, h3⟩ := List.filter_eq_cons_iff.mp hs
  obtain ⟨pre', rest', rfl, k1, k2, k3⟩ := List.filter_eq_cons_iff.mp h3
  have hnil : pre' = [] := by
    obtain ⟨l', g1, g2⟩ := hst.after
    have := g1.offsets
    unfold Touch at ht
    cases pre' with
    | nil => rfl
    | cons x xs => simp at this; omega
  subst hnil
  have hp : ∀ x ∈ pre, x.token.inSet p.skip = true := fun x hx => by simpa [hskip] using h1 x hx
  have hc : a.token.inSet p.skip = false := by simpa [hskip] using h2
  obtain ⟨l', e, b', c1, _⟩ := next_stream hst
  rw [firstOutside, dropWhile_pre hp hc] at e
  rw [dropWhile_pre hp hc] at b'
  simp at hf
  have hfu : ∀ q : Parser, q.lexer.source = p.lexer.source → q.fuel = p.fuel := fun q h => by simp only [Parser.fuel, h]
  refine ⟨_, e, ⟨c1.trans hsrc, hskip, _, b', h3, ?_⟩, ?_⟩
  · rw [hfu _ c1]
    simp
    omega
  · replace b' : Stream l' (b :: rest') := b'
    obtain ⟨l2, e2, b2, c2, _⟩ := next_stream (p := { p with lexer := l', trivia := _, skip := KindSet.NONE }) b'
    have hb : ∀ c : Cursor, c.token.inSet KindSet.NONE = false := fun c => by
      show (KindSet.NONE.containsBits c.token.kindBits) = false
      have : ∀ k : Fin 32, KindSet.NONE.containsBits k.val = false := by decide
      exact this ⟨_, kindBits_small c.token⟩
    dsimp only at e2 b2 c2
    rw [firstOutside, List.dropWhile_cons_of_neg (a := b) (by simp [hb])] at e2
    rw [List.dropWhile_cons_of_neg (a := b) (by simp [hb])] at b2
    refine ⟨_, e2, (c2.trans c1).trans hsrc, rfl, rest', b2, k3, ?_⟩
    rw [hfu _ (c2.trans c1)]
    omega

theorem On.nextN : ∀ (ts rest : List Cursor) {p : Parser}, On src p (ts ++ rest) → ∃ q, p.nextN ts.length = .ok (ts, q) ∧ On src q rest
  | [], _, p, h => ⟨p, rfl, h⟩
  | c :: ts, rest, p, h => by
    obtain ⟨q, h1, h2⟩ := On.next h
    obtain ⟨r, h3, h4⟩ := On.nextN ts rest h2
    exact ⟨r, by simp only [List.length_cons, Parser.nextN, h1, h3]; rfl, h4⟩

/-- The token at that distance. -/
theorem On.peekN {p : Parser} {ts rest : List Cursor} {c : Cursor} (h : On src p (ts ++ c :: rest)) : p.peekN (ts.length + 1) = .ok c := by
  obtain ⟨q, h1, _⟩ := On.nextN (ts ++ [c]) rest (by simpa using h)
  have := Parser.C32_peek_n (ts.length + 1) p (by omega)
  rw [List.length_append, List.length_singleton] at h1
  rw [h1] at this
  cases hp : p.peekN (ts.length + 1) with
  | error e => rw [hp] at this; cases this
  | ok x => rw [hp] at this; simpa [Except.map] using this.symm

theorem Yields.peekN {ts rest ts' : List Cursor} {c : Cursor} {k : Nat} {f : Cursor → Prog β} {Q : β → Prop} (hk : k = ts.length + 1) (h : Yields src (ts ++ c :: rest) (f c) ts' Q) :
    Yields src (ts ++ c :: rest) (Prog.peekN k >>= f) ts' Q := by
  intro p hp
  subst hk
  obtain ⟨b, q2, w2, g1, g2, g3⟩ := h hp
  exact ⟨b, q2, _, gives_seq (gives_peekN.mpr ⟨_, hp.peekN, rfl, rfl, rfl⟩) g1, g2, g3⟩

/-- A token and, with nothing skipped, the one that touches it. -/
theorem Yields.touching {test test' : Cursor → Prog Bool} {a b : Cursor} {ts : List Cursor} {f : Cursor → Except Diag Cursor → Prog β} {ts' : List Cursor} {Q : β → Prop} (ht : Touch a b)
    (h1 : Tests src (test a) true) (h2 : Tests src (test' b) true) (h : Yields src ts (f a (.ok b)) ts' Q) :
    Yields src (a :: b :: ts) (Prog.tok test >>= fun x => Prog.setSkip KindSet.NONE fun skip => Prog.result (Prog.tok test') >>= fun y => Prog.setSkip skip fun _ => f x y) ts' Q := by
  intro p hp
  obtain ⟨q, k1, k2, r, k3, k4⟩ := hp.touch ht
  obtain ⟨v, s, w, g1, g2, g3⟩ := h k4
  have hq : q.skip = KindSet.TRIVIA := k2.skip
  refine ⟨v, s, [a] ++ ([b] ++ w), ?_, g2, g3⟩
  have t1 : Gives (Prog.tok test) p (.ok a) q [a] := by
    unfold Prog.tok
    refine gives_of_peek (peek_of_next k1) (gives_seq (w1 := []) (h1 hp.source) ?_)
    refine gives_seq (w1 := [a]) (w2 := []) (gives_take.mpr ⟨_, k1, rfl, rfl⟩) (gives_pure.mpr ⟨rfl, rfl, rfl⟩)
  have t2 : Gives (Prog.tok test') { q with skip := KindSet.NONE } (.ok b) r [b] := by
    unfold Prog.tok
    refine gives_of_peek (peek_of_next k3) (gives_seq (w1 := []) (h2 k2.source) ?_)
    refine gives_seq (w1 := [b]) (w2 := []) (gives_take.mpr ⟨_, k3, rfl, rfl⟩) (gives_pure.mpr ⟨rfl, rfl, rfl⟩)
  refine gives_seq t1 (gives_setSkip.mpr ?_)
  refine gives_seq (gives_result.mpr ⟨_, t2, rfl⟩) (gives_setSkip.mpr ?_)
  rw [hq]
  exact g1

end
end Hdx

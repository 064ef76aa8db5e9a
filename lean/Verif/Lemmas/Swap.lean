/-
Helper lemmas: what the scanning loops read does not depend on the text that follows, beyond the character that ends them.
-/
import Verif.Lemmas.Classify
import Verif.Lemmas.Units
import Verif.Props.Lexical2
import Verif.Spec.Separate

namespace Hdx
open Spec

/-! ### Escapes -/

theorem consumeHex_local {k : Nat} {cs r : List Char} {d : Char} (h : (consumeHex k cs).2 = d :: r) :
    ∃ e, cs = e ++ d :: r ∧ ∀ r2, consumeHex k (e ++ d :: r2) = ((consumeHex k cs).1, d :: r2) := by
  fun_induction consumeHex k cs with
  | case1 cs => simp only at h; subst h; exact ⟨[], rfl, fun r2 => by simp [consumeHex]⟩
  | case2 => simp at h
  | case3 k c cs hc n r' hr ih =>
    simp only at h; subst h
    obtain ⟨e, h1, h2⟩ := ih (by rw [hr])
    refine ⟨c :: e, by simp [h1], fun r2 => ?_⟩
    simp only [List.cons_append, consumeHex, hc, if_true, h2, hr]
  | case4 k c cs hc =>
    simp only [List.cons.injEq] at h
    obtain ⟨rfl, rfl⟩ := h
    exact ⟨[], rfl, fun r2 => by simp [consumeHex, hc]⟩

theorem consumeEscWs_local {cs r : List Char} {d : Char} (h : (consumeEscWs cs).2 = d :: r) :
    ∃ e, cs = e ++ d :: r ∧ ∀ r2, consumeEscWs (e ++ d :: r2) = ((consumeEscWs cs).1, d :: r2) := by
  fun_cases consumeEscWs cs with
  | case1 => simp [consumeEscWs] at h
  | case2 c hw hc x ds hx =>
    simp only [consumeEscWs, hw, hc, hx, if_true] at h ⊢
    subst h
    exact ⟨[c, x], rfl, fun r2 => by simp [consumeEscWs, hw, hc, hx]⟩
  | case3 c hw hc x ds hx =>
    simp only [consumeEscWs, hw, hc, hx, if_true, if_false, Bool.false_eq_true, List.cons.injEq] at h ⊢
    obtain ⟨rfl, rfl⟩ := h
    exact ⟨[c], rfl, fun r2 => by simp [consumeEscWs, hw, hc, hx]⟩
  | case4 c hw hc => simp [consumeEscWs, hw, hc] at h
  | case5 c cs hw hc =>
    simp only [consumeEscWs, hw, hc, if_true, if_false, Bool.false_eq_true] at h ⊢
    subst h
    exact ⟨[c], rfl, fun r2 => by simp [consumeEscWs, hw, hc]⟩
  | case6 c cs hw =>
    simp only [consumeEscWs, hw, if_false, Bool.false_eq_true, List.cons.injEq] at h ⊢
    obtain ⟨rfl, rfl⟩ := h
    exact ⟨[], rfl, fun r2 => by simp [consumeEscWs, hw]⟩

theorem consumeEscape_local {cs r : List Char} {d : Char} (h : (consumeEscape cs).2 = d :: r) :
    ∃ e, cs = e ++ d :: r ∧ e ≠ [] ∧ ∀ r2, consumeEscape (e ++ d :: r2) = ((consumeEscape cs).1, d :: r2) := by
  fun_cases consumeEscape cs with
  | case1 => simp [consumeEscape] at h
  | case2 c cs hc n r1 h1 m r2 h2 =>
    simp only [consumeEscape, hc, if_true, h1, h2] at h ⊢
    subst h
    obtain ⟨w, w1, w2⟩ := consumeEscWs_local (cs := r1) (by rw [h2])
    rw [h2] at w2
    have hx : ∃ d' r', r1 = d' :: r' ∧ ∀ q, ∃ q', w ++ d :: q = d' :: q' := by
      cases w with
      | nil => exact ⟨d, r, by simpa using w1, fun q => ⟨q, rfl⟩⟩
      | cons a w => exact ⟨a, w ++ d :: r, by simpa using w1, fun q => ⟨w ++ d :: q, rfl⟩⟩
    obtain ⟨d', r', x1, x2⟩ := hx
    obtain ⟨e, e1, e2⟩ := consumeHex_local (k := 5) (cs := cs) (by rw [h1]; exact x1)
    refine ⟨c :: (e ++ w), by rw [e1, ← x1, w1]; simp, by simp, fun q => ?_⟩
    obtain ⟨q', hq⟩ := x2 q
    simp only [List.cons_append, consumeEscape, hc, if_true, List.append_assoc]
    rw [hq, e2]
    simp only [h1]
    rw [← hq, w2]
  | case3 c cs hc =>
    simp only [consumeEscape, hc, if_false, Bool.false_eq_true] at h ⊢
    subst h
    exact ⟨[c], rfl, by simp, fun q => by simp [consumeEscape, hc]⟩

theorem peekNth_append {e : List Char} (he : e ≠ []) (a b : List Char) : peekNth (e ++ a) 0 = peekNth (e ++ b) 0 := by
  cases e with
  | nil => exact absurd rfl he
  | cons c e => rfl

/-! ### Strings -/

theorem consumeNewline_local {cs r : List Char} {d : Char} (hnl : isNewline (peekNth cs 0) = true) (h : (consumeNewline cs).2 = d :: r) :
    ∃ e, cs = e ++ d :: r ∧ e ≠ [] ∧ ∀ r2, consumeNewline (e ++ d :: r2) = ((consumeNewline cs).1, d :: r2) := by
  fun_cases consumeNewline cs with
  | case1 => simp [consumeNewline] at h
  | case2 c hc x ds hx =>
    simp only [consumeNewline, hc, hx, if_true] at h ⊢
    subst h
    exact ⟨[c, x], rfl, by simp, fun r2 => by simp [consumeNewline, hc, hx]⟩
  | case3 c hc x ds hx =>
    simp only [consumeNewline, hc, hx, if_true, if_false, Bool.false_eq_true, List.cons.injEq] at h ⊢
    obtain ⟨rfl, rfl⟩ := h
    exact ⟨[c], rfl, by simp, fun r2 => by simp [consumeNewline, hc, hx]⟩
  | case4 c hc => simp [consumeNewline, hc] at h
  | case5 c cs hc =>
    simp only [consumeNewline, hc, if_false, Bool.false_eq_true] at h ⊢
    subst h
    exact ⟨[c], rfl, by simp, fun r2 => by simp [consumeNewline, hc]⟩

/-- A closed string reads the same whatever follows. -/
theorem stringLoop_local {q : Char} {esc : Bool} {len : Nat} {cs : List Char} {e : Bool} {n : Nat} {r : List Char}
    (h : stringLoop q esc len cs = (.str true e n, r)) :
    ∃ y, cs = y ++ r ∧ y ≠ [] ∧ ∀ v, stringLoop q esc len (y ++ v) = (.str true e n, v) := by
  fun_induction stringLoop q esc len cs with
  | case1 => simp at h
  | case2 => simp at h
  | case3 esc len c cs h1 h2 ih =>
    obtain ⟨y, y1, y2, y3⟩ := ih h
    exact ⟨c :: y, by simp [y1], by simp, fun v => by rw [List.cons_append, stringLoop, if_neg h1, if_pos h2, y3]⟩
  | case4 esc len c cs h1 h2 h3 h4 =>
    simp only [Prod.mk.injEq, StrEnd.str.injEq, true_and] at h
    obtain ⟨⟨rfl, rfl⟩, rfl⟩ := h
    exact ⟨[c], rfl, by simp, fun v => by
      rw [List.cons_append, stringLoop, if_neg h1, if_neg h2, if_pos h3, if_pos h4]; rfl⟩
  | case5 esc len c cs h1 h2 h3 h4 ih =>
    obtain ⟨y, y1, y2, y3⟩ := ih h
    exact ⟨c :: y, by simp [y1], by simp, fun v => by
      rw [List.cons_append, stringLoop, if_neg h1, if_neg h2, if_pos h3, if_neg h4, y3]⟩
  | case6 => simp at h
  | case7 esc len c cs h1 h2 h3 h4 h5 h6 ih =>
    obtain ⟨y, y1, y2, y3⟩ := ih h
    obtain ⟨d, y', rfl⟩ := List.exists_cons_of_ne_nil y2
    obtain ⟨w, w1, w2, w3⟩ := consumeNewline_local h6 (d := d) (r := y' ++ r) (by simpa using y1)
    refine ⟨c :: (w ++ d :: y'), by simp [w1], by simp, fun v => ?_⟩
    have hp : peekNth (w ++ (d :: (y' ++ v))) 0 = peekNth cs 0 := by rw [w1]; exact peekNth_append w2 _ _
    rw [List.cons_append, stringLoop, if_neg h1, if_neg h2, if_neg h3, if_pos h4]
    simp only [List.append_assoc, List.cons_append, hp]
    rw [if_neg h5, if_pos h6, w3 (y' ++ v)]
    exact y3 v
  | case8 esc len c cs h1 h2 h3 h4 h5 h6 h7 ih =>
    obtain ⟨y, y1, y2, y3⟩ := ih h
    obtain ⟨d, y', rfl⟩ := List.exists_cons_of_ne_nil y2
    obtain ⟨w, w1, w2, w3⟩ := consumeEscape_local (d := d) (r := y' ++ r) (by simpa using y1)
    refine ⟨c :: (w ++ d :: y'), by simp [w1], by simp, fun v => ?_⟩
    have hp : peekNth (w ++ (d :: (y' ++ v))) 0 = peekNth cs 0 := by rw [w1]; exact peekNth_append w2 _ _
    rw [List.cons_append, stringLoop, if_neg h1, if_neg h2, if_neg h3, if_pos h4]
    simp only [List.append_assoc, List.cons_append, hp]
    rw [if_neg h5, if_neg h6, if_pos h7, w3 (y' ++ v)]
    exact y3 v
  | case9 => simp at h
  | case10 esc len c cs h1 h2 h3 h4 ih =>
    obtain ⟨y, y1, y2, y3⟩ := ih h
    exact ⟨c :: y, by simp [y1], by simp, fun v => by
      rw [List.cons_append, stringLoop, if_neg h1, if_neg h2, if_neg h3, if_neg h4, y3]⟩

/-! ### Urls -/

theorem consumeWhitespace_local {st : Whitespace} {cs r : List Char} {d : Char} (h : (consumeWhitespace st cs).2.2 = d :: r) :
    ∃ e, cs = e ++ d :: r ∧ (∀ c ∈ e, isWhitespace c = true) ∧ isWhitespace d = false
      ∧ ∀ r2, consumeWhitespace st (e ++ d :: r2) = ((consumeWhitespace st cs).1, (consumeWhitespace st cs).2.1, d :: r2) := by
  fun_induction consumeWhitespace st cs with
  | case1 => simp at h
  | case2 st c cs hc n s r' hr ih =>
    simp only at h; subst h
    obtain ⟨e, h1, h3, h4, h2⟩ := ih (by rw [hr])
    refine ⟨c :: e, by simp [h1], ?_, h4, fun r2 => ?_⟩
    · intro x hx; rcases List.mem_cons.mp hx with rfl | hx
      · exact hc
      · exact h3 x hx
    · simp only [List.cons_append, consumeWhitespace, hc, if_true, h2, hr]
  | case3 st c cs hc =>
    simp only [List.cons.injEq] at h
    obtain ⟨rfl, rfl⟩ := h
    exact ⟨[], rfl, by simp, by simpa using hc, fun r2 => by simp [consumeWhitespace, hc]⟩

/-- A closed url reads the same whatever follows. -/
theorem urlLoop_local {esc : Bool} {len : Nat} {cs : List Char} {e : Bool} {t n : Nat} {r : List Char}
    (h : urlLoop esc len cs = (.url true e t n, r)) :
    ∃ y, cs = y ++ r ∧ y ≠ [] ∧ (∃ c ∈ y, isWhitespace c = false) ∧ ∀ v, urlLoop esc len (y ++ v) = (.url true e t n, v) := by
  fun_induction urlLoop esc len cs with
  | case1 => simp at h
  | case2 esc len c cs h1 =>
    simp only [Prod.mk.injEq, UrlEnd.url.injEq, true_and] at h
    obtain ⟨⟨rfl, rfl, rfl⟩, rfl⟩ := h
    refine ⟨[c], rfl, by simp, ⟨c, by simp, ?_⟩, fun v => ?_⟩
    · simp at h1; subst h1; decide
    · rw [List.cons_append, urlLoop, if_pos h1]; rfl
  | case3 => simp at h
  | case4 => simp at h
  | case5 esc len c cs h1 h2 h3 n' s d ds hd2 hw =>
    simp only [Prod.mk.injEq, UrlEnd.url.injEq, true_and] at h
    obtain ⟨⟨rfl, rfl, rfl⟩, rfl⟩ := h
    obtain ⟨w, w1, w2, w3, w4⟩ := consumeWhitespace_local (st := .none) (cs := c :: cs) (d := d) (r := ds) (by rw [hw])
    cases w with
    | nil => simp at w1; rw [w1.1] at h3; rw [w3] at h3; simp at h3
    | cons c' w =>
      simp at w1
      obtain ⟨rfl, rfl⟩ := w1
      refine ⟨c :: (w ++ [d]), by simp, by simp, ⟨d, by simp, w3⟩, fun v => ?_⟩
      have hv := w4 v
      rw [hw] at hv
      simp only [List.cons_append, List.append_assoc, List.nil_append] at hv ⊢
      rw [urlLoop, if_neg h1, if_neg h2, if_pos h3, hv]
      simp only
      rw [if_pos hd2]
  | case6 => simp at h
  | case7 => simp at h
  | case8 => simp at h
  | case9 => simp at h
  | case10 esc len c cs h1 h2 h3 h4 h5 h6 h7 ih =>
    obtain ⟨y, y1, y2, y4, y3⟩ := ih h
    obtain ⟨d, y', rfl⟩ := List.exists_cons_of_ne_nil y2
    obtain ⟨w, w1, w2, w3⟩ := consumeEscape_local (d := d) (r := y' ++ r) (by simpa using y1)
    refine ⟨c :: (w ++ d :: y'), by simp [w1], by simp, ?_, fun v => ?_⟩
    · obtain ⟨x, hx, hx2⟩ := y4
      exact ⟨x, by simp at hx ⊢; grind, hx2⟩
    have hp : peekNth (w ++ (d :: (y' ++ v))) 0 = peekNth cs 0 := by rw [w1]; exact peekNth_append w2 _ _
    rw [List.cons_append, urlLoop, if_neg h1, if_neg h2, if_neg h3, if_neg h4, if_neg h5, if_pos h6]
    simp only [List.append_assoc, List.cons_append, hp]
    rw [if_pos h7, w3 (y' ++ v)]
    exact y3 v
  | case11 => simp at h
  | case12 esc len c cs h1 h2 h3 h4 h5 h6 ih =>
    obtain ⟨y, y1, y2, y4, y3⟩ := ih h
    refine ⟨c :: y, by simp [y1], by simp, ?_, fun v => by
      rw [List.cons_append, urlLoop, if_neg h1, if_neg h2, if_neg h3, if_neg h4, if_neg h5, if_neg h6, y3]⟩
    obtain ⟨x, hx, hx2⟩ := y4
    exact ⟨x, by simp [hx], hx2⟩



/-- The remnants of a bad url that ends before the input does read the same whatever follows. -/
theorem badUrlRemnants_local {len : Nat} {cs : List Char} {n : Nat} {r : List Char} (h : badUrlRemnants len cs = (n, r)) (hr : r ≠ []) :
    ∃ y, cs = y ++ r ∧ y ≠ [] ∧ ∀ v, badUrlRemnants len (y ++ v) = (n, v) := by
  fun_induction badUrlRemnants len cs with
  | case1 => simp at h; exact absurd h.2 hr
  | case2 len c cs h1 =>
    simp only [Prod.mk.injEq] at h
    obtain ⟨rfl, rfl⟩ := h
    exact ⟨[c], rfl, by simp, fun v => by rw [List.cons_append, badUrlRemnants.eq_def]; simp only; rw [if_pos h1]; rfl⟩
  | case3 len c cs h1 h2 h3 ih =>
    obtain ⟨y, y1, y2, y3⟩ := ih h
    obtain ⟨d, y', rfl⟩ := List.exists_cons_of_ne_nil y2
    obtain ⟨w, w1, w2, w3⟩ := consumeEscape_local (d := d) (r := y' ++ r) (by simpa using y1)
    refine ⟨c :: (w ++ d :: y'), by simp [w1], by simp, fun v => ?_⟩
    have hp : peekNth (w ++ (d :: (y' ++ v))) 0 = peekNth cs 0 := by rw [w1]; exact peekNth_append w2 _ _
    rw [List.cons_append, badUrlRemnants.eq_def]; simp only; rw [if_neg h1, if_pos h2]
    simp only [List.append_assoc, List.cons_append, hp]
    rw [if_pos h3, w3 (y' ++ v)]
    exact y3 v
  | case4 len c h1 h2 d ds h3 ih =>
    obtain ⟨y, y1, y2, y3⟩ := ih h
    refine ⟨c :: d :: y, by simp [y1], by simp, fun v => ?_⟩
    rw [List.cons_append, badUrlRemnants.eq_def]; simp only; rw [if_neg h1, if_pos h2]
    simp only [List.cons_append]
    rw [if_neg (by simpa using h3), y3]
  | case5 len c h1 h2 h3 ih => simp [badUrlRemnants] at h; exact absurd h.2 hr
  | case6 len c cs h1 h2 ih =>
    obtain ⟨y, y1, y2, y3⟩ := ih h
    exact ⟨c :: y, by simp [y1], by simp, fun v => by rw [List.cons_append, badUrlRemnants.eq_def]; simp only; rw [if_neg h1, if_neg h2, y3]⟩

/-- Where a url goes bad does not depend on what follows the character at which it does. -/
theorem urlLoop_bad_local {esc : Bool} {len : Nat} {cs : List Char} {n : Nat} {d : Char} {r : List Char}
    (h : urlLoop esc len cs = (.bad n, d :: r)) : ∃ y, cs = y ++ d :: r ∧ (isWhitespace d = false)
      ∧ ∀ a v, isEscapeSequence d (peekNth (a ++ v) 0) = isEscapeSequence d (peekNth r 0) → urlLoop esc len (y ++ d :: (a ++ v)) = (.bad n, d :: (a ++ v)) := by
  fun_induction urlLoop esc len cs with
  | case1 => simp at h
  | case2 => simp at h
  | case3 => simp at h
  | case4 => simp at h
  | case5 => simp at h
  | case6 => simp at h
  | case7 esc len c cs h1 h2 h3 n' s d ds hd1 hd2 hw =>
    simp only [Prod.mk.injEq, UrlEnd.bad.injEq, List.cons.injEq] at h
    obtain ⟨rfl, rfl, rfl⟩ := h
    obtain ⟨w, w1, w2, w3, w4⟩ := consumeWhitespace_local (st := .none) (cs := c :: cs) (d := d) (r := ds) (by rw [hw])
    cases w with
    | nil => simp at w1; rw [w1.1] at h3; rw [w3] at h3; simp at h3
    | cons c' w =>
      simp at w1
      obtain ⟨rfl, rfl⟩ := w1
      refine ⟨c :: w, by simp, w3, fun a v _ => ?_⟩
      have hv := w4 (a ++ v)
      rw [hw] at hv
      simp only [List.cons_append] at hv ⊢
      rw [urlLoop, if_neg h1, if_neg h2, if_pos h3, hv]
      simp only
      rw [if_neg hd1, if_neg hd2]
  | case8 esc len c cs h1 h2 h3 h4 =>
    simp only [Prod.mk.injEq, UrlEnd.bad.injEq, List.cons.injEq] at h
    obtain ⟨rfl, rfl, rfl⟩ := h
    exact ⟨[], rfl, by simpa using h3, fun a v _ => by rw [List.nil_append, urlLoop, if_neg h1, if_neg h2, if_neg h3, if_pos h4]⟩
  | case9 esc len c cs h1 h2 h3 h4 h5 =>
    simp only [Prod.mk.injEq, UrlEnd.bad.injEq, List.cons.injEq] at h
    obtain ⟨rfl, rfl, rfl⟩ := h
    exact ⟨[], rfl, by simpa using h3, fun a v _ => by rw [List.nil_append, urlLoop, if_neg h1, if_neg h2, if_neg h3, if_neg h4, if_pos h5]⟩
  | case10 esc len c cs h1 h2 h3 h4 h5 h6 h7 ih =>
    obtain ⟨y, y1, y2, y3⟩ := ih h
    obtain ⟨d', y', hy⟩ : ∃ d' y', y ++ d :: r = d' :: y' ∧ ∀ q, ∃ q', y ++ d :: q = d' :: q' := by
      cases y with
      | nil => exact ⟨d, r, rfl, fun q => ⟨q, rfl⟩⟩
      | cons a y => exact ⟨a, _, rfl, fun q => ⟨_, rfl⟩⟩
    obtain ⟨w, w1, w2, w3⟩ := consumeEscape_local (d := d') (r := y') (by rw [y1, hy.1])
    refine ⟨c :: (w ++ y), by rw [w1, ← hy.1]; simp, y2, fun a v hv => ?_⟩
    obtain ⟨q', hq⟩ := hy.2 (a ++ v)
    have hp : peekNth (w ++ (y ++ d :: (a ++ v))) 0 = peekNth cs 0 := by rw [w1]; exact peekNth_append w2 _ _
    rw [List.cons_append, urlLoop, if_neg h1, if_neg h2, if_neg h3, if_neg h4, if_neg h5, if_pos h6, List.append_assoc, hp, if_pos h7, hq, w3,
      ← hq]
    exact y3 a v hv
  | case11 esc len c cs h1 h2 h3 h4 h5 h6 h7 =>
    simp only [Prod.mk.injEq, UrlEnd.bad.injEq, List.cons.injEq] at h
    obtain ⟨rfl, rfl, rfl⟩ := h
    exact ⟨[], rfl, by simpa using h3, fun a v hv => by
      rw [List.nil_append, urlLoop, if_neg h1, if_neg h2, if_neg h3, if_neg h4, if_neg h5, if_pos h6, hv, if_neg h7]⟩
  | case12 esc len c cs h1 h2 h3 h4 h5 h6 ih =>
    obtain ⟨y, y1, y2, y3⟩ := ih h
    exact ⟨c :: y, by simp [y1], y2, fun a v hv => by
      rw [List.cons_append, urlLoop, if_neg h1, if_neg h2, if_neg h3, if_neg h4, if_neg h5, if_neg h6, y3 a v hv]⟩

theorem urlLoop_bad_rest {esc : Bool} {len : Nat} {cs r : List Char} {n : Nat} (h : urlLoop esc len cs = (.bad n, r)) : ∃ d r', r = d :: r' := by
  fun_induction urlLoop esc len cs <;> simp_all <;> grind

/-- Skipping whitespace to look at the next character does not depend on what follows a character that is none. -/
theorem peekPastWs_local {y : List Char} (h : ∃ c ∈ y, isWhitespace c = false) (k : Nat) (z v : List Char) :
    peekPastWs k (y ++ z) = peekPastWs k (y ++ v) := by
  induction k generalizing y with
  | zero =>
    obtain ⟨c, hc, _⟩ := h
    exact peekNth_append (by rintro rfl; simp at hc) z v
  | succ k ih =>
    obtain ⟨c, hc, hw⟩ := h
    cases y with
    | nil => simp at hc
    | cons d y =>
      have key : ∀ q, peekPastWs (k + 1) (d :: y ++ q) = if isWhitespace d = true then peekPastWs k (y ++ q) else d := fun q => rfl
      rw [key, key]
      by_cases hd : isWhitespace d = true
      · rw [if_pos hd, if_pos hd]
        rcases List.mem_cons.mp hc with rfl | hc
        · rw [hw] at hd; simp at hd
        · exact ih ⟨c, hc, hw⟩
      · rw [if_neg hd, if_neg hd]

/-- A url token that is closed, or a bad url that ends before the input does, reads the same whatever follows. -/
theorem consumeUrl_local {n : Nat} {e : Bool} {cs r : List Char} {t : Token} (h : consumeUrl n e cs = (t, r))
    (hurl : t.kind = .url → t.urlHasClosingParen = true) (hbad : t.kind = .badUrl → r ≠ []) :
    ∃ y, cs = y ++ r ∧ (∃ c ∈ y, isWhitespace c = false) ∧ ∀ v, consumeUrl n e (y ++ v) = (t, v) := by
  unfold consumeUrl at h
  simp only at h
  have hws : ∀ {c : Char} {y q : List Char}, (consumeWhitespace .none cs).2.2 = c :: y ++ q →
      ∃ w, cs = w ++ (c :: y ++ q) ∧ ∀ q2, consumeWhitespace .none (w ++ (c :: y ++ q2))
        = ((consumeWhitespace .none cs).1, (consumeWhitespace .none cs).2.1, c :: y ++ q2) := by
    intro c y q hq
    obtain ⟨w, w1, _, _, w4⟩ := consumeWhitespace_local (d := c) (r := y ++ q) (by simpa using hq)
    exact ⟨w, by simpa using w1, fun q2 => by simpa using w4 (y ++ q2)⟩
  split at h
  · rename_i paren esc trailing len r' hl
    simp only [Prod.mk.injEq] at h
    obtain ⟨ht, rfl⟩ := h
    have hp : paren = true := by
      have := hurl (by rw [← ht, newUrl_eq]; simp)
      rw [← ht, newUrl_eq] at this
      simpa [Token.urlHasClosingParen] using this
    subst hp
    obtain ⟨y, y1, y2, y4, y3⟩ := urlLoop_local hl
    obtain ⟨c, y', rfl⟩ := List.exists_cons_of_ne_nil y2
    obtain ⟨w, w1, w2⟩ := hws y1
    refine ⟨w ++ c :: y', by rw [w1]; simp, ?_, fun v => ?_⟩
    · obtain ⟨x, hx, hx2⟩ := y4
      exact ⟨x, List.mem_append_right _ hx, hx2⟩
    · unfold consumeUrl
      rw [List.append_assoc, w2 v]
      simp only [y3 v]
      rw [← ht]
  · rename_i len r' hl
    simp only [Prod.mk.injEq] at h
    obtain ⟨ht, hr⟩ := h
    have hne := hbad (by rw [← ht]; simp [newBadUrl_eq])
    obtain ⟨d, r1, rfl⟩ := urlLoop_bad_rest hl
    generalize hB : badUrlRemnants len (d :: r1) = B at *
    obtain ⟨m, r2⟩ := B
    simp only at hr ht
    subst hr
    obtain ⟨y, y1, y2, y3⟩ := badUrlRemnants_local hB hne
    obtain ⟨d', a, rfl⟩ := List.exists_cons_of_ne_nil y2
    simp only [List.cons_append, List.cons.injEq] at y1
    obtain ⟨rfl, rfl⟩ := y1
    obtain ⟨u, u1, u2, u3⟩ := urlLoop_bad_local hl
    have hesc : ∀ v, isEscapeSequence d (peekNth (a ++ v) 0) = isEscapeSequence d (peekNth (a ++ r2) 0) := by
      intro v
      by_cases hd : d = '\\'
      · have ha : a ≠ [] := by
          rintro rfl
          have := y3 ['x']
          rw [hd] at this
          have h2 : (badUrlRemnants len ['\\', 'x']).2 = [] := by
            rw [badUrlRemnants.eq_def]; simp only
            rw [if_neg (by decide), if_pos (by decide), if_pos (by decide), show consumeEscape ['x'] = (2, []) from rfl, badUrlRemnants.eq_def]
          rw [show [('\\' : Char)] ++ ['x'] = ['\\', 'x'] from rfl] at this
          rw [this] at h2
          simp at h2
        rw [peekNth_append ha v r2]
      · have : (d == '\\') = false := by simpa using hd
        simp only [isEscapeSequence, this, Bool.false_and]
    have hx : ∃ c y, u ++ d :: a = c :: y := by
      cases u with
      | nil => exact ⟨d, a, rfl⟩
      | cons c u => exact ⟨c, _, rfl⟩
    obtain ⟨c, y, hy⟩ := hx
    have hy2 : ∀ q, u ++ d :: (a ++ q) = c :: y ++ q := fun q => by rw [← hy]; simp
    obtain ⟨w, w1, w2⟩ := hws (c := c) (y := y) (q := r2) (by rw [u1, hy2])
    refine ⟨w ++ (c :: y), by rw [w1]; simp, ⟨d, by rw [← hy]; simp, u2⟩, fun v => ?_⟩
    unfold consumeUrl
    rw [List.append_assoc, w2 v]
    simp only
    rw [← hy2, u3 a v (hesc v)]
    simp only
    rw [show d :: (a ++ v) = d :: a ++ v by simp, y3 v, ← ht]

/-! ### Comments -/

/-- The end of a block comment that is closed: the length after the loop, when it ends before the input does or with `*/`. -/
theorem firstClose_swap {body rest : List Char} (h : FirstClose body rest) (v : List Char) : FirstClose body v := by
  intro a b hab
  apply Classical.byContradiction
  intro hlt
  have hl : a.length < body.length := by omega
  -- `a */` lies inside `body *`
  have hp : a ++ ['*', '/'] <+: body ++ ['*', '/'] := by
    apply List.prefix_of_prefix_length_le (l₃ := body ++ ['*', '/'] ++ v)
    · rw [hab]; exact ⟨b, rfl⟩
    · exact ⟨v, rfl⟩
    · simp; omega
  obtain ⟨q, hq⟩ := hp
  have := h a (q ++ rest) (by rw [← hq]; simp)
  omega

theorem blockCommentStyle_swap (body z v : List Char) :
    blockCommentStyle (body ++ ['*', '/'] ++ z) = blockCommentStyle (body ++ ['*', '/'] ++ v) := by
  match body with
  | [] => rfl
  | [c] => rfl
  | c :: d :: body => rfl

/-! ### Names -/

theorem escTail_swap_cons {e r r2 : List Char} {d : Char} (h : EscTail e (d :: r)) : EscTail e (d :: r2) := by
  generalize hx : d :: r = x at h
  cases h with
  | eof => simp at hx
  | plain h1 h2 => exact .plain h1 h2
  | hex h1 h2 h3 h4 h5 =>
    rename_i ds ws
    subst hx
    refine .hex h1 h2 h3 ?_ ?_
    · rcases h4 with h4 | h4
      · exact Or.inl h4
      · refine Or.inr ?_
        cases ws with
        | nil => simpa using h4
        | cons w ws => simpa using h4
    · cases h5 with
      | none h => exact .none (by simpa using h)
      | crlf => exact .crlf
      | one h h' => exact .one h (by simpa using h')

theorem validName_swap_cons {us : List NameUnit} {r r2 : List Char} {d : Char} (h : ValidName us (d :: r)) : ValidName us (d :: r2) := by
  induction us with
  | nil => trivial
  | cons u us ih =>
    cases u with
    | chr c => exact ⟨h.1, ih h.2⟩
    | esc e =>
      refine ⟨?_, ih h.2⟩
      have := h.1
      cases hn : nameText us with
      | nil => rw [hn] at this; exact escTail_swap_cons this
      | cons a w => rw [hn] at this; exact escTail_swap_cons this

theorem escTail_swap_end {e z v : List Char} (h : EscTail e z) (hv : NameEnds v) (hz : z = [] → e ≠ [])
    (hw : Starts Ws v → ¬ EndsInHexEscape ('\\' :: e)) : EscTail e v := by
  cases h with
  | eof => exact absurd rfl (hz rfl)
  | plain h1 h2 => exact .plain h1 h2
  | hex h1 h2 h3 h4 h5 =>
    rename_i ds ws
    refine .hex h1 h2 h3 ?_ ?_
    · rcases h4 with h4 | h4
      · exact Or.inl h4
      · refine Or.inr ?_
        cases ws with
        | nil =>
          rintro ⟨c, q, rfl, hc⟩
          refine hv.1 ⟨c, q, rfl, Or.inl ?_⟩
          rcases hc with hc | hc | hc
          · exact Or.inr (Or.inl hc)
          · refine Or.inl (Or.inl ⟨hc.1, ?_⟩)
            simp only [show 'f'.toNat = 102 from rfl, show 'z'.toNat = 122 from rfl] at *; omega
          · refine Or.inl (Or.inr (Or.inl ⟨hc.1, ?_⟩))
            simp only [show 'F'.toNat = 70 from rfl, show 'Z'.toNat = 90 from rfl] at *; omega
        | cons w ws => simpa using h4
    · have hno : ∀ ws' : List Char, ws = ws' → ws' = [] ∨ ws' = ['\r'] → ¬ Starts Ws v := by
        intro ws' e1 e2 hs
        exact hw hs ⟨[], ds, ws, by simp, h1, h2, h3, by rw [e1]; exact e2⟩
      cases h5 with
      | none h => exact .none (hno [] rfl (Or.inl rfl))
      | crlf => exact .crlf
      | one h h' =>
        refine .one h ?_
        rintro ⟨rfl, c, q, rfl, rfl⟩
        exact hno _ rfl (Or.inr rfl) ⟨_, _, rfl, by simp [Ws, Newline]⟩

theorem Spec.EndsInHexEscape.append {x : List Char} (h : EndsInHexEscape x) (w : List Char) : EndsInHexEscape (w ++ x) := by
  obtain ⟨a, ds, ws, rfl, h⟩ := h
  exact ⟨w ++ a, ds, ws, by simp, h⟩

/-- A name followed by another text that does not continue it. -/
theorem validName_swap {us : List NameUnit} {z v : List Char} (h : ValidName us z) (hv : NameEnds v)
    (hz : z = [] → ∀ w, nameText us ≠ w ++ ['\\']) (hw : Starts Ws v → ¬ EndsInHexEscape (nameText us)) : ValidName us v := by
  induction us with
  | nil => trivial
  | cons u us ih =>
    have hz' : z = [] → ∀ w, nameText us ≠ w ++ ['\\'] := by
      intro e w hc
      exact hz e (u.text ++ w) (by simp [nameText] at hc ⊢; rw [hc])
    have hw' : Starts Ws v → ¬ EndsInHexEscape (nameText us) := by
      intro hs hc
      exact hw hs (by have := EndsInHexEscape.append hc u.text; simpa [nameText] using this)
    cases u with
    | chr c => exact ⟨h.1, ih h.2 hz' hw'⟩
    | esc e =>
      refine ⟨?_, ih h.2 hz' hw'⟩
      have h1 := h.1
      cases hn : nameText us with
      | cons a w => rw [hn] at h1; exact escTail_swap_cons h1
      | nil =>
        rw [hn] at h1
        refine escTail_swap_end h1 hv ?_ ?_
        · rintro hz0 rfl
          exact hz (by simpa using hz0) [] (by rw [show nameText (.esc [] :: us) = '\\' :: nameText us from rfl, hn]; rfl)
        · intro hs hc
          apply hw hs
          simpa [nameText, NameUnit.text, show us.flatMap NameUnit.text = [] from hn] using hc

/-- The state of the name scanner after the elements `us`. -/
def urlState (s : UrlState) : List NameUnit → UrlState
  | [] => s
  | .chr c :: .chr d :: us =>
    if s.i == 0 && c == '-' then
      if d == '-' then urlState { s with i := s.i + 2, len := s.len + 2, dashed := true } us
      else urlState { s with i := s.i + 1, len := s.len + 1 } (.chr d :: us)
    else if isIdentAsciiLower c then
      urlState
        { s with
          urlLike := s.urlLike && !((s.i == 0 && c != 'u') || (s.i == 1 && c != 'r') || (s.i == 2 && c != 'l'))
          len := s.len + 1, i := s.i + 1 } (.chr d :: us)
    else if isIdent c then
      urlState
        { s with
          urlLike := s.urlLike && !((s.i == 0 && c != 'U') || (s.i == 1 && c != 'R') || (s.i == 2 && c != 'L'))
          len := s.len + c.utf8Size, i := s.i + 1, nonLower := true } (.chr d :: us)
    else urlState { s with esc := true, len := s.len + 1, urlLike := false } (.chr d :: us)
  | .chr c :: us =>
    if s.i == 0 && c == '-' then urlState { s with i := s.i + 1, len := s.len + 1 } us
    else if isIdentAsciiLower c then
      urlState
        { s with
          urlLike := s.urlLike && !((s.i == 0 && c != 'u') || (s.i == 1 && c != 'r') || (s.i == 2 && c != 'l'))
          len := s.len + 1, i := s.i + 1 } us
    else if isIdent c then
      urlState
        { s with
          urlLike := s.urlLike && !((s.i == 0 && c != 'U') || (s.i == 1 && c != 'R') || (s.i == 2 && c != 'L'))
          len := s.len + c.utf8Size, i := s.i + 1, nonLower := true } us
    else urlState { s with esc := true, len := s.len + 1, urlLike := false } us
  | .esc e :: us =>
    if s.urlLike then
      urlState { s with esc := true, len := s.len + (1 + utf8Len e), urlLike := urlEscapeFits s.i (trim ('\\' :: e)), i := s.i + 1 } us
    else urlState { s with esc := true, len := s.len + (1 + utf8Len e), i := s.i + 1 } us

theorem nul_facts : isIdentAsciiLower NUL = false ∧ isIdent NUL = false := by decide

theorem nameChar_not_esc {c : Char} (h : NameChar c ∨ c = NUL) : c ≠ '\\' := by
  rintro rfl
  rcases h with h | h
  · rw [← isIdent_iff] at h; exact absurd h (by decide)
  · exact absurd h (by decide)

/-- What the name scanner returns on a name depends on its elements only. -/
theorem urlKeywordLoop_units {us : List NameUnit} {r : List Char} (s : UrlState) (h : ValidName us r) (hr : NameEnds r)
    (ha : EscAscii (nameText us ++ r)) : urlKeywordLoop s (nameText us ++ r) = .ok (urlState s us, r) := by
  have plain : ∀ (s : UrlState) (c : Char) (cs : List Char), (NameChar c ∨ c = NUL) → ¬ (s.i == 0 && c == '-') = true →
      urlKeywordLoop s (c :: cs) = urlKeywordLoop (if isIdentAsciiLower c then
        { s with
          urlLike := s.urlLike && !((s.i == 0 && c != 'u') || (s.i == 1 && c != 'r') || (s.i == 2 && c != 'l'))
          len := s.len + 1, i := s.i + 1 }
        else if isIdent c then
        { s with
          urlLike := s.urlLike && !((s.i == 0 && c != 'U') || (s.i == 1 && c != 'R') || (s.i == 2 && c != 'L'))
          len := s.len + c.utf8Size, i := s.i + 1, nonLower := true }
        else { s with esc := true, len := s.len + 1, urlLike := false }) cs := by
    intro s c cs hc hd
    rw [urlKeywordLoop.eq_def]
    simp only
    rw [if_neg hd]
    by_cases h1 : isIdentAsciiLower c = true
    · rw [if_pos h1, if_pos h1]
    · rw [if_neg h1, if_neg h1]
      by_cases h2 : isIdent c = true
      · rw [if_pos h2, if_pos h2]
      · rw [if_neg h2, if_neg h2]
        have hn : c = NUL := hc.resolve_left (fun h => h2 ((isIdent_iff c).mpr h))
        subst hn
        rw [if_neg (by simp [isEscapeSequence, show (NUL == '\\') = false by decide]),
          if_neg (by simp [isEscapeSequence, show (NUL == '\\') = false by decide]), if_pos (by decide)]
  fun_induction urlState s us with
  | case1 s =>
    cases r with
    | nil => simp [urlKeywordLoop]
    | cons c r =>
      have h1 : ¬ (NameChar c ∨ c = NUL) := by have := hr.1; rwa [starts_cons] at this
      have h2 : ¬ isIdent c = true := fun h => h1 (Or.inl ((isIdent_iff c).mp h))
      have h3 : ¬ isIdentAsciiLower c = true := fun h => h1 (Or.inl (Or.inl (Or.inl ((isIdentAsciiLower_iff c).mp h))))
      have h4 : ¬ c = '-' := by rintro rfl; exact h1 (Or.inl dash_nameChar)
      have h5 : ¬ isEscapeSequence c (peekNth r 0) = true := fun h => hr.2 ((isEscapeSequence_iff c r).mp h)
      rw [show nameText [] ++ c :: r = c :: r from rfl, urlKeywordLoop.eq_def]
      simp only
      rw [if_neg (by simp [h4]), if_neg h3, if_neg h2, if_neg (by simp [h5]), if_neg h5, if_neg (by
        intro h; simp at h; exact h1 (Or.inr h))]
  | case2 s c d us hc hd ih =>
    simp only [Bool.and_eq_true, beq_iff_eq] at hc hd
    obtain ⟨h0, rfl⟩ := hc
    subst hd
    rw [show nameText (.chr '-' :: .chr '-' :: us) ++ r = '-' :: '-' :: (nameText us ++ r) from rfl] at ha ⊢
    rw [urlKeywordLoop.eq_def]
    simp only [h0, beq_self_eq_true, Bool.true_and, if_true]
    have := ih h.2.2 ha.tail.tail
    rw [h0] at this
    exact this
  | case3 s c d us hc hd ih =>
    simp only [Bool.and_eq_true, beq_iff_eq] at hc hd
    obtain ⟨h0, rfl⟩ := hc
    rw [show nameText (.chr '-' :: .chr d :: us) ++ r = '-' :: (nameText (.chr d :: us) ++ r) from rfl] at ha ⊢
    rw [← ih h.2 ha.tail, urlKeywordLoop.eq_def]
    rw [show nameText (.chr d :: us) ++ r = d :: (nameText us ++ r) from rfl]
    simp only [h0, beq_self_eq_true, Bool.true_and, if_true, beq_iff_eq, hd, if_false]
  | case4 s c d us hc h1 ih =>
    rw [show nameText (.chr c :: .chr d :: us) ++ r = c :: (nameText (.chr d :: us) ++ r) from rfl] at ha ⊢
    rw [plain s c _ h.1 hc, if_pos h1]; exact ih h.2 ha.tail
  | case5 s c d us hc h1 h2 ih =>
    rw [show nameText (.chr c :: .chr d :: us) ++ r = c :: (nameText (.chr d :: us) ++ r) from rfl] at ha ⊢
    rw [plain s c _ h.1 hc, if_neg h1, if_pos h2]; exact ih h.2 ha.tail
  | case6 s c d us hc h1 h2 ih =>
    rw [show nameText (.chr c :: .chr d :: us) ++ r = c :: (nameText (.chr d :: us) ++ r) from rfl] at ha ⊢
    rw [plain s c _ h.1 hc, if_neg h1, if_neg h2]; exact ih h.2 ha.tail
  | case7 s c us hc hx ih =>
    simp only [Bool.and_eq_true, beq_iff_eq] at hx
    obtain ⟨h0, rfl⟩ := hx
    rw [show nameText (.chr '-' :: us) ++ r = '-' :: (nameText us ++ r) from rfl] at ha ⊢
    rw [← ih h.2 ha.tail, urlKeywordLoop.eq_def]
    simp only [h0, beq_self_eq_true, Bool.true_and, if_true]
    cases hq : nameText us ++ r with
    | nil => simp
    | cons d q =>
      have hd : ¬ (d == '-') = true := by
        intro hd; simp at hd; subst hd
        cases us with
        | nil => exact hr.1 ⟨'-', q, by simpa using hq, Or.inl dash_nameChar⟩
        | cons u us =>
          cases u with
          | chr x => exact hc x us rfl
          | esc e => simp [nameText, NameUnit.text] at hq
      simp [hd]
  | case8 s c us hc hx h1 ih =>
    rw [show nameText (.chr c :: us) ++ r = c :: (nameText us ++ r) from rfl] at ha ⊢
    rw [plain s c _ h.1 hx, if_pos h1]; exact ih h.2 ha.tail
  | case9 s c us hc hx h1 h2 ih =>
    rw [show nameText (.chr c :: us) ++ r = c :: (nameText us ++ r) from rfl] at ha ⊢
    rw [plain s c _ h.1 hx, if_neg h1, if_pos h2]; exact ih h.2 ha.tail
  | case10 s c us hc hx h1 h2 ih =>
    rw [show nameText (.chr c :: us) ++ r = c :: (nameText us ++ r) from rfl] at ha ⊢
    rw [plain s c _ h.1 hx, if_neg h1, if_neg h2]; exact ih h.2 ha.tail
  | case11 s e us hu ih =>
    rw [show nameText (.esc e :: us) ++ r = '\\' :: (e ++ (nameText us ++ r)) by simp [nameText, NameUnit.text]] at ha ⊢
    have he := consumeEscape_eq h.1 ha
    have hs := escTail_isEscape h.1
    rw [urlKeywordLoop.eq_def]
    simp only
    rw [if_neg (by simp), if_neg (by decide), if_neg (by decide), if_pos (by simp [hu, hs]), he]
    have ht : takeBytes ('\\' :: (e ++ (nameText us ++ r))) (1 + utf8Len e) = some ('\\' :: e) := by
      have := takeBytes_append ('\\' :: e) (nameText us ++ r)
      simpa [show '\\'.utf8Size = 1 by decide] using this
    simp only [ht]
    exact ih h.2 ha.tail.suffix
  | case12 s e us hu ih =>
    rw [show nameText (.esc e :: us) ++ r = '\\' :: (e ++ (nameText us ++ r)) by simp [nameText, NameUnit.text]] at ha ⊢
    have he := consumeEscape_eq h.1 ha
    have hs := escTail_isEscape h.1
    rw [urlKeywordLoop.eq_def]
    simp only
    rw [if_neg (by simp), if_neg (by decide), if_neg (by decide), if_neg (by simp [hu]), if_pos hs, he]
    exact ih h.2 ha.tail.suffix

/-- What `consume_ident_sequence` returns on a name depends on its elements only. -/
theorem identSeq_swap {us : List NameUnit} {z v : List Char} (hz : IsName us z) (hv : IsName us v)
    (az : EscAscii (nameText us ++ z)) (av : EscAscii (nameText us ++ v)) :
    ∃ s, consumeIdentSeq (nameText us ++ z) = (s, z) ∧ consumeIdentSeq (nameText us ++ v) = (s, v) := by
  obtain ⟨nl, d, e, g0, g1, g2, g3⟩ := identSeq_name hz az
  obtain ⟨nl', d', e', g0', g1', g2', g3'⟩ := identSeq_name hv av
  refine ⟨_, g0, ?_⟩
  rw [g0']
  have e1 : nl' = nl := by rw [Bool.eq_iff_iff, g2, g2']
  have e2 : d' = d := by rw [Bool.eq_iff_iff, g3, g3']
  have e3 : e' = e := by rw [Bool.eq_iff_iff, g1, g1']
  rw [e1, e2, e3]

/-- A name that starts as it should does so whatever follows. -/
theorem startsName_swap {us : List NameUnit} {z v : List Char} (hz : IsName us z) (hv : IsName us v)
    (h : StartsName (nameText us ++ z)) : StartsName (nameText us ++ v) := by
  cases us with
  | nil => exact absurd hz.2 (startsName_not_ends h)
  | cons u us =>
    cases u with
    | esc e =>
      refine Or.inr (Or.inl ⟨e ++ (nameText us ++ v), by simp [nameText, NameUnit.text], escTail_not_newline hv.1.1⟩)
    | chr c =>
      rcases h with ⟨c', r, h1, h2⟩ | ⟨r, h1, h2⟩ | ⟨r, h1, h2⟩
      · simp [nameText, NameUnit.text] at h1
        obtain ⟨rfl, _⟩ := h1
        exact Or.inl ⟨c, _, rfl, h2⟩
      · simp [nameText, NameUnit.text] at h1
        exact absurd h1.1 (nameChar_not_esc hz.1.1)
      · rw [show nameText (.chr c :: us) ++ z = c :: (nameText us ++ z) from rfl] at h1
        injection h1 with h1 h3
        subst h1
        subst h3
        refine Or.inr (Or.inr ⟨nameText us ++ v, rfl, ?_⟩)
        cases us with
        | nil =>
          exfalso
          rcases h2 with ⟨c, q, h2, h4⟩ | h2
          · refine hz.2.1 ⟨c, q, by simpa using h2, Or.inl ?_⟩
            rcases h4 with rfl | h4
            · exact dash_nameChar
            · exact Or.inl h4
          · exact hz.2.2 (by simpa using h2)
        | cons u us =>
          cases u with
          | esc e => exact Or.inr ⟨e ++ (nameText us ++ v), by simp [nameText, NameUnit.text], escTail_not_newline hv.1.2.1⟩
          | chr c =>
            rcases h2 with ⟨c', r, h1, h2⟩ | ⟨r, h1, h2⟩
            · simp [nameText, NameUnit.text] at h1
              obtain ⟨rfl, _⟩ := h1
              exact Or.inl ⟨c, _, rfl, h2⟩
            · simp [nameText, NameUnit.text] at h1
              exact absurd h1.1 (nameChar_not_esc hz.1.2.1)

end Hdx

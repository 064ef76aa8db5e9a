/-
Helper lemmas: the length of the token returned is the length of a non-empty prefix of the remaining text.
-/
import Verif.Lemmas.Units
import Verif.Spec.Limits
import Verif.Props.C17

namespace Hdx
open Spec

theorem byteLen_eq (cs : List Char) : byteLen cs = utf8Len cs := by
  induction cs with
  | nil => rfl
  | cons c cs ih => simp only [byteLen, List.map_cons, List.sum_cons, utf8Len_cons] at ih ⊢; rw [ih]

theorem Spec.WithinLimits.suffix {a b : List Char} (h : WithinLimits (a ++ b)) : WithinLimits b where
  total := by have := h.total; simp only [byteLen_eq, utf8Len_append] at *; omega
  number pre t post e := h.number (a ++ pre) t post (by simp [e])
  dimension pre t post e := h.dimension (a ++ pre) t post (by simp [e])
  unit pre t us post e := h.unit (a ++ pre) t us post (by simp [e])

theorem Spec.LineCommentsAscii.suffix {a b : List Char} (h : LineCommentsAscii (a ++ b)) : LineCommentsAscii b := by
  intro pre body post e
  exact h (a ++ pre) body post (by simp [e])

theorem w32_toNat {n : Nat} (h : n < 2 ^ 32) : (w32 n).toNat = n := by
  simp [w32]; omega

theorem exists_oneNewline {cs : List Char} (h : Starts Newline cs) : ∃ n r, cs = n ++ r ∧ OneNewline n r := by
  obtain ⟨d, r, rfl, hd⟩ := h
  by_cases h5 : d = '\r' ∧ Starts (· = '\n') r
  · obtain ⟨rfl, e, r', rfl, rfl⟩ := h5
    exact ⟨['\r', '\n'], r', by simp, .crlf⟩
  · exact ⟨[d], r, by simp, .one hd h5⟩

/-- `t` describes a non-empty prefix of `cs`. -/
def Covers (cs : List Char) (t : Token) : Prop :=
  ∃ text rest, cs = text ++ rest ∧ text ≠ [] ∧ t.len.toNat = utf8Len text ∧ t.kind ≠ .eof

theorem stringLoop_cover (q : Char) (esc : Bool) (len : Nat) (cs : List Char) (ha : EscAscii cs) :
    ∃ text, cs = text ++ (stringLoop q esc len cs).2 ∧
      (∀ a b n, (stringLoop q esc len cs).1 = .str a b n → n = len + utf8Len text) ∧
      (∀ n, (stringLoop q esc len cs).1 = .bad n → n = len + utf8Len text) := by
  fun_induction stringLoop q esc len cs with
  | case1 => exact ⟨[], by simp, by simp, by simp⟩
  | case2 => exact ⟨[], by simp, by simp, by simp⟩
  | case3 esc len c cs h1 h2 ih =>
    simp only [beq_iff_eq] at h2; subst h2
    obtain ⟨t, e1, e2, e3⟩ := ih ha.tail
    refine ⟨EOFc :: t, by simp [← e1], ?_, ?_⟩
    · intro a b n h; have := e2 a b n h; simp [show EOFc.utf8Size = 1 by decide]; omega
    · intro n h; have := e3 n h; simp [show EOFc.utf8Size = 1 by decide]; omega
  | case4 esc len c cs h1 h2 h3 h4 =>
    have hs : c.utf8Size = 1 := by
      simp only [Bool.or_eq_true, beq_iff_eq] at h3; rcases h3 with rfl | rfl <;> decide
    exact ⟨[c], by simp, by simp [hs], by simp⟩
  | case5 esc len c cs h1 h2 h3 h4 ih =>
    have hs : c.utf8Size = 1 := by
      simp only [Bool.or_eq_true, beq_iff_eq] at h3; rcases h3 with rfl | rfl <;> decide
    obtain ⟨t, e1, e2, e3⟩ := ih ha.tail
    refine ⟨c :: t, by simp [← e1], ?_, ?_⟩
    · intro a b n h; have := e2 a b n h; simp [hs]; omega
    · intro n h; have := e3 n h; simp [hs]; omega
  | case6 esc len c cs h1 h2 h3 h4 h5 =>
    simp only [beq_iff_eq] at h4; subst h4
    exact ⟨['\\'], by simp, by simp [show '\\'.utf8Size = 1 by decide], by simp⟩
  | case7 esc len c cs h1 h2 h3 h4 h5 h6 ih =>
    simp only [beq_iff_eq] at h4; subst h4
    have hn : ∃ n, cs = n ++ (consumeNewline cs).2 ∧ (consumeNewline cs).1 = utf8Len n := by
      obtain ⟨n, r, rfl, hn⟩ := exists_oneNewline ((peek_newline cs).mp h6)
      exact ⟨n, by simp [consumeNewline_eq hn]⟩
    obtain ⟨nl, n1, n2⟩ := hn
    obtain ⟨t, e1, e2, e3⟩ := ih (EscAscii.suffix (a := '\\' :: nl) (by simpa [← n1] using ha))
    refine ⟨'\\' :: (nl ++ t), by simp [← e1, ← n1], ?_, ?_⟩
    · intro a b n h; have := e2 a b n h; simp [show '\\'.utf8Size = 1 by decide]; omega
    · intro n h; have := e3 n h; simp [show '\\'.utf8Size = 1 by decide]; omega
  | case8 esc len c cs h1 h2 h3 h4 h5 h6 h7 ih =>
    obtain ⟨rfl, hn⟩ := isEscapeSequence_eq h7
    obtain ⟨e, c1, c2, c3⟩ := consumeEscape_spec cs hn
    have c3 := c3 ha.next
    obtain ⟨t, e1, e2, e3⟩ := ih (EscAscii.suffix (a := '\\' :: e) (by simpa [← c1] using ha))
    refine ⟨'\\' :: (e ++ t), by simp [← e1, ← c1], ?_, ?_⟩
    · intro a b n h; have := e2 a b n h; simp [show '\\'.utf8Size = 1 by decide]; omega
    · intro n h; have := e3 n h; simp [show '\\'.utf8Size = 1 by decide]; omega
  | case9 esc len c cs h1 h2 h3 h4 h5 h6 h7 =>
    exfalso; apply h7
    simp only [beq_iff_eq] at h4; subst h4
    simp [isEscapeSequence]; simpa using h6
  | case10 esc len c cs h1 h2 h3 h4 ih =>
    obtain ⟨t, e1, e2, e3⟩ := ih ha.tail
    refine ⟨c :: t, by simp [← e1], ?_, ?_⟩
    · intro a b n h; have := e2 a b n h; simp; omega
    · intro n h; have := e3 n h; simp; omega

theorem consumeString_covers {q : Char} (hq : q = '"' ∨ q = '\'') {cs : List Char} (ha : EscAscii (q :: cs))
    (hl : WithinLimits (q :: cs)) : Covers (q :: cs) (consumeString (q :: cs)).1 := by
  have hs : q.utf8Size = 1 := by rcases hq with rfl | rfl <;> decide
  obtain ⟨t, e1, e2, e3⟩ := stringLoop_cover q false 1 cs ha.tail
  have htot := hl.total
  rw [byteLen_eq] at htot
  have hlen : utf8Len (q :: t) ≤ utf8Len (q :: cs) := by
    rw [e1]; simp only [utf8Len_cons, utf8Len_append]; omega
  simp only [utf8Len_cons, hs] at hlen htot
  refine ⟨q :: t, (stringLoop q false 1 cs).2, by simp [← e1], by simp, ?_⟩
  simp only [consumeString]
  match hr : stringLoop q false 1 cs with
  | (.str a b n, r) =>
    rw [hr] at e2
    have := e2 a b n rfl
    simp only [newString_eq, mkTok_kind]
    rw [len_word _ _ _ _ _ _ (by decide), w32_toNat (by omega)]
    simp [hs, this]
  | (.bad n, r) =>
    rw [hr] at e3
    have := e3 n rfl
    simp only [newBadString_eq, mkTok_kind]
    rw [len_word _ _ _ _ _ _ (by decide), w32_toNat (by omega)]
    simp [hs, this]

/-! ### Urls -/

theorem consumeWhitespace_cover (st : Whitespace) (cs : List Char) :
    ∃ ws, cs = ws ++ (consumeWhitespace st cs).2.2 ∧ (consumeWhitespace st cs).1 = utf8Len ws ∧ (∀ c ∈ ws, Ws c) := by
  obtain ⟨ws, r, rfl, h2, h3⟩ := exists_ws cs
  rw [consumeWhitespace_eq st h2 h3]
  exact ⟨ws, rfl, (utf8Len_ws h2).symm, h2⟩

theorem badUrlRemnants_cover (len : Nat) (cs : List Char) (ha : EscAscii cs) :
    ∃ text, cs = text ++ (badUrlRemnants len cs).2 ∧ (badUrlRemnants len cs).1 = len + utf8Len text := by
  obtain ⟨us, rest, rfl, hv, hr⟩ := exists_remnant cs
  rw [badUrlRemnants_eq hv hr ha]
  rcases hr with rfl | ⟨c, r, rfl, rfl⟩
  · exact ⟨nameText us, by simp [remnantFinish]⟩
  · exact ⟨nameText us ++ [')'], by simp [remnantFinish, show ')'.utf8Size = 1 by decide, Nat.add_assoc]⟩

theorem urlLoop_cover (esc : Bool) (len : Nat) (cs : List Char) (ha : EscAscii cs) :
    ∃ text, cs = text ++ (urlLoop esc len cs).2 ∧
      (∀ a b t n, (urlLoop esc len cs).1 = .url a b t n → n = len + utf8Len text) ∧
      (∀ n, (urlLoop esc len cs).1 = .bad n → n = len + utf8Len text) := by
  fun_induction urlLoop esc len cs with
  | case1 => exact ⟨[], by simp, by simp, by simp⟩
  | case2 esc len c cs h =>
    simp only [beq_iff_eq] at h; subst h
    exact ⟨[')'], by simp, by simp [show ')'.utf8Size = 1 by decide], by simp⟩
  | case3 => exact ⟨[], by simp, by simp, by simp⟩
  | case4 esc len c cs h1 h2 h3 n st heq =>
    obtain ⟨ws, w1, w2, w3⟩ := consumeWhitespace_cover .none (c :: cs)
    rw [heq] at w1 w2
    exact ⟨ws, by simpa using w1, by simpa using w2, by simp⟩
  | case5 esc len c cs h1 h2 h3 n st d ds h4 heq =>
    obtain ⟨ws, w1, w2, w3⟩ := consumeWhitespace_cover .none (c :: cs)
    rw [heq] at w1 w2
    simp only [beq_iff_eq] at h4; subst h4
    refine ⟨ws ++ [')'], by simpa using w1, ?_, by simp⟩
    intro a b t m h
    simp at h w2
    simp [show ')'.utf8Size = 1 by decide]; omega
  | case6 esc len c cs h1 h2 h3 n st d ds h4 h5 heq =>
    obtain ⟨ws, w1, w2, w3⟩ := consumeWhitespace_cover .none (c :: cs)
    rw [heq] at w1 w2
    refine ⟨ws, by simpa using w1, ?_, by simp⟩
    intro a b t m h
    simp at h w2; omega
  | case7 esc len c cs h1 h2 h3 n st d ds h4 h5 heq =>
    obtain ⟨ws, w1, w2, w3⟩ := consumeWhitespace_cover .none (c :: cs)
    rw [heq] at w1 w2
    refine ⟨ws, by simpa using w1, by simp, ?_⟩
    intro m h
    simp at h w2; omega
  | case8 => exact ⟨[], by simp, by simp, by simp⟩
  | case9 => exact ⟨[], by simp, by simp, by simp⟩
  | case10 esc len c cs h1 h2 h3 h4 h5 h6 h7 ih =>
    obtain ⟨rfl, hn⟩ := isEscapeSequence_eq h7
    obtain ⟨e, c1, c2, c3⟩ := consumeEscape_spec cs hn
    have c3 := c3 ha.next
    obtain ⟨t, e1, e2, e3⟩ := ih (EscAscii.suffix (a := '\\' :: e) (by simpa [← c1] using ha))
    refine ⟨'\\' :: (e ++ t), by simp [← e1, ← c1], ?_, ?_⟩
    · intro a b t' n h; have := e2 a b t' n h; simp [show '\\'.utf8Size = 1 by decide]; omega
    · intro n h; have := e3 n h; simp [show '\\'.utf8Size = 1 by decide]; omega
  | case11 => exact ⟨[], by simp, by simp, by simp⟩
  | case12 esc len c cs h1 h2 h3 h4 h5 h6 ih =>
    obtain ⟨t, e1, e2, e3⟩ := ih ha.tail
    refine ⟨c :: t, by simp [← e1], ?_, ?_⟩
    · intro a b t' n h; have := e2 a b t' n h; simp; omega
    · intro n h; have := e3 n h; simp; omega

theorem consumeUrl_covers (leading : Nat) (esc : Bool) (pre cs : List Char) (hp : leading = utf8Len pre) (hne : pre ≠ [])
    (ha : EscAscii cs) (hl : utf8Len (pre ++ cs) < 2 ^ 32) : Covers (pre ++ cs) (consumeUrl leading esc cs).1 := by
  obtain ⟨ws, w1, w2, w3⟩ := consumeWhitespace_cover .none cs
  simp only [consumeUrl]
  generalize consumeWhitespace .none cs = W at w1 w2
  obtain ⟨n, st, r⟩ := W
  simp only at w1 w2 ⊢
  subst w1
  obtain ⟨t, e1, e2, e3⟩ := urlLoop_cover esc (leading + n) r ha.suffix
  match hr : urlLoop esc (leading + n) r with
  | (.url a b c m, r') =>
    rw [hr] at e1 e2
    have := e2 a b c m rfl
    simp only at e1
    subst e1
    simp only [utf8Len_append] at hl
    refine ⟨pre ++ (ws ++ t), r', by simp, by simp [hne], ?_⟩
    simp only [newUrl_eq, mkTok_kind]
    rw [len_word _ _ _ _ _ _ (by decide), w32_toNat (by omega)]
    simp; omega
  | (.bad m, r') =>
    rw [hr] at e1 e3
    have hm := e3 m rfl
    simp only at e1
    subst e1
    obtain ⟨t2, f1, f2⟩ := badUrlRemnants_cover m r' (EscAscii.suffix (a := ws ++ t) (by simpa using ha))
    simp only
    generalize badUrlRemnants m r' = B at f1 f2
    obtain ⟨k, r''⟩ := B
    simp only at f1 f2 ⊢
    subst f1
    simp only [utf8Len_append] at hl
    refine ⟨pre ++ (ws ++ (t ++ t2)), r'', by simp, by simp [hne], ?_⟩
    simp only [newBadUrl_eq, mkTok_kind]
    rw [len_word _ _ _ _ _ _ (by decide), w32_toNat (by omega)]
    simp; omega

end Hdx

/-
Property C38: An+B notation.
-/
import Verif.Spec.AnB
import Verif.Lemmas.SaneTokens
import Verif.Props.ComponentValues

namespace Hdx
open Spec Prog

/-! ### Tokens -/

theorem isKind_of_kind {t : Token} {k : Kind} (h : t.kind = k) (hk : k ≠ .eof) (k' : Kind) : t.isKind k' = (k.bits == k'.bits) := by
  have := kindBits_of_kind (t := t) (by rw [h]; exact hk)
  simp only [Token.isKind, this, h]

theorem isFloat_of_isInt {t : Token} (h : t.isInt = true) : t.isFloat = false := by
  unfold Token.isInt at h; unfold Token.isFloat
  cases hb : t.thirdBit
  · simp
  · simp [hb] at h

theorem ident_flags {t : Token} (h : t.kind = .ident) : t.isInt = false ∧ t.isFloat = false := by
  have := kindBits_of_kind (t := t) (by rw [h]; decide)
  simp [Token.isInt, Token.isFloat, this, h, Kind.bits]

/-- Truncating the absolute value. -/
theorem f32Abs_nonneg {w : BitVec 32} (h : 0 ≤ f32ToI32 w) : f32ToI32 (f32Abs w) = f32ToI32 w := by
  have hb : f32Abs w = BitVec.ofNat 32 (w.toNat % 2 ^ 31) := by
    apply BitVec.eq_of_toNat_eq
    have : (0x7fffffff#32).toNat = 2 ^ 31 - 1 := by decide
    rw [f32Abs, BitVec.toNat_and, this, Nat.and_two_pow_sub_one_eq_mod, BitVec.toNat_ofNat]
    omega
  have hm : (f32Abs w).toNat = w.toNat % 2 ^ 31 := by rw [hb, BitVec.toNat_ofNat]; omega
  have hs : (f32Abs w).getLsbD 31 = false := by simp [f32Abs]
  have e1 : (f32Abs w).toNat / 2 ^ 23 % 256 = w.toNat / 2 ^ 23 % 256 := by rw [hm]; omega
  have e2 : (f32Abs w).toNat % 2 ^ 23 = w.toNat % 2 ^ 23 := by rw [hm]; omega
  unfold f32ToI32 at h ⊢
  simp only [e1, e2, hs] at h ⊢
  split
  · rfl
  · rename_i hn
    rw [if_neg hn] at h
    cases hw : w.getLsbD 31
    · rfl
    · rw [hw] at h
      simp only [if_true] at h ⊢
      generalize (if w.toNat / 2 ^ 23 % 256 < 127 then 0 else if w.toNat / 2 ^ 23 % 256 ≥ 158 then 2 ^ 31
        else (2 ^ 23 + w.toNat % 2 ^ 23) * 2 ^ (w.toNat / 2 ^ 23 % 256 - 127) / 2 ^ 23 : Nat) = mag at h ⊢
      have : mag = 0 := by omega
      subst this; rfl

/-! ### Steps of the program -/

/-- What every step needs: the tokens ahead, and that trivia is skipped. -/
structure Ahead (src : List Char) (p : Parser) (cs : List Cursor) : Prop where
  stream : Stream p.lexer cs
  skip : p.skip = KindSet.TRIVIA
  source : p.lexer.source = src

theorem Ahead.peek {src : List Char} {p : Parser} {cs rest : List Cursor} {c : Cursor} (h : Ahead src p cs) (hc : skipWs cs = c :: rest) :
    p.peekNext = .ok c := by
  rw [peekNext_stream h.stream, h.skip]
  simp only [skipWs] at hc
  simp [firstOutside, hc]

theorem Ahead.next {src : List Char} {p : Parser} {cs rest : List Cursor} {c : Cursor} (h : Ahead src p cs) (hc : skipWs cs = c :: rest) :
    ∃ q, p.next = .ok (c, q) ∧ Ahead src q rest := by
  obtain ⟨l', h1, h2, h3, h4⟩ := next_stream h.stream
  rw [h.skip] at h1 h2
  simp only [skipWs] at hc
  rw [hc] at h2
  have hf : firstOutside p.lexer KindSet.TRIVIA cs = c := by simp [firstOutside, hc]
  rw [hf] at h1
  exact ⟨_, h1, ⟨h2, rfl, h3.trans h.source⟩⟩

theorem Ahead.peek_nil {src : List Char} {p : Parser} {cs : List Cursor} (h : Ahead src p cs) (hc : skipWs cs = []) :
    p.peekNext = .ok (eofOf p.lexer) := by
  rw [peekNext_stream h.stream, h.skip]
  simp only [skipWs] at hc
  simp [firstOutside, hc]

theorem isKind_iff {t : Token} {k : Kind} (hk : k ≠ .eof) : t.isKind k = true ↔ t.kind = k := by
  constructor
  · intro h
    have : t.kindBits = k.bits := by simpa [Token.isKind] using h
    unfold Token.kind
    rw [this]
    revert hk; cases k <;> decide
  · intro h
    rw [isKind_of_kind h hk]; simp

/-- The rest does not begin with a token of a kind. -/
def NotFirst (k : Cursor → Prop) (cs : List Cursor) : Prop := ∀ c rest, skipWs cs = c :: rest → ¬ k c

/-- Neither a number, nor a sign. -/
def NthEnds (cs : List Cursor) : Prop :=
  NotFirst (fun c => c.token.kind = .number ∨ c.token.kind = .delim ∧ (c.token.char = some '+' ∨ c.token.char = some '-')) cs

theorem isChar_iff {t : Token} {ch : Char} : t.isChar ch = true ↔ t.char = some ch := by
  unfold Token.isChar
  cases t.char <;> simp

/-- A result together with what is left. -/
def Takes (src : List Char) (x : Prog Nth) (p : Parser) (n : Int × Int) (rest : List Cursor) : Prop :=
  ∃ r q w, Gives x p (.ok r) q w ∧ nthMeaning r = n ∧ Ahead src q rest

theorem Ahead.tok {src : List Char} {p : Parser} {cs rest : List Cursor} {c : Cursor} (h : Ahead src p cs) (hc : skipWs cs = c :: rest)
    {g : Cursor → Bool} (hg : g c = true) : ∃ q, Gives (Prog.tok fun c => pure (g c)) p (.ok c) q [c] ∧ Ahead src q rest := by
  obtain ⟨q, h1, h2⟩ := h.next hc
  exact ⟨q, gives_tok.mpr ⟨c, h1, rfl, by rw [if_pos hg]⟩, h2⟩

theorem Takes.peek {src : List Char} {p : Parser} {cs rest mid : List Cursor} {c : Cursor} {n : Int × Int} {f : Cursor → Prog Nth} (h : Ahead src p cs)
    (hc : skipWs cs = c :: mid) (hf : Takes src (f c) p n rest) : Takes src (Prog.peek >>= f) p n rest := by
  obtain ⟨r, q, w, h1, h2⟩ := hf
  exact ⟨r, q, w, gives_of_peek (h.peek hc) h1, h2⟩

theorem Takes.tok {src : List Char} {p : Parser} {cs rest mid : List Cursor} {c : Cursor} {n : Int × Int} {f : Cursor → Prog Nth} (h : Ahead src p cs)
    (hc : skipWs cs = c :: mid) {g : Cursor → Bool} (hg : g c = true) (hf : ∀ q, Ahead src q mid → Takes src (f c) q n rest) :
    Takes src ((Prog.tok fun c => pure (g c)) >>= f) p n rest := by
  obtain ⟨q, h1, h2⟩ := h.tok hc hg
  obtain ⟨r, q', w, h3, h4⟩ := hf q h2
  exact ⟨r, q', _, gives_seq h1 h3, h4⟩

theorem Takes.pure {src : List Char} {p : Parser} {cs : List Cursor} {r : Nth} {n : Int × Int} (h : Ahead src p cs) (hn : nthMeaning r = n) :
    Takes src (Pure.pure r) p n cs := ⟨r, p, [], gives_pure.mpr ⟨rfl, rfl, rfl⟩, hn, h⟩

theorem takes_number {src : List Char} {p : Parser} {cs rest : List Cursor} {c : Cursor} {v : Int} {a bs : Int} {l : List Cursor} (h : Ahead src p cs)
    (hc : skipWs cs = c :: rest) (hk : c.token.kind = .number) (hi : c.token.isInt = true) (hv : f32ToI32 c.token.value = v) (h0 : 0 ≤ v)
    (hs : c.token.hasSign = true → bs = 0) : Takes src (nthNumber a bs l) p (a, v * (if bs == 0 then 1 else bs)) rest := by
  unfold nthNumber
  refine Takes.peek h hc ?_
  rw [if_pos ((isKind_iff (by decide)).mpr hk)]
  refine Takes.tok h hc (g := fun c => c.token.isKind .number) ((isKind_iff (by decide)).mpr hk) fun q hq => ?_
  rw [if_neg (by simp [isFloat_of_isInt hi]), if_neg (by simpa using hs)]
  refine Takes.pure hq ?_
  rw [nthMeaning, f32Abs_nonneg (by omega), hv]

theorem takes_none {src : List Char} {p : Parser} {cs : List Cursor} {a bs : Int} {l : List Cursor} (h : Ahead src p cs)
    (hn : NotFirst (fun c => c.token.kind = .number) cs) : Takes src (nthNumber a bs l) p (a, 0) cs := by
  unfold nthNumber
  cases hc : skipWs cs with
  | cons c rest =>
    refine Takes.peek h hc ?_
    rw [if_neg (by rw [isKind_iff (by decide)]; exact hn c rest hc)]
    exact Takes.pure h rfl
  | nil =>
    refine ⟨.anb a 0 l, p, [], gives_of_peek (h.peek_nil hc) ?_, rfl, h⟩
    rw [if_neg (show ¬ (eofOf p.lexer).token.isKind .number = true from show ¬ Token.EOF.isKind .number = true by decide)]
    exact gives_pure.mpr ⟨rfl, rfl, rfl⟩

theorem takes_sign_plus {src : List Char} {p : Parser} {cs mid rest : List Cursor} {d c : Cursor} {n : Nat} {a : Int} {l : List Cursor} (h : Ahead src p cs)
    (hd : skipWs cs = d :: mid) (hd' : Shows src d (.delim '+')) (hc : skipWs mid = c :: rest) (hc' : Shows src c (.signless n)) :
    Takes src (nthSign a 0 l) p (a, n) rest := by
  have e1 : d.token.isKind .delim = true := (isKind_iff (by decide)).mpr hd'.1
  have e2 : d.token.isChar '+' = true := isChar_iff.mpr hd'.2
  unfold nthSign
  rw [if_pos (by decide)]
  refine Takes.peek h hd ?_
  rw [if_pos (by simp [e1, e2])]
  refine Takes.tok h hd (g := fun c => c.token.isKind .delim && c.token.isChar '+') (by simp [e1, e2]) fun q hq => ?_
  have := takes_number (a := a) (bs := 1) (l := l ++ [d]) hq hc hc'.1 hc'.2.1 hc'.2.2.2 (by omega) (by rw [hc'.2.2.1]; simp)
  simpa using this

theorem takes_sign_minus {src : List Char} {p : Parser} {cs mid rest : List Cursor} {d c : Cursor} {n : Nat} {a : Int} {l : List Cursor} (h : Ahead src p cs)
    (hd : skipWs cs = d :: mid) (hd' : Shows src d (.delim '-')) (hc : skipWs mid = c :: rest) (hc' : Shows src c (.signless n)) :
    Takes src (nthSign a 0 l) p (a, -(n : Int)) rest := by
  have e1 : d.token.isKind .delim = true := (isKind_iff (by decide)).mpr hd'.1
  have e2 : d.token.isChar '-' = true := isChar_iff.mpr hd'.2
  have e3 : d.token.isChar '+' = false := by simp [Token.isChar, hd'.2]
  unfold nthSign
  rw [if_pos (by decide)]
  refine Takes.peek h hd ?_
  rw [if_neg (by simp [e3]), if_pos (by simp [e1, e2])]
  refine Takes.tok h hd (g := fun c => c.token.isKind .delim && c.token.isChar '-') (by simp [e1, e2]) fun q hq => ?_
  have := takes_number (a := a) (bs := -1) (l := l ++ [d]) hq hc hc'.1 hc'.2.1 hc'.2.2.2 (by omega) (by rw [hc'.2.2.1]; simp)
  simpa using this

theorem takes_sign_signed {src : List Char} {p : Parser} {cs rest : List Cursor} {c : Cursor} {v : Int} {a : Int} {l : List Cursor} (h : Ahead src p cs)
    (hc : skipWs cs = c :: rest) (hc' : Shows src c (.signed v)) (h0 : 0 ≤ v) : Takes src (nthSign a 0 l) p (a, v) rest := by
  have e1 : c.token.isKind .delim = false := by rw [isKind_of_kind hc'.1 (by decide)]; decide
  unfold nthSign
  rw [if_pos (by decide)]
  refine Takes.peek h hc ?_
  rw [if_neg (by simp [e1]), if_neg (by simp [e1])]
  have := takes_number (a := a) (bs := 0) (l := l) h hc hc'.1 hc'.2.1 hc'.2.2.2 h0 (by simp)
  simpa using this

theorem takes_sign_dash {src : List Char} {p : Parser} {cs rest : List Cursor} {c : Cursor} {n : Nat} {a : Int} {l : List Cursor} (h : Ahead src p cs)
    (hc : skipWs cs = c :: rest) (hc' : Shows src c (.signless n)) : Takes src (nthSign a (-1) l) p (a, -(n : Int)) rest := by
  unfold nthSign
  rw [if_neg (by decide)]
  have := takes_number (a := a) (bs := -1) (l := l) h hc hc'.1 hc'.2.1 hc'.2.2.2 (by omega) (by rw [hc'.2.2.1]; simp)
  simpa using this

theorem takes_sign_none {src : List Char} {p : Parser} {cs : List Cursor} {a : Int} {l : List Cursor} (h : Ahead src p cs)
    (hn : NthEnds cs) : Takes src (nthSign a 0 l) p (a, 0) cs := by
  have hnone := takes_none (a := a) (bs := 0) (l := l) h (fun c rest hc hk => hn c rest hc (.inl hk))
  unfold nthSign
  rw [if_pos (by decide)]
  cases hc : skipWs cs with
  | cons c rest =>
    have := hn c rest hc
    refine Takes.peek h hc ?_
    rw [if_neg (by simp only [Bool.and_eq_true, isKind_iff (show Kind.delim ≠ .eof by decide), isChar_iff]; grind),
      if_neg (by simp only [Bool.and_eq_true, isKind_iff (show Kind.delim ≠ .eof by decide), isChar_iff]; grind)]
    exact hnone
  | nil =>
    obtain ⟨r, q, w, h1, h2⟩ := hnone
    refine ⟨r, q, w, gives_of_peek (h.peek_nil hc) ?_, h2⟩
    rw [if_neg (show ¬ ((eofOf p.lexer).token.isKind .delim && (eofOf p.lexer).token.isChar '+') = true from
        show ¬ (Token.EOF.isKind .delim && Token.EOF.isChar '+') = true by decide),
      if_neg (show ¬ ((eofOf p.lexer).token.isKind .delim && (eofOf p.lexer).token.isChar '-') = true from
        show ¬ (Token.EOF.isKind .delim && Token.EOF.isChar '-') = true by decide)]
    exact h1

/-! ### The token with the `n` -/

theorem Takes.ask {src : List Char} {p : Parser} {rest : List Cursor} {α : Type} {g : Parser → Except Panic α} {a : α} {n : Int × Int} {f : α → Prog Nth}
    (hg : g p = .ok a) (hf : Takes src (f a) p n rest) : Takes src (Prog.ask g >>= f) p n rest := by
  obtain ⟨r, q, w, h1, h2⟩ := hf
  exact ⟨r, q, [] ++ w, gives_seq (gives_ask.mpr ⟨a, hg, rfl, rfl, rfl⟩) h1, h2⟩

/-- What follows the `n`, with the sign that the name itself ended in. -/
theorem takes_n {src : List Char} {p : Parser} {cs rest : List Cursor} {c : Cursor} {l : List Cursor} {name s : List Char} {a b : Int} (h : Ahead src p cs)
    (hk : c.token.kind = .dimension ∧ c.token.isInt = true ∧ f32ToI32 c.token.value = a ∧ name = 'n' :: s ∨
      c.token.kind = .ident ∧ a = 1 ∧ name = 'n' :: s ∨ c.token.kind = .ident ∧ a = -1 ∧ name = '-' :: 'n' :: s ∧ s ≠ ['-'])
    (hs : c.parseStrLower src = .ok name)
    (hb : s = [] ∧ Takes src (nthSign a 0 l) p (a, b) rest ∨ s = ['-'] ∧ Takes src (nthSign a (-1) l) p (a, b) rest ∨
      parseI32 s = some b ∧ rest = cs) : Takes src (nthN c l) p (a, b) rest := by
  have hkk : (c.token.isKind .number || c.token.isKind .dimension || c.token.isKind .ident) = true := by
    rcases hk with hk | hk | hk <;> rw [isKind_of_kind hk.1 (by decide), isKind_of_kind hk.1 (by decide), isKind_of_kind hk.1 (by decide)] <;> rfl
  have hfl : c.token.isFloat = false := by
    rcases hk with hk | hk | hk
    · exact isFloat_of_isInt hk.2.1
    · exact (ident_flags hk.1).2
    · exact (ident_flags hk.1).2
  unfold nthN
  rw [if_neg (by simp [hkk]), if_neg (by simp [hfl])]
  refine Takes.ask (a := name) (by rw [h.source]; exact hs) ?_
  have hp1 : parseI32 ['-'] = none := by decide
  have hp0 : parseI32 [] = none := by decide
  rcases hk with ⟨hk, hi, hv, rfl⟩ | ⟨hk, rfl, rfl⟩ | ⟨hk, rfl, rfl, hne⟩
  · rcases hb with ⟨rfl, hb⟩ | ⟨rfl, hb⟩ | ⟨hb, rfl⟩
    · simpa [hi, hv, hp0] using hb
    · simpa [hi, hv] using hb
    · have : s ≠ ['-'] := by rintro rfl; rw [hp1] at hb; exact absurd hb (by simp)
      simp [hi, hv, this, hb]
      exact Takes.pure h rfl
  · have hi := (ident_flags hk).1
    rcases hb with ⟨rfl, hb⟩ | ⟨rfl, hb⟩ | ⟨hb, rfl⟩
    · simpa [hi, hp0] using hb
    · simpa [hi] using hb
    · have : s ≠ ['-'] := by rintro rfl; rw [hp1] at hb; exact absurd hb (by simp)
      simp [hi, this, hb]
      exact Takes.pure h rfl
  · have hi := (ident_flags hk).1
    rcases hb with ⟨rfl, hb⟩ | ⟨rfl, hb⟩ | ⟨hb, rfl⟩
    · simpa [hi, hp0] using hb
    · exact absurd rfl hne
    · simp [hi, hb]
      exact Takes.pure h rfl

/-! ### From the first token -/

theorem ident_notChar {t : Token} {ch : Char} (h : t.kind = .ident ∨ t.kind = .dimension) : t.isChar ch = false := by
  have : t.isDelimLike = false := by
    rcases h with h | h <;>
    · have := kindBits_of_kind (t := t) (by rw [h]; decide)
      simp [Token.isDelimLike, this, h, Kind.bits]
  simp [Token.isChar, Token.char, this]

/-- With nothing skipped, the very next token. -/
theorem Ahead.adjacent {src : List Char} {p : Parser} {cs : List Cursor} {c : Cursor} (h : Ahead src p (c :: cs)) :
    ∃ q, Gives any { p with skip := KindSet.NONE } (.ok c) q [c] ∧ Ahead src { q with skip := p.skip } cs := by
  obtain ⟨l', h1, h2, h3, h4⟩ := next_stream (p := { p with skip := KindSet.NONE }) h.stream
  have hn : c.token.inSet KindSet.NONE = false := by
    have : (KindSet.new []).bits = 0#32 := by decide
    simp [Token.inSet, KindSet.containsBits, KindSet.NONE, this]
  simp only [hn, List.dropWhile_cons_of_neg, Bool.false_eq_true, not_false_eq_true, List.tail_cons] at h2
  have hf : firstOutside p.lexer KindSet.NONE (c :: cs) = c := by simp [firstOutside, hn]
  simp only [hf] at h1
  exact ⟨_, gives_tok (g := fun _ => true).mpr ⟨c, h1, rfl, rfl⟩, ⟨h2, h.skip, h3.trans h.source⟩⟩

theorem takes_step {src : List Char} {p : Parser} {cs mid rest : List Cursor} {a b : Int} {m : Bool} {s : List Char} (h : Ahead src p cs)
    (hst : Step src (skipWs cs) a m s mid) (hm : m = true → s ≠ ['-'])
    (hb : ∀ q l, Ahead src q mid → s = [] ∧ Takes src (nthSign a 0 l) q (a, b) rest ∨ s = ['-'] ∧ Takes src (nthSign a (-1) l) q (a, b) rest ∨
      parseI32 s = some b ∧ rest = mid) : Takes src nth p (a, b) rest := by
  unfold nth
  generalize hcs : skipWs cs = ts at hst
  have hident : ∀ c name, skipWs cs = c :: mid → c.token.kind = .ident → c.parseStrLower src = .ok name → name ≠ c!"even" → name ≠ c!"odd" →
      (∀ q l, Ahead src q mid → Takes src (nthN c l) q (a, b) rest) → Takes src nth p (a, b) rest := by
    intro c name hc hk hs h1 h2 hN
    unfold nth
    refine Takes.peek h hc ?_
    rw [if_neg (by rw [isKind_of_kind hk (by decide)]; decide), if_pos (by rw [isKind_of_kind hk (by decide)]; decide)]
    refine Takes.tok h hc (g := fun c => c.token.isKind .ident) ((isKind_iff (by decide)).mpr hk) fun q hq => ?_
    refine Takes.ask (a := name) (by rw [hq.source]; exact hs) ?_
    rw [if_neg (by simpa using h1), if_neg (by simpa using h2)]
    unfold nthFirst
    rw [if_neg (by simp [ident_notChar (.inl hk)])]
    exact hN q _ hq
  cases hst with
  | @dimension c cs' v s hc =>
    refine Takes.peek h hcs ?_
    rw [if_neg (by rw [isKind_of_kind hc.1 (by decide)]; decide), if_neg (by rw [isKind_of_kind hc.1 (by decide)]; decide)]
    refine Takes.tok h hcs (g := fun _ => true) rfl fun q hq => ?_
    unfold nthFirst
    rw [if_neg (by simp [ident_notChar (.inr hc.1)])]
    exact takes_n hq (.inl ⟨hc.1, hc.2.1, hc.2.2.1, rfl⟩) hc.2.2.2 (hb _ _ hq)
  | @n c cs' s hc =>
    exact hident c _ hcs hc.1 hc.2 (by simp) (by simp) fun q l hq => takes_n hq (.inr (.inl ⟨hc.1, rfl, rfl⟩)) hc.2 (hb _ _ hq)
  | @minus c cs' s hc =>
    exact hident c _ hcs hc.1 hc.2 (by simp) (by simp) fun q l hq => takes_n hq (.inr (.inr ⟨hc.1, rfl, rfl, hm rfl⟩)) hc.2 (hb _ _ hq)
  | @plus c c' cs' s hc hc' =>
    refine Takes.peek h hcs ?_
    rw [if_neg (by rw [isKind_of_kind hc.1 (by decide)]; decide), if_neg (by rw [isKind_of_kind hc.1 (by decide)]; decide)]
    refine Takes.tok h hcs (g := fun _ => true) rfl fun q hq => ?_
    unfold nthFirst
    rw [if_pos (isChar_iff.mpr hc.2)]
    obtain ⟨q', h1, h2⟩ := hq.adjacent
    obtain ⟨r, q'', w, h3, h4⟩ := takes_n (l := [c, c']) h2 (.inr (.inl ⟨hc'.1, rfl, rfl⟩)) hc'.2 (hb _ _ h2)
    refine ⟨r, q'', [c'] ++ w, gives_setSkip.mpr (gives_seq (gives_result.mpr ⟨_, h1, rfl⟩) (gives_setSkip.mpr ?_)), h4⟩
    exact gives_seq (w1 := []) (gives_ofResult.mpr ⟨rfl, rfl, rfl⟩) h3

theorem run_of_takes {src : List Char} {p : Parser} {rest : List Cursor} {n : Int × Int} {x : Prog Nth} (h : Takes src x p n rest) :
    ∃ r q, x.run p = .ok (.ok r, q) ∧ nthMeaning r = n ∧ Ahead src q rest := by
  obtain ⟨r, q, w, h1, h2⟩ := h
  exact ⟨r, q, run_of_gives h1, h2⟩

/-! ### Inversion -/

theorem Ahead.next_inv {src : List Char} {p q : Parser} {cs : List Cursor} {c : Cursor} (h : Ahead src p cs) (hn : p.next = .ok (c, q)) :
    (∃ rest, skipWs cs = c :: rest ∧ Ahead src q rest) ∨ c.token = Token.EOF := by
  cases hc : skipWs cs with
  | cons c' rest =>
    obtain ⟨q', h1, h2⟩ := h.next hc
    rw [hn] at h1; cases h1
    exact .inl ⟨_, rfl, h2⟩
  | nil =>
    have := h.peek_nil hc
    rw [Parser.C32_peek_next, hn] at this
    simp only [Except.map, Except.ok.injEq] at this
    exact .inr (by rw [this]; rfl)

theorem number_isInt {t : Token} (h : t.kind = .number) (hf : t.isFloat = false) : t.isInt = true := by
  have := kindBits_of_kind (t := t) (by rw [h]; decide)
  simp [Token.isInt, Token.isFloat, this, h, Kind.bits] at hf ⊢
  exact hf

theorem inv_number {src : List Char} {p q : Parser} {cs w l : List Cursor} {r : Nth} {a bs : Int} (h : Ahead src p cs)
    (hg : Gives (nthNumber a bs l) p (.ok r) q w) :
    (∃ c rest, skipWs cs = c :: rest ∧ c.token.kind = .number ∧ c.token.isInt = true ∧ (c.token.hasSign = true → bs = 0)
      ∧ nthMeaning r = (a, f32ToI32 (f32Abs c.token.value) * (if bs == 0 then 1 else bs)) ∧ Ahead src q rest)
    ∨ nthMeaning r = (a, 0) ∧ Ahead src q cs := by
  unfold nthNumber at hg
  obtain ⟨c, p1, w1, w2, h1, h2, _⟩ := gives_bind_ok.mp hg
  obtain ⟨c', _, hcc, rfl, rfl⟩ := gives_peek.mp h1
  rcases gives_ite.mp h2 with ⟨hk, h2⟩ | ⟨_, h2⟩
  · obtain ⟨d, p2, w3, w4, h3, h4, _⟩ := gives_bind_ok.mp h2
    obtain ⟨hn, _, hdk⟩ := gives_isKind_ok.mp h3
    rw [isKind_iff (by decide)] at hdk
    rcases h.next_inv hn with ⟨rest, hs, ha⟩ | he
    · rcases gives_ite.mp h4 with ⟨_, h4⟩ | ⟨hf, h4⟩
      · obtain ⟨h4, _⟩ := gives_fail.mp h4; cases h4
      rcases gives_ite.mp h4 with ⟨_, h4⟩ | ⟨hsg, h4⟩
      · obtain ⟨h4, _⟩ := gives_fail.mp h4; cases h4
      obtain ⟨h4, rfl, _⟩ := gives_pure.mp h4
      cases h4
      refine .inl ⟨d, rest, hs, hdk, number_isInt hdk (by simpa using hf), ?_, rfl, ha⟩
      intro hh; simpa [hh] using hsg
    · rw [he] at hdk; exact absurd hdk (by decide)
  · obtain ⟨h2, rfl, _⟩ := gives_pure.mp h2
    cases h2
    exact .inr ⟨rfl, h⟩

/-- The sign that `nthSign` found. -/
theorem inv_sign {src : List Char} {p q : Parser} {cs w l : List Cursor} {r : Nth} {a : Int} (h : Ahead src p cs)
    (hg : Gives (nthSign a 0 l) p (.ok r) q w) :
    (∃ d mid p1 w1 l1, skipWs cs = d :: mid ∧ Shows src d (.delim '+') ∧ Ahead src p1 mid ∧ Gives (nthNumber a 1 l1) p1 (.ok r) q w1)
    ∨ (∃ d mid p1 w1 l1, skipWs cs = d :: mid ∧ Shows src d (.delim '-') ∧ Ahead src p1 mid ∧ Gives (nthNumber a (-1) l1) p1 (.ok r) q w1)
    ∨ Gives (nthNumber a 0 l) p (.ok r) q w := by
  have key : ∀ ch d p1 w1, Gives (tok (isDelim ch)) p (.ok d) p1 w1 → ∃ mid, skipWs cs = d :: mid ∧ Shows src d (.delim ch) ∧ Ahead src p1 mid := by
    intro ch d p1 w1 hg
    obtain ⟨c, h1, _, h2⟩ := (gives_tok (g := fun c => c.token.isKind .delim && c.token.isChar ch)).mp hg
    split at h2
    · rename_i hk
      cases h2
      rw [Bool.and_eq_true, isKind_iff (by decide), isChar_iff] at hk
      rcases h.next_inv h1 with ⟨rest, hs, ha⟩ | he
      · exact ⟨rest, hs, hk, ha⟩
      · rw [he] at hk; exact absurd hk.1 (by decide)
    · cases h2
  unfold nthSign at hg
  rw [if_pos (by decide)] at hg
  obtain ⟨c, p1, w1, w2, h1, h2, hw⟩ := gives_bind_ok.mp hg
  obtain ⟨c', _, hcc, rfl, rfl⟩ := gives_peek.mp h1
  rcases gives_ite.mp h2 with ⟨hk, h2⟩ | ⟨_, h2⟩
  · obtain ⟨d, p2, w3, w4, h3, h4, _⟩ := gives_bind_ok.mp h2
    obtain ⟨mid, k1, k2, k3⟩ := key _ _ _ _ h3
    exact .inl ⟨d, mid, p2, _, _, k1, k2, k3, h4⟩
  rcases gives_ite.mp h2 with ⟨hk, h2⟩ | ⟨_, h2⟩
  · obtain ⟨d, p2, w3, w4, h3, h4, _⟩ := gives_bind_ok.mp h2
    obtain ⟨mid, k1, k2, k3⟩ := key _ _ _ _ h3
    exact .inr (.inl ⟨d, mid, p2, _, _, k1, k2, k3, h4⟩)
  · rw [hw]; exact .inr (.inr h2)

/-! ### Digits -/

theorem isDigit_range {c : Char} : isDigit c = true ↔ 48 ≤ c.toNat ∧ c.toNat ≤ 57 := by
  rw [isDigit_iff]
  simp only [Digit, show '0'.toNat = 48 from rfl, show '9'.toNat = 57 from rfl]

theorem digitsValue_from (ds : List Char) : ∀ n, ds.foldl (fun n c => n * 10 + F32.digitVal c) n = n * 10 ^ ds.length + digitsNumber ds := by
  induction ds with
  | nil => simp [digitsNumber]
  | cons d ds ih =>
    intro n
    rw [List.foldl_cons, ih, digitsNumber, List.length_cons, Nat.pow_succ, Nat.add_mul, F32.digitVal, Nat.mul_comm (10 ^ ds.length) 10, Nat.mul_assoc]
    omega

theorem digitsValue_eq (ds : List Char) : digitsValue ds = digitsNumber ds := by
  rw [digitsValue, digitsValue_from]; simp

theorem nthDigits_iff {ds : List Char} : NthDigits ds ↔ (ds.isEmpty || !ds.all isDigit) = false := by
  simp [NthDigits, ← isDigit_range]

theorem parse_minus {ds : List Char} (h : NthDigits ds) (hm : digitsNumber ds ≤ 2147483648) : parseI32 ('-' :: ds) = some (-(digitsNumber ds : Int)) := by
  rw [nthDigits_iff] at h
  simp [parseI32, F32.readSign, h, digitsValue_eq]
  omega

theorem parse_inv {s : List Char} {b : Int} (h : parseI32 s = some b) :
    (∃ ds, s = '-' :: ds ∧ NthDigits ds ∧ b = -(digitsNumber ds)) ∨ NthDigits s ∨ ∃ ds, s = '+' :: ds ∧ NthDigits ds := by
  have hd : NthDigits (F32.readSign s).2 := by
    rw [nthDigits_iff]
    cases hh : ((F32.readSign s).2.isEmpty || !(F32.readSign s).2.all isDigit)
    · rfl
    · rw [parseI32] at h; simp only [hh, if_true] at h; cases h
  have hv : b = if (F32.readSign s).1 then -(digitsNumber (F32.readSign s).2 : Int) else digitsNumber (F32.readSign s).2 := by
    rw [parseI32] at h
    simp only [nthDigits_iff.mp hd, Bool.false_eq_true, if_false, digitsValue_eq] at h
    generalize (if (F32.readSign s).1 = true then -(digitsNumber (F32.readSign s).2 : Int) else digitsNumber (F32.readSign s).2) = v at h ⊢
    by_cases hr : -2147483648 ≤ v ∧ v ≤ 2147483647
    · rw [if_pos hr] at h; exact (Option.some.inj h).symm
    · rw [if_neg hr] at h; cases h
  unfold F32.readSign at hd hv
  split at hd
  · exact .inl ⟨_, rfl, hd, by simpa using hv⟩
  · exact .inr (.inr ⟨_, rfl, hd⟩)
  · exact .inr (.inl hd)

theorem inv_n {src : List Char} {p q : Parser} {cs w l : List Cursor} {c : Cursor} {r : Nth} (h : Ahead src p cs)
    (hg : Gives (nthN c l) p (.ok r) q w) : ∃ name, c.parseStrLower src = .ok name ∧ ('N' ∈ name ∨ ∃ a s,
      (c.token.isInt = true ∧ (c.token.kind = .dimension ∨ c.token.kind = .number) ∧ f32ToI32 c.token.value = a ∧ name = 'n' :: s ∨
        c.token.kind = .ident ∧ a = 1 ∧ name = 'n' :: s ∨ c.token.kind = .ident ∧ a = -1 ∧ name = '-' :: 'n' :: s ∧ s ≠ ['-'])
      ∧ (s = [] ∧ Gives (nthSign a 0 l) p (.ok r) q w ∨ s = ['-'] ∧ Gives (nthSign a (-1) l) p (.ok r) q w ∨
        ∃ b, parseI32 s = some b ∧ r = .anb a b l ∧ q = p)) := by
  unfold nthN at hg
  rcases gives_ite.mp hg with ⟨_, hg⟩ | ⟨hk, hg⟩
  · obtain ⟨h4, _⟩ := gives_fail.mp hg; cases h4
  rcases gives_ite.mp hg with ⟨_, hg⟩ | ⟨hf, hg⟩
  · obtain ⟨h4, _⟩ := gives_fail.mp hg; cases h4
  obtain ⟨name, p1, w1, w2, h1, h2, hw⟩ := gives_bind_ok.mp hg
  obtain ⟨_, hs, hn, hp1, hw1⟩ := gives_ask.mp h1
  cases hn
  rw [h.source] at hs
  rw [hp1] at h2
  rw [hw1] at hw
  rw [hw, List.nil_append]
  refine ⟨name, hs, ?_⟩
  have hkind : c.token.isInt = true ∧ (c.token.kind = .dimension ∨ c.token.kind = .number) ∨ c.token.kind = .ident ∧ c.token.isInt = false := by
    simp only [Bool.not_eq_true, Bool.not_eq_false, Bool.or_eq_true, isKind_iff (show Kind.number ≠ .eof by decide),
      isKind_iff (show Kind.dimension ≠ .eof by decide), isKind_iff (show Kind.ident ≠ .eof by decide), Bool.not_eq_eq_eq_not, Bool.not_true] at hk
    simp only [Bool.not_eq_true] at hf
    have hk : (c.token.kind = .number ∨ c.token.kind = .dimension) ∨ c.token.kind = .ident := by grind
    rcases hk with (hk | hk) | hk
    · exact .inl ⟨number_isInt hk hf, .inr hk⟩
    · refine .inl ⟨?_, .inl hk⟩
      have := kindBits_of_kind (t := c.token) (by rw [hk]; decide)
      simp [Token.isInt, Token.isFloat, this, hk, Kind.bits] at hf ⊢
      exact hf
    · exact .inr ⟨hk, (ident_flags hk).1⟩
  rcases gives_ite.mp h2 with ⟨hnd, h2⟩ | ⟨hnd, h2⟩
  · have hnd : name = ['n', '-'] := by simpa using hnd
    subst hnd
    right
    rcases hkind with ⟨hi, hk⟩ | ⟨hk, hi⟩
    · rw [if_pos hi] at h2
      exact ⟨_, ['-'], .inl ⟨hi, hk, rfl, rfl⟩, .inr (.inl ⟨rfl, h2⟩)⟩
    · simp only [hi, Bool.false_eq_true, if_false] at h2
      exact ⟨1, ['-'], .inr (.inl ⟨hk, rfl, rfl⟩), .inr (.inl ⟨rfl, h2⟩)⟩
  · have hnd : name ≠ ['n', '-'] := by simpa using hnd
    rcases gives_ite.mp h2 with ⟨_, h2⟩ | ⟨hch, h2⟩
    · obtain ⟨h4, _⟩ := gives_fail.mp h2; cases h4
    have rest : ∀ (a : Int) (s : List Char), Gives (match parseI32 s with
        | some b => pure (.anb a b l)
        | none => if !s.isEmpty then fail .unexpected c else nthSign a 0 l) p (.ok r) q w2 →
        s ≠ ['-'] ∧ (s = [] ∧ Gives (nthSign a 0 l) p (.ok r) q w2 ∨ s = ['-'] ∧ Gives (nthSign a (-1) l) p (.ok r) q w2 ∨
        ∃ b, parseI32 s = some b ∧ r = .anb a b l ∧ q = p) := by
      intro a s hm
      cases hp : parseI32 s with
      | some b =>
        rw [hp] at hm
        obtain ⟨h4, rfl, _⟩ := gives_pure.mp hm
        cases h4
        refine ⟨?_, .inr (.inr ⟨b, rfl, rfl, rfl⟩)⟩
        rintro rfl; revert hp; simp [parseI32, F32.readSign]
      | none =>
        rw [hp] at hm
        rcases gives_ite.mp hm with ⟨_, hm⟩ | ⟨he, hm⟩
        · obtain ⟨h4, _⟩ := gives_fail.mp hm; cases h4
        · have : s = [] := by simpa using he
          exact ⟨by simp [this], .inl ⟨this, hm⟩⟩
    rcases hkind with ⟨hi, hk⟩ | ⟨hk, hi⟩
    · simp only [hi, if_true, Bool.not_true, Bool.false_and, Bool.false_eq_true, if_false] at hch h2
      cases name with
      | nil => simp at hch
      | cons x s =>
        simp only [List.head?_cons, Bool.not_eq_eq_eq_not, Bool.not_false, Bool.or_eq_true, beq_iff_eq, Option.some.injEq, Bool.not_true,
          Bool.not_eq_false] at hch
        rcases hch with rfl | rfl
        · exact .inr ⟨_, s, .inl ⟨hi, hk, rfl, rfl⟩, (rest _ _ h2).2⟩
        · exact .inl (by simp)
    · simp only [hi, Bool.false_eq_true, if_false, Bool.not_false, Bool.true_and] at hch h2
      cases name with
      | nil => simp at hch
      | cons x s =>
        by_cases hx : x = '-'
        · subst hx
          simp only [List.head?_cons, beq_self_eq_true, if_true, List.tail_cons] at hch h2
          cases s with
          | nil => simp at hch
          | cons y s =>
            simp only [List.head?_cons, Bool.not_eq_eq_eq_not, Bool.not_false, Bool.or_eq_true, beq_iff_eq, Option.some.injEq, Bool.not_true,
              Bool.not_eq_false] at hch
            rcases hch with rfl | rfl
            · have := rest _ _ h2
              exact .inr ⟨_, s, .inr (.inr ⟨hk, rfl, rfl, this.1⟩), this.2⟩
            · exact .inl (by simp)
        · simp only [List.head?_cons, beq_iff_eq, Option.some.injEq, hx, if_false] at hch h2
          simp only [Bool.not_eq_eq_eq_not, Bool.or_eq_true, beq_iff_eq, Option.some.injEq, Bool.not_true, Bool.not_eq_false] at hch
          rcases hch with rfl | rfl
          · exact .inr ⟨_, s, .inr (.inl ⟨hk, rfl, rfl⟩), (rest _ _ h2).2⟩
          · exact .inl (by simp)

theorem signless_shows {src : List Char} {c : Cursor} (h : SaneTok src c) (hk : c.token.kind = .number) (hi : c.token.isInt = true)
    (hs : c.token.hasSign = false) : ∃ n : Nat, Shows src c (.signless n) ∧ f32ToI32 (f32Abs c.token.value) = n := by
  have h0 := h.signless hk hs
  refine ⟨(f32ToI32 c.token.value).toNat, ⟨hk, hi, hs, by omega⟩, ?_⟩
  rw [f32Abs_nonneg h0]; omega

theorem skipWs_sub {cs : List Cursor} {c : Cursor} (h : c ∈ skipWs cs) : c ∈ cs := (List.dropWhile_sublist _).subset h

/-- What follows a well-formed step. -/
theorem inv_tail {src : List Char} {p q : Parser} {cs mid w l : List Cursor} {r : Nth} {a : Int} {m : Bool} {s : List Char} (hst : Step src (skipWs cs) a m s mid)
    (hm : m = true → s ≠ ['-']) (h : Ahead src p mid) (hsane : ∀ c ∈ mid, SaneTok src c)
    (hg : s = [] ∧ Gives (nthSign a 0 l) p (.ok r) q w ∨ s = ['-'] ∧ Gives (nthSign a (-1) l) p (.ok r) q w ∨
      ∃ b, parseI32 s = some b ∧ r = .anb a b l ∧ q = p) :
    ∃ rest, Ahead src q rest ∧ (AnB src cs (nthMeaning r).1 (nthMeaning r).2 rest ∨ Malformed src cs (nthMeaning r).1 (nthMeaning r).2 rest) := by
  rcases hg with ⟨rfl, hg⟩ | ⟨rfl, hg⟩ | ⟨b, hp, rfl, rfl⟩
  · rcases inv_sign h hg with ⟨d, mid2, p1, w1, l1, k1, k2, k3, k4⟩ | ⟨d, mid2, p1, w1, l1, k1, k2, k3, k4⟩ | hg
    · have hsub : ∀ c ∈ mid2, c ∈ mid := fun c hc => skipWs_sub (by rw [k1]; exact List.mem_cons_of_mem _ hc)
      rcases inv_number k3 k4 with ⟨c, rest, n1, n2, n3, n4, n5, n6⟩ | ⟨n1, n2⟩
      · have hns : c.token.hasSign = false := by cases hh : c.token.hasSign; rfl; exact absurd (n4 hh) (by decide)
        obtain ⟨n, t1, t2⟩ := signless_shows (hsane c (hsub _ (skipWs_sub (by rw [n1]; simp)))) n2 n3 hns
        refine ⟨rest, n6, .inl ?_⟩
        rw [n5, t2]
        simpa using AnB.plus hst k1 k2 n1 t1
      · refine ⟨mid2, n2, .inr ?_⟩
        rw [n1]; exact .noNumber hst k1 (.inl k2)
    · have hsub : ∀ c ∈ mid2, c ∈ mid := fun c hc => skipWs_sub (by rw [k1]; exact List.mem_cons_of_mem _ hc)
      rcases inv_number k3 k4 with ⟨c, rest, n1, n2, n3, n4, n5, n6⟩ | ⟨n1, n2⟩
      · have hns : c.token.hasSign = false := by cases hh : c.token.hasSign; rfl; exact absurd (n4 hh) (by decide)
        obtain ⟨n, t1, t2⟩ := signless_shows (hsane c (hsub _ (skipWs_sub (by rw [n1]; simp)))) n2 n3 hns
        refine ⟨rest, n6, .inl ?_⟩
        rw [n5, t2]
        simpa using AnB.minus hst k1 k2 n1 t1
      · refine ⟨mid2, n2, .inr ?_⟩
        rw [n1]; exact .noNumber hst k1 (.inr k2)
    · rcases inv_number h hg with ⟨c, rest, n1, n2, n3, n4, n5, n6⟩ | ⟨n1, n2⟩
      · refine ⟨rest, n6, ?_⟩
        rw [n5]
        cases hns : c.token.hasSign with
        | false =>
          obtain ⟨n, t1, t2⟩ := signless_shows (hsane c (skipWs_sub (by rw [n1]; simp))) n2 n3 hns
          rw [t2]
          exact .inr (by simpa using Malformed.noSign hst n1 t1)
        | true =>
          have t1 : Shows src c (.signed (f32ToI32 c.token.value)) := ⟨n2, n3, hns, rfl⟩
          by_cases h0 : f32ToI32 c.token.value < 0
          · exact .inr (.negative hst n1 t1 h0)
          · rw [f32Abs_nonneg (by omega)]
            exact .inl (by simpa using AnB.stepSigned hst n1 t1)
      · refine ⟨mid, n2, .inl ?_⟩
        rw [n1]; exact .step hst
  · have hmf : m = false := by cases m; rfl; exact absurd rfl (hm rfl)
    subst hmf
    unfold nthSign at hg
    rw [if_neg (by decide)] at hg
    rcases inv_number h hg with ⟨c, rest, n1, n2, n3, n4, n5, n6⟩ | ⟨n1, n2⟩
    · have hns : c.token.hasSign = false := by cases hh : c.token.hasSign; rfl; exact absurd (n4 hh) (by decide)
      obtain ⟨n, t1, t2⟩ := signless_shows (hsane c (skipWs_sub (by rw [n1]; simp))) n2 n3 hns
      refine ⟨rest, n6, .inl ?_⟩
      rw [n5, t2]
      simpa using AnB.dash hst n1 t1
    · refine ⟨mid, n2, .inr ?_⟩
      rw [n1]; exact .dashNoNumber hst
  · refine ⟨mid, h, ?_⟩
    rcases parse_inv hp with ⟨ds, rfl, hd, rfl⟩ | hd
    · exact .inl (.digits hst hd)
    · exact .inr (.suffix hst hd)

/-- After the token with the `n`, whatever is accepted leaves a suffix of the tokens. -/
theorem gives_rest {src : List Char} {p q : Parser} {cs w l : List Cursor} {r : Nth} {a : Int} {s : List Char} (h : Ahead src p cs)
    (h3 : s = [] ∧ Gives (nthSign a 0 l) p (.ok r) q w ∨ s = ['-'] ∧ Gives (nthSign a (-1) l) p (.ok r) q w ∨
      ∃ b, parseI32 s = some b ∧ r = .anb a b l ∧ q = p) : ∃ rest, Ahead src q rest := by
  rcases h3 with ⟨_, h3⟩ | ⟨_, h3⟩ | ⟨_, _, _, rfl⟩
  · rcases inv_sign h h3 with ⟨d, mid, p1, w1, l1, _, _, k3, k4⟩ | ⟨d, mid, p1, w1, l1, _, _, k3, k4⟩ | hg
    · rcases inv_number k3 k4 with ⟨_, rest, _, _, _, _, _, h⟩ | ⟨_, h⟩ <;> exact ⟨_, h⟩
    · rcases inv_number k3 k4 with ⟨_, rest, _, _, _, _, _, h⟩ | ⟨_, h⟩ <;> exact ⟨_, h⟩
    · rcases inv_number h hg with ⟨_, rest, _, _, _, _, _, h⟩ | ⟨_, h⟩ <;> exact ⟨_, h⟩
  · unfold nthSign at h3
    rw [if_neg (by decide)] at h3
    rcases inv_number h h3 with ⟨_, rest, _, _, _, _, _, h⟩ | ⟨_, h⟩ <;> exact ⟨_, h⟩
  · exact ⟨_, h⟩

/-- Soundness over sane tokens. -/
theorem nth_sound {src : List Char} {p q : Parser} {cs w : List Cursor} {r : Nth} (h : Ahead src p cs) (hsane : ∀ c ∈ cs, SaneTok src c)
    (hg : Gives nth p (.ok r) q w) :
    HasCapital src cs ∨ ∃ rest, Ahead src q rest ∧ (AnB src cs (nthMeaning r).1 (nthMeaning r).2 rest ∨ Malformed src cs (nthMeaning r).1 (nthMeaning r).2 rest) := by
  unfold nth at hg
  obtain ⟨c0, p1, w1, w2, h1, h2, _⟩ := gives_bind_ok.mp hg
  obtain ⟨_, hpk, hc0, hp1, _⟩ := gives_peek.mp h1
  cases hc0
  rw [hp1] at h2
  rcases gives_ite.mp h2 with ⟨hk, h2⟩ | ⟨hk, h2⟩
  · -- a number
    obtain ⟨c, p2, w3, w4, h3, h4, _⟩ := gives_bind_ok.mp h2
    obtain ⟨_, hn, _, hb⟩ := (gives_tok (g := fun c => c.token.isKind .number && c.token.isInt)).mp h3
    split at hb
    · rename_i hki
      cases hb
      rw [Bool.and_eq_true, isKind_iff (by decide)] at hki
      rcases h.next_inv hn with ⟨rest, hs, ha⟩ | he
      · obtain ⟨h4, rfl, _⟩ := gives_pure.mp h4
        cases h4
        refine .inr ⟨rest, ha, .inl ?_⟩
        cases hsg : c.token.hasSign with
        | true => exact .signed hs ⟨hki.1, hki.2, hsg, rfl⟩
        | false =>
          have h0 := (hsane c (skipWs_sub (by rw [hs]; simp))).signless hki.1 hsg
          have : ((f32ToI32 c.token.value).toNat : Int) = f32ToI32 c.token.value := by omega
          have key := AnB.signless (src := src) hs (n := (f32ToI32 c.token.value).toNat) ⟨hki.1, hki.2, hsg, this.symm⟩
          rw [this] at key
          exact key
      · rw [he] at hki; exact absurd hki.1 (by decide)
    · cases hb
  have hfirst : ∀ (c : Cursor) (mid : List Cursor) (p2 : Parser) (w2 : List Cursor), skipWs cs = c :: mid → Ahead src p2 mid → c.token.kind ≠ .number →
      Gives (nthFirst c) p2 (.ok r) q w2 →
      HasCapital src cs ∨ ∃ rest, Ahead src q rest ∧ (AnB src cs (nthMeaning r).1 (nthMeaning r).2 rest ∨ Malformed src cs (nthMeaning r).1 (nthMeaning r).2 rest) := by
    intro c mid p2 w2 hs ha hkn hg
    have hmem : ∀ d ∈ c :: mid, d ∈ cs := fun d hd => skipWs_sub (by rw [hs]; exact hd)
    have hmid : ∀ d ∈ mid, SaneTok src d := fun d hd => hsane d (hmem d (List.mem_cons_of_mem _ hd))
    unfold nthFirst at hg
    rcases gives_ite.mp hg with ⟨hpl, hg⟩ | ⟨_, hg⟩
    · rw [isChar_iff] at hpl
      have hplus : Shows src c (.delim '+') := ⟨(hsane c (hmem c (by simp))).plus hpl, hpl⟩
      obtain ⟨x, p3, w3, w4, h5, h6, _⟩ := gives_bind_ok.mp (gives_setSkip.mp hg)
      obtain ⟨r1, h5, hx⟩ := gives_result.mp h5
      cases hx
      obtain ⟨c', p4, w5, w6, h7, h8, _⟩ := gives_bind_ok.mp (gives_setSkip.mp h6)
      obtain ⟨hx, hp4, _⟩ := gives_ofResult.mp h7
      subst hx hp4
      cases mid with
      | nil =>
        obtain ⟨c2, hn, _, hb⟩ := (gives_tok (g := fun _ => true)).mp h5
        cases hb
        have he : c'.token = Token.EOF := by
          have hz : Ahead src { p2 with skip := KindSet.NONE } [] → True := fun _ => trivial
          obtain ⟨l', e1, _⟩ := next_stream (p := { p2 with skip := KindSet.NONE }) ha.stream
          rw [hn] at e1
          simp only [firstOutside, List.dropWhile_nil, List.head?_nil, Option.getD_none, Except.ok.injEq, Prod.mk.injEq] at e1
          rw [e1.1]; rfl
        unfold nthN at h8
        rw [if_pos (by rw [he]; decide)] at h8
        obtain ⟨h8, _⟩ := gives_fail.mp h8; cases h8
      | cons d mid =>
        obtain ⟨p5, k1, k2⟩ := ha.adjacent
        have : Except.ok c' = Except.ok (ε := Diag) d ∧ p3 = p5 := by
          unfold Gives at h5 k1
          rw [h5] at k1
          simp only [Except.ok.injEq, Prod.mk.injEq] at k1
          exact ⟨by rw [k1.1], k1.2.1⟩
        obtain ⟨t1, t2⟩ := this
        cases t1; subst t2
        obtain ⟨name, n1, n2⟩ := inv_n k2 h8
        rcases n2 with n2 | ⟨a, s, n2, n3⟩
        · exact .inl ⟨c', hmem c' (by simp), name, n1, n2⟩
        right
        rcases n2 with ⟨i1, i2 | i2, i3, rfl⟩ | ⟨i1, rfl, rfl⟩ | ⟨i1, rfl, rfl, i2⟩
        · obtain ⟨rest, hr⟩ := gives_rest k2 n3
          exact ⟨rest, hr, .inr (.twoSigns hs hplus (.inl i2))⟩
        · exact absurd n1 ((hmid c' (by simp)).text i2 s).1
        · have hst : Step src (skipWs cs) 1 false s mid := by rw [hs]; exact .plus hplus ⟨i1, n1⟩
          exact inv_tail hst (by simp) k2 (fun e he => hmid e (List.mem_cons_of_mem _ he)) n3
        · obtain ⟨rest, hr⟩ := gives_rest k2 n3
          exact ⟨rest, hr, .inr (.twoSigns hs hplus (.inr ⟨_, i1, n1⟩))⟩
    · obtain ⟨name, n1, n2⟩ := inv_n ha hg
      rcases n2 with n2 | ⟨a, s, n2, n3⟩
      · exact .inl ⟨c, hmem c (by simp), name, n1, n2⟩
      right
      rcases n2 with ⟨i1, i2 | i2, i3, rfl⟩ | ⟨i1, rfl, rfl⟩ | ⟨i1, rfl, rfl, i2⟩
      · have hst : Step src (skipWs cs) a false s mid := by rw [hs]; exact .dimension ⟨i2, i1, i3, n1⟩
        exact inv_tail hst (by simp) ha hmid n3
      · exact absurd i2 hkn
      · have hst : Step src (skipWs cs) 1 false s mid := by rw [hs]; exact .n ⟨i1, n1⟩
        exact inv_tail hst (by simp) ha hmid n3
      · have hst : Step src (skipWs cs) (-1) true s mid := by rw [hs]; exact .minus ⟨i1, n1⟩
        exact inv_tail hst (fun _ => i2) ha hmid n3
  rcases gives_ite.mp h2 with ⟨hki, h2⟩ | ⟨_, h2⟩
  · obtain ⟨c, p2, w3, w4, h3, h4, _⟩ := gives_bind_ok.mp h2
    obtain ⟨hn, _, hdk⟩ := gives_isKind_ok.mp h3
    rw [isKind_iff (by decide)] at hdk
    rcases h.next_inv hn with ⟨rest, hs, ha⟩ | he
    · obtain ⟨name, p3, w5, w6, h5, h6, _⟩ := gives_bind_ok.mp h4
      obtain ⟨_, hstr, hx, hp3, _⟩ := gives_ask.mp h5
      cases hx
      rw [ha.source] at hstr
      rw [hp3] at h6
      rcases gives_ite.mp h6 with ⟨he, h6⟩ | ⟨_, h6⟩
      · obtain ⟨h6, rfl, _⟩ := gives_pure.mp h6
        cases h6
        have he : name = c!"even" := by simpa using he
        exact .inr ⟨rest, ha, .inl (.even hs ⟨hdk, by rw [hstr, he]⟩)⟩
      rcases gives_ite.mp h6 with ⟨he, h6⟩ | ⟨_, h6⟩
      · obtain ⟨h6, rfl, _⟩ := gives_pure.mp h6
        cases h6
        have he : name = c!"odd" := by simpa using he
        exact .inr ⟨rest, ha, .inl (.odd hs ⟨hdk, by rw [hstr, he]⟩)⟩
      · exact hfirst c rest _ _ hs ha (by rw [hdk]; decide) h6
    · rw [he] at hdk; exact absurd hdk (by decide)
  · obtain ⟨c, p2, w3, w4, h3, h4, _⟩ := gives_bind_ok.mp h2
    obtain ⟨_, hn, _, hb⟩ := (gives_tok (g := fun _ => true)).mp h3
    cases hb
    have hc0 : c0 = c := by
      rw [Parser.C32_peek_next, hn] at hpk
      simpa [Except.map] using hpk.symm
    subst hc0
    rw [isKind_iff (by decide)] at hk
    rcases h.next_inv hn with ⟨rest, hs, ha⟩ | he
    · exact hfirst c0 rest _ _ hs ha hk h4
    · unfold nthFirst at h4
      rw [if_neg (by rw [he]; decide)] at h4
      unfold nthN at h4
      rw [if_pos (by rw [he]; decide)] at h4
      obtain ⟨h4, _⟩ := gives_fail.mp h4; cases h4

/-! ### C38 -/

/-- `odd` is 2n+1. -/
theorem C38_odd {src : List Char} {p : Parser} {cs rest : List Cursor} {c : Cursor} (h : Ahead src p cs) (hc : skipWs cs = c :: rest)
    (hs : Shows src c (.ident c!"odd")) : ∃ r q, nth.run p = .ok (.ok r, q) ∧ nthMeaning r = (2, 1) ∧ Ahead src q rest := by
  apply run_of_takes
  unfold nth
  refine Takes.peek h hc ?_
  rw [if_neg (by rw [isKind_of_kind hs.1 (by decide)]; decide), if_pos (by rw [isKind_of_kind hs.1 (by decide)]; decide)]
  refine Takes.tok h hc (g := fun c => c.token.isKind .ident) ((isKind_iff (by decide)).mpr hs.1) fun q hq => ?_
  refine Takes.ask (a := c!"odd") (by rw [hq.source]; exact hs.2) ?_
  exact Takes.pure hq rfl

/-- `even` is 2n. -/
theorem C38_even {src : List Char} {p : Parser} {cs rest : List Cursor} {c : Cursor} (h : Ahead src p cs) (hc : skipWs cs = c :: rest)
    (hs : Shows src c (.ident c!"even")) : ∃ r q, nth.run p = .ok (.ok r, q) ∧ nthMeaning r = (2, 0) ∧ Ahead src q rest := by
  apply run_of_takes
  unfold nth
  refine Takes.peek h hc ?_
  rw [if_neg (by rw [isKind_of_kind hs.1 (by decide)]; decide), if_pos (by rw [isKind_of_kind hs.1 (by decide)]; decide)]
  refine Takes.tok h hc (g := fun c => c.token.isKind .ident) ((isKind_iff (by decide)).mpr hs.1) fun q hq => ?_
  refine Takes.ask (a := c!"even") (by rw [hq.source]; exact hs.2) ?_
  exact Takes.pure hq rfl

/-- An integer alone, signed or not, is 0n + it. -/
theorem C38_integer {src : List Char} {p : Parser} {cs rest : List Cursor} {c : Cursor} {v : Int} (h : Ahead src p cs) (hc : skipWs cs = c :: rest)
    (hs : Shows src c (.signed v) ∨ ∃ n : Nat, v = n ∧ Shows src c (.signless n)) :
    ∃ r q, nth.run p = .ok (.ok r, q) ∧ nthMeaning r = (0, v) ∧ Ahead src q rest := by
  have hk : c.token.kind = .number ∧ c.token.isInt = true ∧ f32ToI32 c.token.value = v := by
    rcases hs with hs | ⟨n, rfl, hs⟩
    · exact ⟨hs.1, hs.2.1, hs.2.2.2⟩
    · exact ⟨hs.1, hs.2.1, hs.2.2.2⟩
  apply run_of_takes
  unfold nth
  refine Takes.peek h hc ?_
  rw [if_pos ((isKind_iff (by decide)).mpr hk.1)]
  refine Takes.tok h hc (g := fun c => c.token.isKind .number && c.token.isInt) (by
    rw [Bool.and_eq_true]; exact ⟨(isKind_iff (by decide)).mpr hk.1, hk.2.1⟩) fun q hq => ?_
  exact Takes.pure hq (by rw [nthMeaning, hk.2.2])

/-- `2n`, `n`, `+n`, `-n` alone, when neither a number nor a sign follows. -/
theorem C38_step {src : List Char} {p : Parser} {cs rest : List Cursor} {a : Int} {m : Bool} (h : Ahead src p cs)
    (hst : Step src (skipWs cs) a m [] rest) (he : NthEnds rest) :
    ∃ r q, nth.run p = .ok (.ok r, q) ∧ nthMeaning r = (a, 0) ∧ Ahead src q rest :=
  run_of_takes (takes_step h hst (by simp) fun _ _ hq => .inl ⟨rfl, takes_sign_none hq he⟩)

/-- `2n-1`, `n-1`, `+n-1`, `-n-1` as one token, when the digits fit 32 bits. -/
theorem C38_digits {src : List Char} {p : Parser} {cs rest : List Cursor} {a : Int} {m : Bool} {ds : List Char} (h : Ahead src p cs)
    (hst : Step src (skipWs cs) a m ('-' :: ds) rest) (hd : NthDigits ds) (hm : digitsNumber ds ≤ 2147483648) :
    ∃ r q, nth.run p = .ok (.ok r, q) ∧ nthMeaning r = (a, -(digitsNumber ds : Int)) ∧ Ahead src q rest :=
  run_of_takes (takes_step h hst (fun _ => by simpa using hd.1) fun _ _ _ => .inr (.inr ⟨parse_minus hd hm, rfl⟩))

/-- `2n +1`, `n+1`, ... with a sign glued to the number. Missing: negative numbers, which lose their sign (`C38_counterexample`). -/
theorem C38_signed_partial {src : List Char} {p : Parser} {cs mid rest : List Cursor} {a v : Int} {m : Bool} {c : Cursor} (h : Ahead src p cs)
    (hst : Step src (skipWs cs) a m [] mid) (hc : skipWs mid = c :: rest) (hs : Shows src c (.signed v)) (h0 : 0 ≤ v) :
    ∃ r q, nth.run p = .ok (.ok r, q) ∧ nthMeaning r = (a, v) ∧ Ahead src q rest :=
  run_of_takes (takes_step h hst (by simp) fun _ _ hq => .inl ⟨rfl, takes_sign_signed hq hc hs h0⟩)

/-- `2n- 1`, `n- 1`, `+n- 1`. Missing: `-n- 1`, which is refused (`C38_counterexample`). -/
theorem C38_dash_partial {src : List Char} {p : Parser} {cs mid rest : List Cursor} {a : Int} {n : Nat} {c : Cursor} (h : Ahead src p cs)
    (hst : Step src (skipWs cs) a false ['-'] mid) (hc : skipWs mid = c :: rest) (hs : Shows src c (.signless n)) :
    ∃ r q, nth.run p = .ok (.ok r, q) ∧ nthMeaning r = (a, -(n : Int)) ∧ Ahead src q rest :=
  run_of_takes (takes_step h hst (by simp) fun _ _ hq => .inr (.inl ⟨rfl, takes_sign_dash hq hc hs⟩))

/-- `2n + 1` and so on, with spaces anywhere around the sign. -/
theorem C38_plus {src : List Char} {p : Parser} {cs mid mid' rest : List Cursor} {a : Int} {m : Bool} {n : Nat} {d c : Cursor} (h : Ahead src p cs)
    (hst : Step src (skipWs cs) a m [] mid) (hd : skipWs mid = d :: mid') (hp : Shows src d (.delim '+')) (hc : skipWs mid' = c :: rest)
    (hs : Shows src c (.signless n)) : ∃ r q, nth.run p = .ok (.ok r, q) ∧ nthMeaning r = (a, (n : Int)) ∧ Ahead src q rest :=
  run_of_takes (takes_step h hst (by simp) fun _ _ hq => .inl ⟨rfl, takes_sign_plus hq hd hp hc hs⟩)

/-- `2n - 1` and so on. -/
theorem C38_minus {src : List Char} {p : Parser} {cs mid mid' rest : List Cursor} {a : Int} {m : Bool} {n : Nat} {d c : Cursor} (h : Ahead src p cs)
    (hst : Step src (skipWs cs) a m [] mid) (hd : skipWs mid = d :: mid') (hp : Shows src d (.delim '-')) (hc : skipWs mid' = c :: rest)
    (hs : Shows src c (.signless n)) : ∃ r q, nth.run p = .ok (.ok r, q) ∧ nthMeaning r = (a, -(n : Int)) ∧ Ahead src q rest :=
  run_of_takes (takes_step h hst (by simp) fun _ _ hq => .inl ⟨rfl, takes_sign_minus hq hd hp hc hs⟩)

/-- Whatever is accepted in a source the lexer handles is an An+B with those A and B, or one of the listed malformed texts, or contains
a name with an escaped capital. Missing: that no malformed text is accepted (false, see `C38_counterexample`). -/
theorem C38_only_partial {src : List Char} {p q : Parser} {cs : List Cursor} {r : Nth} (hb : ∃ x, p.lexer.Before x) (ht : Tame p.lexer.features p.lexer.source)
    (h : Ahead src p cs) (hr : nth.run p = .ok (.ok r, q)) :
    HasCapital src cs ∨ ∃ rest, Ahead src q rest ∧ (AnB src cs (nthMeaning r).1 (nthMeaning r).2 rest ∨ Malformed src cs (nthMeaning r).1 (nthMeaning r).2 rest) := by
  obtain ⟨x, hb⟩ := hb
  have hs := sane_of_stream h.stream hb ht
  rw [h.source] at hs
  unfold Prog.run at hr
  cases hl : nth.runLog p with
  | error e => rw [hl] at hr; cases hr
  | ok v =>
    obtain ⟨r', q', w⟩ := v
    rw [hl] at hr
    simp only [Except.map, Except.ok.injEq, Prod.mk.injEq] at hr
    rw [hr.1, hr.2] at hl
    exact nth_sound h hs hl

/-- The source given to a new parser is handled by the lexer: what `C38_only_partial` and the others need of it. -/
theorem C38_start {src : List Char} {f : Features} (ht : Tame f src) : ∃ cs, Ahead src (Parser.newWithFeatures src f) cs ∧ (∃ x, (Parser.newWithFeatures src f).lexer.Before x)
    ∧ Tame (Parser.newWithFeatures src f).lexer.features (Parser.newWithFeatures src f).lexer.source := by
  have hb : (Parser.newWithFeatures src f).lexer.Before src := ⟨[], by simp [Parser.newWithFeatures, Lexer.newWithFeatures], by simp [Parser.newWithFeatures, Lexer.newWithFeatures, byteLen_eq]⟩
  obtain ⟨cs, h1, _⟩ := Stream.of_tame src.length (Nat.le_refl _) hb ht
  exact ⟨cs, ⟨h1, rfl, rfl⟩, ⟨_, hb⟩, ht⟩

theorem cursors_number {p q : Parser} {w l : List Cursor} {r : Nth} {a bs : Int} (hg : Gives (nthNumber a bs l) p (.ok r) q w) : r.cursors = l ++ w := by
  unfold nthNumber at hg
  obtain ⟨c, p1, w1, w2, h1, h2, rfl⟩ := gives_bind_ok.mp hg
  obtain ⟨c', _, hcc, rfl, rfl⟩ := gives_peek.mp h1
  rcases gives_ite.mp h2 with ⟨hk, h2⟩ | ⟨_, h2⟩
  · obtain ⟨d, p2, w3, w4, h3, h4, rfl⟩ := gives_bind_ok.mp h2
    obtain ⟨hn, rfl, hdk⟩ := gives_isKind_ok.mp h3
    rcases gives_ite.mp h4 with ⟨_, h4⟩ | ⟨hf, h4⟩
    · obtain ⟨h4, _⟩ := gives_fail.mp h4; cases h4
    rcases gives_ite.mp h4 with ⟨_, h4⟩ | ⟨hsg, h4⟩
    · obtain ⟨h4, _⟩ := gives_fail.mp h4; cases h4
    obtain ⟨h4, rfl, rfl⟩ := gives_pure.mp h4
    cases h4
    rfl
  · obtain ⟨h2, rfl, rfl⟩ := gives_pure.mp h2
    cases h2
    simp [Nth.cursors]

theorem cursors_sign {p q : Parser} {w l : List Cursor} {r : Nth} {a bs : Int} (hg : Gives (nthSign a bs l) p (.ok r) q w) : r.cursors = l ++ w := by
  have key : ∀ (ch : Char) (b : Int), Gives (tok (isDelim ch) >>= fun c => nthNumber a b (l ++ [c])) p (.ok r) q w → r.cursors = l ++ w := by
    intro ch b hg
    obtain ⟨d, p2, w3, w4, h3, h4, rfl⟩ := gives_bind_ok.mp hg
    obtain ⟨c, h1, rfl, h2⟩ := (gives_tok (g := fun c => c.token.isKind .delim && c.token.isChar ch)).mp h3
    split at h2
    · cases h2
      rw [cursors_number h4]; simp
    · cases h2
  unfold nthSign at hg
  rcases gives_ite.mp hg with ⟨_, hg⟩ | ⟨_, hg⟩
  · obtain ⟨c, p1, w1, w2, h1, h2, hw⟩ := gives_bind_ok.mp hg
    obtain ⟨c', _, hcc, hp1, rfl⟩ := gives_peek.mp h1
    rw [hp1] at h2
    rw [List.nil_append] at hw
    rw [← hw] at h2
    rcases gives_ite.mp h2 with ⟨_, h2⟩ | ⟨_, h2⟩
    · exact key _ _ h2
    rcases gives_ite.mp h2 with ⟨_, h2⟩ | ⟨_, h2⟩
    · exact key _ _ h2
    · exact cursors_number h2
  · exact cursors_number hg

theorem cursors_n {p q : Parser} {w l : List Cursor} {c : Cursor} {r : Nth} (hg : Gives (nthN c l) p (.ok r) q w) : r.cursors = l ++ w := by
  unfold nthN at hg
  rcases gives_ite.mp hg with ⟨_, hg⟩ | ⟨hk, hg⟩
  · obtain ⟨h4, _⟩ := gives_fail.mp hg; cases h4
  rcases gives_ite.mp hg with ⟨_, hg⟩ | ⟨hf, hg⟩
  · obtain ⟨h4, _⟩ := gives_fail.mp hg; cases h4
  obtain ⟨name, p1, w1, w2, h1, h2, hw⟩ := gives_bind_ok.mp hg
  obtain ⟨_, hs, hn, hp1, hw1⟩ := gives_ask.mp h1
  rw [hw1, List.nil_append] at hw
  rw [hw]
  rcases gives_ite.mp h2 with ⟨_, h2⟩ | ⟨_, h2⟩
  · exact cursors_sign h2
  · dsimp only at h2
    rcases gives_ite.mp h2 with ⟨_, h2⟩ | ⟨_, h2⟩
    · obtain ⟨h4, _⟩ := gives_fail.mp h2; cases h4
    · split at h2
      · obtain ⟨h2, rfl, rfl⟩ := gives_pure.mp h2
        cases h2
        simp [Nth.cursors]
      · rcases gives_ite.mp h2 with ⟨_, h2⟩ | ⟨_, h2⟩
        · obtain ⟨h4, _⟩ := gives_fail.mp h2; cases h4
        · exact cursors_sign h2

theorem cursors_first {p q : Parser} {w : List Cursor} {c : Cursor} {r : Nth} (hg : Gives (nthFirst c) p (.ok r) q w) : r.cursors = c :: w := by
  unfold nthFirst at hg
  rcases gives_ite.mp hg with ⟨hpl, hg⟩ | ⟨_, hg⟩
  · obtain ⟨x, p3, w3, w4, h5, h6, rfl⟩ := gives_bind_ok.mp (gives_setSkip.mp hg)
    obtain ⟨r1, h5, hx⟩ := gives_result.mp h5
    cases hx
    obtain ⟨c', p4, w5, w6, h7, h8, rfl⟩ := gives_bind_ok.mp (gives_setSkip.mp h6)
    obtain ⟨hx, hp4, rfl⟩ := gives_ofResult.mp h7
    subst hx
    obtain ⟨c2, hn, rfl, hb⟩ := (gives_tok (g := fun _ => true)).mp h5
    cases hb
    rw [cursors_n h8]; simp
  · rw [cursors_n hg]; simp

/-- An An+B that was accepted writes out exactly the tokens it was read from, in order: nothing is lost or changed. For every source and every
state of the parser. -/
theorem C52_cursors {p q : Parser} {r : Nth} {w : List Cursor} (hg : nth.runLog p = .ok (.ok r, q, w)) : r.cursors = w := by
  have hg : Gives nth p (.ok r) q w := hg
  unfold nth at hg
  obtain ⟨c0, p1, w1, w2, h1, h2, rfl⟩ := gives_bind_ok.mp hg
  obtain ⟨_, hpk, hc0, hp1, rfl⟩ := gives_peek.mp h1
  rcases gives_ite.mp h2 with ⟨hk, h2⟩ | ⟨hk, h2⟩
  · obtain ⟨c, p2, w3, w4, h3, h4, rfl⟩ := gives_bind_ok.mp h2
    obtain ⟨_, hn, rfl, hb⟩ := (gives_tok (g := fun c => c.token.isKind .number && c.token.isInt)).mp h3
    split at hb
    · cases hb
      obtain ⟨h4, rfl, rfl⟩ := gives_pure.mp h4
      cases h4; rfl
    · cases hb
  rcases gives_ite.mp h2 with ⟨hki, h2⟩ | ⟨_, h2⟩
  · obtain ⟨c, p2, w3, w4, h3, h4, rfl⟩ := gives_bind_ok.mp h2
    obtain ⟨hn, rfl, hdk⟩ := gives_isKind_ok.mp h3
    obtain ⟨name, p3, w5, w6, h5, h6, rfl⟩ := gives_bind_ok.mp h4
    obtain ⟨_, hstr, hx, hp3, rfl⟩ := gives_ask.mp h5
    rcases gives_ite.mp h6 with ⟨he, h6⟩ | ⟨_, h6⟩
    · obtain ⟨h6, rfl, rfl⟩ := gives_pure.mp h6
      cases h6; rfl
    rcases gives_ite.mp h6 with ⟨he, h6⟩ | ⟨_, h6⟩
    · obtain ⟨h6, rfl, rfl⟩ := gives_pure.mp h6
      cases h6; rfl
    · rw [cursors_first h6]; simp
  · obtain ⟨c, p2, w3, w4, h3, h4, rfl⟩ := gives_bind_ok.mp h2
    obtain ⟨_, hn, rfl, hb⟩ := (gives_tok (g := fun _ => true)).mp h3
    cases hb
    rw [cursors_first h4]; simp

/-- What a source is read as. -/
def nthOf (src : List Char) : Except Panic (Except DiagCode (Int × Int)) :=
  (nth.run (Parser.new src)).map fun r => match r.1 with
    | .ok n => .ok (nthMeaning n)
    | .error d => .error d.code

/-- The grammar accepts `2n -1` as 2n - 1, `-n- 1` as -n - 1, and none of `n5`, `n-`, `n 5`, `++5n`, `+-n`. -/
theorem C38_counterexample :
    nthOf c!"2n -1" = .ok (.ok (2, 1)) ∧ nthOf c!"-n- 1" = .ok (.error .unexpected)
    ∧ nthOf c!"n5" = .ok (.ok (1, 5)) ∧ nthOf c!"n-" = .ok (.ok (1, 0)) ∧ nthOf c!"n 5" = .ok (.ok (1, 5))
    ∧ nthOf c!"++5n" = .ok (.ok (5, 0)) ∧ nthOf c!"+-n" = .ok (.ok (-1, 0)) := by
  decide +kernel

/-- Comments do not matter to the grammar, but one between the `+` and the `n` is refused. -/
theorem C38_comment_counterexample : nthOf c!"+/**/n" = .ok (.error .unexpected) := by decide +kernel

-- One text per theorem (tests of the statements' reach, not proofs).
example : nthOf c!" odd" = .ok (.ok (2, 1)) ∧ nthOf c!"EVEN" = .ok (.ok (2, 0)) ∧ nthOf c!"-7" = .ok (.ok (0, -7)) ∧ nthOf c!"+n" = .ok (.ok (1, 0)) := by
  decide +kernel
example : nthOf c!"-3n" = .ok (.ok (-3, 0)) ∧ nthOf c!"-n-12" = .ok (.ok (-1, -12)) ∧ nthOf c!"2n +1" = .ok (.ok (2, 1)) ∧
    nthOf c!"2n- 1" = .ok (.ok (2, -1)) := by decide +kernel
example : nthOf c!"2n + 1" = .ok (.ok (2, 1)) ∧ nthOf c!"n /**/ - 4" = .ok (.ok (1, -4)) ∧ nthOf c!"1.5n" = .ok (.error .expectedInt)
    ∧ nthOf c!"2n + +1" = .ok (.error .expectedUnsigned) ∧ nthOf c!"2m" = .ok (.error .unexpected) := by decide +kernel

/-- The tokens of a source, if there are no more than `n`. -/
def streamList : Nat → Lexer → Option (List Cursor)
  | 0, l => if l.offset = byteLen l.source then some [] else none
  | n + 1, l =>
    if l.offset = byteLen l.source then some []
    else match l.advance with
      | .error _ => none
      | .ok (t, l') => if t.isKind .eof = false ∧ t.len.toNat ≠ 0 then (streamList n l').map (⟨l.offset, t⟩ :: ·) else none

theorem streamList_stream : ∀ (n : Nat) {l : Lexer} {cs : List Cursor}, streamList n l = some cs → Stream l cs
  | 0, l, cs, h => by
    unfold streamList at h
    split at h
    · cases h; exact .nil ‹_›
    · cases h
  | n + 1, l, cs, h => by
    unfold streamList at h
    split at h
    · cases h; exact .nil ‹_›
    · split at h
      · cases h
      · rename_i t l' ha
        split at h
        · rename_i ht
          cases hs : streamList n l' with
          | none => rw [hs] at h; cases h
          | some cs' =>
            rw [hs] at h
            cases h
            exact .cons ha ht.1 ht.2 (streamList_stream n hs)
        · cases h

instance (src : List Char) (c : Cursor) (t : NthTok) : Decidable (Shows src c t) := by
  cases t <;> unfold Shows <;> infer_instance

/-- The hypotheses are met: `C38_minus` reads ` 2n - 1` as 2n - 1. -/
example : ∃ r q, nth.run (Parser.new c!" 2n - 1") = .ok (.ok r, q) ∧ nthMeaning r = (2, -1) := by
  have hs : ∃ a b c d e f, streamList 9 (Lexer.new c!" 2n - 1") = some [a, b, c, d, e, f] ∧ skipWs [a, b, c, d, e, f] = [b, c, d, e, f] ∧
      Shows c!" 2n - 1" b (.dimension 2 c!"n") ∧ skipWs [c, d, e, f] = [d, e, f] ∧ Shows c!" 2n - 1" d (.delim '-') ∧ skipWs [e, f] = [f] ∧
      Shows c!" 2n - 1" f (.signless 1) := by
    let tokAt (i : Nat) : Cursor := ((streamList 9 (Lexer.new c!" 2n - 1")).getD []).getD i ⟨0, Token.EOF⟩
    exact ⟨tokAt 0, tokAt 1,
      tokAt 2, tokAt 3,
      tokAt 4, tokAt 5,
      by decide +kernel, by decide +kernel, by decide +kernel, by decide +kernel, by decide +kernel, by decide +kernel, by decide +kernel⟩
  obtain ⟨a, b, c, d, e, f, h0, h1, h2, h3, h4, h5, h6⟩ := hs
  have ha : Ahead c!" 2n - 1" (Parser.new c!" 2n - 1") [a, b, c, d, e, f] := ⟨streamList_stream 9 h0, rfl, rfl⟩
  obtain ⟨r, q, k1, k2, _⟩ := C38_minus ha (a := 2) (m := false) (by rw [h1]; exact .dimension h2) h3 h4 h5 h6
  exact ⟨r, q, k1, k2⟩

/-- `C38_only_partial` applies to every short ASCII source. -/
example {r : Nth} {q : Parser} (hr : nth.run (Parser.new c!"2n -1") = .ok (.ok r, q)) : ∃ cs, HasCapital c!"2n -1" cs ∨ ∃ rest, Ahead c!"2n -1" q rest ∧
    (AnB c!"2n -1" cs (nthMeaning r).1 (nthMeaning r).2 rest ∨ Malformed c!"2n -1" cs (nthMeaning r).1 (nthMeaning r).2 rest) := by
  obtain ⟨cs, h1, h2, h3⟩ := C38_start (src := c!"2n -1") (f := {}) (tame_of_ascii (by decide) (by decide))
  exact ⟨cs, C38_only_partial h2 h3 h1 hr⟩

end Hdx

/-
C32 - C36: the parser's token access, checkpoints and `parse_entirely`.
-/
import Verif.Model.Prog
import Verif.Spec.Stream
import Verif.Props.Stream
import Verif.Props.Lexical1
import Verif.Props.TokenFacts

namespace Hdx
open Spec

/-- `n` calls of `next` in a row. -/
def Parser.nextN : Nat → Parser → Except Panic (List Cursor × Parser)
  | 0, p => .ok ([], p)
  | n + 1, p => match p.next with
    | .error e => .error e
    | .ok (c, p) => (Parser.nextN n p).map (fun r => (c :: r.1, r.2))

theorem advance_eof {l l' : Lexer} {t : Token} (h : l.advance = .ok (t, l')) : t.isKind .eof = true ↔ t.kind = .eof := by
  have hk := C03_eof_iff_at_end h
  constructor
  · intro h
    simp only [Token.isKind, beq_iff_eq] at h
    simp only [Token.kind, h]
    rfl
  · intro he
    rw [advance_before (cs := []) ⟨l.source, by simp, hk.mp he⟩, if_pos rfl] at h
    injection h with h; injection h with h _
    rw [← h]; rfl

theorem advance_eof_again {l l' : Lexer} {t : Token} (h : l.advance = .ok (t, l')) (he : t.isKind .eof = true) :
    l'.offset = l.offset ∧ t = Token.EOF ∧ l'.advance = .ok (t, l') ∧ l' = { l with token := Token.EOF } := by
  have hk := (C03_eof_iff_at_end h).mp ((advance_eof h).mp he)
  rw [advance_before (cs := []) ⟨l.source, by simp, hk⟩, if_pos rfl] at h
  injection h with h; injection h with h1 h2
  subst h1; subst h2
  have h2 : ({ l with token := Token.EOF } : Lexer).Before [] := ⟨l.source, by simp, hk⟩
  exact ⟨rfl, rfl, by rw [advance_before h2, if_pos rfl], rfl⟩

namespace Parser

theorem nextLoop_ok {skip : KindSet} {l l' : Lexer} {t : Token} (h : l.advance = .ok (t, l')) (tr : List Cursor) :
    nextLoop skip l tr = if t.isKind .eof || !t.inSet skip then .ok (⟨l.offset, t⟩, l', tr)
      else if t.len.toNat = 0 then .error .diverges else nextLoop skip l' (tr ++ [⟨l.offset, t⟩]) := by
  rw [nextLoop.eq_def]
  split
  · simp_all
  · rename_i t2 l2 h2
    rw [h] at h2; cases h2
    rfl

theorem nextLoop_error {skip : KindSet} {l : Lexer} {e : Panic} (h : l.advance = .error e) (tr : List Cursor) :
    nextLoop skip l tr = .error e := by
  rw [nextLoop.eq_def]
  split
  · simp_all
  · simp_all

theorem peekNLoop_ok {skip : KindSet} {l l' : Lexer} {t : Token} (h : l.advance = .ok (t, l')) (n : Nat) :
    peekNLoop skip (n + 1) l = if t.isKind .eof then .ok ⟨l.offset, t⟩
      else if !t.inSet skip then (if n = 0 then .ok ⟨l.offset, t⟩ else peekNLoop skip n l')
      else if t.len.toNat = 0 then .error .diverges else peekNLoop skip (n + 1) l' := by
  rw [peekNLoop.eq_def]
  split
  · simp_all
  · rename_i t2 l2 h2
    rw [h] at h2; cases h2
    cases n <;> rfl

/-! ## C32 Peeking -/

theorem nextLoop_peek (skip : KindSet) (l : Lexer) (tr : List Cursor) :
    (nextLoop skip l tr).map (·.1) = peekNextLoop skip l := by
  fun_induction peekNextLoop skip l generalizing tr with
  | case1 l e h => rw [nextLoop_error h]; rfl
  | case2 l t l' h hs => rw [nextLoop_ok h]; simp only [hs, if_true]; rfl
  | case3 l t l' h hs hz => rw [nextLoop_ok h]; simp only [hs, if_false, hz, if_true]; rfl
  | case4 l t l' h hs hz ih => rw [nextLoop_ok h]; simp only [hs, if_false, hz]; exact ih _

/-- `peek_next()` returns what `next()` returns afterwards (or panics the same way). (It does not change the parser: it takes
`&self`.) -/
theorem C32_peek_next (p : Parser) : p.peekNext = p.next.map (·.1) := by
  unfold peekNext next
  rw [← nextLoop_peek p.skip p.lexer p.trivia]
  cases nextLoop p.skip p.lexer p.trivia <;> rfl

/-- What the rest of `peek_n` does after it has seen the first token that is not skipped. -/
theorem peekN_step (n : Nat) (skip : KindSet) (l : Lexer) (tr : List Cursor) :
    peekNLoop skip (n + 1) l = (match nextLoop skip l tr with
      | .error e => .error e
      | .ok (c, l', _) => if c.token.isKind .eof ∨ n = 0 then .ok c else peekNLoop skip n l') := by
  fun_induction peekNextLoop skip l generalizing tr with
  | case1 l e h =>
    rw [nextLoop_error h, peekNLoop.eq_def]
    split
    · simp_all
    · simp_all
  | case2 l t l' h hs =>
    rw [nextLoop_ok h, peekNLoop_ok h]
    simp only [hs, if_true]
    by_cases he : t.isKind .eof = true
    · simp [he]
    · simp only [he, if_false, Bool.false_or, Bool.false_eq_true] at hs ⊢
      simp only [hs, if_true, false_or]
  | case3 l t l' h hs hz =>
    rw [nextLoop_ok h, peekNLoop_ok h]
    simp only [hs, hz, if_true, Bool.false_eq_true, if_false]
    simp only [Bool.or_eq_true, not_or] at hs
    simp only [hs.1, hs.2, if_false, Bool.false_eq_true]
  | case4 l t l' h hs hz ih =>
    rw [nextLoop_ok h, peekNLoop_ok h]
    simp only [hs, hz, if_false, Bool.false_eq_true]
    simp only [Bool.or_eq_true, not_or] at hs
    simp only [hs.1, hs.2, if_false, Bool.false_eq_true]
    exact ih _

/-- `next` never returns a cursor to skip, and EOF only at the end, where it returns EOF again. -/
theorem nextLoop_stop {skip : KindSet} {l l' : Lexer} {tr tr' : List Cursor} {c : Cursor} (h : nextLoop skip l tr = .ok (c, l', tr'))
    (he : c.token.isKind .eof = true) (tr2 : List Cursor) : nextLoop skip l' tr2 = .ok (c, l', tr2) := by
  fun_induction nextLoop skip l tr with
  | case1 => cases h
  | case2 l tr t l1 h1 hs =>
    injection h with h; injection h with h2 h3; injection h3 with h3 h4
    subst h2; subst h3
    obtain ⟨a, b, c, d⟩ := advance_eof_again h1 he
    rw [nextLoop_ok c]
    simp only [show t.isKind .eof = true from he, Bool.true_or, if_true, a]
  | case3 => cases h
  | case4 l tr t l1 h1 hs hz ih => exact ih h

theorem next_eof {p p' : Parser} {c : Cursor} (h : p.next = .ok (c, p')) (he : c.token.isKind .eof = true) (n : Nat) :
    nextN n p' = .ok (List.replicate n c, p') := by
  have h1 : p'.next = .ok (c, p') := by
    unfold next at h ⊢
    cases hn : nextLoop p.skip p.lexer p.trivia with
    | error e => rw [hn] at h; cases h
    | ok r =>
      obtain ⟨c', l', tr'⟩ := r
      rw [hn] at h
      simp only [Except.map, Except.ok.injEq, Prod.mk.injEq] at h
      obtain ⟨rfl, rfl⟩ := h
      simp only
      rw [nextLoop_stop hn he]
      rfl
  induction n with
  | zero => rfl
  | succ n ih => simp only [nextN, h1, ih, Except.map, List.replicate_succ]

/-- `peek_n(k)`, `k ≥ 1`, returns the last of the results of `k` calls of `next()` (after EOF, `next()` keeps returning EOF), or
panics like them. -/
theorem C32_peek_n (k : Nat) (p : Parser) (hk : k ≠ 0) : (p.nextN k).map (·.1.getLast?) = (p.peekN k).map some := by
  obtain ⟨n, rfl⟩ : ∃ n, k = n + 1 := ⟨k - 1, by omega⟩
  clear hk
  induction n generalizing p with
  | zero =>
    unfold peekN
    rw [peekN_step 0 p.skip p.lexer p.trivia]
    simp only [nextN, next]
    cases nextLoop p.skip p.lexer p.trivia with
    | error e => rfl
    | ok r => simp [Except.map]
  | succ n ih =>
    unfold peekN
    rw [peekN_step (n + 1) p.skip p.lexer p.trivia]
    rw [nextN]
    cases hn : nextLoop p.skip p.lexer p.trivia with
    | error e => simp [next, hn, Except.map]
    | ok r =>
      obtain ⟨c, l', tr'⟩ := r
      have hp : p.next = .ok (c, { p with lexer := l', trivia := tr' }) := by simp [next, hn, Except.map]
      simp only [hp]
      by_cases he : c.token.isKind .eof = true
      · rw [next_eof hp he]
        simp only [he, Except.map, true_or, if_true, Except.ok.injEq]
        rw [List.replicate_succ', ← List.cons_append, List.getLast?_append]
        rfl
      · have := ih { p with lexer := l', trivia := tr' }
        unfold peekN at this
        simp only at this
        simp only [he, Nat.add_eq_zero_iff, Nat.one_ne_zero, and_false, or_self, if_false, Bool.false_eq_true, ← this]
        cases hy : nextN (n + 1) { p with lexer := l', trivia := tr' } with
        | error e => rfl
        | ok r =>
          rw [hy] at this
          cases hx : peekNLoop p.skip (n + 1) l' with
          | error e => rw [hx] at this; cases this
          | ok x =>
            rw [hx] at this
            simp only [Except.map, Except.ok.injEq] at this ⊢
            rw [List.getLast?_cons, this]; rfl

/-- What is missing for `k = 0`: `peek_n(0)` underflows as soon as there is a token that is not skipped. -/
theorem C32_peek_0 : (Parser.new c!"a").peekN 0 = .error .underflow := by decide +kernel

example : ((Parser.new c!" a /**/ b").peekN 2).map (fun c => (c.offset, c.token.kind)) = .ok (8, .ident)
    ∧ ((Parser.new c!" a /**/ b").peekN 3).map (fun c => (c.offset, c.token.kind)) = .ok (9, .eof) := by decide +kernel

end Parser

/-! ## C33 No token is lost -/

theorem advance_keeps {l l' : Lexer} {t : Token} (h : l.advance = .ok (t, l')) : l'.source = l.source ∧ l'.features = l.features
    ∧ l'.offset = l.offset + t.len.toNat := by
  obtain ⟨rfl, _⟩ := Lexer.advance_ok h
  exact ⟨rfl, rfl, rfl⟩

theorem advance_congr {l m l' : Lexer} {t : Token} (h : l.advance = .ok (t, l')) (hs : m.source = l.source) (hf : m.features = l.features)
    (ho : m.offset = l.offset) : m.advance = .ok (t, l') := by
  obtain ⟨s, o, k, f⟩ := l
  obtain ⟨s', o', k', f'⟩ := m
  simp only at hs hf ho
  subst hs; subst hf; subst ho
  exact h

theorem lexedUntil_congr {l m : Lexer} {cs : List Cursor} {off : Nat} (h : LexedUntil l cs off) (hs : m.source = l.source)
    (hf : m.features = l.features) (ho : m.offset = l.offset) : LexedUntil m cs off := by
  cases h with
  | done => rw [← ho]; exact .done
  | step ha hk h => rw [← ho]; exact .step (advance_congr ha hs hf ho) hk h

theorem Spec.LexedUntil.append {l m : Lexer} {a b : List Cursor} {off off2 : Nat} (h : LexedUntil l a off) (hs : m.source = l.source)
    (hf : m.features = l.features) (ho : m.offset = off) (h2 : LexedUntil m b off2) : LexedUntil l (a ++ b) off2 := by
  induction h with
  | done => exact lexedUntil_congr h2 hs.symm hf.symm ho.symm
  | step ha hk h ih =>
    obtain ⟨k1, k2, _⟩ := advance_keeps ha
    exact .step ha hk (ih (hs.trans k1.symm) (hf.trans k2.symm) ho)

theorem Spec.Dealt.append {α : Type} {a b c a' b' c' : List α} (h : Dealt a b c) (h' : Dealt a' b' c') : Dealt (a ++ a') (b ++ b') (c ++ c') := by
  induction h with
  | nil => exact h'
  | left _ ih => exact .left ih
  | right _ ih => exact .right ih

theorem Spec.Dealt.allRight {α : Type} (b : List α) : Dealt [] b b := by
  induction b with
  | nil => exact .nil
  | cons x b ih => exact .right ih

/-- There are at most as many trivia as bytes consumed. -/
def Fits (tr : List Cursor) (l : Lexer) : Prop := tr.length ≤ l.offset ∧ tr.length ≤ utf8Len l.source

theorem fits_push {l l' : Lexer} {t : Token} {tr : List Cursor} (h : l.advance = .ok (t, l')) (he : ¬ t.isKind .eof = true)
    (hz : ¬ t.len.toNat = 0) (hf : Fits tr l) : Fits (tr ++ [⟨l.offset, t⟩]) l' := by
  obtain ⟨k1, k2, k3⟩ := advance_keeps h
  have h1 := (Lexer.advance_ok h).2
  have h2 := C03_eof_iff_at_end h
  rw [advance_eof h, h2, byteLen_eq] at he
  unfold Fits at *
  simp only [List.length_append, List.length_cons, List.length_nil]
  rw [k1, k3]
  omega

theorem fits_advance {l l' : Lexer} {t : Token} {tr : List Cursor} (h : l.advance = .ok (t, l')) (hf : Fits tr l) : Fits tr l' := by
  obtain ⟨k1, k2, k3⟩ := advance_keeps h
  unfold Fits at *
  rw [k1, k3]; omega

/-- Not EOF. -/
def notEof (c : Cursor) : Bool := !c.token.isKind .eof

namespace Parser

theorem nextLoop_moved {skip : KindSet} {l l' : Lexer} {tr tr' : List Cursor} {c : Cursor} (h : nextLoop skip l tr = .ok (c, l', tr')) :
    ∃ ts, tr' = tr ++ ts ∧ LexedUntil l (ts ++ [c].filter notEof) l'.offset ∧ l'.source = l.source ∧ l'.features = l.features
      ∧ (∀ x ∈ ts, x.token.inSet skip = true) ∧ (c.token.inSet skip = false ∨ c.token.isKind .eof = true)
      ∧ (Fits tr l → Fits tr' l') := by
  fun_induction nextLoop skip l tr with
  | case1 => cases h
  | case2 l tr t l1 h1 hs =>
    injection h with h; injection h with h2 h3; injection h3 with h3 h4
    subst h2; subst h3; subst h4
    obtain ⟨k1, k2, k3⟩ := advance_keeps h1
    refine ⟨[], by simp, ?_, k1, k2, by simp, ?_, fits_advance h1⟩
    · by_cases he : t.isKind .eof = true
      · have ⟨a, _, _, _⟩ := advance_eof_again h1 he
        simp only [notEof, he, List.filter_cons, Bool.not_true, Bool.false_eq_true, if_false, List.filter_nil, List.append_nil, a]
        exact .done
      · simp only [notEof, he, List.filter_cons, Bool.not_false, if_true, List.filter_nil, List.nil_append]
        exact .step h1 (fun hk => he ((advance_eof h1).mpr hk)) .done
    · simp only [Bool.or_eq_true, Bool.not_eq_true'] at hs
      exact hs.symm
  | case3 => cases h
  | case4 l tr t l1 h1 hs hz ih =>
    simp only [Bool.or_eq_true, Bool.not_eq_true', not_or, Bool.not_eq_false] at hs
    obtain ⟨ts, e1, e2, e3, e4, e5, e6, e7⟩ := ih h
    obtain ⟨k1, k2, k3⟩ := advance_keeps h1
    refine ⟨⟨l.offset, t⟩ :: ts, by simp [e1], ?_, e3.trans k1, e4.trans k2, ?_, e6, fun hf => e7 (fits_push h1 hs.1 hz hf)⟩
    · exact .step h1 (fun hk => hs.1 ((advance_eof h1).mpr hk)) e2
    · intro x hx
      rcases List.mem_cons.mp hx with rfl | hx
      · exact hs.2
      · exact e5 x hx

theorem consumeTriviaLoop_moved {skip : KindSet} {l l' : Lexer} {tr tr' : List Cursor}
    (h : consumeTriviaLoop skip l tr = .ok (l', tr')) :
    ∃ ts, tr' = tr ++ ts ∧ LexedUntil l ts l'.offset ∧ l'.source = l.source ∧ l'.features = l.features
      ∧ (∀ x ∈ ts, x.token.inSet skip = true) ∧ (Fits tr l → Fits tr' l') := by
  fun_induction consumeTriviaLoop skip l tr with
  | case1 => cases h
  | case2 l tr t l1 h1 he =>
    injection h with h; injection h with h3 h4
    subst h3; subst h4
    obtain ⟨k1, k2, k3⟩ := advance_keeps h1
    have ⟨a, _, _, _⟩ := advance_eof_again h1 he
    exact ⟨[], by simp, by rw [a]; exact .done, k1, k2, by simp, fits_advance h1⟩
  | case3 => cases h
  | case4 l tr t l1 h1 he hs hz ih =>
    obtain ⟨ts, e1, e2, e3, e4, e5, e7⟩ := ih h
    obtain ⟨k1, k2, k3⟩ := advance_keeps h1
    refine ⟨⟨l.offset, t⟩ :: ts, by simp [e1], ?_, e3.trans k1, e4.trans k2, ?_, fun hf => e7 (fits_push h1 he hz hf)⟩
    · exact .step h1 (fun hk => he ((advance_eof h1).mpr hk)) e2
    · intro x hx
      rcases List.mem_cons.mp hx with rfl | hx
      · exact hs
      · exact e5 x hx
  | case5 l tr t l1 h1 he hs =>
    injection h with h; injection h with h3 h4
    subst h3; subst h4
    obtain ⟨k1, k2, k3⟩ := advance_keeps h1
    refine ⟨[], by simp, .done, k1, k2, by simp, ?_⟩
    unfold Fits
    simp [Lexer.rewind, k1]

end Parser

/-- `p'` is reached from `p` by going forward: the source and errors are the same, and the tokens between the two positions have
each been returned (`w`) or added to the trivia (`tr`), once and in order. -/
structure Moved (p p' : Parser) (w : List Cursor) : Prop where
  source : p'.lexer.source = p.lexer.source
  features : p'.lexer.features = p.lexer.features
  errors : p'.errors = p.errors
  tokens : ∃ tr cs, p'.trivia = p.trivia ++ tr ∧ LexedUntil p.lexer cs p'.lexer.offset ∧ Dealt (w.filter notEof) tr cs
  fits : Fits p.trivia p.lexer → Fits p'.trivia p'.lexer

theorem Moved.refl (p : Parser) : Moved p p [] := ⟨rfl, rfl, rfl, ⟨[], [], by simp, .done, .nil⟩, id⟩

theorem Moved.trans {p q r : Parser} {w v : List Cursor} (h : Moved p q w) (h' : Moved q r v) : Moved p r (w ++ v) := by
  obtain ⟨tr, cs, a1, a2, a3⟩ := h.tokens
  obtain ⟨tr', cs', b1, b2, b3⟩ := h'.tokens
  refine ⟨h'.source.trans h.source, h'.features.trans h.features, h'.errors.trans h.errors, ⟨tr ++ tr', cs ++ cs', ?_, ?_, ?_⟩,
    fun hf => h'.fits (h.fits hf)⟩
  · rw [b1, a1, List.append_assoc]
  · exact a2.append h.source h.features rfl b2
  · rw [List.filter_append]; exact a3.append b3

theorem Parser.next_moved {p p' : Parser} {c : Cursor} (h : p.next = .ok (c, p')) : Moved p p' [c] ∧ p'.skip = p.skip ∧ p'.stop = p.stop
    ∧ p'.nested = p.nested := by
  unfold Parser.next at h
  cases hn : nextLoop p.skip p.lexer p.trivia with
  | error e => rw [hn] at h; cases h
  | ok r =>
    obtain ⟨c', l', tr'⟩ := r
    rw [hn] at h
    simp only [Except.map, Except.ok.injEq, Prod.mk.injEq] at h
    obtain ⟨rfl, rfl⟩ := h
    obtain ⟨ts, e1, e2, e3, e4, e5, e6, e7⟩ := nextLoop_moved hn
    refine ⟨⟨e3, e4, rfl, ⟨ts, _, e1, e2, ?_⟩, e7⟩, rfl, rfl, rfl⟩
    have := (Dealt.allRight ts).append (a' := [c'].filter notEof) (b' := []) (c' := [c'].filter notEof) (by
      by_cases h : notEof c' = true
      · simp only [List.filter_cons, h, if_true, List.filter_nil]; exact .left .nil
      · simp only [List.filter_cons, h, List.filter_nil]; exact .nil)
    simpa using this

theorem Parser.consumeTrivia_moved {p p' : Parser} (h : p.consumeTrivia = .ok p') : Moved p p' [] ∧ p'.skip = p.skip ∧ p'.stop = p.stop
    ∧ p'.nested = p.nested := by
  unfold Parser.consumeTrivia at h
  cases hn : consumeTriviaLoop p.skip p.lexer p.trivia with
  | error e => rw [hn] at h; cases h
  | ok r =>
    obtain ⟨l', tr'⟩ := r
    rw [hn] at h
    simp only [Except.map, Except.ok.injEq] at h
    subst h
    obtain ⟨ts, e1, e2, e3, e4, e5, e7⟩ := consumeTriviaLoop_moved hn
    exact ⟨⟨e3, e4, rfl, ⟨ts, _, e1, e2, Dealt.allRight ts⟩, e7⟩, rfl, rfl, rfl⟩

/-- Rewinding to a checkpoint undoes a forward move. -/
theorem Moved.rewind {p p' : Parser} {w : List Cursor} (h : Moved p p' w) (he : p.errors.length < 256) (ht : p.trivia.length < 65536) :
    p'.rewind p.checkpoint = { p with skip := p'.skip, stop := p'.stop, nested := p'.nested } := by
  obtain ⟨tr, cs, a1, _, _⟩ := h.tokens
  have hl : p'.lexer.rewind p.lexer.checkpoint = p.lexer := by
    simp only [Lexer.rewind, Lexer.checkpoint, h.source, h.features]
  simp only [Parser.rewind, Parser.checkpoint, hl, h.errors, a1, Nat.mod_eq_of_lt he, Nat.mod_eq_of_lt ht, List.take_length, List.take_left']

/-- Any program moves the parser forward. -/
theorem Prog.runLog_moved {α : Type} (prog : Prog α) : ∀ {p p' : Parser} {r : Except Diag α} {w : List Cursor}, p.errors.length < 256 →
    utf8Len p.lexer.source < 65536 → Fits p.trivia p.lexer → prog.runLog p = .ok (r, p', w) → Moved p p' w := by
  induction prog with
  | ret r =>
    intro p p' r w _ _ _ h
    simp only [runLog, Except.ok.injEq, Prod.mk.injEq] at h
    obtain ⟨_, rfl, rfl⟩ := h
    exact .refl p
  | panic e => intro p p' r w _ _ _ h; cases h
  | read k ih => intro p p' r w he hs hf h; exact ih p he hs hf h
  | next k ih =>
    intro p p' r w he hs hf h
    simp only [runLog] at h
    cases hn : p.next with
    | error e => rw [hn] at h; cases h
    | ok x =>
      obtain ⟨c, q⟩ := x
      rw [hn] at h
      simp only at h
      cases hk : (k c).runLog q with
      | error e => rw [hk] at h; cases h
      | ok y =>
        obtain ⟨r1, q1, w1⟩ := y
        rw [hk] at h
        simp only [Except.map, Except.ok.injEq, Prod.mk.injEq] at h
        obtain ⟨rfl, rfl, rfl⟩ := h
        have hm := (Parser.next_moved hn).1
        exact hm.trans (ih c (by rw [hm.errors]; exact he) (by rw [hm.source]; exact hs) (hm.fits hf) hk)
  | consumeTrivia k ih =>
    intro p p' r w he hs hf h
    simp only [runLog] at h
    cases hn : p.consumeTrivia with
    | error e => rw [hn] at h; cases h
    | ok q =>
      rw [hn] at h
      have hm := (Parser.consumeTrivia_moved hn).1
      exact hm.trans (ih (by rw [hm.errors]; exact he) (by rw [hm.source]; exact hs) (hm.fits hf) h)
  | setSkip s k ih =>
    intro p p' r w he hs hf h
    have := ih p.skip (p := (p.setSkip s).2) he hs hf h
    exact ⟨this.source, this.features, this.errors, this.tokens, this.fits⟩
  | setStop s k ih =>
    intro p p' r w he hs hf h
    have := ih p.stop (p := (p.setStop s).2) he hs hf h
    exact ⟨this.source, this.features, this.errors, this.tokens, this.fits⟩
  | setState s k ih =>
    intro p p' r w he hs hf h
    have := ih p.nested (p := (p.setState s).2) he hs hf h
    exact ⟨this.source, this.features, this.errors, this.tokens, this.fits⟩
  | attempt body keep k ihb ihk =>
    intro p p' r w he hs hf h
    simp only [runLog] at h
    cases hb : body.runLog p with
    | error e => rw [hb] at h; cases h
    | ok y =>
      obtain ⟨r1, q, w1⟩ := y
      rw [hb] at h
      simp only at h
      have hm := ihb he hs hf hb
      by_cases hkeep : keep r1 = true
      · simp only [hkeep, if_true] at h
        cases hk : (k r1).runLog q with
        | error e => rw [hk] at h; cases h
        | ok y =>
          obtain ⟨r2, q2, w2⟩ := y
          rw [hk] at h
          simp only [Except.map, Except.ok.injEq, Prod.mk.injEq] at h
          obtain ⟨rfl, rfl, rfl⟩ := h
          exact hm.trans (ihk r1 (by rw [hm.errors]; exact he) (by rw [hm.source]; exact hs) (hm.fits hf) hk)
      · simp only [hkeep, Bool.false_eq_true, if_false] at h
        rw [hm.rewind he (by have := hf.2; omega)] at h
        have := ihk r1 (p := { p with skip := q.skip, stop := q.stop, nested := q.nested }) he hs hf h
        exact ⟨this.source, this.features, this.errors, this.tokens, this.fits⟩

/-- A call that moves the parser forward or changes what is skipped. -/
inductive Call where
  | next
  | consumeTrivia
  | setSkip (s : KindSet)

/-- A sequence of calls: the parser afterwards and the cursors `next()` returned. -/
def Parser.calls : List Call → Parser → Except Panic (Parser × List Cursor)
  | [], p => .ok (p, [])
  | .next :: cs, p => match p.next with
    | .error e => .error e
    | .ok (c, p) => (Parser.calls cs p).map (fun r => (r.1, c :: r.2))
  | .consumeTrivia :: cs, p => match p.consumeTrivia with
    | .error e => .error e
    | .ok p => Parser.calls cs p
  | .setSkip s :: cs, p => Parser.calls cs (p.setSkip s).2

theorem Parser.calls_moved (calls : List Call) : ∀ {p p' : Parser} {w : List Cursor}, p.calls calls = .ok (p', w) → Moved p p' w := by
  induction calls with
  | nil => intro p p' w h; simp [Parser.calls] at h; obtain ⟨rfl, rfl⟩ := h; exact .refl p
  | cons c cs ih =>
    intro p p' w h
    cases c with
    | next =>
      simp only [Parser.calls] at h
      cases hn : p.next with
      | error e => rw [hn] at h; cases h
      | ok x =>
        obtain ⟨c, q⟩ := x
        rw [hn] at h
        simp only at h
        cases hk : q.calls cs with
        | error e => rw [hk] at h; cases h
        | ok y =>
          rw [hk] at h
          simp only [Except.map, Except.ok.injEq, Prod.mk.injEq] at h
          obtain ⟨rfl, rfl⟩ := h
          exact (Parser.next_moved hn).1.trans (ih hk)
    | consumeTrivia =>
      simp only [Parser.calls] at h
      cases hn : p.consumeTrivia with
      | error e => rw [hn] at h; cases h
      | ok q => rw [hn] at h; exact (Parser.consumeTrivia_moved hn).1.trans (ih h)
    | setSkip s =>
      have := ih (p := (p.setSkip s).2) h
      exact ⟨this.source, this.features, this.errors, this.tokens, this.fits⟩

/-- From any state, for any sequence of `next()` and `consume_trivia()` calls (and changes of the skip set): the cursors returned by
`next()`, apart from EOF, together with the cursors added to the trivia are exactly the tokens between the old and the new position,
each in exactly one of the two, in order. -/
theorem C33_calls {p p' : Parser} {calls : List Call} {returned : List Cursor} (h : p.calls calls = .ok (p', returned)) :
    ∃ added tokens, p'.trivia = p.trivia ++ added ∧ LexedUntil p.lexer tokens p'.offset
      ∧ Dealt (returned.filter notEof) added tokens := (Parser.calls_moved calls h).tokens

/-- The same for everything a grammar can do, with any nesting of `try_parse` and `rewind`, for documents shorter than 64 KiB (beyond
that, see `C34_counterexample`): from a new parser, the cursors returned and not taken back, and the trivia, are exactly the tokens
of the consumed text. -/
theorem C33_programs {α : Type} {src : List Char} {f : Features} {prog : Prog α} {p' : Parser} {r : Except Diag α}
    {returned : List Cursor} (hs : byteLen src < 65536) (h : prog.runLog (Parser.newWithFeatures src f) = .ok (r, p', returned)) :
    ∃ tokens, LexedUntil (Lexer.newWithFeatures src f) tokens p'.offset ∧ Dealt (returned.filter notEof) p'.trivia tokens := by
  obtain ⟨tr, cs, a, b, c⟩ := (prog.runLog_moved (by simp [Parser.newWithFeatures]) (by rw [byteLen_eq] at hs; exact hs) (by simp [Fits, Parser.newWithFeatures]) h).tokens
  simp only [Parser.newWithFeatures, List.nil_append] at a
  exact ⟨cs, b, a ▸ c⟩

example : ((Parser.new c!"a /*b*/c ").calls [.next, .consumeTrivia, .next, .next]).map (fun r => (r.2.map (·.offset), r.1.trivia.map (·.offset), r.1.offset))
    = .ok ([0, 7, 9], [1, 2, 8], 9) := by decide +kernel

/-! ## C34 Rewind -/

/-- Rewinding to a checkpoint after any sequence of calls restores position, current token, errors and trivia. Missing from the full
C34: 256 or more errors or 65536 or more trivia (`C34_counterexample`). -/
theorem C34_partial {p p' : Parser} {calls : List Call} {w : List Cursor} (he : p.errors.length < 256) (ht : p.trivia.length < 65536)
    (h : p.calls calls = .ok (p', w)) :
    let q := p'.rewind p.checkpoint
    q.lexer = p.lexer ∧ q.errors = p.errors ∧ q.trivia = p.trivia := by
  rw [(Parser.calls_moved calls h).rewind he ht]
  exact ⟨rfl, rfl, rfl⟩

/-- The same after anything a grammar can do, for documents shorter than 64 KiB. -/
theorem C34_programs_partial {α : Type} {p p' : Parser} {prog : Prog α} {r : Except Diag α} {w : List Cursor} (he : p.errors.length < 256)
    (hs : byteLen p.lexer.source < 65536) (hf : Fits p.trivia p.lexer) (h : prog.runLog p = .ok (r, p', w)) :
    let q := p'.rewind p.checkpoint
    q.lexer = p.lexer ∧ q.errors = p.errors ∧ q.trivia = p.trivia := by
  rw [byteLen_eq] at hs
  rw [(prog.runLog_moved he hs hf h).rewind he (by have := hf.2; omega)]
  exact ⟨rfl, rfl, rfl⟩

/-- `n` comments. -/
def comments : Nat → List Char
  | 0 => []
  | n + 1 => '/' :: '*' :: '*' :: '/' :: comments n

theorem consumeTrivia_comments (n : Nat) : ∀ (l : Lexer) (tr : List Cursor), l.Before (comments n) →
    ∃ l' ts, Parser.consumeTriviaLoop KindSet.TRIVIA l tr = .ok (l', tr ++ ts) ∧ ts.length = n := by
  induction n with
  | zero =>
    intro l tr h
    have ha := advance_before h
    rw [if_pos (show comments 0 = [] from rfl)] at ha
    refine ⟨{ l with token := Token.EOF }, [], ?_, rfl⟩
    rw [Parser.consumeTriviaLoop.eq_def]
    split
    · simp_all
    · rename_i t2 l2 h2
      rw [ha] at h2; cases h2
      rw [if_pos (by decide)]
      simp
  | succ n ih =>
    intro l tr h
    obtain ⟨t, l', ha, hk, hl, hb⟩ : ∃ t l', l.advance = .ok (t, l') ∧ t.kindBits = Kind.comment.bits ∧ t.len.toNat = 4 ∧ l'.Before (comments n) := by
      have ha := advance_before h
      have hs := scan_slash (f := l.features) (cs := '*' :: '*' :: '/' :: comments n)
      rw [if_pos (by rfl), List.tail_cons, show blockCommentLoop 2 ('*' :: '/' :: comments n) = (4, comments n) by
        rw [blockCommentLoop.eq_def]; simp; decide] at hs
      rw [if_neg (by simp [comments]), comments, hs] at ha
      refine ⟨_, _, ha, by rw [newComment_eq, mkTok_kindBits], by rw [(C17_comment _ _).2.1]; rfl, ?_⟩
      obtain ⟨pre, p1, p2⟩ := h
      refine ⟨pre ++ c!"/**/", by simp [p1, comments], ?_⟩
      simp only [(C17_comment _ _).2.1, p2, byteLen_eq, utf8Len_append]
      rfl
    obtain ⟨l'', ts, h1, h2⟩ := ih l' (tr ++ [⟨l.offset, t⟩]) hb
    refine ⟨l'', ⟨l.offset, t⟩ :: ts, ?_, by simp [h2]⟩
    rw [Parser.consumeTriviaLoop.eq_def]
    split
    · simp_all
    · rename_i t2 l2 h2
      rw [ha] at h2; cases h2
      rw [if_neg (by simp [Token.isKind, hk]; decide), if_pos (by simp only [Token.inSet, hk]; decide), dif_neg (by omega), h1]
      simp

/-- What is missing from the full C34: in a document of 65536 comments, rewinding to a checkpoint taken after them loses
all of them, although the parser has not moved at all. -/
theorem C34_counterexample : ∃ p, (Parser.new (comments 65536)).consumeTrivia = .ok p ∧ p.trivia.length = 65536
    ∧ (p.rewind p.checkpoint).trivia = [] := by
  obtain ⟨l, ts, h1, h2⟩ := consumeTrivia_comments 65536 (Lexer.new (comments 65536)) [] (before_new _ _)
  refine ⟨{ Parser.new (comments 65536) with lexer := l, trivia := ts }, ?_, h2, ?_⟩
  · unfold Parser.consumeTrivia
    rw [show (Parser.new (comments 65536)).skip = KindSet.TRIVIA from rfl,
      show (Parser.new (comments 65536)).lexer = Lexer.new (comments 65536) from rfl,
      show (Parser.new (comments 65536)).trivia = [] from rfl, h1]
    rfl
  · simp [Parser.rewind, Parser.checkpoint, h2]

/-! ## C35 try_parse -/

/-- `Fits` is reachable: it holds of a new parser and of any parser a grammar leaves behind. -/
theorem fits_reachable {α : Type} {src : List Char} {f : Features} {prog : Prog α} {p' : Parser} {r : Except Diag α}
    {w : List Cursor} (hs : byteLen src < 65536) (h : prog.runLog (Parser.newWithFeatures src f) = .ok (r, p', w)) :
    Fits p'.trivia p'.lexer := by
  have h0 : Fits (Parser.newWithFeatures src f).trivia (Parser.newWithFeatures src f).lexer := by simp [Fits, Parser.newWithFeatures]
  exact (prog.runLog_moved (by simp [Parser.newWithFeatures]) (by rw [byteLen_eq] at hs; exact hs) h0 h).fits h0

/-- If `try_parse` returns an error, then position, errors and trivia are as before, whatever the grammar does; and if the grammar
left the skip and stop sets and the state as they were, the parser is exactly as before, so that everything that follows is the same.
Missing from the full C35: grammars that fail with a changed skip set (`C35_counterexample`), and documents of 64 KiB and more. -/
theorem C35_partial {α : Type} {p p' : Parser} {prog : Prog α} {d : Diag} (he : p.errors.length < 256)
    (hs : byteLen p.lexer.source < 65536) (hf : Fits p.trivia p.lexer) (h : Parser.tryParse prog.run p = .ok (.error d, p')) :
    p'.lexer = p.lexer ∧ p'.errors = p.errors ∧ p'.trivia = p.trivia
      ∧ (p'.skip = p.skip → p'.stop = p.stop → p'.nested = p.nested → p' = p) := by
  unfold Parser.tryParse Prog.run at h
  cases hr : prog.runLog p with
  | error e => rw [hr] at h; cases h
  | ok x =>
    obtain ⟨r, q, w⟩ := x
    rw [hr] at h
    cases r with
    | ok a => simp [Except.map] at h
    | error d' =>
      simp only [Except.map, Except.ok.injEq, Prod.mk.injEq] at h
      rw [byteLen_eq] at hs
      rw [(prog.runLog_moved he hs hf hr).rewind he (by have := hf.2; omega)] at h
      obtain ⟨_, rfl⟩ := h
      refine ⟨rfl, rfl, rfl, ?_⟩
      simp only
      intro h1 h2 h3
      rw [h1, h2, h3]

/-- A grammar that fails after `set_skip` leaves the changed skip set behind: the following token is another one. -/
def leakySkip : Prog Unit := .setSkip KindSet.NONE fun _ => .next fun c => .ret (.error ⟨.unexpected, c.span⟩)

theorem C35_counterexample : ∃ d p', Parser.tryParse leakySkip.run (Parser.new c!" a") = .ok (.error d, p')
    ∧ (Parser.new c!" a").next.map (·.1.token.kind) = .ok .ident ∧ p'.next.map (·.1.token.kind) = .ok .whitespace := by
  refine ⟨⟨.unexpected, ⟨0, 1⟩⟩, { Parser.new c!" a" with skip := KindSet.NONE }, ?_⟩
  decide +kernel

/-! ## C36 parse_entirely -/

theorem next_eof_end {p p' : Parser} {c : Cursor} (h : p.next = .ok (c, p')) (he : c.token.isKind .eof = true) :
    p'.lexer.offset = byteLen p.lexer.source ∧ c = ⟨byteLen p.lexer.source, Token.EOF⟩ := by
  unfold Parser.next at h
  cases hn : Parser.nextLoop p.skip p.lexer p.trivia with
  | error e => rw [hn] at h; cases h
  | ok r =>
    obtain ⟨c', l', tr'⟩ := r
    rw [hn] at h
    simp only [Except.map, Except.ok.injEq, Prod.mk.injEq] at h
    obtain ⟨rfl, rfl⟩ := h
    simp only
    generalize p.lexer = l at *
    generalize p.trivia = tr at *
    generalize p.skip = skip at *
    fun_induction Parser.nextLoop skip l tr with
    | case1 => cases hn
    | case2 l tr t l1 h1 hs =>
      injection hn with h; injection h with h2 h3; injection h3 with h3 h4
      subst h2; subst h3
      obtain ⟨a, b, _, d⟩ := advance_eof_again h1 he
      have := (C03_eof_iff_at_end h1).mp ((advance_eof h1).mp he)
      exact ⟨by rw [a, this], by rw [this, b]⟩
    | case3 => cases hn
    | case4 l tr t l1 h1 hs hz ih =>
      have := ih hn
      rwa [(advance_keeps h1).1] at this

theorem lexedUntil_prefix {l : Lexer} {a b : List Cursor} {off : Nat} (h : LexedUntil l a off)
    (h' : LexedUntil l b (byteLen l.source)) : a <+: b := by
  induction h generalizing b with
  | done => exact List.nil_prefix
  | @step l l1 t cs off ha hk h ih =>
    generalize ho : byteLen l.source = o at h'
    cases h' with
    | done => exact absurd ((C03_eof_iff_at_end ha).mpr ho.symm) hk
    | step ha' hk' h2 =>
      rw [ha] at ha'; cases ha'
      rw [List.cons_prefix_cons]
      refine ⟨rfl, ih ?_⟩
      rw [(advance_keeps ha).1, ho]
      exact h2

theorem drain_moved (n : Nat) : ∀ {p p' : Parser}, Parser.drainLoop n p = .ok p' →
    ∃ rest, p'.trivia = p.trivia ++ rest ++ [⟨byteLen p.lexer.source, Token.EOF⟩] ∧ LexedUntil p.lexer rest (byteLen p.lexer.source)
      ∧ p'.lexer.offset = byteLen p.lexer.source ∧ p'.errors = p.errors := by
  induction n with
  | zero => intro p p' h; cases h
  | succ n ih =>
    intro p p' h
    simp only [Parser.drainLoop] at h
    cases hn : p.next with
    | error e => rw [hn] at h; cases h
    | ok x =>
      obtain ⟨c, q⟩ := x
      rw [hn] at h
      simp only at h
      -- all tokens consumed by this `next`, in order
      obtain ⟨ts, l', e1, e2, e3, e4, e5⟩ : ∃ ts l', q = { p with lexer := l', trivia := p.trivia ++ ts } ∧ l'.source = p.lexer.source
          ∧ l'.features = p.lexer.features ∧ LexedUntil p.lexer (ts ++ [c].filter notEof) l'.offset ∧ q.lexer = l' := by
        unfold Parser.next at hn
        cases hl : Parser.nextLoop p.skip p.lexer p.trivia with
        | error e => rw [hl] at hn; cases hn
        | ok r =>
          obtain ⟨c', l', tr'⟩ := r
          rw [hl] at hn
          simp only [Except.map, Except.ok.injEq, Prod.mk.injEq] at hn
          obtain ⟨rfl, rfl⟩ := hn
          obtain ⟨ts, e1, e2, e3, e4, _⟩ := Parser.nextLoop_moved hl
          exact ⟨ts, l', by rw [e1], e3, e4, e2, rfl⟩
      by_cases he : c.token.isKind .eof = true
      · obtain ⟨g1, g2⟩ := next_eof_end hn he
        simp only [he, if_true, Except.ok.injEq] at h
        subst h
        refine ⟨ts, by simp [e1, g2], ?_, g1, by rw [e1]⟩
        have hne : [c].filter notEof = [] := by simp [notEof, he]
        rw [hne, List.append_nil, ← e5, g1] at e4
        exact e4
      · simp only [he, Bool.false_eq_true, if_false] at h
        obtain ⟨rest, i1, i2, i3, i4⟩ := ih h
        have hne : [c].filter notEof = [c] := by simp [notEof, he]
        rw [hne] at e4
        simp only [e1, e2] at i1 i2 i3 i4
        refine ⟨ts ++ [c] ++ rest, by rw [i1]; simp, ?_, i3, i4⟩
        exact e4.append e2 e3 rfl i2

/-- The error the grammar itself returned, if it did. -/
def ownErrors {α : Type} : Except Diag α → List Diag
  | .ok _ => []
  | .error d => [d]

/-- `parse_entirely` on any grammar: `r` is what the grammar returned and `q` the parser as it left it. Either all that remains are
tokens to skip, and no error is added; or the rest is recorded as trivia up to the end, and an `ExpectedEnd` error is added that
covers exactly the rest. -/
theorem C36_rest {α : Type} {prog : Prog α} {src : List Char} {f : Features} {ret : Parser.Return α} {l : Lexer}
    (hs : byteLen src < 65536) (h : Parser.parseEntirely prog.run (Parser.newWithFeatures src f) = .ok (ret, l)) :
    ∃ r q rest, prog.run (Parser.newWithFeatures src f) = .ok (r, q) ∧ LexedUntil q.lexer rest (byteLen src)
      ∧ q.lexer.source = src ∧ ret.output = r.toOption
      ∧ (((∀ c ∈ rest, c.token.inSet q.skip = true) ∧ ret.errors = ownErrors r ∧ ret.trivia = q.trivia)
        ∨ ((∃ c ∈ rest, c.token.inSet q.skip = false)
          ∧ ret.errors = ownErrors r ++ [⟨.expectedEnd, ⟨q.offset, byteLen src⟩⟩]
          ∧ ret.trivia = q.trivia ++ rest ++ [⟨byteLen src, Token.EOF⟩] ∧ l.offset = byteLen src)) := by
  unfold Parser.parseEntirely at h
  cases hr : prog.run (Parser.newWithFeatures src f) with
  | error e => rw [hr] at h; cases h
  | ok x =>
    obtain ⟨r, q⟩ := x
    rw [hr] at h
    have hm : ∃ w, Moved (Parser.newWithFeatures src f) q w := by
      unfold Prog.run at hr
      cases hl : prog.runLog (Parser.newWithFeatures src f) with
      | error e => rw [hl] at hr; cases hr
      | ok y =>
        obtain ⟨r', q', w⟩ := y
        rw [hl] at hr
        simp only [Except.map, Except.ok.injEq, Prod.mk.injEq] at hr
        obtain ⟨rfl, rfl⟩ := hr
        exact ⟨w, prog.runLog_moved (by simp [Parser.newWithFeatures]) (by rw [byteLen_eq] at hs; exact hs)
          (by simp [Fits, Parser.newWithFeatures]) hl⟩
    obtain ⟨w, hm⟩ := hm
    have hsrc : q.lexer.source = src := hm.source
    have herr : q.errors = [] := hm.errors
    refine ⟨r, q, ?_⟩
    -- the parser with the grammar's own error, if any
    obtain ⟨q', hq', g1, g2, g3, g4⟩ : ∃ q' : Parser, Parser.settle r q = (r.toOption, q') ∧ q'.lexer = q.lexer ∧ q'.trivia = q.trivia
          ∧ q'.skip = q.skip ∧ q'.errors = ownErrors r := by
      cases r with
      | ok a => exact ⟨q, rfl, rfl, rfl, rfl, herr⟩
      | error d => exact ⟨_, rfl, rfl, rfl, rfl, by simp [herr, ownErrors]⟩
    simp only [hq'] at h
    by_cases hend : q'.atEnd = true
    · simp only [hend, if_true, Except.ok.injEq, Prod.mk.injEq] at h
      obtain ⟨rfl, rfl⟩ := h
      have ho : q.lexer.offset = byteLen src := by
        rw [byteLen_eq, ← hsrc, ← g1]
        simpa [Parser.atEnd, Lexer.atEnd] using hend
      exact ⟨[], rfl, by rw [← ho]; exact .done, hsrc, rfl, Or.inl ⟨by simp, g4, g2⟩⟩
    · simp only [hend, Bool.false_eq_true, if_false] at h
      have hpk : q'.peekNext = q.peekNext := by simp [Parser.peekNext, g1, g3]
      rw [hpk, Parser.C32_peek_next] at h
      cases hn : q.next with
      | error e => rw [hn] at h; cases h
      | ok x =>
        obtain ⟨c, q2⟩ := x
        rw [hn] at h
        simp only [Except.map] at h
        obtain ⟨ts, l', e4, e5, e6, e7⟩ : ∃ ts l', LexedUntil q.lexer (ts ++ [c].filter notEof) l'.offset ∧ q2.lexer = l'
            ∧ (∀ x ∈ ts, x.token.inSet q.skip = true) ∧ (c.token.inSet q.skip = false ∨ c.token.isKind .eof = true) := by
          have hn := hn
          unfold Parser.next at hn
          cases hl : Parser.nextLoop q.skip q.lexer q.trivia with
          | error e => rw [hl] at hn; cases hn
          | ok r =>
            obtain ⟨c', l', tr'⟩ := r
            rw [hl] at hn
            simp only [Except.map, Except.ok.injEq, Prod.mk.injEq] at hn
            obtain ⟨rfl, rfl⟩ := hn
            obtain ⟨ts, e1, e2, e3, e4, e5, e6, _⟩ := Parser.nextLoop_moved hl
            exact ⟨ts, l', e2, rfl, e5, e6⟩
        by_cases he : c.token.isKind .eof = true
        · simp only [he, if_true, Except.ok.injEq, Prod.mk.injEq] at h
          obtain ⟨rfl, rfl⟩ := h
          obtain ⟨k1, _⟩ := next_eof_end hn he
          rw [hsrc] at k1
          rw [show [c].filter notEof = [] by simp [notEof, he], List.append_nil, ← e5, k1] at e4
          exact ⟨ts, rfl, e4, hsrc, rfl, Or.inl ⟨e6, g4, g2⟩⟩
        · simp only [he, Bool.false_eq_true, if_false] at h
          cases hd : Parser.drainLoop (utf8Len q'.lexer.source + 2) q' with
          | error e => rw [hd] at h; cases h
          | ok q3 =>
            rw [hd] at h
            simp only [Except.ok.injEq, Prod.mk.injEq] at h
            obtain ⟨rfl, rfl⟩ := h
            obtain ⟨rest, i1, i2, i3, i4⟩ := drain_moved _ hd
            rw [g1, hsrc] at i2 i3
            rw [g1, hsrc, g2] at i1
            refine ⟨rest, rfl, i2, hsrc, rfl, Or.inr ⟨?_, ?_, i1, i3⟩⟩
            · refine ⟨c, ?_, by rcases e7 with e7 | e7; exact e7; exact absurd e7 he⟩
              rw [show [c].filter notEof = [c] by simp [notEof, he]] at e4
              exact (lexedUntil_prefix e4 (by rw [hsrc]; exact i2)).subset (by simp)
            · simp only [i4, g4, Parser.offset, i3, g1]

/-- A result without errors: the grammar succeeded and whatever it did not consume are tokens to skip. -/
theorem C36_no_errors {α : Type} {prog : Prog α} {src : List Char} {f : Features} {ret : Parser.Return α} {l : Lexer}
    (hs : byteLen src < 65536) (h : Parser.parseEntirely prog.run (Parser.newWithFeatures src f) = .ok (ret, l)) (he : ret.errors = []) :
    ∃ a q rest, prog.run (Parser.newWithFeatures src f) = .ok (.ok a, q) ∧ ret.output = some a ∧ LexedUntil q.lexer rest (byteLen src)
      ∧ ∀ c ∈ rest, c.token.inSet q.skip = true := by
  obtain ⟨r, q, rest, h1, h2, h3, h4, h5⟩ := C36_rest hs h
  rcases h5 with ⟨g1, g2, _⟩ | ⟨_, g2, _⟩
  · cases r with
    | ok a => exact ⟨a, q, rest, h1, h4, h2, g1⟩
    | error d => rw [he] at g2; cases g2
  · rw [he] at g2; simp at g2

theorem LexedUntil_before {l : Lexer} {cs : List Cursor} {off : Nat} (h : LexedUntil l cs off) :
    ∀ {x : List Char} {m : Lexer}, l.Before x → Tame l.features x → m.source = l.source → m.features = l.features → m.offset = off →
      ∃ y, m.Before y ∧ Tame m.features y ∧ y <:+ x := by
  induction h with
  | done =>
    intro x m hb ht h1 h2 h3
    obtain ⟨pre, p1, p2⟩ := hb
    exact ⟨x, ⟨pre, by rw [h1, p1], by rw [h3, p2]⟩, by rw [h2]; exact ht, List.suffix_rfl⟩
  | @step l l1 t cs off ha hk h ih =>
    intro x m hb ht h1 h2 h3
    have hne : x ≠ [] := by
      rintro rfl
      obtain ⟨pre, p1, p2⟩ := hb
      exact hk ((C03_eof_iff_at_end ha).mpr (by rw [p2, p1]; simp))
    obtain ⟨t', l'', text, cs', a1, a2, a3, a4, a5, a6, a7⟩ := advance_tame hb ht hne
    rw [ha] at a1; cases a1
    obtain ⟨k1, k2, _⟩ := advance_keeps ha
    obtain ⟨y, y1, y2, y3⟩ := ih a7 (by rw [k2]; rw [a3] at ht; exact ht.suffix) (h1.trans k1.symm) (h2.trans k2.symm) h3
    exact ⟨y, y1, y2, y3.trans (by rw [a3]; exact List.suffix_append _ _)⟩

theorem nextLoop_total (skip : KindSet) (n : Nat) : ∀ (l : Lexer) (x : List Char) (tr : List Cursor), x.length ≤ n → l.Before x → Tame l.features x →
    ∃ c l' tr', Parser.nextLoop skip l tr = .ok (c, l', tr') ∧ (c.token.isKind .eof = true ∨ ∃ y, l'.Before y ∧ Tame l'.features y ∧ y.length < x.length) := by
  induction n with
  | zero =>
    intro l x tr hn hb ht
    have : x = [] := List.length_eq_zero_iff.mp (by omega)
    subst this
    have ha := advance_before hb
    rw [if_pos rfl] at ha
    have hr := Parser.nextLoop_ok (skip := skip) (tr := tr) ha
    have he : Token.EOF.isKind .eof = true := by decide
    rw [he, Bool.true_or, if_pos rfl] at hr
    exact ⟨_, _, _, hr, Or.inl he⟩
  | succ n ih =>
    intro l x tr hn hb ht
    by_cases hne : x = []
    · exact ih l x tr (by simp [hne]) hb ht
    · obtain ⟨t, l', text, cs', a1, a2, a3, a4, a5, a6, a7⟩ := advance_tame hb ht hne
      have hlen : cs'.length < x.length := by
        have := List.length_pos_iff.mpr a4
        rw [a3]; simp; omega
      have ht' : Tame l'.features cs' := by rw [a6]; rw [a3] at ht; exact ht.suffix
      rw [Parser.nextLoop_ok a1]
      by_cases hs : (t.isKind .eof || !t.inSet skip) = true
      · rw [if_pos hs]
        exact ⟨_, _, _, rfl, Or.inr ⟨cs', a7, ht', hlen⟩⟩
      · rw [if_neg hs]
        have : ¬ t.len.toNat = 0 := by
          have := utf8Len_pos a4
          rw [a5, byteLen_eq]; omega
        rw [if_neg this]
        obtain ⟨c, l2, tr2, b1, b2⟩ := ih l' cs' (tr ++ [⟨l.offset, t⟩]) (by omega) a7 ht'
        refine ⟨c, l2, tr2, b1, ?_⟩
        rcases b2 with b2 | ⟨y, y1, y2, y3⟩
        · exact Or.inl b2
        · exact Or.inr ⟨y, y1, y2, by omega⟩

/-- On a tame text `next()` neither panics nor hangs; and unless it returns EOF, what remains is a shorter tame text. -/
theorem next_total {p : Parser} {x : List Char} (hb : p.lexer.Before x) (ht : Tame p.lexer.features x) :
    ∃ c p', p.next = .ok (c, p') ∧ (c.token.isKind .eof = true ∨ ∃ y, p'.lexer.Before y ∧ Tame p'.lexer.features y ∧ y.length < x.length) := by
  obtain ⟨c, l', tr', h1, h2⟩ := nextLoop_total p.skip x.length p.lexer x p.trivia (Nat.le_refl _) hb ht
  exact ⟨c, _, by simp only [Parser.next, h1, Except.map]; rfl, h2⟩

theorem drain_total (n : Nat) : ∀ (p : Parser) (x : List Char), x.length < n → p.lexer.Before x → Tame p.lexer.features x →
    ∃ p', Parser.drainLoop n p = .ok p' := by
  induction n with
  | zero => intro p x h; omega
  | succ n ih =>
    intro p x hn hb ht
    obtain ⟨c, q, h1, h2⟩ := next_total hb ht
    simp only [Parser.drainLoop, h1]
    by_cases he : c.token.isKind .eof = true
    · rw [if_pos he]; exact ⟨_, rfl⟩
    · rw [if_neg he]
      rcases h2 with h2 | ⟨y, y1, y2, y3⟩
      · exact absurd h2 he
      · exact ih _ y (by omega) y1 y2

/-- On a tame text, `parse_entirely` returns (it neither panics nor hangs) if the grammar does. -/
theorem C36_total {α : Type} {prog : Prog α} {src : List Char} {f : Features} (hs : byteLen src < 65536) (ht : Tame f src)
    {r : Except Diag α} {q : Parser} (h : prog.run (Parser.newWithFeatures src f) = .ok (r, q)) :
    ∃ ret, Parser.parseEntirely prog.run (Parser.newWithFeatures src f) = .ok ret := by
  have hm : ∃ w, Moved (Parser.newWithFeatures src f) q w := by
    unfold Prog.run at h
    cases hl : prog.runLog (Parser.newWithFeatures src f) with
    | error e => rw [hl] at h; cases h
    | ok y =>
      obtain ⟨r', q', w⟩ := y
      rw [hl] at h
      simp only [Except.map, Except.ok.injEq, Prod.mk.injEq] at h
      obtain ⟨rfl, rfl⟩ := h
      exact ⟨w, prog.runLog_moved (by simp [Parser.newWithFeatures]) (by rw [byteLen_eq] at hs; exact hs)
        (by simp [Fits, Parser.newWithFeatures]) hl⟩
  obtain ⟨w, hm⟩ := hm
  obtain ⟨tr, cs, _, hlex, _⟩ := hm.tokens
  obtain ⟨y, y1, y2, y3⟩ := LexedUntil_before hlex (before_new src f) ht hm.source hm.features rfl
  have g : (Parser.settle r q).2.lexer = q.lexer := by cases r <;> rfl
  unfold Parser.parseEntirely
  simp only [h]
  by_cases hend : (Parser.settle r q).2.atEnd = true
  · simp only [hend, if_true]; exact ⟨_, rfl⟩
  · simp only [hend, Bool.false_eq_true, if_false]
    obtain ⟨c, q2, h1, _⟩ := next_total (p := (Parser.settle r q).2) (by rw [g]; exact y1) (by rw [g]; exact y2)
    rw [Parser.C32_peek_next, h1]
    simp only [Except.map]
    by_cases he : c.token.isKind .eof = true
    · simp only [he, if_true]; exact ⟨_, rfl⟩
    · simp only [he, Bool.false_eq_true, if_false]
      have hlen : y.length < utf8Len (Parser.settle r q).2.lexer.source + 2 := by
        have h1 := length_le_utf8Len y
        obtain ⟨pre, p1, _⟩ := y1
        rw [g, p1]; simp; omega
      obtain ⟨q3, h3⟩ := drain_total _ (Parser.settle r q).2 y hlen (by rw [g]; exact y1) (by rw [g]; exact y2)
      rw [h3]
      exact ⟨_, rfl⟩

/-- One identifier. -/
def oneIdent : Prog Cursor := .next fun c => .ret (if c.token.isKind .ident then .ok c else .error ⟨.unexpected, c.span⟩)

example : (Parser.parseEntirely oneIdent.run (Parser.new c!" a /**/")).map (fun r => (r.1.output.map (·.offset), r.1.errors, r.1.trivia.length))
      = .ok (some 1, [], 1)
    ∧ (Parser.parseEntirely oneIdent.run (Parser.new c!"a b ")).map (fun r => (r.1.output.map (·.offset), r.1.errors, r.1.trivia.length))
      = .ok (some 0, [⟨.expectedEnd, ⟨1, 4⟩⟩], 4) := by decide +kernel

/-- The property as stated is not quite true: trailing trivia is neither consumed nor recorded when the grammar has consumed the
rest. -/
theorem C36_trailing_trivia : (Parser.parseEntirely oneIdent.run (Parser.new c!"a ")).map (fun r => (r.1.errors, r.1.trivia, r.2.offset))
    = .ok ([], [], 1) := by decide +kernel

end Hdx

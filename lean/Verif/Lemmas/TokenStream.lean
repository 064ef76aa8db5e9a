/-
The parser as a machine on the list of the tokens that remain.
-/
import Verif.Props.Parser
import Verif.Model.Grammar

namespace Hdx
open Spec

/-- `cs` are the tokens from the position of the lexer to the end of the source. -/
inductive Stream : Lexer → List Cursor → Prop
  | nil {l : Lexer} : l.offset = byteLen l.source → Stream l []
  | cons {l l' : Lexer} {t : Token} {cs : List Cursor} : l.advance = .ok (t, l') → t.isKind .eof = false → t.len.toNat ≠ 0 → Stream l' cs →
      Stream l (⟨l.offset, t⟩ :: cs)

namespace Stream

theorem of_tame (n : Nat) : ∀ {l : Lexer} {x : List Char}, x.length ≤ n → l.Before x → Tame l.features x →
    ∃ cs, Stream l cs ∧ cs.length ≤ x.length := by
  induction n with
  | zero =>
    intro l x hn hb ht
    have : x = [] := List.length_eq_zero_iff.mp (by omega)
    subst this
    obtain ⟨pre, p1, p2⟩ := hb
    exact ⟨[], .nil (by rw [p2, p1]; simp), by simp⟩
  | succ n ih =>
    intro l x hn hb ht
    by_cases hne : x = []
    · exact ih (by simp [hne]) hb ht
    · obtain ⟨t, l', text, cs', a1, a2, a3, a4, a5, a6, a7⟩ := advance_tame hb ht hne
      have hlen := List.length_pos_iff.mpr a4
      have hx : x.length = text.length + cs'.length := by rw [a3]; simp
      have ht' : Tame l'.features cs' := by rw [a6]; rw [a3] at ht; exact ht.suffix
      obtain ⟨cs, c1, c2⟩ := ih (by omega) a7 ht'
      refine ⟨_ :: cs, .cons a1 ?_ ?_ c1, by simp; omega⟩
      · cases hh : t.isKind .eof
        · rfl
        · exact absurd ((advance_eof a1).mp hh) a2
      · have := utf8Len_pos a4
        rw [a5, byteLen_eq]; omega

theorem congr {l m : Lexer} {cs : List Cursor} (h : Stream l cs) (hs : m.source = l.source) (hf : m.features = l.features)
    (ho : m.offset = l.offset) : Stream m cs := by
  cases h with
  | nil h => exact .nil (by rw [ho, hs, h])
  | cons ha hk hz h => rw [← ho]; exact .cons (advance_congr ha hs hf ho) hk hz h

theorem det {l : Lexer} {cs cs' : List Cursor} (h : Stream l cs) (h' : Stream l cs') : cs = cs' := by
  induction h generalizing cs' with
  | nil h =>
    cases h' with
    | nil _ => rfl
    | cons ha hk hz h2 => rw [(advance_eof ha).mpr ((C03_eof_iff_at_end ha).mpr h)] at hk; cases hk
  | cons ha hk hz h ih =>
    cases h' with
    | nil h2 => rw [(advance_eof ha).mpr ((C03_eof_iff_at_end ha).mpr h2)] at hk; cases hk
    | cons ha2 hk2 hz2 h2 => rw [ha] at ha2; cases ha2; rw [ih h2]

/-- Being at the end, in terms of what remains. -/
theorem at_end {l : Lexer} {cs : List Cursor} (h : Stream l cs) : l.atEnd = cs.isEmpty := by
  cases h with
  | nil h => simp [Lexer.atEnd, h, byteLen_eq]
  | cons ha hk hz h =>
    have : l.offset ≠ byteLen l.source := by
      intro hh
      rw [(advance_eof ha).mpr ((C03_eof_iff_at_end ha).mpr hh)] at hk; cases hk
    rw [byteLen_eq] at this
    simp only [Lexer.atEnd, List.isEmpty_cons, beq_eq_false_iff_ne, ne_eq]
    grind

theorem source_same {l l' : Lexer} {t : Token} (h : l.advance = .ok (t, l')) : l'.source = l.source := (advance_keeps h).1

end Stream

/-- The EOF cursor of a source. -/
def eofOf (l : Lexer) : Cursor := ⟨byteLen l.source, Token.EOF⟩

theorem Stream.advance_nil {l : Lexer} (h : l.offset = byteLen l.source) : l.advance = .ok (Token.EOF, { l with token := Token.EOF }) := by
  rw [advance_before (cs := []) ⟨l.source, by simp, h⟩, if_pos rfl]

/-- The first remaining token outside a set, or EOF. -/
def firstOutside (l : Lexer) (skip : KindSet) (cs : List Cursor) : Cursor :=
  (cs.dropWhile (fun c => c.token.inSet skip)).head?.getD (eofOf l)

theorem eof_isKind : Token.EOF.isKind .eof = true := by decide

theorem nextLoop_stream {skip : KindSet} {l : Lexer} {cs : List Cursor} (h : Stream l cs) (tr : List Cursor) :
    ∃ l', Parser.nextLoop skip l tr = .ok (firstOutside l skip cs, l', tr ++ cs.takeWhile (fun c => c.token.inSet skip))
      ∧ Stream l' (cs.dropWhile (fun c => c.token.inSet skip)).tail ∧ l'.source = l.source ∧ l'.features = l.features := by
  induction h generalizing tr with
  | @nil l h =>
    have ha := Stream.advance_nil h
    have hr := Parser.nextLoop_ok (skip := skip) ha tr
    rw [eof_isKind, Bool.true_or, if_pos rfl] at hr
    refine ⟨{ l with token := Token.EOF }, by rw [hr]; simp [firstOutside, eofOf, h], .nil (by simpa using h), rfl, rfl⟩
  | @cons l l' t cs ha hk hz h ih =>
    have hr := Parser.nextLoop_ok (skip := skip) ha tr
    have hkeep := advance_keeps ha
    by_cases hs : t.inSet skip = true
    · rw [hk, hs, if_neg (by simp), if_neg hz] at hr
      obtain ⟨l2, i1, i2, i3, i4⟩ := ih (tr ++ [⟨l.offset, t⟩])
      refine ⟨l2, ?_, ?_, by rw [i3, hkeep.1], by rw [i4, hkeep.2.1]⟩
      · rw [hr, i1]
        simp [firstOutside, eofOf, hs, hkeep.1]
      · rw [List.dropWhile_cons_of_pos (by exact hs)]; exact i2
    · simp only [Bool.not_eq_true] at hs
      rw [hk, hs, if_pos (by simp)] at hr
      refine ⟨l', by rw [hr]; simp [firstOutside, hs], ?_, hkeep.1, hkeep.2.1⟩
      rw [List.dropWhile_cons_of_neg (by simp [hs])]; exact h

theorem next_stream {p : Parser} {cs : List Cursor} (h : Stream p.lexer cs) :
    ∃ l', p.next = .ok (firstOutside p.lexer p.skip cs, { p with lexer := l', trivia := p.trivia ++ cs.takeWhile (fun c => c.token.inSet p.skip) })
      ∧ Stream l' (cs.dropWhile (fun c => c.token.inSet p.skip)).tail ∧ l'.source = p.lexer.source ∧ l'.features = p.lexer.features := by
  obtain ⟨l', a, b, c⟩ := nextLoop_stream (skip := p.skip) h p.trivia
  exact ⟨l', by simp only [Parser.next, a]; rfl, b, c⟩

theorem peekNext_stream {p : Parser} {cs : List Cursor} (h : Stream p.lexer cs) : p.peekNext = .ok (firstOutside p.lexer p.skip cs) := by
  obtain ⟨l', a, _⟩ := next_stream h
  rw [Parser.C32_peek_next, a]; rfl

theorem nextIsStopLoop_ok {skip stop : KindSet} {l l' : Lexer} {t : Token} (h : l.advance = .ok (t, l')) :
    Parser.nextIsStopLoop skip stop l = if !skip.contains t.kind then .ok (stop.contains t.kind)
      else if t.len.toNat = 0 then .error .diverges else Parser.nextIsStopLoop skip stop l' := by
  rw [Parser.nextIsStopLoop.eq_def]
  split
  · simp_all
  · rename_i t2 l2 h2
    rw [h] at h2; cases h2
    rfl

theorem peekNextWsLoop_ok {skip : KindSet} {l l' : Lexer} {t : Token} (h : l.advance = .ok (t, l')) :
    Parser.peekNextWsLoop skip l = if t.isKind .eof || t.isKind .whitespace || !t.inSet skip then .ok ⟨l.offset, t⟩
      else if t.len.toNat = 0 then .error .diverges else Parser.peekNextWsLoop skip l' := by
  rw [Parser.peekNextWsLoop.eq_def]
  split
  · simp_all
  · rename_i t2 l2 h2
    rw [h] at h2; cases h2
    rfl

/-- The first remaining token that is whitespace or outside a set, or EOF. -/
def firstWsOrOutside (l : Lexer) (skip : KindSet) (cs : List Cursor) : Cursor :=
  (cs.dropWhile (fun c => c.token.inSet skip && !c.token.isKind .whitespace)).head?.getD (eofOf l)

theorem peekWs_stream {p : Parser} {cs : List Cursor} (h : Stream p.lexer cs) :
    p.peekNextIncludingWhitespace = .ok (firstWsOrOutside p.lexer p.skip cs) := by
  unfold Parser.peekNextIncludingWhitespace
  generalize p.lexer = l at h
  generalize p.skip = skip
  induction h with
  | nil h =>
    rw [peekNextWsLoop_ok (Stream.advance_nil h), eof_isKind, Bool.true_or, Bool.true_or, if_pos rfl]
    simp [firstWsOrOutside, eofOf, h]
  | @cons l l' t cs ha hk hz h ih =>
    rw [peekNextWsLoop_ok ha, hk]
    have hkeep := advance_keeps ha
    by_cases hs : (t.inSet skip && !t.isKind .whitespace) = true
    · rw [if_neg (by simp at hs; simp [hs]), if_neg hz, ih]
      simp [firstWsOrOutside, eofOf, hs, hkeep.1]
    · rw [if_pos (by revert hs; cases t.inSet skip <;> cases t.isKind .whitespace <;> simp)]
      simp only [Bool.not_eq_true] at hs
      simp [firstWsOrOutside, hs]

theorem kindBits_of_kind {t : Token} (h : t.kind ≠ .eof) : t.kindBits = t.kind.bits := by
  have hall : ∀ n < 32, Kind.ofBits n ≠ .eof → n = (Kind.ofBits n).bits := by decide
  refine hall _ ?_ h
  have : ((t.w0 >>> 24) &&& 0b11111#32).toNat ≤ 31 := by rw [BitVec.toNat_and]; exact Nat.and_le_right
  unfold Token.kindBits; omega

/-- The first remaining token outside a set, by kind. -/
theorem nextIsStop_stream {p : Parser} {cs : List Cursor} (h : Stream p.lexer cs) (he : p.skip.contains .eof = false) :
    p.nextIsStop = .ok (p.stop.contains (firstOutside p.lexer p.skip cs).token.kind) := by
  unfold Parser.nextIsStop
  generalize p.lexer = l at h
  generalize p.skip = skip at he
  generalize p.stop = stop
  induction h with
  | nil h =>
    rw [nextIsStopLoop_ok (Stream.advance_nil h), show Token.EOF.kind = .eof by decide, he]
    simp [firstOutside, eofOf, show Token.EOF.kind = .eof by decide]
  | @cons l l' t cs ha hk hz h ih =>
    rw [nextIsStopLoop_ok ha]
    have hkeep := advance_keeps ha
    have hb : t.inSet skip = skip.contains t.kind := by
      rw [Token.inSet, kindBits_of_kind (fun h => by rw [(advance_eof ha).mpr h] at hk; cases hk)]; rfl
    by_cases hs : t.inSet skip = true
    · rw [← hb, hs, if_neg (by simp), if_neg hz, ih]
      simp [firstOutside, eofOf, hs, hkeep.1]
    · simp only [Bool.not_eq_true] at hs
      rw [← hb, hs, if_pos (by simp)]
      simp [firstOutside, hs]

end Hdx

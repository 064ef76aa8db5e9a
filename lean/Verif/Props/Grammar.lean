/-
Properties of the generic grammar: component values.
-/
import Verif.Lemmas.Programs

namespace Hdx
open Spec Prog

/-! ## C39 Component values -/

theorem next_at_end {p p' : Parser} {c : Cursor} (h : p.next = .ok (c, p')) (he : p.atEnd = true) : notEof c = false := by
  have ho : p.lexer.offset = byteLen p.lexer.source := by
    simp only [Parser.atEnd, Lexer.atEnd, beq_iff_eq] at he; rw [byteLen_eq]; omega
  obtain ⟨l', a, _⟩ := next_stream (Stream.nil ho)
  rw [a] at h
  injection h with h
  injection h with h _
  rw [← h]
  simp [firstOutside, eofOf, notEof, eof_isKind]

theorem inSet_notEof {c : Cursor} {s : KindSet} (hs : s.contains .eof = false) (h : c.token.inSet s = true) : notEof c = true := by
  simp only [notEof, Bool.not_eq_true']
  cases hk : c.token.isKind .eof
  · rfl
  · simp only [Token.isKind, beq_iff_eq] at hk
    rw [Token.inSet, hk] at h
    rw [KindSet.contains, h] at hs; cases hs

theorem isKind_notEof {c : Cursor} {k : Kind} (hk : k ≠ .eof) (h : c.token.isKind k = true) : notEof c = true := by
  simp only [notEof, Bool.not_eq_true']
  simp only [Token.isKind, beq_iff_eq] at h ⊢
  rw [h]
  revert hk; cases k <;> decide

/-- Opening and closing brackets. -/
def isBracket (t : Token) : Bool := t.inSet PAIR_START || t.inSet PAIR_END

/-- A cursor; for a bracket, the token only. -/
def strip (c : Cursor) : Cursor := if isBracket c.token then ⟨0, c.token⟩ else c

/-- The cursors of a list, without EOF, and without the positions of brackets. -/
def taken (w : List Cursor) : List Cursor := (w.filter notEof).map strip

theorem strip_start (a b : Nat) {t : Token} (h : t.inSet PAIR_START = true) : strip ⟨a, t⟩ = strip ⟨b, t⟩ := by simp [strip, isBracket, h]
theorem strip_end (a b : Nat) {t : Token} (h : t.inSet PAIR_END = true) : strip ⟨a, t⟩ = strip ⟨b, t⟩ := by simp [strip, isBracket, h]

@[simp] theorem taken_append (a b : List Cursor) : taken (a ++ b) = taken a ++ taken b := by simp [taken]
@[simp] theorem taken_nil : taken [] = [] := rfl
theorem taken_one {c : Cursor} (h : notEof c = true) : taken [c] = [strip c] := by simp [taken, h]
theorem taken_eof {c : Cursor} (h : notEof c = false) : taken [c] = [] := by simp [taken, h]

theorem componentValuesLoop_taken {item : Prog ComponentValue} (hi : ∀ {p v p' w}, Gives item p (.ok v) p' w → v.cursors.map strip = taken w) :
    ∀ (n : Nat) {acc vs : List ComponentValue} {p p' : Parser} {w : List Cursor}, Gives (componentValuesLoop item n acc) p (.ok vs) p' w →
      ∃ more, vs = acc ++ more ∧ (ComponentValue.cursorsOf more).map strip = taken w := by
  intro n
  induction n with
  | zero => intro acc vs p p' w h; exact absurd h gives_panic
  | succ n ih =>
    intro acc vs p p' w h
    simp only [componentValuesLoop, gives_bind_ok, gives_atEnd, gives_nextIsStop, gives_ite, gives_pure, gives_peek, Except.ok.injEq] at h
    obtain ⟨_, p1, w1, w2, ⟨rfl, rfl, rfl⟩, h, rfl⟩ := h
    rcases h with ⟨_, rfl, rfl, rfl⟩ | ⟨_, _, p2, w3, w4, ⟨_, _, rfl, rfl, rfl⟩, h, rfl⟩
    · exact ⟨[], by simp, rfl⟩
    rcases h with ⟨_, rfl, rfl, rfl⟩ | ⟨_, _, p3, w5, w6, ⟨_, _, rfl, rfl, rfl⟩, h, rfl⟩
    · exact ⟨[], by simp, rfl⟩
    rcases h with ⟨_, v, p4, w7, w8, h1, h2, rfl⟩ | ⟨_, rfl, rfl, rfl⟩
    · obtain ⟨more, rfl, hm⟩ := ih h2
      refine ⟨v :: more, by simp, ?_⟩
      simp [ComponentValue.cursorsOf, hi h1, hm]
    · exact ⟨[], by simp, rfl⟩

theorem functionLoop_taken {item : Prog ComponentValue} (hi : ∀ {p v p' w}, Gives item p (.ok v) p' w → v.cursors.map strip = taken w) :
    ∀ (n : Nat) {acc vs : List ComponentValue} {p p' : Parser} {w : List Cursor}, Gives (functionLoop item n acc) p (.ok vs) p' w →
      (∃ more, vs = acc ++ more ∧ (ComponentValue.cursorsOf more).map strip = taken w)
      ∧ (p'.atEnd = true ∨ ∃ c, p'.peekNext = .ok c ∧ c.token.isKind .rightParen = true) := by
  intro n
  induction n with
  | zero => intro acc vs p p' w h; exact absurd h gives_panic
  | succ n ih =>
    intro acc vs p p' w h
    simp only [functionLoop, gives_bind_ok, gives_atEnd, gives_ite, gives_pure, gives_peek, Except.ok.injEq] at h
    obtain ⟨_, p1, w1, w2, ⟨rfl, rfl, rfl⟩, h, rfl⟩ := h
    rcases h with ⟨he, rfl, rfl, rfl⟩ | ⟨_, _, p3, w5, w6, ⟨c, hc, rfl, rfl, rfl⟩, h, rfl⟩
    · exact ⟨⟨[], by simp, rfl⟩, .inl he⟩
    rcases h with ⟨hk, rfl, rfl, rfl⟩ | ⟨_, v, p4, w7, w8, h1, h2, rfl⟩
    · exact ⟨⟨[], by simp, rfl⟩, .inr ⟨_, hc, hk⟩⟩
    · obtain ⟨⟨more, rfl, hm⟩, hx⟩ := ih h2
      refine ⟨⟨v :: more, by simp, ?_⟩, hx⟩
      simp [ComponentValue.cursorsOf, hi h1, hm]

theorem gives_isKind {k : Kind} {r : Except Diag Cursor} {p p' : Parser} {w : List Cursor} : Gives (tok (isKind k)) p r p' w
      ↔ ∃ c, p.next = .ok (c, p') ∧ w = [c] ∧ r = if c.token.isKind k then .ok c else .error ⟨.unexpected, c.span⟩ := gives_tok
theorem gives_inSet {s : KindSet} {r : Except Diag Cursor} {p p' : Parser} {w : List Cursor} : Gives (tok (inSet s)) p r p' w
      ↔ ∃ c, p.next = .ok (c, p') ∧ w = [c] ∧ r = if c.token.inSet s then .ok c else .error ⟨.unexpected, c.span⟩ := gives_tok

theorem gives_isKind_ok {k : Kind} {c : Cursor} {p p' : Parser} {w : List Cursor} : Gives (tok (isKind k)) p (.ok c) p' w
      ↔ p.next = .ok (c, p') ∧ w = [c] ∧ c.token.isKind k = true := by
  rw [gives_isKind]
  constructor
  · rintro ⟨c', h1, h2, h3⟩
    split at h3
    · cases h3; exact ⟨h1, h2, by assumption⟩
    · cases h3
  · rintro ⟨h1, h2, h3⟩; exact ⟨c, h1, h2, by rw [if_pos h3]⟩
theorem gives_inSet_ok {s : KindSet} {c : Cursor} {p p' : Parser} {w : List Cursor} : Gives (tok (inSet s)) p (.ok c) p' w
      ↔ p.next = .ok (c, p') ∧ w = [c] ∧ c.token.inSet s = true := by
  rw [gives_inSet]
  constructor
  · rintro ⟨c', h1, h2, h3⟩
    split at h3
    · cases h3; exact ⟨h1, h2, by assumption⟩
    · cases h3
  · rintro ⟨h1, h2, h3⟩; exact ⟨c, h1, h2, by rw [if_pos h3]⟩

theorem functionBlock_taken {item : Prog ComponentValue} (hi : ∀ {p v p' w}, Gives item p (.ok v) p' w → v.cursors.map strip = taken w)
    (n : Nat) {v : ComponentValue} {p p' : Parser} {w : List Cursor} (h : Gives (functionBlock item n) p (.ok v) p' w) :
      v.cursors.map strip = taken w := by
  simp only [functionBlock, gives_bind_ok, gives_isKind_ok, gives_result, gives_pure, Except.ok.injEq] at h
  obtain ⟨name, p1, w1, w2, ⟨h1, rfl, hk⟩, ⟨vs, p2, w3, w4, h2, ⟨close, p3, w5, w6, ⟨_, h3, rfl⟩, ⟨rfl, rfl, rfl⟩, rfl⟩, rfl⟩, rfl⟩ := h
  obtain ⟨⟨more, rfl, hm⟩, hx⟩ := functionLoop_taken hi n h2
  obtain ⟨c, hn, rfl, hc⟩ := gives_isKind.mp h3
  have : (okOf close).toList.map strip = taken [c] := by
    rcases hx with he | ⟨c', hp, hk'⟩
    · have := next_at_end hn he
      rw [taken_eof this]
      rw [if_neg] at hc
      · rw [hc]; rfl
      · intro hh; rw [isKind_notEof (by decide) hh] at this; cases this
    · rw [peek_of_next hn] at hp; cases hp
      rw [if_pos hk'] at hc
      rw [hc, taken_one (isKind_notEof (by decide) hk')]; rfl
  simp only [ComponentValue.cursors, List.nil_append, List.map_cons, List.map_append, this, hm, taken_append,
    taken_one (isKind_notEof (by decide) hk), taken_nil, List.append_nil]
  simp

theorem simpleBlock_taken {item : Prog ComponentValue} (hi : ∀ {p v p' w}, Gives item p (.ok v) p' w → v.cursors.map strip = taken w)
    (n : Nat) {v : ComponentValue} {p p' : Parser} {w : List Cursor} (h : Gives (simpleBlock item n) p (.ok v) p' w) :
      v.cursors.map strip = taken w := by
  simp only [simpleBlock, gives_bind_ok, gives_inSet_ok, gives_result, gives_pure, Except.ok.injEq, gives_offset, gives_setStop,
    gives_ofResult, gives_peek, gives_ite] at h
  obtain ⟨_, p0, w00, w0, ⟨rfl, rfl, rfl⟩, ⟨name, p1, w1, w2, ⟨h1, rfl, hk⟩, ⟨_, p2, w3, w4, ⟨r, h2, rfl⟩, ⟨vs, _, w5, w6, ⟨rfl, rfl, rfl⟩,
    ⟨c, p3, w7, w8, ⟨c', hc, rfl, rfl, rfl⟩, h, rfl⟩, rfl⟩, rfl⟩, rfl⟩, rfl⟩ := h
  obtain ⟨more, rfl, hm⟩ := componentValuesLoop_taken hi n h2
  rcases h with ⟨hin, r, p4, w9, w10, ⟨r2, h3, rfl⟩, ⟨rfl, rfl, rfl⟩, rfl⟩ | ⟨hin, rfl, rfl, rfl⟩
  · obtain ⟨c2, hn, rfl, hc2⟩ := gives_inSet.mp h3
    rw [peek_of_next hn] at hc; cases hc
    rw [if_pos hin] at hc2; subst hc2
    simp only [ComponentValue.cursors, List.nil_append, List.map_cons, List.map_append, hm, taken_append,
      taken_one (inSet_notEof (by decide) hk), taken_one (inSet_notEof (by decide) hin), okOf, taken_nil, List.append_nil]
    simp [Cursor.dummy, strip_start p0.offset name.offset hk, strip_end DUMMY c.offset hin]
  · simp only [ComponentValue.cursors, List.nil_append, List.map_cons, List.map_append, hm, taken_append,
      taken_one (inSet_notEof (by decide) hk), taken_nil, List.append_nil]
    simp [strip_start p0.offset name.offset hk]

theorem componentValue_taken (n : Nat) : ∀ {v : ComponentValue} {p p' : Parser} {w : List Cursor}, Gives (componentValue n) p (.ok v) p' w →
    v.cursors.map strip = taken w := by
  induction n with
  | zero => intro v p p' w h; exact absurd h gives_panic
  | succ n ih =>
    intro v p p' w h
    simp only [componentValue, isWs, whitespace, gives_bind_ok, gives_peek, gives_ask, gives_ite, gives_setSkip, gives_next, gives_pure,
      gives_setState, gives_result, gives_ofResult, gives_inSet_ok, gives_take, gives_fail, Except.ok.injEq] at h
    obtain ⟨_, _, _, _, ⟨c, hc, rfl, rfl, rfl⟩, ⟨_, _, _, _, ⟨b, hb, rfl, rfl, rfl⟩, h, rfl⟩, rfl⟩ := h
    rcases h with ⟨hws, h⟩ | ⟨hws, h⟩
    · obtain ⟨c1, p1, w1, w2, ⟨c2, p2, w3, h1, h2, rfl⟩, ⟨rfl, rfl, rfl⟩, rfl⟩ := h
      rcases h2 with ⟨hk, rfl, rfl, rfl⟩ | ⟨hk, h2, _⟩
      · simp [ComponentValue.cursors, taken_one (isKind_notEof (by decide) hk)]
      · cases h2
    rcases h with ⟨hs, _, _, _, _, ⟨r, h1, rfl⟩, ⟨rfl, rfl, rfl⟩, rfl⟩ | ⟨hs, h⟩
    · simpa using simpleBlock_taken ih n h1
    rcases h with ⟨hk, h⟩ | ⟨hk, h⟩
    · simpa using functionBlock_taken ih n h
    rcases h with ⟨hk, c1, p1, w1, w2, ⟨h1, rfl, hk2⟩, ⟨rfl, rfl, rfl⟩, rfl⟩ | ⟨hk, h⟩
    · simp [ComponentValue.cursors, taken_one (inSet_notEof (by decide) hk2)]
    · obtain ⟨_, _, _, _, _, h, _⟩ := h
      cases h.1

end Hdx

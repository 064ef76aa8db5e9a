/-
Programs whose result writes back exactly the cursors that were taken.
-/
import Verif.Lemmas.Balanced
import Verif.Props.Nth
import Verif.Props.Grammar
import Verif.Props.Parser
import Verif.Model.Features
import Verif.Spec.Stream

namespace Hdx
open Spec Prog

/-- Whenever `x` succeeds, `cur` of its result is the list of the cursors that were taken from the parser, in order. -/
def Writes {α : Type} (x : Prog α) (cur : α → List Cursor) : Prop :=
  ∀ ⦃p p' : Parser⦄ ⦃a : α⦄ ⦃w : List Cursor⦄, Gives x p (.ok a) p' w → w = cur a

namespace Prog

theorem gives_ifPeek {α : Type} {test : Cursor → Prog Bool} {body : Prog α} {p p' : Parser} {o : Option α} {w : List Cursor} :
    Gives (ifPeek test body) p (.ok o) p' w ↔ ∃ c b p1 w1 w2, p.peekNext = .ok c ∧ Gives (test c) p (.ok b) p1 w1 ∧ w = w1 ++ w2 ∧
      ((b = true ∧ ∃ a, o = some a ∧ Gives body p1 (.ok a) p' w2) ∨ (b = false ∧ o = none ∧ p' = p1 ∧ w2 = [])) := by
  unfold ifPeek
  constructor
  · intro h
    obtain ⟨c, p1, w1, w2, h1, h2, rfl⟩ := gives_bind_ok.mp h
    obtain ⟨c', hc, e, rfl, rfl⟩ := gives_peek.mp h1
    cases e
    obtain ⟨b, p2, w3, w4, h3, h4, rfl⟩ := gives_bind_ok.mp h2
    refine ⟨c, b, p2, w3, w4, hc, h3, rfl, ?_⟩
    cases b
    · simp only [Bool.false_eq_true, if_false] at h4
      obtain ⟨e, rfl, rfl⟩ := gives_pure.mp h4
      cases e
      exact .inr ⟨rfl, rfl, rfl, rfl⟩
    · simp only [if_true] at h4
      obtain ⟨a, p3, w5, w6, h5, h6, rfl⟩ := gives_bind_ok.mp h4
      obtain ⟨e, rfl, rfl⟩ := gives_pure.mp h6
      cases e
      exact .inl ⟨rfl, a, rfl, by simpa using h5⟩
  · rintro ⟨c, b, p1, w1, w2, hc, ht, rfl, ⟨rfl, a, rfl, hb⟩ | ⟨rfl, rfl, rfl, rfl⟩⟩
    · refine gives_of_peek hc (gives_seq ht ?_)
      rw [if_pos rfl]
      have := gives_seq hb (f := fun a => pure (some a)) (gives_pure.mpr ⟨rfl, rfl, rfl⟩)
      simpa using this
    · refine gives_of_peek hc (gives_seq ht ?_)
      rw [if_neg (by simp)]
      exact gives_pure.mpr ⟨rfl, rfl, rfl⟩

theorem gives_peekN {n : Nat} {r : Except Diag Cursor} {p p' : Parser} {w : List Cursor} :
    Gives (peekN n) p r p' w ↔ ∃ c, p.peekN n = .ok c ∧ r = .ok c ∧ p' = p ∧ w = [] := gives_ask

theorem gives_strLower {c : Cursor} {r : Except Diag (List Char)} {p p' : Parser} {w : List Cursor} :
    Gives (strLower c) p r p' w ↔ ∃ s, c.parseStrLower p.lexer.source = .ok s ∧ r = .ok s ∧ p' = p ∧ w = [] := gives_ask

theorem gives_eqCase {c : Cursor} {o : List Char} {r : Except Diag Bool} {p p' : Parser} {w : List Cursor} :
    Gives (Prog.eqIgnoreAsciiCase c o) p r p' w ↔ ∃ b, c.eqIgnoreAsciiCase p.lexer.source o = .ok b ∧ r = .ok b ∧ p' = p ∧ w = [] := gives_ask

/-- A node whose `Peek` does not change the parser. -/
theorem gives_tok_pure {test : Cursor → Prog Bool} (ht : ∀ {c p r p' w}, Gives (test c) p r p' w → p' = p ∧ w = []) {c : Cursor} {p p' : Parser}
    {w : List Cursor} : Gives (tok test) p (.ok c) p' w ↔ p.next = .ok (c, p') ∧ Gives (test c) p (.ok true) p [] ∧ w = [c] := by
  unfold tok
  constructor
  · intro h
    obtain ⟨c1, p1, w1, w2, h1, h2, rfl⟩ := gives_bind_ok.mp h
    obtain ⟨c', hc, e, rfl, rfl⟩ := gives_peek.mp h1
    cases e
    obtain ⟨b, p2, w3, w4, h3, h4, rfl⟩ := gives_bind_ok.mp h2
    obtain ⟨rfl, rfl⟩ := ht h3
    obtain ⟨c2, p3, w5, w6, h5, h6, rfl⟩ := gives_bind_ok.mp h4
    obtain ⟨c3, hn, e, rfl⟩ := gives_take.mp h5
    cases e
    rw [peek_of_next hn] at hc
    cases hc
    cases b
    · rw [if_neg (by simp)] at h6
      have := (gives_fail.mp h6).1
      cases this
    · rw [if_pos rfl] at h6
      obtain ⟨e, rfl, rfl⟩ := gives_pure.mp h6
      cases e
      exact ⟨hn, h3, rfl⟩
  · rintro ⟨hn, h3, rfl⟩
    have h6 : Gives (if true = true then pure c else fail .unexpected c : Prog Cursor) p' (.ok c) p' [] := by
      rw [if_pos rfl]; exact gives_pure.mpr ⟨rfl, rfl, rfl⟩
    have h4 := gives_seq (gives_take.mpr ⟨c, hn, rfl, rfl⟩) (f := fun c => if true = true then pure c else fail .unexpected c) h6
    have h2 := gives_seq h3 (f := fun ok => take >>= fun c => if ok = true then pure c else fail .unexpected c) h4
    exact gives_of_peek (peek_of_next hn) (by simpa using h2)

end Prog

/-! ### Words -/

/-- The cursor is an identifier that reads `name`, in lower case. -/
def Spec.Word (src : List Char) (c : Cursor) (name : List Char) : Prop := c.token.kind = .ident ∧ c.parseStrLower src = .ok name

theorem gives_isKeyword {names : List (List Char)} {c : Cursor} {r : Except Diag Bool} {p p' : Parser} {w : List Cursor} :
    Gives (isKeyword names c) p r p' w ↔ p' = p ∧ w = [] ∧ ((c.token.kind ≠ .ident ∧ r = .ok false) ∨
      ∃ s, Word p.lexer.source c s ∧ r = .ok (names.contains s)) := by
  unfold isKeyword Word
  rw [gives_ite, isKind_iff (show Kind.ident ≠ .eof by decide)]
  constructor
  · rintro (⟨hk, h⟩ | ⟨hk, h⟩)
    · rcases gives_bind.mp h with ⟨s, p1, w1, w2, h1, h2, rfl⟩ | ⟨d, h1, _⟩
      · obtain ⟨s', hs, e, rfl, rfl⟩ := gives_strLower.mp h1
        cases e
        obtain ⟨rfl, rfl, rfl⟩ := gives_pure.mp h2
        exact ⟨rfl, rfl, .inr ⟨s, ⟨hk, hs⟩, rfl⟩⟩
      · obtain ⟨_, _, e, _⟩ := gives_strLower.mp h1; cases e
    · obtain ⟨rfl, rfl, rfl⟩ := gives_pure.mp h
      exact ⟨rfl, rfl, .inl ⟨hk, rfl⟩⟩
  · rintro ⟨rfl, rfl, ⟨hk, rfl⟩ | ⟨s, ⟨hk, hs⟩, rfl⟩⟩
    · exact .inr ⟨hk, gives_pure.mpr ⟨rfl, rfl, rfl⟩⟩
    · refine .inl ⟨hk, ?_⟩
      exact gives_bind.mpr (.inl ⟨s, _, [], [], gives_strLower.mpr ⟨s, hs, rfl, rfl, rfl⟩, gives_pure.mpr ⟨rfl, rfl, rfl⟩, rfl⟩)

theorem isKeyword_keeps {names : List (List Char)} {c : Cursor} {p p' : Parser} {r : Except Diag Bool} {w : List Cursor}
    (h : Gives (isKeyword names c) p r p' w) : p' = p ∧ w = [] := ⟨(gives_isKeyword.mp h).1, (gives_isKeyword.mp h).2.1⟩

theorem gives_buildKeyword {names : List (List Char)} {c : Cursor} {r : Except Diag (List Char × Cursor)} {p p' : Parser} {w : List Cursor} :
    Gives (buildKeyword names c) p r p' w ↔ p' = p ∧ w = [] ∧ ∃ s, c.parseStrLower p.lexer.source = .ok s ∧ names.contains s = true ∧ r = .ok (s, c) := by
  unfold buildKeyword
  constructor
  · intro h
    rcases gives_bind.mp h with ⟨s, p1, w1, w2, h1, h2, rfl⟩ | ⟨d, h1, _⟩
    · obtain ⟨s', hs, e, rfl, rfl⟩ := gives_strLower.mp h1
      cases e
      rcases gives_ite.mp h2 with ⟨hc, h3⟩ | ⟨hc, h3⟩
      · obtain ⟨rfl, rfl, rfl⟩ := gives_pure.mp h3
        exact ⟨rfl, rfl, s, hs, hc, rfl⟩
      · exact absurd h3 gives_panic
    · obtain ⟨_, _, e, _⟩ := gives_strLower.mp h1; cases e
  · rintro ⟨rfl, rfl, s, hs, hc, rfl⟩
    refine gives_bind.mpr (.inl ⟨s, _, [], [], gives_strLower.mpr ⟨s, hs, rfl, rfl, rfl⟩, ?_, rfl⟩)
    rw [if_pos hc]
    exact gives_pure.mpr ⟨rfl, rfl, rfl⟩

/-- A word of the set is taken. -/
theorem gives_keyword {names : List (List Char)} {v : List Char × Cursor} {p p' : Parser} {w : List Cursor} :
    Gives (keyword names) p (.ok v) p' w ↔ p.next = .ok (v.2, p') ∧ w = [v.2] ∧ Word p.lexer.source v.2 v.1 ∧ v.1 ∈ names := by
  unfold keyword
  constructor
  · intro h
    obtain ⟨c, p1, w1, w2, h1, h2, rfl⟩ := gives_bind_ok.mp h
    obtain ⟨hn, ht, rfl⟩ := (gives_tok_pure isKeyword_keeps).mp h1
    obtain ⟨rfl, rfl, s, hs, hc, e⟩ := gives_buildKeyword.mp h2
    cases e
    have hsrc := (runLog_source take (gives_take.mpr ⟨c, hn, rfl, rfl⟩)).1
    rw [hsrc] at hs
    rcases (gives_isKeyword.mp ht).2.2 with ⟨_, e⟩ | ⟨s', hw, e⟩
    · cases e
    · have := hw.2
      rw [hs] at this
      cases this
      exact ⟨hn, rfl, hw, by simpa using hc⟩
  · rintro ⟨hn, rfl, hw, hc⟩
    have hsrc := (runLog_source take (gives_take.mpr ⟨v.2, hn, rfl, rfl⟩)).1
    refine gives_seq ((gives_tok_pure (test := isKeyword names) isKeyword_keeps).mpr ⟨hn, gives_isKeyword.mpr ⟨rfl, rfl, .inr ⟨v.1, hw, ?_⟩⟩, rfl⟩)
      (gives_buildKeyword.mpr ⟨rfl, rfl, v.1, by rw [hsrc]; exact hw.2, by simpa using hc, rfl⟩)
    simpa using hc

/-- `parse_if_peek` of a set of words. -/
theorem gives_ifKeyword {names : List (List Char)} {o : Option (List Char × Cursor)} {p p' : Parser} {w : List Cursor} :
    Gives (ifPeek (isKeyword names) (keyword names)) p (.ok o) p' w ↔ ∃ c, p.peekNext = .ok c ∧
      ((∃ s, o = some (s, c) ∧ p.next = .ok (c, p') ∧ w = [c] ∧ Word p.lexer.source c s ∧ s ∈ names) ∨
       (o = none ∧ p' = p ∧ w = [] ∧ (c.token.kind ≠ .ident ∨ ∃ s, Word p.lexer.source c s ∧ s ∉ names))) := by
  rw [gives_ifPeek]
  constructor
  · rintro ⟨c, b, p1, w1, w2, hc, ht, rfl, ⟨rfl, a, rfl, hb⟩ | ⟨rfl, rfl, rfl, rfl⟩⟩
    · obtain ⟨rfl, rfl, _⟩ := gives_isKeyword.mp ht
      obtain ⟨hn, rfl, hw, hm⟩ := gives_keyword.mp hb
      rw [peek_of_next hn] at hc
      cases hc
      exact ⟨a.2, peek_of_next hn, .inl ⟨a.1, rfl, hn, by simp, hw, hm⟩⟩
    · obtain ⟨rfl, rfl, h | ⟨s, hw, e⟩⟩ := gives_isKeyword.mp ht
      · exact ⟨c, hc, .inr ⟨rfl, rfl, rfl, .inl h.1⟩⟩
      · refine ⟨c, hc, .inr ⟨rfl, rfl, rfl, .inr ⟨s, hw, ?_⟩⟩⟩
        simp only [Except.ok.injEq] at e
        intro hm
        have : names.contains s = true := by simpa using hm
        rw [this] at e; cases e
  · rintro ⟨c, hc, ⟨s, rfl, hn, rfl, hw, hm⟩ | ⟨rfl, rfl, rfl, h⟩⟩
    · have hcon : names.contains s = true := by simpa using hm
      exact ⟨c, true, p, [], [c], hc, gives_isKeyword.mpr ⟨rfl, rfl, .inr ⟨s, hw, by rw [hcon]⟩⟩, rfl,
        .inl ⟨rfl, (s, c), rfl, gives_keyword.mpr ⟨hn, rfl, hw, hm⟩⟩⟩
    · refine ⟨c, false, p', [], [], hc, gives_isKeyword.mpr ⟨rfl, rfl, ?_⟩, rfl, .inr ⟨rfl, rfl, rfl, rfl⟩⟩
      rcases h with h | ⟨s, hw, hm⟩
      · exact .inl ⟨h, rfl⟩
      · refine .inr ⟨s, hw, ?_⟩
        have : names.contains s = false := by simpa using hm
        rw [this]

/-! ### Written back -/

/-- The cursors `written` are the tokens of the source up to where the parser stands, in order, without those that went to the trivia. -/
def Spec.WrittenBack (src : List Char) (f : Features) (p : Parser) (written : List Cursor) : Prop :=
  ∃ tokens, LexedUntil (Lexer.newWithFeatures src f) tokens p.offset ∧ Dealt (written.filter notEof) p.trivia tokens

theorem Writes.written_back {α : Type} {x : Prog α} {cur : α → List Cursor} (hx : Writes x cur) {src : List Char} {f : Features} {a : α} {p' : Parser}
    (hs : byteLen src < 65536) (h : x.run (Parser.newWithFeatures src f) = .ok (.ok a, p')) : WrittenBack src f p' (cur a) := by
  unfold Prog.run at h
  cases hr : x.runLog (Parser.newWithFeatures src f) with
  | error e => rw [hr] at h; cases h
  | ok y =>
    obtain ⟨r, q, w⟩ := y
    rw [hr] at h
    simp only [Except.map, Except.ok.injEq, Prod.mk.injEq] at h
    obtain ⟨rfl, rfl⟩ := h
    obtain ⟨tr, cs, a1, b1, c1⟩ := (Prog.runLog_moved x (by simp [Parser.newWithFeatures])
      (by rw [byteLen_eq] at hs; exact hs) (by simp [Fits, Parser.newWithFeatures]) hr).tokens
    simp only [Parser.newWithFeatures, List.nil_append] at a1
    rw [← hx hr]
    exact ⟨cs, b1, a1 ▸ c1⟩

theorem writes_isKind {k : Kind} : Writes (tok (isKind k)) (fun c => [c]) := fun _ _ _ _ h => (gives_isKind_ok.mp h).2.1
theorem writes_any : Writes any (fun c => [c]) := by
  intro p p' a w h
  obtain ⟨c, hn, rfl, e⟩ := gives_tok.mp h
  rw [if_pos rfl] at e
  cases e; rfl
theorem writes_isDelim {ch : Char} : Writes (tok (isDelim ch)) (fun c => [c]) := by
  intro p p' a w h
  obtain ⟨c, hn, rfl, e⟩ := gives_tok.mp h
  split at e <;> cases e
  rfl

theorem doubleDelim_writes {a b : Char} : Writes (doubleDelim a b) (fun x => [x.1, x.2]) := by
  intro p p' x w h
  unfold doubleDelim at h
  obtain ⟨c1, p1, w1, w2, h1, h2, rfl⟩ := gives_bind_ok.mp h
  rw [writes_isKind h1]
  rcases gives_ite.mp h2 with ⟨_, h3⟩ | ⟨_, h3⟩
  · cases (gives_fail.mp h3).1
  · obtain ⟨c2, p2, w3, w4, h4, h5, rfl⟩ := gives_bind_ok.mp (gives_setSkip.mp h3)
    obtain ⟨r, h6, e⟩ := gives_result.mp h4
    cases e
    obtain ⟨c3, p3, w5, w6, h7, h8, rfl⟩ := gives_bind_ok.mp (gives_setSkip.mp h5)
    obtain ⟨e, rfl, rfl⟩ := gives_ofResult.mp h7
    cases e
    rcases gives_ite.mp h8 with ⟨_, h9⟩ | ⟨_, h9⟩
    · cases (gives_fail.mp h9).1
    · obtain ⟨e, rfl, rfl⟩ := gives_pure.mp h9
      cases e
      rw [writes_isKind h6]; rfl

theorem isDoubleDelim_keeps {a b : Char} {c : Cursor} {r : Except Diag Bool} {p p' : Parser} {w : List Cursor}
    (h : Gives (isDoubleDelim a b c) p r p' w) : p' = p ∧ w = [] := by
  unfold isDoubleDelim at h
  rcases gives_ite.mp h with ⟨_, h⟩ | ⟨_, h⟩
  · rcases gives_bind.mp h with ⟨s, p1, w1, w2, h1, h2, rfl⟩ | ⟨d, h1, _⟩
    · obtain ⟨_, _, e, rfl, rfl⟩ := gives_peekN.mp h1
      obtain ⟨_, rfl, rfl⟩ := gives_pure.mp h2
      exact ⟨rfl, rfl⟩
    · obtain ⟨_, _, e, _⟩ := gives_peekN.mp h1; cases e
  · obtain ⟨_, rfl, rfl⟩ := gives_pure.mp h
    exact ⟨rfl, rfl⟩

end Hdx

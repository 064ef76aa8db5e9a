/-
Property C63: what is ahead decides what is parsed. Looking ahead for a declaration, for `!important` and for an at-rule is exact.
-/
import Verif.Props.Modes

namespace Hdx
open Spec Prog

/-- The second token ahead, after a first one that is not the end. -/
theorem peekN_second {p q : Parser} {c d : Cursor} (h1 : p.next = .ok (c, q)) (hc : notEof c = true) : p.peekN 2 = .ok d ↔ ∃ r, q.next = .ok (d, r) := by
  constructor
  · intro h
    have := Parser.C32_peek_n 2 p (by decide)
    rw [h] at this
    cases hq : q.next with
    | error e =>
      simp only [Parser.nextN, h1, hq] at this
      have hne : c.token.isKind .eof = false := by simpa [notEof] using hc
      simp [hne, Except.map] at this
    | ok y =>
      obtain ⟨d', r⟩ := y
      have := peekN_two h1 hq
      rw [h] at this; cases this
      exact ⟨r, rfl⟩
  · rintro ⟨r, h⟩; exact peekN_two h1 h

/-- The next two tokens (leaving out those that are skipped) are `c` and `d`. -/
def Spec.TwoAhead (p : Parser) (c d : Cursor) : Prop := ∃ q r, p.next = .ok (c, q) ∧ q.next = .ok (d, r)

/-- Looking for a declaration says yes exactly if an identifier and a colon are next; comments and whitespace between them do not matter. -/
theorem C63_declaration {p p' : Parser} {c : Cursor} {b : Bool} {w : List Cursor} (hc : p.peekNext = .ok c)
    (h : Gives (isDeclaration c) p (.ok b) p' w) :
    b = true ↔ ∃ d, TwoAhead p c d ∧ c.token.kind = .ident ∧ d.token.kind = .colon := by
  obtain ⟨q, hn⟩ : ∃ q, p.next = .ok (c, q) := by
    rw [Parser.C32_peek_next] at hc
    cases hp : p.next with
    | error e => rw [hp] at hc; cases hc
    | ok y => obtain ⟨c', q⟩ := y; rw [hp] at hc; simp only [Except.map, Except.ok.injEq] at hc; exact ⟨q, by rw [hc]⟩
  unfold isDeclaration at h
  rcases gives_ite.mp h with ⟨hi, h⟩ | ⟨hi, h⟩
  · obtain ⟨d, p1, w1, w2, rfl, h1, h2⟩ := step h
    obtain ⟨d', hd, e, rfl, rfl⟩ := gives_peekN.mp h1
    cases e
    obtain ⟨e, rfl, rfl⟩ := gives_pure.mp h2
    cases e
    obtain ⟨r, hr⟩ := (peekN_second hn (isKind_notEof (by decide) hi)).mp hd
    constructor
    · intro hk; exact ⟨d, ⟨q, r, hn, hr⟩, kind_of_isKind (by decide) hi, kind_of_isKind (by decide) hk⟩
    · rintro ⟨d', ⟨q', r', a, b⟩, _, k⟩
      rw [hn] at a; cases a
      rw [hr] at b; cases b
      exact (isKind_iff (by decide)).mpr k
  · obtain ⟨e, _⟩ := gives_pure.mp h
    cases e
    constructor
    · intro h; cases h
    · rintro ⟨_, _, k, _⟩; exact absurd ((isKind_iff (by decide)).mpr k) hi

/-- A declaration that was parsed starts with exactly these two tokens. -/
theorem C63_declaration_parsed {n : Nat} {d : Declaration} {p p' : Parser} {w : List Cursor} (h : Gives (declaration n) p (.ok d) p' w) :
    TwoAhead p d.name d.colon ∧ d.name.token.kind = .ident ∧ d.colon.token.kind = .colon := by
  unfold declaration at h
  replace h := step h
  obtain ⟨name, p1, w1, w2, rfl, h1, h⟩ := h
  obtain ⟨n1, _, n3⟩ := gives_isKind_ok.mp h1
  replace h := step h
  obtain ⟨colon, p2, w3, w4, rfl, h2, h⟩ := h
  obtain ⟨m1, _, m3⟩ := gives_isKind_ok.mp h2
  replace h := step h
  obtain ⟨value, p3, w5, w6, rfl, h3, h⟩ := h
  replace h := step h
  obtain ⟨imp, p4, w7, w8, rfl, h4, h⟩ := h
  obtain ⟨e, rfl, rfl⟩ := gives_pure.mp h
  cases e
  exact ⟨⟨p1, p2, n1, m1⟩, kind_of_isKind (by decide) n3, kind_of_isKind (by decide) m3⟩

/-- `!important` ahead: the delimiter `!` and an identifier that is `important` whatever the case of its letters. -/
def Spec.ImportantAhead (p : Parser) (c d : Cursor) : Prop := TwoAhead p c d ∧ c.token.kind = .delim ∧ c.token.isChar '!' = true
  ∧ d.token.kind = .ident ∧ d.eqIgnoreAsciiCase p.lexer.source "important".toList = .ok true

theorem next_of_peek {p : Parser} {c : Cursor} (hc : p.peekNext = .ok c) : ∃ q, p.next = .ok (c, q) := by
  rw [Parser.C32_peek_next] at hc
  cases hp : p.next with
  | error e => rw [hp] at hc; cases hc
  | ok y => obtain ⟨c', q⟩ := y; rw [hp] at hc; simp only [Except.map, Except.ok.injEq] at hc; exact ⟨q, by rw [hc]⟩

/-- Looking for `!important` says yes exactly if it is next. -/
theorem C63_important {p p' : Parser} {c : Cursor} {b : Bool} {w : List Cursor} (hc : p.peekNext = .ok c)
    (h : Gives (isBangImportant c) p (.ok b) p' w) : b = true ↔ ∃ d, ImportantAhead p c d := by
  obtain ⟨q, hn⟩ := next_of_peek hc
  unfold isBangImportant at h
  rcases gives_ite.mp h with ⟨hi, h⟩ | ⟨hi, h⟩
  · rw [Bool.and_eq_true] at hi
    obtain ⟨b', ha, e, rfl, rfl⟩ := gives_ask.mp h
    cases e
    cases hd : p'.peekN 2 with
    | error e => rw [hd] at ha; cases ha
    | ok d =>
      rw [hd] at ha
      simp only at ha
      obtain ⟨r, hr⟩ := (peekN_second hn (isKind_notEof (by decide) hi.1)).mp hd
      have hdel := kind_of_isKind (by decide) hi.1
      by_cases hk : d.token.isKind .ident = true
      · rw [if_pos hk] at ha
        constructor
        · rintro rfl; exact ⟨d, ⟨q, r, hn, hr⟩, hdel, hi.2, kind_of_isKind (by decide) hk, ha⟩
        · rintro ⟨d', ⟨q', r', x, y⟩, _, _, _, z⟩
          rw [hn] at x; cases x
          rw [hr] at y; cases y
          rw [ha] at z; cases z; rfl
      · rw [if_neg hk] at ha
        cases ha
        constructor
        · intro h; cases h
        · rintro ⟨d', ⟨q', r', x, y⟩, _, _, k, z⟩
          rw [hn] at x; cases x
          rw [hr] at y; cases y
          exact absurd ((isKind_iff (by decide)).mpr k) hk
  · obtain ⟨e, _⟩ := gives_pure.mp h
    cases e
    constructor
    · intro h; cases h
    · rintro ⟨_, _, k, ch, _⟩
      exact absurd (by rw [(isKind_iff (by decide)).mpr k, ch]; rfl) hi

/-- And then it is parsed: two tokens are consumed, and they are the node. -/
theorem C63_important_parsed {p : Parser} {v : BangImportant} : (∃ p' w, Gives bangImportant p (.ok v) p' w) ↔ ImportantAhead p v.bang v.important := by
  constructor
  · rintro ⟨p', w, h⟩
    unfold bangImportant at h
    replace h := step h
    obtain ⟨bang, p1, w1, w2, rfl, h1, h⟩ := h
    obtain ⟨c, n1, rfl, n3⟩ := gives_tok.mp h1
    split at n3
    case isFalse => cases n3
    rename_i hb
    cases n3
    replace h := step h
    obtain ⟨imp, p2, w3, w4, rfl, h2, h⟩ := h
    obtain ⟨m1, _, m3⟩ := gives_isKind_ok.mp h2
    replace h := step h
    obtain ⟨b, p3, w5, w6, rfl, h3, h⟩ := h
    obtain ⟨b', k1, e, rfl, rfl⟩ := gives_ask.mp h3
    cases e
    rcases gives_ite.mp h with ⟨hbt, h⟩ | ⟨_, h⟩
    · obtain ⟨e, _, _⟩ := gives_pure.mp h
      cases e
      rw [Bool.and_eq_true] at hb
      subst hbt
      have s1 := (runLog_source _ h1).1
      have s2 := (runLog_source _ h2).1
      rw [s2, s1] at k1
      exact ⟨⟨p1, p3, n1, m1⟩, kind_of_isKind (by decide) hb.1, hb.2, kind_of_isKind (by decide) m3, k1⟩
    · exact absurd h not_fail
  · rintro ⟨⟨q, r, hn, hr⟩, k1, k2, k3, k4⟩
    have g1 : Gives (tok (isDelim '!')) p (.ok v.bang) q [v.bang] := by
      refine gives_tok.mpr ⟨v.bang, hn, rfl, ?_⟩
      rw [(isKind_iff (by decide)).mpr k1, k2]; rfl
    have g2 : Gives (tok (isKind .ident)) q (.ok v.important) r [v.important] := gives_isKind_ok.mpr ⟨hr, rfl, (isKind_iff (by decide)).mpr k3⟩
    refine ⟨r, [v.bang] ++ ([v.important] ++ ([] ++ [])), ?_⟩
    unfold bangImportant
    refine gives_bind_ok.mpr ⟨_, _, _, _, g1, gives_bind_ok.mpr ⟨_, _, _, _, g2, gives_bind_ok.mpr ⟨true, r, [], [], ?_, ?_, rfl⟩, rfl⟩, rfl⟩
    · refine gives_ask.mpr ⟨true, ?_, rfl, rfl, rfl⟩
      rw [(runLog_source _ g2).1, (runLog_source _ g1).1]; exact k4
    · exact gives_ite.mpr (.inl ⟨rfl, gives_pure.mpr ⟨rfl, rfl, rfl⟩⟩)

/-- The rule starts with this at-keyword, if with any. -/
def Spec.atName : Rule → Option Cursor
  | .qualified .. => none
  | .atBlock name .. => some name
  | .atStatement name .. => some name

theorem atRule_name {α β : Type} {name : Option (List Char)} {prelude : Prog α} {block : Prog β} {x : Cursor × Option α × β} {p p' : Parser} {w : List Cursor}
    (h : Gives (atRule name prelude block) p (.ok x) p' w) : ∃ q, p.next = .ok (x.1, q) ∧ x.1.token.kind = .atKeyword
      ∧ ∀ n, name = some n → x.1.eqIgnoreAsciiCase p.lexer.source n = .ok true := by
  unfold atRule at h
  replace h := step h
  obtain ⟨at', p1, w1, w2, rfl, h1, h⟩ := h
  obtain ⟨n1, _, n3⟩ := gives_isKind_ok.mp h1
  have src := (runLog_source _ h1).1
  obtain ⟨ok, q, v1, v2, rfl, hok, h⟩ : ∃ ok q v1 v2, w2 = v1 ++ v2 ∧ (∀ n, name = some n → at'.eqIgnoreAsciiCase p1.lexer.source n = .ok ok) ∧ Gives (do
      if !ok then fail .other at'
      else
        let c ← peek
        let e ← atEnd
        let pre ← if e || c.token.inSet KindSet.LEFT_CURLY_OR_SEMICOLON then pure none else do
          let a ← prelude
          pure (some a)
        let b ← block
        pure (at', pre, b)) q (.ok x) p' v2 := by
    cases name with
    | none =>
      replace h := step h
      obtain ⟨ok, p2, w3, w4, rfl, h2, h⟩ := h
      exact ⟨ok, p2, w3, w4, rfl, fun _ h => (by cases h), h⟩
    | some n =>
      replace h := step h
      obtain ⟨ok, p2, w3, w4, rfl, h2, h⟩ := h
      obtain ⟨b', k1, e, _, _⟩ := gives_ask.mp h2
      cases e
      exact ⟨ok, p2, w3, w4, rfl, fun m hm => (by cases hm; exact k1), h⟩
  rcases gives_ite.mp h with ⟨_, h4⟩ | ⟨ht, h4⟩
  · exact absurd h4 not_fail
  have ht' : ok = true := by simpa using ht
  subst ht'
  have e : x.1 = at' := by
    replace h4 := step_peek h4
    obtain ⟨_, _, h4⟩ := h4
    replace h4 := step h4
    obtain ⟨_, _, _, _, _, _, h4⟩ := h4
    have fin : ∀ {pre : Option α} {p p' w}, Gives (do let b ← block; pure (at', pre, b)) p (.ok x) p' w → x.1 = at' := by
      intro pre p p' w h
      obtain ⟨b, p3, w5, w6, _, h3, h5⟩ := step h
      obtain ⟨e, _⟩ := gives_pure.mp h5
      cases e; rfl
    rcases gives_ite.mp h4 with ⟨_, h5⟩ | ⟨_, h5⟩
    · obtain ⟨_, _, _, _, _, _, h7⟩ := step h5
      exact fin h7
    · obtain ⟨_, _, _, _, _, _, h7⟩ := step h5
      obtain ⟨_, _, _, _, _, _, h9⟩ := step h7
      exact fin h9
  rw [e]
  exact ⟨p1, n1, kind_of_isKind (by decide) n3, fun m hm => src ▸ hok m hm⟩

/-- An at-rule that requires a name is only parsed if the next token is an at-keyword with that name, whatever the case of its letters. -/
theorem C63_at_name {α β : Type} {name : List Char} {prelude : Prog α} {block : Prog β} {x : Cursor × Option α × β} {p p' : Parser} {w : List Cursor}
    (h : Gives (atRule (some name) prelude block) p (.ok x) p' w) : ∃ q, p.next = .ok (x.1, q) ∧ x.1.token.kind = .atKeyword
      ∧ x.1.eqIgnoreAsciiCase p.lexer.source name = .ok true := by
  obtain ⟨q, a, b, c⟩ := atRule_name h
  exact ⟨q, a, b, c name rfl⟩

/-- With another name nothing but that token is consumed, and the error is about it. -/
theorem C63_at_other_name {α β : Type} {name : List Char} {prelude : Prog α} {block : Prog β} {p q : Parser} {c : Cursor}
    (hn : p.next = .ok (c, q)) (hk : c.token.kind = .atKeyword) (hc : c.eqIgnoreAsciiCase p.lexer.source name = .ok false) :
    (atRule (some name) prelude block).run p = .ok (.error ⟨.other, c.span⟩, q) := by
  have g1 : Gives (tok (isKind .atKeyword)) p (.ok c) q [c] := gives_isKind_ok.mpr ⟨hn, rfl, (isKind_iff (by decide)).mpr hk⟩
  have g2 : Gives (Prog.eqIgnoreAsciiCase c name) q (.ok false) q [] := gives_ask.mpr ⟨false, by rw [(runLog_source _ g1).1]; exact hc, rfl, rfl, rfl⟩
  have : Gives (atRule (some name) prelude block) p (.error ⟨.other, c.span⟩) q ([c] ++ ([] ++ [])) := by
    unfold atRule
    refine gives_bind.mpr (.inl ⟨_, _, _, _, g1, gives_bind.mpr (.inl ⟨_, _, _, _, g2, ?_, rfl⟩), rfl⟩)
    exact gives_ite.mpr (.inl ⟨rfl, gives_fail.mpr ⟨rfl, rfl, rfl⟩⟩)
  exact run_of_gives this

/-- An at-keyword starts an at-rule with that name, and nothing else does. -/
theorem C63_rule {n : Nat} {r : Rule} {p p' : Parser} {w : List Cursor} (h : Gives (rule n) p (.ok r) p' w) :
    ∃ c, p.peekNext = .ok c ∧ atName r = if c.token.kind = .atKeyword then some c else none := by
  cases n with
  | zero => exact absurd h gives_panic
  | succ n =>
    unfold rule at h
    replace h := step_peek h
    obtain ⟨c, hc, h⟩ := h
    refine ⟨c, hc, ?_⟩
    rcases gives_ite.mp h with ⟨hk, h⟩ | ⟨hk, h⟩
    · rw [if_pos (kind_of_isKind (by decide) hk)]
      unfold genericAtRule at h
      replace h := gives_setStop.mp h
      replace h := step h
      obtain ⟨parsed, p1, w1, w2, rfl, h1, h⟩ := h
      obtain ⟨r1, h1, e⟩ := gives_result.mp h1
      cases e
      replace h := gives_setStop.mp h
      replace h := step h
      obtain ⟨⟨name, pre, blk⟩, p2, w3, w4, rfl, h2, h⟩ := h
      obtain ⟨e, rfl, rfl⟩ := gives_ofResult.mp h2
      subst e
      obtain ⟨q, a, b, _⟩ := atRule_name h1
      have hp := peek_of_next a
      have : c = name := by
        have hc' : Parser.peekNext { p with stop := KindSet.LEFT_CURLY_OR_SEMICOLON } = .ok c := hc
        rw [hc'] at hp; cases hp; rfl
      subst this
      simp only at h
      replace h := step h
      obtain ⟨o, p3, w5, w6, rfl, h3, h⟩ := h
      split at h <;> (obtain ⟨e, _⟩ := gives_pure.mp h; cases e; rfl)
    · rw [if_neg (fun k => hk ((isKind_iff (by decide)).mpr k))]
      unfold genericQualifiedRule at h
      replace h := step h
      obtain ⟨x, p1, w1, w2, rfl, h1, h⟩ := h
      obtain ⟨e, _⟩ := gives_pure.mp h
      cases e; rfl


/-! ### Declarations that are skipped -/

theorem badDeclarationLoop_nested {item : Prog ComponentValue} (hi : ∀ {p v p' w}, Gives item p (.ok v) p' w → v.cursors.map strip = taken w)
    (hm : KeepsModes item) : ∀ (n : Nat) {acc vs : List ComponentValue} {p p' : Parser} {w : List Cursor}, p.nested = true →
    Gives (badDeclarationLoop item n acc) p (.ok vs) p' w → ∃ more, vs = acc ++ more ∧ valuesText more = taken w
      ∧ (p'.atEnd = true ∨ (∃ c, p'.peekNext = .ok c ∧ c.token.kind = .rightCurly) ∨ ∃ q c, q.peekNext = .ok c ∧ c.token.kind = .semicolon
          ∧ ∃ u v, Gives item q (.ok v) p' u ∧ more.getLast? = some v) := by
  intro n
  induction n with
  | zero => intro acc vs p p' w _ h; exact absurd h gives_panic
  | succ n ih =>
    intro acc vs p p' w hn h
    unfold badDeclarationLoop at h
    obtain ⟨e, p1, w1, w2, rfl, h1, h2⟩ := step h
    obtain ⟨ee, rfl, rfl⟩ := gives_atEnd.mp h1
    cases ee
    rcases gives_ite.mp h2 with ⟨ha, h3⟩ | ⟨ha, h3⟩
    · obtain ⟨ee, rfl, rfl⟩ := gives_pure.mp h3
      cases ee
      exact ⟨[], by simp, rfl, .inl ha⟩
    obtain ⟨c, hc, h4⟩ := step_peek h3
    rcases gives_ite.mp h4 with ⟨hk, h5⟩ | ⟨hk, h5⟩
    · obtain ⟨v, p2, w3, w4, rfl, h6, h7⟩ := step h5
      obtain ⟨ee, rfl, rfl⟩ := gives_pure.mp h7
      cases ee
      refine ⟨[v], rfl, ?_, .inr (.inr ⟨_, c, hc, kind_of_isKind (by decide) hk, w3, v, h6, rfl⟩)⟩
      simp only [valuesText, ComponentValue.cursorsOf, List.append_nil, List.nil_append]
      exact hi h6
    have go : ∀ {w}, Gives (item >>= fun v => badDeclarationLoop item n (acc ++ [v])) p1 (.ok vs) p' w → ∃ more, vs = acc ++ more ∧ valuesText more = taken w
      ∧ (p'.atEnd = true ∨ (∃ c, p'.peekNext = .ok c ∧ c.token.kind = .rightCurly) ∨ ∃ q c, q.peekNext = .ok c ∧ c.token.kind = .semicolon
          ∧ ∃ u v, Gives item q (.ok v) p' u ∧ more.getLast? = some v) := by
      intro w h
      obtain ⟨v, p2, w3, w4, rfl, h6, h7⟩ := step h
      have hn2 : p2.nested = true := by
        have := hm h6
        simp only [modes, Prod.mk.injEq] at this
        rw [this.2.2]; exact hn
      obtain ⟨more, rfl, ht, he⟩ := ih hn2 h7
      refine ⟨v :: more, by simp, ?_, ?_⟩
      · have := hi h6
        simp only [valuesText, ComponentValue.cursorsOf, List.map_append, taken_append] at ht ⊢
        rw [ht, this]
      · rcases he with he | he | ⟨q, c, a, b, u, v', g, l⟩
        · exact .inl he
        · exact .inr (.inl he)
        · refine .inr (.inr ⟨q, c, a, b, u, v', g, ?_⟩)
          cases more with
          | nil => cases l
          | cons x xs => simpa using l
    rcases gives_ite.mp h5 with ⟨hk2, h6⟩ | ⟨hk2, h6⟩
    · obtain ⟨b, p2, w3, w4, rfl, h7, h8⟩ := step h6
      obtain ⟨ee, rfl, rfl⟩ := gives_nested.mp h7
      cases ee
      rcases gives_ite.mp h8 with ⟨_, h9⟩ | ⟨hnn, _⟩
      · obtain ⟨ee, rfl, rfl⟩ := gives_pure.mp h9
        cases ee
        exact ⟨[], by simp, rfl, .inr (.inl ⟨c, hc, kind_of_isKind (by decide) hk2⟩)⟩
      · exact absurd hn hnn
    · obtain ⟨more, a, b, c⟩ := go h6
      exact ⟨more, a, by simpa using b, c⟩

/-- Inside a block, skipping a bad declaration takes component values, all of which are kept, up to the end, up to (not including) a closing curly
bracket, or up to and including a semicolon. -/
theorem C63_bad_declaration {n : Nat} {vs : List ComponentValue} {p p' : Parser} {w : List Cursor} (hn : p.nested = true)
    (h : Gives (badDeclaration n) p (.ok vs) p' w) : valuesText vs = taken w
      ∧ (p'.atEnd = true ∨ (∃ c, p'.peekNext = .ok c ∧ c.token.kind = .rightCurly)
        ∨ ∃ q c, q.peekNext = .ok c ∧ c.token.kind = .semicolon ∧ ∃ u v, Gives (componentValue n) q (.ok v) p' u ∧ vs.getLast? = some v) := by
  obtain ⟨more, rfl, a, b⟩ := badDeclarationLoop_nested (componentValue_taken n) (componentValue_modes n) n hn h
  exact ⟨a, b⟩

/-- At the top level a closing curly bracket is consumed and lost. -/
theorem C63_bad_declaration_counterexample :
    ((badDeclaration 9).run (Parser.new c!"a}b;")).map (fun r => (r.1.toOption.map fun vs => (ComponentValue.cursorsOf vs).map (·.token.kind), r.2.offset))
      = .ok (some [.ident, .ident, .semicolon], 4) := by decide +kernel

/-- With a space before it, the semicolon that ends a bad declaration is not consumed: the whitespace is taken in its place. -/
theorem C63_bad_declaration_semicolon_counterexample :
    ((badDeclaration 9).run { Parser.new c!"a ;b" with nested := true }).map (fun r => (r.1.toOption.map fun vs => (ComponentValue.cursorsOf vs).map (·.token.kind), r.2.offset))
      = .ok (some [.ident, .whitespace], 2) := by decide +kernel

/-! ### The hypotheses are met -/

example : (do let c ← peek; isDeclaration c).run (Parser.new c!"a /**/ : b") = .ok (.ok true, Parser.new c!"a /**/ : b") := by decide +kernel
example : (do let c ← peek; isDeclaration c).run (Parser.new c!"a b : c") = .ok (.ok false, Parser.new c!"a b : c") := by decide +kernel
example : (do let c ← peek; isBangImportant c).run (Parser.new c!"! /**/IMPortant") = .ok (.ok true, Parser.new c!"! /**/IMPortant") := by decide +kernel
example : ((bangImportant.run (Parser.new c!"! /**/IMPortant")).map fun r => (r.1.toOption.map fun b => (b.bang.offset, b.important.offset)))
    = .ok (some (0, 6)) := by decide +kernel
example : ((atRule (some c!"media") (componentValues 9) (optionalBlock (rule 9) 9)).run (Parser.new c!"@MEDIA x;")).map (fun r => (r.1.toBool, r.2.offset))
    = .ok (true, 9) := by decide +kernel
example : ((atRule (some c!"media") (componentValues 9) (optionalBlock (rule 9) 9)).run (Parser.new c!"@mediu x;")).map (fun r => (r.1.toBool, r.2.offset))
    = .ok (false, 6) := by decide +kernel
example : ((rule 9).run (Parser.new c!"@x y;")).map (fun r => r.1.toOption.map fun r => (atName r).map (·.offset)) = .ok (some (some 0)) := by decide +kernel
example : ((badDeclaration 9).run { Parser.new c!"a (b;);c" with nested := true }).map (fun r => (r.1.toOption.map (·.length), r.2.offset))
    = .ok (some 4, 7) := by decide +kernel

end Hdx

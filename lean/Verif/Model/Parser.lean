/-
Model of css_parse/src/parser.rs, css_parse/src/parser_checkpoint.rs and css_parse/src/traits/parse.rs.

Every `loop` of the code is a recursive function over the lexer. A loop that skips a token of length 0 starts again in the same
state, for ever: that is `Panic.diverges`. `debug_assert!`s and the field `last_cursor`, which exists in debug builds only, are not
modelled. The bump allocator is not modelled.
-/
import Verif.Model.Cursor
import Verif.Lemmas.Text

namespace Hdx

theorem Lexer.advance_ok {l l' : Lexer} {t : Token} (h : l.advance = .ok (t, l')) :
    l' = { l with token := t, offset := l.offset + t.len.toNat } ∧ l.offset ≤ utf8Len l.source := by
  unfold Lexer.advance at h
  split at h
  · cases h
  · rename_i t' hr
    injection h with h; injection h with h1 h2
    subst h1
    refine ⟨h2.symm, ?_⟩
    unfold readNextToken at hr
    split at hr
    · rename_i he
      have : utf8Len l.source = l.offset := by simpa using he
      omega
    · split at hr
      · cases hr
      · rename_i cs hd
        obtain ⟨a, h1, h2⟩ := dropBytes_eq_some hd
        rw [h1]; simp; omega

/-- The measure of every loop: one call of `advance` that returns a token of positive length brings the lexer closer to the end. -/
theorem Lexer.advance_measure {l l' : Lexer} {t : Token} (h : l.advance = .ok (t, l')) (hz : ¬ t.len.toNat = 0) :
    utf8Len l'.source + 1 - l'.offset < utf8Len l.source + 1 - l.offset := by
  obtain ⟨rfl, h⟩ := Lexer.advance_ok h
  simp only
  omega

theorem Lexer.advance_measure_le {l l' : Lexer} {t : Token} (h : l.advance = .ok (t, l')) :
    utf8Len l'.source + 1 - l'.offset ≤ utf8Len l.source + 1 - l.offset := by
  obtain ⟨rfl, h⟩ := Lexer.advance_ok h
  simp only
  omega

/-- The name of a diagnostic (css_parse/src/diagnostics.rs); its text arguments are not modelled. -/
inductive DiagCode where
  | expectedEnd | unexpected | expectedInt | expectedUnsigned | unexpectedIdent | unexpectedCloseCurly | badDeclaration
  | missingAtRuleBlock | missingAtRulePrelude | disallowedAtRulePrelude | disallowedAtRuleBlock | expectedIdent | expectedFunction
  | numberTooSmall | numberTooLarge | numberNotOneOf | unexpectedEnd | other
  deriving DecidableEq, Repr

/-- A diagnostic: its name and its span. -/
structure Diag where
  code : DiagCode
  span : Span
  deriving DecidableEq, Repr

/-- css_parse/src/parser.rs:12-34 `struct Parser`, apart from `bump` and `last_cursor`; `state` is the flag `State::Nested`
(parser.rs:36-41), `source_text` is `lexer.source`. -/
structure Parser where
  lexer : Lexer
  errors : List Diag := []
  trivia : List Cursor := []
  nested : Bool := false
  skip : KindSet := KindSet.TRIVIA
  stop : KindSet := KindSet.NONE
  deriving DecidableEq, Repr

/-- css_parse/src/parser_checkpoint.rs:8-12 `struct ParserCheckpoint`: the two lengths are a `u8` and a `u16`. -/
structure ParserCheckpoint where
  cursor : Cursor
  errorsPos : Nat
  triviaPos : Nat
  deriving DecidableEq, Repr

namespace Parser

/-- css_parse/src/parser.rs:49-64 `Parser::new_with_features`. -/
def newWithFeatures (source : List Char) (f : Features) : Parser := { lexer := Lexer.newWithFeatures source f }
/-- css_parse/src/parser.rs:45-47 `Parser::new`. -/
def new (source : List Char) : Parser := newWithFeatures source {}

/-- css_parse/src/parser.rs:82-86 `set_state` (the new parser; the old value is returned). -/
def setState (p : Parser) (nested : Bool) : Bool × Parser := (p.nested, { p with nested })
/-- css_parse/src/parser.rs:89-93 `set_skip`. -/
def setSkip (p : Parser) (skip : KindSet) : KindSet × Parser := (p.skip, { p with skip })
/-- css_parse/src/parser.rs:96-100 `set_stop`. -/
def setStop (p : Parser) (stop : KindSet) : KindSet × Parser := (p.stop, { p with stop })

/-- css_parse/src/parser.rs:178-180 `offset`. -/
def offset (p : Parser) : Nat := p.lexer.offset
/-- css_parse/src/parser.rs:183-185 `at_end`. -/
def atEnd (p : Parser) : Bool := p.lexer.atEnd

/-- css_parse/src/parser.rs:187-196 `rewind`. -/
def rewind (p : Parser) (c : ParserCheckpoint) : Parser :=
  { p with lexer := p.lexer.rewind c.cursor, errors := p.errors.take c.errorsPos, trivia := p.trivia.take c.triviaPos }

/-- css_parse/src/parser.rs:199-205 `checkpoint`: `as u8` and `as u16` wrap. -/
def checkpoint (p : Parser) : ParserCheckpoint :=
  ⟨p.lexer.checkpoint, p.errors.length % 256, p.trivia.length % 65536⟩

/-- css_parse/src/parser.rs:208-216: the loop of `next_is_stop` (which does not test for Eof). -/
def nextIsStopLoop (skip stop : KindSet) (l : Lexer) : Except Panic Bool :=
  match h : l.advance with
  | .error e => .error e
  | .ok (t, l') =>
    if !skip.contains t.kind then .ok (stop.contains t.kind)
    else if hz : t.len.toNat = 0 then .error .diverges
    else nextIsStopLoop skip stop l'
  termination_by utf8Len l.source + 1 - l.offset
  decreasing_by exact Lexer.advance_measure h hz
/-- css_parse/src/parser.rs:208-216 `next_is_stop`. -/
def nextIsStop (p : Parser) : Except Panic Bool := nextIsStopLoop p.skip p.stop p.lexer

/-- css_parse/src/parser.rs:219-228: the loop of `peek_next`. -/
def peekNextLoop (skip : KindSet) (l : Lexer) : Except Panic Cursor :=
  match h : l.advance with
  | .error e => .error e
  | .ok (t, l') =>
    if t.isKind .eof || !t.inSet skip then .ok ⟨l.offset, t⟩
    else if hz : t.len.toNat = 0 then .error .diverges
    else peekNextLoop skip l'
  termination_by utf8Len l.source + 1 - l.offset
  decreasing_by exact Lexer.advance_measure h hz
/-- css_parse/src/parser.rs:219-228 `peek_next`. -/
def peekNext (p : Parser) : Except Panic Cursor := peekNextLoop p.skip p.lexer

/-- css_parse/src/parser.rs:231-240: the loop of `peek_next_including_whitespace`. -/
def peekNextWsLoop (skip : KindSet) (l : Lexer) : Except Panic Cursor :=
  match h : l.advance with
  | .error e => .error e
  | .ok (t, l') =>
    if t.isKind .eof || t.isKind .whitespace || !t.inSet skip then .ok ⟨l.offset, t⟩
    else if hz : t.len.toNat = 0 then .error .diverges
    else peekNextWsLoop skip l'
  termination_by utf8Len l.source + 1 - l.offset
  decreasing_by exact Lexer.advance_measure h hz
/-- css_parse/src/parser.rs:231-240 `peek_next_including_whitespace`. -/
def peekNextIncludingWhitespace (p : Parser) : Except Panic Cursor := peekNextWsLoop p.skip p.lexer

/-- css_parse/src/parser.rs:242-259: the loop of `peek_n`; `remaining -= 1` below zero is `Panic.underflow`. -/
def peekNLoop (skip : KindSet) (remaining : Nat) (l : Lexer) : Except Panic Cursor :=
  match h : l.advance with
  | .error e => .error e
  | .ok (t, l') =>
    if t.isKind .eof then .ok ⟨l.offset, t⟩
    else if !t.inSet skip then
      match remaining with
      | 0 => .error .underflow
      | 1 => .ok ⟨l.offset, t⟩
      | n + 2 => peekNLoop skip (n + 1) l'
    else if hz : t.len.toNat = 0 then .error .diverges
    else peekNLoop skip remaining l'
  termination_by remaining + (utf8Len l.source + 1 - l.offset)
  decreasing_by
    · have := Lexer.advance_measure_le h; omega
    · have := Lexer.advance_measure h hz; omega
/-- css_parse/src/parser.rs:242-259 `peek_n`; `n` is a `u8`. -/
def peekN (p : Parser) (n : Nat) : Except Panic Cursor := peekNLoop p.skip n p.lexer

/-- css_parse/src/parser.rs:261-274: the loop of `consume_trivia`. -/
def consumeTriviaLoop (skip : KindSet) (l : Lexer) (trivia : List Cursor) : Except Panic (Lexer × List Cursor) :=
  match h : l.advance with
  | .error e => .error e
  | .ok (t, l') =>
    if t.isKind .eof then .ok (l', trivia)
    else if t.inSet skip then
      if hz : t.len.toNat = 0 then .error .diverges
      else consumeTriviaLoop skip l' (trivia ++ [⟨l.offset, t⟩])
    else .ok (l'.rewind ⟨l.offset, t⟩, trivia)
  termination_by utf8Len l.source + 1 - l.offset
  decreasing_by exact Lexer.advance_measure h hz
/-- css_parse/src/parser.rs:261-274 `consume_trivia`. -/
def consumeTrivia (p : Parser) : Except Panic Parser :=
  (consumeTriviaLoop p.skip p.lexer p.trivia).map (fun r => { p with lexer := r.1, trivia := r.2 })

/-- css_parse/src/parser.rs:276-296: the loop of `next`. -/
def nextLoop (skip : KindSet) (l : Lexer) (trivia : List Cursor) : Except Panic (Cursor × Lexer × List Cursor) :=
  match h : l.advance with
  | .error e => .error e
  | .ok (t, l') =>
    if t.isKind .eof || !t.inSet skip then .ok (⟨l.offset, t⟩, l', trivia)
    else if hz : t.len.toNat = 0 then .error .diverges
    else nextLoop skip l' (trivia ++ [⟨l.offset, t⟩])
  termination_by utf8Len l.source + 1 - l.offset
  decreasing_by exact Lexer.advance_measure h hz
/-- css_parse/src/parser.rs:276-296 `next`. -/
def next (p : Parser) : Except Panic (Cursor × Parser) :=
  (nextLoop p.skip p.lexer p.trivia).map (fun r => (r.1, { p with lexer := r.2.1, trivia := r.2.2 }))

end Parser

/-- What `T::parse` does: on a parser, a result or an error, and the parser afterwards (css_parse/src/traits/parse.rs:18-19). -/
abbrev ParseFn (α : Type) := Parser → Except Panic (Except Diag α × Parser)

namespace Parser

/-- css_parse/src/traits/parse.rs:21-24 `try_parse`. -/
def tryParse {α : Type} (parse : ParseFn α) : ParseFn α := fun p =>
  let checkpoint := p.checkpoint
  match parse p with
  | .error e => .error e
  | .ok (.ok a, p') => .ok (.ok a, p')
  | .ok (.error d, p') => .ok (.error d, p'.rewind checkpoint)

/-- css_parse/src/parser.rs:127-133 `parse_if_peek` for a node whose `peek` is the given test. -/
def parseIfPeek {α : Type} (peek : Parser → Cursor → Except Panic Bool) (parse : ParseFn α) : ParseFn (Option α) := fun p =>
  match p.peekNext with
  | .error e => .error e
  | .ok c =>
    match peek p c with
    | .error e => .error e
    | .ok false => .ok (.ok none, p)
    | .ok true => (parse p).map (fun r => (r.1.map some, r.2))

/-- css_parse/src/parser.rs:111-118: the loop of `parse_entirely`: `next` until Eof, every cursor pushed to the trivia. -/
def drainLoop : Nat → Parser → Except Panic Parser
  | 0, _ => .error .diverges
  | n + 1, p =>
    match p.next with
    | .error e => .error e
    | .ok (c, p) =>
      let p := { p with trivia := p.trivia ++ [c] }
      if c.token.isKind .eof then .ok p else drainLoop n p

/-- css_parse/src/parser_return.rs:5-14 `struct ParserReturn`, apart from the source and the flag. -/
structure Return (α : Type) where
  output : Option α
  errors : List Diag
  trivia : List Cursor

/-- css_parse/src/parser.rs:103-109: the output of `parse_entirely`; an error is pushed to the errors. -/
def settle {α : Type} (r : Except Diag α) (p : Parser) : Option α × Parser :=
  match r with
  | .ok a => (some a, p)
  | .error d => (none, { p with errors := p.errors ++ [d] })

/-- css_parse/src/parser.rs:102-121 `parse_entirely`; returns the result and the parser's final lexer. The loop is cut off after as
many turns as there are bytes, plus one: a longer run has had a turn that made no progress, and never ends. -/
def parseEntirely {α : Type} (parse : ParseFn α) (p : Parser) : Except Panic (Return α × Lexer) :=
  match parse p with
  | .error e => .error e
  | .ok (r, p) =>
    let output := (settle r p).1
    let p := (settle r p).2
    if p.atEnd then .ok (⟨output, p.errors, p.trivia⟩, p.lexer)
    else
      match p.peekNext with
      | .error e => .error e
      | .ok c =>
        if c.token.isKind .eof then .ok (⟨output, p.errors, p.trivia⟩, p.lexer)
        else
          let start := p.offset
          match drainLoop (utf8Len p.lexer.source + 2) p with
          | .error e => .error e
          | .ok p => .ok (⟨output, p.errors ++ [⟨.expectedEnd, ⟨start, p.offset⟩⟩], p.trivia⟩, p.lexer)

/-- css_parse/src/traits/parse.rs:27-40 `Parse for T: Peek + Build`: `peek`, then `next`, an `Unexpected` error if the peek failed. -/
def parseBuild {α : Type} (peek : Parser → Cursor → Except Panic Bool) (build : Parser → Cursor → Except Panic α) : ParseFn α := fun p =>
  match p.peekNext with
  | .error e => .error e
  | .ok c =>
    match peek p c with
    | .error e => .error e
    | .ok ok =>
      match p.next with
      | .error e => .error e
      | .ok (c, p) =>
        if ok then (build p c).map (fun a => (.ok a, p)) else .ok (.error ⟨.unexpected, c.span⟩, p)

end Parser
end Hdx

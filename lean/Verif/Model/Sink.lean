/-
Model of the cursor sinks: css_lexer/src/cursor.rs `write_str`, css_parse/src/cursor_fmt_sink.rs and
css_parse/src/cursor_vec_sink.rs.
-/
import Verif.Model.Cursor

namespace Hdx

/-- How Rust formats an `f32` (given by its bits): `{}` and `{:+}`. Rust's float formatting is not modelled; every theorem holds
for any such functions. -/
structure FloatFmt where
  plain : BitVec 32 → List Char
  signed : BitVec 32 → List Char

namespace Cursor

/-- css_lexer/src/cursor.rs:59-105 `write_str`: the strings it passes to the writer, in order, as long as no write fails (every
call is followed by `?`). Simplification: `write!(f, "{}", value)` counts as one write. -/
def writes (fmt : FloatFmt) (c : Cursor) (source : List Char) : Except Panic (List (List Char)) :=
  match c.token.kind with
  | .eof => .ok []
  | .cdcOrCdo => if c.token.isCdc then .ok [c!"-->"] else .ok [c!"<!--"]
  | .number => .ok [if c.token.hasSign then fmt.signed c.token.value else fmt.plain c.token.value]
  | .dimension =>
    if c.token.dimensionUnit = .unknown then (c.strSlice source).map (fun s => [s])
    else .ok [fmt.plain c.token.value, c.token.dimensionUnit.str]
  | .comment | .whitespace | .badString | .badUrl | .ident | .function | .atKeyword | .hash | .string | .url =>
    (c.strSlice source).map (fun s => [s])
  | .delim | .colon | .semicolon | .comma | .leftSquare | .leftParen | .rightSquare | .rightParen | .leftCurly | .rightCurly =>
    match c.token.char with
    | some ch => .ok [[ch]]
    | none => .error .unwrap

end Cursor

/-- An `impl fmt::Write`: each write gives a new state and tells whether it succeeded. -/
structure Writer (σ : Type) where
  write : σ → List Char → σ × Bool

/-- `?` after each write: writes the strings one after the other and stops after the first failure. -/
def Writer.writeAll {σ : Type} (w : Writer σ) (s : σ) : List (List Char) → σ × Bool
  | [] => (s, true)
  | x :: xs =>
    let (s, ok) := w.write s x
    if ok then w.writeAll s xs else (s, false)

/-- css_parse/src/cursor_fmt_sink.rs:10-15 `struct CursorFmtSink`, apart from the source text. -/
structure FmtSink (σ : Type) where
  writer : σ
  lastToken : Option Token := none
  err : Bool := false

namespace FmtSink
/-- css_parse/src/cursor_fmt_sink.rs:17-21 `CursorFmtSink::new`. -/
def new {σ : Type} (writer : σ) : FmtSink σ := { writer }

/-- css_parse/src/cursor_fmt_sink.rs:23-43 `append`. -/
def append {σ : Type} (fmt : FloatFmt) (w : Writer σ) (source : List Char) (s : FmtSink σ) (c : Cursor) :
    Except Panic (FmtSink σ) :=
  if s.err then .ok s
  else
    let sep := match s.lastToken with
      | some last => last.needsSeparatorFor c.token
      | none => false
    let (writer, ok) := if sep then w.write s.writer [' '] else (s.writer, true)
    if !ok then .ok { writer, lastToken := some c.token, err := true }
    else
      match c.writes fmt source with
      | .error p => .error p
      | .ok ws =>
        let (writer, ok) := w.writeAll writer ws
        .ok { writer, lastToken := some c.token, err := !ok }

/-- A sequence of `append` calls. -/
def appendAll {σ : Type} (fmt : FloatFmt) (w : Writer σ) (source : List Char) (s : FmtSink σ) : List Cursor → Except Panic (FmtSink σ)
  | [] => .ok s
  | c :: cs => match s.append fmt w source c with
    | .error p => .error p
    | .ok s => s.appendAll fmt w source cs
end FmtSink

/-- css_parse/src/cursor_vec_sink.rs:6 `SEPARATOR` (`Cursor::dummy`, css_lexer/src/cursor.rs:21-23). -/
def SEPARATOR : Cursor := ⟨DUMMY, Token.SPACE⟩

/-- css_parse/src/cursor_vec_sink.rs:15-17 `struct CursorVecSink`. -/
structure VecSink where
  cursors : List Cursor := []

namespace VecSink
/-- css_parse/src/cursor_vec_sink.rs:25-36 `append`. -/
def append (s : VecSink) (c : Cursor) : VecSink :=
  let cs := match s.cursors.getLast? with
    | some last => if last.token.needsSeparatorFor c.token then s.cursors ++ [SEPARATOR] else s.cursors
    | none => s.cursors
  { cursors := cs ++ [c] }

/-- A sequence of `append` calls. -/
def appendAll (s : VecSink) (cs : List Cursor) : VecSink := cs.foldl append s
end VecSink

end Hdx

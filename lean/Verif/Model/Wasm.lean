/-
Model of crates/csskit_wasm/src/lib.rs. The conversion to values of JavaScript (`serde_wasm_bindgen`) is not modelled: what is modelled is what is converted.
-/
import Verif.Model.Build

namespace Hdx

/-- css_lexer/src/kind.rs:559-586 `Kind::as_str`. -/
def Kind.name : Kind → List Char
  | .eof => "Eof".toList
  | .whitespace => "Whitespace".toList
  | .comment => "Comment".toList
  | .cdcOrCdo => "CdcOrCdo".toList
  | .number => "Number".toList
  | .dimension => "Dimension".toList
  | .badString => "BadString".toList
  | .badUrl => "BadUrl".toList
  | .ident => "Ident".toList
  | .function => "Function".toList
  | .atKeyword => "AtKeyword".toList
  | .hash => "Hash".toList
  | .string => "String".toList
  | .url => "Url".toList
  | .delim => "Delim".toList
  | .colon => "Colon".toList
  | .semicolon => "Semicolon".toList
  | .comma => "Comma".toList
  | .leftSquare => "LeftSquare".toList
  | .rightSquare => "RightSquare".toList
  | .leftParen => "LeftParen".toList
  | .rightParen => "RightParen".toList
  | .leftCurly => "LeftCurly".toList
  | .rightCurly => "RightCurly".toList

/-- What is sent for a token. -/
structure WasmToken where
  kind : List Char
  len : Nat
  unit : Option DimensionUnit
  deriving DecidableEq, Repr

/-- css_lexer/src/token.rs:983-999 `Serialize for Token`. -/
def Token.wasm (t : Token) : WasmToken :=
  ⟨t.kind.name, t.len.toNat, if t.kindBits == Kind.dimension.bits then some t.dimensionUnit else none⟩

/-- crates/csskit_wasm/src/lib.rs:24-30: the loop of `lex`. -/
def wasmLexLoop (l : Lexer) : Except Panic (List Token) :=
  match h : l.advance with
  | .error e => .error e
  | .ok (t, l') =>
    if t.kind = .eof then .ok [t]
    else if hz : t.len.toNat = 0 then .error .diverges
    else (wasmLexLoop l').map (t :: ·)
  termination_by utf8Len l.source + 1 - l.offset
  decreasing_by exact Lexer.advance_measure h hz
/-- crates/csskit_wasm/src/lib.rs:19-32 `lex`. -/
def wasmLex (src : List Char) : Except Panic (List WasmToken) := (wasmLexLoop (Lexer.new src)).map (·.map Token.wasm)

/-- css_parse/src/diagnostics.rs: `Diagnostic::labels`. `UnexpectedEnd` (lines 158-161) has no span, and the span of `UnexpectedCloseCurly` (lines 163-166) is
not marked as a label; all other diagnostics that the parsers use have one label. -/
def Diag.label (d : Diag) : Option Span :=
  if d.code = .unexpectedEnd ∨ d.code = .unexpectedCloseCurly then none else some d.span

/-- crates/csskit_wasm/src/lib.rs:98-105 `struct Diagnostic`; the severity and the message are not modelled, and the code is the name of the diagnostic. -/
structure WasmDiagnostic where
  start : Nat
  stop : Nat
  code : DiagCode
  deriving DecidableEq, Repr

/-- crates/csskit_wasm/src/lib.rs:39-58: the diagnostics of `parse`; an error without a label is left out. -/
def wasmDiagnostics (errors : List Diag) : List WasmDiagnostic :=
  errors.flatMap fun d => (d.label.map fun s => ⟨s.start, s.stop, d.code⟩).toList

/-- crates/csskit_wasm/src/lib.rs:35-37: the style sheet and the errors. -/
def wasmSheet (src : List Char) : Except Panic (Option (List (CssRule Val)) × List Diag) :=
  ((Parser.new src).parseEntirely (cssStyleSheet realValues).run).map fun r => (r.1.output, r.1.errors)

/-- crates/csskit_wasm/src/lib.rs:34-60 `parse`. -/
def wasmParse (src : List Char) : Except Panic (Option (List (CssRule Val)) × List WasmDiagnostic) :=
  (wasmSheet src).map fun r => (r.1, wasmDiagnostics r.2)

/-- css_parse/src/parser_return.rs:27-34 `ToCursors for ParserReturn`: only the output is written. -/
def outputCursors : Option (List (CssRule Val)) → List Cursor
  | some rules => CssRule.cursorsOf realValues rules
  | none => []

/-- crates/csskit_wasm/src/lib.rs:62-73 `minify`; `none` is the error that is returned. -/
def minify (fmt : FloatFmt) (src : List Char) : Except Panic (Option (List Char)) := do
  let (output, errors) ← wasmSheet src
  if !errors.isEmpty then pure none
  else
    let sink ← (FmtSink.new []).appendAll fmt stringSink src (outputCursors output)
    pure (some sink.writer)

end Hdx

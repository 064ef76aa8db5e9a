/-
Counter styles: css_ast/src/types/counter_style.rs, css_ast/src/types/symbols.rs. (No property uses these types yet.)
-/
import Verif.Model.Definitions

namespace Hdx
open Prog

/-- css_ast/src/types/symbols.rs:84-90 `SymbolsType`. -/
def SYMBOLS_TYPES : List (List Char) := [c!"cyclic", c!"numeric", c!"alphabetic", c!"symbolic", c!"fixed"]

/-- css_ast/src/types/symbols.rs:42-46: one symbol of `symbols()`. -/
def symbol : Prog Val := do
  let c ← peek
  if c.token.isKind .string then do
    let v ← piece (isKind .string)
    pure (.variant 0 v)
  else do
    let v ← image
    pure (.variant 1 v)

/-- css_ast/src/types/symbols.rs:35-47: the loop of `Parse for Symbols`. -/
def symbolsLoop : Nat → List Val → Prog (List Val × Option Cursor)
  | 0, _ => .panic .diverges
  | n + 1, vs => do
    if ← atEnd then pure (vs, none)
    else do
      match ← optionalClose with
      | some close => pure (vs, some close)
      | none => do
        let v ← symbol
        symbolsLoop n (vs ++ [v])

/-- css_ast/src/types/symbols.rs:17-21 `Peek for Symbols`. -/
def isSymbols : Cursor → Prog Bool := isNamed c!"symbols"

/-- css_ast/src/types/symbols.rs:23-49 `Parse for Symbols`. -/
def symbols : Prog Val := do
  let f ← namedFunction c!"symbols"
  match ← optionalClose with
  | some close => pure (.fields [.tok f, .opt none, .fields [], .opt (some (.tok close))])
  | none => do
    let type ← optKeyword SYMBOLS_TYPES
    Prog.read fun p => do
      let (vs, close) ← symbolsLoop p.fuel []
      pure (.fields [.tok f, .opt (type.map .tok), .fields vs, .opt (close.map .tok)])

/-- css_ast/src/types/counter_style.rs:43-86 `PredefinedCounter`. -/
def PREDEFINED_COUNTERS : List (List Char) :=
  [c!"decimal", c!"decimal-leading-zero", c!"arabic-indic", c!"armenian", c!"upper-armenian", c!"lower-armenian", c!"bengali", c!"cambodian",
   c!"khmer", c!"cjk-decimal", c!"devanagari", c!"georgian", c!"gujarati", c!"gurmukhi", c!"hebrew", c!"kannada", c!"lao", c!"malayalam",
   c!"mongolian", c!"myanmar", c!"oriya", c!"persian", c!"lower-roman", c!"upper-roman", c!"tamil", c!"telugu", c!"thai", c!"tibetan",
   c!"lower-alpha", c!"upper-alpha", c!"upper-latin", c!"lower-greek", c!"hiragana", c!"hiragana-iroha", c!"katakana", c!"katakana-iroha",
   c!"disc", c!"square", c!"disclousure-open", c!"disclousure-closed", c!"cjk-earthly-branch", c!"cjk-heavenly-stem"]

/-- css_ast/src/types/counter_style.rs:14-18 `Peek for CounterStyle`. -/
def isCounterStyle : Cursor → Prog Bool := either (isKind .ident) isSymbols

/-- css_ast/src/types/counter_style.rs:20-30 `Parse for CounterStyle`. -/
def counterStyle : Prog Val := do
  let c ← peek
  if ← isKeyword PREDEFINED_COUNTERS c then do
    let (_, k) ← keyword PREDEFINED_COUNTERS
    pure (.variant 0 (.tok k))
  else do
    let c ← peek
    if c.token.isKind .ident then do
      let v ← piece (isKind .ident)
      pure (.variant 1 v)
    else do
      let v ← symbols
      pure (.variant 2 v)

end Hdx

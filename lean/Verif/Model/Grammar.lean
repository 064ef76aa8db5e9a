/-
The generic CSS grammar of css_parse (css_parse/src/syntax, css_parse/src/traits), as programs over the parser.

Recursive parsers and loops carry a fuel counter and stop with `Panic.diverges` when it is used up; the theorems in
Verif/Props/Grammar.lean show that with the fuel given to them they never do on the sources the lexer handles.
-/
import Verif.Model.Prog
import Verif.Model.Cursor

namespace Hdx
namespace Prog

/-- Runs the first program, then the second one on its result or its error, whichever it returned. -/
def bindE : {α β : Type} → Prog α → (Except Diag α → Prog β) → Prog β
  | _, _, ret r, f => f r
  | _, _, panic e, _ => panic e
  | _, _, read k, f => read fun p => bindE (k p) f
  | _, _, next k, f => next fun c => bindE (k c) f
  | _, _, consumeTrivia k, f => consumeTrivia (bindE k f)
  | _, _, setSkip s k, f => setSkip s fun o => bindE (k o) f
  | _, _, setStop s k, f => setStop s fun o => bindE (k o) f
  | _, _, setState s k, f => setState s fun o => bindE (k o) f
  | _, _, attempt body keep k, f => attempt body keep fun r => bindE (k r) f

/-- The operator `?`: an error is passed on. -/
def bind {α β : Type} (x : Prog α) (f : α → Prog β) : Prog β :=
  bindE x fun r => match r with
    | .ok a => f a
    | .error d => ret (.error d)

instance : Monad Prog where
  pure a := ret (.ok a)
  bind := bind

/-- The result of a program as a value (a `Result` that is not followed by `?`). -/
def result {α : Type} (x : Prog α) : Prog (Except Diag α) := bindE x fun r => ret (.ok r)

/-- A `Result` followed by `?`. -/
def ofResult {α : Type} (r : Except Diag α) : Prog α := ret r

/-- Something that is computed from the parser and does not change it. -/
def ask {α : Type} (f : Parser → Except Panic α) : Prog α :=
  read fun p => match f p with
    | .ok a => ret (.ok a)
    | .error e => panic e

/-- css_parse/src/parser.rs:219-228 `peek_next`. -/
def peek : Prog Cursor := ask Parser.peekNext
/-- css_parse/src/parser.rs:243-258 `peek_n`. -/
def peekN (n : Nat) : Prog Cursor := ask fun p => p.peekN n
/-- css_parse/src/parser.rs:183-185 `at_end`. -/
def atEnd : Prog Bool := ask fun p => .ok p.atEnd
/-- css_parse/src/parser.rs:178-180 `offset`. -/
def offset : Prog Nat := ask fun p => .ok p.offset
/-- css_parse/src/parser.rs:208-216 `next_is_stop`. -/
def nextIsStop : Prog Bool := ask Parser.nextIsStop
/-- css_parse/src/parser.rs:77-79 `is(State::Nested)`. -/
def isNested : Prog Bool := ask fun p => .ok p.nested
/-- css_parse/src/parser.rs:276-296 `next`. -/
def take : Prog Cursor := next fun c => ret (.ok c)
/-- `Err(diagnostics::X(.., c.into()))?` -/
def fail {α : Type} (code : DiagCode) (c : Cursor) : Prog α := ret (.error ⟨code, c.span⟩)

/-- css_parse/src/traits/parse.rs:27-40: `Parse` of a node with `Peek` and `Build`. -/
def tok (test : Cursor → Prog Bool) : Prog Cursor := do
  let c ← peek
  let ok ← test c
  let c ← take
  if ok then pure c else fail .unexpected c

/-- css_parse/src/parser.rs:127-133 `parse_if_peek`. -/
def ifPeek {α : Type} (test : Cursor → Prog Bool) (body : Prog α) : Prog (Option α) := do
  let c ← peek
  let ok ← test c
  if ok then do
    let a ← body
    pure (some a)
  else pure none

/-- css_parse/src/traits/parse.rs:21-24 `try_parse`. -/
def tryParse {α : Type} (body : Prog α) : Prog α := attempt body (fun r => r.toBool) ofResult

/-- css_parse/src/token_macros.rs: the `Peek` of the nodes for one kind of token. -/
def isKind (k : Kind) (c : Cursor) : Prog Bool := pure (c.token.isKind k)
/-- css_parse/src/traits/peek.rs:11-13 `Peek::peek` with a `PEEK_KINDSET`. -/
def inSet (s : KindSet) (c : Cursor) : Prog Bool := pure (c.token.inSet s)
/-- css_parse/src/token_macros.rs `custom_delim`: its `Peek`. -/
def isDelim (ch : Char) (c : Cursor) : Prog Bool := pure (c.token.isKind .delim && c.token.isChar ch)

/-- css_parse/src/token_macros.rs `Peek for Whitespace`: it ignores the cursor and peeks by itself. -/
def isWs (_ : Cursor) : Prog Bool := ask fun p => p.peekNextIncludingWhitespace.map fun c => c.token.isKind .whitespace
/-- css_parse/src/token_macros.rs `Parse for Whitespace`. -/
def whitespace : Prog Cursor :=
  setSkip KindSet.COMMENTS fun skip => next fun c => setSkip skip fun _ =>
    if c.token.isKind .whitespace then pure c else fail .unexpected c

end Prog

open Prog

/-! ### Component values -/

/-- css_parse/src/syntax/component_value.rs:14-29 `ComponentValue`, simple_block.rs:6-11 `SimpleBlock`, function_block.rs:6-10
`FunctionBlock`. The variants holding one cursor are one constructor here: the kind of the cursor tells which variant it is. -/
inductive ComponentValue where
  | simpleBlock (start : Nat) (opening : Token) (values : List ComponentValue) (close : Option Token)
  | function (name : Cursor) (values : List ComponentValue) (close : Option Cursor)
  | token (c : Cursor)
  deriving Repr

/-- css_parse/src/token_macros.rs `PEEK_KINDSET` of `PairWiseStart`. -/
def PAIR_START : KindSet := KindSet.new [.leftCurly, .leftSquare, .leftParen]
/-- css_parse/src/token_macros.rs `PEEK_KINDSET` of `PairWiseEnd`. -/
def PAIR_END : KindSet := KindSet.new [.rightCurly, .rightSquare, .rightParen]
/-- css_parse/src/token_macros.rs `PairWiseStart::end`. -/
def pairEnd : Kind → Kind
  | .leftCurly => .rightCurly
  | .leftParen => .rightParen
  | .leftSquare => .rightSquare
  | k => k

/-- css_parse/src/syntax/component_value.rs:33-52: the kindset in `Peek for ComponentValue`. -/
def CV_KINDS : KindSet := KindSet.new [.whitespace, .number, .dimension, .ident, .atKeyword, .hash, .string, .url, .delim, .colon,
  .semicolon, .comma, .function, .leftCurly, .leftParen, .leftSquare]
/-- css_parse/src/syntax/component_value.rs:65-90: the kinds that are parsed to a single cursor. -/
def CV_TOKENS : KindSet := KindSet.new [.number, .dimension, .ident, .atKeyword, .hash, .string, .url, .delim, .colon, .semicolon,
  .comma]

/-- css_parse/src/syntax/component_values.rs:16-32: the loop of `Parse for ComponentValues`. -/
def componentValuesLoop (item : Prog ComponentValue) : Nat → List ComponentValue → Prog (List ComponentValue)
  | 0, _ => .panic .diverges
  | n + 1, values => do
    if ← atEnd then pure values
    else if ← nextIsStop then pure values
    else
      let c ← peek
      if c.token.inSet CV_KINDS then do
        let v ← item
        componentValuesLoop item n (values ++ [v])
      else pure values

/-- css_parse/src/syntax/function_block.rs:15-25: the loop of `Parse for FunctionBlock`. -/
def functionLoop (item : Prog ComponentValue) : Nat → List ComponentValue → Prog (List ComponentValue)
  | 0, _ => .panic .diverges
  | n + 1, values => do
    if ← atEnd then pure values
    else
      let c ← peek
      if c.token.isKind .rightParen then pure values
      else do
        let v ← item
        functionLoop item n (values ++ [v])

/-- `.ok()` -/
def okOf {α : Type} : Except Diag α → Option α
  | .ok a => some a
  | .error _ => none

/-- css_parse/src/syntax/function_block.rs:13-27 `Parse for FunctionBlock`. -/
def functionBlock (item : Prog ComponentValue) (fuel : Nat) : Prog ComponentValue := do
  let name ← tok (isKind .function)
  let values ← functionLoop item fuel []
  let close ← result (tok (isKind .rightParen))
  pure (.function name values (okOf close))

/-- css_parse/src/syntax/simple_block.rs:15-27 `Parse for SimpleBlock`. The nodes `PairWiseStart` and `PairWiseEnd` keep the token
only, not the cursor. -/
def simpleBlock (item : Prog ComponentValue) (fuel : Nat) : Prog ComponentValue := do
  let start ← offset
  let opening ← tok (inSet PAIR_START)
  setStop (KindSet.new [pairEnd opening.token.kind]) fun stop => do
    let values ← result (componentValuesLoop item fuel [])
    setStop stop fun _ => do
      let values ← ofResult values
      let c ← peek
      if c.token.inSet PAIR_END then do
        let close ← result (tok (inSet PAIR_END))
        pure (.simpleBlock start opening.token values ((okOf close).map (·.token)))
      else pure (.simpleBlock start opening.token values none)

/-- css_parse/src/syntax/component_value.rs:56-97 `Parse for ComponentValue`. (The code peeks anew for every alternative; peeking
does not change the parser.) -/
def componentValue : Nat → Prog ComponentValue
  | 0 => .panic .diverges
  | n + 1 => do
    let c ← peek
    if ← isWs c then do
      let c ← whitespace
      pure (.token c)
    else if c.token.inSet PAIR_START then
      setState true fun old => do
        let block ← result (simpleBlock (componentValue n) n)
        setState old fun _ => ofResult block
    else if c.token.isKind .function then functionBlock (componentValue n) n
    else if c.token.inSet CV_TOKENS then do
      let c ← tok (inSet CV_TOKENS)
      pure (.token c)
    else do
      let c ← take
      fail .unexpected c

/-- css_parse/src/syntax/component_values.rs:14-33 `Parse for ComponentValues`. -/
def componentValues (fuel : Nat) : Prog (List ComponentValue) := componentValuesLoop (componentValue fuel) fuel []

/-- Fuel that is enough for a parser (see the top of the file). -/
def Parser.fuel (p : Parser) : Nat := utf8Len p.lexer.source + 2

/-- css_lexer/src/cursor.rs:24-26 `Cursor::dummy`. -/
def Cursor.dummy (t : Token) : Cursor := ⟨DUMMY, t⟩

mutual
/-- `ToCursors for ComponentValue`: css_parse/src/syntax/component_value.rs:99-118, simple_block.rs:29-37, function_block.rs:29-39. -/
def ComponentValue.cursors : ComponentValue → List Cursor
  | .simpleBlock start opening values close => ⟨start, opening⟩ :: (cursorsOf values ++ (close.map Cursor.dummy).toList)
  | .function name values close => name :: (cursorsOf values ++ close.toList)
  | .token c => [c]
/-- css_parse/src/syntax/component_values.rs:41-47 `ToCursors for ComponentValues`. -/
def ComponentValue.cursorsOf : List ComponentValue → List Cursor
  | [] => []
  | v :: vs => v.cursors ++ cursorsOf vs
end

end Hdx

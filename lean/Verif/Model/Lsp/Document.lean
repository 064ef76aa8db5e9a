/-
Documents of the language server: csskit_lsp/src/service.rs.
-/
import Verif.Model.Cursor

namespace Hdx.Lsp

/-! ### Semantic tokens -/

/-- csskit_highlight/src/lib.rs:78-83 `Highlight`; kind and modifier as numbers. -/
structure Highlight where
  kind : Nat
  modifier : Nat
  span : Span
  deriving DecidableEq, Repr

/-- css_lexer/src/span.rs:8: the derived `Ord` of spans, `<=`. -/
def spanLe (a b : Span) : Bool := a.start < b.start || (a.start == b.start && a.stop ≤ b.stop)

/-- csskit_lsp/src/service.rs:81-97: the closure over the sorted highlights: the highlight with `delta_line` and `delta_start`. -/
def deltas (source : List Char) : (currentLine currentStart : Nat) → List Highlight → Except Panic (List (Highlight × Nat × Nat))
  | _, _, [] => .ok []
  | currentLine, currentStart, h :: hs =>
    match h.span.lineAndColumn source with
    | .error e => .error e
    | .ok (line, start) =>
      if line < currentLine then .error .underflow
      else
        let deltaLine := line - currentLine
        if deltaLine == 0 && start < currentStart then .error .underflow
        else
          let deltaStart := if deltaLine == 0 then start - currentStart else start
          (deltas source line start hs).map fun r => (h, deltaLine, deltaStart) :: r

/-- csskit_lsp/src/service.rs:78-98: the highlights, sorted by span, with their deltas. The highlights come out of a hash map, in any
order. -/
def highlightData (source : List Char) (hs : List Highlight) : Except Panic (List (Highlight × Nat × Nat)) :=
  deltas source 0 0 (hs.mergeSort fun a b => spanLe a.span b.span)

/-! ### Edits -/

/-- ropey's line breaks (feature `unicode_lines`, which is on by default): line feed, carriage return, VT, FF, NEL, LS, PS. -/
def isRopeBreak (c : Char) : Bool :=
  c == '\n' || c == '\r' || c == '\x0b' || c == '\x0c' || c == '\u0085' || c == '\u2028' || c == '\u2029'

/-- ropey's `Rope::try_line_to_char`: the index of the character that starts a line; one past the last line is the end of the text,
`none` (an error) beyond. -/
def lineToChar : Nat → List Char → Option Nat
  | 0, _ => some 0
  | 1, [] => some 0
  | _ + 2, [] => none
  | n + 1, '\r' :: '\n' :: rest => (lineToChar n rest).map (· + 2)
  | n + 1, c :: rest => if isRopeBreak c then (lineToChar n rest).map (· + 1) else (lineToChar (n + 1) rest).map (· + 1)

/-- ropey's `try_remove`, `.ok()`: unchanged if it fails. -/
def tryRemove (text : List Char) (start : Nat) (stop : Option Nat) : List Char :=
  let stop := stop.getD text.length
  if start ≤ stop ∧ stop ≤ text.length then text.take start ++ text.drop stop else text

/-- ropey's `try_insert`, `.ok()`: unchanged if it fails. -/
def tryInsert (text : List Char) (start : Nat) (new : List Char) : List Char :=
  if start ≤ text.length then text.take start ++ new ++ text.drop start else text

/-- A position as in the protocol: line and character. -/
structure Position where
  line : Nat
  character : Nat
  deriving DecidableEq, Repr

/-- A content change as in the protocol. -/
structure Change where
  range : Option (Position × Position)
  text : List Char
  deriving Repr

/-- csskit_lsp/src/service.rs:290-305: the range in characters. -/
def changeRange (text : List Char) (c : Change) : Nat × Option Nat :=
  match c.range with
  | none => (0, none)
  | some (s, e) =>
    match lineToChar s.line text with
    | none => (0, none)
    | some start =>
      match lineToChar e.line text with
      | none => (start + s.character, none)
      | some stop => (start + s.character, some (stop + e.character))

/-- csskit_lsp/src/service.rs:289-315: one round of the loop. -/
def applyChange (text : List Char) (c : Change) : List Char :=
  let range := changeRange text c
  tryInsert (tryRemove text range.1 range.2) range.1 c.text

/-- A notification about a document. -/
inductive DocEvent where
  | didOpen (uri : String) (text : List Char)
  | didChange (uri : String) (changes : List Change)

/-- csskit_lsp/src/service.rs:265-318 `on_did_open_text_document`, `on_did_change_text_document`: the contents of the files, by
URI. -/
def docStep (files : String → Option (List Char)) : DocEvent → String → Option (List Char)
  | .didOpen uri text => fun u => if u = uri then some text else files u
  | .didChange uri changes => fun u => if u = uri then (files u).map fun text => changes.foldl applyChange text else files u

/-- A sequence of notifications. -/
def docRun (events : List DocEvent) (files : String → Option (List Char)) : String → Option (List Char) := events.foldl docStep files

/-! ### The document thread -/

/-- What a client of `File` does: `commit` or `get_highlights`. -/
inductive FileOp where
  | commit (text : List Char)
  | highlights

/-- The caller of `File`: what it still has to do, whether it waits for a reply (csskit_lsp/src/service.rs:114-121), and the replies
it got. -/
structure Caller (η : Type) where
  ops : List FileOp
  waiting : Bool
  got : List η

/-- csskit_lsp/src/service.rs:54-104: the thread: waiting for a call, with the text that was parsed last; parsing a text; highlighting;
sending a reply. -/
inductive Worker (η : Type) where
  | idle (text : List Char)
  | parsing (text : List Char)
  | highlighting (text : List Char)
  | sending (text : List Char) (reply : η)

/-- The steps of the two threads. The channels have no buffer: a send and the matching receive are one step. `parse` is the result of
`parse_entirely` (`output`) as far as it is used, `highlight` what is computed from it. -/
inductive FileStep {π η : Type} (parse : List Char → Option π) (highlight : List Char → π → η) : Caller η × Worker η → Caller η × Worker η → Prop
  /-- service.rs:109-112 `commit` with :61-72 -/
  | commit {t old ops got} : FileStep parse highlight (⟨.commit t :: ops, false, got⟩, .idle old) (⟨ops, false, got⟩, .parsing t)
  /-- service.rs:68-72 -/
  | parsed {t c} : FileStep parse highlight (c, .parsing t) (c, .idle t)
  /-- service.rs:115 -/
  | ask {t ops got} : FileStep parse highlight (⟨.highlights :: ops, false, got⟩, .idle t) (⟨ops, true, got⟩, .highlighting t)
  /-- service.rs:77-98 -/
  | highlighted {t c o} : parse t = some o → FileStep parse highlight (c, .highlighting t) (c, .sending t (highlight t o))
  /-- service.rs:77 without an output -/
  | skipped {t c} : parse t = none → FileStep parse highlight (c, .highlighting t) (c, .idle t)
  /-- service.rs:99 with :116-120 -/
  | reply {t r ops got} : FileStep parse highlight (⟨ops, true, got⟩, .sending t r) (⟨ops, false, got ++ [r]⟩, .idle t)

end Hdx.Lsp

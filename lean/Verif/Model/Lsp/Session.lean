/-
The document threads and the message handler together, with panics: csskit_lsp/src/service.rs.
-/
import Verif.Model.Lsp.Document
import Verif.Model.Token

namespace Hdx.Lsp

/-- The messages about documents: the notifications, and the request for the semantic tokens of a document. -/
inductive DocMessage where
  | event (e : DocEvent)
  | tokens (uri : String)

/-- The replies to such a request: highlights; `vec![]` (csskit_lsp/src/service.rs:126); an error (csskit_lsp/src/service.rs:252). -/
inductive Answer (η : Type) where
  | highlights (data : η)
  | empty
  | noFile

/-- csskit_lsp/src/service.rs:54-104: what a document thread does: it parses a text; it waits for a call, having parsed a text; it computes the highlights of
the text parsed last; it sends them. A thread that has panicked is gone, and with it its ends of both channels. -/
inductive Thread (η : Type) where
  | parsing (text : List Char)
  | idle (text : List Char)
  | highlighting (text : List Char)
  | sending (text : List Char) (data : η)
  | gone

/-- What the message handler does: it takes the next message (or waits for one); it is in `sender.send(RopeChange(..)).unwrap()` of the file
(csskit_lsp/src/service.rs:115); in `sender.send(Highlight).unwrap()` (line 120); in `receiver.recv()` (line 121). A handler that has panicked takes no more
messages. -/
inductive Doing where
  | ready
  | committing (uri : String)
  | asking (uri : String)
  | waiting (uri : String)
  | panicked

/-- csskit_lsp/src/service.rs:36-43 `File`: the text and the thread. -/
structure DocFile (η : Type) where
  content : List Char
  thread : Thread η

/-- The state of all threads: the messages that are still to come, the files, what the handler does, and what it has replied. -/
structure Session (η : Type) where
  messages : List DocMessage
  files : String → Option (DocFile η)
  doing : Doing
  answers : List (Answer η)

/-- The map of files with another file. -/
def putFile {η : Type} (files : String → Option (DocFile η)) (uri : String) (file : DocFile η) : String → Option (DocFile η) :=
  fun u => if u = uri then some file else files u

/-- The steps of the threads. A send and the matching receive are one step (the channels have no buffer); a send to a thread that is gone fails, and so does a
receive from it. A thread whose file was replaced is not followed any further: nobody has the other ends of its channels. `parse` is `parse_entirely`
(`output`), `highlight` what is computed from it. -/
inductive SessionStep {π η : Type} (parse : List Char → Except Panic (Option π)) (highlight : List Char → π → Except Panic η) : Session η → Session η → Prop
  /-- service.rs:265-273 up to `doc.commit`: the new thread starts with the empty text (service.rs:57-60). The file is put into the map here already (line 274 does
  it after the commit): the handler does not look at the map between. -/
  | opened {uri text ms files answers} : SessionStep parse highlight ⟨.event (.didOpen uri text) :: ms, files, .ready, answers⟩
      ⟨ms, putFile files uri ⟨text, .parsing []⟩, .committing uri, answers⟩
  /-- service.rs:278-318: a file that is known -/
  | changed {uri changes ms files answers file} : files uri = some file →
      SessionStep parse highlight ⟨.event (.didChange uri changes) :: ms, files, .ready, answers⟩
        ⟨ms, putFile files uri ⟨changes.foldl applyChange file.content, file.thread⟩, .committing uri, answers⟩
  /-- service.rs:281: a file that is not known -/
  | unchanged {uri changes ms files answers} : files uri = none →
      SessionStep parse highlight ⟨.event (.didChange uri changes) :: ms, files, .ready, answers⟩ ⟨ms, files, .ready, answers⟩
  /-- service.rs:232-238 -/
  | asked {uri ms files answers file} : files uri = some file →
      SessionStep parse highlight ⟨.tokens uri :: ms, files, .ready, answers⟩ ⟨ms, files, .asking uri, answers⟩
  /-- service.rs:251-253 -/
  | unknown {uri ms files answers} : files uri = none →
      SessionStep parse highlight ⟨.tokens uri :: ms, files, .ready, answers⟩ ⟨ms, files, .ready, answers ++ [.noFile]⟩
  /-- service.rs:115 with :61-63 -/
  | committed {uri ms files answers content old} : files uri = some ⟨content, .idle old⟩ →
      SessionStep parse highlight ⟨ms, files, .committing uri, answers⟩ ⟨ms, putFile files uri ⟨content, .parsing content⟩, .ready, answers⟩
  /-- service.rs:115 `unwrap` -/
  | commitFails {uri ms files answers content} : files uri = some ⟨content, .gone⟩ →
      SessionStep parse highlight ⟨ms, files, .committing uri, answers⟩ ⟨ms, files, .panicked, answers⟩
  /-- service.rs:120 with :61, 75 -/
  | ask {uri ms files answers content text} : files uri = some ⟨content, .idle text⟩ →
      SessionStep parse highlight ⟨ms, files, .asking uri, answers⟩ ⟨ms, putFile files uri ⟨content, .highlighting text⟩, .waiting uri, answers⟩
  /-- service.rs:120 `unwrap` -/
  | askFails {uri ms files answers content} : files uri = some ⟨content, .gone⟩ →
      SessionStep parse highlight ⟨ms, files, .asking uri, answers⟩ ⟨ms, files, .panicked, answers⟩
  /-- service.rs:121-124 with :99 -/
  | reply {uri ms files answers content text data} : files uri = some ⟨content, .sending text data⟩ →
      SessionStep parse highlight ⟨ms, files, .waiting uri, answers⟩ ⟨ms, putFile files uri ⟨content, .idle text⟩, .ready, answers ++ [.highlights data]⟩
  /-- service.rs:121, 126: the thread is gone -/
  | replyFails {uri ms files answers content} : files uri = some ⟨content, .gone⟩ →
      SessionStep parse highlight ⟨ms, files, .waiting uri, answers⟩ ⟨ms, files, .ready, answers ++ [.empty]⟩
  /-- service.rs:60, 68-72 -/
  | parsed {uri ms files doing answers content text o} : files uri = some ⟨content, .parsing text⟩ → parse text = .ok o →
      SessionStep parse highlight ⟨ms, files, doing, answers⟩ ⟨ms, putFile files uri ⟨content, .idle text⟩, doing, answers⟩
  /-- a panic of the parser (`diverges` is no panic: then the thread never leaves `parsing`) -/
  | parsePanics {uri ms files doing answers content text e} : files uri = some ⟨content, .parsing text⟩ → parse text = .error e → e ≠ .diverges →
      SessionStep parse highlight ⟨ms, files, doing, answers⟩ ⟨ms, putFile files uri ⟨content, .gone⟩, doing, answers⟩
  /-- service.rs:77-98 -/
  | highlighted {uri ms files doing answers content text o data} : files uri = some ⟨content, .highlighting text⟩ → parse text = .ok (some o) →
      highlight text o = .ok data → SessionStep parse highlight ⟨ms, files, doing, answers⟩ ⟨ms, putFile files uri ⟨content, .sending text data⟩, doing, answers⟩
  /-- service.rs:77 without an output: nothing is sent -/
  | skipped {uri ms files doing answers content text} : files uri = some ⟨content, .highlighting text⟩ → parse text = .ok none →
      SessionStep parse highlight ⟨ms, files, doing, answers⟩ ⟨ms, putFile files uri ⟨content, .idle text⟩, doing, answers⟩
  /-- a panic of the highlighter -/
  | highlightPanics {uri ms files doing answers content text o e} : files uri = some ⟨content, .highlighting text⟩ → parse text = .ok (some o) →
      highlight text o = .error e → e ≠ .diverges → SessionStep parse highlight ⟨ms, files, doing, answers⟩ ⟨ms, putFile files uri ⟨content, .gone⟩, doing, answers⟩

/-- csskit_lsp/src/service.rs:137-142 `LSPService::new`: no files. -/
def Session.new {η : Type} (messages : List DocMessage) : Session η := ⟨messages, fun _ => none, .ready, []⟩

/-- Any number of steps of the threads, in any order. -/
inductive SessionSteps {π η : Type} (parse : List Char → Except Panic (Option π)) (highlight : List Char → π → Except Panic η) : Nat → Session η → Session η → Prop
  | refl {s} : SessionSteps parse highlight 0 s s
  | tail {n s t u} : SessionSteps parse highlight n s t → SessionStep parse highlight t u → SessionSteps parse highlight (n + 1) s u

end Hdx.Lsp

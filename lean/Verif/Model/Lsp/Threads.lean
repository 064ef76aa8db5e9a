/-
The threads of `csskit lsp`: csskit_lsp/src/server.rs, csskit_lsp/src/jsonrpc/tracing_layer.rs, csskit/src/main.rs:139-150.

Three threads - the reader of stdin, the handler of the messages, the writer to stdout - pass messages over two channels of capacity
zero (a send waits for a receive). The main thread waits for the reader only; when it returns, the process is over, whatever the other
threads are doing. The `Server` keeps a sender and a receiver of each channel, so no channel is ever disconnected: a send without a
receiver waits for ever.

Simplified: a panic of the handler is not modelled here (see Model/Lsp/Session.lean), nor the text of the log notifications.
-/
import Verif.Model.Lsp.Server

namespace Hdx.Lsp

/-- csskit_lsp/src/server.rs:70-76: the levels that the handler thread sets (tracing's `LevelFilter` `OFF`, `WARN`, `TRACE`). -/
inductive TraceLevel where
  | off
  | warn
  | trace
  deriving DecidableEq, Repr

/-- serde's derived `Deserialize` of lsp-types' `TraceValue`: a string, or an object with the name of the variant and null. -/
def traceValueOfJson : Json → Option TraceLevel
  | .str "off" => some .off
  | .str "messages" => some .warn
  | .str "verbose" => some .trace
  | .obj [("off", .null)] => some .off
  | .obj [("messages", .null)] => some .warn
  | .obj [("verbose", .null)] => some .trace
  | _ => none

/-- csskit_lsp/src/server.rs:70-76: the level for the parameters of `$/setTrace`. -/
def traceLevelOf (params : Json) : TraceLevel :=
  match structFields 1 ["value"] params with
  | .ok [some value] => (traceValueOfJson value).getD .off
  | _ => .off

/-- csskit_lsp/src/server.rs:63-81: the level after a message. -/
def levelAfter (level : TraceLevel) : Message → TraceLevel
  | .notification n => if n.method == "$/setTrace" then traceLevelOf n.params else level
  | _ => level

/-- The levels of tracing's events. -/
inductive EventLevel where
  | error
  | warn
  | info
  | debug
  | trace
  deriving DecidableEq, Repr

/-- csskit_lsp/src/jsonrpc/tracing_layer.rs:74: an event is not filtered (`!(event.level > level)`). -/
def TraceLevel.shows : TraceLevel → EventLevel → Bool
  | .off, _ => false
  | .warn, .error => true
  | .warn, .warn => true
  | .warn, _ => false
  | .trace, _ => true

/-- csskit_lsp/src/jsonrpc/tracing_layer.rs:82-110: the method of the notification for an event. -/
def EventLevel.method : EventLevel → String
  | .error => "window/logMessage"
  | .warn => "window/logMessage"
  | .info => "window/logMessage"
  | .debug => "$/logTrace"
  | .trace => "$/logTrace"

/-- csskit_lsp/src/server.rs:111-119: the thread `LspReader`: in `Message::read`, in `read_sender.send`, or at its end. -/
inductive ReaderThread where
  | reading
  | sending (m : Message)
  | done

/-- csskit_lsp/src/server.rs:59-88: the thread `LspMessageHandler`: in `handler_receiver.recv`, in `handler.handle`, in
`handler_sender.send`, or at its end. -/
inductive HandlerThread (σ : Type) where
  | receiving (s : σ)
  | handling (m : Message) (s : σ)
  | replying (reply : Message) (s : σ)
  | closed

/-- csskit_lsp/src/server.rs:102-109: the thread `LspWriter`: in `write_receiver.recv`, in `message.write`, or at its end after the
writing of a message failed. -/
inductive WriterThread where
  | receiving
  | writing (m : Message)
  | failed (m : Message)

/-- The process: the messages that are still to be read from stdin, whether stdin is closed (or malformed) after them, the threads,
the trace level, the messages written to stdout, and whether the process is over. -/
structure LspProcess (σ : Type) where
  input : List Message
  ends : Bool
  reader : ReaderThread
  handler : HandlerThread σ
  writer : WriterThread
  level : TraceLevel
  output : List Message
  exited : Bool

/-- csskit_lsp/src/server.rs:50-94, 100-121: the process at its start. -/
def LspProcess.start {σ : Type} (input : List Message) (ends : Bool) (s : σ) : LspProcess σ :=
  ⟨input, ends, .reading, .receiving s, .receiving, .off, [], false⟩

/-- One step of one thread, or of two threads that meet at a channel. -/
inductive ProcessStep {σ : Type} (h : Handler σ) : LspProcess σ → LspProcess σ → Prop where
  /-- csskit_lsp/src/server.rs:113: `Message::read` returns a message. -/
  | read {m : Message} {ms : List Message} {ends : Bool} {ht : HandlerThread σ} {w : WriterThread} {l : TraceLevel} {out : List Message} :
      ProcessStep h ⟨m :: ms, ends, .reading, ht, w, l, out, false⟩ ⟨ms, ends, .sending m, ht, w, l, out, false⟩
  /-- csskit_lsp/src/server.rs:113, 118: it returns nothing, or an error. -/
  | finished {ht : HandlerThread σ} {w : WriterThread} {l : TraceLevel} {out : List Message} :
      ProcessStep h ⟨[], true, .reading, ht, w, l, out, false⟩ ⟨[], true, .done, ht, w, l, out, false⟩
  /-- csskit/src/main.rs:149: the main thread joins the reader and returns. -/
  | exits {ms : List Message} {ends : Bool} {ht : HandlerThread σ} {w : WriterThread} {l : TraceLevel} {out : List Message} :
      ProcessStep h ⟨ms, ends, .done, ht, w, l, out, false⟩ ⟨ms, ends, .done, ht, w, l, out, true⟩
  /-- csskit_lsp/src/server.rs:60, 66-81, 114: a message goes from the reader to the handler, which sets the trace level. -/
  | takes {m : Message} {ms : List Message} {ends : Bool} {s : σ} {w : WriterThread} {l : TraceLevel} {out : List Message} :
      m.isExitNotification = false →
      ProcessStep h ⟨ms, ends, .sending m, .receiving s, w, l, out, false⟩ ⟨ms, ends, .reading, .handling m s, w, levelAfter l m, out, false⟩
  /-- csskit_lsp/src/server.rs:63-65: the message is `exit`: the thread ends. -/
  | closes {m : Message} {ms : List Message} {ends : Bool} {s : σ} {w : WriterThread} {l : TraceLevel} {out : List Message} :
      m.isExitNotification = true →
      ProcessStep h ⟨ms, ends, .sending m, .receiving s, w, l, out, false⟩ ⟨ms, ends, .reading, .closed, w, l, out, false⟩
  /-- csskit_lsp/src/server.rs:82: the message is handled, without a reply. -/
  | handled {m : Message} {ms : List Message} {ends : Bool} {r : ReaderThread} {s : σ} {w : WriterThread} {l : TraceLevel} {out : List Message} :
      (h.handle m s).reply = none →
      ProcessStep h ⟨ms, ends, r, .handling m s, w, l, out, false⟩ ⟨ms, ends, r, .receiving (h.handle m s).state, w, l, out, false⟩
  /-- csskit_lsp/src/server.rs:82-84: the message is handled, with a reply. -/
  | answered {m reply : Message} {ms : List Message} {ends : Bool} {r : ReaderThread} {s : σ} {w : WriterThread} {l : TraceLevel} {out : List Message} :
      (h.handle m s).reply = some reply →
      ProcessStep h ⟨ms, ends, r, .handling m s, w, l, out, false⟩ ⟨ms, ends, r, .replying reply (h.handle m s).state, w, l, out, false⟩
  /-- csskit_lsp/src/server.rs:84, 104: a reply goes from the handler to the writer. -/
  | replies {reply : Message} {ms : List Message} {ends : Bool} {r : ReaderThread} {s : σ} {l : TraceLevel} {out : List Message} :
      ProcessStep h ⟨ms, ends, r, .replying reply s, .receiving, l, out, false⟩ ⟨ms, ends, r, .receiving s, .writing reply, l, out, false⟩
  /-- csskit_lsp/src/server.rs:106: a message is written. -/
  | writes {m : Message} {ms : List Message} {ends : Bool} {r : ReaderThread} {ht : HandlerThread σ} {l : TraceLevel} {out : List Message} :
      ProcessStep h ⟨ms, ends, r, ht, .writing m, l, out, false⟩ ⟨ms, ends, r, ht, .receiving, l, out ++ [m], false⟩
  /-- csskit_lsp/src/server.rs:106: the writing fails (stdout is closed): the thread ends. -/
  | fails {m : Message} {ms : List Message} {ends : Bool} {r : ReaderThread} {ht : HandlerThread σ} {l : TraceLevel} {out : List Message} :
      ProcessStep h ⟨ms, ends, r, ht, .writing m, l, out, false⟩ ⟨ms, ends, r, ht, .failed m, l, out, false⟩

/-- csskit_lsp/src/jsonrpc/tracing_layer.rs:73-113 `on_event`: an event of any thread is sent to the client if its level is shown and
the writer is waiting for a message (`try_send`); otherwise it is dropped, which is no step. -/
inductive LogStep {σ : Type} : LspProcess σ → LspProcess σ → Prop where
  | log {ms : List Message} {ends : Bool} {r : ReaderThread} {ht : HandlerThread σ} {l : TraceLevel} {out : List Message} (e : EventLevel) (params : Json) :
      l.shows e = true →
      LogStep ⟨ms, ends, r, ht, .receiving, l, out, false⟩ ⟨ms, ends, r, ht, .writing (.notification ⟨e.method, params⟩), l, out, false⟩

/-- An execution, with the number of steps of its threads and the number of log notifications. -/
inductive Execution {σ : Type} (h : Handler σ) : LspProcess σ → Nat → Nat → LspProcess σ → Prop where
  | here (p : LspProcess σ) : Execution h p 0 0 p
  | step {p q r : LspProcess σ} {n k : Nat} : Execution h p n k q → ProcessStep h q r → Execution h p (n + 1) k r
  | logs {p q r : LspProcess σ} {n k : Nat} : Execution h p n k q → LogStep q r → Execution h p n (k + 1) r

end Hdx.Lsp

/-
The message loop and the dispatch of messages: csskit_lsp/src/server.rs, csskit_lsp/src/server/handler.rs.
-/
import Verif.Model.Lsp.Message

namespace Hdx.Lsp

/-- csskit_lsp/src/server/handler.rs:36-318: the methods that are answered (the values of the constants `METHOD` of lsp-types 0.97, in
the order of the match). -/
def requestMethods : List String :=
  ["workspace/applyEdit", "callHierarchy/incomingCalls", "callHierarchy/outgoingCalls", "textDocument/prepareCallHierarchy",
   "textDocument/codeAction", "codeAction/resolve", "workspace/codeLens/refresh", "textDocument/codeLens", "codeLens/resolve",
   "textDocument/colorPresentation", "textDocument/completion", "textDocument/documentColor", "textDocument/diagnostic",
   "textDocument/documentHighlight", "textDocument/documentLink", "documentLink/resolve", "textDocument/documentSymbol",
   "workspace/executeCommand", "textDocument/foldingRange", "textDocument/formatting", "textDocument/declaration",
   "textDocument/definition", "textDocument/implementation", "textDocument/typeDefinition", "textDocument/hover", "initialize",
   "workspace/inlayHint/refresh", "textDocument/inlayHint", "inlayHint/resolve", "workspace/inlineValue/refresh",
   "textDocument/inlineValue", "textDocument/linkedEditingRange", "textDocument/moniker", "textDocument/onTypeFormatting",
   "textDocument/prepareRename", "textDocument/rangeFormatting", "textDocument/references", "client/registerCapability",
   "textDocument/rename", "completionItem/resolve", "textDocument/selectionRange", "textDocument/semanticTokens/full/delta",
   "textDocument/semanticTokens/full", "textDocument/semanticTokens/range", "workspace/semanticTokens/refresh", "window/showDocument",
   "window/showMessageRequest", "shutdown", "textDocument/signatureHelp", "textDocument/prepareTypeHierarchy", "typeHierarchy/subtypes",
   "typeHierarchy/supertypes", "client/unregisterCapability", "workspace/willCreateFiles", "workspace/willDeleteFiles",
   "workspace/willRenameFiles", "textDocument/willSaveWaitUntil", "window/workDoneProgress/create", "workspace/configuration",
   "workspace/diagnostic/refresh", "workspace/diagnostic", "workspace/workspaceFolders", "workspace/symbol", "workspaceSymbol/resolve"]

/-- csskit_lsp/src/server/handler.rs:321-465: the methods that are not answered. -/
def notificationMethods : List String :=
  ["$/cancelRequest", "workspace/didChangeConfiguration", "notebookDocument/didChange", "textDocument/didChange",
   "workspace/didChangeWatchedFiles", "workspace/didChangeWorkspaceFolders", "notebookDocument/didClose", "textDocument/didClose",
   "workspace/didCreateFiles", "workspace/didDeleteFiles", "notebookDocument/didOpen", "textDocument/didOpen", "workspace/didRenameFiles",
   "notebookDocument/didSave", "textDocument/didSave", "initialized", "window/logMessage", "$/logTrace", "$/progress",
   "textDocument/publishDiagnostics", "$/setTrace", "window/showMessage", "telemetry/event", "textDocument/willSave",
   "window/workDoneProgress/cancel"]

/-- csskit_lsp/src/server/handler.rs:6 the trait `Handler`, with the state `σ` behind `&self`: `initialized`, and the method that is
called for the LSP method of a message: `none` if the parameters do not deserialise (then the method does not run), otherwise the new
state and the result (which is ignored for notifications). -/
structure Handler (σ : Type) where
  initialized : σ → Bool
  call : String → Json → σ → Option (σ × Except ErrorCode Json)

/-- What `handle` does: the new state, the reply if there is one, and (this is bookkeeping, not part of the code) the LSP method whose
handler method ran, if any did. -/
structure Handled (σ : Type) where
  state : σ
  reply : Option Message
  ran : Option String

/-- csskit_lsp/src/server/handler.rs:23-474 `handle`. -/
def Handler.handle {σ : Type} (h : Handler σ) (m : Message) (s : σ) : Handled σ :=
  let id := m.id.getD Id.default
  if m.isExitNotification then ⟨s, none, none⟩
  else if !h.initialized s && !m.isInitializeRequest then ⟨s, none, none⟩
  else
    let method := m.method.getD ""
    if requestMethods.contains method then
      match h.call method m.value s with
      | none => ⟨s, some (.response (.err id .invalidParams "InvalidParams" .null)), none⟩
      | some (s, r) => ⟨s, some (Message.fromResult id r), some method⟩
    else if notificationMethods.contains method then
      match h.call method m.value s with
      | none => ⟨s, none, none⟩
      | some (s, _) => ⟨s, none, some method⟩
    else
      match m with
      | .request r => ⟨s, some (.response (.err r.id .methodNotFound "MethodNotFound" .null)), none⟩
      | _ => ⟨s, none, none⟩

/-- One step of the history of a server: the message that came in, the state before, and what was done. -/
structure Event (σ : Type) where
  message : Message
  before : σ
  handled : Handled σ

/-- csskit_lsp/src/server.rs:59-86: the thread that takes the messages off the channel one by one, until `exit` or the channel is
closed, and sends the replies: its history. (The setting of the trace level is left out.) -/
def Handler.serve {σ : Type} (h : Handler σ) : List Message → σ → List (Event σ)
  | [], _ => []
  | m :: ms, s => if m.isExitNotification then [] else ⟨m, s, h.handle m s⟩ :: h.serve ms (h.handle m s).state

/-- The replies sent, in order. -/
def Handler.replies {σ : Type} (h : Handler σ) (ms : List Message) (s : σ) : List Message := (h.serve ms s).filterMap (·.handled.reply)

/-- csskit_lsp/src/service.rs:123-142 `LSPService`, with an arbitrary rest `τ` of the state: `initialized` reads the flag, `initialize`
sets it (if its parameters deserialise), no other method changes it. -/
def service {τ : Type} (rest : String → Json → τ → Option (τ × Except ErrorCode Json)) : Handler (Bool × τ) where
  initialized s := s.1
  call method params s :=
    (rest method params s.2).map fun r => ((if method == "initialize" then true else s.1, r.1), r.2)

end Hdx.Lsp

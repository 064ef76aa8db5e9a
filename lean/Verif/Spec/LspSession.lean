/-
Specification: what a client should see of a session, one message after the other, without threads.
-/
import Verif.Model.Lsp.Session
import Verif.Spec.Lsp

namespace Hdx.Lsp.Spec

/-- How a session ends: all messages were handled; the handler waits for ever; the handler has panicked. -/
inductive Ending where
  | done
  | hangs
  | panics
  deriving DecidableEq

/-- A document can be used; or its thread has panicked; or its thread never comes to an end. -/
inductive Use where
  | usable
  | broken
  | stuck
  deriving DecidableEq

/-- A document. -/
structure Doc where
  text : List Char
  use : Use

/-- The documents with another document. -/
def putDoc (docs : String → Option Doc) (uri : String) (doc : Doc) : String → Option Doc := fun u => if u = uri then some doc else docs u

/-- What parsing a text makes of a document. -/
def useAfter {π : Type} (parse : List Char → Except Panic (Option π)) (text : List Char) : Use :=
  match parse text with
  | .ok _ => .usable
  | .error e => if e = .diverges then .stuck else .broken

/-- To use a document that cannot be used is the end of the session. -/
def touching {η : Type} : Use → List (Answer η) × Ending → List (Answer η) × Ending
  | .usable, r => r
  | .broken, _ => ([], .panics)
  | .stuck, _ => ([], .hangs)

/-- The replies to the messages, in order, and how it ends. A document whose parser or highlighter panicked cannot be used any more. A request for the highlights
of a text that gives no style sheet is the end of the session, too. -/
def session {π η : Type} (parse : List Char → Except Panic (Option π)) (highlight : List Char → π → Except Panic η) :
    (String → Option Doc) → List DocMessage → List (Answer η) × Ending
  | _, [] => ([], .done)
  | docs, .event (.didOpen uri text) :: ms => touching (useAfter parse []) (session parse highlight (putDoc docs uri ⟨text, useAfter parse text⟩) ms)
  | docs, .event (.didChange uri changes) :: ms =>
    match docs uri with
    | none => session parse highlight docs ms
    | some doc => touching doc.use
        (session parse highlight (putDoc docs uri ⟨changes.foldl applyChange doc.text, useAfter parse (changes.foldl applyChange doc.text)⟩) ms)
  | docs, .tokens uri :: ms =>
    match docs uri with
    | none => (.noFile :: (session parse highlight docs ms).1, (session parse highlight docs ms).2)
    | some doc => touching doc.use <|
        match parse doc.text with
        | .error _ | .ok none => ([], .hangs)
        | .ok (some o) =>
          match highlight doc.text o with
          | .ok data => (.highlights data :: (session parse highlight docs ms).1, (session parse highlight docs ms).2)
          | .error .diverges => ([], .hangs)
          | .error _ => (.empty :: (session parse highlight (putDoc docs uri ⟨doc.text, .broken⟩) ms).1, (session parse highlight (putDoc docs uri ⟨doc.text, .broken⟩) ms).2)

/-- The state in which a session is at its end. -/
def EndsWith {η : Type} (s : Session η) : Ending → Prop
  | .done => s.doing = .ready ∧ s.messages = []
  | .hangs => ∃ uri, s.doing = .waiting uri ∨ s.doing = .asking uri ∨ s.doing = .committing uri
  | .panics => s.doing = .panicked

/-- The notifications among the messages. -/
def eventsOf : List DocMessage → List DocEvent
  | [] => []
  | .event e :: ms => e :: eventsOf ms
  | .tokens _ :: ms => eventsOf ms

/-- The document a notification is about. -/
def eventUri : DocEvent → String
  | .didOpen uri _ => uri
  | .didChange uri _ => uri

/-- There is one reply for each request, in order, and `P` holds of it with the notifications before the request and its document. -/
inductive Replied {η : Type} (P : List DocEvent → String → Answer η → Prop) : List DocEvent → List DocMessage → List (Answer η) → Prop
  | nil {before} : Replied P before [] []
  | event {before e ms answers} : Replied P (before ++ [e]) ms answers → Replied P before (.event e :: ms) answers
  | tokens {before uri ms a answers} : P before uri a → Replied P before ms answers → Replied P before (.tokens uri :: ms) (a :: answers)

end Hdx.Lsp.Spec

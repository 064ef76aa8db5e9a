/-
Specification: positions, semantic tokens and edits as the Language Server Protocol 3.17 defines them.
-/
import Verif.Model.Lsp.Document

namespace Hdx.Lsp.Spec

/-- The number of UTF-16 code units of a character. -/
def utf16Size (c : Char) : Nat := if c.toNat < 65536 then 1 else 2

/-- The position after a text: the number of line ends (`\n`, `\r\n`, `\r`), and the number of UTF-16 code units after the last. -/
def positionFrom : Position → List Char → Position
  | p, [] => p
  | p, '\r' :: '\n' :: rest => positionFrom ⟨p.line + 1, 0⟩ rest
  | p, '\n' :: rest => positionFrom ⟨p.line + 1, 0⟩ rest
  | p, '\r' :: rest => positionFrom ⟨p.line + 1, 0⟩ rest
  | p, c :: rest => positionFrom ⟨p.line, p.character + utf16Size c⟩ rest

/-- The position after a text. -/
def position (text : List Char) : Position := positionFrom ⟨0, 0⟩ text

/-- `before ++ after` is cut at a place a position can point to: not inside `\r\n`. -/
def Cut (before after : List Char) : Prop := ¬ (before.getLast? = some '\r' ∧ after.head? = some '\n')

/-- Section "Semantic Tokens": the absolute positions for relative ones. -/
def decodeDeltas : Position → List (Nat × Nat) → List Position
  | _, [] => []
  | p, (deltaLine, deltaStart) :: rest =>
    let q : Position := ⟨p.line + deltaLine, if deltaLine = 0 then p.character + deltaStart else deltaStart⟩
    q :: decodeDeltas q rest

/-- Applying a content change: all of the text is replaced if there is no range, otherwise what is between the two positions. -/
inductive Edited : List Char → Change → List Char → Prop
  | full {text new} : Edited text ⟨none, new⟩ new
  | range {a b c new} : Cut a (b ++ c) → Cut (a ++ b) c → Edited (a ++ b ++ c) ⟨some (position a, position (a ++ b)), new⟩ (a ++ new ++ c)

/-- Applying content changes one after the other; `good` holds for every text on the way that is edited by a range. -/
inductive EditedAll (good : List Char → Prop) : List Char → List Change → List Char → Prop
  | nil {text} : EditedAll good text [] text
  | cons {text change text' changes text''} : (change.range ≠ none → good text) → Edited text change text' → EditedAll good text' changes text'' →
      EditedAll good text (change :: changes) text''

/-- What a client has, after the notifications it sent. -/
inductive ClientHas (good : List Char → Prop) : List DocEvent → String → List Char → Prop
  | opened {events uri text} : ClientHas good (events ++ [.didOpen uri text]) uri text
  | changed {events uri text changes text'} : ClientHas good events uri text → EditedAll good text changes text' →
      ClientHas good (events ++ [.didChange uri changes]) uri text'
  | other {events uri text e} : ClientHas good events uri text → (∀ t, e ≠ .didOpen uri t) → (∀ cs, e ≠ .didChange uri cs) →
      ClientHas good (events ++ [e]) uri text

/-- The replies to the requests in a sequence of operations on one document, in order: `answer` of the text committed last before. -/
def answers {α : Type} (answer : List Char → α) : List Char → List FileOp → List α
  | _, [] => []
  | _, .commit text :: ops => answers answer text ops
  | text, .highlights :: ops => answer text :: answers answer text ops

end Hdx.Lsp.Spec

/-
What the document threads compute: csskit_lsp/src/service.rs.
-/
import Verif.Model.Lsp.Session
import Verif.Model.Highlight
import Verif.Model.Definitions

namespace Hdx

/-- csskit_lsp/src/service.rs:77-98: the highlights of a style sheet. -/
def sheetHighlights {τ : Type} (source : List Char) (rules : List (CssRule τ)) : Except Panic (List (Lsp.Highlight × Nat × Nat)) :=
  match sheetVisits rules with
  | .error e => .error e
  | .ok visits => Lsp.highlightData source (Highlighter.entries visits)

/-- The steps of the threads of the server. -/
abbrev ServerSteps := Lsp.SessionSteps (parsedSheet realValues) sheetHighlights

/-- One step. -/
abbrev ServerStep := Lsp.SessionStep (parsedSheet realValues) sheetHighlights

end Hdx

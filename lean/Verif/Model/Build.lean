/-
Model of the command `csskit build`: crates/csskit/src/main.rs.
-/
import Verif.Model.Highlight
import Verif.Model.Sink
import Verif.Model.Definitions

namespace Hdx

/-- What a program that writes to a `String` has written. -/
def stringSink : Writer (List Char) := ⟨fun s x => (s ++ x, true)⟩

/-- crates/csskit/src/main.rs:103-138 `Commands::Build` (for one file): the text it writes to the output, or `none` if there is no style sheet to write (then the
errors are printed). Not modelled: reading and writing files, the time it prints, more than one input (`todo!`), and the printing of errors (they are not
printed at all if there is a style sheet). -/
def build (fmt : FloatFmt) (src : List Char) : Except Panic (Option (List Char)) := do
  match ← parsedSheet realValues src with
  | none => pure none
  | some rules =>
    let sink ← (FmtSink.new []).appendAll fmt stringSink src (CssRule.cursorsOf realValues rules)
    pure (some sink.writer)

end Hdx

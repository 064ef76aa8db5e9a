/-
Specification: the CSS names of the known units (CSS Values 4, CSS Containment 3, CSS Fonts, CSS Grid), in lower case.
Written from the CSS specifications: the name of a unit is its variant name, lower-cased; `%` for percentages.
-/
import Verif.Model.DimensionUnit

namespace Hdx.Spec

open DimensionUnit in
/-- The CSS name of each known unit; `none` for `Unknown`. -/
def unitName : DimensionUnit → Option (List Char)
  | unknown => none
  | cap => some c!"cap"
  | ch => some c!"ch"
  | cm => some c!"cm"
  | cqb => some c!"cqb"
  | cqh => some c!"cqh"
  | cqi => some c!"cqi"
  | cqmax => some c!"cqmax"
  | cqmin => some c!"cqmin"
  | cqw => some c!"cqw"
  | deg => some c!"deg"
  | dpcm => some c!"dpcm"
  | dpi => some c!"dpi"
  | dppx => some c!"dppx"
  | dvb => some c!"dvb"
  | dvh => some c!"dvh"
  | dvi => some c!"dvi"
  | dvmax => some c!"dvmax"
  | dvmin => some c!"dvmin"
  | dvw => some c!"dvw"
  | em => some c!"em"
  | ex => some c!"ex"
  | fr => some c!"fr"
  | grad => some c!"grad"
  | hz => some c!"hz"
  | ic => some c!"ic"
  | inch => some c!"in"
  | khz => some c!"khz"
  | lh => some c!"lh"
  | lvb => some c!"lvb"
  | lvh => some c!"lvh"
  | lvi => some c!"lvi"
  | lvmax => some c!"lvmax"
  | lvmin => some c!"lvmin"
  | lvw => some c!"lvw"
  | mm => some c!"mm"
  | ms => some c!"ms"
  | pc => some c!"pc"
  | percent => some c!"%"
  | pt => some c!"pt"
  | px => some c!"px"
  | q => some c!"q"
  | rad => some c!"rad"
  | rcap => some c!"rcap"
  | rch => some c!"rch"
  | rem => some c!"rem"
  | rex => some c!"rex"
  | ric => some c!"ric"
  | rlh => some c!"rlh"
  | s => some c!"s"
  | svb => some c!"svb"
  | svh => some c!"svh"
  | svi => some c!"svi"
  | svmax => some c!"svmax"
  | svmin => some c!"svmin"
  | svw => some c!"svw"
  | turn => some c!"turn"
  | vb => some c!"vb"
  | vh => some c!"vh"
  | vi => some c!"vi"
  | vmax => some c!"vmax"
  | vmin => some c!"vmin"
  | vw => some c!"vw"
  | x => some c!"x"

end Hdx.Spec

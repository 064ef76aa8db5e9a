/-
Which values of properties are written back in full.
-/
import Verif.Model.Definitions

namespace Hdx.Spec

mutual
/-- The value has no `<radial-size>` of the shape `Circular` in it: the one value that does not keep all the tokens it was read from. -/
def NoCircle : Val → Bool
  | .tok _ => true
  | .fields vs => NoCircles vs
  | .variant _ v => NoCircle v
  | .circular _ => false
/-- The same, of all values of a list. -/
def NoCircles : List Val → Bool
  | [] => true
  | v :: vs => NoCircle v && NoCircles vs
end

end Hdx.Spec

/-
Which values of properties are written in the order of the source.
-/
import Verif.Spec.CssText
import Verif.Spec.Values

namespace Hdx.Spec

/-- Some token is at a known place. -/
def anyPlaced (l : List Cursor) : Bool := l.any placed

/-- If both have tokens at known places, the tokens `a` come before the tokens `b`. -/
def earlier (a b : List Cursor) : Bool := !anyPlaced a || !anyPlaced b || before a b

mutual
/-- The parts of the value are written in the order in which they are in the source. -/
def Straight : Val → Bool
  | .tok _ => true
  | .fields vs => StraightAll vs
  | .variant _ v => Straight v
  | .circular _ => true
/-- The same for a list of values. -/
def StraightAll : List Val → Bool
  | [] => true
  | v :: vs => Straight v && StraightAll vs && vs.all fun w => earlier v.cursors w.cursors
end

end Hdx.Spec

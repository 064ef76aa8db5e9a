/-
Specification: specificities are triples of counts, added component by component (Selectors Level 4, section 17) and compared from
the left; the specificity of a page selector counts its parts (CSS Paged Media Level 3, section 3.2.1).
-/
import Verif.Model.Specificity

namespace Hdx.Spec

/-- The three numbers of a specificity. -/
def counts (s : Specificity) : Nat × Nat × Nat := (s.a.toNat, s.b.toNat, s.c.toNat)

/-- Component-wise addition. -/
def plus (x y : Nat × Nat × Nat) : Nat × Nat × Nat := (x.1 + y.1, x.2.1 + y.2.1, x.2.2 + y.2.2)

/-- Component-wise sum. -/
def total : List (Nat × Nat × Nat) → Nat × Nat × Nat
  | [] => (0, 0, 0)
  | x :: xs => plus x (total xs)

/-- Comparison from the left. -/
inductive Less : Nat × Nat × Nat → Nat × Nat × Nat → Prop
  | first {a b c a' b' c'} : a < a' → Less (a, b, c) (a', b', c')
  | second {a b c b' c'} : b < b' → Less (a, b, c) (a, b', c')
  | third {a b c c'} : c < c' → Less (a, b, c) (a, b, c')

/-- f: the page type; g: the number of `:first` and `:blank`; h: the number of `:left` and `:right`. -/
def pageCounts (s : PageSelector) : Nat × Nat × Nat :=
  (if s.pageType then 1 else 0, s.pseudos.count .first + s.pseudos.count .blank, s.pseudos.count .left + s.pseudos.count .right)

end Hdx.Spec

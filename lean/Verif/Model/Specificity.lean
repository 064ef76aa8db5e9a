/-
Specificity (css_ast/src/specificity.rs) and its only users, the page selectors (css_ast/src/rules/page.rs).
-/

namespace Hdx

/-- css_ast/src/specificity.rs:8-9 `Specificity(u8, u8, u8)`. -/
structure Specificity where
  a : BitVec 8
  b : BitVec 8
  c : BitVec 8
  deriving DecidableEq, Repr

namespace Specificity

/-- css_ast/src/specificity.rs:19-24 `Add::add`. -/
def add (x y : Specificity) : Specificity := ⟨x.a ||| y.a, x.b ||| y.b, x.c ||| y.c⟩

/-- css_ast/src/specificity.rs:11-17 `AddAssign::add_assign`: the new value of `self`. -/
def addAssign (x y : Specificity) : Specificity := ⟨x.a ||| y.a, x.b ||| y.b, x.c ||| y.c⟩

/-- css_ast/src/specificity.rs:26-34 `Sum::sum`. -/
def sum (l : List Specificity) : Specificity := l.foldl addAssign ⟨0, 0, 0⟩

/-- css_ast/src/specificity.rs:8: the derived `PartialOrd`, the lexicographic order of the fields. -/
def lt (x y : Specificity) : Bool :=
  x.a.toNat < y.a.toNat || (x.a == y.a && (x.b.toNat < y.b.toNat || (x.b == y.b && x.c.toNat < y.c.toNat)))

end Specificity

/-- css_ast/src/rules/page.rs:145-150 `PagePseudoClass`, without its cursors. -/
inductive PagePseudoClass where
  | left | right | first | blank
  deriving DecidableEq, Repr

/-- css_ast/src/rules/page.rs:195-204 `ToSpecificity for PagePseudoClass`. -/
def PagePseudoClass.specificity : PagePseudoClass → Specificity
  | .blank => ⟨0, 1, 0⟩
  | .first => ⟨0, 1, 0⟩
  | .left => ⟨0, 0, 1⟩
  | .right => ⟨0, 0, 1⟩

/-- css_ast/src/rules/page.rs:93-96 `PageSelector`; of the page type, only whether there is one. -/
structure PageSelector where
  pageType : Bool
  pseudos : List PagePseudoClass

/-- css_ast/src/rules/page.rs:126-135 `ToSpecificity for PageSelector`. -/
def PageSelector.specificity (s : PageSelector) : Specificity :=
  let specificity := Specificity.sum (s.pseudos.map PagePseudoClass.specificity)
  if s.pageType then specificity.add ⟨1, 0, 0⟩ else specificity

end Hdx

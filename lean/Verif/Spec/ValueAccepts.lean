/-
Values that the grammar of a property takes: what is asked of their tokens.
-/
import Verif.Spec.ValueForms
import Verif.Spec.CssValues

namespace Hdx.Spec

/-- The tokens that are neither whitespace nor comments. -/
def solid (cs : List Cursor) : List Cursor := cs.filter fun c => !c.token.inSet KindSet.TRIVIA

/-- The name of the token, if it has one, is clear: `parse_str_lower` and `eq_ignore_ascii_case` agree on it (C24: so they do unless it has escapes with capital
letters), and so do the flags in the token: the unit of a dimension (C14, C57) and the two dashes (C11). -/
def Clear (src : List Char) (c : Cursor) : Prop :=
  IsKind .ident c ∨ IsKind .function c ∨ IsKind .dimension c → ∃ s, Named src c s ∧
    (∀ k, (∀ d ∈ k, ¬ Upper d) → c.eqIgnoreAsciiCase src k = .ok (decide (s = k))) ∧
    (IsKind .dimension c → ∀ u, unitName c.token.dimensionUnit = some u → s = u) ∧
    (IsKind .ident c → c.token.isDashedIdent = true → ['-', '-'] <+: s)

/-- The number of functions among the tokens. -/
def opens (w : List Cursor) : Nat := w.countP fun c => c.token.isKind .function
/-- The number of closing parentheses. -/
def closings (w : List Cursor) : Nat := w.countP fun c => c.token.isKind .rightParen

/-- The functions of `<image>` and `<image-1D>`, and `calc-size()`, that are left out here. -/
def imageFunctions : List (List Char) :=
  [c!"url", c!"linear-gradient", c!"radial-gradient", c!"repeating-linear-gradient", c!"repeating-radial-gradient", c!"stripes"]

/-- All names are clear, each function is closed, and none is that of an image. -/
structure Tidy (src : List Char) (w : List Cursor) : Prop where
  clear : ∀ c ∈ w, Clear src c
  closed : opens w ≤ closings w
  plain : ∀ c ∈ w, IsKind .function c → ∀ n ∈ imageFunctions, ¬ Called src c n

/-- The token ends a value: `}`, `;` or a `!`. -/
def ValueOver (c : Cursor) : Prop := IsKind .rightCurly c ∨ IsKind .semicolon c ∨ IsDelim '!' c

end Hdx.Spec

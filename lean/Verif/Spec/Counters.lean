/-
Counter styles and stripes: which token sequences they are.
https://drafts.csswg.org/css-counter-styles-3/#typedef-counter-style, https://drafts.csswg.org/css-images-4/#typedef-image-1d
-/
import Verif.Spec.CssValues
import Verif.Spec.ValueAccepts

namespace Hdx.Spec

/-- Any number of parts, one after the other. -/
inductive Several (P : List Cursor → Prop) : List Cursor → Prop
  | none : Several P []
  | more {w v : List Cursor} : P w → Several P v → Several P (w ++ v)

/-- `<symbol>` as hdx has it: `<string> | <image>`. -/
def IsSymbol (src : List Char) (w : List Cursor) : Prop := (∃ c, w = [c] ∧ IsKind .string c) ∨ IsImage src w

/-- `symbols( <symbols-type>? [ <string> | <image> ]+ )`, but hdx takes `*` for `+`, and the parenthesis may be missing. -/
def IsSymbolsFunction (src : List Char) (w : List Cursor) : Prop :=
  ∃ f type v close, w = f :: (Option.toList type ++ (v ++ Option.toList close)) ∧ IsKind .function f ∧ Called src f c!"symbols" ∧
    (∀ k ∈ type, ∃ s ∈ [c!"cyclic", c!"numeric", c!"alphabetic", c!"symbolic", c!"fixed"], IsWord src s k) ∧ Several (IsSymbol src) v ∧ ∀ k ∈ close, IsKind .rightParen k

/-- `<counter-style> = <counter-style-name> | symbols()`. -/
def IsCounterStyle (src : List Char) (w : List Cursor) : Prop := (∃ c, w = [c] ∧ IsKind .ident c) ∨ IsSymbolsFunction src w

/-- A closed color: a hash, a name, or a function with its parenthesis. -/
def IsClosedColor (src : List Char) (M : List Char → List Cursor → Prop) (w : List Cursor) : Prop :=
  ((∃ c, w = [c] ∧ IsKind .hash c) ∨ Matches src M colorDef w) ∧ opens w ≤ closings w

/-- `[ <length-percentage> | <flex> ]`. -/
def IsThickness (src : List Char) (M : List Char → List Cursor → Prop) (c : Cursor) : Prop :=
  HasUnit src c!"fr" c ∨ Matches src M (.type (.lengthPercentage .none)) [c]

/-- `<color-stripe> = <color> && [ <length-percentage> | <flex> ]?`. -/
def IsStripe (src : List Char) (M : List Char → List Cursor → Prop) (w : List Cursor) : Prop :=
  ∃ col thick, IsClosedColor src M col ∧ (∀ t ∈ thick, IsThickness src M t) ∧ (w = col ++ Option.toList thick ∨ w = Option.toList thick ++ col)

/-- `<color-stripe>#`. -/
inductive IsStripes (src : List Char) (M : List Char → List Cursor → Prop) : List Cursor → Prop
  | last {w : List Cursor} : IsStripe src M w → IsStripes src M w
  | more {w v : List Cursor} {k : Cursor} : IsStripe src M w → IsKind .comma k → IsStripes src M v → IsStripes src M (w ++ k :: v)

end Hdx.Spec

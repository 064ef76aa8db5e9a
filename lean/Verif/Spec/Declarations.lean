/-
All declarations of the properties of css_ast that are in a style sheet.
-/
import Verif.Model.AtRules

namespace Hdx.Spec

variable {τ : Type}

/-- The declarations in a `(name: value)` of `@supports`. -/
def supportsDeclarations : SupportsFeature τ → List (Decl (StyleValue τ))
  | .selector .. => []
  | .property _ d _ => [d]

/-- The features of a condition. -/
def featuresOf {φ : Type} : Condition φ → List φ
  | .is f => [f]
  | .not _ f => [f]
  | .and fs => fs.map (·.1)
  | .or fs => fs.map (·.1)

mutual
/-- All declarations in a rule, however deep (not those of the generic grammar in unknown rules, and not the descriptors of `@property`). -/
def declarations : CssRule τ → List (Decl (StyleValue τ))
  | .charset .. => []
  | .container _ _ _ rules _ => declarationsOf rules
  | .fontFace _ b => b.items
  | .keyframes _ _ b => b.items.flatMap fun k => k.block.items.map (·.1)
  | .layerStatement .. => []
  | .layerBlock _ _ _ rules _ => declarationsOf rules
  | .media _ _ _ ds rules _ => ds.map (·.1) ++ declarationsOf rules
  | .page _ _ b => b.declarations.map (·.1) ++ b.rules.flatMap fun m => m.block.items.map (·.1)
  | .property .. => []
  | .supports _ c _ rules _ => (featuresOf c).flatMap supportsDeclarations ++ declarationsOf rules
  | .document _ _ _ _ rules _ => declarationsOf rules
  | .webkitKeyframes _ _ b => b.items.flatMap fun k => k.block.items.map (·.1)
  | .unknownAt _ => []
  | .style _ _ ds rules _ => ds.map (·.1) ++ declarationsOf rules
  | .unknown _ => []
  | .bad _ => []
/-- All declarations in a list of rules. -/
def declarationsOf : List (CssRule τ) → List (Decl (StyleValue τ))
  | [] => []
  | r :: rs => declarations r ++ declarationsOf rs
end

end Hdx.Spec

/-
What it means for a tree of css_ast to lose no token.
-/
import Verif.Model.AtRules
import Verif.Props.Rules
import Verif.Props.Selectors

namespace Hdx.Spec

/-- The cursor is at a known place: it is not a bracket (see `strip`) and not the end of the source. -/
def placed (c : Cursor) : Bool := notEof c && !isBracket c.token

/-- The tokens at a known place come in the order of their places. -/
def Increasing (t : List Cursor) : Prop := t.Pairwise fun a b => placed a = true → placed b = true → a.offset ≤ b.offset

/-- The tokens `t` are, in some order and but for the positions of brackets, the cursors `l` and some tokens that mean nothing: whitespace,
semicolons, `<!--` and `-->`. (`taken` leaves out the cursors that stand for the end of the source.) If `ordered`, they are also in the same order. -/
def Kept (ordered : Bool) (l t : List Cursor) : Prop :=
  ∃ dropped, (∀ c ∈ dropped, Droppable c) ∧ t.Perm (taken l ++ dropped) ∧ (ordered = true → Increasing t → (taken l).Sublist t)

/-- Some token of `a` comes before some token of `b`. -/
def before (a b : List Cursor) : Bool := a.any fun x => placed x && b.any fun y => placed y && decide (x.offset < y.offset)

/-- The condition is not a negation. -/
def affirms {φ : Type} : Condition φ → Bool
  | .not _ _ => false
  | _ => true

/-- If the value of the declaration is that of a property css_ast knows, it is good. -/
def goodValue {τ : Type} (good : τ → Bool) (d : Decl (StyleValue τ)) : Bool :=
  match d.value with
  | .typed _ v => good v
  | _ => true

/-- If the condition asks for a declaration, its value is good. -/
def goodFeature {τ : Type} (good : τ → Bool) : SupportsFeature τ → Bool
  | .property _ d _ => goodValue good d
  | _ => true

/-- The condition is not a negation, and its features are good. -/
def goodCondition {φ : Type} (good : φ → Bool) : Condition φ → Bool
  | .is f => good f
  | .not _ _ => false
  | .and fs => fs.all fun f => good f.1
  | .or fs => fs.all fun f => good f.1

mutual
/-- The rule, and every rule in it, has no `@charset` without a semicolon, no negation in the condition of a `@media`, `@container` or
`@supports`, and no declaration whose value is not good. -/
def Whole {τ : Type} (good : τ → Bool) : CssRule τ → Bool
  | .charset _ _ _ semi => semi.isSome
  | .container _ query _ rules _ => (query.all fun q => q.condition.all affirms) && WholeAll good rules
  | .fontFace _ block => block.items.all (goodValue good)
  | .keyframes _ _ block => block.items.all fun k => k.block.items.all fun d => goodValue good d.1
  | .layerStatement _ _ _ => true
  | .layerBlock _ _ _ rules _ => WholeAll good rules
  | .media _ query _ decls rules _ => (query.all fun q => q.condition.all affirms) && (decls.all fun d => goodValue good d.1) && WholeAll good rules
  | .page _ _ block => (block.declarations.all fun d => goodValue good d.1)
      && block.rules.all fun m => m.block.items.all fun d => goodValue good d.1
  | .property _ _ _ => true
  | .supports _ cond _ rules _ => goodCondition (goodFeature good) cond && WholeAll good rules
  | .document _ _ _ _ rules _ => WholeAll good rules
  | .webkitKeyframes _ _ block => block.items.all fun k => k.block.items.all fun d => goodValue good d.1
  | .unknownAt _ => true
  | .style _ _ decls rules _ => (decls.all fun d => goodValue good d.1) && WholeAll good rules
  | .unknown _ => true
  | .bad _ => true
/-- Every rule of the list is such. -/
def WholeAll {τ : Type} (good : τ → Bool) : List (CssRule τ) → Bool
  | [] => true
  | r :: rs => Whole good r && WholeAll good rs
end

/-- The declarations come before the rules. -/
def declarationsFirst {δ ρ : Type} (cd : δ → List Cursor) (cr : ρ → List Cursor) (ds : List (δ × Option Cursor)) (rs : List ρ) : Bool :=
  ds.all fun d => rs.all fun r => before (cd d.1) (cr r)

mutual
/-- In every block of the rule, and of the rules in it, the declarations come before the rules. (In rules that css_ast does not know: there are only
declarations or only rules.) -/
def InOrder {τ : Type} (V : Values τ) : CssRule τ → Bool
  | .container _ _ _ rules _ => InOrderAll V rules
  | .layerBlock _ _ _ rules _ => InOrderAll V rules
  | .media _ _ _ decls rules _ => declarationsFirst (Decl.cursors (StyleValue.cursors V)) (CssRule.cursors V) decls rules && InOrderAll V rules
  | .page _ _ block => declarationsFirst (Decl.cursors (StyleValue.cursors V)) (MarginRule.cursors V) block.declarations block.rules
  | .supports _ _ _ rules _ => InOrderAll V rules
  | .document _ _ _ _ rules _ => InOrderAll V rules
  | .unknownAt r => Flat r
  | .style _ _ decls rules _ => declarationsFirst (Decl.cursors (StyleValue.cursors V)) (CssRule.cursors V) decls rules && InOrderAll V rules
  | .unknown r => Flat r
  | _ => true
/-- Every rule of the list is such. -/
def InOrderAll {τ : Type} (V : Values τ) : List (CssRule τ) → Bool
  | [] => true
  | r :: rs => InOrder V r && InOrderAll V rs
end

/-- What is asked of the values of single properties: their parsers leave the modes of the parser as they were, but for which of the usual
sets is skipped, even if they fail, and what they parse is kept in the value, if it is good (if `ordered`, in the order in which it is written). -/
structure KeepsValues {τ : Type} (ordered : Bool) (V : Values τ) (good : τ → Bool) : Prop where
  skip : ∀ name ∈ V.names, ∀ p r p', (V.parser name).run p = .ok (r, p') → UsualSkip p.skip → UsualSkip p'.skip
  modes : ∀ name ∈ V.names, ∀ p r p', (V.parser name).run p = .ok (r, p') → UsualSkip p.skip → p'.stop = p.stop ∧ p'.nested = p.nested
  kept : ∀ name ∈ V.names, ∀ p v p' w, (V.parser name).runLog p = .ok (.ok v, p', w) → UsualSkip p.skip → good v = true →
    Kept ordered (V.cursors v) (taken w)

end Hdx.Spec

/-
Media queries and container conditions that are read: those that C80 describes, as far as hdx reads them.
-/
import Verif.Spec.RuleLabels
import Verif.Spec.ValueAccepts
import Verif.Spec.Touch

namespace Hdx.Spec

variable {ν φ : Type}

/-! ### Features -/

/-- `<=` and `>=` are written without anything in between. -/
def ComparisonWhole : Comparison → Prop
  | .greaterThanEqual a b => Touch a b
  | .lessThanEqual a b => Touch a b
  | _ => True

def RangedWhole : Ranged ν → Prop
  | .left _ _ c _ _ => ComparisonWhole c
  | .right _ _ c _ _ => ComparisonWhole c
  | .range _ _ c _ d _ _ => ComparisonWhole c ∧ ComparisonWhole d
  | .legacy .. => True

/-- The token with the name of the feature. -/
def rangedName : Ranged ν → Cursor
  | .left _ n _ _ _ => n
  | .right _ _ _ n _ => n
  | .range _ _ _ n _ _ _ => n
  | .legacy _ n _ _ _ => n

/-- The values of a range that are read: hdx asks for a fraction or an exponent where CSS takes any number. -/
def MediaType.Reads (src : List Char) (t : MediaType) (c : Cursor) : Prop := t.Takes src c ∧ (t = .numbers → c.token.isFloat = true)

/-- Features that are read: those of C80. Ranges must be whole; of the features with prefixes, hdx does not find those with `min` and `max`. -/
def FeatureRead (src : List Char) (f : MediaFeature) : Prop :=
  (∀ c ∈ f.cursors, Clear src c) ∧
  match f with
  | .discrete label f => MediaFeatureLabel src (.discrete label f)
  | .boolean label f => MediaFeatureLabel src (.boolean label f)
  | .ranged label f => ∃ name type, (name, type) ∈ mediaTypes ∧ label = labelOf name ∧ RangedLabel src (name :: minMax name) (minMax name) (type.Reads src) f ∧
      RangedWhole f ∧ (name.head? = some '-' → Named src (rangedName f) name)
  | .hack .. => False

/-- Conditions that are read: one feature, or two with `and` or `or` between. (C40: hdx fails on `not` and on longer chains.) -/
def ConditionRead (src : List Char) (F : φ → Prop) : Condition φ → Prop
  | .is f => F f
  | .and fs => ∃ f k g, fs = [(f, some k), (g, none)] ∧ F f ∧ F g ∧ ConditionWord src c!"and" k ∧ Clear src k
  | .or fs => ∃ f k g, fs = [(f, some k), (g, none)] ∧ F f ∧ F g ∧ ConditionWord src c!"or" k ∧ Clear src k
  | .not .. => False

/-- Media queries that are read: a condition; or a type, perhaps with `not` or `only` before it, perhaps with `and` and a condition after it. -/
def QueryRead (src : List Char) (q : MediaQuery) : Prop :=
  (∀ x ∈ q.precondition, KeywordLabel src [c!"not", c!"only"] x ∧ Clear src x.2) ∧ (∀ t ∈ q.mediaType, MediaTypeLabel src t ∧ Clear src t.2) ∧
  (∀ c ∈ q.and, IsWord src c!"and" c ∧ Clear src c) ∧ (∀ c ∈ q.condition, ConditionRead src (FeatureRead src) c) ∧
  ((q.precondition = none ∧ q.mediaType = none ∧ q.and = none ∧ q.condition.isSome) ∨ (q.mediaType.isSome ∧ (q.and.isSome ↔ q.condition.isSome)))

/-! ### Containers -/

/-- Container features that are read: where the name is not in front, hdx looks for it in the fourth place only. -/
def ContainerFeatureRead (src : List Char) (f : ContainerFeature) : Prop :=
  (∀ c ∈ f.cursors, Clear src c) ∧ ContainerFeatureLabel src f ∧
  match f with
  | .length _ f => RangedWhole f ∧ FourthPlace f fun v => [v]
  | .ratio f => RangedWhole f ∧ FourthPlace f Ratio.cursors
  | .orientation _ => True
where
  /-- If a value is in front, it and the comparison have one token each. -/
  FourthPlace {ν : Type} (f : Ranged ν) (cur : ν → List Cursor) : Prop :=
    match f with
    | .right _ v c _ _ => (cur v).length = 1 ∧ c.cursors.length = 1
    | .range _ v c _ _ _ _ => (cur v).length = 1 ∧ c.cursors.length = 1
    | _ => True

/-- The conditions of a container rule: a name, a condition, or both; hdx makes two of the last. -/
def ContainersRead (src : List Char) : List ContainerCondition → Prop
  | [⟨some n, none⟩] => Name n
  | [⟨none, some q⟩] => ConditionRead src (ContainerFeatureRead src) q
  | [⟨some n, none⟩, ⟨none, some q⟩] => Name n ∧ ConditionRead src (ContainerFeatureRead src) q
  | _ => False
where
  Name (n : Cursor) : Prop := IsKind .ident n ∧ Clear src n ∧ ∃ s, Named src n s ∧ s ∉ [c!"none", c!"and", c!"not", c!"or"]

end Hdx.Spec

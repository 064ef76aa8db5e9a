/-
Feature conditions and features: css_parse/src/traits/lists/feature_condition_list.rs, css_parse/src/traits/{boolean,discrete,ranged}_feature.rs,
css_parse/src/comparison.rs, and the macros of css_parse/src/token_macros.rs they use.
-/
import Verif.Model.Rules
import Verif.Model.Nth

namespace Hdx
open Prog

/-! ### Macros for nodes -/

/-- css_parse/src/token_macros.rs:420-424: `Peek` of a `keyword_set!`; `names` are the keys of its `MAP`. -/
def isKeyword (names : List (List Char)) (c : Cursor) : Prog Bool :=
  if c.token.isKind .ident then do
    let s ← strLower c
    pure (names.contains s)
  else pure false

/-- css_parse/src/token_macros.rs:425-432: `Build` of a `keyword_set!`. The variant is represented by its key. -/
def buildKeyword (names : List (List Char)) (c : Cursor) : Prog (List Char × Cursor) := do
  let s ← strLower c
  if names.contains s then pure (s, c) else .panic .unwrap

/-- css_parse/src/traits/parse.rs:27-40: `Parse` of a `keyword_set!`. -/
def keyword (names : List (List Char)) : Prog (List Char × Cursor) := do
  let c ← tok (isKeyword names)
  buildKeyword names c

/-- css_parse/src/token_macros.rs:337-341: `Peek` of a `custom_double_delim!`. -/
def isDoubleDelim (first second : Char) (c : Cursor) : Prog Bool :=
  if c.token.isChar first then do
    let c2 ← peekN 2
    pure (c2.token.isChar second)
  else pure false

/-- css_parse/src/token_macros.rs:343-361: `Parse` of a `custom_double_delim!`. -/
def doubleDelim (first second : Char) : Prog (Cursor × Cursor) := do
  let c1 ← tok (isKind .delim)
  if !c1.token.isChar first then fail .other c1
  else
    setSkip KindSet.NONE fun skip => do
      let c2 ← result (tok (isKind .delim))
      setSkip skip fun _ => do
        let c2 ← ofResult c2
        if !c2.token.isChar second then fail .other c2 else pure (c1, c2)

/-! ### Comparisons -/

/-- css_parse/src/comparison.rs:20-26 `Comparison`. -/
inductive Comparison where
  | lessThan (c : Cursor)
  | greaterThan (c : Cursor)
  | greaterThanEqual (c1 c2 : Cursor)
  | lessThanEqual (c1 c2 : Cursor)
  | equal (c : Cursor)
  deriving DecidableEq, Repr

/-- css_parse/src/comparison.rs:28-51 `Parse for Comparison`. -/
def comparison : Prog Comparison := do
  let c ← peek
  match c.token.char with
  | some ch =>
    if ch == '=' then do
      let c ← tok (isDelim '=')
      pure (.equal c)
    else if ch == '>' then do
      if ← isDoubleDelim '>' '=' c then do
        let (a, b) ← doubleDelim '>' '='
        pure (.greaterThanEqual a b)
      else do
        let c ← tok (isDelim '>')
        pure (.greaterThan c)
    else if ch == '<' then do
      if ← isDoubleDelim '<' '=' c then do
        let (a, b) ← doubleDelim '<' '='
        pure (.lessThanEqual a b)
      else do
        let c ← tok (isDelim '<')
        pure (.lessThan c)
    else fail .other c
  | none => fail .unexpected c

/-- css_parse/src/comparison.rs:53-63 `ToCursors for Comparison`. -/
def Comparison.cursors : Comparison → List Cursor
  | .lessThan c => [c]
  | .greaterThan c => [c]
  | .greaterThanEqual a b => [a, b]
  | .lessThanEqual a b => [a, b]
  | .equal c => [c]

/-! ### Boolean and discrete features -/

/-- css_parse/src/traits/boolean_feature.rs:103-106 and discrete_feature.rs:113-116: the enum of `boolean_feature!` (the value is a cursor)
and of `discrete_feature!` (any value). -/
inductive Feature (ν : Type) where
  | withValue (opening name colon : Cursor) (value : ν) (close : Cursor)
  | bare (opening name close : Cursor)
  deriving DecidableEq, Repr

/-- css_parse/src/traits/discrete_feature.rs:50-69 `parse_descrete_feature`, discrete_feature.rs:118-128 `Parse`, for any value. -/
def discreteFeature {ν : Type} (name : List Char) (value : Prog ν) : Prog (Feature ν) := do
  let opening ← tok (isKind .leftParen)
  let ident ← tok (isKind .ident)
  if !(← Prog.eqIgnoreAsciiCase ident name) then fail .expectedIdent ident
  else
    let c ← peek
    if c.token.isKind .colon then do
      let colon ← tok (isKind .colon)
      let value ← value
      let close ← tok (isKind .rightParen)
      pure (.withValue opening ident colon value close)
    else do
      let close ← tok (isKind .rightParen)
      pure (.bare opening ident close)

/-- css_parse/src/traits/boolean_feature.rs:48-67 `parse_boolean_feature`, boolean_feature.rs:108-118 `Parse`: the same text as for a
discrete feature, with any token as the value. -/
def booleanFeature (name : List Char) : Prog (Feature Cursor) := discreteFeature name any

/-- css_parse/src/traits/boolean_feature.rs:122-139 and discrete_feature.rs:134-151 `ToCursors`; `cur` writes the value. -/
def Feature.cursors {ν : Type} (cur : ν → List Cursor) : Feature ν → List Cursor
  | .withValue o n c v cl => o :: n :: c :: (cur v ++ [cl])
  | .bare o n cl => [o, n, cl]

/-! ### Ranged features -/

/-- css_parse/src/traits/ranged_feature.rs:201-206: the enum of `ranged_feature!`. -/
inductive Ranged (ν : Type) where
  | left (opening name : Cursor) (comparison : Comparison) (value : ν) (close : Cursor)
  | right (opening : Cursor) (value : ν) (comparison : Comparison) (name close : Cursor)
  | range (opening : Cursor) (left : ν) (leftComparison : Comparison) (name : Cursor) (rightComparison : Comparison) (right : ν) (close : Cursor)
  | legacy (opening name colon : Cursor) (value : ν) (close : Cursor)
  deriving DecidableEq, Repr

/-- css_parse/src/traits/ranged_feature.rs:123-156 `parse_ranged_feature` with the constructors of the macro, 208-213 `Parse`. The
name is a `keyword_set!` with the keys `names`; `legacy` is its `is_legacy`. -/
def rangedFeature {ν : Type} (names : List (List Char)) (legacy : List Char → Bool) (value : Prog ν) : Prog (Ranged ν) := do
  let opening ← tok (isKind .leftParen)
  let c ← peek
  let name ← ifPeek (isKeyword names) (keyword names)
  match name with
  | some (variant, name) => do
    let d ← peek
    if d.token.isKind .colon then do
      let colon ← tok (isKind .colon)
      let value ← value
      let close ← tok (isKind .rightParen)
      pure (.legacy opening name colon value close)
    else if legacy variant then fail .unexpectedIdent c
    else do
      let cmp ← comparison
      let value ← value
      let close ← tok (isKind .rightParen)
      pure (.left opening name cmp value close)
  | none => do
    let left ← value
    let lcmp ← comparison
    let c ← peek
    let (variant, name) ← keyword names
    if legacy variant then fail .unexpected c
    else do
      let d ← peek
      if !d.token.isKind .delim then do
        let close ← tok (isKind .rightParen)
        pure (.right opening left lcmp name close)
      else do
        let rcmp ← comparison
        let right ← value
        let close ← tok (isKind .rightParen)
        pure (.range opening left lcmp name rcmp right close)

/-- css_parse/src/traits/ranged_feature.rs:262-297 `ToCursors`; `cur` writes the value. -/
def Ranged.cursors {ν : Type} (cur : ν → List Cursor) : Ranged ν → List Cursor
  | .left o n c v cl => o :: n :: (c.cursors ++ cur v ++ [cl])
  | .right o v c n cl => o :: (cur v ++ c.cursors ++ [n, cl])
  | .range o l lc n rc r cl => o :: (cur l ++ lc.cursors ++ n :: (rc.cursors ++ cur r ++ [cl]))
  | .legacy o n c v cl => o :: n :: c :: (cur v ++ [cl])

/-! ### Conditions -/

/-- css_parse/src/traits/lists/feature_condition_list.rs:4 `ConditionKeyword`. -/
def CONDITION_KEYWORDS : List (List Char) := [c!"and", c!"not", c!"or"]

/-- The conditions that `build_is`, `build_not`, `build_and`, `build_or` make: css_ast/src/rules/media/mod.rs:244-249,
container/mod.rs:160-165, supports.rs:117-122. -/
inductive Condition (φ : Type) where
  | is (feature : φ)
  | not (keyword : Cursor) (feature : φ)
  | and (features : List (φ × Option Cursor))
  | or (features : List (φ × Option Cursor))
  deriving DecidableEq, Repr

/-- css_parse/src/traits/lists/feature_condition_list.rs:99-110 and 115-126: the two loops of `parse_condition` (their texts are the
same but for the constructor in the end); `feature` and `kw` are the variables of these names. -/
def conditionLoop {φ : Type} (feature : Prog φ) : Nat → List (φ × Option Cursor) → φ → Cursor → Prog (List (φ × Option Cursor))
  | 0, _, _, _ => .panic .diverges
  | n + 1, features, f, kw => do
    let features := features ++ [(f, some kw)]
    let f ← feature
    let c ← peek
    if ← isKeyword CONDITION_KEYWORDS c then do
      let (variant, kw) ← buildKeyword CONDITION_KEYWORDS c
      if variant == c!"and" then conditionLoop feature n features f kw
      else pure (features ++ [(f, none)])
    else pure (features ++ [(f, none)])

/-- css_parse/src/traits/lists/feature_condition_list.rs:84-133 `parse_condition`. -/
def condition {φ : Type} (feature : Prog φ) (fuel : Nat) : Prog (Condition φ) := do
  let c ← peek
  if ← isKeyword CONDITION_KEYWORDS c then do
    let (variant, _) ← buildKeyword CONDITION_KEYWORDS c
    if variant == c!"not" then do
      let f ← feature
      pure (.is f)
    else fail .unexpectedIdent c
  else do
    let f ← feature
    let kw ← ifPeek (isKeyword CONDITION_KEYWORDS) (keyword CONDITION_KEYWORDS)
    match kw with
    | none => pure (.is f)
    | some (variant, kw) =>
      if variant == c!"and" then do
        let fs ← conditionLoop feature fuel [] f kw
        pure (.and fs)
      else if variant == c!"or" then do
        let fs ← conditionLoop feature fuel [] f kw
        pure (.or fs)
      else do
        let g ← feature
        pure (.not kw g)

/-- Features with the keywords after them: the loops in css_ast/src/rules/media/mod.rs:281-288. -/
def chainCursors {φ : Type} (cur : φ → List Cursor) : List (φ × Option Cursor) → List Cursor
  | [] => []
  | (f, kw) :: fs => cur f ++ kw.toList ++ chainCursors cur fs

/-- css_ast/src/rules/media/mod.rs:273-299 `ToCursors for MediaCondition`, container/mod.rs:197-221 `ToCursors for ContainerQuery`,
supports.rs:150-174 `ToCursors for SupportsCondition`; `cur` writes a feature. -/
def Condition.cursors {φ : Type} (cur : φ → List Cursor) : Condition φ → List Cursor
  | .is f => cur f
  | .not kw f => kw :: cur f
  | .and fs => chainCursors cur fs
  | .or fs => chainCursors cur fs

end Hdx

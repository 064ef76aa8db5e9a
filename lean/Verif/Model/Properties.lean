/-
Declarations of style rules: css_ast/src/properties/mod.rs. The grammars of the single properties (css_ast/src/values) are not modelled:
a `Values τ` stands for all of them, and it is arbitrary.
-/
import Verif.Model.Lists
import Verif.Model.Selectors

namespace Hdx
open Prog

/-- What `apply_properties!` (css_ast/src/properties/mod.rs:13, generated by css_ast/build.rs) lists: the names of the properties, and for
every name the type of its values with its `Parse` and `ToCursors`. `τ` is the union of these types. -/
structure Values (τ : Type) where
  /-- the keys of `PropertyId`, css_ast/src/properties/mod.rs:177-184 -/
  names : List (List Char)
  /-- `Parse` of the value of the property of this name -/
  parser : List Char → Prog τ
  /-- `ToCursors` of a value -/
  cursors : τ → List Cursor

/-- css_ast/src/properties/mod.rs:142-165 `StyleValue`; the key of the keyword tells which of the first five variants `wide` is, the
name which of the generated ones `typed` is. -/
inductive StyleValue (τ : Type) where
  | wide (keyword : List Char) (c : Cursor)
  | custom (values : List ComponentValue)
  | computed (values : List ComponentValue)
  | unknown (values : List ComponentValue)
  | typed (name : List Char) (value : τ)

/-- css_ast/src/properties/mod.rs:19-28 `Parse for Custom`, 59-68 `Parse for Computed`, 80-89 `Parse for Unknown`: their texts are the
same. -/
def rawValue (fuel : Nat) : Prog (List ComponentValue) :=
  setState true fun state =>
    setStop KindSet.RIGHT_CURLY_OR_SEMICOLON fun stop => do
      let values ← result (componentValues fuel)
      setState state fun _ => setStop stop fun _ => ofResult values

/-- css_ast/src/properties/mod.rs:43-55: the names in `Peek for Computed`. -/
def COMPUTED : List (List Char) := [c!"var", c!"calc", c!"min", c!"max", c!"clamp", c!"round", c!"mod", c!"rem", c!"sin", c!"cos", c!"tan",
  c!"asin", c!"atan", c!"atan2", c!"pow", c!"sqrt", c!"hypot", c!"log", c!"exp", c!"abs", c!"sign"]

/-- css_ast/src/properties/mod.rs:40-57 `Peek for Computed`. -/
def isComputed (c : Cursor) : Prog Bool := isFunctionOf COMPUTED c

/-- css_ast/src/properties/mod.rs:169-175 `CSSWideKeyword`. -/
def WIDE_KEYWORDS : List (List Char) := [c!"initial", c!"inherit", c!"unset", c!"revert", c!"revert-layer"]

/-- css_ast/src/properties/mod.rs:211: what may follow the value of a known property. -/
def valueEnds : Prog Bool := do
  if ← atEnd then pure true
  else
    let c ← peekN 1
    if c.token.inSet KindSet.RIGHT_CURLY_OR_SEMICOLON then pure true
    else
      let c ← peek
      isDelim '!' c

/-- css_ast/src/properties/mod.rs:206-222: from the checkpoint to the rewind: the value of a known property, or else whether a computed
value (`some`) or any value (`none`) is to be parsed. -/
def typedValue {τ : Type} (V : Values τ) (name : Cursor) : Prog (StyleValue τ ⊕ Bool) := do
  if ← isKeyword V.names name then do
    let (n, _) ← buildKeyword V.names name
    match ← result (V.parser n) with
    | .ok v =>
      if ← valueEnds then pure (.inl (.typed n v))
      else do
        let c ← peek
        let computed ← isComputed c
        pure (.inr computed)
    | .error _ => do
      let c ← peek
      let computed ← isComputed c
      pure (.inr computed)
  else do
    let c ← peek
    let computed ← isComputed c
    pure (.inr computed)

/-- The first part of a value is kept if it is a value: css_ast/src/properties/mod.rs:212 and 223, 226. -/
def keepsTyped {τ : Type} : Except Diag (StyleValue τ ⊕ Bool) → Bool
  | .ok (.inl _) => true
  | _ => false

/-- css_ast/src/properties/mod.rs:187-229 `parse_declaration_value`. -/
def styleValue {τ : Type} (V : Values τ) (fuel : Nat) (name : Cursor) : Prog (StyleValue τ) := do
  if name.token.isDashedIdent then do
    let vs ← rawValue fuel
    pure (.custom vs)
  else do
    match ← ifPeek (isKeyword WIDE_KEYWORDS) (keyword WIDE_KEYWORDS) with
    | some (k, c) => pure (.wide k c)
    | none => do
      let c ← peek
      if ← isComputed c then do
        let vs ← rawValue fuel
        pure (.computed vs)
      else
        attempt (typedValue V name) keepsTyped fun r => do
          match ← ofResult r with
          | .inl v => pure v
          | .inr true => do
            let vs ← rawValue fuel
            pure (.computed vs)
          | .inr false => do
            let vs ← rawValue fuel
            pure (.unknown vs)

/-- css_ast/src/properties/mod.rs:113-122 `Parse for Property`. (`Peek for Property`, 107-111, is `isDeclaration`.) -/
def property {τ : Type} (V : Values τ) (fuel : Nat) : Prog (Decl (StyleValue τ)) := declarationOf (fun _ => pure true) (styleValue V fuel)

/-- css_ast/src/properties/mod.rs:232-251 `ToCursors for StyleValue`. -/
def StyleValue.cursors {τ : Type} (V : Values τ) : StyleValue τ → List Cursor
  | .wide _ c => [c]
  | .custom vs => ComponentValue.cursorsOf vs
  | .computed vs => ComponentValue.cursorsOf vs
  | .unknown vs => ComponentValue.cursorsOf vs
  | .typed _ v => V.cursors v

end Hdx

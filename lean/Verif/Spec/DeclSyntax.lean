/-
Declarations, from their tokens: what they look like, and what the parser makes of them.
-/
import Verif.Props.ValueAccepts
import Verif.Spec.RawValues

namespace Hdx.Spec

/-- The value of a declaration. -/
inductive ValueText where
  /-- a value that the definition of the property takes -/
  | typed (tokens : List Cursor)
  /-- `inherit`, `initial`, `unset`, `revert` or `revert-layer` -/
  | wide (keyword : List Char) (c : Cursor)
  /-- the value of a custom property: any tokens -/
  | custom (tokens : List Cursor)
  /-- any tokens, of which the first is `var(`, `calc(` or another such function -/
  | computed (tokens : List Cursor)
  /-- any tokens, for a property that is not known -/
  | unknown (tokens : List Cursor)

def ValueText.tokens : ValueText → List Cursor
  | .typed w | .custom w | .computed w | .unknown w => w
  | .wide _ c => [c]

/-- Values that are kept as they are written. -/
def ValueText.raw : ValueText → Bool
  | .custom _ | .computed _ | .unknown _ => true
  | _ => false

/-- A declaration: its tokens without whitespace and comments. `property` is the name in small letters. -/
structure DeclText where
  name : Cursor
  property : List Char
  colon : Cursor
  value : ValueText
  important : Option BangImportant
  semicolon : Option Cursor

def importantTokens : Option BangImportant → List Cursor
  | some b => [b.bang, b.important]
  | none => []

def DeclText.tokens (d : DeclText) : List Cursor := d.name :: d.colon :: (d.value.tokens ++ (importantTokens d.important ++ d.semicolon.toList))

/-- The value is right for the property of that name: `name` is the token, `n` the name in small letters. -/
def ValueText.Fits (src : List Char) (name : Cursor) (n : List Char) : ValueText → Prop
  | .typed w => GoodValue src n w
  | .custom w => name.token.isDashedIdent = true ∧ RawTokens w
  | .computed w => ¬ ['-', '-'] <+: n ∧ RawTokens w ∧ ∃ c ∈ w.head?, IsKind .function c ∧ Clear src c ∧ ∃ f ∈ computing, Named src c f
  | .unknown w => ¬ ['-', '-'] <+: n ∧ (∀ row ∈ DEFINITIONS, propertyName row.1 ≠ n) ∧ RawTokens w ∧ ∀ c ∈ w.head?, Clear src c ∧ (IsKind .ident c → ∀ k ∈ WIDE_KEYWORDS, ¬ Named src c k) ∧
      (IsKind .function c → ∀ f ∈ computing, ¬ Named src c f)
  | .wide k c => IsKind .ident c ∧ Named src c k ∧ Clear src c ∧ k ∈ WIDE_KEYWORDS ∧ ¬ ['-', '-'] <+: n

structure DeclText.Fits (src : List Char) (d : DeclText) : Prop where
  name : IsKind .ident d.name ∧ Named src d.name d.property ∧ Clear src d.name
  colon : IsKind .colon d.colon
  value : d.value.Fits src d.name d.property
  important : ∀ b ∈ d.important, IsDelim '!' b.bang ∧ IsWord src c!"important" b.important ∧ Clear src b.important
  semicolon : ∀ c ∈ d.semicolon, IsKind .semicolon c
  /-- `!important` is among the tokens of values that are kept as they are written -/
  raw : d.value.raw = true → d.important = none

/-- What a value becomes: the tokens of a typed value are those written, perhaps in another order. -/
def ValueText.Becomes (n : List Char) : ValueText → StyleValue Val → Prop
  | .typed w, v => ∃ x, v = .typed n x ∧ x.cursors.Perm w
  | .wide k c, v => v = .wide k c
  | .custom w, v => ∃ vs, v = .custom vs ∧ ReadsAs w vs
  | .computed w, v => ∃ vs, v = .computed vs ∧ ReadsAs w vs
  | .unknown w, v => ∃ vs, v = .unknown vs ∧ ReadsAs w vs

def DeclText.Becomes (d : DeclText) (x : Decl (StyleValue Val)) : Prop :=
  x.name = d.name ∧ x.colon = d.colon ∧ x.important = d.important ∧ d.value.Becomes d.property x.value

end Hdx.Spec

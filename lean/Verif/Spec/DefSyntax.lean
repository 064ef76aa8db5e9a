/-
The notation of value definitions: https://www.w3.org/TR/css-values-4/#value-defs. Which text stands for which definition.
-/
import Verif.Model.Definitions

namespace Hdx.Spec

/-! ### Texts and tokens -/

/-- Blanks, and `∞`, which stands for a bound that is absent. -/
def DefBlank (c : Char) : Prop := c = ' ' ∨ c = '\n' ∨ c = '\t' ∨ c = '∞'

/-- The text of a token; a quoted name is in `'`. -/
def defTokText : DefTok → List Char
  | .word s => s
  | .quoted s => '\'' :: (s ++ ['\''])
  | .sym s => s

/-- Where a token ends: a word does not go on, and `|` and `&` are not doubled. -/
def DefTokEnds : DefTok → List Char → Prop
  | .word _, rest => ∀ c ∈ rest.head?, ¬ (c.isAlphanum = true ∨ c = '-' ∨ c = '_')
  | .quoted _, _ => True
  | .sym s, rest => s = ['|'] ∨ s = ['&'] → rest.head? ≠ s.head?

/-- The text is that of the tokens, with blanks before, between and after them. -/
def Spelled : List DefTok → List Char → Prop
  | [], s => ∀ c ∈ s, DefBlank c
  | t :: ts, s => ∃ pre rest, s = pre ++ (defTokText t ++ rest) ∧ (∀ c ∈ pre, DefBlank c) ∧ DefTokEnds t rest ∧ Spelled ts rest

/-! ### Parts -/

/-- The value of a decimal number. -/
def decimal : List Char → Nat
  | [] => 0
  | c :: cs => (c.toNat - '0'.toNat) * 10 ^ cs.length + decimal cs

/-- A number, perhaps with a unit (`0s`), whose value is `n`. -/
def NumberText (n : Nat) (s : List Char) : Prop :=
  ∃ ds unit, s = ds ++ unit ∧ ds ≠ [] ∧ (∀ c ∈ ds, c.isDigit = true) ∧ (∀ c ∈ unit.head?, c.isDigit = false) ∧ n = decimal ds

/-- The tokens of a range. -/
inductive RangeText : DefRange → List DefTok → Prop
  | fixed {n s} : NumberText n s → RangeText (.fixed n) [.word s]
  | range {a b s t} : NumberText a s → NumberText b t → RangeText (.range a b) [.word s, .sym [','], .word t]
  | «from» {a s} : NumberText a s → RangeText (.from a) [.word s, .sym [',']]
  | to {b t} : NumberText b t → RangeText (.to b) [.sym [','], .word t]

/-- A range in brackets, or nothing. -/
inductive BracketText (opening closing : Char) : DefRange → List DefTok → Prop
  | none : BracketText opening closing .none []
  | some {r ts} : RangeText r ts → BracketText opening closing r (.sym [opening] :: (ts ++ [.sym [closing]]))

/-- The types that have a name of their own, with a range. -/
def rangedTypes : List (List Char × (DefRange → DefType)) := [
  (c!"length", .length), (c!"length-percentage", .lengthPercentage), (c!"angle", .angle), (c!"time", .time), (c!"resolution", .resolution), (c!"integer", .integer),
  (c!"number", .number), (c!"percentage", .percentage)]
/-- The types that have a name of their own, without a range. -/
def plainTypes : List (List Char × DefType) := [
  (c!"string", .string), (c!"color", .color), (c!"image", .image), (c!"image-1D", .image1D), (c!"dashed-ident", .dashedIdent), (c!"custom-ident", .customIdent)]

/-- The tokens between `<` and `>`. -/
inductive TypeText : DefType → List DefTok → Prop
  | ranged {name make r ts} : (name, make) ∈ rangedTypes → BracketText '[' ']' r ts → TypeText (make r) (.word name :: ts)
  | plain {name t} : (name, t) ∈ plainTypes → TypeText t [.word name]
  /-- Any other name is that of a Rust type. -/
  | custom {name} : name ∉ rangedTypes.map (·.1) → name ∉ plainTypes.map (·.1) → TypeText (.custom (pascal name)) [.word name]
  /-- `<name()>` -/
  | function {name} : name ∉ rangedTypes.map (·.1) → name ∉ plainTypes.map (·.1) → TypeText (.custom (pascal name)) [.word name, .sym ['('], .sym [')']]
  /-- `<'name'>`: the values of a property. -/
  | property {name} : TypeText (.custom (pascal (name ++ c!"-style-value"))) [.quoted name]

/-- What follows the bracket of a group. -/
inductive GroupText : DefGroup → List DefTok → Prop
  | none : GroupText .none []
  | must : GroupText .oneMustOccur [.sym ['!']]
  | commas : GroupText .oneOrMore [.sym ['#']]
  | range {r ts} : RangeText r ts → GroupText (.range r) (.sym ['{'] :: (ts ++ [.sym ['}']]))

/-- The combinator that joins two items. -/
def styleText : DefStyle → List DefTok
  | .ordered => []
  | .allMustOccur => [.sym ['&', '&']]
  | .options => [.sym ['|', '|']]
  | .alternatives => [.sym ['|']]

/-- How tightly the combinators bind: juxtaposition most, then `&&`, `||`, and `|` least. Items are `0`. -/
def level : DefStyle → Nat
  | .ordered => 1
  | .allMustOccur => 2
  | .options => 3
  | .alternatives => 4

/-- Multipliers of groups are part of the group. -/
def plainGroup : Def → Bool
  | .group _ .none => true
  | _ => false
/-- After these `{` would be part of the `#`. -/
def endsInHash : Def → Bool
  | .group _ .oneOrMore => true
  | .mult _ (.commas .none) => true
  | _ => false

mutual
/-- The tokens stand for the definition, whose combinators, outside of brackets, bind at least as tightly as the level says. -/
inductive Written : Nat → Def → List DefTok → Prop
  | ident {l s} : Written l (.ident s) [.word s]
  | punct {l c} : c ∈ [',', '/'] → Written l (.punct c) [.sym [c]]
  | type {l t ts} : TypeText t ts → Written l (.type t) (.sym ['<'] :: (ts ++ [.sym ['>']]))
  | function {l s d ts} : Written 4 d ts → Written l (.function s d) (.word s :: .sym ['('] :: (ts ++ [.sym [')']]))
  | group {l d g ts us} : Written 4 d ts → GroupText g us → Written l (.group d g) (.sym ['['] :: (ts ++ .sym [']'] :: us))
  /-- Multipliers are of single items. -/
  | optional {l d ts} : Written 0 d ts → Written l (.optional d) (ts ++ [.sym ['?']])
  | star {l d ts} : Written 0 d ts → Written l (.mult d .zeroOrMore) (ts ++ [.sym ['*']])
  | plus {l d ts} : Written 0 d ts → Written l (.mult d .oneOrMore) (ts ++ [.sym ['+']])
  | commas {l d r ts us} : Written 0 d ts → plainGroup d = false → BracketText '{' '}' r us → Written l (.mult d (.commas r)) (ts ++ .sym ['#'] :: us)
  | range {l d r ts us} : Written 0 d ts → plainGroup d = false → endsInHash d = false → RangeText r us →
      Written l (.mult d (.range r)) (ts ++ .sym ['{'] :: (us ++ [.sym ['}']]))
  /-- Two or more items with a combinator between them; each binds more tightly. -/
  | comb {l s ds ts} : level s ≤ l → 2 ≤ ds.length → Joined s ds ts → Written l (.comb ds s) ts
/-- The items one after the other, with the combinator between them. -/
inductive Joined : DefStyle → List Def → List DefTok → Prop
  | one {s d ts} : Written (level s - 1) d ts → Joined s [d] ts
  | more {s d ds ts us} : Written (level s - 1) d ts → Joined s ds us → Joined s (d :: ds) (ts ++ (styleText s ++ us))
end

/-- The text is written for the definition. -/
def TextOf (s : List Char) (d : Def) : Prop := ∃ ts, Spelled ts s ∧ Written 4 d ts

end Hdx.Spec

/-
The value definition syntax of CSS (https://drafts.csswg.org/css-values-4/#value-defs): which lists of tokens match a definition.
Written from that specification; it knows of the model only tokens, their texts, and the syntax trees of definitions.
-/
import Verif.Model.ValueDef
import Verif.Props.SelectorLabels
import Verif.Spec.Float

namespace Hdx.Spec

/-! ### Tokens -/

/-- The text of the token (of a dimension: its unit, of a function: its name) is `name` in any case. What `parse_str_lower` and
`eq_ignore_ascii_case` see is the subject of C22 to C24. -/
def Called (src : List Char) (c : Cursor) (name : List Char) : Prop := Named src c name ∨ c.eqIgnoreAsciiCase src name = .ok true

/-- A keyword: an ident of that name. -/
def IsWord (src : List Char) (name : List Char) (c : Cursor) : Prop := IsKind .ident c ∧ Called src c name

/-- A dimension with this unit: either its text says so, or the unit that the lexer has put into the token (C14, C57). -/
def HasUnit (src : List Char) (unit : List Char) (c : Cursor) : Prop :=
  IsKind .dimension c ∧ (Called src c unit ∨ unitName c.token.dimensionUnit = some unit)

/-- The number of a token is 0, or -0. -/
def IsZero (c : Cursor) : Prop := IsKind .number c ∧ f32Units (c.token.value.toNat % 2 ^ 31) = 0

/-- The units of lengths: https://drafts.csswg.org/css-values-4/#lengths and https://drafts.csswg.org/css-contain-3/#container-lengths. -/
def lengthUnits : List (List Char) := [
  c!"em", c!"rem", c!"ex", c!"rex", c!"cap", c!"rcap", c!"ch", c!"rch", c!"ic", c!"ric", c!"lh", c!"rlh",
  c!"vw", c!"svw", c!"lvw", c!"dvw", c!"vh", c!"svh", c!"lvh", c!"dvh", c!"vi", c!"svi", c!"lvi", c!"dvi", c!"vb", c!"svb", c!"lvb", c!"dvb",
  c!"vmin", c!"svmin", c!"lvmin", c!"dvmin", c!"vmax", c!"svmax", c!"lvmax", c!"dvmax",
  c!"cm", c!"mm", c!"q", c!"in", c!"pt", c!"pc", c!"px",
  c!"cqw", c!"cqh", c!"cqi", c!"cqb", c!"cqmin", c!"cqmax"]

/-- https://drafts.csswg.org/css-values-4/#length-value -/
def IsLength (src : List Char) (c : Cursor) : Prop := IsZero c ∨ ∃ u ∈ lengthUnits, HasUnit src u c
/-- https://drafts.csswg.org/css-values-4/#percentage-value -/
def IsPercentage (src : List Char) (c : Cursor) : Prop := HasUnit src c!"%" c
/-- https://drafts.csswg.org/css-values-4/#angle-value -/
def IsAngle (src : List Char) (c : Cursor) : Prop := ∃ u ∈ [c!"deg", c!"grad", c!"rad", c!"turn"], HasUnit src u c
/-- https://drafts.csswg.org/css-values-4/#time-value: a zero needs its unit. -/
def IsTime (src : List Char) (c : Cursor) : Prop := ∃ u ∈ [c!"s", c!"ms"], HasUnit src u c
/-- https://drafts.csswg.org/css-values-4/#resolution-value -/
def IsResolution (src : List Char) (c : Cursor) : Prop := ∃ u ∈ [c!"dpi", c!"dpcm", c!"dppx", c!"x"], HasUnit src u c
/-- https://drafts.csswg.org/css-values-4/#integer-value: a number without fraction and exponent (C12). -/
def IsInteger (c : Cursor) : Prop := IsKind .number c ∧ c.token.isInt = true
/-- https://drafts.csswg.org/css-variables-2/#typedef-dashed-ident -/
def IsDashedIdent (c : Cursor) : Prop := IsKind .ident c ∧ c.token.isDashedIdent = true

/-! ### Ranges -/

/-- The number `(-1)^sign * units * 2^-149` of the bits of a finite `f32` is at least `n`. -/
def AtLeast (n : Nat) (bits : BitVec 32) : Prop :=
  (bits.toNat < 2 ^ 31 ∧ n * 2 ^ 149 ≤ f32Units bits.toNat) ∨ (n = 0 ∧ f32Units (bits.toNat % 2 ^ 31) = 0)
/-- It is at most `n`: it is negative, or not above. -/
def AtMost (n : Nat) (bits : BitVec 32) : Prop := 2 ^ 31 ≤ bits.toNat ∨ f32Units bits.toNat ≤ n * 2 ^ 149

/-- `[a,b]` after the name of a type: https://drafts.csswg.org/css-values-4/#numeric-ranges -/
def InRange : DefRange → Cursor → Prop
  | .none, _ => True
  | .range a b, c => AtLeast a c.token.value ∧ AtMost b c.token.value
  | .from a, c => AtLeast a c.token.value
  | .to b, c => AtMost b c.token.value
  | .fixed a, c => AtLeast a c.token.value ∧ AtMost a c.token.value

/-- `{a,b}` after a definition: so many times. -/
def InCount : DefRange → Nat → Prop
  | .none, _ => True
  | .range a b, n => a ≤ n ∧ n ≤ b
  | .from a, n => a ≤ n
  | .to b, n => n ≤ b
  | .fixed a, n => n = a

/-! ### Definitions -/

/-- What the names of types stand for. -/
abbrev Meaning := List Char → List Cursor → Prop

/-- The basic types. (A `<time>` may be a zero without a unit in hdx; in CSS it may not.) -/
def MatchesType (src : List Char) (M : Meaning) : DefType → List Cursor → Prop
  | .length r, w => ∃ c, w = [c] ∧ IsLength src c ∧ InRange r c
  | .lengthPercentage r, w => ∃ c, w = [c] ∧ (IsLength src c ∨ IsPercentage src c) ∧ InRange r c
  | .angle r, w => ∃ c, w = [c] ∧ IsAngle src c ∧ InRange r c
  | .time r, w => ∃ c, w = [c] ∧ (IsTime src c ∨ IsZero c) ∧ InRange r c
  | .resolution r, w => ∃ c, w = [c] ∧ IsResolution src c ∧ InRange r c
  | .integer r, w => ∃ c, w = [c] ∧ IsInteger c ∧ InRange r c
  | .number r, w => ∃ c, w = [c] ∧ IsKind .number c ∧ InRange r c
  | .percentage r, w => ∃ c, w = [c] ∧ IsPercentage src c ∧ InRange r c
  | .string, w => ∃ c, w = [c] ∧ IsKind .string c
  | .dashedIdent, w => ∃ c, w = [c] ∧ IsDashedIdent c
  | .customIdent, w => ∃ c, w = [c] ∧ IsKind .ident c
  | .color, w => M c!"Color" w
  | .image, w => M c!"Image" w
  | .image1D, w => M c!"Image1D" w
  | .custom name, w => M name w

mutual
/-- The tokens match the definition. -/
inductive Matches (src : List Char) (M : Meaning) : Def → List Cursor → Prop
  | ident : IsWord src (name.map asciiLower) c → Matches src M (.ident name) [c]
  /-- The closing parenthesis may be missing. -/
  | function : IsKind .function f → Called src f (name.map asciiLower) → Matches src M d w → Closes .rightParen close →
      Matches src M (.function name d) (f :: (w ++ close.toList))
  | type : MatchesType src M t w → Matches src M (.type t) w
  | punct : (ch ≠ ',' ∧ IsDelim ch c) ∨ (ch = ',' ∧ IsKind .comma c) → Matches src M (.punct ch) [c]
  /-- `?` -/
  | absent : Matches src M (.optional d) []
  | present : Matches src M d w → Matches src M (.optional d) w
  /-- Juxtaposition: all of them, in the given order. -/
  | ordered : MatchesSeq src M ds w → Matches src M (.comb ds .ordered) w
  /-- `&&`: all of them, in any order. -/
  | all : es.Perm ds → MatchesSeq src M es w → Matches src M (.comb ds .allMustOccur) w
  /-- `||`: one or more of them, in any order. -/
  | some : es ≠ [] → (es ++ rest).Perm ds → MatchesSeq src M es w → Matches src M (.comb ds .options) w
  /-- `|`: exactly one of them. -/
  | one : d ∈ ds → Matches src M d w → Matches src M (.comb ds .alternatives) w
  /-- `[ ]` -/
  | group : Matches src M d w → Matches src M (.group d .none) w
  /-- `[ ]!`: at least one value. -/
  | must : Matches src M d w → w ≠ [] → Matches src M (.group d .oneMustOccur) w
  /-- `[ ]#` -/
  | groupCommas : MatchesCommas src M d n w → Matches src M (.group d .oneOrMore) w
  /-- `[ ]{a,b}` -/
  | groupRange : MatchesTimes src M d n w → InCount r n → Matches src M (.group d (.range r)) w
  /-- `*` -/
  | star : MatchesTimes src M d n w → Matches src M (.mult d .zeroOrMore) w
  /-- `+` -/
  | plus : MatchesTimes src M d n w → 1 ≤ n → Matches src M (.mult d .oneOrMore) w
  /-- `#`, `#{a,b}` -/
  | commas : MatchesCommas src M d n w → InCount r n → Matches src M (.mult d (.commas r)) w
  /-- `{a,b}` -/
  | times : MatchesTimes src M d n w → InCount r n → Matches src M (.mult d (.range r)) w
/-- One after the other. -/
inductive MatchesSeq (src : List Char) (M : Meaning) : List Def → List Cursor → Prop
  | nil : MatchesSeq src M [] []
  | cons : Matches src M d w → MatchesSeq src M ds v → MatchesSeq src M (d :: ds) (w ++ v)
/-- `n` times. -/
inductive MatchesTimes (src : List Char) (M : Meaning) : Def → Nat → List Cursor → Prop
  | none : MatchesTimes src M d 0 []
  | more : Matches src M d w → MatchesTimes src M d n v → MatchesTimes src M d (n + 1) (w ++ v)
/-- `n` times, with commas between. -/
inductive MatchesCommas (src : List Char) (M : Meaning) : Def → Nat → List Cursor → Prop
  | one : Matches src M d w → MatchesCommas src M d 1 w
  | more : Matches src M d w → IsKind .comma c → MatchesCommas src M d n v → MatchesCommas src M d (n + 1) (w ++ c :: v)
end

/-! ### Where hdx keeps to the syntax -/

/-- A type that the macro reads as it should: not a `<percentage>`, which it reads as a number with a fraction or an exponent, a `<string>`,
which it reads as an ident, nor a range that it does not check. `good` says it of the named types. -/
def faithfulType (good : List Char → Bool) : DefType → Bool
  | .percentage _ | .string => false
  | .color => good c!"Color"
  | .image => good c!"Image"
  | .image1D => good c!"Image1D"
  | .custom name => good name
  | t => match t.checks with
    | .none | .range _ _ => true
    | .from n | .to n => n ≤ 2 ^ 24
    | .fixed _ => false

/-- The definition is not a type with a range. -/
def faithfulPart : Def → Bool
  | .type t => t.checks == .none
  | _ => true

/-- The name is written in lower case. -/
def lowerName (name : List Char) : Bool := kebab name == name.map asciiLower

mutual
/-- The definition is read as it should be: so are all types in it, no keyword has capitals, and where the macro leaves out the range
of a type (in `?`, in `||`, in the last parts of `{a,b}`) there is none. (A `{a,b}` with a greater than b has no meaning.) -/
def Faithful (good : List Char → Bool) : Def → Bool
  | .ident name => lowerName name
  | .function name d => lowerName name && Faithful good d
  | .type t => faithfulType good t
  | .optional d => Faithful good d && faithfulPart d
  | .comb ds .options => FaithfulAll good ds && ds.all faithfulPart
  | .comb ds _ => FaithfulAll good ds
  | .group d _ => Faithful good d
  | .mult d (.range (.range a b)) => Faithful good d && a ≤ b && (faithfulPart d || a == b)
  | .mult d _ => Faithful good d
  | .punct _ => true
/-- All definitions of a list are. -/
def FaithfulAll (good : List Char → Bool) : List Def → Bool
  | [] => true
  | d :: ds => Faithful good d && FaithfulAll good ds
end

end Hdx.Spec

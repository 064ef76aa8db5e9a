/-
The value definitions of csskit_proc_macro: csskit_proc_macro/src/def.rs and value.rs, and the types they are made of (css_ast/src/units).
The macro `#[value(...)]` reads a definition and writes Rust code; here a definition has a meaning, the program that the written code is.
-/
import Verif.Model.Media
import Verif.Model.AtRules

namespace Hdx
open Prog

/-! ### Names -/

/-- csskit_proc_macro/src/string_transform.rs:1-10 `kebab`. -/
def kebab : List Char → List Char
  | [] => []
  | c :: cs => c.toLower :: cs.flatMap fun c => if c.isUpper then ['-', c.toLower] else [c]

/-- The characters after the first, or after one left out: `upper` is `make_upper`. -/
def pascalFrom : Bool → List Char → List Char
  | _, [] => []
  | upper, c :: cs => if c == '_' || c == '-' then pascalFrom true cs else (if upper then c.toUpper else c) :: pascalFrom false cs

/-- csskit_proc_macro/src/string_transform.rs:12-28 `pascal`. -/
def pascal : List Char → List Char := pascalFrom true

/-! ### Definitions -/

/-- csskit_proc_macro/src/def.rs:87-94 `DefRange`. The bounds are `f32` in the code; here they are natural numbers, as in every definition of
css_ast. -/
inductive DefRange where
  | none | range (start stop : Nat) | «from» (start : Nat) | to (stop : Nat) | fixed (n : Nat)
  deriving DecidableEq, Repr

/-- csskit_proc_macro/src/def.rs:99-116 `DefType`; of `Custom` only the first name (that of the type) is kept, the second names a variant. -/
inductive DefType where
  | length (r : DefRange) | lengthPercentage (r : DefRange) | angle (r : DefRange) | time (r : DefRange) | resolution (r : DefRange)
  | integer (r : DefRange) | number (r : DefRange) | percentage (r : DefRange)
  | color | string | image | image1D | dashedIdent | customIdent
  | custom (name : List Char)
  deriving DecidableEq, Repr

/-- csskit_proc_macro/src/def.rs:71-77 `DefCombinatorStyle`. -/
inductive DefStyle where
  | ordered | allMustOccur | options | alternatives
  deriving DecidableEq, Repr

/-- csskit_proc_macro/src/def.rs:71 `derive(PartialOrd)`: the order of the variants. -/
def DefStyle.rank : DefStyle → Nat
  | .ordered => 0 | .allMustOccur => 1 | .options => 2 | .alternatives => 3

/-- csskit_proc_macro/src/def.rs:63-69 `DefGroupStyle`. -/
inductive DefGroup where
  | none | oneMustOccur | oneOrMore | range (r : DefRange)
  deriving DecidableEq, Repr

/-- csskit_proc_macro/src/def.rs:79-85 `DefMultiplierStyle`. -/
inductive DefMult where
  | zeroOrMore | oneOrMore | commas (r : DefRange) | range (r : DefRange)
  deriving DecidableEq, Repr

/-- csskit_proc_macro/src/def.rs:51-61 `Def`. -/
inductive Def where
  | ident (name : List Char)
  | function (name : List Char) (args : Def)
  | type (t : DefType)
  | optional (d : Def)
  | comb (ds : List Def) (s : DefStyle)
  | group (d : Def) (g : DefGroup)
  | mult (d : Def) (m : DefMult)
  | punct (ch : Char)

/-! ### Values -/

/-- The values of the generated types. `tok` is a single token, `fields` a tuple, a list, or an
optional value (a list of at most one), `variant` a variant of an enum, by its place in the definition,
`circular` the variant `Circular` of `RadialSize` (css_ast/src/types/gradient.rs:292). -/
inductive Val where
  | tok (c : Cursor)
  | fields (vs : List (Val))
  | variant (i : Nat) (v : Val)
  | circular (v : Val)

/-- An optional value. -/
def Val.opt : Option (Val) → Val
  | some v => .fields [v]
  | none => .fields []

mutual
/-- The cursors a value writes (`ToCursors`): csskit_proc_macro/src/def.rs:708-851, 1053-1150 `generate_tocursors_trait_implementation` and
`to_cursors_steps`: the fields in the order of the definition. -/
def Val.cursors : Val → List Cursor
  | .tok c => [c]
  | .fields vs => Val.cursorsOf vs
  | .variant _ v => v.cursors
  | .circular v => v.cursors
/-- The cursors of a list of values. -/
def Val.cursorsOf : List (Val) → List Cursor
  | [] => []
  | v :: vs => v.cursors ++ Val.cursorsOf vs
end

/-! ### Types -/

/-- `Peek` and `Parse` of a type of values. -/
structure Leaf where
  test : Cursor → Prog Bool
  parser : Prog (Val)

section

/-- css_parse/src/traits/parse.rs:27-40: a type that implements `Build` parses one token that `Peek` accepts. (The `Build` of these types
asks the same questions as the `Peek` did.) -/
def Leaf.single (test : Cursor → Prog Bool) : Leaf := ⟨test, do let c ← tok test; pure (.tok c)⟩

/-- A `keyword_set!`: css_parse/src/token_macros.rs:420-432. -/
def Leaf.keywords (names : List (List Char)) : Leaf := ⟨isKeyword names, do let (_, c) ← keyword names; pure (.tok c)⟩

/-- css_ast/src/units/length.rs:248-259 `Peek for LengthPercentage`. -/
def isLengthPercentage (c : Cursor) : Prog Bool := do
  if c.token.isKind .number && f32IsZero c.token.value then pure true
  else if ← isDimensionOf .percent c then pure true
  else isAnyDimension LENGTH_UNITS c

/-- `<T![Dimension]>::peek(p, c) && matches!(p.parse_str_lower(c), ...)`. -/
def isUnitOf (names : List (List Char)) (c : Cursor) : Prog Bool :=
  if c.token.isKind .dimension then do
    let s ← strLower c
    pure (names.contains s)
  else pure false

/-- css_ast/src/units/angles.rs:28-32 `Peek for Angle`. -/
def isAngle : Cursor → Prog Bool := isUnitOf [c!"grad", c!"rad", c!"turn", c!"deg"]
/-- css_ast/src/units/time.rs:22-27 `Peek for Time`. -/
def isTime (c : Cursor) : Prog Bool :=
  if c.token.isKind .number && f32IsZero c.token.value then pure true else isUnitOf [c!"s", c!"ms"] c
/-- css_ast/src/units/resolution.rs:34-38 `Peek for Resolution`. -/
def isResolution : Cursor → Prog Bool := isUnitOf [c!"dpi", c!"dpcm", c!"dppx"]

/-- csskit_proc_macro/src/def.rs:1438-1460 `to_type_name`: the type that the generated code names. A `<percentage>` is a `CSSFloat`, and a
`<string>` an ident. -/
def DefType.leaf (env : List Char → Leaf) : DefType → Leaf
  | .length _ => .single isLength
  | .lengthPercentage _ => .single isLengthPercentage
  | .percentage _ => .single isCssFloat
  | .angle _ => .single isAngle
  | .time _ => .single isTime
  | .resolution _ => .single isResolution
  | .integer _ => .single isCssInt
  | .number _ => .single isCssFloat
  | .color => env c!"Color"
  | .image => env c!"Image"
  | .image1D => env c!"Image1D"
  | .dashedIdent => .single fun c => pure (isDashed c)
  | .customIdent => .single (isKind .ident)
  | .string => .single (isKind .ident)
  | .custom name => env name

/-- csskit_proc_macro/src/def.rs:1462-1474 `checks`. -/
def DefType.checks : DefType → DefRange
  | .length r | .lengthPercentage r | .percentage r | .angle r | .time r | .resolution r | .integer r | .number r => r
  | _ => .none

/-- Rust's `n > f` for the float with these bits: the bits of floats that are not negative are in the order of the floats. -/
def f32Below (n : Nat) (w : BitVec 32) : Bool :=
  if w.msb then w != 0x80000000#32 || n != 0 else w.toNat < F32.ofRat n 1
/-- Rust's `n < f` for the float with these bits. -/
def f32Above (n : Nat) (w : BitVec 32) : Bool := !w.msb && F32.ofRat n 1 < w.toNat

/-- `let valf32: f32 = value.into()`: css_ast/src/units/*.rs `From<...> for f32`, for the types that have `checks`. (`Length::Zero` and the like
give 0.0 for any zero.) -/
def Val.number : Val → BitVec 32
  | .tok c => c.token.value
  | _ => 0

/-- csskit_proc_macro/src/def.rs:1504-1547 `GenerateParseImpl for DefType`. Code for a range with both bounds does not compile
(`contains` takes a reference). -/
def DefType.steps (env : List Char → Leaf) (t : DefType) : Prog (Val) := do
  let start ← offset
  let v ← (t.leaf env).parser
  match t.checks with
  | .to n =>
    if f32Above n v.number then do
      let stop ← offset
      ofResult (.error ⟨.numberTooLarge, ⟨start, stop⟩⟩)
    else pure v
  | .from n =>
    if f32Below n v.number then do
      let stop ← offset
      ofResult (.error ⟨.numberTooSmall, ⟨start, stop⟩⟩)
    else pure v
  | .range _ _ => .panic .todo
  | .none | .fixed _ => pure v

/-! ### Peek -/

mutual
/-- csskit_proc_macro/src/def.rs:1153-1184 `GeneratePeekImpl for Def`. (The code leaves out repeated alternatives.) -/
def Def.test (env : List Char → Leaf) : Def → Cursor → Prog Bool
  | .type t, c => (t.leaf env).test c
  | .ident _, c => isKind .ident c
  | .function _ _, c => isKind .function c
  | .optional d, c => d.test env c
  | .comb [] _, _ => .panic .todo
  | .comb (d :: ds) s, c =>
    match s with
    | .ordered => d.test env c
    | _ => Def.testAny env (d :: ds) c
  | .group d _, c => d.test env c
  | .mult d _, c => d.test env c
  | .punct _, _ => .panic .todo
/-- A chain of `||`. -/
def Def.testAny (env : List Char → Leaf) : List Def → Cursor → Prog Bool
  | [], _ => pure false
  | d :: ds, c => do
    if ← d.test env c then pure true else Def.testAny env ds c
end

/-! ### Parse -/

/-- A sequence of programs. -/
def sequence {α : Type} : List (Prog α) → Prog (List α)
  | [] => pure []
  | x :: xs => do
    let a ← x
    let as ← sequence xs
    pure (a :: as)

/-- csskit_proc_macro/src/def.rs:1262-1273: the loop of a comma separated list. -/
def commaLoop (item : Prog (Val)) : Nat → List (Val) → Prog (List (Val))
  | 0, _ => .panic .diverges
  | n + 1, vs => do
    let v ← item
    let comma ← ifPeek (isKind .comma) (tok (isKind .comma))
    let vs := vs ++ [.fields [v, .opt (comma.map .tok)]]
    if comma.isNone then pure vs else commaLoop item n vs

/-- csskit_proc_macro/src/def.rs:1274-1285: the loop of a list that is not separated. -/
def manyLoop (test : Cursor → Prog Bool) (item : Prog (Val)) : Nat → List (Val) → Prog (List (Val))
  | 0, _ => .panic .diverges
  | n + 1, vs => do
    let c ← peekN 1
    if ← test c then do
      let v ← item
      manyLoop test item n (vs ++ [v])
    else pure vs

/-- csskit_proc_macro/src/def.rs:601-632: one round of the loop of an `||`: the first option that has no value yet and is peeked. -/
def optionsRound : List (Leaf) → List (Option (Val)) → Prog (Option (List (Option (Val))))
  | _ :: ls, some v :: vs => do
    match ← optionsRound ls vs with
    | some vs => pure (some (some v :: vs))
    | none => pure none
  | l :: ls, none :: vs => do
    let c ← peek
    if ← l.test c then do
      let v ← l.parser
      pure (some (some v :: vs))
    else do
      match ← optionsRound ls vs with
      | some vs => pure (some (none :: vs))
      | none => pure none
  | _, _ => pure none

/-- csskit_proc_macro/src/def.rs:621-631: the loop of an `||`. -/
def optionsLoop (ls : List (Leaf)) : Nat → List (Option (Val)) → Prog (List (Option (Val)))
  | 0, _ => .panic .diverges
  | n + 1, vs => do
    match ← optionsRound ls vs with
    | some vs => optionsLoop ls n vs
    | none =>
      if vs.all fun v => v.isNone then do
        let c ← any
        fail .unexpected c
      else pure vs

/-- The types of the options of an `||`; the macro panics if one is not a type. -/
def Def.types : List Def → Option (List DefType)
  | [] => some []
  | .type t :: ds => (Def.types ds).map (t :: ·)
  | _ :: _ => none

/-- csskit_proc_macro/src/def.rs:601-641, 1317-1352: an `||`. -/
def options (env : List Char → Leaf) (ds : List Def) : Prog (Val) :=
  match Def.types ds with
  | some ts => do
    let vs ← optionsLoop (ts.map (DefType.leaf env)) (ts.length + 1) (ts.map fun _ => none)
    pure (.fields (vs.map .opt))
  | none => .panic .todo

/-- csskit_proc_macro/src/def.rs:1187-1372 `GenerateParseImpl for Def`: the code that captures one value. Definitions for which the macro
panics, or writes code that does not compile, have no program; here it is `panic`. -/
def Def.steps (env : List Char → Leaf) : Def → Prog (Val)
  | .type t => t.steps env
  | .function name d => do
    let f ← tok (isKind .function)
    if !(← Prog.eqIgnoreAsciiCase f (kebab name)) then do
      let _ ← Prog.str f
      fail .other f
    else do
      let v ← d.steps env
      let close ← ifPeek (isKind .rightParen) (tok (isKind .rightParen))
      pure (.fields [.tok f, v, .opt (close.map .tok)])
  | .mult (.type t) (.range (.fixed n)) => do
    let vs ← sequence (List.replicate n (t.steps env))
    pure (.fields vs)
  | .mult d (.commas .none) => .read fun p => do
    let vs ← commaLoop (d.steps env) p.fuel []
    pure (.fields vs)
  | .mult d (.range .none) => .read fun p => do
    let vs ← manyLoop (d.test env) (d.steps env) p.fuel []
    pure (.fields vs)
  | .optional (.type t) => do
    let v ← ifPeek (t.leaf env).test (t.leaf env).parser
    pure (.opt v)
  | .comb ds .options => options env ds
  | .group d .none => d.steps env
  | _ => .panic .todo

/-- csskit_proc_macro/src/def.rs:497-499: the alternatives that are handled with the keywords. -/
def Def.isWord : Def → Bool
  | .ident _ => true
  | .type .customIdent => true
  | .type .dashedIdent => true
  | _ => false

/-- The names of the keywords in a list of alternatives: csskit_proc_macro/src/def.rs:1374-1392 `GenerateKeywordSet for Def`. -/
def Def.keywords : List Def → List (List Char)
  | [] => []
  | .ident name :: ds => kebab name :: Def.keywords ds
  | _ :: ds => Def.keywords ds

/-- The place of the keyword among the alternatives. -/
def Def.keywordIndex (name : List Char) : List Def → Nat
  | [] => 0
  | .ident n :: ds => if kebab n == name then 0 else Def.keywordIndex name ds + 1
  | _ :: ds => Def.keywordIndex name ds + 1

/-- The place of `<custom-ident>` among the alternatives. -/
def Def.customIndex : List Def → Option Nat
  | [] => none
  | .type .customIdent :: _ => some 0
  | _ :: ds => (Def.customIndex ds).map (· + 1)

/-- The other alternatives, with their places. -/
def Def.others : Nat → List Def → List (Nat × Def)
  | _, [] => []
  | i, d :: ds => if d.isWord then Def.others (i + 1) ds else (i, d) :: Def.others (i + 1) ds

/-- csskit_proc_macro/src/def.rs:532-539, 592-596: the alternatives that are not keywords, when there are several. -/
def tryOthers (env : List Char → Leaf) : List (Nat × Def) → Prog (Val)
  | [] => do
    let c ← any
    fail .unexpected c
  | (i, d) :: rest => do
    let c ← peekN 1
    if ← d.test env c then do
      let v ← d.steps env
      pure (.variant i v)
    else tryOthers env rest

/-- csskit_proc_macro/src/def.rs:500-540, 583-597: the alternatives that are not keywords. -/
def otherAlternatives (env : List Char → Leaf) : List (Nat × Def) → Prog (Val)
  | [(i, d)] => do
    let v ← d.steps env
    pure (.variant i v)
  | others => tryOthers env others

/-- csskit_proc_macro/src/def.rs:496-598: alternatives. -/
def alternatives (env : List Char → Leaf) (ds : List Def) : Prog (Val) :=
  let others := Def.others 0 ds
  if ds.any Def.isWord then
    let names := Def.keywords ds
    if names.isEmpty then .panic .todo
    else do
      match ← ifPeek (isKeyword names) (keyword names) with
      | some (k, c) => pure (.variant (Def.keywordIndex k ds) (.tok c))
      | none =>
        match Def.customIndex ds with
        | some i => do
          let c ← tok (isKind .ident)
          pure (.variant i (.tok c))
        | none =>
          if others.isEmpty then do
            let c ← any
            let _ ← Prog.str c
            fail .unexpectedIdent c
          else otherAlternatives env others
  else otherAlternatives env others

/-- csskit_proc_macro/src/def.rs:633-641: an ordered definition. -/
def ordered (env : List Char → Leaf) (ds : List Def) : Prog (Val) := do
  let vs ← sequence (ds.map (Def.steps env))
  pure (.fields vs)

/-- csskit_proc_macro/src/def.rs:654-659: a definition `d{start,stop}` as an ordered definition. -/
def Def.repeated (d : Def) (start stop : Nat) : List Def :=
  (List.range stop).map fun i => if i + 1 ≤ start then d else .optional d

/-- csskit_proc_macro/src/def.rs:484-706 `generate_parse_trait_implementation`. -/
def Def.parser (env : List Char → Leaf) : Def → Prog (Val)
  | .type t => do
    let v ← t.steps env
    pure (.fields [v])
  | .comb ds .alternatives => alternatives env ds
  | .comb ds .options => options env ds
  | .comb ds .ordered => ordered env ds
  | .mult d (.range (.range start stop)) => ordered env (Def.repeated d start stop)
  | .mult d (.range (.fixed n)) => ordered env (List.replicate n d)
  | .mult _ .zeroOrMore => .panic .todo
  | .mult d m => do
    let v ← Def.steps env (.mult d m)
    pure (.fields [v])
  | _ => .panic .todo

/-- The type that the macro defines. -/
def Def.leaf (env : List Char → Leaf) (d : Def) : Leaf := ⟨d.test env, d.parser env⟩

end
end Hdx

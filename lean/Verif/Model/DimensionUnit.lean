/-
Model of css_lexer/src/dimension_unit.rs (generated from its tables by a script, then checked by eye).
-/
import Verif.Model.Chars

namespace Hdx

/-- css_lexer/src/dimension_unit.rs:27-94 `enum DimensionUnit` (`Unknown = 0`, the others numbered consecutively).
`In` is called `inch` here because `in` is a Lean keyword. -/
inductive DimensionUnit where
  | unknown | cap | ch | cm | cqb | cqh | cqi | cqmax | cqmin | cqw | deg | dpcm | dpi | dppx | dvb | dvh
  | dvi | dvmax | dvmin | dvw | em | ex | fr | grad | hz | ic | inch | khz | lh | lvb | lvh | lvi | lvmax
  | lvmin | lvw | mm | ms | pc | percent | pt | px | q | rad | rcap | rch | rem | rex | ric | rlh | s
  | svb | svh | svi | svmax | svmin | svw | turn | vb | vh | vi | vmax | vmin | vw | x
  deriving DecidableEq, Repr

namespace DimensionUnit

/-- The discriminant `unit as u32` / `unit as u8` (css_lexer/src/token.rs:397, dimension_unit.rs:27-94). -/
def code : DimensionUnit → Nat
  | .unknown => 0
  | .cap => 1
  | .ch => 2
  | .cm => 3
  | .cqb => 4
  | .cqh => 5
  | .cqi => 6
  | .cqmax => 7
  | .cqmin => 8
  | .cqw => 9
  | .deg => 10
  | .dpcm => 11
  | .dpi => 12
  | .dppx => 13
  | .dvb => 14
  | .dvh => 15
  | .dvi => 16
  | .dvmax => 17
  | .dvmin => 18
  | .dvw => 19
  | .em => 20
  | .ex => 21
  | .fr => 22
  | .grad => 23
  | .hz => 24
  | .ic => 25
  | .inch => 26
  | .khz => 27
  | .lh => 28
  | .lvb => 29
  | .lvh => 30
  | .lvi => 31
  | .lvmax => 32
  | .lvmin => 33
  | .lvw => 34
  | .mm => 35
  | .ms => 36
  | .pc => 37
  | .percent => 38
  | .pt => 39
  | .px => 40
  | .q => 41
  | .rad => 42
  | .rcap => 43
  | .rch => 44
  | .rem => 45
  | .rex => 46
  | .ric => 47
  | .rlh => 48
  | .s => 49
  | .svb => 50
  | .svh => 51
  | .svi => 52
  | .svmax => 53
  | .svmin => 54
  | .svw => 55
  | .turn => 56
  | .vb => 57
  | .vh => 58
  | .vi => 59
  | .vmax => 60
  | .vmin => 61
  | .vw => 62
  | .x => 63

/-- css_lexer/src/dimension_unit.rs:101-159 `DimensionUnit::len`. -/
def len : DimensionUnit → Nat
  | .unknown => 0
  | .cap => 3
  | .ch => 2
  | .cm => 2
  | .cqb => 3
  | .cqh => 3
  | .cqi => 3
  | .cqmax => 5
  | .cqmin => 5
  | .cqw => 3
  | .deg => 3
  | .dpcm => 4
  | .dpi => 3
  | .dppx => 4
  | .dvb => 3
  | .dvh => 3
  | .dvi => 3
  | .dvmax => 5
  | .dvmin => 5
  | .dvw => 3
  | .em => 2
  | .ex => 2
  | .fr => 2
  | .grad => 4
  | .hz => 2
  | .ic => 2
  | .inch => 2
  | .khz => 3
  | .lh => 2
  | .lvb => 3
  | .lvh => 3
  | .lvi => 3
  | .lvmax => 5
  | .lvmin => 5
  | .lvw => 3
  | .mm => 2
  | .ms => 2
  | .pc => 2
  | .percent => 1
  | .pt => 2
  | .px => 2
  | .q => 1
  | .rad => 3
  | .rcap => 4
  | .rch => 3
  | .rem => 3
  | .rex => 3
  | .ric => 3
  | .rlh => 3
  | .s => 1
  | .svb => 3
  | .svh => 3
  | .svi => 3
  | .svmax => 5
  | .svmin => 5
  | .svw => 3
  | .turn => 4
  | .vb => 2
  | .vh => 2
  | .vi => 2
  | .vmax => 4
  | .vmin => 4
  | .vw => 2
  | .x => 1

/-- css_lexer/src/dimension_unit.rs:162-233 `impl From<u8> for DimensionUnit` (the `debug_assert!` is not modelled). -/
def ofCode : Nat → DimensionUnit
  | 1 => .cap
  | 2 => .ch
  | 3 => .cm
  | 4 => .cqb
  | 5 => .cqh
  | 6 => .cqi
  | 7 => .cqmax
  | 8 => .cqmin
  | 9 => .cqw
  | 10 => .deg
  | 11 => .dpcm
  | 12 => .dpi
  | 13 => .dppx
  | 14 => .dvb
  | 15 => .dvh
  | 16 => .dvi
  | 17 => .dvmax
  | 18 => .dvmin
  | 19 => .dvw
  | 20 => .em
  | 21 => .ex
  | 22 => .fr
  | 23 => .grad
  | 24 => .hz
  | 25 => .ic
  | 26 => .inch
  | 27 => .khz
  | 28 => .lh
  | 29 => .lvb
  | 30 => .lvh
  | 31 => .lvi
  | 32 => .lvmax
  | 33 => .lvmin
  | 34 => .lvw
  | 35 => .mm
  | 36 => .ms
  | 37 => .pc
  | 38 => .percent
  | 39 => .pt
  | 40 => .px
  | 41 => .q
  | 42 => .rad
  | 43 => .rcap
  | 44 => .rch
  | 45 => .rem
  | 46 => .rex
  | 47 => .ric
  | 48 => .rlh
  | 49 => .s
  | 50 => .svb
  | 51 => .svh
  | 52 => .svi
  | 53 => .svmax
  | 54 => .svmin
  | 55 => .svw
  | 56 => .turn
  | 57 => .vb
  | 58 => .vh
  | 59 => .vi
  | 60 => .vmax
  | 61 => .vmin
  | 62 => .vw
  | 63 => .x
  | _ => .unknown

/-- css_lexer/src/dimension_unit.rs:235-304 `impl From<DimensionUnit> for &'static str`. -/
def str : DimensionUnit → List Char
  | .unknown => c!""
  | .cap => c!"cap"
  | .ch => c!"ch"
  | .cm => c!"cm"
  | .cqb => c!"cqb"
  | .cqh => c!"cqh"
  | .cqi => c!"cqi"
  | .cqmax => c!"cqmax"
  | .cqmin => c!"cqmin"
  | .cqw => c!"cqw"
  | .deg => c!"deg"
  | .dpcm => c!"dpcm"
  | .dpi => c!"dpi"
  | .dppx => c!"dppx"
  | .dvb => c!"dvb"
  | .dvh => c!"dvh"
  | .dvi => c!"dvi"
  | .dvmax => c!"dvmax"
  | .dvmin => c!"dvmin"
  | .dvw => c!"dvw"
  | .em => c!"em"
  | .ex => c!"ex"
  | .fr => c!"fr"
  | .grad => c!"grad"
  | .hz => c!"hz"
  | .ic => c!"ic"
  | .inch => c!"in"
  | .khz => c!"khz"
  | .lh => c!"lh"
  | .lvb => c!"lvb"
  | .lvh => c!"lvh"
  | .lvi => c!"lvi"
  | .lvmax => c!"lvmax"
  | .lvmin => c!"lvmin"
  | .lvw => c!"lvw"
  | .mm => c!"mm"
  | .ms => c!"ms"
  | .pc => c!"pc"
  | .percent => c!"%"
  | .pt => c!"pt"
  | .px => c!"px"
  | .q => c!"q"
  | .rad => c!"rad"
  | .rcap => c!"rcap"
  | .rch => c!"rch"
  | .rem => c!"rem"
  | .rex => c!"rex"
  | .ric => c!"ric"
  | .rlh => c!"rlh"
  | .s => c!"s"
  | .svb => c!"svb"
  | .svh => c!"svh"
  | .svi => c!"svi"
  | .svmax => c!"svmin"
  | .svmin => c!"svmax"
  | .svw => c!"svw"
  | .turn => c!"turn"
  | .vb => c!"vb"
  | .vh => c!"vh"
  | .vi => c!"vi"
  | .vmax => c!"vmax"
  | .vmin => c!"vmin"
  | .vw => c!"vw"
  | .x => c!"x"

/-- All units, in declaration order (not in the Rust code; used to quantify over the finite type). -/
def all : List DimensionUnit :=
  [.unknown, .cap, .ch, .cm, .cqb, .cqh, .cqi, .cqmax, .cqmin, .cqw, .deg, .dpcm, .dpi, .dppx, .dvb, .dvh, .dvi, .dvmax, .dvmin, .dvw, .em, .ex, .fr, .grad, .hz, .ic, .inch, .khz, .lh, .lvb, .lvh, .lvi, .lvmax, .lvmin, .lvw, .mm, .ms, .pc, .percent, .pt, .px, .q, .rad, .rcap, .rch, .rem, .rex, .ric, .rlh, .s, .svb, .svh, .svi, .svmax, .svmin, .svw, .turn, .vb, .vh, .vi, .vmax, .vmin, .vw, .x]

end DimensionUnit
end Hdx

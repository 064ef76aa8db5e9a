/-
Model of the unit recogniser `consume_ident_sequence_finding_known_dimension` (css_lexer/src/private.rs:150-674), a
hand-written trie of nested `if c == 'x' || c == 'X'` tests. The two tables were extracted from the source by a script
(one row per `if`, one row per `unit = DimensionUnit::X`), in source order.
-/
import Verif.Model.DimensionUnit

namespace Hdx

/-- css_lexer/src/private.rs:150-668: the row `(p, a, b)` is the test `c == a || c == b` made after the letters `p`
(lower-cased) have been consumed. At the root, `d` is tested in lower case only (private.rs:221 `c == 'd'`). -/
def unitEdges : List (List Char × Char × Char) :=
  [
   (c!"", 'c', 'C'), (c!"c", 'a', 'A'), (c!"ca", 'p', 'P'), (c!"c", 'h', 'H'), (c!"c", 'm', 'M'),
   (c!"c", 'q', 'Q'), (c!"cq", 'b', 'B'), (c!"cq", 'h', 'H'), (c!"cq", 'i', 'I'), (c!"cq", 'm', 'M'),
   (c!"cqm", 'a', 'A'), (c!"cqma", 'x', 'X'), (c!"cqm", 'i', 'I'), (c!"cqmi", 'n', 'N'), (c!"cq", 'w', 'W'),
   (c!"", 'd', 'd'), (c!"d", 'e', 'E'), (c!"de", 'g', 'G'), (c!"d", 'p', 'P'), (c!"dp", 'c', 'C'),
   (c!"dpc", 'm', 'M'), (c!"dp", 'i', 'I'), (c!"dp", 'p', 'P'), (c!"dpp", 'x', 'X'), (c!"d", 'v', 'V'),
   (c!"dv", 'b', 'B'), (c!"dv", 'h', 'H'), (c!"dv", 'i', 'I'), (c!"dv", 'w', 'W'), (c!"dv", 'm', 'M'),
   (c!"dvm", 'a', 'A'), (c!"dvma", 'x', 'X'), (c!"dvm", 'i', 'I'), (c!"dvmi", 'n', 'N'), (c!"", 'e', 'E'),
   (c!"e", 'm', 'M'), (c!"e", 'x', 'X'), (c!"", 'f', 'F'), (c!"f", 'r', 'R'), (c!"", 'g', 'G'),
   (c!"g", 'r', 'R'), (c!"gr", 'a', 'A'), (c!"gra", 'd', 'D'), (c!"", 'h', 'H'), (c!"h", 'z', 'Z'),
   (c!"", 'i', 'I'), (c!"i", 'c', 'C'), (c!"i", 'n', 'N'), (c!"", 'k', 'K'), (c!"k", 'h', 'H'),
   (c!"kh", 'z', 'Z'), (c!"", 'l', 'L'), (c!"l", 'h', 'H'), (c!"l", 'v', 'V'), (c!"lv", 'b', 'B'),
   (c!"lv", 'h', 'H'), (c!"lv", 'i', 'I'), (c!"lv", 'w', 'W'), (c!"lv", 'm', 'M'), (c!"lvm", 'a', 'A'),
   (c!"lvma", 'x', 'X'), (c!"lvm", 'i', 'I'), (c!"lvmi", 'n', 'N'), (c!"", 'm', 'M'), (c!"m", 'm', 'M'),
   (c!"m", 's', 'S'), (c!"", 'p', 'P'), (c!"p", 'c', 'C'), (c!"p", 't', 'T'), (c!"p", 'x', 'X'),
   (c!"", 'q', 'Q'), (c!"", 'r', 'R'), (c!"r", 'a', 'A'), (c!"ra", 'd', 'D'), (c!"r", 'c', 'C'),
   (c!"rc", 'a', 'A'), (c!"rca", 'p', 'P'), (c!"rc", 'h', 'H'), (c!"r", 'e', 'E'), (c!"re", 'm', 'M'),
   (c!"re", 'x', 'X'), (c!"r", 'i', 'I'), (c!"ri", 'c', 'C'), (c!"r", 'l', 'L'), (c!"rl", 'h', 'H'),
   (c!"", 's', 'S'), (c!"s", 'v', 'V'), (c!"sv", 'b', 'B'), (c!"sv", 'h', 'H'), (c!"sv", 'i', 'I'),
   (c!"sv", 'w', 'W'), (c!"sv", 'm', 'M'), (c!"svm", 'a', 'A'), (c!"svma", 'x', 'X'), (c!"svm", 'i', 'I'),
   (c!"svmi", 'n', 'N'), (c!"", 't', 'T'), (c!"t", 'u', 'U'), (c!"tu", 'r', 'R'), (c!"tur", 'n', 'N'),
   (c!"", 'v', 'V'), (c!"v", 'b', 'B'), (c!"v", 'h', 'H'), (c!"v", 'i', 'I'), (c!"v", 'm', 'M'),
   (c!"vm", 'a', 'A'), (c!"vma", 'x', 'X'), (c!"vm", 'i', 'I'), (c!"vmi", 'n', 'N'), (c!"v", 'w', 'W'),
   (c!"", 'x', 'X')
  ]

/-- css_lexer/src/private.rs:150-668: the row `(p, u)` is the assignment `unit = u` executed once the letters `p` have been
consumed. -/
def unitAssign : List (List Char × DimensionUnit) :=
  [
   (c!"cap", .cap), (c!"ch", .ch), (c!"cm", .cm), (c!"cqb", .cqb), (c!"cqh", .cqh), (c!"cqi", .cqi),
   (c!"cqmax", .cqmax), (c!"cqmin", .cqmin), (c!"cqw", .cqw), (c!"deg", .deg), (c!"dpcm", .dpcm),
   (c!"dpi", .dpi), (c!"dppx", .dppx), (c!"dvb", .dvb), (c!"dvh", .dvh), (c!"dvi", .dvi), (c!"dvw", .dvw),
   (c!"dvmax", .dvmax), (c!"dvmin", .dvmin), (c!"em", .em), (c!"ex", .ex), (c!"fr", .fr), (c!"grad", .grad),
   (c!"hz", .hz), (c!"ic", .ic), (c!"in", .inch), (c!"khz", .khz), (c!"lh", .lh), (c!"lvb", .lvb),
   (c!"lvh", .lvh), (c!"lvi", .lvi), (c!"lvw", .lvw), (c!"lvmax", .lvmax), (c!"lvmin", .lvmin), (c!"mm", .mm),
   (c!"ms", .ms), (c!"pc", .pc), (c!"pt", .pt), (c!"px", .px), (c!"q", .q), (c!"rad", .rad), (c!"rcap", .rcap),
   (c!"rch", .rch), (c!"rem", .rem), (c!"rex", .rex), (c!"ric", .ric), (c!"rlh", .rlh), (c!"s", .s),
   (c!"svb", .svb), (c!"svh", .svh), (c!"svi", .svi), (c!"svw", .svw), (c!"svmax", .svmax),
   (c!"svmin", .svmin), (c!"turn", .turn), (c!"vb", .vb), (c!"vh", .vh), (c!"vi", .vi), (c!"vmax", .vmax),
   (c!"vmin", .vmin), (c!"vw", .vw), (c!"x", .x)
  ]

/-- The branch taken on character `c` after the letters `p` (css_lexer/src/private.rs:154-668): the letters consumed so far,
or `none` when no `if` matches. -/
def unitStep (p : List Char) (c : Char) : Option (List Char) :=
  (unitEdges.find? (fun e => e.1 == p && (c == e.2.1 || c == e.2.2))).map (fun e => e.1 ++ [e.2.1])

/-- The value of the local `unit` after the letters `p` have been consumed and it was `u` before
(css_lexer/src/private.rs:154-668). -/
def unitUpdate (p : List Char) (u : DimensionUnit) : DimensionUnit :=
  (unitAssign.find? (fun e => e.1 == p)).elim u (·.2)

/-- The nested `if`s of css_lexer/src/private.rs:154-668: `p` are the letters consumed so far (`len` is their number), `u`
the local `unit`. Returns the final letters, `unit`, and the remaining characters. -/
def unitWalk (p : List Char) (u : DimensionUnit) : List Char → List Char × DimensionUnit × List Char
  | [] => (p, u, [])
  | c :: cs =>
    match unitStep p c with
    | none => (p, u, c :: cs)
    | some p' => unitWalk p' (unitUpdate p' u) cs

end Hdx

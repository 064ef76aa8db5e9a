/-
C69: what selectors write back, C71: what a selector leaves of the modes of the parser.
-/
import Verif.Props.Selectors
import Verif.Lemmas.Returns

namespace Hdx
open Spec Prog

/-- See `Writes.written_back`; here from one program and one start. -/
theorem written_back_of {α : Type} {x : Prog α} {cur : α → List Cursor} (hx : ∀ {p : Parser}, p.skip = KindSet.TRIVIA → Succ x p fun a _ w => w = cur a)
    {src : List Char} {f : Features} {a : α} {p' : Parser}
    (hs : byteLen src < 65536) (h : x.run (Parser.newWithFeatures src f) = .ok (.ok a, p')) : WrittenBack src f p' (cur a) := by
  unfold Prog.run at h
  cases hr : x.runLog (Parser.newWithFeatures src f) with
  | error e => rw [hr] at h; cases h
  | ok y =>
    obtain ⟨r, q, w⟩ := y
    rw [hr] at h
    simp only [Except.map, Except.ok.injEq, Prod.mk.injEq] at h
    obtain ⟨rfl, rfl⟩ := h
    obtain ⟨tr, cs, a1, b1, c1⟩ := (Prog.runLog_moved x (by simp [Parser.newWithFeatures])
      (by rw [byteLen_eq] at hs; exact hs) (by simp [Fits, Parser.newWithFeatures]) hr).tokens
    simp only [Parser.newWithFeatures, List.nil_append] at a1
    rw [← hx (p := Parser.newWithFeatures src f) rfl hr]
    exact ⟨cs, b1, a1 ▸ c1⟩

theorem Sound.written_back {α : Type} {x : Prog α} {cur : α → List Cursor} (hx : Sound x cur) {src : List Char} {f : Features} {a : α} {p' : Parser}
    (hs : byteLen src < 65536) (h : x.run (Parser.newWithFeatures src f) = .ok (.ok a, p')) : WrittenBack src f p' (cur a) :=
  written_back_of (fun hp => Succ.mono (hx (.trivia hp)) fun _ _ _ h => h.1) hs h

/-! ### C69 -/

/-- Whatever selector list is parsed, of any nesting, from a source of less than 64 KiB: the cursors that its value writes are the tokens
of the source up to where the parser stands, in order, each once, apart from the tokens that went to the trivia. -/
theorem C69_selector_list {src : List Char} {f : Features} {a : List (List Sel × Option Cursor)} {p' : Parser} (hs : byteLen src < 65536)
    (h : selectorList.run (Parser.newWithFeatures src f) = .ok (.ok a, p')) : WrittenBack src f p' (Sel.listCursors a) :=
  selectorList_sound.written_back hs h

/-- The same for one compound selector. -/
theorem C69_compound_selector {src : List Char} {f : Features} {n : Nat} {a : List Sel} {p' : Parser} (hs : byteLen src < 65536)
    (h : (compoundSelector n).run (Parser.newWithFeatures src f) = .ok (.ok a, p')) : WrittenBack src f p' (Sel.compoundCursors a) :=
  (compoundSelector_sound n).written_back hs h

/-- The same for the parts of a selector that can be parsed by themselves. -/
theorem C69_parts {src : List Char} {f : Features} (hs : byteLen src < 65536) :
    (∀ {a p'}, combinator.run (Parser.newWithFeatures src f) = .ok (.ok a, p') → WrittenBack src f p' a.cursors)
    ∧ (∀ {a p'}, namespacePrefix.run (Parser.newWithFeatures src f) = .ok (.ok a, p') → WrittenBack src f p' a.cursors)
    ∧ (∀ {a p'}, attributeSelector.run (Parser.newWithFeatures src f) = .ok (.ok a, p') → WrittenBack src f p' a.cursors)
    ∧ (∀ {a p'}, classSelector.run (Parser.newWithFeatures src f) = .ok (.ok a, p') → WrittenBack src f p' a.cursors)
    ∧ (∀ {a p'}, pseudoClass.run (Parser.newWithFeatures src f) = .ok (.ok a, p') → WrittenBack src f p' [a.2.2.1, a.2.2.2])
    ∧ (∀ {a p'}, pseudoElement.run (Parser.newWithFeatures src f) = .ok (.ok a, p') → WrittenBack src f p' [a.2.2.1.1, a.2.2.1.2, a.2.2.2]) :=
  ⟨combinator_writes.written_back hs, namespacePrefix_writes.written_back hs, attributeSelector_writes.written_back hs,
    classSelector_writes.written_back hs, pseudoClass_writes.written_back hs, pseudoElement_writes.written_back hs⟩

/-- What the run of a program on a source gives: `none` for an error. -/
def Prog.value {α β : Type} (x : Prog α) (f : α → β) (src : String) : Option β :=
  match x.run (Parser.new src.toList) with
  | .ok (.ok a, _) => some (f a)
  | _ => none

/-- A namespace parsed by itself can lose a token: of `a*` the identifier is taken, but not kept. -/
theorem C69_counterexample : (namespaceSelector.value (fun n => n.cursors.map (·.offset)) "a*") = some [1] := by decide +kernel

/-- The hypothesis is met: nested lists, namespaces, attributes and trivia. -/
example : (selectorList.value (fun a => (Sel.listCursors a).map (·.offset)) "a:is(.b, #c) > [d|e=f],*|g") =
    some [0, 1, 2, 5, 6, 7, 9, 11, 12, 13, 14, 15, 16, 17, 18, 19, 20, 21, 22, 23, 24, 25] := by decide +kernel

/-! ### C71 -/

/-- Parsing a selector list, of any nesting, leaves the modes of the parser as they were whenever it succeeds, from any parser that skips
nothing, comments, or whitespace and comments. -/
theorem C71_selector_list {p p' : Parser} {a : List (List Sel × Option Cursor)} (hp : UsualSkip p.skip)
    (h : selectorList.run p = .ok (.ok a, p')) : modes p' = modes p := by
  unfold Prog.run at h
  cases hr : selectorList.runLog p with
  | error e => rw [hr] at h; cases h
  | ok y =>
    obtain ⟨r, q, w⟩ := y
    rw [hr] at h
    simp only [Except.map, Except.ok.injEq, Prod.mk.injEq] at h
    obtain ⟨rfl, rfl⟩ := h
    exact (selectorList_sound hp hr).2

/-- What the run leaves of what is skipped, when it ends in an error. -/
def Prog.skipAfterError {α : Type} (x : Prog α) (src : String) : Option KindSet :=
  match x.run (Parser.new src.toList) with
  | .ok (.error _, p) => some p.skip
  | _ => none

/-- After an error this does not hold: the parser goes on skipping comments only, or nothing at all. -/
theorem C71_counterexample : selectorList.skipAfterError ": x" = some KindSet.COMMENTS ∧ selectorList.skipAfterError "a|=b" = some KindSet.NONE
    ∧ selectorList.skipAfterError "a/**/|b" = some KindSet.NONE ∧ selectorList.skipAfterError "a }" = some KindSet.TRIVIA := by decide +kernel

example : UsualSkip (Parser.new c!"a:is(.b, #c) > [d|e=f],*|g").skip := .trivia rfl

end Hdx

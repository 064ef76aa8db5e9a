/-
Property C77 for the properties css_ast knows.
-/
import Verif.Lemmas.ValueSaves
import Verif.Props.CssNothingLost

namespace Hdx
open Spec Prog

/-- The values of all properties css_ast knows keep what they parse, but for those with a circular `<radial-size>`. -/
theorem C77_values : KeepsValues false realValues NoCircle where
  skip := fun name _ p r p' h hp => by
    obtain ⟨w, hg⟩ := gives_of_run h
    exact (realValues_saves name hp hg).1.1
  modes := fun name _ p r p' h hp => by
    obtain ⟨w, hg⟩ := gives_of_run h
    exact (realValues_saves name hp hg).1.2
  kept := fun name _ p v p' w h hp hv => ⟨[], by simp, by rw [List.append_nil]; exact ((realValues_saves name hp h).2 v rfl hv).1, by simp⟩

/-- The value keeps all its tokens, and is written in the order of the source. -/
def keepsOrder (v : Val) : Bool := NoCircle v && Straight v

/-- Those whose parts are in the order in which css_ast writes them also keep the order. -/
theorem C91_values : KeepsValues true realValues keepsOrder where
  skip := C77_values.skip
  modes := C77_values.modes
  kept := fun name _ p v p' w h hp hv => by
    simp only [keepsOrder, Bool.and_eq_true] at hv
    have := (realValues_saves name hp h).2 v rfl hv.1
    exact ⟨[], by simp, by rw [List.append_nil]; exact this.1, fun _ hi => by rw [this.2 hv.2 hi]; exact List.Sublist.refl _⟩

/-- The same as `C77_nothing_lost`, for the properties css_ast knows and their values: nothing is lost if no value has a circular
`<radial-size>` in it. -/
theorem C77_real_values {src : List Char} {f : Features} {rules : List (CssRule Val)} {p' : Parser} (hs : byteLen src < 65536)
    (h : (cssStyleSheet realValues).run (Parser.newWithFeatures src f) = .ok (.ok rules, p')) (hw : WholeAll NoCircle rules = true) :
    ∃ tokens kept dropped, LexedUntil (Lexer.newWithFeatures src f) tokens p'.offset ∧ Dealt kept p'.trivia tokens
      ∧ (∀ c ∈ dropped, Droppable c) ∧ (kept.map strip).Perm (taken (CssRule.cursorsOf realValues rules) ++ dropped) :=
  C77_nothing_lost C77_values hs h hw

/-- The same as `C91_in_order_partial`, for the properties css_ast knows and their values. -/
theorem C91_real_values_partial {src : List Char} {f : Features} {rules : List (CssRule Val)} {p' : Parser} (hs : byteLen src < 65536)
    (h : (cssStyleSheet realValues).run (Parser.newWithFeatures src f) = .ok (.ok rules, p')) (hw : WholeAll keepsOrder rules = true)
    (ho : InOrderAll realValues rules = true) :
    ∃ tokens kept dropped, LexedUntil (Lexer.newWithFeatures src f) tokens p'.offset ∧ Dealt kept p'.trivia tokens
      ∧ (∀ c ∈ dropped, Droppable c) ∧ (kept.map strip).Perm (taken (CssRule.cursorsOf realValues rules) ++ dropped)
      ∧ (taken (CssRule.cursorsOf realValues rules)).Sublist (kept.map strip) :=
  C91_in_order_partial C91_values hs h hw ho

/-- The texts of the cursors the tree of a style sheet writes, and whether the style sheet is `WholeAll`. -/
def realWrites (src : List Char) : Except Panic (Option (Bool × List (List Char))) :=
  ((cssStyleSheet realValues).run (Parser.new src)).map fun r =>
    r.1.toOption.map fun rs => (WholeAll NoCircle rs, (CssRule.cursorsOf realValues rs).map fun c => (src.drop c.offset).take c.token.len.toNat)

/-- The hypotheses are met by a style sheet with values of many shapes. (The parts of the border are written in another order.) -/
example : byteLen c!"a{border-top:red solid 1px;color:rgb(1 2 3);width:1px!important}" < 65536
    ∧ realWrites c!"a{border-top:red solid 1px;color:rgb(1 2 3);width:1px!important}" = .ok (some (true,
      [c!"a", c!"{", c!"border-top", c!":", c!"1px", c!"solid", c!"red", c!";", c!"color", c!":", c!"rgb(", c!"1", c!"2", c!"3", c!")", c!";", c!"width",
        c!":", c!"1px", c!"!", c!"important", c!"}"])) := by decide +kernel

/-- The first number of a circular `<radial-size>` is lost: of `radial-gradient(0 1px,red,blue)` the `0` is not written. -/
theorem C77_circle_counterexample : realWrites c!"a{border-image-source:radial-gradient(0 1px,red,blue)}" = .ok (some (false,
    [c!"a", c!"{", c!"border-image-source", c!":", c!"radial-gradient(", c!"1px", c!",", c!"red", c!",", c!"blue", c!")", c!"}"])) := by decide +kernel

/-- The texts of the cursors the tree of a style sheet writes, whether its values keep the order, and whether its declarations come before its rules. -/
def orderWrites (src : List Char) : Except Panic (Option (Bool × Bool × List (List Char))) :=
  ((cssStyleSheet realValues).run (Parser.new src)).map fun r =>
    r.1.toOption.map fun rs => (WholeAll keepsOrder rs, InOrderAll realValues rs,
      (CssRule.cursorsOf realValues rs).map fun c => (src.drop c.offset).take c.token.len.toNat)

/-- The hypotheses of C91 are met by a style sheet with nested rules, at-rules and values of many shapes. -/
example : byteLen c!"a,b>c{border-top:1px solid red;color:rgb(1 2 3);&.d{width:1px!important}}@media print{e{top:0}}" < 65536
    ∧ orderWrites c!"a,b>c{border-top:1px solid red;color:rgb(1 2 3);&.d{width:1px!important}}@media print{e{top:0}}" = .ok (some (true, true,
      [c!"a", c!",", c!"b", c!">", c!"c", c!"{", c!"border-top", c!":", c!"1px", c!"solid", c!"red", c!";", c!"color", c!":", c!"rgb(", c!"1", c!"2", c!"3", c!")", c!";",
        c!"&", c!".", c!"d", c!"{", c!"width", c!":", c!"1px", c!"!", c!"important", c!"}", c!"}", c!"@media", c!"print", c!"{", c!"e", c!"{", c!"top", c!":", c!"0",
        c!"}", c!"}"])) := by decide +kernel

/-- A declaration after a rule is written before it: `a{b{}color:red}` becomes `a{color:redb{}}`. -/
theorem C91_counterexample_declaration_after_rule : orderWrites c!"a{b{}color:red}" = .ok (some (true, false,
    [c!"a", c!"{", c!"color", c!":", c!"red", c!"b", c!"{", c!"}", c!"}"])) := by decide +kernel

/-- The parts of a value that may come in any order are written in the order of the definition: `red solid 1px` becomes `1px solid red`. -/
theorem C91_counterexample_any_order : orderWrites c!"a{border-top:red solid 1px}" = .ok (some (false, true,
    [c!"a", c!"{", c!"border-top", c!":", c!"1px", c!"solid", c!"red", c!"}"])) := by decide +kernel

end Hdx

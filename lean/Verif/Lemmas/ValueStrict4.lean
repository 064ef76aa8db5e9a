/-
The values of css_ast: in a strict text, parsing them comes to an end.
-/
import Verif.Lemmas.ValueStrict3

namespace Hdx
open Spec Prog

section
variable {src : Text}

theorem handWritten_fine (hst : src.strict = true) (name : List Char) (hn : name ≠ c!"CalcSize") : ∀ l, handWritten name = some l → LeafFine src l := by
  unfold handWritten
  have pick : ∀ {b : Prop} [Decidable b] {x : Leaf} {y : Option Leaf}, (b → LeafFine src x) → (∀ l, y = some l → LeafFine src l) →
      ∀ l, (if b then some x else y) = some l → LeafFine src l := by
    intro b _ x y h1 h2 l h
    split at h
    · cases h; exact h1 ‹_›
    · exact h2 l h
  split
  · intro l h; cases h; exact .keywords
  · refine pick (fun _ => .single .lineWidth) <| pick (fun _ => .single .opacityValue) <| pick (fun _ => ⟨.iterationCount, EatsIf.iterationCount⟩) <|
      pick (fun _ => ⟨.repeatStyle, EatsIf.repeatStyle hst⟩) <| pick (fun _ => .single .of) <| pick (fun _ => ⟨.positionArea, EatsIf.positionArea⟩) <|
      pick (fun _ => ⟨.named, EatsIf.snap hst⟩) <| pick (fun _ => ⟨.named, EatsIf.snap hst⟩) <|
      pick (fun _ => ⟨.named, EatsIf.rangeLimitMix hst (Nat.le_refl _)⟩) <| pick (fun h => absurd (by simpa using h) hn) <| pick (fun _ => ⟨.color, EatsIf.color.fine⟩) <|
      pick (fun _ => ⟨.image, EatsIf.image hst (Nat.le_refl _)⟩) <| pick (fun _ => ⟨.named, EatsIf.image1D hst (Nat.le_refl _)⟩) <|
      pick (fun _ => .single .kind) fun l h => by cases h

/-- The type of this name can be parsed, following references at most so many times. -/
def goodName : Nat → List Char → Bool
  | 0, _ => false
  | n + 1, name =>
    match handWritten name with
    | some _ => name != c!"CalcSize"
    | none =>
      match definitionOf name with
      | some d => n != 0 && d.testOk (goodName n) && d.parserOk (goodName n)
      | none => false

theorem handWritten_calcSize : ∃ l, handWritten c!"CalcSize" = some l ∧ l.test = isNamed c!"calc-size" := ⟨_, rfl, rfl⟩

attribute [local irreducible] handWritten DEFINITIONS definitionOf

theorem definitionLeaf_calcSize {n : Nat} : (definitionLeaf (n + 1) c!"CalcSize").test = isNamed c!"calc-size" := by
  obtain ⟨l, h1, h2⟩ := handWritten_calcSize
  unfold definitionLeaf
  rw [h1]; exact h2

theorem definitionLeaf_fine (hst : src.strict = true) : ∀ n name, goodName n name = true → LeafFine src (definitionLeaf n name)
  | 0, name, h => by cases h
  | n + 1, name, h => by
    unfold goodName at h
    unfold definitionLeaf
    cases hh : handWritten name with
    | some l =>
      rw [hh] at h
      exact handWritten_fine hst name (by simpa using h) l hh
    | none =>
      rw [hh] at h
      dsimp only at h ⊢
      cases hd : definitionOf name with
      | none => rw [hd] at h; cases h
      | some d =>
        rw [hd] at h
        dsimp only at h ⊢
        rw [Bool.and_eq_true, Bool.and_eq_true] at h
        cases n with
        | zero => exact absurd h.1.1 (by simp)
        | succ n => exact Def.leaf_fine hst (definitionLeaf_fine hst (n + 1)) definitionLeaf_calcSize h.1.2 h.2
end

theorem goodName_all : (DEFINITIONS.all fun row => goodName 6 row.1) = true := by decide +kernel

/-- Every property of css_ast. -/
theorem realValues_fine {src : Text} (hst : src.strict = true) {name : List Char} (h : name ∈ realValues.names) : Fine src src.fuel (realValues.parser name) := by
  obtain ⟨row, h1, h2⟩ := List.mem_map.mp h
  have h2 : propertyName row.1 = name := h2
  show Fine src src.fuel (match DEFINITIONS.find? fun row => propertyName row.1 == name with
    | some row => (definitionLeaf 6 row.1).parser
    | none => .panic .unwrap)
  cases hf : DEFINITIONS.find? fun row => propertyName row.1 == name with
  | none => exact absurd (by simp [h2]) (List.find?_eq_none.mp hf row h1)
  | some row => exact (definitionLeaf_fine hst 6 row.1 (List.all_eq_true.mp goodName_all row (List.mem_of_find?_eq_some hf))).parser
end Hdx

/-
The parsers of the values of properties record nothing but whitespace and comments as trivia (see Lemmas/Tidy.lean).
-/
import Verif.Lemmas.TidyParts
import Verif.Model.Definitions

namespace Hdx
open Spec Prog
attribute [local irreducible] DEFINITIONS KEYWORD_TYPES

instance tidy_isLengthPercentage {c : Cursor} : Tidy (isLengthPercentage c) := by unfold isLengthPercentage; tidy
instance tidy_isUnitOf {names : List (List Char)} {c : Cursor} : Tidy (isUnitOf names c) := by unfold isUnitOf; tidy
instance tidy_isAngle  {x0 : Cursor} : Tidy (isAngle x0) := by unfold isAngle; tidy
instance tidy_isTime {c : Cursor} : Tidy (isTime c) := by unfold isTime; tidy
instance tidy_isResolution  {x0 : Cursor} : Tidy (isResolution x0) := by unfold isResolution; tidy
/-- The test and the parser of the type are such. -/
class TidyLeaf (l : Leaf) : Prop where
  test : ∀ c, Tidy (l.test c)
  parser : Tidy l.parser
instance {l : Leaf} [h : TidyLeaf l] {c : Cursor} : Tidy (l.test c) := h.test c
instance {l : Leaf} [h : TidyLeaf l] : Tidy l.parser := h.parser
instance tidy_single {test : Cursor → Prog Bool} [∀ c, Tidy (test c)] : TidyLeaf (.single test) := ⟨fun c => by unfold Leaf.single; tidy, by unfold Leaf.single; tidy⟩
instance tidy_keywords {names : List (List Char)} : TidyLeaf (.keywords names) := ⟨fun c => by unfold Leaf.keywords; tidy, by unfold Leaf.keywords; tidy⟩
instance tidy_mk {test : Cursor → Prog Bool} {parser : Prog Val} [h : ∀ c, Tidy (test c)] [h' : Tidy parser] : TidyLeaf ⟨test, parser⟩ := ⟨h, h'⟩
instance tidy_DefType_leaf {env : List Char → Leaf} [∀ n, TidyLeaf (env n)] {t : DefType} : TidyLeaf (t.leaf env) := by
  cases t <;> (unfold DefType.leaf; dsimp only; infer_instance)
instance tidy_DefType_steps {env : List Char → Leaf} [∀ n, TidyLeaf (env n)] {t : DefType} : Tidy (DefType.steps env t) := by unfold DefType.steps; tidy
mutual
theorem tidy_Def_test' {env : List Char → Leaf} [∀ n, TidyLeaf (env n)] : ∀ (d : Def) (c : Cursor), Tidy (Def.test env d c)
  | .type t, c => by unfold Def.test; tidy
  | .ident _, c => by unfold Def.test; tidy
  | .function _ _, c => by unfold Def.test; tidy
  | .optional d, c => by unfold Def.test; exact tidy_Def_test' d c
  | .comb [] _, _ => by unfold Def.test; tidy
  | .comb (d :: ds) s, c => by
    unfold Def.test
    split
    · exact tidy_Def_test' d c
    · exact tidy_Def_testAny' (d :: ds) c
  | .group d _, c => by unfold Def.test; exact tidy_Def_test' d c
  | .mult d _, c => by unfold Def.test; exact tidy_Def_test' d c
  | .punct _, _ => by unfold Def.test; tidy
theorem tidy_Def_testAny' {env : List Char → Leaf} [∀ n, TidyLeaf (env n)] : ∀ (ds : List Def) (c : Cursor), Tidy (Def.testAny env ds c)
  | [], _ => by unfold Def.testAny; tidy
  | d :: ds, c => by
    have := tidy_Def_test' (env := env) d c
    have := tidy_Def_testAny' (env := env) ds c
    unfold Def.testAny; tidy
end
instance tidy_Def_test {env : List Char → Leaf} [∀ n, TidyLeaf (env n)] {d : Def} {c : Cursor} : Tidy (Def.test env d c) := tidy_Def_test' d c
instance tidy_Def_testAny {env : List Char → Leaf} [∀ n, TidyLeaf (env n)] {ds : List Def} {c : Cursor} : Tidy (Def.testAny env ds c) := tidy_Def_testAny' ds c
theorem tidy_sequence {α : Type} : ∀ {xs : List (Prog α)}, (∀ x ∈ xs, Tidy x) → Tidy (sequence xs)
  | [], _ => by unfold sequence; tidy
  | x :: xs, h => by
    have := h x (List.mem_cons_self ..)
    have := tidy_sequence fun y hy => h y (List.mem_cons_of_mem _ hy)
    unfold sequence; tidy
instance tidy_commaLoop {item : Prog (Val)} [Tidy item] : ∀ (x0 : Nat) (x1 : List (Val)), Tidy (commaLoop item x0 x1)
  | 0, _ => by unfold commaLoop; tidy
  | n + 1, _ => by have ih := tidy_commaLoop (item := item) n; unfold commaLoop; tidy
instance tidy_manyLoop {test : Cursor → Prog Bool} {item : Prog (Val)} [∀ c, Tidy (test c)] [Tidy item] : ∀ (x0 : Nat) (x1 : List (Val)), Tidy (manyLoop test item x0 x1)
  | 0, _ => by unfold manyLoop; tidy
  | n + 1, _ => by have ih := tidy_manyLoop (test := test) (item := item) n; unfold manyLoop; tidy
theorem tidy_optionsRound (ls : List Leaf) (vs : List (Option Val)) : (∀ l ∈ ls, TidyLeaf l) → Tidy (optionsRound ls vs) := by
  fun_induction optionsRound ls vs with
  | case1 l ls v vs ih => intro h; have := ih fun l hl => h l (List.mem_cons_of_mem _ hl); tidy
  | case2 l ls vs ih => intro h; have := ih fun l hl => h l (List.mem_cons_of_mem _ hl); have := h l (List.mem_cons_self ..); tidy
  | case3 => intro _; tidy
theorem tidy_optionsLoop {ls : List Leaf} (h : ∀ l ∈ ls, TidyLeaf l) : ∀ n vs, Tidy (optionsLoop ls n vs)
  | 0, _ => by unfold optionsLoop; tidy
  | n + 1, vs => by
    have := tidy_optionsRound ls vs h
    have := tidy_optionsLoop h n
    unfold optionsLoop; tidy
instance tidy_options {env : List Char → Leaf} [∀ n, TidyLeaf (env n)] {ds : List Def} : Tidy (options env ds) := by 
  unfold options
  split
  · next ts _ =>
    have := tidy_optionsLoop (ls := ts.map (DefType.leaf env)) (fun l hl => by obtain ⟨t, _, rfl⟩ := List.mem_map.mp hl; infer_instance)
    tidy
  · tidy
theorem tidy_Def_steps' {env : List Char → Leaf} [∀ n, TidyLeaf (env n)] (d : Def) : Tidy (Def.steps env d) := by
  have hr : ∀ (n : Nat) (t : DefType), Tidy (sequence (List.replicate n (t.steps env))) := fun n t =>
    tidy_sequence fun x hx => by cases (List.mem_replicate.mp hx).2; infer_instance
  fun_induction Def.steps env d <;> tidy
instance tidy_Def_steps {env : List Char → Leaf} [∀ n, TidyLeaf (env n)] {d : Def} : Tidy (Def.steps env d) := tidy_Def_steps' d
instance tidy_tryOthers {env : List Char → Leaf} [∀ n, TidyLeaf (env n)] : ∀ (x0 : List (Nat × Def)), Tidy (tryOthers env x0)
  | [] => by unfold tryOthers; tidy
  | (i, d) :: vs => by have ih := tidy_tryOthers (env := env) vs; unfold tryOthers; tidy
instance tidy_otherAlternatives {env : List Char → Leaf} [∀ n, TidyLeaf (env n)] {l : List (Nat × Def)} : Tidy (otherAlternatives env l) := by
  unfold otherAlternatives; tidy
instance tidy_alternatives {env : List Char → Leaf} [∀ n, TidyLeaf (env n)] {ds : List Def} : Tidy (alternatives env ds) := by unfold alternatives; tidy
instance tidy_ordered {env : List Char → Leaf} [∀ n, TidyLeaf (env n)] {ds : List Def} : Tidy (ordered env ds) := by
  have := tidy_sequence (xs := ds.map (Def.steps env)) fun x hx => by obtain ⟨d, _, rfl⟩ := List.mem_map.mp hx; infer_instance
  unfold ordered; tidy
instance tidy_Def_parser {env : List Char → Leaf} [∀ n, TidyLeaf (env n)] {x0 : Def} : Tidy (Def.parser env x0) := by unfold Def.parser; tidy
instance tidy_Def_leaf {env : List Char → Leaf} [∀ n, TidyLeaf (env n)] {d : Def} : TidyLeaf (d.leaf env) := ⟨fun c => by unfold Def.leaf; tidy, by unfold Def.leaf; tidy⟩

/-- All the parsers of a list are such. -/
class TidyAll {α : Type} (xs : List (Prog α)) : Prop where
  out : ∀ x ∈ xs, Tidy x
instance {α : Type} : TidyAll ([] : List (Prog α)) := ⟨nofun⟩
instance {α : Type} {x : Prog α} {xs : List (Prog α)} [h : Tidy x] [t : TidyAll xs] : TidyAll (x :: xs) :=
  ⟨fun _ hy => (List.mem_cons.mp hy).elim (fun e => e ▸ h) (t.out _)⟩
instance {α : Type} {xs ys : List (Prog α)} [h : TidyAll xs] [t : TidyAll ys] : TidyAll (xs ++ ys) :=
  ⟨fun _ hy => (List.mem_append.mp hy).elim (h.out _) (t.out _)⟩
instance {α : Type} {xs : List (Prog α)} [h : TidyAll xs] : Tidy (sequence xs) := tidy_sequence h.out
theorem Tidy.ifPeek' {α : Type} {test : Cursor → Prog Bool} {body : Prog α} (h : ∀ c, Tidy (test c)) (hb : Tidy body) : Tidy (ifPeek test body) := inferInstance

/-! ### Images -/
instance tidy_piece {test : Cursor → Prog Bool} [∀ c, Tidy (test c)] : Tidy (piece test) := by unfold piece; tidy
instance tidy_optPiece {test : Cursor → Prog Bool} [∀ c, Tidy (test c)] : Tidy (optPiece test) := by unfold optPiece; tidy
instance tidy_either {a b : Cursor → Prog Bool} {c : Cursor} [∀ c, Tidy (a c)] [∀ c, Tidy (b c)] : Tidy (either a b c) := by unfold either; tidy
instance tidy_isWordOf {name : List Char} {c : Cursor} : Tidy (isWordOf name c) := by unfold isWordOf; tidy
instance tidy_isNamed {name : List Char} {c : Cursor} : Tidy (isNamed name c) := by unfold isNamed; tidy
instance tidy_namedFunction {name : List Char} : Tidy (namedFunction name) := by unfold namedFunction; tidy
instance tidy_isHue  {x0 : Cursor} : Tidy (isHue x0) := by unfold isHue; tidy
instance tidy_isChannel  {x0 : Cursor} : Tidy (isChannel x0) := by unfold isChannel; tidy
instance tidy_legacyChannels {first : Cursor → Prog Bool} [∀ c, Tidy (first c)] : TidyAll (legacyChannels first) := by unfold legacyChannels; infer_instance
instance tidy_channels {a b c : Cursor → Prog Bool} [∀ x, Tidy (a x)] [∀ x, Tidy (b x)] [∀ x, Tidy (c x)] : TidyAll (channels a b c) := by unfold channels; infer_instance
instance tidy_colorArguments {name : List Char} : TidyAll (colorArguments name) := by
  unfold colorArguments; repeat' split
  all_goals infer_instance
instance tidy_colorFunction  : Tidy (colorFunction ) := by unfold colorFunction; tidy
instance tidy_isColor  {x0 : Cursor} : Tidy (isColor x0) := by unfold isColor; tidy
instance tidy_color  : Tidy (color ) := by unfold color; tidy
instance tidy_isPositionValue  {x0 : Cursor} : Tidy (isPositionValue x0) := by unfold isPositionValue; tidy
instance tidy_positionValue  : Tidy (positionValue ) := by unfold positionValue; tidy
instance tidy_fourPosition {first second : PositionValue} : Tidy (fourPosition first second) := by unfold fourPosition; tidy
instance tidy_position  : Tidy (position ) := by unfold position; tidy
instance tidy_gradientStops  : ∀ (x0 : Nat) (x1 : Bool) (x2 : List Val), Tidy (gradientStops x0 x1 x2)
  | 0, _, _ => by unfold gradientStops; tidy
  | n + 1, _, _ => by have ih := tidy_gradientStops  n; unfold gradientStops; tidy; exact Tidy.ifPeek' inferInstance (by tidy)
instance tidy_isLinearDirection  {x0 : Cursor} : Tidy (isLinearDirection x0) := by unfold isLinearDirection; tidy
instance tidy_linearDirection  : Tidy (linearDirection ) := by unfold linearDirection; tidy
instance tidy_isRadialSize  {x0 : Cursor} : Tidy (isRadialSize x0) := by unfold isRadialSize; tidy
instance tidy_radialSize  : Tidy (radialSize ) := by unfold radialSize; tidy
instance tidy_linearGradient {f : Cursor} : Tidy (linearGradient f) := by unfold linearGradient; tidy
instance tidy_radialGradient {f : Cursor} {isAt : Prog Bool} [Tidy isAt] : Tidy (radialGradient f isAt) := by unfold radialGradient; tidy
theorem Tidy.radial {f : Cursor} {isAt : Prog Bool} (h : Tidy isAt) : Tidy (radialGradient f isAt) := inferInstance
instance tidy_isGradient  {x0 : Cursor} : Tidy (isGradient x0) := by unfold isGradient; tidy
instance tidy_gradient  : Tidy (gradient ) := by unfold gradient; tidy; all_goals exact Tidy.radial (by tidy)
instance tidy_isImage  {x0 : Cursor} : Tidy (isImage x0) := by unfold isImage; tidy
instance tidy_image  : Tidy (image ) := by unfold image; tidy
instance tidy_isThickness  {x0 : Cursor} : Tidy (isThickness x0) := by unfold isThickness; tidy
instance tidy_colorStripe  : Tidy (colorStripe ) := by unfold colorStripe; tidy
instance tidy_stripesLoop  : ∀ (x0 : Nat) (x1 : List Val), Tidy (stripesLoop x0 x1)
  | 0, _ => by unfold stripesLoop; tidy
  | n + 1, _ => by have ih := tidy_stripesLoop  n; unfold stripesLoop; tidy
instance tidy_image1D  : Tidy (image1D ) := by unfold image1D; tidy

/-! ### Definitions -/
instance tidy_optKeyword {names : List (List Char)} : Tidy (optKeyword names) := by unfold optKeyword; tidy
set_option synthInstance.maxSize 1000 in
set_option synthInstance.maxHeartbeats 100000 in
instance tidy_isPositionArea  {x0 : Cursor} : Tidy (isPositionArea x0) := by unfold isPositionArea; exact tidy_either
instance tidy_positionPair {first second : List (List Char)} {variant : Nat} {flipped : Bool} {otherwise : Prog (Val)} [Tidy otherwise] : Tidy (positionPair first second variant flipped otherwise) := by unfold positionPair; tidy
set_option synthInstance.maxSize 1000 in
set_option synthInstance.maxHeartbeats 100000 in
instance tidy_positionArea  : Tidy (positionArea ) := by
  have : Tidy (do let c ← any; fail DiagCode.unexpected c : Prog Val) := by tidy
  unfold positionArea; infer_instance
instance tidy_isLineWidth  {x0 : Cursor} : Tidy (isLineWidth x0) := by unfold isLineWidth; tidy
instance tidy_isOpacityValue {c : Cursor} : Tidy (isOpacityValue c) := by unfold isOpacityValue; tidy
instance tidy_isIterationCount  {x0 : Cursor} : Tidy (isIterationCount x0) := by unfold isIterationCount; tidy
instance tidy_iterationCount  : Tidy (iterationCount ) := by unfold iterationCount; tidy
instance tidy_isRepeatStyle  {x0 : Cursor} : Tidy (isRepeatStyle x0) := by unfold isRepeatStyle; tidy
instance tidy_repeatStyle  : Tidy (repeatStyle ) := by unfold repeatStyle; tidy
instance tidy_snap {name : List Char} {names : List (List Char)} : Tidy (snap name names) := by unfold snap; tidy
instance tidy_rangeLimitLoop  : ∀ (x0 : Nat) (x1 : List (Val)), Tidy (rangeLimitLoop x0 x1)
  | 0, _ => by unfold rangeLimitLoop; tidy
  | n + 1, _ => by have ih := tidy_rangeLimitLoop  n; unfold rangeLimitLoop; tidy
instance tidy_rangeLimitMix  : Tidy (rangeLimitMix ) := by unfold rangeLimitMix; tidy
instance tidy_calcSize  : Tidy (calcSize ) := by unfold calcSize; tidy
theorem tidy_handWritten {name : List Char} {l : Leaf} (h : handWritten name = some l) : TidyLeaf l := by
  unfold handWritten at h
  split at h
  · cases h; infer_instance
  · revert l
    repeat' (refine ite_some ?_ ?_)
    all_goals (intro l e; cases e; try infer_instance)
instance tidy_definitionLeaf : ∀ (n : Nat) (name : List Char), TidyLeaf (definitionLeaf n name)
  | 0, _ => ⟨fun _ => Tidy.panic, Tidy.panic⟩
  | n + 1, name => by
    have := tidy_definitionLeaf n
    unfold definitionLeaf
    split
    · next h => exact tidy_handWritten h
    · split
      · infer_instance
      · exact ⟨fun _ => Tidy.panic, Tidy.panic⟩
instance tidy_realValues : TidyValues realValues := ⟨fun name => by
  unfold realValues
  dsimp only
  split
  · infer_instance
  · exact Tidy.panic⟩

end Hdx

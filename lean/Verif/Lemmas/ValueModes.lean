/-
The values of properties leave the modes of the parser alone, also where they fail.
-/
import Verif.Lemmas.ValueSaves

namespace Hdx
open Spec Prog

theorem KeepsModes.test {test : Cursor → Prog Bool} (h : Inspects test) (c : Cursor) : KeepsModes (test c) := h.modes c
theorem KeepsModes.readNow {α : Type} {k : Parser → Prog α} (h : ∀ p, KeepsModes (k p)) : KeepsModes (Prog.read k) := fun p _ _ _ hg => h p hg
theorem KeepsModes.one {test : Cursor → Prog Bool} (h : Inspects test) : KeepsModes (Prog.tok test) := .tok h.modes
theorem KeepsModes.maybe {α : Type} {test : Cursor → Prog Bool} {x : Prog α} (h : Inspects test) (hx : KeepsModes x) : KeepsModes (Prog.ifPeek test x) := .ifPeek h.modes hx
theorem piece_modes {test : Cursor → Prog Bool} (h : Inspects test) : KeepsModes (piece test) := .bind (.one h) fun _ => .pure
theorem optPiece_modes {test : Cursor → Prog Bool} (h : Inspects test) : KeepsModes (optPiece test) := .bind (.maybe h (.one h)) fun _ => .pure

/-- Finds that a test only looks. -/
macro "looks" : tactic => `(tactic| first
  | exact Inspects.kind | exact Inspects.keyword | exact Inspects.functionOf | exact Inspects.word | exact Inspects.named | exact Inspects.lengthPercentage
  | exact Inspects.unit | exact Inspects.time | exact Inspects.hue | exact Inspects.channel | exact Inspects.color | exact Inspects.positionValue
  | exact Inspects.linearDirection | exact Inspects.radialSize | exact Inspects.image | exact Inspects.thickness | exact Inspects.positionArea
  | exact Inspects.lineWidth | exact Inspects.opacity | exact Inspects.iterationCount | exact Inspects.repeatStyle | exact Inspects.delim
  | exact isLength_inspects | exact isCssFloat_inspects | exact isCssInt_inspects | exact isDimensionOf_inspects _ | exact Inspects.dashed)

theorem eqCase_modes {c : Cursor} {name : List Char} : KeepsModes (Prog.eqIgnoreAsciiCase c name) := .ask
theorem offset_modes : KeepsModes offset := .ask
theorem peek_modes : KeepsModes peek := .ask
theorem peekN_modes {n : Nat} : KeepsModes (peekN n) := .ask
theorem atEnd_modes : KeepsModes atEnd := .ask

/-- `keeps`, with the parsers that values use. -/
macro "keepsVal" : tactic => `(tactic| repeat' (first
  | assumption
  | (with_reducible first
    | exact KeepsModes.ret | exact KeepsModes.pure | exact KeepsModes.fail | exact KeepsModes.ofResult | exact KeepsModes.panic
    | exact KeepsModes.ask | exact peek_modes | exact peekN_modes | exact atEnd_modes | exact offset_modes | exact eqCase_modes
    | exact strLower_modes _ | exact str_modes _ | exact tokKind_modes _ | exact tokDelim_modes _ | exact isKeyword_modes _ | exact buildKeyword_modes _
    | exact keyword_modes | exact any_modes | exact functionOf_modes _)
  | with_reducible (refine piece_modes ?_; looks) | with_reducible (refine optPiece_modes ?_; looks)
  | ((with_reducible refine KeepsModes.one ?_); looks)
  | (with_reducible refine KeepsModes.maybe ?_ ?_; · looks)
  | with_reducible refine KeepsModes.bind ?_ (fun _ => ?_) | with_reducible refine KeepsModes.ite ?_ ?_
  | with_reducible refine KeepsModes.readNow (fun _ => ?_)
  | with_reducible (refine KeepsModes.test (test := isLengthPercentage) Inspects.lengthPercentage _)
  | with_reducible (refine KeepsModes.test (test := isPositionValue) Inspects.positionValue _)
  | with_reducible (refine KeepsModes.test (test := isKind _) Inspects.kind _)
  | with_reducible (refine KeepsModes.test (test := isFunctionOf _) Inspects.functionOf _)
  | split | (dsimp only)))

theorem sequence_modes : ∀ {xs : List (Prog Val)}, (∀ x ∈ xs, KeepsModes x) → KeepsModes (sequence xs)
  | [], _ => .pure
  | x :: xs, h => .bind (h x (by simp)) fun _ => .bind (sequence_modes fun y hy => h y (by simp [hy])) fun _ => .pure

/-! ### Definitions -/

/-- The types of `env` look only in `Peek`, and leave the modes alone in `Parse`. -/
structure Leaf.Calm (l : Leaf) : Prop where
  test : Inspects l.test
  parser : KeepsModes l.parser

theorem Leaf.Calm.single {test : Cursor → Prog Bool} (h : Inspects test) : (Leaf.single test).Calm := ⟨h, piece_modes h⟩
theorem Leaf.Calm.keywords {names : List (List Char)} : (Leaf.keywords names).Calm := ⟨.keyword, .bind keyword_modes fun _ => .pure⟩

variable {env : List Char → Leaf}

theorem DefType.leaf_calm (he : ∀ n, (env n).Calm) (t : DefType) : (t.leaf env).Calm := by
  cases t
  case length => exact .single isLength_inspects
  case lengthPercentage => exact .single .lengthPercentage
  case angle => exact .single .unit
  case time => exact .single .time
  case resolution => exact .single .unit
  case integer => exact .single isCssInt_inspects
  case number => exact .single isCssFloat_inspects
  case percentage => exact .single isCssFloat_inspects
  case color => exact he _
  case string => exact .single .kind
  case image => exact he _
  case image1D => exact he _
  case dashedIdent => exact .single .dashed
  case customIdent => exact .single .kind
  case custom => exact he _

theorem DefType.steps_modes (he : ∀ n, (env n).Calm) (t : DefType) : KeepsModes (t.steps env) := by
  have h := (t.leaf_calm he).parser
  have h2 := offset_modes
  unfold DefType.steps
  keepsVal

theorem commaLoop_modes {item : Prog Val} (hi : KeepsModes item) : ∀ n vs, KeepsModes (commaLoop item n vs) := by
  intro n
  induction n with
  | zero => intro vs; exact .panic
  | succ n ih => intro vs; unfold commaLoop; keepsVal; exact ih _

theorem manyLoop_modes {test : Cursor → Prog Bool} {item : Prog Val} (ht : Inspects test) (hi : KeepsModes item) : ∀ n vs, KeepsModes (manyLoop test item n vs) := by
  intro n
  induction n with
  | zero => intro vs; exact .panic
  | succ n ih =>
    have := ht.modes
    intro vs; unfold manyLoop
    exact .bind .ask fun _ => .bind (ht.modes _) fun _ => .ite (.bind hi fun _ => ih _) .pure

theorem optionsRound_modes : ∀ (ls : List Leaf), (∀ l ∈ ls, l.Calm) → ∀ vs : List (Option Val), KeepsModes (optionsRound ls vs)
  | [], _, vs => by unfold optionsRound; exact .pure
  | l :: ls, h, [] => by unfold optionsRound; exact .pure
  | l :: ls, h, some v :: vs => by
    have ih := optionsRound_modes ls (fun l hl => h l (by simp [hl])) vs
    unfold optionsRound
    keepsVal
  | l :: ls, h, none :: vs => by
    have hl := h l (by simp)
    have ih := optionsRound_modes ls (fun l hl => h l (by simp [hl])) vs
    unfold optionsRound
    refine .bind .ask fun _ => .bind (hl.test.modes _) fun _ => .ite (.bind hl.parser fun _ => .pure) ?_
    keepsVal

theorem optionsLoop_modes {ls : List Leaf} (h : ∀ l ∈ ls, l.Calm) : ∀ n vs, KeepsModes (optionsLoop ls n vs) := by
  intro n
  induction n with
  | zero => intro vs; exact .panic
  | succ n ih =>
    intro vs
    have := optionsRound_modes ls h vs
    unfold optionsLoop
    keepsVal
    exact ih _

theorem options_modes (he : ∀ n, (env n).Calm) (ds : List Def) : KeepsModes (options env ds) := by
  unfold options
  split
  · refine .bind (optionsLoop_modes ?_ _ _) fun _ => .pure
    intro l hl
    obtain ⟨t, _, rfl⟩ := List.mem_map.mp hl
    exact t.leaf_calm he
  · exact .panic

theorem Def.steps_modes (ho : ∀ n, (env n).Ok) (he : ∀ n, (env n).Calm) : ∀ d : Def, KeepsModes (d.steps env)
  | .type t => by rw [Def.steps]; exact t.steps_modes he
  | .function name d => by
    have ih := Def.steps_modes ho he d
    have := @eqCase_modes
    rw [Def.steps]
    refine .bind (tokKind_modes _) fun f => .bind eqCase_modes fun b => ?_
    keepsVal
  | .optional (.type t) => by
    have := t.leaf_calm he
    rw [Def.steps]
    exact .bind (.maybe this.test this.parser) fun _ => .pure
  | .comb ds .options => by rw [Def.steps]; exact options_modes he ds
  | .group d .none => by rw [Def.steps]; exact Def.steps_modes ho he d
  | .mult d (.commas .none) => by
    have ih := Def.steps_modes ho he d
    rw [Def.steps]
    exact .readNow fun p => .bind (commaLoop_modes ih _ _) fun _ => .pure
  | .mult d (.range .none) => by
    have ih := Def.steps_modes ho he d
    rw [Def.steps]
    exact .readNow fun p => .bind (manyLoop_modes (Def.test_inspects ho d) ih _ _) fun _ => .pure
  | .mult (.type t) (.range (.fixed n)) => by
    rw [Def.steps]
    refine .bind (sequence_modes fun x hx => ?_) fun _ => .pure
    rw [(List.mem_replicate.mp hx).2]
    exact t.steps_modes he
  | .ident _ | .punct _ | .optional (.ident _) | .optional (.function _ _) | .optional (.optional _) | .optional (.comb _ _) | .optional (.group _ _)
  | .optional (.mult _ _) | .optional (.punct _) | .comb _ .ordered | .comb _ .allMustOccur | .comb _ .alternatives
  | .group _ .oneMustOccur | .group _ .oneOrMore | .group _ (.range _) | .mult _ .zeroOrMore | .mult _ .oneOrMore
  | .mult _ (.commas (.range _ _)) | .mult _ (.commas (.from _)) | .mult _ (.commas (.to _)) | .mult _ (.commas (.fixed _))
  | .mult _ (.range (.range _ _)) | .mult _ (.range (.from _)) | .mult _ (.range (.to _))
  | .mult (.ident _) (.range (.fixed _)) | .mult (.function _ _) (.range (.fixed _)) | .mult (.optional _) (.range (.fixed _))
  | .mult (.comb _ _) (.range (.fixed _)) | .mult (.group _ _) (.range (.fixed _)) | .mult (.mult _ _) (.range (.fixed _))
  | .mult (.punct _) (.range (.fixed _)) => by rw [Def.steps] <;> first | exact .panic | nofun

theorem tryOthers_modes (ho : ∀ n, (env n).Ok) (he : ∀ n, (env n).Calm) : ∀ ds : List (Nat × Def), KeepsModes (tryOthers env ds)
  | [] => .bind any_modes fun _ => .fail
  | (i, d) :: ds => by
    unfold tryOthers
    exact .bind .ask fun _ => .bind ((d.test_inspects ho).modes _) fun _ => .ite (.bind (d.steps_modes ho he) fun _ => .pure) (tryOthers_modes ho he ds)
theorem otherAlternatives_modes (ho : ∀ n, (env n).Ok) (he : ∀ n, (env n).Calm) (ds : List (Nat × Def)) : KeepsModes (otherAlternatives env ds) := by
  unfold otherAlternatives
  split
  · rename_i d
    exact .bind (d.steps_modes ho he) fun _ => .pure
  · exact tryOthers_modes ho he _

theorem alternatives_modes (ho : ∀ n, (env n).Ok) (he : ∀ n, (env n).Calm) (ds : List Def) : KeepsModes (alternatives env ds) := by
  have := otherAlternatives_modes ho he
  unfold alternatives
  refine .ite (.ite .panic (.bind (.maybe .keyword keyword_modes) fun o => ?_)) (this _)
  split
  · exact .pure
  · split
    · exact .bind (tokKind_modes _) fun _ => .pure
    · exact .ite (.bind any_modes fun _ => .bind .ask fun _ => .fail) (this _)

theorem ordered_modes (ho : ∀ n, (env n).Ok) (he : ∀ n, (env n).Calm) (ds : List Def) : KeepsModes (ordered env ds) := by
  unfold ordered
  refine .bind (sequence_modes fun x hx => ?_) fun _ => .pure
  obtain ⟨d, _, rfl⟩ := List.mem_map.mp hx
  exact d.steps_modes ho he

theorem Def.parser_modes (ho : ∀ n, (env n).Ok) (he : ∀ n, (env n).Calm) (d : Def) : KeepsModes (d.parser env) := by
  unfold Def.parser
  split
  · rename_i t
    exact .bind (t.steps_modes he) fun _ => .pure
  · exact alternatives_modes ho he _
  · exact options_modes he _
  · exact ordered_modes ho he _
  · exact ordered_modes ho he _
  · exact ordered_modes ho he _
  · exact .panic
  · exact .bind (Def.steps_modes ho he _) fun _ => .pure
  · exact .panic

/-! ### Hand-written types -/

theorem all_modes {xs : List (Prog Val)} {x : Prog Val} (h : KeepsModes x) (ht : ∀ y ∈ xs, KeepsModes y) : ∀ y ∈ x :: xs, KeepsModes y := by
  intro y hy
  rcases List.mem_cons.mp hy with rfl | hy
  · exact h
  · exact ht y hy
theorem none_modes : ∀ y ∈ ([] : List (Prog Val)), KeepsModes y := by simp
/-- A sequence of pieces. -/
macro "pieces" : tactic => `(tactic| (
  refine sequence_modes ?_
  repeat' (first | exact none_modes | refine all_modes ?_ ?_)
  all_goals first | (refine piece_modes ?_; looks) | (refine optPiece_modes ?_; looks)))

theorem legacy_modes {a : Cursor → Prog Bool} (ha : Inspects a) : ∀ x ∈ legacyChannels a ++ [optPiece (isKind .rightParen)], KeepsModes x := by
  unfold legacyChannels
  refine all_modes (piece_modes ha) ?_
  repeat' (first | exact none_modes | refine all_modes ?_ ?_)
  all_goals first | (refine piece_modes ?_; looks) | (refine optPiece_modes ?_; looks)
theorem channels_modes {a b c : Cursor → Prog Bool} (ha : Inspects a) (hb : Inspects b) (hc : Inspects c) :
    ∀ x ∈ channels a b c ++ [optPiece (isKind .rightParen)], KeepsModes x := by
  unfold channels
  refine all_modes (piece_modes ha) (all_modes (piece_modes hb) (all_modes (piece_modes hc) ?_))
  repeat' (first | exact none_modes | refine all_modes ?_ ?_)
  all_goals first | (refine piece_modes ?_; looks) | (refine optPiece_modes ?_; looks)

theorem colorFunction_modes : KeepsModes colorFunction := by
  unfold colorFunction
  refine .bind (functionOf_modes _) fun x => ?_
  obtain ⟨name, f⟩ := x
  refine .bind (sequence_modes ?_) fun _ => .pure
  unfold colorArguments
  split
  · exact all_modes (piece_modes .keyword) (channels_modes .channel .channel .channel)
  split
  · exact legacy_modes .channel
  split
  · exact legacy_modes .hue
  split
  · exact channels_modes .hue .channel .channel
  split
  · exact channels_modes .channel .channel .hue
  · exact channels_modes .channel .channel .channel

theorem color_modes : KeepsModes color := by
  have := colorFunction_modes
  unfold color
  keepsVal

theorem positionValue_modes : KeepsModes positionValue := by unfold positionValue; keepsVal
theorem fourPosition_modes (a b : PositionValue) : KeepsModes (fourPosition a b) := by
  have := positionValue_modes
  unfold fourPosition
  keepsVal
theorem position_modes : KeepsModes position := by
  have := positionValue_modes
  have := fourPosition_modes
  unfold position
  keepsVal
  all_goals exact fourPosition_modes _ _

theorem gradientStops_modes : ∀ n b vs, KeepsModes (gradientStops n b vs) := by
  have := color_modes
  intro n
  induction n with
  | zero => intro b vs; exact .panic
  | succ n ih => intro b vs; unfold gradientStops; keepsVal; all_goals exact ih _ _

theorem linearDirection_modes : KeepsModes linearDirection := by
  unfold linearDirection
  refine .bind .ask fun c => .bind (KeepsModes.test .unit _) fun _ => .ite (.bind (piece_modes .unit) fun _ => .pure) (.bind (tokKind_modes _) fun _ => .bind eqCase_modes fun _ => ?_)
  refine .ite (.bind .ask fun _ => .fail) (.bind ?_ fun _ => .pure)
  pieces
theorem radialSize_modes : KeepsModes radialSize := by
  have : KeepsModes (sequence [piece isLengthPercentage, piece isLengthPercentage]) := by pieces
  unfold radialSize
  keepsVal
theorem linearGradient_modes (f : Cursor) : KeepsModes (linearGradient f) := by
  have := linearDirection_modes
  have := optionalClose_modes
  unfold linearGradient
  keepsVal
  all_goals exact gradientStops_modes _ _ _
theorem radialGradient_modes (f : Cursor) {a : Prog Bool} (ha : KeepsModes a) : KeepsModes (radialGradient f a) := by
  have := radialSize_modes
  have := position_modes
  have := optionalClose_modes
  unfold radialGradient
  keepsVal
  all_goals exact gradientStops_modes _ _ _
theorem gradient_modes : KeepsModes gradient := by
  have h1 := linearGradient_modes
  unfold gradient
  refine .bind (functionOf_modes _) fun x => ?_
  obtain ⟨name, f⟩ := x
  refine .ite (.bind (h1 _) fun _ => .pure) (.ite (.bind (h1 _) fun _ => .pure) (.ite (.bind (radialGradient_modes _ ?_) fun _ => .pure) (.bind (radialGradient_modes _ ?_) fun _ => .pure)))
  · exact .bind .ask fun _ => .test .word _
  · exact .test .word _

theorem namedFunction_modes {name : List Char} : KeepsModes (namedFunction name) := by
  unfold namedFunction
  exact .bind (tokKind_modes _) fun _ => .bind eqCase_modes fun _ => .ite (.bind .ask fun _ => .fail) .pure
theorem image_modes : KeepsModes image := by
  have := gradient_modes
  unfold image
  refine .bind .ask fun _ => .ite (.bind (piece_modes .kind) fun _ => .pure) (.bind .ask fun _ => .bind (KeepsModes.test .functionOf _) fun _ =>
    .ite (.bind this fun _ => .pure) (.bind namedFunction_modes fun _ => .bind ?_ fun _ => .pure))
  pieces
theorem colorStripe_modes : KeepsModes colorStripe := by
  have := color_modes
  unfold colorStripe
  keepsVal
theorem stripesLoop_modes : ∀ n vs, KeepsModes (stripesLoop n vs) := by
  have := colorStripe_modes
  intro n
  induction n with
  | zero => intro vs; exact .panic
  | succ n ih => intro vs; unfold stripesLoop; keepsVal; all_goals exact ih _
theorem image1D_modes : KeepsModes image1D := by
  unfold image1D
  exact .bind namedFunction_modes fun _ => .readNow fun _ => .bind (stripesLoop_modes _ _) fun _ => .pure
theorem optKeyword_modes {names : List (List Char)} : KeepsModes (optKeyword names) := by unfold optKeyword; keepsVal
theorem positionPair_modes {first second : List (List Char)} {i : Nat} {flipped : Bool} {otherwise : Prog Val} (h : KeepsModes otherwise) :
    KeepsModes (positionPair first second i flipped otherwise) := by
  unfold positionPair
  keepsVal
  all_goals exact optKeyword_modes
theorem positionArea_modes : KeepsModes positionArea :=
  positionPair_modes <| positionPair_modes <| positionPair_modes <| positionPair_modes <| positionPair_modes <| positionPair_modes <| positionPair_modes <|
    positionPair_modes <| .bind any_modes fun _ => .fail
theorem iterationCount_modes : KeepsModes iterationCount := by
  have := @eqCase_modes
  unfold iterationCount
  keepsVal
  all_goals exact eqCase_modes
theorem repeatStyle_modes : KeepsModes repeatStyle := by unfold repeatStyle; keepsVal; all_goals exact optKeyword_modes
theorem snap_modes {name : List Char} {names : List (List Char)} : KeepsModes (snap name names) := by
  have := @namedFunction_modes name
  unfold snap
  keepsVal
  all_goals exact optKeyword_modes
theorem rangeLimitLoop_modes : ∀ n vs, KeepsModes (rangeLimitLoop n vs) := by
  intro n
  induction n with
  | zero => intro vs; exact .panic
  | succ n ih => intro vs; unfold rangeLimitLoop; keepsVal; all_goals exact ih _
theorem rangeLimitMix_modes : KeepsModes rangeLimitMix := by
  unfold rangeLimitMix
  exact .bind namedFunction_modes fun _ => .readNow fun _ => .bind (rangeLimitLoop_modes _ _) fun _ => .pure
theorem calcSize_modes : KeepsModes calcSize := .bind (tokKind_modes _) fun _ => .panic

theorem handWritten_calm (name : List Char) : ∀ l, handWritten name = some l → l.Calm := by
  unfold handWritten
  have pick : ∀ {b : Prop} [Decidable b] {x : Leaf} {y : Option Leaf}, x.Calm → (∀ l, y = some l → l.Calm) → ∀ l, (if b then some x else y) = some l → l.Calm := by
    intro b _ x y hx hy l e
    split at e
    · cases e; exact hx
    · exact hy l e
  split
  · intro l e; cases e; exact .keywords
  · refine pick (.single .lineWidth) <| pick (.single .opacity) <| pick ⟨.iterationCount, iterationCount_modes⟩ <| pick ⟨.repeatStyle, repeatStyle_modes⟩ <|
      pick (.single .dashed) <| pick ⟨.positionArea, positionArea_modes⟩ <| pick ⟨.named, snap_modes⟩ <| pick ⟨.named, snap_modes⟩ <|
      pick ⟨.named, rangeLimitMix_modes⟩ <| pick ⟨.named, calcSize_modes⟩ <| pick ⟨.color, color_modes⟩ <| pick ⟨.image, image_modes⟩ <|
      pick ⟨.named, image1D_modes⟩ <| pick (.single .kind) ?_
    intro l e; cases e

theorem definitionLeaf_calm : ∀ n name, (definitionLeaf n name).Calm := by
  intro n
  induction n with
  | zero => intro name; exact ⟨.panic, .panic⟩
  | succ n ih =>
    intro name
    unfold definitionLeaf
    split
    · exact handWritten_calm name _ ‹_›
    · split
      · exact ⟨Def.test_inspects (definitionLeaf_ok n) _, Def.parser_modes (definitionLeaf_ok n) ih _⟩
      · exact ⟨.panic, .panic⟩

theorem realValues_modes (name : List Char) : KeepsModes (realValues.parser name) := by
  unfold realValues
  dsimp only
  split
  · exact (definitionLeaf_calm _ _).parser
  · exact .panic

end Hdx

/-
The parsers of selectors leave one of the usual sets to be skipped, even if they fail.
-/
import Verif.Lemmas.Saves
import Verif.Model.AtRules

namespace Hdx
open Spec Prog

theorem usualNone : UsualSkip KindSet.NONE := .inl rfl
theorem usualComments : UsualSkip KindSet.COMMENTS := .inr (.inl rfl)

theorem namespaceSelector_usual : Usual namespaceSelector := by
  have h1 := Does.keeps namespacePrefix_modes
  have h2 := Does.keeps namespaceTag_modes
  have h3 := Does.keeps (tokKind_modes .ident)
  have h4 := Does.keeps (KeepsModes.result (tokDelim_modes '|'))
  have h5 := Does.keeps (KeepsModes.result namespaceTag_modes)
  have h6 : ∀ a b c, Usual (isDoubleDelim a b c) := fun a b c => Does.keeps (isDoubleDelim_modes c)
  unfold namespaceSelector
  refine Usual.bind Usual.peek fun _ => Usual.bind (h6 _ _ _) fun _ => Usual.ite (by usual) (Usual.ite (by usual) ?_)
  refine Usual.bind h3 fun _ => Usual.setSkip usualNone fun old ho => ?_
  refine Usual.bind Usual.peek fun _ => Usual.bind (h6 _ _ _) fun _ => Usual.ite ?_ (by usual)
  exact Usual.bind h4 fun _ => Usual.bind h5 fun _ => Usual.setSkip ho fun _ _ => by usual

theorem selIdent_usual {s : KindSet} (hs : UsualSkip s) : Usual (selIdent s) := by
  have h1 := namespaceSelector_usual
  have h2 : ∀ c, Usual (buildTag c) := fun c => Does.keeps (buildTag_modes c)
  unfold selIdent
  refine Usual.bind Usual.peekN fun _ => Usual.ite (Usual.setSkip hs fun _ _ => by usual) ?_
  refine Usual.bind Usual.take fun c => Usual.setSkip hs fun _ _ => ?_
  have := h2 c
  usual

theorem selHash_usual {s : KindSet} (hs : UsualSkip s) : Usual (selHash s) := by
  unfold selHash
  exact Usual.bind Usual.take fun c => Usual.setSkip hs fun _ _ => by usual

theorem selDot_usual {s : KindSet} (hs : UsualSkip s) : Usual (selDot s) := by
  have h1 := Does.keeps classSelector_modes
  unfold selDot
  exact Usual.bind Usual.peekN fun c => Usual.setSkip hs fun _ _ => by usual

theorem selStar_usual {s : KindSet} (hs : UsualSkip s) : Usual (selStar s) := by
  have h1 := namespaceSelector_usual
  unfold selStar
  exact Usual.bind Usual.peekN fun c => Usual.setSkip hs fun _ _ => by usual

theorem selDelim_usual {s : KindSet} (hs : UsualSkip s) : Usual (selDelim s) := by
  have h1 := Does.keeps combinator_modes
  unfold selDelim
  exact Usual.setSkip hs fun _ _ => by usual

theorem functionalPseudoElement_usual {compound : Prog (List Sel)} (hc : Usual compound) (fuel : Nat) : Usual (functionalPseudoElement compound fuel) := by
  have h1 := Does.keeps colonColon_modes
  have h2 := fun k => Does.keeps (tokKind_modes k)
  have h3 := Does.keeps (partLoop_modes fuel [])
  have h4 := Does.keeps optionalClose_modes
  have h5 := h2 .function
  have h6 := h2 .ident
  unfold functionalPseudoElement
  usual

theorem functionalPseudoClassValue_usual {list : Prog (List (List Sel × Option Cursor))} (hl : Usual list) (fuel : Nat) (colon : Cursor)
    (name : List Char) (function : Cursor) : Usual (functionalPseudoClassValue list fuel colon name function) := by
  have h1 := fun names => Does.keeps (@keyword_modes names)
  have h2 := Does.keeps (tokKind_modes .ident)
  have h3 := Does.keeps (langValues_modes fuel [])
  have h4 := Does.keeps optionalClose_modes
  have h5 := Does.keeps nth_modes
  unfold functionalPseudoClassValue
  repeat' (first | exact h1 _ | usual)

theorem functionalPseudoClass_usual {list : Prog (List (List Sel × Option Cursor))} (hl : Usual list) (fuel : Nat) :
    Usual (functionalPseudoClass list fuel) := by
  have h1 := fun names => Does.keeps (KeepsModes.result (functionOf_modes names))
  have h2 := Does.keeps (KeepsModes.result (tokKind_modes .colon))
  have h3 := functionalPseudoClassValue_usual hl fuel
  unfold functionalPseudoClass
  repeat' (first | exact h1 _ | exact h3 _ _ _ | (refine Usual.setSkip usualNone fun _ _ => ?_) | (refine Usual.setSkip (by assumption) fun _ _ => ?_) | usual)

theorem selColonColon_usual {compound : Prog (List Sel)} (hc : Usual compound) (fuel : Nat) {s : KindSet} (hs : UsualSkip s) :
    Usual (selColonColon compound fuel s) := by
  have h1 := Does.keeps pseudoElement_modes
  have h2 := functionalPseudoElement_usual hc fuel
  unfold selColonColon
  exact Usual.bind Usual.peekN fun c => Usual.setSkip hs fun _ _ => by usual

theorem selColonIdent_usual {s : KindSet} (hs : UsualSkip s) (c : Cursor) : Usual (selColonIdent s c) := by
  have h1 := Does.keeps pseudoClass_modes
  have h2 := Does.keeps (pseudoClassOf_modes LEGACY_PSEUDO_ELEMENTS)
  have h3 := Does.keeps (isPseudoClassOf_modes LEGACY_PSEUDO_ELEMENTS c)
  unfold selColonIdent
  exact Usual.setSkip hs fun _ _ => by usual

theorem selColon_usual {compound : Prog (List Sel)} {list : Prog (List (List Sel × Option Cursor))} (hc : Usual compound) (hl : Usual list) (fuel : Nat)
    {s : KindSet} (hs : UsualSkip s) (c : Cursor) : Usual (selColon compound list fuel s c) := by
  have h1 := selColonColon_usual hc fuel hs
  have h2 := selColonIdent_usual hs c
  have h3 : Usual (Prog.setSkip s fun _ => functionalPseudoClass list fuel) := Usual.setSkip hs fun _ _ => functionalPseudoClass_usual hl fuel
  unfold selColon
  usual

theorem selOther_usual {s : KindSet} (hs : UsualSkip s) : Usual (selOther s) := by
  unfold selOther
  refine Usual.bind (Does.keeps (.result combinator_modes)) fun r => ?_
  intro p p' r' w hp hg
  replace hg := gives_setSkip.mp hg
  simp only [Gives, runLog] at hg
  cases hc : ({ p with skip := KindSet.WHITESPACE } : Parser).consumeTrivia with
  | error e => rw [hc] at hg; cases hg
  | ok q =>
    rw [hc] at hg
    have m := consumeTrivia_modes hc
    simp only [Spec.modes, Prod.mk.injEq] at m
    have : Usual (ofResult r >>= fun c => (Pure.pure (.combinator c) : Prog Sel)) := by usual
    obtain ⟨m2, _⟩ := this (p := { q with skip := s }) hs hg
    exact ⟨⟨m2.1, m2.2.1.trans m.2.1, m2.2.2.trans m.2.2⟩, fun _ _ => trivial⟩

theorem selectorComponent_usual {compound : Prog (List Sel)} {list : Prog (List (List Sel × Option Cursor))} (hc : Usual compound) (hl : Usual list)
    (fuel : Nat) : Usual (selectorComponent compound list fuel) := by
  have h1 := Does.keeps attributeSelector_modes
  unfold selectorComponent
  refine Usual.setSkip usualComments fun s hs => ?_
  have h2 := selIdent_usual hs
  have h3 := selHash_usual hs
  have h4 := selDot_usual hs
  have h5 := selStar_usual hs
  have h6 := selDelim_usual hs
  have h7 := selOther_usual hs
  refine Usual.bind Usual.peekN fun c => ?_
  have h8 := selColon_usual hc hl fuel hs c
  repeat' (first | (refine Usual.setSkip hs fun _ _ => ?_) | usual)

theorem compoundLoop_usual {component : Prog Sel} (hc : Usual component) : ∀ n acc, Usual (compoundLoop component n acc) := by
  intro n
  induction n with
  | zero => intro acc; exact Does.panic
  | succ n ih => intro acc; unfold compoundLoop; repeat' (first | exact ih _ | usual)

theorem selectorListLoop_usual {compound : Prog (List Sel)} (hc : Usual compound) : ∀ n acc, Usual (selectorListLoop compound n acc) := by
  intro n
  induction n with
  | zero => intro acc; exact Does.panic
  | succ n ih =>
    intro acc; unfold selectorListLoop
    have := (Does.optional (k := .comma) (by decide)).usual
    repeat' (first | exact ih _ | usual)

theorem compoundSelector_usual : ∀ n, Usual (compoundSelector n) := by
  intro n
  induction n with
  | zero => exact Does.panic
  | succ n ih => exact Does.consumeTrivia (compoundLoop_usual (selectorComponent_usual ih (selectorListLoop_usual ih n []) n) _ _)

theorem selectorListFuel_usual (n : Nat) : Usual (selectorListFuel n) := selectorListLoop_usual (compoundSelector_usual n) n []

/-- A list of selectors, from any of the usual sets to be skipped. -/
theorem selectorListFuel_does (n : Nat) : Does (selectorListFuel n) fun a t => t = taken (Sel.listCursors a) :=
  Does.ofUsual (selectorListFuel_usual n) fun _ hp => Succ.mono (selectorListLoop_sound (compoundSelector_sound n) n hp) fun _ _ _ h => by rw [h.1]

end Hdx

/-
Properties C69-C72: selectors.
-/
import Verif.Lemmas.Wp

namespace Hdx
open Spec Prog

/-! ### The modes of the parser -/

theorem strLower_modes (c : Cursor) : KeepsModes (Prog.strLower c) := .ask
theorem str_modes (c : Cursor) : KeepsModes (Prog.str c) := .ask
theorem tokKind_modes (k : Kind) : KeepsModes (tok (isKind k)) := by unfold isKind; keeps
theorem tokDelim_modes (ch : Char) : KeepsModes (tok (isDelim ch)) := by unfold isDelim; keeps

/-- `keeps`, with the parsers that selectors use. -/
macro "keepsMore" : tactic => `(tactic| repeat' (first
  | assumption
  | exact KeepsModes.ret | exact KeepsModes.pure | exact KeepsModes.fail | exact KeepsModes.ofResult | exact KeepsModes.panic
  | exact KeepsModes.ask | exact KeepsModes.take | exact KeepsModes.whitespace
  | exact strLower_modes _ | exact str_modes _ | exact tokKind_modes _ | exact tokDelim_modes _ | exact isKeyword_modes _ | exact buildKeyword_modes _
  | exact keyword_modes | exact isDoubleDelim_modes _ | exact doubleDelim_modes
  | refine KeepsModes.setSkip ?_ (fun _ => ?_)
  | refine KeepsModes.result ?_ | refine KeepsModes.tryParse ?_ | refine KeepsModes.tok (fun _ => ?_) | refine KeepsModes.ifPeek (fun _ => ?_) ?_
  | refine KeepsModes.bind ?_ (fun _ => ?_) | refine KeepsModes.ite ?_ ?_ | refine KeepsModes.attempt ?_ (fun _ => ?_)
  | split | (dsimp only)))

theorem buildTag_modes (c : Cursor) : KeepsModes (buildTag c) := by unfold buildTag; keepsMore
theorem combinator_modes : KeepsModes combinator := by unfold combinator; keepsMore
theorem adjacentPipe_modes : KeepsModes adjacentPipe := by unfold adjacentPipe; keepsMore
theorem namespacePrefix_modes : KeepsModes namespacePrefix := by
  have := adjacentPipe_modes
  unfold namespacePrefix; keepsMore
theorem namespaceTag_modes : KeepsModes namespaceTag := by
  have := buildTag_modes
  unfold namespaceTag isNamespaceTag; keepsMore
theorem attributeOperator_modes : KeepsModes attributeOperator := by unfold attributeOperator; keepsMore
theorem isAttributeOperator_modes (c : Cursor) : KeepsModes (isAttributeOperator c) := by unfold isAttributeOperator; keepsMore
theorem isAttributeModifier_modes (c : Cursor) : KeepsModes (isAttributeModifier c) := by unfold isAttributeModifier; keepsMore
theorem attributeModifier_modes : KeepsModes attributeModifier := by
  unfold attributeModifier; exact .bind (.tok isAttributeModifier_modes) fun _ => .bind (str_modes _) fun _ => .pure
theorem optionalClose_modes : KeepsModes optionalClose := .ifPeek (fun _ => .pure) (tokKind_modes _)
theorem attributeRest_modes (o : Cursor) (pre : Option NamespacePrefix) (n : Cursor) : KeepsModes (attributeRest o pre n) := by
  unfold attributeRest
  refine .bind (.ifPeek isAttributeOperator_modes attributeOperator_modes) fun op => ?_
  have hc : KeepsModes (ifPeek (isKind .rightSquare) (tok (isKind .rightSquare))) := .ifPeek (fun _ => .pure) (tokKind_modes _)
  cases op with
  | none => exact .bind hc fun _ => .pure
  | some op => exact .bind (.tok fun _ => .pure) fun _ => .bind (.ifPeek isAttributeModifier_modes attributeModifier_modes) fun _ => .bind hc fun _ => .pure

/-- `x` puts the skipped kinds back to `old` and leaves the other modes alone, whatever it returns. -/
def PutsBack {α : Type} (old : KindSet) (x : Prog α) : Prop := ∀ ⦃p p' : Parser⦄ ⦃r : Except Diag α⦄ ⦃w : List Cursor⦄, Gives x p r p' w → modes p' = (old, p.stop, p.nested)

namespace PutsBack
variable {α β : Type} {old : KindSet}
theorem setSkip {k : KindSet → Prog α} (hk : ∀ o, KeepsModes (k o)) : PutsBack old (Prog.setSkip old k) := by
  intro p p' r w h
  exact hk _ (gives_setSkip.mp h)
/-- A program that cannot fail comes before. -/
theorem bind {x : Prog α} {f : α → Prog β} (hx : KeepsModes x) (he : ∀ {p d p' w}, ¬ Gives x p (.error d) p' w) (hf : ∀ a, PutsBack old (f a)) :
    PutsBack old (x >>= f) := by
  intro p p' r w h
  rcases gives_bind.mp h with ⟨a, p1, w1, w2, h1, h2, rfl⟩ | ⟨d, h1, _⟩
  · have m1 := hx h1
    have m2 := hf a h2
    simp only [modes, Prod.mk.injEq] at m1 m2 ⊢
    exact ⟨m2.1, m2.2.1.trans m1.2.1, m2.2.2.trans m1.2.2⟩
  · exact absurd h1 he
theorem ite {b : Prop} [Decidable b] {x y : Prog α} (hx : PutsBack old x) (hy : PutsBack old y) : PutsBack old (if b then x else y) := by
  split
  · exact hx
  · exact hy
theorem result {x : Prog α} {f : Except Diag α → Prog β} (hx : KeepsModes x) (hf : ∀ a, PutsBack old (f a)) : PutsBack old (Prog.result x >>= f) :=
  bind (.result hx) (fun h => by obtain ⟨_, _, e⟩ := gives_result.mp h; cases e) hf
theorem ask {g : Parser → Except Panic α} {f : α → Prog β} (hf : ∀ a, PutsBack old (f a)) : PutsBack old (Prog.ask g >>= f) :=
  bind .ask (fun h => by obtain ⟨_, _, e, _⟩ := gives_ask.mp h; cases e) hf
theorem doubleDelim {a b : Char} {c : Cursor} {f : Bool → Prog β} (hf : ∀ a, PutsBack old (f a)) : PutsBack old (isDoubleDelim a b c >>= f) := by
  refine bind (isDoubleDelim_modes _) (fun h => ?_) hf
  unfold isDoubleDelim at h
  rcases gives_ite.mp h with ⟨_, h⟩ | ⟨_, h⟩
  · rcases gives_bind.mp h with ⟨s, p1, w1, w2, h1, h2, rfl⟩ | ⟨d, h1, _⟩
    · cases (gives_pure.mp h2).1
    · obtain ⟨_, _, e, _⟩ := gives_peekN.mp h1; cases e
  · cases (gives_pure.mp h).1
end PutsBack

/-- `let old = p.set_skip(s); ...` where everything that follows puts `old` back. -/
theorem KeepsModes.skipping {α : Type} {s : KindSet} {k : KindSet → Prog α} (hk : ∀ old, PutsBack old (k old)) : KeepsModes (Prog.setSkip s k) := by
  intro p p' r w h
  have := hk _ (gives_setSkip.mp h)
  simpa only [modes] using this

theorem attributeName_modes (o n : Cursor) : KeepsModes (attributeName o n) := by
  unfold attributeName
  refine .skipping fun old => .ask fun c => .doubleDelim fun eq => .ite (.result (tokDelim_modes _) fun pipe => .result (tokKind_modes _) fun ident =>
    ?_) (.setSkip fun _ => attributeRest_modes _ _ _)
  intro p p' r w h
  rcases gives_bind.mp (gives_setSkip.mp h) with ⟨a, p1, w1, w2, h1, h2, rfl⟩ | ⟨d, h1, _⟩
  · obtain ⟨_, rfl, rfl⟩ := gives_ofResult.mp h1
    rcases gives_bind.mp h2 with ⟨b, p3, w3, w4, h3, h4, e⟩ | ⟨d, h3, _⟩
    · obtain ⟨_, rfl, rfl⟩ := gives_ofResult.mp h3
      exact attributeRest_modes _ _ _ (gives_setSkip.mp h4)
    · obtain ⟨_, rfl, rfl⟩ := gives_ofResult.mp h3; rfl
  · obtain ⟨_, rfl, rfl⟩ := gives_ofResult.mp h1; rfl

theorem attributeSelector_modes : KeepsModes attributeSelector := by
  have h1 := namespacePrefix_modes
  unfold attributeSelector
  refine .bind (tokKind_modes _) fun o => .bind .ask fun c => .bind (isDoubleDelim_modes _) fun b => .ite
    (.bind h1 fun pre => .bind (tokKind_modes _) fun n => .skipping fun old => .setSkip fun _ => attributeRest_modes _ _ _)
    (.bind (tokKind_modes _) fun n => attributeName_modes _ _)

theorem colonColon_modes : KeepsModes colonColon := by unfold colonColon; keepsMore
theorem adjacentName_modes (names : List (List Char)) : KeepsModes (adjacentName names) := by unfold adjacentName; keepsMore
theorem pseudoClassOf_modes (names : List (List Char)) : KeepsModes (pseudoClassOf names) := by
  have := adjacentName_modes names
  unfold pseudoClassOf; keepsMore
theorem isPseudoClassOf_modes (names : List (List Char)) (c : Cursor) : KeepsModes (isPseudoClassOf names c) := by unfold isPseudoClassOf; keepsMore
theorem pseudoElementOf_modes (names : List (List Char)) : KeepsModes (pseudoElementOf names) := by
  have := adjacentName_modes names
  have := colonColon_modes
  unfold pseudoElementOf; keepsMore
theorem tryVendors_modes {α : Type} {f : Vendor → Prog α} {o : Prog (Vendor × α)} (hf : ∀ v, KeepsModes (f v)) (ho : KeepsModes o) :
    ∀ vs, KeepsModes (tryVendors f o vs) := by
  intro vs
  induction vs with
  | nil => exact ho
  | cons v vs ih =>
    unfold tryVendors
    refine .bind (.result (.tryParse (hf v))) fun r => ?_
    cases r with
    | ok a => exact .pure
    | error d => exact ih
theorem failReading_modes {α : Type} (c : Cursor) : KeepsModes (failReading c : Prog α) := by unfold failReading; keepsMore
theorem pseudoClass_modes : KeepsModes pseudoClass := by
  unfold pseudoClass
  refine .attempt (pseudoClassOf_modes _) fun r => ?_
  cases r with
  | ok a => exact .pure
  | error d => exact .bind .ask fun c => tryVendors_modes (fun v => pseudoClassOf_modes _) (failReading_modes _) _
theorem pseudoElementParts_modes : KeepsModes pseudoElementParts := by
  unfold pseudoElementParts
  exact .skipping fun old => .result colonColon_modes fun _ => .result keyword_modes fun _ => .setSkip fun _ => .pure
theorem pseudoElement_modes : KeepsModes pseudoElement := by
  unfold pseudoElement
  refine .attempt pseudoElementParts_modes fun r => .bind .ofResult fun parts => .bind .ofResult fun colons => ?_
  cases parts.2 with
  | ok a => exact .pure
  | error d => exact .bind .ask fun c => tryVendors_modes (fun v => pseudoElementOf_modes _) (failReading_modes _) _
theorem isFunctionOf_modes (names : List (List Char)) (c : Cursor) : KeepsModes (isFunctionOf names c) := by unfold isFunctionOf; keepsMore
theorem functionOf_modes (names : List (List Char)) : KeepsModes (functionOf names) := by
  unfold functionOf; exact .bind (.tok (isFunctionOf_modes _)) fun _ => buildKeyword_modes _
theorem langValue_modes : KeepsModes langValue := by unfold langValue isKind; keepsMore
theorem langValues_modes : ∀ n acc, KeepsModes (langValues n acc) := by
  intro n
  induction n with
  | zero => intro acc; exact .panic
  | succ n ih => intro acc; have := langValue_modes; unfold langValues; keepsMore; exact ih _
theorem partLoop_modes : ∀ n acc, KeepsModes (partLoop n acc) := by
  intro n
  induction n with
  | zero => intro acc; exact .panic
  | succ n ih => intro acc; unfold partLoop; keepsMore; exact ih _
theorem classSelector_modes : KeepsModes classSelector := by unfold classSelector; keepsMore

/-! ### What is written -/

theorem buildKeyword_succ {names : List (List Char)} {c : Cursor} {p : Parser} {Q} (h : ∀ s, Q (s, c) p []) : Succ (buildKeyword names c) p Q := by
  unfold buildKeyword
  succ
  exact h _

/-- Building a tag takes nothing. -/
theorem buildTag_succ {c : Cursor} {p : Parser} {Q : TagKind × Cursor → Parser → List Cursor → Prop} (h : ∀ k, Q (k, c) p []) : Succ (buildTag c) p Q := by
  unfold buildTag
  repeat' with_reducible (first
    | (refine buildKeyword_succ (fun _ => ?_)) | (refine Succ.looks Inspects.keyword (fun _ _ => ?_))
    | (refine Succ.strLower (fun _ => ?_)) | (refine Succ.ite (fun _ => ?_) (fun _ => ?_)) | refine Succ.pure ?_ | refine Succ.bind ?_)
  all_goals exact h _

theorem combinator_writes : Writes combinator Combinator.cursors := by
  refine Succ.writes fun p => ?_
  unfold combinator
  succ <;> rfl

theorem adjacentPipe_writes : Writes adjacentPipe (fun c => [c]) := by
  refine Succ.writes fun p => ?_
  unfold adjacentPipe
  refine .setSkip (.bind (.result (.tok .delim fun c p1 _ _ _ => ?_) fun d p1 w _ => ?_))
  all_goals (succ; try rfl)

theorem namespacePrefix_writes : Writes namespacePrefix NamespacePrefix.cursors := by
  refine Succ.writes fun p => ?_
  unfold namespacePrefix
  succ
  · rfl
  · refine .done adjacentPipe_writes fun _ _ _ => ?_
    succ
    rfl
  · refine .done adjacentPipe_writes fun _ _ _ => ?_
    succ
    rfl

theorem namespaceTag_writes : Writes namespaceTag (fun t => [t.2]) := by
  refine Succ.writes fun p => ?_
  unfold namespaceTag
  succ
  · rfl
  · refine buildTag_succ fun k => ?_
    succ
    rfl

theorem attributeOperator_writes : Writes attributeOperator AttributeOperator.cursors := by
  refine Succ.writes fun p => ?_
  unfold attributeOperator
  succ <;> rfl

theorem isAttributeOperator_inspects : Inspects isAttributeOperator := by
  intro c p r p' w h
  unfold isAttributeOperator at h
  have key : ∀ {a b : Char} {x y : Prog Bool} {r : Except Diag Bool} {w : List Cursor}, Gives (isDoubleDelim a b c >>= fun t => if t = true then x else y) p r p' w →
      (∃ w', w = w') ∧ (Gives x p r p' w ∨ Gives y p r p' w ∨ (p' = p ∧ w = [])) := by
    intro a b x y r w h
    rcases gives_bind.mp h with ⟨t, p1, w1, w2, h1, h2, rfl⟩ | ⟨d, h1, _⟩
    · obtain ⟨rfl, rfl⟩ := isDoubleDelim_keeps h1
      rcases gives_ite.mp h2 with ⟨_, h⟩ | ⟨_, h⟩
      · exact ⟨⟨_, rfl⟩, .inl h⟩
      · exact ⟨⟨_, rfl⟩, .inr (.inl h)⟩
    · exact ⟨⟨_, rfl⟩, .inr (.inr (isDoubleDelim_keeps h1))⟩
  have yes : ∀ {b : Bool} {r : Except Diag Bool} {w : List Cursor}, Gives (Pure.pure b : Prog Bool) p r p' w → p' = p ∧ w = [] := fun h => (gives_pure.mp h).2
  rcases gives_ite.mp h with ⟨_, h⟩ | ⟨_, h⟩
  · exact yes h
  · rcases (key h).2 with h | h | h
    · exact yes h
    · rcases (key h).2 with h | h | h
      · exact yes h
      · rcases (key h).2 with h | h | h
        · exact yes h
        · rcases (key h).2 with h | h | h
          · exact yes h
          · exact isDoubleDelim_keeps h
          · exact h
        · exact h
      · exact h
    · exact h

theorem attributeModifier_writes : Writes attributeModifier (fun x => [x.2]) := by
  refine Succ.writes fun p => ?_
  unfold attributeModifier
  succ
  rfl

theorem optional_succ {k : Kind} {p : Parser} {Q : Option Cursor → Parser → List Cursor → Prop} (h : ∀ o p', modes p' = modes p → Q o p' o.toList) :
    Succ (ifPeek (isKind k) (tok (isKind k))) p Q :=
  .ifPeek .kind (.tok .kind fun c p' _ _ hm => h (some c) p' hm) (h none p rfl)

/-- After the name, the rest of the attribute is written. -/
theorem attributeRest_succ (o : Cursor) (pre : Option NamespacePrefix) (n : Cursor) (p : Parser) :
    Succ (attributeRest o pre n) p fun a _ w => a.cursors = o :: ((pre.map NamespacePrefix.cursors).getD [] ++ (n :: w)) := by
  unfold attributeRest
  refine .bind (.ifPeek isAttributeOperator_inspects (.done attributeOperator_writes fun op p1 _ => ?_) ?_)
  · refine .bind (.tok .attrValue fun v p2 _ _ _ => .bind (.ifPeek .attrModifier (.done attributeModifier_writes fun m p3 _ => ?_) ?_))
    · refine .bind (optional_succ fun close p4 _ => .pure ?_)
      simp [Attribute.cursors]
    · refine .bind (optional_succ fun close p4 _ => .pure ?_)
      simp [Attribute.cursors]
  · refine .bind (optional_succ fun close p4 _ => .pure ?_)
    simp [Attribute.cursors]

theorem attributeName_succ (o n : Cursor) (p : Parser) : Succ (attributeName o n) p fun a _ w => a.cursors = o :: n :: w := by
  unfold attributeName
  refine .setSkip (.bind (.ask fun c _ => .bind (.looks .doubleDelim fun eq _ => .ite (fun _ => ?_) fun _ => ?_)))
  · refine .bind (.result (.tok .delim fun pipe p1 _ _ _ => .bind (.result (.tok .kind fun ident p2 _ _ _ => ?_) fun d p1 w _ => ?_)) fun d p1 w _ => ?_)
    · refine .setSkip (.bind (.ofOk (.bind (.ofOk (.setSkip ((attributeRest_succ o (some (.name n pipe)) ident _).mono fun a p' w h => ?_))))))
      rw [h]; simp [NamespacePrefix.cursors]
    · exact .setSkip (.bind (.ofOk (.bind .ofErr)))
    · exact .bind (.result (fun _ _ _ _ => .setSkip (.bind .ofErr)) fun _ _ _ _ => .setSkip (.bind .ofErr))
  · refine .setSkip ((attributeRest_succ o none n _).mono fun a p' w h => ?_)
    rw [h]; simp

theorem attributeSelector_writes : Writes attributeSelector Attribute.cursors := by
  refine Succ.writes fun p => ?_
  unfold attributeSelector
  refine .bind (.tok .kind fun o p1 _ _ _ => .bind (.ask fun c _ => .bind (.looks .doubleDelim fun b _ => .ite (fun _ => ?_) fun _ => ?_)))
  · refine .bind (.done namespacePrefix_writes fun pre p2 _ => .bind (.tok .kind fun n p3 _ _ _ => .setSkip (.setSkip
      ((attributeRest_succ o (some pre) n _).mono fun a p' w h => ?_))))
    rw [h]; simp
  · refine .bind (.tok .kind fun n p3 _ _ _ => (attributeName_succ o n _).mono fun a p' w h => ?_)
    rw [h]; simp

theorem colonColon_writes : Writes colonColon (fun x => [x.1, x.2]) := by
  refine Succ.writes fun p => ?_
  unfold colonColon
  refine .bind (.tok .kind fun c1 p1 _ _ _ => .setSkip (.bind (.result (.tok .kind fun c2 p2 _ _ _ => ?_) fun d p2 w _ => ?_)))
  · exact .setSkip (.bind (.ofOk (.pure rfl)))
  · exact .setSkip (.bind .ofErr)

theorem adjacentName_writes (names : List (List Char)) : Writes (adjacentName names) (fun x => [x.2]) := by
  refine Succ.writes fun p => ?_
  unfold adjacentName
  refine .setSkip (.bind (.result (.tok .kind fun c2 p2 _ _ _ => ?_) fun d p2 w _ => ?_))
  · succ
    rfl
  · exact .setSkip (.bind .ofErr)

theorem pseudoClassOf_writes (names : List (List Char)) : Writes (pseudoClassOf names) (fun x => [x.2.1, x.2.2]) := by
  refine Succ.writes fun p => ?_
  unfold pseudoClassOf
  exact .bind (.tok .kind fun c1 p1 _ _ _ => .bind (.done (adjacentName_writes names) fun n p2 _ => .pure rfl))

theorem pseudoElementOf_writes (names : List (List Char)) : Writes (pseudoElementOf names) (fun x => [x.2.1.1, x.2.1.2, x.2.2]) := by
  refine Succ.writes fun p => ?_
  unfold pseudoElementOf
  exact .bind (.done colonColon_writes fun c1 p1 _ => .bind (.done (adjacentName_writes names) fun n p2 _ => .pure rfl))

theorem tryParse_error {α : Type} {x : Prog α} {p p' : Parser} {d : Diag} {w : List Cursor} (h : Gives (tryParse x) p (.error d) p' w) : w = [] := by
  unfold tryParse at h
  obtain ⟨r1, p1, w1, w2, h1, ⟨hk, e, h2⟩ | ⟨hk, e, h2⟩⟩ := gives_attempt.mp h
  · obtain ⟨e, _⟩ := gives_ofResult.mp h2
    rw [← e] at hk; cases hk
  · obtain ⟨_, _, rfl⟩ := gives_ofResult.mp h2
    exact e

theorem tryParse_ok {α : Type} {x : Prog α} {cur : α → List Cursor} (hx : Writes x cur) : Writes (tryParse x) cur := by
  intro p p' a w h
  unfold tryParse at h
  obtain ⟨r1, p1, w1, w2, h1, ⟨hk, e, h2⟩ | ⟨hk, e, h2⟩⟩ := gives_attempt.mp h
  · obtain ⟨rfl, rfl, rfl⟩ := gives_ofResult.mp h2
    rw [e, hx h1]; simp
  · obtain ⟨e, _⟩ := gives_ofResult.mp h2
    rw [← e] at hk; cases hk

theorem tryVendors_writes {α : Type} {f : Vendor → Prog α} {o : Prog (Vendor × α)} {cur : α → List Cursor} (hf : ∀ v, Writes (f v) cur)
    (ho : Writes o fun x => cur x.2) : ∀ vs, Writes (tryVendors f o vs) fun x => cur x.2 := by
  intro vs
  induction vs with
  | nil => exact ho
  | cons v vs ih =>
    refine Succ.writes fun p => ?_
    unfold tryVendors
    refine .bind (.result (.done (tryParse_ok (hf v)) fun a p1 _ => .pure (by simp)) fun d p1 w hg => ?_)
    rw [tryParse_error hg]
    exact .done ih fun a p2 _ => rfl

theorem failReading_writes {α : Type} (c : Cursor) (cur : α → List Cursor) : Writes (failReading c) cur := by
  refine Succ.writes fun p => ?_
  unfold failReading
  succ

theorem pseudoClass_writes : Writes pseudoClass (fun x => [x.2.2.1, x.2.2.2]) := by
  refine Succ.writes fun p => ?_
  unfold pseudoClass
  refine .attempt fun r p1 w1 hg => ⟨fun hk => ?_, fun hk => ?_⟩
  · cases r with
    | error d => cases hk
    | ok a => exact .pure (by rw [pseudoClassOf_writes _ hg]; rfl)
  · cases r with
    | ok a => cases hk
    | error d =>
      refine .bind (.peekN fun c _ => .done (tryVendors_writes (cur := fun x => [x.2.1, x.2.2]) (fun v => pseudoClassOf_writes _) (failReading_writes c _) _)
        fun a p2 _ => rfl)

theorem pseudoElementParts_succ (p : Parser) : Succ pseudoElementParts p fun a _ w => ∀ c n, a = (.ok c, .ok n) → w = [c.1, c.2, n.2] := by
  unfold pseudoElementParts
  refine .setSkip (.bind (.result (.done colonColon_writes fun cc p1 _ => .bind (.result ?_ fun d p2 w _ => ?_)) fun d p2 w _ => ?_))
  · refine fun k p2 w hk => .setSkip (.pure fun c n e => ?_)
    obtain ⟨_, rfl, _⟩ := gives_keyword.mp hk
    cases e
    simp
  · exact .setSkip (.pure fun c n e => by cases e)
  · exact .bind (.result (fun k p3 w _ => .setSkip (.pure fun c n e => by cases e)) fun d p3 w _ => .setSkip (.pure fun c n e => by cases e))

theorem pseudoElement_writes : Writes pseudoElement (fun x => [x.2.2.1.1, x.2.2.1.2, x.2.2.2]) := by
  refine Succ.writes fun p => ?_
  unfold pseudoElement
  refine .attempt fun r p1 w1 hg => ⟨fun hk => ?_, fun hk => ?_⟩
  · refine .bind (.ofResult fun parts e => .bind (.ofResult fun colons e2 => ?_))
    subst e
    obtain ⟨c, n⟩ := parts
    cases n with
    | ok n => exact .pure (by rw [pseudoElementParts_succ p hg colons n (by rw [← e2])]; rfl)
    | error d =>
      simp only at e2
      subst e2
      cases hk
  · refine .bind (.ofResult fun parts e => .bind (.ofResult fun colons e2 => ?_))
    subst e
    obtain ⟨c, n⟩ := parts
    cases n with
    | ok n => simp only at e2; subst e2; cases hk
    | error d =>
      refine .bind (.peekN fun c _ => .done (tryVendors_writes (cur := fun x => [x.2.1.1, x.2.1.2, x.2.2]) (fun v => pseudoElementOf_writes _)
        (failReading_writes c _) _) fun a p2 _ => by simp)

theorem functionOf_writes (names : List (List Char)) : Writes (functionOf names) (fun x => [x.2]) := by
  refine Succ.writes fun p => ?_
  unfold functionOf
  exact .bind (.tok .functionOf fun c p1 _ _ _ => buildKeyword_succ fun s => rfl)

theorem langCursors_append : ∀ (a b : List (Cursor × Option Cursor)), langCursors (a ++ b) = langCursors a ++ langCursors b := by
  intro a b
  induction a with
  | nil => rfl
  | cons x a ih => simp [langCursors, ih]

theorem langValue_writes : Writes langValue (fun x => langCursors [x]) := by
  refine Succ.writes fun p => ?_
  unfold langValue
  refine .bind (.peek fun c _ => .ite (fun _ => ?_) fun _ => ?_)
  all_goals exact .bind (.tok .kind fun v p1 _ _ _ => .bind (optional_succ fun o p2 _ => .pure (by simp [langCursors])))

theorem langValues_succ : ∀ n acc p, Succ (langValues n acc) p fun a _ w => langCursors a = langCursors acc ++ w := by
  intro n
  induction n with
  | zero => intro acc p; exact .panic
  | succ n ih =>
    intro acc p
    unfold langValues
    refine .bind (.done langValue_writes fun v p1 _ => .bind (.peek fun c _ => .ite (fun _ => .pure ?_) fun _ => (ih _ _).mono fun a p2 w h => ?_))
    · simp [langCursors_append]
    · rw [h, langCursors_append]; simp

theorem partLoop_succ : ∀ n acc p, Succ (partLoop n acc) p fun a _ w => a = acc ++ w := by
  intro n
  induction n with
  | zero => intro acc p; exact .panic
  | succ n ih =>
    intro acc p
    unfold partLoop
    refine .bind (.peek fun c _ => .ite (fun _ => .pure ?_) fun _ => .bind (.tok .kind fun v p1 _ _ _ => (ih _ _).mono fun a p2 w h => ?_))
    · simp
    · rw [h]; simp

theorem classSelector_writes : Writes classSelector Sel.cursors := by
  refine Succ.writes fun p => ?_
  unfold classSelector
  succ
  simp [Sel.cursors]

theorem nth_writes : Writes nth Nth.cursors := fun _ _ _ _ h => (C52_cursors h).symm
theorem nth_modes : KeepsModes nth :=
  .bind .ask fun _ => .ite (.bind (.tok fun _ => .pure) fun _ => .pure) (.ite (.bind (.tok fun _ => .pure) fun _ => .bind .ask fun _ =>
    .ite .pure (.ite .pure nthFirst_modes)) (.bind any_modes fun _ => nthFirst_modes))

/-! ### Namespaces -/

/-- If the token that `next` returns when `s` is skipped is not in the larger set `s'`, it is also returned when `s'` is skipped. -/
theorem nextLoop_skip {s s' : KindSet} (hs : ∀ t : Token, t.inSet s = true → t.inSet s' = true) {l l' : Lexer} {tr tr' : List Cursor} {c : Cursor}
    (h : Parser.nextLoop s l tr = .ok (c, l', tr')) (hc : c.token.inSet s' = false) : Parser.nextLoop s' l tr = .ok (c, l', tr') := by
  induction l, tr using Parser.nextLoop.induct (skip := s) with
  | case1 l tr e he =>
    unfold Parser.nextLoop at h
    split at h
    · cases h
    · rename_i h1; rw [he] at h1; cases h1
  | case2 l tr t l1 ha hb =>
    unfold Parser.nextLoop at h ⊢
    split at h
    · cases h
    · rename_i t2 l2 h1
      rw [ha] at h1; cases h1
      rw [if_pos hb] at h
      cases h
      have hc' : t.inSet s' = false := hc
      rw [if_pos (by simp [hc'])]
  | case3 l tr t l1 ha hb hz =>
    unfold Parser.nextLoop at h
    split at h
    · cases h
    · rename_i t2 l2 h1
      rw [ha] at h1; cases h1
      rw [if_neg hb, dif_pos hz] at h
      cases h
  | case4 l tr t l1 ha hb hz ih =>
    unfold Parser.nextLoop at h ⊢
    split at h
    · cases h
    · rename_i t2 l2 h1
      rw [ha] at h1; cases h1
      rw [if_neg hb, dif_neg hz] at h
      have hb' : ¬ (t.isKind .eof || !t.inSet s') = true := by
        simp only [Bool.or_eq_true, Bool.not_eq_true', not_or, Bool.not_eq_false] at hb ⊢
        exact ⟨by simpa using hb.1, by simpa using hs t (by simpa using hb.2)⟩
      rw [if_neg hb', dif_neg hz]
      exact ih h

theorem next_skip {s' : KindSet} {p q : Parser} {c : Cursor} (hs : ∀ t : Token, t.inSet p.skip = true → t.inSet s' = true) (h : p.next = .ok (c, q))
    (hc : c.token.inSet s' = false) : ({ p with skip := s' } : Parser).next = .ok (c, { q with skip := s' }) := by
  unfold Parser.next at h ⊢
  cases hl : Parser.nextLoop p.skip p.lexer p.trivia with
  | error e => rw [hl] at h; cases h
  | ok y =>
    obtain ⟨c1, l1, t1⟩ := y
    rw [hl] at h
    cases h
    have := nextLoop_skip hs hl hc
    simp only
    rw [this]
    rfl

theorem next_of_peekN1 {p : Parser} {c : Cursor} (h : p.peekN 1 = .ok c) : ∃ q, p.next = .ok (c, q) := by
  have := Parser.C32_peek_n 1 p (by decide)
  rw [h] at this
  simp only [Parser.nextN] at this
  cases hn : p.next with
  | error e => rw [hn] at this; cases this
  | ok x =>
    obtain ⟨c1, q⟩ := x
    rw [hn] at this
    simp only [Except.map, List.getLast?_singleton, Except.ok.injEq, Option.some.injEq] at this
    subst this
    exact ⟨q, rfl⟩

theorem inSet_of_kind {t : Token} {k : Kind} {s : KindSet} (hk : k ≠ .eof) (h : t.isKind k = true) : t.inSet s = s.contains k := by
  have h1 := kindBits_of_kind (t := t) (by rw [(isKind_iff hk).mp h]; exact hk)
  rw [(isKind_iff hk).mp h] at h1
  simp only [Token.inSet, KindSet.contains, h1]

/-- A token that does not skip anything. -/
theorem inSet_none (t : Token) : t.inSet KindSet.NONE = false := by
  simp [Token.inSet, KindSet.NONE, KindSet.new, KindSet.containsBits]

theorem kindBits_lt (t : Token) : t.kindBits < 32 := by
  have : ((t.w0 >>> 24) &&& 0b11111#32).toNat ≤ 31 := by rw [BitVec.toNat_and]; exact Nat.and_le_right
  unfold Token.kindBits; omega

theorem inSet_comments (t : Token) (h : t.inSet KindSet.COMMENTS = true) : t.inSet KindSet.TRIVIA = true := by
  have hall : ∀ n < 32, KindSet.COMMENTS.containsBits n = true → KindSet.TRIVIA.containsBits n = true := by decide
  exact hall _ (kindBits_lt t) h

/-- What `Namespace` does: it writes what it takes and keeps the modes, or it was an identifier with another identifier or a `*` right behind it. -/
theorem namespaceSelector_succ (p : Parser) : Succ namespaceSelector p fun n p' w => (w = n.cursors ∧ modes p' = modes p)
    ∨ ∃ i q t, p.next = .ok (i, q) ∧ i.token.isKind .ident = true ∧ ({ q with skip := KindSet.NONE } : Parser).next = .ok (t, p')
        ∧ ((t.token.isKind .delim && t.token.isChar '*') || t.token.isKind .ident) = true := by
  unfold namespaceSelector
  refine .bind (.peek fun c hc => .bind (.looks .doubleDelim fun b _ => .ite (fun _ => ?_) fun _ => .ite (fun _ => ?_) fun _ => ?_))
  · refine .bind (.of namespacePrefix_writes namespacePrefix_modes fun pre p1 m1 => .bind (.of namespaceTag_writes namespaceTag_modes fun t p2 m2 => .pure ?_))
    exact .inl ⟨by simp [Namespace.cursors], m2.trans m1⟩
  · refine .bind (.of namespacePrefix_writes namespacePrefix_modes fun pre p1 m1 => .bind (.of namespaceTag_writes namespaceTag_modes fun t p2 m2 => .pure ?_))
    exact .inl ⟨by simp [Namespace.cursors], m2.trans m1⟩
  · refine .bind (.tok .kind fun i q hn hk m1 => .setSkip (.bind (.peek fun c2 hc2 => .bind (.looks .doubleDelim fun b2 _ => .ite (fun _ => ?_) fun _ => ?_))))
    · refine .bind (.result (.tok .delim fun pipe p3 _ _ m3 => .bind (.result (.of namespaceTag_writes namespaceTag_modes fun t p4 m4 => ?_) fun d p4 w _ => ?_))
        fun d p3 w _ => ?_)
      · refine .setSkip (.bind (.ofOk (.bind (.ofOk (.pure (.inl ⟨by simp [Namespace.cursors, NamespacePrefix.cursors], ?_⟩))))))
        simp only [modes, Prod.mk.injEq] at m1 m3 m4 ⊢
        exact ⟨m1.1, m4.2.1.trans (m3.2.1.trans m1.2.1), m4.2.2.trans (m3.2.2.trans m1.2.2)⟩
      · exact .setSkip (.bind (.ofOk (.bind .ofErr)))
      · exact .bind (.result (fun _ _ _ _ => .setSkip (.bind .ofErr)) fun _ _ _ _ => .setSkip (.bind .ofErr))
    · unfold namespaceTag
      have hi : i.token.isKind .ident = true := by
        have := (gives_pure.mp hk).1; simpa using this.symm
      refine .bind (.bind (.tok .nsTag fun t p4 hn4 hk4 m4 => ?_))
      have ht : ((t.token.isKind .delim && t.token.isChar '*') || t.token.isKind .ident) = true := by
        have := (gives_pure.mp hk4).1; simpa using this.symm
      refine .ite (fun _ => .pure (.pure (.inr ⟨i, q, t, hn, hi, hn4, ht⟩))) fun _ => .bind (buildTag_succ fun k => .pure (.pure (.inr ⟨i, q, t, hn, hi, hn4, ht⟩)))

/-- The sets that the parsers of css_ast skip: nothing, comments, or whitespace and comments (which is the default). -/
def Spec.UsualSkip (s : KindSet) : Prop := s = KindSet.NONE ∨ s = KindSet.COMMENTS ∨ s = KindSet.TRIVIA

theorem Spec.UsualSkip.trivia {s : KindSet} (h : s = KindSet.TRIVIA) : UsualSkip s := .inr (.inr h)
theorem Spec.UsualSkip.modes {p q : Parser} (h : modes p = modes q) (hq : UsualSkip q.skip) : UsualSkip p.skip := (Prod.mk.inj h).1 ▸ hq

/-- `x` writes what it takes and keeps the modes of the parser, when it succeeds and one of the usual sets is skipped. -/
def Sound {α : Type} (x : Prog α) (cur : α → List Cursor) : Prop :=
  ∀ ⦃p : Parser⦄, UsualSkip p.skip → Succ x p fun a p' w => w = cur a ∧ modes p' = modes p

theorem Sound.of {α : Type} {x : Prog α} {cur : α → List Cursor} (hw : Writes x cur) (hm : KeepsModes x) : Sound x cur :=
  fun _ _ _ _ _ h => ⟨hw h, hm h⟩

/-- A namespace after which the pipe was seen. -/
theorem namespaceSelector_sound {p p0 q1 : Parser} {c1 c2 : Cursor} (hp : UsualSkip p.skip) (h0 : p0 = { p with skip := KindSet.COMMENTS })
    (hn1 : p0.next = .ok (c1, q1)) (hc1 : c1.token.inSet KindSet.TRIVIA = false) (hc2 : p0.peekN 2 = .ok c2) (hp2 : c2.token.isChar '|' = true) :
    Succ namespaceSelector p fun n p' w => w = n.cursors ∧ modes p' = modes p := by
  intro n p' w hg
  rcases namespaceSelector_succ p hg with h | ⟨i, q, t, h1, h2, h3, h4⟩
  · exact h
  · exfalso
    subst h0
    have hic : i.token.inSet KindSet.COMMENTS = false := by rw [inSet_of_kind (by decide) h2]; decide
    have e1 : c1 = i ∧ q1 = { q with skip := KindSet.COMMENTS } := by
      rcases hp with hp | hp | hp
      · have := next_skip (s' := KindSet.COMMENTS) (fun t ht => by rw [hp, inSet_none] at ht; cases ht) h1 hic
        rw [hn1] at this
        simpa using this
      · have e2 : ({ p with skip := KindSet.COMMENTS } : Parser) = p := by rw [← hp]
        have m := next_modes h1
        simp only [Spec.modes, Prod.mk.injEq] at m
        rw [e2, h1] at hn1
        simp only [Except.ok.injEq, Prod.mk.injEq] at hn1
        refine ⟨hn1.1.symm, ?_⟩
        rw [← hp, ← m.1]; exact hn1.2.symm
      · have e1 := next_skip (s' := KindSet.TRIVIA) (fun t ht => inSet_comments t ht) hn1 hc1
        have e2 : ({ ({ p with skip := KindSet.COMMENTS } : Parser) with skip := KindSet.TRIVIA } : Parser) = p := by
          rw [← hp]
        rw [e2, h1] at e1
        simp only [Except.ok.injEq, Prod.mk.injEq] at e1
        have m := next_modes hn1
        simp only [Spec.modes, Prod.mk.injEq] at m
        refine ⟨e1.1.symm, ?_⟩
        rw [e1.2]
        show q1 = { q1 with skip := KindSet.COMMENTS }
        rw [← m.1]
    obtain ⟨rfl, rfl⟩ := e1
    have ht : t.token.inSet KindSet.COMMENTS = false := by
      rcases Bool.or_eq_true _ _ ▸ h4 with h | h
      · rw [inSet_of_kind (by decide) (Bool.and_eq_true _ _ ▸ h).1]; decide
      · rw [inSet_of_kind (by decide) h]; decide
    have e3 := next_skip (s' := KindSet.COMMENTS) (fun t ht => by rw [inSet_none] at ht; cases ht) h3 ht
    have := peekN_two hn1 e3
    rw [hc2] at this
    cases this
    rcases Bool.or_eq_true _ _ ▸ h4 with h | h
    · have hh := (Bool.and_eq_true _ _ ▸ h).2
      unfold Token.isChar at hh hp2
      cases hch : c2.token.char with
      | none => rw [hch] at hh; cases hh
      | some ch => rw [hch] at hh hp2; simp at hh hp2; rw [hh] at hp2; cases hp2
    · have : c2.token.char = none := by
        have hk := kind_of_isKind (by decide) h
        have hb := kindBits_of_kind (by rw [hk]; decide)
        exact char_of_not_delimLike (by rw [hk]; decide) hb
      unfold Token.isChar at hp2
      rw [this] at hp2
      cases hp2

theorem consumeTrivia_modes {p p' : Parser} (h : p.consumeTrivia = .ok p') : modes p' = modes p := by
  obtain ⟨_, h1, h2, h3⟩ := Parser.consumeTrivia_moved h
  simp only [modes, h1, h2, h3]

theorem modes_skip {p q : Parser} (h : modes p = modes q) : p.skip = q.skip := (Prod.mk.inj h).1

theorem modes_reset {p q : Parser} {s : KindSet} (h : modes q = modes { p with skip := s }) : modes { q with skip := p.skip } = modes p := by
  simp only [modes, Prod.mk.injEq] at h ⊢
  exact ⟨trivial, h.2.1, h.2.2⟩

/-- What a component of a selector must do when it begins with the skip set of `p` replaced by comments only. -/
def Part (x : Prog Sel) (p : Parser) : Prop := Succ x { p with skip := KindSet.COMMENTS } fun a p' w => w = a.cursors ∧ modes p' = modes p

theorem selIdent_part {p : Parser} {c1 : Cursor} (hp : UsualSkip p.skip) (h1 : ({ p with skip := KindSet.COMMENTS } : Parser).peekN 1 = .ok c1)
    (hk : c1.token.isKind .ident = true) : Part (selIdent p.skip) p := by
  unfold selIdent Part
  refine .bind (.peekN fun c2 hc2 => .ite (fun hp2 => ?_) fun _ => ?_)
  · refine .setSkip (.bind ?_)
    obtain ⟨q1, hn1⟩ := next_of_peekN1 h1
    refine Succ.mono (namespaceSelector_sound hp rfl hn1 (by rw [inSet_of_kind (by decide) hk]; decide) hc2 hp2) fun n p' w h => .pure ?_
    exact ⟨by simpa [Sel.cursors] using h.1, h.2⟩
  · refine .bind (.take fun c q hn => .setSkip (.ite (fun _ => .bind (buildTag_succ fun k => .pure ?_)) fun _ => .bind (.strLower fun _ => .fail)))
    exact ⟨rfl, modes_reset (next_modes hn)⟩

theorem selStar_part {p : Parser} {c1 : Cursor} (hp : UsualSkip p.skip) (h1 : ({ p with skip := KindSet.COMMENTS } : Parser).peekN 1 = .ok c1)
    (hk : c1.token.isKind .delim = true) : Part (selStar p.skip) p := by
  unfold selStar Part
  refine .bind (.peekN fun c2 hc2 => .setSkip (.ite (fun hp2 => ?_) fun _ => ?_))
  · refine .bind ?_
    obtain ⟨q1, hn1⟩ := next_of_peekN1 h1
    refine Succ.mono (namespaceSelector_sound hp rfl hn1 (by rw [inSet_of_kind (by decide) hk]; decide) hc2 hp2) fun n p' w h => .pure ?_
    exact ⟨by simpa [Sel.cursors] using h.1, h.2⟩
  · exact .bind (.take fun c q hn => .pure ⟨rfl, next_modes hn⟩)

theorem selHash_part {p : Parser} : Part (selHash p.skip) p := by
  unfold selHash Part
  exact .bind (.take fun c q hn => .setSkip (.ite (fun _ => .pure ⟨rfl, modes_reset (next_modes hn)⟩) fun _ => .bind (.strLower fun _ => .fail)))

theorem selDot_part {p : Parser} : Part (selDot p.skip) p := by
  unfold selDot Part
  refine .bind (.peekN fun c2 _ => .setSkip (.ite (fun _ => ?_) fun _ => .fail))
  exact Succ.of classSelector_writes classSelector_modes fun a p' h => ⟨rfl, h⟩

theorem selDelim_part {p : Parser} : Part (selDelim p.skip) p := by
  unfold selDelim Part
  exact .setSkip (.bind (Succ.of combinator_writes combinator_modes fun a p' h => .pure ⟨by simp [Sel.cursors], h⟩))

theorem selOther_part {p : Parser} : Part (selOther p.skip) p := by
  unfold selOther Part
  refine .bind (.result ?_ fun d p1 w h => .setSkip (.consumeTrivia fun _ _ => .setSkip (.bind .ofErr)))
  refine Succ.of combinator_writes combinator_modes fun a p' h => .setSkip (.consumeTrivia fun q hq => .setSkip (.bind (.ofOk (.pure ⟨by simp [Sel.cursors], ?_⟩))))
  have := consumeTrivia_modes hq
  simp only [modes, Prod.mk.injEq] at this h ⊢
  exact ⟨trivial, this.2.1.trans h.2.1, this.2.2.trans h.2.2⟩

theorem selColonIdent_part {p : Parser} {c : Cursor} : Part (selColonIdent p.skip c) p := by
  unfold selColonIdent Part
  refine .setSkip (.bind ?_)
  have hi : Inspects (isPseudoClassOf LEGACY_PSEUDO_ELEMENTS) := by
    intro c p r p' w h
    unfold isPseudoClassOf at h
    rcases gives_bind.mp h with ⟨a, p1, w1, w2, h1, h2, rfl⟩ | ⟨d, h1, _⟩
    · obtain ⟨_, _, _, rfl, rfl⟩ := gives_ask.mp h1
      rcases gives_ite.mp h2 with ⟨_, h⟩ | ⟨_, h⟩
      · rcases gives_bind.mp h with ⟨a, p3, w3, w4, h3, h4, e⟩ | ⟨d, h1, _⟩
        · obtain ⟨_, _, _, rfl, rfl⟩ := gives_ask.mp h3
          obtain ⟨_, rfl, rfl⟩ := gives_pure.mp h4
          exact ⟨rfl, e⟩
        · obtain ⟨_, _, h, _⟩ := gives_ask.mp h1; cases h
      · exact ⟨(gives_pure.mp h).2.1, by simp [(gives_pure.mp h).2.2]⟩
    · obtain ⟨_, _, h, _⟩ := gives_ask.mp h1; cases h
  refine Succ.looks hi fun b _ => .ite (fun _ => ?_) fun _ => ?_
  · exact .bind (Succ.of (pseudoClassOf_writes _) (pseudoClassOf_modes _) fun a p' h => .pure ⟨rfl, h⟩)
  · exact .bind (Succ.of pseudoClass_writes pseudoClass_modes fun a p' h => .pure ⟨rfl, h⟩)

theorem optionalClose_succ {p : Parser} {Q : Option Cursor → Parser → List Cursor → Prop} (h : ∀ o p', modes p' = modes p → Q o p' o.toList) :
    Succ optionalClose p Q := optional_succ h

theorem functionalPseudoElement_sound {compound : Prog (List Sel)} (hc : Sound compound Sel.compoundCursors) (fuel : Nat) :
    Sound (functionalPseudoElement compound fuel) Sel.cursors := by
  intro p hp
  unfold functionalPseudoElement
  refine .bind (Succ.of colonColon_writes colonColon_modes fun cc p1 m1 => .bind (.tok .kind fun f p2 _ _ m2 => .bind (.strLower fun s => ?_)))
  refine .ite (fun _ => ?_) fun _ => .ite (fun _ => ?_) fun _ => .ite (fun _ => ?_) fun _ => .fail
  · refine .bind (.tok .kind fun v p3 _ _ m3 => .bind (optionalClose_succ fun o p4 m4 => .pure ⟨?_, m4.trans (m3.trans (m2.trans m1))⟩))
    simp [Sel.cursors]
  · refine .bind (Succ.mono (Q := fun a q w => a = [] ++ w ∧ modes q = modes p2) (fun a p' w h => ⟨partLoop_succ fuel [] p2 h, partLoop_modes fuel [] h⟩) fun v p3 w h => ?_)
    refine .bind (optionalClose_succ fun o p4 m4 => .pure ⟨?_, m4.trans (h.2.trans (m2.trans m1))⟩)
    obtain ⟨rfl, _⟩ := h
    simp [Sel.cursors]
  · refine .bind (Succ.mono (hc (UsualSkip.modes (m2.trans m1) hp)) fun v p3 w h => ?_)
    refine .bind (optionalClose_succ fun o p4 m4 => .pure ⟨?_, m4.trans (h.2.trans (m2.trans m1))⟩)
    obtain ⟨rfl, _⟩ := h
    simp [Sel.cursors]

theorem keyword_writes {names : List (List Char)} : Writes (keyword names) (fun x => [x.2]) := by
  refine Succ.writes fun p => ?_
  unfold keyword
  exact .bind (.tok .keyword fun c p1 _ _ _ => Succ.mono (buildKeyword_succ (Q := fun x _ w => x.2 = c ∧ w = []) fun s => ⟨rfl, rfl⟩) fun x _ w h => by
    obtain ⟨h1, rfl⟩ := h; simp [h1])

theorem functionalPseudoClassValue_succ {list : Prog (List (List Sel × Option Cursor))} (hl : Sound list Sel.listCursors) (fuel : Nat) (colon : Cursor)
    (name : List Char) (function : Cursor) {p : Parser} (hp : UsualSkip p.skip) :
    Succ (functionalPseudoClassValue list fuel colon name function) p fun a p' w => a.cursors = colon :: function :: w ∧ modes p' = modes p := by
  unfold functionalPseudoClassValue
  refine .ite (fun _ => ?_) fun _ => .ite (fun _ => ?_) fun _ => .ite (fun _ => ?_) fun _ => .ite (fun _ => ?_) fun _ => ?_
  · refine .bind (Succ.of keyword_writes keyword_modes fun v p1 m1 => .bind (optionalClose_succ fun o p4 m4 => .pure ⟨?_, m4.trans m1⟩))
    simp [Sel.cursors]
  · refine .bind (.tok .kind fun v p3 _ _ m3 => .bind (optionalClose_succ fun o p4 m4 => .pure ⟨?_, m4.trans m3⟩))
    simp [Sel.cursors]
  · refine .bind (Succ.mono (Q := fun a q w => langCursors a = langCursors [] ++ w ∧ modes q = modes p) (fun a p' w h => ⟨langValues_succ fuel [] p h, langValues_modes fuel [] h⟩) fun v p3 w h => ?_)
    refine .bind (optionalClose_succ fun o p4 m4 => .pure ⟨?_, m4.trans h.2⟩)
    simp [Sel.cursors, h.1, langCursors]
  · refine .bind (Succ.mono (hl hp) fun v p3 w h => ?_)
    refine .bind (optionalClose_succ fun o p4 m4 => .pure ⟨?_, m4.trans h.2⟩)
    simp [Sel.cursors, h.1]
  · refine .bind (Succ.of nth_writes nth_modes fun v p1 m1 => .bind (optionalClose_succ fun o p4 m4 => .pure ⟨?_, m4.trans m1⟩))
    simp [Sel.cursors]

theorem functionalPseudoClass_sound {list : Prog (List (List Sel × Option Cursor))} (hl : Sound list Sel.listCursors) (fuel : Nat) :
    Sound (functionalPseudoClass list fuel) Sel.cursors := by
  intro p hp
  unfold functionalPseudoClass
  refine .setSkip (.bind (.result ?_ fun d p1 w h => .bind (.result ?_ fun d p1 w h => .setSkip (.bind .ofErr))))
  · refine .tok .kind fun colon p1 _ _ m1 => .bind (.result ?_ fun d p1 w h => .setSkip (.bind (.ofOk (.bind .ofErr))))
    refine Succ.of (functionOf_writes _) (functionOf_modes _) fun n p2 m2 => .setSkip (.bind (.ofOk (.bind (.ofOk ?_))))
    have hm : modes { p2 with skip := p.skip } = modes p := modes_reset (m2.trans m1)
    refine Succ.mono (functionalPseudoClassValue_succ hl fuel colon n.1 n.2 hp) fun a p3 w h => ⟨by simp [h.1], h.2.trans hm⟩
  · exact fun _ _ _ _ => .setSkip (.bind .ofErr)

theorem selColonColon_part {compound : Prog (List Sel)} (hc : Sound compound Sel.compoundCursors) (fuel : Nat) {p : Parser} (hp : UsualSkip p.skip) :
    Part (selColonColon compound fuel p.skip) p := by
  unfold selColonColon Part
  refine .bind (.peekN fun c3 _ => .setSkip (.ite (fun _ => ?_) fun _ => .ite (fun _ => ?_) fun _ => .fail))
  · exact .bind (Succ.of pseudoElement_writes pseudoElement_modes fun a p' h => .pure ⟨rfl, h⟩)
  · exact functionalPseudoElement_sound hc fuel hp

theorem selColon_part {compound : Prog (List Sel)} {list : Prog (List (List Sel × Option Cursor))} (hc : Sound compound Sel.compoundCursors)
    (hl : Sound list Sel.listCursors) (fuel : Nat) {c : Cursor} {p : Parser} (hp : UsualSkip p.skip) : Part (selColon compound list fuel p.skip c) p := by
  unfold selColon Part
  refine .bind (.peekN fun c2 _ => .ite (fun _ => ?_) fun _ => .ite (fun _ => ?_) fun _ => .ite (fun _ => ?_) fun _ => .fail)
  · exact Succ.mono (selColonColon_part hc fuel hp) fun _ _ _ h => h
  · exact Succ.mono selColonIdent_part fun _ _ _ h => h
  · exact .setSkip (functionalPseudoClass_sound hl fuel hp)

theorem selectorComponent_sound {compound : Prog (List Sel)} {list : Prog (List (List Sel × Option Cursor))} (hc : Sound compound Sel.compoundCursors)
    (hl : Sound list Sel.listCursors) (fuel : Nat) : Sound (selectorComponent compound list fuel) Sel.cursors := by
  intro p hp
  unfold selectorComponent
  refine .setSkip (.bind (.peekN fun c h1 => .ite (fun hk => ?_) fun _ => .ite (fun _ => ?_) fun _ => .ite (fun _ => ?_) fun _ => .ite (fun hk => ?_) fun _ =>
    .ite (fun _ => ?_) fun _ => ?_))
  · exact Succ.mono (selIdent_part hp h1 hk) fun _ _ _ h => h
  · exact Succ.mono selHash_part fun _ _ _ h => h
  · exact .setSkip (.bind (Succ.of attributeSelector_writes attributeSelector_modes fun a p' h => .pure ⟨by simp [Sel.cursors], h⟩))
  · refine .ite (fun _ => ?_) fun _ => .ite (fun _ => ?_) fun _ => ?_
    · exact Succ.mono selDot_part fun _ _ _ h => h
    · exact Succ.mono (selStar_part hp h1 hk) fun _ _ _ h => h
    · exact Succ.mono selDelim_part fun _ _ _ h => h
  · exact Succ.mono (selColon_part hc hl fuel hp) fun _ _ _ h => h
  · exact Succ.mono selOther_part fun _ _ _ h => h

theorem compoundCursors_append : ∀ a b : List Sel, Sel.compoundCursors (a ++ b) = Sel.compoundCursors a ++ Sel.compoundCursors b := by
  intro a b
  induction a with
  | nil => simp [Sel.compoundCursors]
  | cons x a ih => simp [Sel.compoundCursors, ih]

theorem listCursors_append : ∀ a b : List (List Sel × Option Cursor), Sel.listCursors (a ++ b) = Sel.listCursors a ++ Sel.listCursors b := by
  intro a b
  induction a with
  | nil => simp [Sel.listCursors]
  | cons x a ih => obtain ⟨x, c⟩ := x; simp [Sel.listCursors, ih]

theorem compoundLoop_succ {component : Prog Sel} (hc : Sound component Sel.cursors) : ∀ n acc p, UsualSkip p.skip →
    Succ (compoundLoop component n acc) p fun a p' w => Sel.compoundCursors a = Sel.compoundCursors acc ++ w ∧ modes p' = modes p := by
  intro n
  induction n with
  | zero => intro acc p _; exact .panic
  | succ n ih =>
    intro acc p hp
    unfold compoundLoop
    refine .bind (.ask fun b _ => .ite (fun _ => .pure ⟨by simp, rfl⟩) fun _ => .bind (.peekN fun c _ => .ite (fun _ => .pure ⟨by simp, rfl⟩) fun _ => ?_))
    refine .bind (Succ.mono (hc hp) fun s p1 w1 h1 => Succ.mono (ih _ p1 (UsualSkip.modes h1.2 hp)) fun a p2 w2 h2 => ⟨?_, h2.2.trans h1.2⟩)
    rw [h2.1, compoundCursors_append, h1.1]
    simp [Sel.compoundCursors]

theorem selectorListLoop_succ {compound : Prog (List Sel)} (hc : Sound compound Sel.compoundCursors) : ∀ n acc p, UsualSkip p.skip →
    Succ (selectorListLoop compound n acc) p fun a p' w => Sel.listCursors a = Sel.listCursors acc ++ w ∧ modes p' = modes p := by
  intro n
  induction n with
  | zero => intro acc p _; exact .panic
  | succ n ih =>
    intro acc p hp
    unfold selectorListLoop
    refine .bind (.ask fun b _ => .ite (fun _ => .pure ⟨by simp, rfl⟩) fun _ => .bind (.peekN fun c _ => .ite (fun _ => .pure ⟨by simp, rfl⟩) fun _ => ?_))
    refine .bind (Succ.mono (hc hp) fun s p1 w1 h1 => .bind (optional_succ fun o p2 m2 => ?_))
    refine Succ.mono (ih _ p2 (UsualSkip.modes (m2.trans h1.2) hp)) fun a p3 w2 h2 => ⟨?_, h2.2.trans (m2.trans h1.2)⟩
    rw [h2.1, listCursors_append, h1.1]
    simp [Sel.listCursors]

theorem selectorListLoop_sound {compound : Prog (List Sel)} (hc : Sound compound Sel.compoundCursors) (n : Nat) :
    Sound (selectorListLoop compound n []) Sel.listCursors :=
  fun p hp => Succ.mono (selectorListLoop_succ hc n [] p hp) fun _ _ _ h => ⟨by simpa [Sel.listCursors] using h.1.symm, h.2⟩

theorem compoundSelector_sound : ∀ n, Sound (compoundSelector n) Sel.compoundCursors := by
  intro n
  induction n with
  | zero => intro p hp; exact .panic
  | succ n ih =>
    intro p hp
    unfold compoundSelector
    refine .consumeTrivia fun q hq => ?_
    have mq := consumeTrivia_modes hq
    refine Succ.mono (compoundLoop_succ (selectorComponent_sound ih (selectorListLoop_sound ih n) n) (n + 1) [] q (UsualSkip.modes mq hp)) fun _ _ _ h => ⟨?_, h.2.trans mq⟩
    simpa [Sel.compoundCursors] using h.1.symm

theorem selectorList_sound : Sound selectorList Sel.listCursors := by
  intro p hp a p' w h
  unfold selectorList at h
  exact selectorListLoop_sound (compoundSelector_sound _) _ hp h

end Hdx

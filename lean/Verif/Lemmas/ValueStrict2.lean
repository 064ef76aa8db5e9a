/-
The hand-written types of values: in a strict text, parsing them comes to an end.
-/
import Verif.Lemmas.ValueStrict
import Verif.Lemmas.Yields

namespace Hdx
open Spec Prog

namespace EatsIf
variable {α β : Type} {src : Text} {n : Nat} {P : α → Prop} {Q : β → Prop}

theorem seqR {R : α → Prop} {x : Prog α} {f : α → Prog β} (hx : FineR src n R x) (h : ∀ a, R a → EatsIf src n Q (f a)) : EatsIf src n Q (x >>= f) := hx.seqE h

/-- A token that was taken is not the end. -/
theorem eatsBy {test : Cursor → Prog Bool} {g : Cursor → Bool} (ht : ProbesBy src test g) (hg : ∀ c, g c = true → notEof c = true) : Eats src n (Prog.tok test) := by
  intro p cs hl _
  obtain ⟨c, p', cs', h1, h2, h3, _, h4, h5⟩ := hl.next
  refine ⟨_, p', [c], cs', gives_tokBy h1 (ht p cs c hl h5), h2, h3, fun a ha _ => ?_⟩
  cases hc : g c with
  | false => rw [hc] at ha; cases ha
  | true => exact (h4 (by simpa [notEof] using hg c hc)).1

/-! ### Colors -/

theorem legacyChannels {first : Cursor → Prog Bool} (hf : Probes src first) : ∀ x ∈ legacyChannels first, Fine src n x := by
  intro x hx
  simp only [Hdx.legacyChannels, List.mem_cons, List.not_mem_nil, or_false] at hx
  rcases hx with rfl | rfl | rfl | rfl | rfl | rfl | rfl | rfl <;> first | exact piece hf | exact piece .channel | exact optPiece .kind | exact optPiece .delim | exact optPiece .channel
theorem channels {a b c : Cursor → Prog Bool} (ha : Probes src a) (hb : Probes src b) (hc : Probes src c) : ∀ x ∈ channels a b c, Fine src n x := by
  intro x hx
  simp only [Hdx.channels, List.mem_cons, List.not_mem_nil, or_false] at hx
  rcases hx with rfl | rfl | rfl | rfl | rfl
  · exact piece ha
  · exact piece hb
  · exact piece hc
  · exact optPiece .delim
  · exact optPiece .channel
theorem colorArguments {name : List Char} : ∀ x ∈ colorArguments name, Fine src n x := by
  unfold Hdx.colorArguments
  split
  · intro x hx
    rcases List.mem_cons.mp hx with rfl | hx
    · exact piece .keyword
    · exact channels .channel .channel .channel x hx
  split
  · exact legacyChannels .channel
  split
  · exact legacyChannels .hue
  split
  · exact channels .hue .channel .channel
  split
  · exact channels .channel .channel .hue
  · exact channels .channel .channel .channel

theorem colorFunction : Eats src n colorFunction := by
  cases n with
  | zero => exact zero
  | succ n =>
    unfold Hdx.colorFunction
    refine eat functionOf fun r => seq (sequence fun x hx => ?_) fun _ => pure id
    rcases List.mem_append.mp hx with hx | hx
    · exact colorArguments x hx
    · simp only [List.mem_cons, List.not_mem_nil, or_false] at hx
      subst hx; exact optPiece .kind

theorem color : Eats src n color := by
  cases n with
  | zero => exact zero
  | succ n =>
    unfold Hdx.color
    refine seq peek fun c => ite ?_ (seq peek fun c => ite ?_ (peekSeq fun c hk => seq (Probes.functionOf.fine hk) fun b => ite (map colorFunction) (seq peekN fun _ => fail)))
    · exact map (map (tokKind (by decide)))
    · refine bind (ifPeek (fun _ hk => isKeyword hk) keyword) (fun a _ => ?_) fun a ha => ?_
      · obtain _ | ⟨k, c⟩ := a
        · rename_i h; obtain ⟨_, h, _⟩ := h; cases h
        · exact pure id
      obtain _ | ⟨k, c⟩ := a
      · refine bind (ifPeek (fun _ hk => isKeyword hk) keyword) (fun a _ => ?_) fun a ha => ?_
        · obtain _ | ⟨k, c⟩ := a
          · rename_i h; obtain ⟨_, h, _⟩ := h; cases h
          · exact pure id
        obtain _ | ⟨k, c⟩ := a
        · exact eat keyword fun _ => pure id
        · exact absurd ⟨_, rfl, trivial⟩ ha
      · exact absurd ⟨_, rfl, trivial⟩ ha

/-! ### Positions -/



/-- A word is no length. -/
theorem not_length {g : Cursor → Bool} (hg : ProbesBy src isLengthPercentage g) {c : Cursor} (hk : Known src c) (h : c.token.isKind .ident = true)
    {p : Parser} {cs : List Cursor} (hl : Left src p cs) : g c = false := by
  have h1 := hg p cs c hl hk
  have e1 : c.token.isKind .number = false := by
    have := kind_of_isKind (by decide) h
    refine Bool.eq_false_iff.mpr fun h2 => ?_
    rw [kind_of_isKind (by decide) h2] at this; cases this
  have e2 : c.token.isKind .dimension = false := by
    have := kind_of_isKind (by decide) h
    refine Bool.eq_false_iff.mpr fun h2 => ?_
    rw [kind_of_isKind (by decide) h2] at this; cases this
  have any : ∀ us, Gives (isAnyDimension us c) p (.ok false) p [] := by
    intro us
    induction us with
    | nil => exact gives_pure.mpr ⟨rfl, rfl, rfl⟩
    | cons u us ih =>
      refine gives_seq (w1 := []) (w2 := []) (a := false) (p1 := p) ?_ ?_
      · unfold isDimensionOf; rw [if_neg (by simp [e2])]; exact gives_pure.mpr ⟨rfl, rfl, rfl⟩
      · rw [if_neg (by simp)]; exact ih
  have h2 : Gives (isLengthPercentage c) p (.ok false) p [] := by
    unfold isLengthPercentage
    rw [if_neg (by simp [e1])]
    refine gives_seq (w1 := []) (w2 := []) (a := false) (p1 := p) ?_ ?_
    · unfold isDimensionOf; rw [if_neg (by simp [e2])]; exact gives_pure.mpr ⟨rfl, rfl, rfl⟩
    · rw [if_neg (by simp)]; exact any _
  have := h1.symm.trans h2
  simpa using this

theorem positionValue : FineR src n (fun v => Known src v.c) positionValue := by
  obtain ⟨g, hg⟩ := Probes.lengthPercentage (src := src)
  unfold Hdx.positionValue
  refine (FineR.tokBy (Probes.by_either hg fun _ _ _ hl hk => gives_wordIn hl hk)).seq fun c hc => FineR.ite (fun hi => ?_) fun _ => FineR.pure hc.1
  intro p cs hl hn
  have hw : wordIn src.chars POSITION_KEYWORDS c = true := by
    have := hc.2
    rw [not_length hg hc.1 hi hl] at this
    simpa using this
  have hb : FineR src n (fun r : List Char × Cursor => r.2 = c) (Hdx.buildKeyword POSITION_KEYWORDS c) := by
    intro p cs hl _
    unfold wordIn at hw
    simp only [Bool.and_eq_true] at hw
    obtain ⟨_, h⟩ := hw
    split at h
    · rename_i s hs
      exact ⟨_, p, [], cs, gives_buildKeyword.mpr ⟨rfl, rfl, s, by rw [hl.source]; exact hs, h, rfl⟩, hl, List.suffix_rfl, fun _ h => by cases h; rfl⟩
    · cases h
  exact hb.seq (fun r hr => FineR.pure (by rw [hr]; exact hc.1)) hl hn

theorem fourPosition (hst : src.strict = true) {a b : PositionValue} : Fine src n (fourPosition a b) := by
  unfold Hdx.fourPosition
  exact ite fail (seqR positionValue fun v hv => ite (seq (strOf hst hv) fun _ => fail) (seq (tokTest .lengthPercentage) fun _ =>
    ite (ite (pure id) fail) (ite (ite (pure id) fail) fail)))
theorem position (hst : src.strict = true) : Fine src n position := by
  unfold Hdx.position
  exact seqR positionValue fun a ha => peekSeq fun c hk => seq (Probes.positionValue.fine hk) fun _ => ite (pure id)
    (seqR positionValue fun b hb => peekSeq fun c hk => seq (Probes.positionValue.fine hk) fun _ =>
      ite (ite (ite (pure id) (fourPosition hst)) (ite (ite (pure id) fail) (fourPosition hst))) (fourPosition hst))

/-! ### Gradients -/

theorem gradientStops : ∀ m b vs, Fine src m (gradientStops m b vs)
  | 0, _, _ => zero
  | m + 1, b, vs => by
    unfold Hdx.gradientStops
    refine seq (x := if b = true then _ else _) (ite (ifPeek (P := fun _ => False) (fun _ hk => Probes.lengthPercentage.fine hk) (seq (tokTest .lengthPercentage) fun _ =>
      seq (tokTest .kind) fun _ => pure id)).fine (pure id)) fun h => seq color.fine fun c => seq (ifTok .lengthPercentage) fun h2 =>
      bind (ifPeek (fun _ _ => isKind) (tokKind (by decide))) (fun o ho => ?_) fun o ho => ?_
    · exact ite (pure id) (gradientStops m _ _)
    · have : o = none := by
        cases o with
        | none => rfl
        | some c => exact absurd ⟨c, rfl, trivial⟩ ho
      subst this
      exact pure id

theorem linearDirection (hst : src.strict = true) : Fine src n linearDirection := by
  unfold Hdx.linearDirection
  refine peekSeq fun c hk => seq (Probes.angle.fine hk) fun _ => ite (seq (piece .angle) fun _ => pure id) (seqR FineR.tokKind fun c hc =>
    seq (eqCase (hc.1 (.inl (kind_of_isKind (by decide) hc.2)))) fun _ => ite (seq (strOf hst hc.1) fun _ => fail) (seq (sequence fun x hx => ?_) fun _ => pure id))
  simp only [List.mem_cons, List.not_mem_nil, or_false] at hx
  rcases hx with rfl | rfl
  · exact piece .keyword
  · exact optPiece .keyword

theorem radialSize : Fine src n radialSize := by
  unfold Hdx.radialSize
  refine seq (ifPeek (fun _ hk => isKeyword hk) keyword).fine fun o => ?_
  obtain _ | ⟨k, c⟩ := o
  · refine seq peek fun c => ite (seq (tokTest .lengthPercentage) fun _ => seq peek fun c => ite (seq (piece .length) fun _ => pure id)
      (seq (tokTest .lengthPercentage) fun _ => pure id)) (seq (sequence fun x hx => ?_) fun _ => pure id)
    simp only [List.mem_cons, List.not_mem_nil, or_false] at hx
    rcases hx with rfl | rfl <;> exact piece .lengthPercentage
  · exact pure id

theorem linearGradient (hst : src.strict = true) (hn : n ≤ src.fuel) {f : Cursor} : Fine src n (linearGradient f) := by
  unfold Hdx.linearGradient
  refine seq (ifPeek (fun _ hk => Probes.linearDirection.fine hk) (linearDirection hst)).fine fun dir => seq (x := if _ then _ else _) (ite (ifTok .kind) (pure id)) fun comma => ?_
  refine read fun p hp => seq ?_ fun _ => seq optionalClose fun _ => pure id
  rw [hp]; exact (gradientStops _ _ _).mono hn

theorem radialGradient (hst : src.strict = true) (hn : n ≤ src.fuel) {f : Cursor} {isAt : Prog Bool} (ha : Fine src n isAt) : Fine src n (radialGradient f isAt) := by
  unfold Hdx.radialGradient
  refine seq (ifPeek (fun _ hk => Probes.radialSize.fine hk) radialSize).fine fun size => seq (ifTok .keyword) fun shape => ?_
  refine seq (ite (seq radialSize fun _ => pure id) (pure id)) fun size => seq ha fun b => ?_
  refine seq (ite (seq (tokTest .kind) fun _ => pure id) (pure id)) fun at_ => ?_
  refine seq (ite (ifPeek (fun _ hk => Probes.positionValue.fine hk) (position hst)).fine (pure id)) fun place => ?_
  refine seq (ite (ifTok .kind) (pure id)) fun comma => ?_
  refine read fun p hp => seq ?_ fun _ => seq optionalClose fun _ => pure id
  rw [hp]; exact (gradientStops _ _ _).mono hn

theorem gradient (hst : src.strict = true) (hn : n ≤ src.fuel) : Fine src n gradient := by
  unfold Hdx.gradient
  refine seqR functionR fun r hr => ?_
  obtain ⟨name, f⟩ := r
  exact ite (seq (linearGradient hst hn) fun _ => pure id) (ite (seq (linearGradient hst hn) fun _ => pure id)
    (ite (seq (radialGradient hst hn (peekNSeq fun c hk => Probes.wordOf.fine hk)) fun _ => pure id) (seq (radialGradient hst hn (Probes.wordOf.fine hr)) fun _ => pure id)))

/-! ### Images -/

theorem image (hst : src.strict = true) (hn : n ≤ src.fuel) : Fine src n image := by
  unfold Hdx.image
  refine seq peek fun c => ite (seq (piece .kind) fun _ => pure id) (peekSeq fun c hk => seq (Probes.gradient.fine hk) fun _ =>
    ite (seq (gradient hst hn) fun _ => pure id) (seq (namedFunction hst).fine fun _ => seq (sequence fun x hx => ?_) fun _ => pure id))
  simp only [List.mem_cons, List.not_mem_nil, or_false] at hx
  rcases hx with rfl | rfl <;> exact piece .kind

theorem colorStripe : Eats src (n + 1) colorStripe := by
  unfold Hdx.colorStripe
  refine bind (ifPeek (fun _ hk => Probes.color.fine hk) color) (fun o _ => seq (optPiece .thickness) fun t => ?_) fun o ho => seq (optPiece .thickness) fun t => ?_
  · refine seq (x := match o with | some v => _ | none => _) ?_ fun _ => seq (optPiece .kind) fun _ => pure id
    split
    · exact pure id
    · exact color.fine
  · have : o = none := by
      cases o with
      | none => rfl
      | some c => exact absurd ⟨c, rfl, trivial⟩ ho
    subst this
    exact eat color fun _ => seq (optPiece .kind) fun _ => pure id

theorem stripesLoop : ∀ m vs, Fine src m (stripesLoop m vs)
  | 0, _ => zero
  | m + 1, vs => by
    unfold Hdx.stripesLoop
    exact seq peek fun c => ite (seq (tokTest .kind) fun _ => pure id) (eat colorStripe fun _ => stripesLoop m _)

theorem image1D (hst : src.strict = true) (hn : n ≤ src.fuel) : Fine src n image1D := by
  unfold Hdx.image1D
  refine seq (namedFunction hst).fine fun f => read fun p hp => seq ?_ fun _ => pure id
  rw [hp]; exact (stripesLoop _ _).mono hn

/-! ### Others -/

theorem optKeyword {names : List (List Char)} : Fine src n (optKeyword names) := seq (ifPeek (fun _ hk => isKeyword hk) keyword).fine fun _ => pure id
theorem positionPair {a b : List (List Char)} {v : Nat} {f : Bool} {o : Prog Val} (ho : Fine src n o) : Fine src n (positionPair a b v f o) := by
  unfold Hdx.positionPair
  refine seq optKeyword fun r => ?_
  cases r with
  | none => exact ho
  | some c => exact seq optKeyword fun _ => pure id
theorem positionArea : Fine src n positionArea :=
  positionPair <| positionPair <| positionPair <| positionPair <| positionPair <| positionPair <| positionPair <| positionPair <| seq any fun _ => fail

theorem iterationCount : Fine src n iterationCount := by
  unfold Hdx.iterationCount
  have hrest : ∀ b : Bool, Fine src n (if b = true then (do let c ← Prog.tok (Prog.isKind .ident); Pure.pure (.tok c)) else (do
      let c ← Prog.tok isCssFloat
      if f32Below 0 c.token.value = true then Prog.fail .numberTooSmall c else Pure.pure (.tok c)) : Prog Val) := fun b =>
    ite (seq (tokTest .kind) fun _ => pure id) (seq (tokTest .of) fun _ => ite fail (pure id))
  intro p cs hl hn
  obtain ⟨c, q, cs', h1, h2, h3, _, _, hk⟩ := hl.next
  refine (fun ⟨r, p', w, cs', a, b⟩ => ⟨r, p', w, cs', gives_of_peek (peek_of_next h1) a, b⟩ : Goes _ _ _ _ _ → Goes _ _ _ _ _) ?_
  refine Goes.seq (Goes.ite (fun hi => ?_) fun _ => Goes.pure hl id) fun b p' w cs' g l' s' => ?_
  · exact Goes.peekN (peekN1_of_next h1) (eqCase (n := n) (hk (.inl (kind_of_isKind (by decide) hi))) hl hn)
  · exact hrest b l' (Nat.lt_of_le_of_lt s'.length_le hn)

theorem repeatStyle (hst : src.strict = true) : Fine src n repeatStyle := by
  unfold Hdx.repeatStyle
  exact seqR FineR.tokKind fun c hc => seq (strLower (hc.1 (.inl (kind_of_isKind (by decide) hc.2)))) fun s => ite (pure id) (ite (pure id)
    (seq (Probes.keyword.fine hc.1) fun _ => ite (seq optKeyword fun _ => pure id) (seq (strOf hst hc.1) fun _ => fail)))

theorem snap (hst : src.strict = true) {name : List Char} {names : List (List Char)} : Fine src n (snap name names) := by
  unfold Hdx.snap
  exact seq (namedFunction hst).fine fun _ => seq (tokTest .lengthPercentage) fun _ => seq (ifTok .kind) fun _ => seq optKeyword fun _ => seq (ifTok .kind) fun _ => pure id

theorem rangeLimitLoop : ∀ m vs, Fine src m (rangeLimitLoop m vs)
  | 0, _ => zero
  | m + 1, vs => by
    unfold Hdx.rangeLimitLoop
    exact seq atEnd fun _ => ite (pure id) (seq peek fun _ => ite (seq (tokTest .kind) fun _ => pure id) (eat (tokKind (by decide)) fun _ =>
      seq (tokTest .dimensionOf) fun _ => ite fail (seq (ifTok .kind) fun _ => rangeLimitLoop m _)))
theorem rangeLimitMix (hst : src.strict = true) (hn : n ≤ src.fuel) : Fine src n rangeLimitMix := by
  unfold Hdx.rangeLimitMix
  refine seq (namedFunction hst).fine fun f => read fun p hp => seq ?_ fun _ => pure id
  rw [hp]; exact (rangeLimitLoop _ _).mono hn

end EatsIf
end Hdx

/-
Selectors, whatever the parser skips: in a strict text, parsing them comes to an end.
-/
import Verif.Props.SelectorReturns

namespace Hdx
open Spec Prog

namespace EatsIf
variable {α β : Type} {src : Text} {n : Nat} {P : α → Prop} {Q : β → Prop}

theorem strOf (hst : src.strict = true) {c : Cursor} (hk : Known src c) : Fine src n (Prog.str c) := ask fun p cs hl => by
  obtain ⟨b, hb⟩ := hk.reads hst
  exact ⟨b, by rw [hl.source]; exact hb, id⟩
theorem failReading' (hst : src.strict = true) {c : Cursor} (hk : Known src c) : EatsIf src n P (Hdx.failReading c : Prog α) := seq (strOf hst hk) fun _ => fail

/-- A result that is there already. -/
theorem okSeq {a : α} {f : α → Prog β} (h : EatsIf src n Q (f a)) : EatsIf src n Q (Prog.ofResult (.ok a) >>= f) := h

theorem pseudoClass (hst : src.strict = true) : Eats src n pseudoClass := by
  unfold Hdx.pseudoClass
  refine attempt pseudoClassOf (fun r hr => ?_) (fun a _ _ => pure id)
  match r, hr with
  | .ok a, hr => exact absurd (hr a rfl trivial) (by simp [Except.toBool])
  | .error d, _ => exact peekNSeq fun c hk => tryVendors (fun _ => pseudoClassOf) (failReading' hst hk) _

theorem pseudoElement (hst : src.strict = true) : Eats src n pseudoElement := by
  unfold Hdx.pseudoElement
  refine attempt pseudoElementParts (fun r hr => ?_) (fun a ha _ => ?_)
  · match r, hr with
    | .error d, _ => exact err
    | .ok (.error d, x), _ => exact okSeq err
    | .ok (.ok c, .ok m), hr => exact absurd (hr _ rfl ⟨_, _, rfl⟩) (by simp [keepsPseudoElement])
    | .ok (.ok c, .error d), _ =>
      exact okSeq (okSeq (peekNSeq fun c hk => tryVendors (fun _ => pseudoElementOf) (failReading' hst hk) _))
  · obtain ⟨c, m, rfl⟩ := ha
    exact okSeq (okSeq (pure id))

theorem closing {γ : Type} {f : Option Cursor → γ} : Fine src n (Hdx.optionalClose >>= fun o => Pure.pure (f o)) := seq optionalClose fun _ => pure id

theorem functionalPseudoElement {compound : Prog (List Sel)} (hc : Fine src n compound) : Eats src (n + 1) (functionalPseudoElement compound n) := by
  unfold Hdx.functionalPseudoElement
  refine eat colonColon fun cc => ?_
  cases n with
  | zero => exact zero
  | succ n =>
    refine tokKindSeq (by decide) fun c h hk => seq (strLower (hk (.inr (.inl (kind_of_isKind (by decide) h))))) fun name => ?_
    exact ite (seq (tokKind (by decide)).fine fun _ => closing) (ite (seq ((partLoop (n + 1) []).mono (by omega)) fun _ => closing)
      (ite (seq (hc.mono (by omega)) fun _ => closing) fail))

theorem functionalPseudoClassValue {list : Prog (List (List Sel × Option Cursor))} (hc : Fine src n list) {colon : Cursor} {name : List Char}
    {function : Cursor} : Fine src n (functionalPseudoClassValue list n colon name function) := by
  unfold Hdx.functionalPseudoClassValue
  exact ite (seq keyword.fine fun _ => closing) (ite (seq (tokKind (by decide)).fine fun _ => closing) (ite (seq (langValues n []) fun _ => closing)
    (ite (seq hc fun _ => closing) (seq nth fun _ => closing))))

theorem functionalPseudoClass {list : Prog (List (List Sel × Option Cursor))} (hc : Fine src n list) : Eats src (n + 1) (functionalPseudoClass list n) := by
  unfold Hdx.functionalPseudoClass
  refine setSkip (.lit (by decide)) fun o ho => bind (tokKind (by decide)).result ?_ ?_
  · rintro r ⟨a, rfl, _⟩
    exact seq functionOf.result.fine fun _ => setSkip ho fun _ _ => seq ofResult fun _ => seq ofResult fun _ => functionalPseudoClassValue hc
  · rintro (d | a) h
    · exact seq functionOf.result.fine fun _ => setSkip ho fun _ _ => err
    · exact absurd ⟨a, rfl, trivial⟩ h

end EatsIf

section
variable {src : Text} {n : Nat}

theorem all_of_dropWhile_nil {α : Type} {f : α → Bool} {l : List α} (h : l.dropWhile f = []) : ∀ x ∈ l, f x = true := by
  induction l with
  | nil => simp
  | cons a l ih =>
    rw [List.dropWhile_cons] at h
    split at h
    · rename_i ha
      intro x hx
      rcases List.mem_cons.mp hx with rfl | hx
      · exact ha
      · exact ih h x hx
    · cases h

/-- A token that is there is taken, whatever is skipped, unless it is skipped. -/
theorem takes_some {p : Parser} {cs : List Cursor} (hl : Left src p cs) {c : Cursor} (hc : c ∈ cs) (hs : c.token.inSet p.skip = false) :
    ∃ d q cs', p.next = .ok (d, q) ∧ Left src q cs' ∧ cs' <:+ cs ∧ cs'.length < cs.length := by
  obtain ⟨d, q, cs', g1, g2, g3, _, g5, _⟩ := hl.next
  refine ⟨d, q, cs', g1, g2, g3, (g5 ?_).1⟩
  have hp := peekNext_stream hl.stream
  rw [Parser.C32_peek_next, g1] at hp
  simp only [Except.map, Except.ok.injEq] at hp
  rw [hp]
  unfold firstOutside
  cases h : (cs.dropWhile fun c => c.token.inSet p.skip) with
  | nil =>
    have := all_of_dropWhile_nil h c hc
    rw [hs] at this; cases this
  | cons d r =>
    have : d ∈ cs := (List.dropWhile_suffix _).subset (by rw [h]; simp)
    exact notEof_of_stream hl.stream d this

theorem peekN_mem {p : Parser} {cs : List Cursor} (hl : Left src p cs) {k : Nat} {c : Cursor} (h : p.peekN (k + 1) = .ok c) (hk : notEof c = true) : c ∈ cs := by
  obtain ⟨c', a, b⟩ := peekN_stream hl.stream k
  rw [h] at a; cases a
  rcases b with b | b
  · rw [b] at hk; exact absurd hk (by simp [notEof, eofOf, eof_isKind])
  · exact b

theorem selStar_strict (hst : src.strict = true) {p : Parser} {cs : List Cursor} {c1 : Cursor} (hl : Left src p cs) (hn : cs.length < n)
    (h1 : ({ p with skip := KindSet.COMMENTS } : Parser).peekN 1 = .ok c1) (hk : c1.token.isKind .delim = true) : PartGoes src p cs (selStar p.skip) := by
  have l0 : Left src { p with skip := KindSet.COMMENTS } cs := hl.skipping (.lit (by decide))
  unfold selStar
  obtain ⟨c2, h2, _⟩ := l0.peekN 1
  refine Goes.peekN h2 (Goes.setSkip (Goes.ite (fun _ => ?_) fun _ => ?_))
  · exact EatsIf.map EatsIf.namespaceSelector hl hn
  · have hm := peekN_mem l0 h1 (isKind_notEof (by decide) hk)
    obtain ⟨d, q, cs', g1, g2, g3, g4⟩ := takes_some hl hm (by rw [inSet_of_kind (by decide) hk]; exact hl.skip.delim hst)
    exact Goes.take (p := { p with skip := p.skip }) g1 g3 g4 (Goes.pure g2 id)

theorem selectorComponent_strict (hst : src.strict = true) {compound : Prog (List Sel)} {list : Prog (List (List Sel × Option Cursor))} (hc : Fine src n compound)
    (hl' : Fine src n list) : Eats src (n + 1) (selectorComponent compound list n) := by
  intro p cs hl hn
  unfold selectorComponent
  refine Goes.setSkip ?_
  have l0 : Left src { p with skip := KindSet.COMMENTS } cs := hl.skipping (.lit (by decide))
  obtain ⟨c1, h1, _⟩ := l0.peekN 0
  refine Goes.peekN h1 (Goes.ite (fun hk => ?_) fun _ => Goes.ite (fun hk => ?_) fun _ => Goes.ite (fun _ => ?_) fun _ => Goes.ite (fun hk => ?_) fun _ =>
    Goes.ite (fun hk => ?_) fun _ => ?_)
  · exact selIdent_goes hl hn h1 hk
  · exact selHash_goes hl h1 (Bool.and_eq_true _ _ ▸ hk).1
  · exact Goes.setSkip (EatsIf.map EatsIf.attributeSelector hl hn)
  · exact Goes.ite (fun _ => selDot_goes hl hn) fun _ => Goes.ite (fun _ => selStar_strict hst hl hn h1 hk) fun _ => selDelim_goes hl hn
  · unfold selColon
    obtain ⟨c2, h2, _⟩ := l0.peekN 1
    refine Goes.peekN h2 (Goes.ite (fun _ => ?_) fun _ => Goes.ite (fun hk2 => ?_) fun _ => Goes.ite (fun _ => ?_) fun _ => Goes.fail l0)
    · unfold selColonColon
      obtain ⟨c3, h3, _⟩ := l0.peekN 2
      refine Goes.peekN h3 (Goes.setSkip (Goes.ite (fun _ => ?_) fun _ => Goes.ite (fun _ => ?_) fun _ => Goes.fail hl))
      · exact EatsIf.map (EatsIf.pseudoElement hst) hl hn
      · exact EatsIf.functionalPseudoElement hc hl hn
    · unfold selColonIdent
      refine Goes.setSkip ?_
      exact EatsIf.seq (n := n + 1) (EatsIf.isPseudoClassOf (names := LEGACY_PSEUDO_ELEMENTS) (c := c1))
        (fun b => EatsIf.ite (EatsIf.map EatsIf.pseudoClassOf) (EatsIf.map (EatsIf.pseudoClass hst))) hl hn
    · exact Goes.setSkip (EatsIf.functionalPseudoClass hl' hl hn)
  · exact selOther_goes hl hn

theorem compoundLoop_stays {component : Prog Sel} : ∀ m acc, Eats src m component → ∀ ⦃p : Parser⦄ ⦃cs : List Cursor⦄, Left src p cs → cs.length < m →
    ∃ r p' w cs', Gives (compoundLoop component m acc) p r p' w ∧ Left src p' cs' ∧ cs' <:+ cs ∧ ∀ a, r = .ok a → (cs'.length < cs.length ∨ p'.skip = p.skip)
  | 0, _, _ => fun _ _ _ h => absurd h (by omega)
  | m + 1, acc, hc => by
    intro p cs hl hn
    unfold compoundLoop
    have ha : Gives atEnd p (.ok p.atEnd) p [] := gives_ask.mpr ⟨_, rfl, rfl, rfl, rfl⟩
    cases hend : p.atEnd with
    | true =>
      rw [hend] at ha
      exact ⟨_, p, _, cs, gives_seq ha (by rw [if_pos rfl]; exact gives_pure.mpr ⟨rfl, rfl, rfl⟩), hl, List.suffix_rfl, fun _ _ => .inr rfl⟩
    | false =>
    rw [hend] at ha
    obtain ⟨c, h1, _⟩ := hl.peekN 0
    have hp1 : Gives (peekN 1) p (.ok c) p [] := gives_ask.mpr ⟨c, h1, rfl, rfl, rfl⟩
    cases hset : c.token.inSet KindSet.LEFT_CURLY_RIGHT_PAREN_COMMA_OR_SEMICOLON with
    | true =>
      exact ⟨_, p, _, cs, gives_seq ha (by rw [if_neg (by simp)]; exact gives_seq hp1 (by rw [if_pos hset]; exact gives_pure.mpr ⟨rfl, rfl, rfl⟩)), hl, List.suffix_rfl,
        fun _ _ => .inr rfl⟩
    | false =>
    obtain ⟨r, p2, w2, cs2, g1, g2, g3, g4⟩ := hc hl hn
    have glen := g3.length_le
    cases r with
    | error d =>
      exact ⟨_, p2, _, cs2, gives_seq ha (by rw [if_neg (by simp)]; exact gives_seq hp1 (by rw [if_neg (by simp [hset])]; exact gives_bind.mpr (.inr ⟨d, g1, rfl⟩))), g2, g3,
        fun a h => by cases h⟩
    | ok s =>
      have hlt := g4 s rfl trivial
      obtain ⟨r3, p3, w3, cs3, j1, j2, j3, _⟩ := compoundLoop_stays m (acc ++ [s]) (hc.mono (by omega)) g2 (by omega)
      have := j3.length_le
      exact ⟨_, p3, _, cs3, gives_seq ha (by rw [if_neg (by simp)]; exact gives_seq hp1 (by rw [if_neg (by simp [hset])]; exact gives_seq g1 j1)), j2, j3.trans g3,
        fun _ _ => .inl (by omega)⟩

/-- `x` returns, and if it succeeds and takes no token it leaves alone what is skipped. -/
def StaysIf {α : Type} (src : Text) (n : Nat) (x : Prog α) : Prop := ∀ ⦃p : Parser⦄ ⦃cs : List Cursor⦄, Left src p cs → cs.length < n →
  ∃ r p' w cs', Gives x p r p' w ∧ Left src p' cs' ∧ cs' <:+ cs ∧ ∀ a, r = .ok a → (cs'.length < cs.length ∨ p'.skip = p.skip)

theorem StaysIf.fine {α : Type} {x : Prog α} (h : StaysIf src n x) : Fine src n x := by
  intro p cs hl hn
  obtain ⟨r, p', w, cs', h1, h2, h3, _⟩ := h hl hn
  exact ⟨r, p', w, cs', h1, h2, h3, fun _ _ h => h.elim⟩

theorem selectorListLoop_strict {compound : Prog (List Sel)}
    (hst : ∀ p, Succ compound p fun _ p' _ => StopsAt KindSet.LEFT_CURLY_RIGHT_PAREN_COMMA_OR_SEMICOLON p') : ∀ m acc, StaysIf src m compound →
    Fine src m (selectorListLoop compound m acc)
  | 0, _, _ => EatsIf.zero
  | m + 1, acc, hc => by
    intro p cs hl hn
    unfold selectorListLoop
    refine Goes.seq (EatsIf.atEnd (n := m + 1) hl hn) fun e p' w cs' g l' s' => ?_
    obtain ⟨e', he', hee, rfl, _⟩ := gives_ask.mp g
    cases he'; cases hee
    have hn' := Nat.lt_of_le_of_lt s'.length_le hn
    refine Goes.ite (fun _ => Goes.pure l' id) fun hend => ?_
    obtain ⟨c, h1, _⟩ := l'.peekN 0
    refine Goes.peekN h1 (Goes.ite (fun _ => Goes.pure l' id) fun hset => ?_)
    obtain ⟨rc, pc, wc, csc, gc, lc, sc, kc⟩ := hc l' hn'
    refine Goes.seq (hc.fine l' hn') fun a p2 w2 cs2 g2 l2 s2 => ?_
    have k2 : cs2.length < cs'.length ∨ p2.skip = p'.skip := by
      have := gc.symm.trans g2
      cases this
      rw [l2.stream.det lc.stream]
      exact kc _ rfl
    have hn2 := Nat.lt_of_le_of_lt s2.length_le hn'
    refine Goes.seq (EatsIf.ifPeek (n := m + 1) (fun _ _ => EatsIf.isKind) (EatsIf.tokKind (k := .comma) (by decide)) |>.fine l2 hn2) fun o p3 w3 cs3 g3 l3 s3 => ?_
    refine selectorListLoop_strict hst m _ (fun _ _ h1 h2 => hc h1 (by omega)) l3 ?_
    have e2 := s2.length_le
    have e3 := s3.length_le
    refine Classical.byContradiction fun hno => ?_
    have hcs2 : cs2 = cs' := s2.eq_of_length (by omega)
    subst hcs2
    have k2 : p2.skip = p'.skip := k2.resolve_left (by omega)
    have hne : cs2.isEmpty = false := by
      rw [← l'.stream.at_end]
      exact Bool.eq_false_iff.mpr hend
    rcases hst _ g2 with he | ⟨c', hc', hin⟩
    · have := l2.stream.at_end
      rw [hne] at this
      exact absurd (he.symm.trans this) (by decide)
    · have hcc := same_next l' l2 k2 h1 hc'
      subst hcc
      have hcomma := comma_of_sets hin (Bool.eq_false_iff.mpr hset)
      obtain ⟨c1, b, p1, w1, w4, q1, q2, _, q3⟩ := gives_ifPeek.mp g3
      obtain ⟨hb, rfl, rfl⟩ := gives_pure.mp q2
      cases hb
      have hc1 : c1 = c' := by
        obtain ⟨_, e1⟩ := next_of_peekN1 hc'
        rw [Parser.C32_peek_next, e1] at q1
        cases q1; rfl
      subst hc1
      rcases q3 with ⟨_, a1, rfl, q4⟩ | ⟨hf, _⟩
      · obtain ⟨q5, _, q6⟩ := gives_isKind_ok.mp q4
        obtain ⟨c5, p5, cs5, r1, r2, r3, _, r4, _⟩ := l2.next
        rw [q5] at r1; cases r1
        have := (r4 (by simpa [notEof] using isKind_notEof (by decide) q6)).1
        rw [l3.stream.det r2.stream] at hno
        omega
      · rw [hcomma] at hf; cases hf

theorem compoundSelector_strict (hst : src.strict = true) : ∀ n, StaysIf src n (compoundSelector n)
  | 0 => fun _ _ _ h => absurd h (by omega)
  | n + 1 => by
    intro p cs hl hn
    have ih := compoundSelector_strict hst n
    unfold compoundSelector
    obtain ⟨q, cs1, g1, g2, g3, g4⟩ := hl.trivia
    have hlen := g3.length_le
    obtain ⟨r, p', w, cs', j1, j2, j3, j4⟩ := compoundLoop_stays (n + 1) [] (selectorComponent_strict hst ih.fine (selectorListLoop_strict (compoundSelector_stops n) n [] ih)) g2 (by omega)
    refine ⟨r, p', w, cs', ?_, j2, j3.trans g3, fun a ha => ?_⟩
    · simp only [Gives, runLog, g1]
      exact j1
    · rcases j4 a ha with h | h
      · exact .inl (by omega)
      · exact .inr (h.trans (modes_skip g4))

theorem selectorListFuel_strict (hst : src.strict = true) (n : Nat) : Fine src n (selectorListFuel n) :=
  selectorListLoop_strict (compoundSelector_stops n) n [] (compoundSelector_strict hst n)
end

end Hdx

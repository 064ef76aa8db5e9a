/-
C68 for the parsers of An+B, features and conditions.
-/
import Verif.Props.Returns
import Verif.Props.Nth
import Verif.Props.Conditions

namespace Hdx
open Spec Prog

namespace EatsIf
variable {α β : Type} {src : Text} {n : Nat} {P : α → Prop} {Q : β → Prop}

/-- A token that is looked up in the source. -/
theorem gives_tokBy {test : Cursor → Prog Bool} {g : Cursor → Bool} {p p' : Parser} {c : Cursor} (hn : p.next = .ok (c, p'))
    (ht : Gives (test c) p (.ok (g c)) p []) : Gives (Prog.tok test) p (if g c then .ok c else .error ⟨.unexpected, c.span⟩) p' [c] := by
  unfold Prog.tok
  refine gives_of_peek (peek_of_next hn) ?_
  have h6 : Gives (if g c = true then Pure.pure c else Prog.fail .unexpected c : Prog Cursor) p' (if g c then .ok c else .error ⟨.unexpected, c.span⟩) p' [] := by
    split
    · exact gives_pure.mpr ⟨rfl, rfl, rfl⟩
    · exact gives_fail.mpr ⟨rfl, rfl, rfl⟩
  have h4 := gives_seq (gives_take.mpr ⟨c, hn, rfl, rfl⟩) (f := fun c' => if g c = true then Pure.pure c' else Prog.fail .unexpected c') h6
  simpa using gives_seq ht (f := fun ok => Prog.take >>= fun c => if ok = true then Pure.pure c else Prog.fail .unexpected c) h4

/-- A token, with what follows it. -/
theorem tokBySeq {test : Cursor → Prog Bool} {g : Cursor → Bool} (ht : ∀ p cs c, Left src p cs → Known src c → Gives (test c) p (.ok (g c)) p [])
    (hg : ∀ c, g c = true → notEof c = true) {f : Cursor → Prog β} (h : ∀ c, g c = true → Known src c → Fine src n (f c)) :
    EatsIf src (n + 1) Q (Prog.tok test >>= f) := by
  intro p cs hl hn
  obtain ⟨c, p', cs', h1, h2, h3, _, h4, h5⟩ := hl.next
  have hlen := h3.length_le
  have ht := gives_tokBy h1 (ht p cs c hl h5)
  cases hc : g c with
  | false =>
    rw [hc] at ht
    exact ⟨_, p', [c], cs', gives_bind.mpr (.inr ⟨_, ht, rfl⟩), h2, h3, fun a ha _ => by cases ha⟩
  | true =>
    rw [hc] at ht
    have hlt := (h4 (by simpa [notEof] using hg c hc)).1
    obtain ⟨r, p2, w, cs2, j1, j2, j3, _⟩ := h c hc h5 h2 (by omega)
    have := j3.length_le
    exact ⟨r, p2, _, cs2, gives_bind.mpr (.inl ⟨c, p', [c], w, ht, j1, rfl⟩), j2, j3.trans h3, fun a ha hQ => by omega⟩

/-- Any token, the end of the file included. -/
theorem anySeq {f : Cursor → Prog β} (h : ∀ c, Known src c → Fine src n (f c)) : Fine src n (any >>= f) := by
  intro p cs hl hn
  obtain ⟨c, p', cs', h1, h2, h3, _, h4, h5⟩ := hl.next
  have hlen := h3.length_le
  obtain ⟨r, p2, w, cs2, j1, j2, j3, _⟩ := h c h5 h2 (by omega)
  exact ⟨r, p2, _, cs2, gives_bind.mpr (.inl ⟨c, p', [c], w, gives_tok.mpr ⟨c, h1, rfl, rfl⟩, j1, rfl⟩), j2, j3.trans h3, fun _ _ h => h.elim⟩
theorem any : Fine src n any := by
  intro p cs hl hn
  obtain ⟨c, p', cs', h1, h2, h3, _, h4, h5⟩ := hl.next
  exact ⟨_, p', [c], cs', gives_tok.mpr ⟨c, h1, rfl, rfl⟩, h2, h3, fun _ _ h => h.elim⟩

/-- A token read with another skip set, which is then restored. -/
theorem skipTok {g : Cursor → Bool} {s : KindSet} (hs : SkipIn src s) {k : Except Diag Cursor → Prog β}
    (h1 : ∀ c, Known src c → Fine src n (k (.ok c))) (h2 : ∀ d, Fine src n (k (.error d))) :
    Fine src n (Prog.setSkip s fun old => Prog.result (Prog.tok fun c => Pure.pure (g c)) >>= fun r => Prog.setSkip old fun _ => k r) := by
  intro p cs hl hn
  have hl' : Left src { p with skip := s } cs := ⟨hl.source, hl.stream, hs, hl.names⟩
  obtain ⟨c, p', cs', g1, g2, g3, _, _, g5⟩ := hl'.next
  have hlen := g3.length_le
  have hl2 : Left src { p' with skip := p.skip } cs' := ⟨g2.source, g2.stream, hl.skip, g2.names⟩
  have hk : Fine src n (k (if g c then .ok c else .error ⟨.unexpected, c.span⟩)) := by
    split
    · exact h1 c g5
    · exact h2 _
  obtain ⟨r, p2, w, cs2, j1, j2, j3, j4⟩ := hk hl2 (by omega)
  refine ⟨r, p2, _, cs2, gives_setSkip.mpr (gives_bind.mpr (.inl ⟨_, p', [c], w, gives_result.mpr ⟨_, gives_tok.mpr ⟨c, g1, rfl, rfl⟩, rfl⟩,
    gives_setSkip.mpr j1, rfl⟩)), j2, j3.trans g3, fun _ _ h => h.elim⟩

/-! ### An+B -/

theorem nthNumber {a b : Int} {cs : List Cursor} : Fine src n (nthNumber a b cs) := by
  unfold Hdx.nthNumber
  exact seq peek fun c => ite (seq (tokKind (by decide)).fine fun c => ite fail (ite fail (pure id))) (pure id)
theorem nthSign {a b : Int} {cs : List Cursor} : Fine src n (nthSign a b cs) := by
  unfold Hdx.nthSign
  refine ite (seq peek fun c => ite (seq tokDelim.fine fun c => nthNumber) (ite (seq tokDelim.fine fun c => nthNumber) nthNumber)) nthNumber
theorem nthN {c : Cursor} {cs : List Cursor} (hk : Known src c) : Fine src n (nthN c cs) := by
  unfold Hdx.nthN
  split
  · exact fail
  rename_i h
  refine ite fail (seq (strLower (hk ?_)) fun s => ite nthSign (ite fail ?_))
  · simp only [Bool.not_eq_true', Bool.not_eq_false, Bool.or_eq_true] at h
    rcases h with (h | h) | h <;> have := kind_of_isKind (by decide) h <;> simp [this]
  · split
    · exact pure id
    · exact ite fail nthSign
theorem nthFirst {c : Cursor} (hk : Known src c) : Fine src n (nthFirst c) := by
  unfold Hdx.nthFirst
  refine ite (skipTok (g := fun _ => true) (.lit (by decide)) (fun c' hk' => ?_) fun d => err) (nthN hk)
  exact nthN hk'

theorem nth : Fine src n nth := by
  cases n with
  | zero => exact fun _ _ _ h => absurd h (by omega)
  | succ n =>
    unfold Hdx.nth
    refine seq peek fun c => ite ?_ (ite ?_ (anySeq fun c hk => nthFirst hk))
    · refine seq (tok (g := fun c => c.token.isKind .number && c.token.isInt) fun c h => ?_).fine fun _ => pure id
      simp only [Bool.and_eq_true] at h
      exact isKind_notEof (by decide) h.1
    · refine tokKindSeq (by decide) fun c hc hk => seq (strLower (hk (.inl (kind_of_isKind (by decide) hc)))) fun s => ?_
      exact ite (pure id) (ite (pure id) (nthFirst hk))

/-! ### Words -/

/-- Is the cursor one of the words? -/
def wordIn (src : List Char) (names : List (List Char)) (c : Cursor) : Bool :=
  c.token.isKind .ident && match c.parseStrLower src with | .ok s => names.contains s | .error _ => false

theorem gives_wordIn {names : List (List Char)} {p : Parser} {cs : List Cursor} {c : Cursor} (hl : Left src p cs) (hk : Known src c) :
    Gives (isKeyword names c) p (.ok (wordIn src.chars names c)) p [] := by
  refine gives_isKeyword.mpr ⟨rfl, rfl, ?_⟩
  unfold wordIn
  cases hi : c.token.isKind .ident with
  | false => exact .inl ⟨fun h => (by rw [(isKind_iff (show Kind.ident ≠ .eof by decide)).mpr h] at hi; cases hi), by simp⟩
  | true =>
    have hkind := kind_of_isKind (by decide) hi
    obtain ⟨s, hs⟩ := (hk (.inl hkind)).2.1
    exact .inr ⟨s, ⟨hkind, by rw [hl.source]; exact hs⟩, by simp [hs]⟩

theorem isKeyword {names : List (List Char)} {c : Cursor} (hk : Known src c) : Fine src n (isKeyword names c) := fun p cs hl _ =>
  ⟨_, p, [], cs, gives_wordIn hl hk, hl, List.suffix_rfl, fun _ _ h => h.elim⟩

theorem wordSeq {names : List (List Char)} {c : Cursor} (hk : Known src c) {k : Bool → Prog β} (h1 : wordIn src.chars names c = true → EatsIf src n Q (k true))
    (h2 : wordIn src.chars names c = false → EatsIf src n Q (k false)) : EatsIf src n Q (Hdx.isKeyword names c >>= k) := by
  intro p cs hl hn
  have hg := gives_wordIn (names := names) hl hk
  cases hw : wordIn src.chars names c with
  | true =>
    rw [hw] at hg
    obtain ⟨r, p', w, cs', j1, j2, j3, j4⟩ := h1 hw hl hn
    exact ⟨r, p', _, cs', gives_seq hg j1, j2, j3, j4⟩
  | false =>
    rw [hw] at hg
    obtain ⟨r, p', w, cs', j1, j2, j3, j4⟩ := h2 hw hl hn
    exact ⟨r, p', _, cs', gives_seq hg j1, j2, j3, j4⟩

theorem buildKeyword {names : List (List Char)} {c : Cursor} (h : wordIn src.chars names c = true) : Fine src n (buildKeyword names c) := by
  intro p cs hl _
  unfold wordIn at h
  simp only [Bool.and_eq_true] at h
  obtain ⟨_, h⟩ := h
  split at h
  · rename_i s hs
    exact ⟨_, p, [], cs, gives_buildKeyword.mpr ⟨rfl, rfl, s, by rw [hl.source]; exact hs, h, rfl⟩, hl, List.suffix_rfl, fun _ _ h => h.elim⟩
  · cases h

theorem keyword {names : List (List Char)} : Eats src n (keyword names) := by
  cases n with
  | zero => exact fun _ _ _ h => absurd h (by omega)
  | succ n =>
    unfold Hdx.keyword
    refine tokBySeq (g := wordIn src.chars names) (fun p cs c hl hk => gives_wordIn hl hk) (fun c h => ?_) fun c hc _ => buildKeyword hc
    unfold wordIn at h
    simp only [Bool.and_eq_true] at h
    exact isKind_notEof (by decide) h.1

/-! ### Features -/

theorem isDoubleDelim {a b : Char} {c : Cursor} : Fine src n (isDoubleDelim a b c) := by
  unfold Hdx.isDoubleDelim
  exact ite (seq peekN fun _ => pure id) (pure id)
theorem doubleDelim {a b : Char} : Fine src n (doubleDelim a b) := by
  unfold Hdx.doubleDelim
  refine seq (tokKind (by decide)).fine fun c => ite fail (skipTok (g := fun c => c.token.isKind .delim) (.lit (by decide)) (fun c' _ => ?_) fun d => err)
  show Fine src n (if !c'.token.isChar b then Prog.fail .other c' else Pure.pure (c, c'))
  exact ite fail (pure id)
theorem comparison : Fine src n comparison := by
  unfold Hdx.comparison
  refine seq peek fun c => ?_
  split
  · refine ite (seq tokDelim.fine fun _ => pure id) (ite ?_ (ite ?_ fail)) <;>
      exact seq isDoubleDelim fun _ => ite (seq doubleDelim fun x => pure id) (seq tokDelim.fine fun _ => pure id)
  · exact fail

theorem discreteFeature {ν : Type} {name : List Char} {value : Prog ν} (hv : Fine src n value) : Eats src (n + 1) (discreteFeature name value) := by
  unfold Hdx.discreteFeature
  refine eat (tokKind (by decide)) fun o => ?_
  cases n with
  | zero => exact fun _ _ _ h => absurd h (by omega)
  | succ n =>
    refine tokKindSeq (by decide) fun c hc hk => seq (eqCase (hk (.inl (kind_of_isKind (by decide) hc)))) fun b => ite fail (seq peek fun c => ite ?_ ?_)
    · exact seq (tokKind (by decide)).fine fun _ => seq (hv.mono (by omega)) fun _ => seq (tokKind (by decide)).fine fun _ => pure id
    · exact seq (tokKind (by decide)).fine fun _ => pure id

theorem booleanFeature {name : List Char} : Eats src n (booleanFeature name) := by
  cases n with
  | zero => exact fun _ _ _ h => absurd h (by omega)
  | succ n => exact discreteFeature any

theorem rangedFeature {ν : Type} {names : List (List Char)} {legacy : List Char → Bool} {value : Prog ν} (hv : Fine src n value) :
    Eats src (n + 1) (rangedFeature names legacy value) := by
  unfold Hdx.rangedFeature
  have fin {γ : Type} {f : Cursor → γ} : Fine src n (Prog.tok (Prog.isKind .rightParen) >>= fun c => Pure.pure (f c)) :=
    seq (tokKind (show Kind.rightParen ≠ .eof by decide)).fine fun _ => pure id
  refine eat (tokKind (by decide)) fun o => seq peek fun c => seq (ifPeek (fun c hk => isKeyword hk) keyword).fine fun m => ?_
  split
  · refine seq peek fun d => ite ?_ (ite fail ?_)
    · exact seq (tokKind (by decide)).fine fun _ => seq hv fun _ => fin
    · exact seq comparison fun _ => seq hv fun _ => fin
  · refine seq hv fun l => seq comparison fun _ => seq peek fun c => seq keyword.fine fun x => ?_
    obtain ⟨variant, name⟩ := x
    refine ite fail (seq peek fun d => ite fin (seq comparison fun _ => seq hv fun _ => fin))

/-! ### Conditions -/

/-- The loops stop: a feature consumes tokens. -/
theorem conditionLoop {φ : Type} {feature : Prog φ} : ∀ n fs f kw, Eats src n feature → Fine src n (conditionLoop feature n fs f kw)
  | 0, _, _, _, _ => fun _ _ _ h => absurd h (by omega)
  | n + 1, fs, f, kw, hf => by
    unfold Hdx.conditionLoop
    refine eat hf fun g => peekSeq fun c hk => wordSeq hk (fun hw => ?_) (fun _ => pure id)
    rw [if_pos rfl]
    exact seq (buildKeyword hw) fun x => ite (conditionLoop n _ _ _ (hf.mono (by omega))) (pure id)

theorem condition {φ : Type} {feature : Prog φ} (hf : Eats src n feature) : Fine src n (condition feature n) := by
  unfold Hdx.condition
  refine peekSeq fun c hk => wordSeq hk (fun hw => ?_) (fun _ => ?_)
  · rw [if_pos rfl]
    exact seq (buildKeyword hw) fun x => ite (seq hf.fine fun _ => pure id) fail
  · rw [if_neg (by simp)]
    refine seq hf.fine fun f => seq (ifPeek (fun c hk => isKeyword hk) keyword).fine fun kw => ?_
    split
    · exact pure id
    · exact ite (seq (conditionLoop n _ _ _ hf) fun _ => pure id) (ite (seq (conditionLoop n _ _ _ hf) fun _ => pure id) (seq hf.fine fun _ => pure id))

end EatsIf

theorem Spec.ComesToEnd.of_eats {α : Type} {P : α → Prop} {x : Prog α} {p : Parser} (h : Ready p) (hx : EatsIf p.lexer.source p.fuel P x) : ComesToEnd x p := by
  obtain ⟨r, p', _, h, _⟩ := hx.returns h; exact ⟨r, p', h⟩

/-- An+B: `Nth`. -/
theorem C68_nth_partial {p : Parser} (h : Ready p) : ComesToEnd nth p := .of_eats h EatsIf.nth
/-- A boolean feature, of any name. -/
theorem C68_boolean_partial {p : Parser} {name : List Char} (h : Ready p) : ComesToEnd (booleanFeature name) p := .of_eats h EatsIf.booleanFeature
/-- A discrete feature of any name, if its value is parsed by a parser that returns and never goes back; a list of words is such a value. -/
theorem C68_discrete_partial {p : Parser} {name : List Char} {names : List (List Char)} (h : Ready p) : ComesToEnd (discreteFeature name (keyword names)) p :=
  .of_eats h (EatsIf.discreteFeature (n := p.fuel) EatsIf.keyword.fine |>.mono (by omega))
/-- A ranged feature, of any names, with any of them legacy, whose value is a number, a dimension or any other kind of token. -/
theorem C68_ranged_partial {p : Parser} {names : List (List Char)} {legacy : List Char → Bool} {k : Kind} (hk : k ≠ .eof) (h : Ready p) :
    ComesToEnd (rangedFeature names legacy (tok (isKind k))) p :=
  .of_eats h (EatsIf.rangedFeature (n := p.fuel) (EatsIf.tokKind hk).fine |>.mono (by omega))
/-- A condition of boolean features: `(a) and (b) and ...`. -/
theorem C68_condition_partial {p : Parser} {name : List Char} (h : Ready p) : ComesToEnd (condition (booleanFeature name) p.fuel) p :=
  .of_eats h (EatsIf.condition EatsIf.booleanFeature)

/-- The guard holds of every short ASCII text, and of longer texts with other characters. -/
example : Ready (Parser.new c!"@media (min-width: 1\\70 x) { a:b { c: d } } --x:{ \"") :=
  ready_new (tame_of_ascii (by decide) (by decide))
/-- Text that is no CSS at all comes to an end too: with an error. -/
example : (styleSheet.run (Parser.new c!"a { b ) } ]")).map (fun r => r.1.toOption.isSome) = .ok false := by decide +kernel

/-- Beyond the guard: on the escape of a character that is not ASCII, parsing panics. -/
theorem C68_counterexample : (styleSheet.run (Parser.new c!"\\é")).map (fun _ => ()) = .error .slice := by decide +kernel

end Hdx

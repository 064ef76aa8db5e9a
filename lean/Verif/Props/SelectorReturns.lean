/-
C70: parsing selectors comes to an end.
-/
import Verif.Props.SelectorList
import Verif.Props.ReturnsMore

namespace Hdx
open Spec Prog

theorem Left.skipping {src : Text} {p : Parser} {cs : List Cursor} (h : Left src p cs) {s : KindSet} (hs : SkipIn src s) :
    Left src { p with skip := s } cs := ⟨h.source, h.stream, hs, h.names⟩

/-- `x` returns from `p`, where the tokens `cs` are left. -/
def Goes {α : Type} (src : Text) (p : Parser) (cs : List Cursor) (P : α → Prop) (x : Prog α) : Prop :=
  ∃ r p' w cs', Gives x p r p' w ∧ Left src p' cs' ∧ cs' <:+ cs ∧ ∀ a, r = .ok a → P a → cs'.length < cs.length

namespace Goes
variable {α β : Type} {src : Text} {p : Parser} {cs : List Cursor} {P : α → Prop} {Q : β → Prop}

theorem of {n : Nat} {x : Prog α} (h : EatsIf src n P x) (hl : Left src p cs) (hn : cs.length < n) : Goes src p cs P x := h hl hn
theorem setSkip {s : KindSet} {k : KindSet → Prog α} (h : Goes src { p with skip := s } cs P (k p.skip)) : Goes src p cs P (Prog.setSkip s k) := by
  obtain ⟨r, p', w, cs', h1, h2⟩ := h
  exact ⟨r, p', w, cs', gives_setSkip.mpr h1, h2⟩
theorem peekN {k : Nat} {c : Cursor} {f : Cursor → Prog β} (hc : p.peekN k = .ok c) (h : Goes src p cs Q (f c)) : Goes src p cs Q (Prog.peekN k >>= f) := by
  obtain ⟨r, p', w, cs', h1, h2⟩ := h
  have : Gives (Prog.peekN k) p (.ok c) p [] := gives_ask.mpr ⟨c, hc, rfl, rfl, rfl⟩
  exact ⟨r, p', w, cs', by simpa using gives_seq this h1, h2⟩
theorem take {q : Parser} {cs1 : List Cursor} {c : Cursor} {f : Cursor → Prog β} (hn : p.next = .ok (c, q)) (hs : cs1 <:+ cs) (hlt : cs1.length < cs.length)
    (h : Goes src q cs1 (fun _ => False) (f c)) : Goes src p cs Q (Prog.take >>= f) := by
  obtain ⟨r, p', w, cs', h1, h2, h3, _⟩ := h
  have : Gives Prog.take p (.ok c) q [c] := gives_take.mpr ⟨c, hn, rfl, rfl⟩
  have := h3.length_le
  exact ⟨r, p', _, cs', gives_seq ‹Gives Prog.take _ _ _ _› h1, h2, h3.trans hs, fun _ _ _ => by omega⟩
theorem seq {x : Prog α} {f : α → Prog β} (hx : Goes src p cs (fun _ => False) x) (hf : ∀ a p' w cs', Gives x p (.ok a) p' w → Left src p' cs' → cs' <:+ cs → Goes src p' cs' Q (f a)) :
    Goes src p cs Q (x >>= f) := by
  obtain ⟨r, p1, w1, cs1, h1, h2, h3, _⟩ := hx
  cases r with
  | error d => exact ⟨.error d, p1, w1, cs1, gives_bind.mpr (.inr ⟨d, h1, rfl⟩), h2, h3, fun a h => by cases h⟩
  | ok a =>
    obtain ⟨r, p', w, cs', g1, g2, g3, g4⟩ := hf a p1 w1 cs1 h1 h2 h3
    have := h3.length_le
    exact ⟨r, p', _, cs', gives_bind.mpr (.inl ⟨a, p1, w1, w, h1, g1, rfl⟩), g2, g3.trans h3, fun b hb hQ => Nat.lt_of_lt_of_le (g4 b hb hQ) this⟩
theorem eat {x : Prog α} {f : α → Prog β} (hx : Goes src p cs (fun _ => True) x)
    (hf : ∀ a p' w cs', Gives x p (.ok a) p' w → Left src p' cs' → cs' <:+ cs → cs'.length < cs.length → Goes src p' cs' (fun _ => False) (f a)) :
    Goes src p cs Q (x >>= f) := by
  obtain ⟨r, p1, w1, cs1, h1, h2, h3, h4⟩ := hx
  cases r with
  | error d => exact ⟨.error d, p1, w1, cs1, gives_bind.mpr (.inr ⟨d, h1, rfl⟩), h2, h3, fun a h => by cases h⟩
  | ok a =>
    have hlt := h4 a rfl trivial
    obtain ⟨r, p', w, cs', g1, g2, g3, g4⟩ := hf a p1 w1 cs1 h1 h2 h3 hlt
    have := g3.length_le
    exact ⟨r, p', _, cs', gives_bind.mpr (.inl ⟨a, p1, w1, w, h1, g1, rfl⟩), g2, g3.trans h3, fun b hb hQ => by omega⟩
theorem fine {x : Prog α} (h : Goes src p cs P x) : Goes src p cs (fun _ => False) x := by
  obtain ⟨r, p', w, cs', h1, h2, h3, _⟩ := h
  exact ⟨r, p', w, cs', h1, h2, h3, fun _ _ h => h.elim⟩
theorem pure {a : α} (hl : Left src p cs) (h : ¬ P a) : Goes src p cs P (Pure.pure a) :=
  ⟨_, p, [], cs, gives_pure.mpr ⟨rfl, rfl, rfl⟩, hl, List.suffix_rfl, fun b hb hP => by cases hb; exact (h hP).elim⟩
theorem fail {d : DiagCode} {c : Cursor} (hl : Left src p cs) : Goes src p cs P (Prog.fail d c : Prog α) :=
  ⟨_, p, [], cs, gives_fail.mpr ⟨rfl, rfl, rfl⟩, hl, List.suffix_rfl, fun b hb => by cases hb⟩
end Goes

theorem Left.takes {src : Text} {p : Parser} {cs : List Cursor} (h : Left src p cs) {c : Cursor} (h1 : p.peekN 1 = .ok c) (hk : notEof c = true) :
    ∃ q cs', p.next = .ok (c, q) ∧ Left src q cs' ∧ cs' <:+ cs ∧ q.skip = p.skip ∧ cs'.length < cs.length ∧ Known src c := by
  obtain ⟨c', q, cs', g1, g2, g3, g4, g5, g6⟩ := h.next
  obtain ⟨q', hq⟩ := next_of_peekN1 h1
  rw [g1] at hq; cases hq
  exact ⟨_, cs', g1, g2, g3, g4, (g5 (by simpa [notEof] using hk)).1, g6⟩

namespace EatsIf
variable {α β : Type} {src : Text} {n : Nat} {P : α → Prop} {Q : β → Prop}

theorem setSkip {s : KindSet} (hs : SkipIn src s) {k : KindSet → Prog α} (h : ∀ o : KindSet, SkipIn src o → EatsIf src n P (k o)) :
    EatsIf src n P (Prog.setSkip s k) := fun p cs hl hn => Goes.setSkip (h p.skip hl.skip (hl.skipping hs) hn)
theorem peekNSeq {k : Nat} {f : Cursor → Prog β} (h : ∀ c, Known src c → EatsIf src n Q (f c)) : EatsIf src n Q (Prog.peekN (k + 1) >>= f) := by
  intro p cs hl hn
  obtain ⟨c, hc, hk⟩ := hl.peekN k
  exact Goes.peekN hc (h c hk hl hn)
theorem str {c : Cursor} (hd : Decodable c src.chars) : Fine src n (Prog.str c) := ask fun p cs hl => by
  obtain ⟨b, hb⟩ := hd.1
  exact ⟨b, by rw [hl.source]; exact hb, id⟩
theorem ofResult {r : Except Diag α} : Fine src n (Prog.ofResult r) := ret (by simp)
theorem zero {x : Prog α} : EatsIf src 0 P x := fun _ _ _ h => absurd h (by omega)

/-- A token that follows at once, with what is known of it. -/
theorem skipTok' {g : Cursor → Bool} {s : KindSet} (hs : SkipIn src s) {k : Except Diag Cursor → Prog β}
    (h1 : ∀ c, g c = true → Known src c → Fine src n (k (.ok c))) (h2 : ∀ d, Fine src n (k (.error d))) :
    Fine src n (Prog.setSkip s fun old => Prog.result (Prog.tok fun c => Pure.pure (g c)) >>= fun r => Prog.setSkip old fun _ => k r) := by
  intro p cs hl hn
  have hl' : Left src { p with skip := s } cs := ⟨hl.source, hl.stream, hs, hl.names⟩
  obtain ⟨c, p', cs', g1, g2, g3, _, _, g5⟩ := hl'.next
  have hlen := g3.length_le
  have hl2 : Left src { p' with skip := p.skip } cs' := ⟨g2.source, g2.stream, hl.skip, g2.names⟩
  have hk : Fine src n (k (if g c then .ok c else .error ⟨.unexpected, c.span⟩)) := by
    split
    · rename_i hg; exact h1 c hg g5
    · exact h2 _
  obtain ⟨r, p2, w, cs2, j1, j2, j3, j4⟩ := hk hl2 (by omega)
  refine ⟨r, p2, _, cs2, gives_setSkip.mpr (gives_bind.mpr (.inl ⟨_, p', [c], w, gives_result.mpr ⟨_, gives_tok.mpr ⟨c, g1, rfl, rfl⟩, rfl⟩,
    gives_setSkip.mpr j1, rfl⟩)), j2, j3.trans g3, fun _ _ h => h.elim⟩

theorem buildTag {c : Cursor} (hk : Known src c) (hi : c.token.isKind .ident = true) : Fine src n (buildTag c) := by
  have hd := hk (.inl (kind_of_isKind (by decide) hi))
  unfold Hdx.buildTag
  refine wordSeq hk (fun hw => ?_) fun _ => ?_
  · rw [if_pos rfl]; exact seq (buildKeyword hw) fun _ => pure id
  rw [if_neg (by simp)]
  refine wordSeq hk (fun hw => ?_) fun _ => ?_
  · rw [if_pos rfl]; exact seq (buildKeyword hw) fun _ => pure id
  rw [if_neg (by simp)]
  refine wordSeq hk (fun hw => ?_) fun _ => ?_
  · rw [if_pos rfl]; exact seq (buildKeyword hw) fun _ => pure id
  rw [if_neg (by simp)]
  refine seq (strLower hd) fun s => ite (pure id) (wordSeq hk (fun hw => ?_) fun _ => ?_)
  · rw [if_pos rfl]; exact seq (buildKeyword hw) fun _ => pure id
  rw [if_neg (by simp)]
  refine wordSeq hk (fun hw => ?_) fun _ => ?_
  · rw [if_pos rfl]; exact seq (buildKeyword hw) fun _ => pure id
  rw [if_neg (by simp)]
  exact pure id

theorem doubleDelimEats {a b : Char} : Eats src n (Hdx.doubleDelim a b) := by
  cases n with
  | zero => exact zero
  | succ n =>
    unfold Hdx.doubleDelim
    refine eat (tokKind (by decide)) fun c => ite fail (skipTok (g := fun c => c.token.isKind .delim) (.lit (by decide)) (fun c' _ => ?_) fun d => err)
    show Fine src n (if !c'.token.isChar b then Prog.fail .other c' else Pure.pure (c, c'))
    exact ite fail (pure id)

/-- Something that eats, then a result. -/
theorem map {x : Prog α} {f : α → β} (h : Eats src n x) : Eats src n (x >>= fun a => Pure.pure (f a)) := by
  cases n with
  | zero => exact zero
  | succ n => exact eat h fun _ => pure id

theorem combinator : Eats src n combinator := by
  unfold Hdx.combinator
  refine seq peek fun c => ite (map tokDelim) (ite (map tokDelim) (ite (map tokDelim) (ite (map tokDelim) (seq isDoubleDelim fun _ =>
    ite (map doubleDelimEats) (map whitespace)))))

theorem adjacentPipe : Fine src n adjacentPipe := by
  unfold Hdx.adjacentPipe
  exact setSkip (.lit (by decide)) fun o ho => seq tokDelim.result.fine fun _ => setSkip ho fun _ _ => ofResult
theorem namespacePrefix : Eats src n namespacePrefix := by
  cases n with
  | zero => exact zero
  | succ n =>
    unfold Hdx.namespacePrefix
    exact seq peek fun c => ite (map tokDelim) (ite (eat tokDelim fun _ => seq adjacentPipe fun _ => pure id)
      (eat (tokKind (by decide)) fun _ => seq adjacentPipe fun _ => pure id))
theorem namespaceTag : Eats src n namespaceTag := by
  cases n with
  | zero => exact zero
  | succ n =>
    unfold Hdx.namespaceTag
    refine tokSeq (g := fun c => (c.token.isKind .delim && c.token.isChar '*') || c.token.isKind .ident) (fun c h => ?_) fun c h hk => ?_
    · rcases Bool.or_eq_true _ _ ▸ h with h | h
      · exact isKind_notEof (by decide) (Bool.and_eq_true _ _ ▸ h).1
      · exact isKind_notEof (by decide) h
    · split
      · exact pure id
      · rename_i hn
        rcases Bool.or_eq_true _ _ ▸ h with h | h
        · exact absurd h hn
        · exact seq (buildTag hk h) fun _ => pure id
theorem namespaceSelector : Eats src n namespaceSelector := by
  cases n with
  | zero => exact zero
  | succ n =>
    unfold Hdx.namespaceSelector
    refine seq peek fun c => seq isDoubleDelim fun _ => ite (eat namespacePrefix fun _ => seq namespaceTag.fine fun _ => pure id)
      (ite (eat namespacePrefix fun _ => seq namespaceTag.fine fun _ => pure id) (eat (tokKind (by decide)) fun i => setSkip (.lit (by decide)) fun o ho => ?_))
    refine seq peek fun c => seq isDoubleDelim fun _ => ite ?_ (seq namespaceTag.fine fun _ => pure id)
    exact seq tokDelim.result.fine fun _ => seq namespaceTag.result.fine fun _ => setSkip ho fun _ _ => seq ofResult fun _ => seq ofResult fun _ => pure id

theorem isAttributeOperator {c : Cursor} : Fine src n (isAttributeOperator c) := by
  unfold Hdx.isAttributeOperator
  exact ite (pure id) (seq isDoubleDelim fun _ => ite (pure id) (seq isDoubleDelim fun _ => ite (pure id) (seq isDoubleDelim fun _ => ite (pure id)
    (seq isDoubleDelim fun _ => ite (pure id) isDoubleDelim))))
theorem attributeOperator : Fine src n attributeOperator := by
  unfold Hdx.attributeOperator
  have hd {a b : Char} {f : Cursor × Cursor → AttributeOperator} : Fine src n (Hdx.doubleDelim a b >>= fun x => Pure.pure (f x)) := seq doubleDelim fun _ => pure id
  exact seq peekN fun c => ite (seq tokDelim.fine fun _ => pure id) (seq isDoubleDelim fun _ => ite hd (seq isDoubleDelim fun _ => ite hd (seq isDoubleDelim fun _ => ite hd
    (seq isDoubleDelim fun _ => ite hd hd))))
theorem isAttributeModifier {c : Cursor} (hk : Known src c) : Fine src n (isAttributeModifier c) := by
  unfold Hdx.isAttributeModifier
  split
  · rename_i hi
    exact seq (str (hk (.inl (kind_of_isKind (by decide) hi)))) fun _ => pure id
  · exact pure id

/-- Is the cursor a modifier of an attribute? -/
def modifierIn (src : List Char) (c : Cursor) : Bool :=
  c.token.isKind .ident && match c.parseStr src with | .ok s => s == ['i'] || s == ['s'] || s == ['I'] || s == ['S'] | .error _ => false

theorem gives_modifierIn {p : Parser} {cs : List Cursor} {c : Cursor} (hl : Left src p cs) (hk : Known src c) :
    Gives (Hdx.isAttributeModifier c) p (.ok (modifierIn src.chars c)) p [] := by
  unfold Hdx.isAttributeModifier modifierIn
  cases hi : c.token.isKind .ident with
  | false => rw [if_neg (by simp)]; exact gives_pure.mpr ⟨rfl, rfl, rfl⟩
  | true =>
    rw [if_pos rfl]
    obtain ⟨s, hs⟩ := (hk (.inl (kind_of_isKind (by decide) hi))).1
    have h1 : Gives (Prog.str c) p (.ok s) p [] := gives_ask.mpr ⟨s, by rw [hl.source]; exact hs, rfl, rfl, rfl⟩
    have := gives_seq h1 (f := fun s => (Pure.pure (s == ['i'] || s == ['s'] || s == ['I'] || s == ['S']) : Prog Bool)) (gives_pure.mpr ⟨rfl, rfl, rfl⟩)
    simpa [hs] using this

theorem attributeModifier : Fine src n attributeModifier := by
  cases n with
  | zero => exact zero
  | succ n =>
    unfold Hdx.attributeModifier
    refine tokBySeq (g := modifierIn src.chars) (fun p cs c hl hk => gives_modifierIn hl hk) (fun c h => ?_) fun c h hk => ?_
    · simp only [modifierIn, Bool.and_eq_true] at h
      exact isKind_notEof (by decide) h.1
    · simp only [modifierIn, Bool.and_eq_true] at h
      exact seq (str (hk (.inl (kind_of_isKind (by decide) h.1)))) fun _ => pure id

theorem attributeRest {o : Cursor} {pre : Option NamespacePrefix} {name : Cursor} : Fine src n (attributeRest o pre name) := by
  unfold Hdx.attributeRest
  refine seq (ifPeek (fun _ _ => isAttributeOperator) attributeOperator).fine fun op => ?_
  split
  · exact seq (kindOpt (by decide)).fine fun _ => pure id
  · refine seq (tok (g := fun c => c.token.isKind .ident || c.token.isKind .string) fun c h => ?_).fine fun v =>
      seq (ifPeek (fun c hk => isAttributeModifier hk) attributeModifier).fine fun _ => seq (kindOpt (by decide)).fine fun _ => pure id
    rcases Bool.or_eq_true _ _ ▸ h with h | h <;> exact isKind_notEof (by decide) h

theorem attributeName {o name : Cursor} : Fine src n (attributeName o name) := by
  unfold Hdx.attributeName
  refine setSkip (.lit (by decide)) fun s hs => seq peek fun c => seq isDoubleDelim fun _ => ite ?_ (setSkip hs fun _ _ => attributeRest)
  exact seq tokDelim.result.fine fun _ => seq (tokKind (by decide)).result.fine fun _ => setSkip hs fun _ _ => seq ofResult fun _ => seq ofResult fun _ =>
    setSkip hs fun _ _ => attributeRest

theorem attributeSelector : Eats src n attributeSelector := by
  cases n with
  | zero => exact zero
  | succ n =>
    unfold Hdx.attributeSelector
    refine eat (tokKind (by decide)) fun o => seq peek fun c => seq isDoubleDelim fun _ => ite ?_ (seq (tokKind (by decide)).fine fun _ => attributeName)
    exact seq namespacePrefix.fine fun _ => seq (tokKind (by decide)).fine fun _ => setSkip (.lit (by decide)) fun s hs => setSkip hs fun _ _ => attributeRest

theorem colonColon : Eats src n colonColon := by
  cases n with
  | zero => exact zero
  | succ n =>
    unfold Hdx.colonColon
    exact eat (tokKind (by decide)) fun _ => setSkip (.lit (by decide)) fun s hs => seq (tokKind (by decide)).result.fine fun _ => setSkip hs fun _ _ => seq ofResult fun _ => pure id

theorem adjacentName {names : List (List Char)} : Fine src n (adjacentName names) := by
  unfold Hdx.adjacentName
  refine skipTok' (g := fun c => c.token.isKind .ident) (.lit (by decide)) (fun c hc hk => ?_) fun d => err
  have hd := hk (.inl (kind_of_isKind (by decide) hc))
  show Fine src n (Prog.strLower c >>= fun s => if names.contains s = true then Pure.pure (s, c) else Prog.str c >>= fun _ => Prog.fail .unexpectedIdent c)
  exact seq (strLower hd) fun _ => ite (pure id) (seq (str hd) fun _ => fail)

theorem pseudoClassOf {names : List (List Char)} : Eats src n (pseudoClassOf names) := by
  cases n with
  | zero => exact zero
  | succ n => exact eat (tokKind (by decide)) fun _ => seq adjacentName fun _ => pure id
theorem pseudoElementOf {names : List (List Char)} : Eats src n (pseudoElementOf names) := by
  cases n with
  | zero => exact zero
  | succ n => exact eat colonColon fun _ => seq adjacentName fun _ => pure id
theorem isPseudoClassOf {names : List (List Char)} {c : Cursor} : Fine src n (isPseudoClassOf names c) := by
  unfold Hdx.isPseudoClassOf
  refine peekNSeq fun c2 hk => ?_
  split
  · rename_i h
    exact seq (strLower (hk (.inl (kind_of_isKind (by decide) (Bool.and_eq_true _ _ ▸ h).2)))) fun _ => pure id
  · exact pure id

theorem tryVendors {f : Vendor → Prog α} {o : Prog (Vendor × α)} (hf : ∀ v, Eats src n (f v)) (ho : Eats src n o) (vs : List Vendor) :
    Eats src n (Hdx.tryVendors f o vs) := by
  induction vs with
  | nil => exact ho
  | cons v vs ih =>
    cases n with
    | zero => exact zero
    | succ n =>
      unfold Hdx.tryVendors
      refine bind (hf v).tryParse.result ?_ ?_
      · rintro r ⟨a, rfl, _⟩; exact pure id
      · rintro (d | a) h
        · exact ih
        · exact absurd ⟨a, rfl, trivial⟩ h
theorem failReading {c : Cursor} (hd : Decodable c src.chars) : EatsIf src n P (failReading c : Prog α) := seq (str hd) fun _ => fail

theorem pseudoElementParts : EatsIf src n (fun a => ∃ c m, a = (.ok c, .ok m)) pseudoElementParts := by
  cases n with
  | zero => exact zero
  | succ n =>
    unfold Hdx.pseudoElementParts
    refine setSkip (.lit (by decide)) fun s hs => bind colonColon.result ?_ ?_
    · rintro r ⟨a, rfl, _⟩
      exact seq keyword.result.fine fun _ => setSkip hs fun _ _ => pure id
    · rintro (d | a) h
      · refine seq keyword.result.fine fun _ => setSkip hs fun _ _ => pure ?_
        rintro ⟨c, m, e⟩; cases e
      · exact absurd ⟨a, rfl, trivial⟩ h

theorem langValue : Eats src n langValue := by
  cases n with
  | zero => exact zero
  | succ n =>
    unfold Hdx.langValue
    exact seq peek fun c => ite (eat (tokKind (by decide)) fun _ => seq (kindOpt (by decide)).fine fun _ => pure id)
      (eat (tokKind (by decide)) fun _ => seq (kindOpt (by decide)).fine fun _ => pure id)
theorem langValues : ∀ n acc, Fine src n (langValues n acc)
  | 0, _ => zero
  | n + 1, acc => by
    unfold Hdx.langValues
    exact eat langValue fun _ => seq peek fun c => ite (pure id) (langValues n _)
theorem partLoop : ∀ n acc, Fine src n (partLoop n acc)
  | 0, _ => zero
  | n + 1, acc => by
    unfold Hdx.partLoop
    exact seq peek fun c => ite (pure id) (eat (tokKind (by decide)) fun _ => partLoop n _)
theorem classSelector : Eats src n classSelector := by
  cases n with
  | zero => exact zero
  | succ n => exact eat tokDelim fun _ => seq (tokKind (by decide)).fine fun _ => pure id
theorem optionalClose : Fine src n optionalClose := (kindOpt (by decide)).fine

/-- Is the cursor one of the functions? -/
def functionIn (src : List Char) (names : List (List Char)) (c : Cursor) : Bool :=
  c.token.isKind .function && match c.parseStrLower src with | .ok s => names.contains s | .error _ => false

theorem gives_functionIn {names : List (List Char)} {p : Parser} {cs : List Cursor} {c : Cursor} (hl : Left src p cs) (hk : Known src c) :
    Gives (isFunctionOf names c) p (.ok (functionIn src.chars names c)) p [] := by
  unfold isFunctionOf functionIn
  cases hi : c.token.isKind .function with
  | false => rw [if_neg (by simp)]; exact gives_pure.mpr ⟨rfl, rfl, rfl⟩
  | true =>
    rw [if_pos rfl]
    obtain ⟨s, hs⟩ := (hk (.inr (.inl (kind_of_isKind (by decide) hi)))).2.1
    have h1 : Gives (Prog.strLower c) p (.ok s) p [] := gives_ask.mpr ⟨s, by rw [hl.source]; exact hs, rfl, rfl, rfl⟩
    have := gives_seq h1 (f := fun s => (Pure.pure (names.contains s) : Prog Bool)) (gives_pure.mpr ⟨rfl, rfl, rfl⟩)
    simpa [hs] using this

theorem functionOf {names : List (List Char)} : Eats src n (functionOf names) := by
  cases n with
  | zero => exact zero
  | succ n =>
    unfold Hdx.functionOf
    refine tokBySeq (g := functionIn src.chars names) (fun p cs c hl hk => gives_functionIn hl hk) (fun c h => ?_) fun c hc _ => ?_
    · simp only [functionIn, Bool.and_eq_true] at h
      exact isKind_notEof (by decide) h.1
    · intro p cs hl _
      simp only [functionIn, Bool.and_eq_true] at hc
      obtain ⟨_, h⟩ := hc
      split at h
      · rename_i s hs
        exact ⟨_, p, [], cs, gives_buildKeyword.mpr ⟨rfl, rfl, s, by rw [hl.source]; exact hs, h, rfl⟩, hl, List.suffix_rfl, fun _ _ h => h.elim⟩
      · cases h

end EatsIf


/-! ### What depends on what was seen before -/

theorem rewound_lexer {α : Type} {body : Prog α} {p p1 : Parser} {r : Except Diag α} {w : List Cursor} (h : Gives body p r p1 w) :
    (p1.rewind p.checkpoint).lexer = p.lexer := by
  obtain ⟨s1, s2⟩ := runLog_source body h
  obtain ⟨⟨a, b, c, d⟩, _⟩ := p
  simp only at s1 s2
  simp [Parser.rewind, Lexer.rewind, Parser.checkpoint, Lexer.checkpoint, s1, s2]

theorem peekN_same {p q : Parser} (hl : q.lexer = p.lexer) (hs : q.skip = p.skip) (n : Nat) : q.peekN n = p.peekN n := by
  unfold Parser.peekN; rw [hl, hs]

/-- Going back after `body`. -/
theorem Left.rewound {α : Type} {body : Prog α} {src : Text} {p p1 : Parser} {cs cs1 : List Cursor} {r : Except Diag α} {w : List Cursor} (hl : Left src p cs)
    (h : Gives body p r p1 w) (h1 : Left src p1 cs1) : Left src (p1.rewind p.checkpoint) cs :=
  ⟨h1.source, by rw [rewound_lexer h]; exact hl.stream, h1.skip, hl.names⟩

/-- The second token, known from one skip set, seen with another. -/
theorem peekN_two_skip {src : Text} {p : Parser} {cs : List Cursor} {s s' : KindSet} {c1 c2 : Cursor} (hl : Left src p cs) (he : SkipIn src s)
    (hss : ∀ t : Token, t.inSet s = true → t.inSet s' = true)
    (h1 : ({ p with skip := s } : Parser).peekN 1 = .ok c1) (h2 : ({ p with skip := s } : Parser).peekN 2 = .ok c2) (k1 : c1.token.inSet s' = false)
    (k2 : c2.token.inSet s' = false) : ({ p with skip := s' } : Parser).peekN 1 = .ok c1 ∧ ({ p with skip := s' } : Parser).peekN 2 = .ok c2 := by
  obtain ⟨q1, n1⟩ := next_of_peekN1 h1
  obtain ⟨c', q', cs', g1, g2, _⟩ := (hl.skipping he).next
  rw [g1] at n1; cases n1
  obtain ⟨c'', q'', cs'', j1, _⟩ := g2.next
  have := peekN_two g1 j1
  rw [h2] at this; cases this
  have hq : q1.skip = s := modes_skip (next_modes g1)
  have e1 := next_skip (s' := s') hss g1 k1
  have e2 := next_skip (s' := s') (by rw [hq]; exact hss) j1 k2
  refine ⟨?_, peekN_two e1 e2⟩
  have := Parser.C32_peek_n 1 ({ p with skip := s' } : Parser) (by decide)
  simp only [Parser.nextN] at this
  have e1' : ({ p with skip := s' } : Parser).next = .ok (c1, { q1 with skip := s' }) := e1
  rw [e1'] at this
  simp only [Except.map] at this
  cases hp : ({ p with skip := s' } : Parser).peekN 1 with
  | error e => rw [hp] at this; cases this
  | ok d => rw [hp] at this; simp at this; rw [this]

section
variable {src : Text} {n : Nat}

theorem pseudoClass_goes {p : Parser} {cs : List Cursor} {c2 : Cursor} (hl : Left src p cs) (hn : cs.length < n) (h2 : p.peekN 2 = .ok c2)
    (hk : c2.token.isKind .ident = true) : Goes src p cs (fun _ => True) pseudoClass := by
  have hk2 : Known src c2 := by
    obtain ⟨c, a, b⟩ := hl.peekN 1
    rw [h2] at a; cases a; exact b
  have hd := hk2 (.inl (kind_of_isKind (by decide) hk))
  unfold pseudoClass
  obtain ⟨r, p1, w1, cs1, g1, g2, g3, g4⟩ := EatsIf.pseudoClassOf (names := PSEUDO_CLASSES) hl hn
  cases r with
  | ok a =>
    exact ⟨_, p1, _, cs1, gives_attempt.mpr ⟨_, p1, w1, [], g1, .inl ⟨rfl, rfl, gives_pure.mpr ⟨rfl, rfl, rfl⟩⟩⟩, g2, g3, fun _ _ _ => g4 _ rfl trivial⟩
  | error d =>
    have hl' := hl.rewound g1 g2
    have hp2 : (p1.rewind p.checkpoint).peekN 2 = .ok c2 := by
      rw [peekN_same (rewound_lexer g1) (show p1.skip = p.skip from modes_skip (pseudoClassOf_modes _ g1))]; exact h2
    have hx : EatsIf src n (fun _ => True) (tryVendors (fun v => pseudoClassOf (pseudoClassNames v)) (failReading c2) [.webkit, .moz, .ms, .o]) :=
      EatsIf.tryVendors (fun _ => EatsIf.pseudoClassOf) (EatsIf.failReading hd) _
    obtain ⟨r, p', w, cs', j1, j2, j3, j4⟩ := Goes.peekN hp2 (f := fun c => tryVendors (fun v => pseudoClassOf (pseudoClassNames v)) (failReading c) [.webkit, .moz, .ms, .o])
      (hx hl' hn)
    exact ⟨r, p', _, cs', gives_attempt.mpr ⟨_, p1, w1, w, g1, .inr ⟨rfl, rfl, j1⟩⟩, j2, j3, j4⟩

theorem pseudoElementParts_colons {p p' : Parser} {c : Cursor × Cursor} {r : Except Diag (List Char × Cursor)} {w : List Cursor}
    (h : Gives pseudoElementParts p (.ok (.ok c, r)) p' w) : ∃ q1 q2, ({ p with skip := KindSet.NONE } : Parser).next = .ok (c.1, q1) ∧ q1.next = .ok (c.2, q2)
      ∧ c.1.token.isKind .colon = true ∧ c.2.token.isKind .colon = true := by
  unfold pseudoElementParts at h
  obtain ⟨r1, p1, w1, w2, h1, h2, _⟩ := gives_bind_ok.mp (gives_setSkip.mp h)
  obtain ⟨r2, p2, w3, w4, h3, h4, _⟩ := gives_bind_ok.mp h2
  have h4 := gives_setSkip.mp h4
  obtain ⟨e, _⟩ := gives_pure.mp h4
  simp only [Except.ok.injEq, Prod.mk.injEq] at e
  obtain ⟨rfl, rfl⟩ := e
  obtain ⟨r3, h5, e⟩ := gives_result.mp h1
  cases e
  unfold colonColon at h5
  obtain ⟨a, p3, w5, w6, h6, h7, _⟩ := gives_bind_ok.mp h5
  obtain ⟨b1, b2, b3⟩ := gives_isKind_ok.mp h6
  obtain ⟨r4, p4, w7, w8, h8, h9, _⟩ := gives_bind_ok.mp (gives_setSkip.mp h7)
  obtain ⟨a2, p5, w9, w10, h10, h11, _⟩ := gives_bind_ok.mp (gives_setSkip.mp h9)
  obtain ⟨e1, rfl, _⟩ := gives_ofResult.mp h10
  obtain ⟨e2, _⟩ := gives_pure.mp h11
  obtain ⟨r5, h12, e3⟩ := gives_result.mp h8
  cases e2
  simp only [Except.ok.injEq] at e3
  rw [← e3, ← e1] at h12
  obtain ⟨d1, d2, d3⟩ := gives_isKind_ok.mp h12
  have hs : p3.skip = KindSet.NONE := modes_skip (next_modes b1)
  have : ({ p3 with skip := KindSet.NONE } : Parser) = p3 := by rw [← hs]
  rw [this] at d1
  exact ⟨_, _, b1, d1, b3, d3⟩

theorem pseudoElement_goes {p : Parser} {cs : List Cursor} (hl : Left src p cs) (hp : p.skip = KindSet.TRIVIA) (hn : cs.length < n) :
    Goes src p cs (fun _ => True) pseudoElement := by
  unfold pseudoElement
  obtain ⟨r, p1, w1, cs1, g1, g2, g3, g4⟩ := EatsIf.pseudoElementParts hl hn
  match r, g1, g4 with
  | .error d, g1, g4 =>
    exact ⟨.error d, p1, _, cs1, gives_attempt.mpr ⟨_, p1, w1, [], g1, .inl ⟨rfl, rfl, gives_bind.mpr (.inr ⟨d, gives_ofResult.mpr ⟨rfl, rfl, rfl⟩, rfl⟩)⟩⟩, g2, g3, fun a h => by cases h⟩
  | .ok (.error d, x), g1, g4 =>
    refine ⟨.error d, p1, _, cs1, gives_attempt.mpr ⟨_, p1, w1, [], g1, .inl ⟨rfl, rfl, ?_⟩⟩, g2, g3, fun a h => by cases h⟩
    exact gives_bind.mpr (.inl ⟨_, p1, [], [], gives_ofResult.mpr ⟨rfl, rfl, rfl⟩, gives_bind.mpr (.inr ⟨d, gives_ofResult.mpr ⟨rfl, rfl, rfl⟩, rfl⟩), rfl⟩)
  | .ok (.ok c, .ok m), g1, g4 =>
    exact ⟨_, p1, _, cs1, gives_attempt.mpr ⟨_, p1, w1, [], g1, .inl ⟨rfl, rfl, gives_pure.mpr ⟨rfl, rfl, rfl⟩⟩⟩, g2, g3, fun _ _ _ => g4 _ rfl ⟨_, _, rfl⟩⟩
  | .ok (.ok c, .error d), g1, g4 =>
    have hl' := hl.rewound g1 g2
    obtain ⟨q1, q2, m1, m2, k1, k2⟩ := pseudoElementParts_colons g1
    have hs1 : q1.skip = KindSet.NONE := modes_skip (next_modes m1)
    have e1 := next_skip (s' := KindSet.TRIVIA) (fun t ht => by rw [inSet_none] at ht; cases ht) m1 (by rw [inSet_of_kind (by decide) k1]; decide)
    have e2 := next_skip (s' := KindSet.TRIVIA) (fun t ht => by rw [hs1, inSet_none] at ht; cases ht) m2 (by rw [inSet_of_kind (by decide) k2]; decide)
    have hpp : ({ p with skip := KindSet.TRIVIA } : Parser) = p := by rw [← hp]
    rw [hpp] at e1
    have h2 := peekN_two e1 e2
    have hk2 : Known src c.2 := by
      obtain ⟨c, a, b⟩ := hl.peekN 1
      rw [h2] at a; cases a; exact b
    have hd := hk2 (by simp [kind_of_isKind (by decide) k2])
    have hp2 : (p1.rewind p.checkpoint).peekN 2 = .ok c.2 := by
      rw [peekN_same (rewound_lexer g1) (show p1.skip = p.skip from modes_skip (pseudoElementParts_modes g1))]; exact h2
    have hx : EatsIf src n (fun _ => True) (tryVendors (fun v => pseudoElementOf (pseudoElementNames v)) (failReading c.2) [.webkit, .moz, .ms, .o]) :=
      EatsIf.tryVendors (fun _ => EatsIf.pseudoElementOf) (EatsIf.failReading hd) _
    obtain ⟨r, p', w, cs', j1, j2, j3, j4⟩ := Goes.peekN hp2 (f := fun c => tryVendors (fun v => pseudoElementOf (pseudoElementNames v)) (failReading c) [.webkit, .moz, .ms, .o])
      (hx hl' hn)
    exact ⟨r, p', _, cs', gives_attempt.mpr ⟨_, p1, w1, w, g1, .inr ⟨rfl, rfl, j1⟩⟩, j2, j3, j4⟩

theorem consumeTriviaLoop_stream {skip : KindSet} {l : Lexer} {cs : List Cursor} (h : Stream l cs) (tr : List Cursor) :
    ∃ l' tr' cs', Parser.consumeTriviaLoop skip l tr = .ok (l', tr') ∧ Stream l' cs' ∧ cs' <:+ cs ∧ l'.source = l.source := by
  induction h generalizing tr with
  | @nil l h =>
    have ha := Stream.advance_nil h
    refine ⟨{ source := l.source, offset := l.offset, token := Token.EOF, features := l.features }, tr, [], ?_, .nil h, List.suffix_rfl, rfl⟩
    rw [Parser.consumeTriviaLoop.eq_def]
    split
    · rename_i e he; rw [ha] at he; cases he
    · rename_i t l' he; rw [ha] at he; cases he
      rw [if_pos eof_isKind]
  | @cons l l' t cs ha hk hz h ih =>
    rw [Parser.consumeTriviaLoop.eq_def]
    split
    · rename_i e he; rw [ha] at he; cases he
    · rename_i t2 l2 he; rw [ha] at he; cases he
      rw [if_neg (by simp [hk])]
      have hke := advance_keeps ha
      split
      · obtain ⟨l2, tr2, cs2, g1, g2, g3, g4⟩ := ih (tr ++ [⟨l.offset, t⟩])
        exact ⟨l2, tr2, cs2, g1, g2, g3.trans (List.suffix_cons _ _), g4.trans hke.1⟩
      · refine ⟨_, tr, _, rfl, ?_, List.suffix_rfl, hke.1⟩
        exact (Stream.cons ha hk hz h).congr hke.1 hke.2.1 rfl

theorem Left.trivia {p : Parser} {cs : List Cursor} (h : Left src p cs) : ∃ q cs', p.consumeTrivia = .ok q ∧ Left src q cs' ∧ cs' <:+ cs ∧ modes q = modes p := by
  obtain ⟨l', tr', cs', g1, g2, g3, g4⟩ := consumeTriviaLoop_stream (skip := p.skip) h.stream p.trivia
  refine ⟨{ p with lexer := l', trivia := tr' }, cs', ?_, ⟨g4.trans h.source, g2, h.skip, fun c hc => h.names c (g3.subset hc)⟩, g3, rfl⟩
  unfold Parser.consumeTrivia
  rw [g1]; rfl

namespace Goes
variable {α β : Type} {p : Parser} {cs : List Cursor} {P : α → Prop} {Q : β → Prop}

theorem consumeTrivia {x : Prog α} (hl : Left src p cs) (h : ∀ q cs', Left src q cs' → cs' <:+ cs → modes q = modes p → Goes src q cs' P x) :
    Goes src p cs P (Prog.consumeTrivia x) := by
  obtain ⟨q, cs1, g1, g2, g3, g4⟩ := hl.trivia
  obtain ⟨r, p', w, cs', j1, j2, j3, j4⟩ := h q cs1 g2 g3 g4
  have := g3.length_le
  refine ⟨r, p', w, cs', ?_, j2, j3.trans g3, fun a ha hP => Nat.lt_of_lt_of_le (j4 a ha hP) this⟩
  simp only [Gives, runLog, g1]
  exact j1

theorem tokKind {k : Kind} (hk : k ≠ .eof) {f : Cursor → Prog β} (hl : Left src p cs)
    (h : ∀ c q cs1, p.next = .ok (c, q) → c.token.isKind k = true → Known src c → Left src q cs1 → cs1 <:+ cs → cs1.length < cs.length →
      Goes src q cs1 (fun _ => False) (f c)) : Goes src p cs Q (Prog.tok (Prog.isKind k) >>= f) := by
  obtain ⟨c, p', cs', h1, h2, h3, _, h4, h5⟩ := hl.next
  cases hc : c.token.isKind k with
  | false =>
    refine ⟨_, p', [c], cs', gives_bind.mpr (.inr ⟨⟨.unexpected, c.span⟩, gives_tok.mpr ⟨c, h1, rfl, ?_⟩, rfl⟩), h2, h3, fun a ha _ => by cases ha⟩
    rw [if_neg (by simp [hc])]
  | true =>
    have hlt := (h4 (by simpa [notEof] using isKind_notEof hk hc)).1
    obtain ⟨r, p2, w, cs2, j1, j2, j3, _⟩ := h c p' cs' h1 hc h5 h2 h3 hlt
    have := j3.length_le
    refine ⟨r, p2, _, cs2, gives_bind.mpr (.inl ⟨c, p', [c], w, gives_tok.mpr ⟨c, h1, rfl, ?_⟩, j1, rfl⟩), j2, j3.trans h3, fun a ha hQ => by omega⟩
    rw [if_pos hc]

theorem ite {b : Prop} [Decidable b] {x y : Prog α} (hx : b → Goes src p cs P x) (hy : ¬ b → Goes src p cs P y) : Goes src p cs P (if b then x else y) := by
  split
  · exact hx ‹_›
  · exact hy ‹_›
end Goes

/-- What returns from a parser that skips trivia. -/
def EatsT {α : Type} (src : Text) (n : Nat) (P : α → Prop) (x : Prog α) : Prop :=
  ∀ ⦃p : Parser⦄ ⦃cs : List Cursor⦄, Left src p cs → p.skip = KindSet.TRIVIA → cs.length < n → Goes src p cs P x

theorem trivia_eof : KindSet.TRIVIA.contains .eof = false := by decide

theorem close_goes {α : Type} {p : Parser} {cs : List Cursor} (hl : Left src p cs) (hn : cs.length < n) {f : Option Cursor → α} :
    Goes src p cs (fun _ => False) (optionalClose >>= fun o => Pure.pure (f o)) := EatsIf.seq (n := n) EatsIf.optionalClose (fun _ => EatsIf.pure id) hl hn

theorem functionalPseudoElement_goes {compound : Prog (List Sel)} (hc : EatsT src n (fun _ => False) compound) :
    EatsT src (n + 1) (fun _ => True) (functionalPseudoElement compound n) := by
  intro p cs hl hp hn
  unfold functionalPseudoElement
  refine Goes.eat (EatsIf.colonColon hl hn) fun cc p1 w1 cs1 g1 l1 s1 lt1 => ?_
  have m1 := colonColon_modes g1
  refine Goes.tokKind (by decide) l1 fun c q cs2 hq hk kn l2 s2 lt2 => ?_
  have m2 := next_modes hq
  have hn2 : cs2.length < n := by omega
  refine Goes.seq (EatsIf.strLower (n := n) (kn (.inr (.inl (kind_of_isKind (by decide) hk)))) l2 hn2) fun name p3 w3 cs3 g3 l3 s3 => ?_
  have m3 := strLower_modes c g3
  have hn3 : cs3.length < n := Nat.lt_of_le_of_lt s3.length_le hn2
  refine Goes.ite (fun _ => ?_) fun _ => Goes.ite (fun _ => ?_) fun _ => Goes.ite (fun _ => ?_) fun _ => Goes.fail l3
  · refine Goes.tokKind (by decide) l3 fun c q cs2 hq hk kn l2 s2 lt2 => close_goes (n := n) l2 (by omega)
  · refine Goes.seq (EatsIf.partLoop n [] l3 hn3) fun v p4 w4 cs4 g4 l4 s4 => close_goes (n := n) l4 (Nat.lt_of_le_of_lt s4.length_le hn3)
  · refine Goes.seq (hc l3 ((modes_skip (m3.trans (m2.trans m1))).trans hp) hn3) fun v p4 w4 cs4 g4 l4 s4 => close_goes (n := n) l4 (Nat.lt_of_le_of_lt s4.length_le hn3)

theorem functionalPseudoClassValue_goes {list : Prog (List (List Sel × Option Cursor))} (hc : EatsT src n (fun _ => False) list) (colon : Cursor) (name : List Char)
    (function : Cursor) : EatsT src n (fun _ => False) (functionalPseudoClassValue list n colon name function) := by
  intro p cs hl hp hn
  unfold functionalPseudoClassValue
  refine Goes.ite (fun _ => ?_) fun _ => Goes.ite (fun _ => ?_) fun _ => Goes.ite (fun _ => ?_) fun _ => Goes.ite (fun _ => ?_) fun _ => ?_
  · refine Goes.seq (EatsIf.keyword.fine hl hn) fun v p4 w4 cs4 g4 l4 s4 => close_goes (n := n) l4 (Nat.lt_of_le_of_lt s4.length_le hn)
  · refine Goes.tokKind (by decide) hl fun c q cs2 hq hk kn l2 s2 lt2 => close_goes (n := n) l2 (by omega)
  · refine Goes.seq (EatsIf.langValues n [] hl hn) fun v p4 w4 cs4 g4 l4 s4 => close_goes (n := n) l4 (Nat.lt_of_le_of_lt s4.length_le hn)
  · refine Goes.seq (hc hl hp hn) fun v p4 w4 cs4 g4 l4 s4 => close_goes (n := n) l4 (Nat.lt_of_le_of_lt s4.length_le hn)
  · refine Goes.seq (EatsIf.nth hl hn) fun v p4 w4 cs4 g4 l4 s4 => close_goes (n := n) l4 (Nat.lt_of_le_of_lt s4.length_le hn)

theorem functionalPseudoClass_goes {list : Prog (List (List Sel × Option Cursor))} (hc : EatsT src n (fun _ => False) list) :
    EatsT src (n + 1) (fun _ => True) (functionalPseudoClass list n) := by
  intro p cs hl hp hn
  unfold functionalPseudoClass
  refine Goes.setSkip ?_
  have l0 : Left src { p with skip := KindSet.NONE } cs := hl.skipping (.lit (by decide))
  obtain ⟨r, p1, w1, cs1, g1, l1, s1, lt1⟩ := EatsIf.tokKind (src := src) (n := n + 1) (k := .colon) (by decide) l0 hn
  have hr : Gives (result (tok (isKind .colon))) { p with skip := KindSet.NONE } (.ok r) p1 w1 := gives_result.mpr ⟨r, g1, rfl⟩
  have len1 := s1.length_le
  obtain ⟨r2, p2, w2, cs2, g2, l2, s2, lt2⟩ := EatsIf.functionOf (src := src) (n := n + 1) (names := FUNCTIONAL_PSEUDO_CLASSES) l1 (by omega)
  have hr2 : Gives (result (functionOf FUNCTIONAL_PSEUDO_CLASSES)) p1 (.ok r2) p2 w2 := gives_result.mpr ⟨r2, g2, rfl⟩
  have len2 := s2.length_le
  have l3 : Left src { p2 with skip := p.skip } cs2 := l2.skipping hl.skip
  have fin : Goes src { p2 with skip := p.skip } cs2 (fun _ : Sel => cs2.length = cs.length) (ofResult r >>= fun colon => ofResult r2 >>= fun name =>
      functionalPseudoClassValue list n colon name.1 name.2) := by
    cases r with
    | error d => exact ⟨.error d, _, [], cs2, gives_bind.mpr (.inr ⟨d, gives_ofResult.mpr ⟨rfl, rfl, rfl⟩, rfl⟩), l3, List.suffix_rfl, fun a h => by cases h⟩
    | ok colon =>
      have hlt := lt1 _ rfl trivial
      cases r2 with
      | error d =>
        refine ⟨.error d, _, [], cs2, gives_bind.mpr (.inl ⟨_, _, [], [], gives_ofResult.mpr ⟨rfl, rfl, rfl⟩, gives_bind.mpr (.inr ⟨d, gives_ofResult.mpr ⟨rfl, rfl, rfl⟩, rfl⟩), rfl⟩),
          l3, List.suffix_rfl, fun a h => by cases h⟩
      | ok name =>
        obtain ⟨r3, p3, w3, cs3, g3, l4, s4, _⟩ := functionalPseudoClassValue_goes hc colon name.1 name.2 l3 hp (by omega)
        refine ⟨r3, p3, _, cs3, gives_bind.mpr (.inl ⟨_, _, [], _, gives_ofResult.mpr ⟨rfl, rfl, rfl⟩, gives_bind.mpr (.inl ⟨_, _, [], _, gives_ofResult.mpr ⟨rfl, rfl, rfl⟩, g3, rfl⟩), rfl⟩),
          l4, s4, fun a _ h => by omega⟩
  obtain ⟨r3, p3, w3, cs3, g3, l4, s4, lt4⟩ := fin
  have len3 := s4.length_le
  refine ⟨r3, p3, _, cs3, gives_bind.mpr (.inl ⟨_, _, _, _, hr, gives_bind.mpr (.inl ⟨_, _, _, _, hr2, gives_setSkip.mpr g3, rfl⟩), rfl⟩), l4, s4.trans (s2.trans s1), fun a ha _ => ?_⟩
  by_cases h : cs2.length = cs.length
  · have := lt4 a ha h; omega
  · omega

/-- At a component, with the skip set of `p` replaced by comments. -/
abbrev PartGoes (src : Text) (p : Parser) (cs : List Cursor) (x : Prog Sel) : Prop := Goes src { p with skip := KindSet.COMMENTS } cs (fun _ => True) x

theorem selIdent_goes {p : Parser} {cs : List Cursor} {c1 : Cursor} (hl : Left src p cs) (hn : cs.length < n)
    (h1 : ({ p with skip := KindSet.COMMENTS } : Parser).peekN 1 = .ok c1) (hk : c1.token.isKind .ident = true) : PartGoes src p cs (selIdent p.skip) := by
  have l0 : Left src { p with skip := KindSet.COMMENTS } cs := hl.skipping (.lit (by decide))
  unfold selIdent
  obtain ⟨c2, h2, _⟩ := l0.peekN 1
  refine Goes.peekN h2 (Goes.ite (fun _ => ?_) fun _ => ?_)
  · exact Goes.setSkip (EatsIf.map EatsIf.namespaceSelector hl hn)
  · obtain ⟨q, cs', g1, g2, g3, g4, g5, g6⟩ := l0.takes h1 (isKind_notEof (by decide) hk)
    refine Goes.take g1 g3 g5 (Goes.setSkip (Goes.ite (fun _ => ?_) fun h => absurd hk h))
    exact EatsIf.seq (n := n) (EatsIf.buildTag g6 hk) (fun _ => EatsIf.pure id) (g2.skipping hl.skip) (by omega)

theorem selStar_goes {p : Parser} {cs : List Cursor} {c1 : Cursor} (hl : Left src p cs) (hp : p.skip = KindSet.TRIVIA) (hn : cs.length < n)
    (h1 : ({ p with skip := KindSet.COMMENTS } : Parser).peekN 1 = .ok c1) (hk : c1.token.isKind .delim = true) : PartGoes src p cs (selStar p.skip) := by
  have l0 : Left src { p with skip := KindSet.COMMENTS } cs := hl.skipping (.lit (by decide))
  unfold selStar
  obtain ⟨c2, h2, _⟩ := l0.peekN 1
  refine Goes.peekN h2 (Goes.setSkip (Goes.ite (fun _ => ?_) fun _ => ?_))
  · exact EatsIf.map EatsIf.namespaceSelector hl hn
  · obtain ⟨q, n1⟩ := next_of_peekN1 h1
    have e1 := next_skip (s' := KindSet.TRIVIA) (fun t ht => inSet_comments t ht) n1 (by rw [inSet_of_kind (by decide) hk]; decide)
    have hpp : ({ p with skip := KindSet.TRIVIA } : Parser) = p := by rw [← hp]
    rw [hpp] at e1
    obtain ⟨c', q', cs', g1, g2, g3, g4, g5, g6⟩ := hl.next
    rw [e1] at g1; cases g1
    exact Goes.take e1 g3 (g5 (by simpa [notEof] using isKind_notEof (by decide) hk)).1 (Goes.pure g2 id)

theorem selHash_goes {p : Parser} {cs : List Cursor} {c1 : Cursor} (hl : Left src p cs)
    (h1 : ({ p with skip := KindSet.COMMENTS } : Parser).peekN 1 = .ok c1) (hk : c1.token.isKind .hash = true) : PartGoes src p cs (selHash p.skip) := by
  have l0 : Left src { p with skip := KindSet.COMMENTS } cs := hl.skipping (.lit (by decide))
  unfold selHash
  obtain ⟨q, cs', g1, g2, g3, g4, g5, g6⟩ := l0.takes h1 (isKind_notEof (by decide) hk)
  exact Goes.take g1 g3 g5 (Goes.setSkip (Goes.ite (fun _ => Goes.pure (g2.skipping hl.skip) id) fun h => absurd hk h))

theorem selDot_goes {p : Parser} {cs : List Cursor} (hl : Left src p cs) (hn : cs.length < n) : PartGoes src p cs (selDot p.skip) := by
  have l0 : Left src { p with skip := KindSet.COMMENTS } cs := hl.skipping (.lit (by decide))
  unfold selDot
  obtain ⟨c2, h2, _⟩ := l0.peekN 1
  exact Goes.peekN h2 (Goes.setSkip (Goes.ite (fun _ => EatsIf.classSelector hl hn) fun _ => Goes.fail hl))

theorem selDelim_goes {p : Parser} {cs : List Cursor} (hl : Left src p cs) (hn : cs.length < n) : PartGoes src p cs (selDelim p.skip) :=
  Goes.setSkip (EatsIf.map EatsIf.combinator hl hn)

theorem selOther_goes {p : Parser} {cs : List Cursor} (hl : Left src p cs) (hn : cs.length < n) : PartGoes src p cs (selOther p.skip) := by
  have l0 : Left src { p with skip := KindSet.COMMENTS } cs := hl.skipping (.lit (by decide))
  unfold selOther
  obtain ⟨r, p1, w1, cs1, g1, l1, s1, lt1⟩ := EatsIf.combinator (src := src) (n := n) l0 hn
  have hr : Gives (result combinator) { p with skip := KindSet.COMMENTS } (.ok r) p1 w1 := gives_result.mpr ⟨r, g1, rfl⟩
  have fin : Goes src p1 cs1 (fun _ : Sel => cs1.length = cs.length) (Prog.setSkip KindSet.WHITESPACE fun _ => Prog.consumeTrivia <| Prog.setSkip p.skip fun _ => do
      let c ← ofResult r
      Pure.pure (Sel.combinator c)) := by
    refine Goes.setSkip (Goes.consumeTrivia (l1.skipping (.lit (by decide))) fun q cs2 l2 s2 m2 => Goes.setSkip ?_)
    have l3 : Left src { q with skip := p.skip } cs2 := l2.skipping hl.skip
    cases r with
    | error d => exact ⟨.error d, _, [], cs2, gives_bind.mpr (.inr ⟨d, gives_ofResult.mpr ⟨rfl, rfl, rfl⟩, rfl⟩), l3, List.suffix_rfl, fun a h => by cases h⟩
    | ok c =>
      have := lt1 _ rfl trivial
      exact Goes.pure l3 (P := fun _ => _) (by omega)
  obtain ⟨r3, p3, w3, cs3, g3, l4, s4, lt4⟩ := fin
  have len3 := s4.length_le
  have len1 := s1.length_le
  refine ⟨r3, p3, _, cs3, gives_bind.mpr (.inl ⟨_, _, _, _, hr, g3, rfl⟩), l4, s4.trans s1, fun a ha _ => ?_⟩
  by_cases h : cs1.length = cs.length
  · have := lt4 a ha h; omega
  · omega

theorem selColonIdent_goes {p : Parser} {cs : List Cursor} {c1 c2 : Cursor} (hl : Left src p cs) (hp : p.skip = KindSet.TRIVIA) (hn : cs.length < n)
    (h1 : ({ p with skip := KindSet.COMMENTS } : Parser).peekN 1 = .ok c1) (hk : c1.token.isKind .colon = true)
    (h2 : ({ p with skip := KindSet.COMMENTS } : Parser).peekN 2 = .ok c2) (hk2 : c2.token.isKind .ident = true) : PartGoes src p cs (selColonIdent p.skip c1) := by
  have e2 := (peekN_two_skip hl (s := KindSet.COMMENTS) (s' := KindSet.TRIVIA) (.lit (by decide)) (fun t ht => inSet_comments t ht) h1 h2
    (by rw [inSet_of_kind (by decide) hk]; decide) (by rw [inSet_of_kind (by decide) hk2]; decide)).2
  have hpp : ({ p with skip := KindSet.TRIVIA } : Parser) = p := by rw [← hp]
  rw [hpp] at e2
  unfold selColonIdent
  refine Goes.setSkip ?_
  refine Goes.seq (p := p) (EatsIf.isPseudoClassOf (names := LEGACY_PSEUDO_ELEMENTS) (c := c1) hl hn) fun b p' w cs' g l' s' => ?_
  have hcs' := Nat.lt_of_le_of_lt s'.length_le hn
  refine Goes.ite (fun _ => ?_) fun _ => ?_
  · exact EatsIf.map EatsIf.pseudoClassOf l' hcs'
  · have hpe : p' = p := by
      unfold isPseudoClassOf at g
      obtain ⟨a, q, w1, w2, g1, g2, _⟩ := gives_bind_ok.mp g
      obtain ⟨_, _, _, rfl, _⟩ := gives_ask.mp g1
      rcases gives_ite.mp g2 with ⟨_, g⟩ | ⟨_, g⟩
      · obtain ⟨a, q', w3, w4, g3, g4, _⟩ := gives_bind_ok.mp g
        obtain ⟨_, _, _, rfl, _⟩ := gives_ask.mp g3
        exact (gives_pure.mp g4).2.1
      · exact (gives_pure.mp g).2.1
    subst hpe
    exact Goes.eat (pseudoClass_goes l' hcs' e2 hk2) fun a p2 w2 cs2 g2 l2 s2 lt2 => Goes.pure l2 id

theorem selColonColon_goes {compound : Prog (List Sel)} (hc : EatsT src n (fun _ => False) compound) {p : Parser} {cs : List Cursor} (hl : Left src p cs)
    (hp : p.skip = KindSet.TRIVIA) (hn : cs.length < n + 1) : PartGoes src p cs (selColonColon compound n p.skip) := by
  have l0 : Left src { p with skip := KindSet.COMMENTS } cs := hl.skipping (.lit (by decide))
  unfold selColonColon
  obtain ⟨c3, h3, _⟩ := l0.peekN 2
  refine Goes.peekN h3 (Goes.setSkip (Goes.ite (fun _ => ?_) fun _ => Goes.ite (fun _ => ?_) fun _ => Goes.fail hl))
  · exact Goes.eat (pseudoElement_goes hl hp hn) fun a p2 w2 cs2 g2 l2 s2 lt2 => Goes.pure l2 id
  · exact functionalPseudoElement_goes hc hl hp hn

theorem selectorComponent_goes {compound : Prog (List Sel)} {list : Prog (List (List Sel × Option Cursor))} (hc : EatsT src n (fun _ => False) compound)
    (hl' : EatsT src n (fun _ => False) list) : EatsT src (n + 1) (fun _ => True) (selectorComponent compound list n) := by
  intro p cs hl hp hn
  unfold selectorComponent
  refine Goes.setSkip ?_
  have l0 : Left src { p with skip := KindSet.COMMENTS } cs := hl.skipping (.lit (by decide))
  obtain ⟨c1, h1, _⟩ := l0.peekN 0
  refine Goes.peekN h1 (Goes.ite (fun hk => ?_) fun _ => Goes.ite (fun hk => ?_) fun _ => Goes.ite (fun _ => ?_) fun _ => Goes.ite (fun hk => ?_) fun _ =>
    Goes.ite (fun hk => ?_) fun _ => ?_)
  · exact selIdent_goes hl hn h1 hk
  · exact selHash_goes hl h1 (Bool.and_eq_true _ _ ▸ hk).1
  · exact Goes.setSkip (EatsIf.map EatsIf.attributeSelector hl hn)
  · exact Goes.ite (fun _ => selDot_goes hl hn) fun _ => Goes.ite (fun _ => selStar_goes hl hp hn h1 hk) fun _ => selDelim_goes hl hn
  · unfold selColon
    obtain ⟨c2, h2, _⟩ := l0.peekN 1
    refine Goes.peekN h2 (Goes.ite (fun _ => ?_) fun _ => Goes.ite (fun hk2 => ?_) fun _ => Goes.ite (fun _ => ?_) fun _ => Goes.fail l0)
    · exact selColonColon_goes hc hl hp hn
    · exact selColonIdent_goes hl hp hn h1 hk h2 hk2
    · exact Goes.setSkip (functionalPseudoClass_goes hl' hl hp hn)
  · exact selOther_goes hl hn

theorem compoundLoop_goes {component : Prog Sel} (hs : Sound component Sel.cursors) : ∀ m acc, EatsT src m (fun _ => True) component →
    EatsT src m (fun _ => False) (compoundLoop component m acc)
  | 0, _, _ => fun _ _ _ _ h => absurd h (by omega)
  | m + 1, acc, hc => by
    intro p cs hl hp hn
    unfold compoundLoop
    have ha : Gives atEnd p (.ok p.atEnd) p [] := gives_ask.mpr ⟨_, rfl, rfl, rfl, rfl⟩
    refine Goes.seq (EatsIf.atEnd (n := m + 1) hl hn) fun e p' w cs' g l' s' => ?_
    obtain ⟨_, _, _, rfl, _⟩ := gives_ask.mp g
    have hn' := Nat.lt_of_le_of_lt s'.length_le hn
    refine Goes.ite (fun _ => Goes.pure l' id) fun _ => ?_
    obtain ⟨c, h1, _⟩ := l'.peekN 0
    refine Goes.peekN h1 (Goes.ite (fun _ => Goes.pure l' id) fun _ => ?_)
    refine Goes.eat (hc l' hp hn') fun a p2 w2 cs2 g2 l2 s2 lt2 => ?_
    have m2 := (hs (.trivia hp) g2).2
    exact compoundLoop_goes hs m _ (fun _ _ h1 h2 h3 => hc h1 h2 (by omega)) l2 ((modes_skip m2).trans hp) (by omega)

/-! ### Where a selector ends -/

/-- The parser stands at the end of the source, or before a token of `s`. -/
def Spec.StopsAt (s : KindSet) (p : Parser) : Prop := p.atEnd = true ∨ ∃ c, p.peekN 1 = .ok c ∧ c.token.inSet s = true

theorem compoundLoop_stops {component : Prog Sel} : ∀ n acc p, Succ (compoundLoop component n acc) p fun _ p' _ => StopsAt KindSet.LEFT_CURLY_RIGHT_PAREN_COMMA_OR_SEMICOLON p' := by
  intro n
  induction n with
  | zero => intro acc p; exact .panic
  | succ n ih =>
    intro acc p
    unfold compoundLoop
    refine .bind (.ask fun b hb => .ite (fun h => .pure (.inl ?_)) fun _ => .bind (.peekN fun c hc => .ite (fun h => .pure (.inr ⟨c, hc, h⟩)) fun _ => ?_))
    · cases hb; exact h
    · exact .bind fun _ _ _ _ => ih _ _

theorem compoundSelector_stops (n : Nat) (p : Parser) : Succ (compoundSelector n) p fun _ p' _ => StopsAt KindSet.LEFT_CURLY_RIGHT_PAREN_COMMA_OR_SEMICOLON p' := by
  cases n with
  | zero => exact .panic
  | succ n =>
    unfold compoundSelector
    exact .consumeTrivia fun q _ => compoundLoop_stops _ _ q

theorem selectorListLoop_stops {compound : Prog (List Sel)} : ∀ n acc p, Succ (selectorListLoop compound n acc) p fun _ p' _ => StopsAt KindSet.LEFT_CURLY_RIGHT_PAREN_OR_SEMICOLON p' := by
  intro n
  induction n with
  | zero => intro acc p; exact .panic
  | succ n ih =>
    intro acc p
    unfold selectorListLoop
    refine .bind (.ask fun b hb => .ite (fun h => .pure (.inl ?_)) fun _ => .bind (.peekN fun c hc => .ite (fun h => .pure (.inr ⟨c, hc, h⟩)) fun _ => ?_))
    · cases hb; exact h
    · exact .bind fun _ _ _ _ => .bind fun _ _ _ _ => ih _ _

/-! ### C70 -/

theorem comma_of_sets {t : Token} (h4 : t.inSet KindSet.LEFT_CURLY_RIGHT_PAREN_COMMA_OR_SEMICOLON = true)
    (h3 : t.inSet KindSet.LEFT_CURLY_RIGHT_PAREN_OR_SEMICOLON = false) : t.isKind .comma = true := by
  have key : ∀ b : Fin 32, KindSet.LEFT_CURLY_RIGHT_PAREN_COMMA_OR_SEMICOLON.containsBits b.1 = true →
      KindSet.LEFT_CURLY_RIGHT_PAREN_OR_SEMICOLON.containsBits b.1 = false → (b.1 == Kind.comma.bits) = true := by decide
  exact key ⟨t.kindBits, kindBits_lt t⟩ h4 h3

/-- Nothing was consumed: the next token is the same. -/
theorem same_next {p q : Parser} {cs : List Cursor} (hp : Left src p cs) (hq : Left src q cs) (hs : q.skip = p.skip) {c c' : Cursor}
    (h : p.peekN 1 = .ok c) (h' : q.peekN 1 = .ok c') : c' = c := by
  obtain ⟨_, e1⟩ := next_of_peekN1 h
  obtain ⟨_, e2⟩ := next_of_peekN1 h'
  have a := peekNext_stream hp.stream
  have b := peekNext_stream hq.stream
  rw [Parser.C32_peek_next, e1] at a
  rw [Parser.C32_peek_next, e2] at b
  simp only [Except.map, Except.ok.injEq] at a b
  rw [a, b, hs]
  unfold firstOutside eofOf
  rw [hp.source, hq.source]

theorem selectorListLoop_goes {compound : Prog (List Sel)} (hs : Sound compound Sel.compoundCursors)
    (hst : ∀ p, Succ compound p fun _ p' _ => StopsAt KindSet.LEFT_CURLY_RIGHT_PAREN_COMMA_OR_SEMICOLON p') : ∀ m acc, EatsT src m (fun _ => False) compound →
    EatsT src m (fun _ => False) (selectorListLoop compound m acc)
  | 0, _, _ => fun _ _ _ _ h => absurd h (by omega)
  | m + 1, acc, hc => by
    intro p cs hl hp hn
    unfold selectorListLoop
    refine Goes.seq (EatsIf.atEnd (n := m + 1) hl hn) fun e p' w cs' g l' s' => ?_
    obtain ⟨e', he', hee, rfl, _⟩ := gives_ask.mp g
    cases he'; cases hee
    have hn' := Nat.lt_of_le_of_lt s'.length_le hn
    refine Goes.ite (fun _ => Goes.pure l' id) fun hend => ?_
    obtain ⟨c, h1, _⟩ := l'.peekN 0
    refine Goes.peekN h1 (Goes.ite (fun _ => Goes.pure l' id) fun hset => ?_)
    refine Goes.seq (hc l' hp hn') fun a p2 w2 cs2 g2 l2 s2 => ?_
    have m2 := (hs (.trivia hp) g2).2
    have k2 : p2.skip = KindSet.TRIVIA := (modes_skip m2).trans hp
    have hn2 := Nat.lt_of_le_of_lt s2.length_le hn'
    refine Goes.seq (EatsIf.ifPeek (n := m + 1) (fun _ _ => EatsIf.isKind) (EatsIf.tokKind (k := .comma) (by decide)) |>.fine l2 hn2) fun o p3 w3 cs3 g3 l3 s3 => ?_
    have k3 : p3.skip = KindSet.TRIVIA := (modes_skip (KeepsModes.ifPeek (fun _ => by keeps) (by keeps) g3)).trans k2
    refine selectorListLoop_goes hs hst m _ (fun _ _ h1 h2 h3 => hc h1 h2 (by omega)) l3 k3 ?_
    have e2 := s2.length_le
    have e3 := s3.length_le
    refine Classical.byContradiction fun hno => ?_
    have hcs2 : cs2 = cs' := s2.eq_of_length (by omega)
    subst hcs2
    have hne : cs2.isEmpty = false := by
      rw [← l'.stream.at_end]
      exact Bool.eq_false_iff.mpr hend
    rcases hst _ g2 with he | ⟨c', hc', hin⟩
    · have := l2.stream.at_end
      rw [hne] at this
      exact absurd (he.symm.trans this) (by decide)
    · have hcc := same_next l' l2 (k2.trans hp.symm) h1 hc'
      subst hcc
      have hcomma := comma_of_sets hin (Bool.eq_false_iff.mpr hset)
      obtain ⟨c1, b, p1, w1, w4, q1, q2, _, q3⟩ := gives_ifPeek.mp g3
      obtain ⟨hb, rfl, rfl⟩ := gives_pure.mp q2
      cases hb
      have hc1 : c1 = c' := by
        obtain ⟨_, e1⟩ := next_of_peekN1 hc'
        rw [Parser.C32_peek_next, e1] at q1
        cases q1; rfl
      subst hc1
      rcases q3 with ⟨_, a1, rfl, q4⟩ | ⟨hf, _⟩
      · obtain ⟨q5, _, q6⟩ := gives_isKind_ok.mp q4
        obtain ⟨c5, p5, cs5, r1, r2, r3, _, r4, _⟩ := l2.next
        rw [q5] at r1; cases r1
        have := (r4 (by simpa [notEof] using isKind_notEof (by decide) q6)).1
        rw [l3.stream.det r2.stream] at hno
        omega
      · rw [hcomma] at hf; cases hf

theorem compoundSelector_goes : ∀ n, EatsT src n (fun _ => False) (compoundSelector n)
  | 0 => fun _ _ _ _ h => absurd h (by omega)
  | n + 1 => by
    intro p cs hl hp hn
    have ih := compoundSelector_goes n
    unfold compoundSelector
    refine Goes.consumeTrivia hl fun q cs' l' s' m' => ?_
    exact compoundLoop_goes (selectorComponent_sound (compoundSelector_sound n) (selectorListLoop_sound (compoundSelector_sound n) n) n) (n + 1) []
      (selectorComponent_goes ih (selectorListLoop_goes (compoundSelector_sound n) (compoundSelector_stops n) n [] ih)) l' ((modes_skip m').trans hp)
      (Nat.lt_of_le_of_lt s'.length_le hn)

theorem selectorListFuel_goes (n : Nat) : EatsT src n (fun _ => False) (selectorListFuel n) :=
  selectorListLoop_goes (compoundSelector_sound n) (compoundSelector_stops n) n [] (compoundSelector_goes n)

/-- Parsing a selector list comes to an end without a panic: from every parser that stands between the tokens of a source the lexer handles
and skips whitespace and comments, with any nesting. -/
theorem C70_selector_list_partial {p : Parser} (h : Ready p) (hp : p.skip = KindSet.TRIVIA) : ComesToEnd selectorList p := by
  obtain ⟨cs, hl, hlen⟩ := h.left
  obtain ⟨r, p', w, cs', h1, _⟩ := selectorListFuel_goes p.fuel hl hp (by omega)
  refine ⟨r, p', ?_⟩
  unfold Prog.run
  rw [show selectorList.runLog p = .ok (r, p', w) from h1]
  rfl

/-- Parsing a whole source as a selector list. Missing from the full C70: sources outside `Tame`, on which the lexer itself panics or loses its place. -/
theorem C70_source_partial {s : List Char} {f : Features} (h : Tame f s) : ComesToEnd selectorList (Parser.newWithFeatures s f) :=
  C70_selector_list_partial (ready_new h) rfl

/-! ### C72 -/

/-- A selector list that was parsed goes on until the end of the source, a `{`, a `)` or a `;`; what it leaves is for the caller. -/
theorem C72_list_stops {p p' : Parser} {a : List (List Sel × Option Cursor)} (h : selectorList.run p = .ok (.ok a, p')) :
    StopsAt (KindSet.new [.leftCurly, .rightParen, .semicolon]) p' := by
  unfold Prog.run at h
  cases hr : selectorList.runLog p with
  | error e => rw [hr] at h; cases h
  | ok y =>
    obtain ⟨r, q, w⟩ := y
    rw [hr] at h
    simp only [Except.map, Except.ok.injEq, Prod.mk.injEq] at h
    obtain ⟨rfl, rfl⟩ := h
    exact selectorListLoop_stops _ _ p hr

/-- The same for a compound selector, which also stops before a comma. -/
theorem C72_compound_stops {n : Nat} {p p' : Parser} {a : List Sel} (h : (compoundSelector n).run p = .ok (.ok a, p')) :
    StopsAt (KindSet.new [.leftCurly, .rightParen, .comma, .semicolon]) p' := by
  unfold Prog.run at h
  cases hr : (compoundSelector n).runLog p with
  | error e => rw [hr] at h; cases h
  | ok y =>
    obtain ⟨r, q, w⟩ := y
    rw [hr] at h
    simp only [Except.map, Except.ok.injEq, Prod.mk.injEq] at h
    obtain ⟨rfl, rfl⟩ := h
    exact compoundSelector_stops n p hr

end

end Hdx

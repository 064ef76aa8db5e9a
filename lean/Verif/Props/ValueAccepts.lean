/-
C82: values that the grammar of their property takes are typed.
-/
import Verif.Lemmas.CompleteTypes
import Verif.Lemmas.ClearTokens
import Verif.Props.CssValueSound

namespace Hdx
open Spec Prog

section
variable {src : List Char} {M : Meaning}

/-- What is known of the types written by hand; nothing of `<position-area>` and `<single-animation-iteration-count>`. -/
def handInfo (name : List Char) : Option Info :=
  match KEYWORD_TYPES.find? (·.1 == name) with
  | some (_, names) => some ⟨names.map .word, names.map .word, []⟩
  | none =>
    if name == c!"LineWidth" then
      some ⟨(.zero :: lengthUnits.map .unit) ++ [c!"thin", c!"medium", c!"thick"].map .word, (.zero :: lengthUnits.map .unit) ++ [c!"thin", c!"medium", c!"thick"].map .word, []⟩
    else if name == c!"OpacityValue" then some ⟨[.kind .number, .unit c!"%"], [.kind .number, .unit c!"%"], []⟩
    else if name == c!"RepeatStyle" then some repeatStyleInfo
    else if name == c!"AnchorName" then some ⟨[.dashed], [.dashed], []⟩
    else if name == c!"SnapBlock" then some (snapInfo c!"snap-block")
    else if name == c!"SnapInline" then some (snapInfo c!"snap-inline")
    else if name == c!"DynamicRangeLimitMix" then some (snapInfo c!"dynamic-range-limit-mix")
    else if name == c!"CalcSize" then some ⟨[.func c!"calc-size"], [], []⟩
    else if name == c!"Color" then some colorInfo
    else if name == c!"Image" then some ⟨[.kind .url] ++ (GRADIENTS.map .func ++ [.func c!"url"]), [.kind .url], []⟩
    else if name == c!"Image1D" then some ⟨[.func c!"stripes"], [], []⟩
    else if name == c!"AnimateableFeature" then some ⟨[.kind .ident], [.kind .ident], []⟩
    else none

theorem keywordTypes_choose : ∀ row ∈ KEYWORD_TYPES, (handDefs.find? (·.1 == row.1)).any (fun r => chooses row.2 r.2) = true ∧
    row.1 ≠ c!"Image" ∧ row.1 ≠ c!"Image1D" ∧ row.1 ≠ c!"Color" := by decide +kernel

theorem handInfo_complete (k : Nat) (name : List Char) : ∀ I, handInfo name = some I → ∃ l, handWritten name = some l ∧ Complete src l I (MeaningAt src (k + 1) name) := by
  unfold handInfo
  have pick : ∀ {n : List Char} {x : Leaf} {J : Info} {y : Option Info}, handWritten n = some x → Complete src x J (MeaningAt src (k + 1) n) →
      (∀ I, y = some I → ∃ l, handWritten name = some l ∧ Complete src l I (MeaningAt src (k + 1) name)) →
      ∀ I, (if name == n then some J else y) = some I → ∃ l, handWritten name = some l ∧ Complete src l I (MeaningAt src (k + 1) name) := by
    intro n x J y e hx hy I h
    split at h
    · next h' => cases h; rw [beq_iff_eq.mp h']; exact ⟨x, e, hx⟩
    · exact hy I h
  split
  · next row n names hf =>
    intro I e
    cases e
    have hm := List.mem_of_find?_eq_some hf
    have hn : n = name := by simpa using List.find?_some hf
    subst hn
    obtain ⟨ho, h1, h2, h3⟩ := keywordTypes_choose _ hm
    refine ⟨.keywords names, by unfold handWritten; rw [hf], ?_⟩
    dsimp only at ho
    cases hr : handDefs.find? (·.1 == n) with
    | none => rw [hr] at ho; cases ho
    | some r =>
      rw [hr] at ho
      refine (keywords_complete (M := MeaningAt src k) ho).mono fun w h => ?_
      rw [MeaningAt, if_neg h1, if_neg h2, if_neg h3, hr] at h
      exact h
  · refine pick rfl lineWidth_complete <| pick rfl opacity_complete <| pick rfl repeatStyle_complete <| pick rfl (.single .dashed (fun w hw _ => ?_) (by decide)) <|
      pick rfl (snap_complete (key := oneOf c!"start end near") (by decide +kernel) (by decide) (by decide) (by decide) (by decide)) <|
      pick rfl (snap_complete (key := oneOf c!"left right near") (by decide +kernel) (by decide) (by decide) (by decide) (by decide)) <|
      pick rfl limit_complete <| pick rfl (.nothing (.func (plainName_spec (by decide))) fun w _ hw => ?_) <| pick rfl color_complete <| pick rfl image_complete <|
      pick rfl image1D_complete <| pick rfl (.single .kind (fun w hw _ => ?_) (by decide)) ?_
    · obtain ⟨c, h1, h2⟩ := type_inv (src := src) (M := MeaningAt src k) (t := .dashedIdent) hw
      exact ⟨c, h1, Among.one.mpr h2⟩
    · exact hw
    · obtain ⟨c, h1, h2⟩ := type_inv (src := src) (M := MeaningAt src k) (t := .customIdent) hw
      exact ⟨c, h1, Among.one.mpr h2⟩
    · intro I e; cases e

/-- What is known of the types; references are followed so many times. -/
def infoAt : Nat → List Char → Option Info
  | 0, _ => none
  | k + 1, name => if (handWritten name).isSome then handInfo name else (definitionOf name).bind (defInfo (infoAt k))

theorem types_complete : ∀ k, EnvComplete src (definitionLeaf k) (infoAt k) (MeaningAt src k)
  | 0 => nofun
  | k + 1 => by
    intro name I h
    unfold infoAt at h
    unfold definitionLeaf
    split at h
    · obtain ⟨l, e, hl⟩ := handInfo_complete k name I h
      rw [e]
      exact hl
    · next hn =>
      obtain ⟨d, hd, hi⟩ := Option.bind_eq_some_iff.mp h
      have hn' : handWritten name = none := by simpa using hn
      rw [hn', hd]
      refine (defInfo_complete (types_complete k) d hi).mono fun w hw => ?_
      have other : ∀ n, (handWritten n).isSome = true → name ≠ n := by
        intro n h e
        rw [← e, hn'] at h
        cases h
      rw [MeaningAt, if_neg (other _ rfl), if_neg (other _ rfl), if_neg (other _ rfl)] at hw
      split at hw
      · next row hr =>
        have := List.find?_some hr
        exact absurd (beq_iff_eq.mp this).symm (other _ (handDefs_hand _ (List.mem_of_find?_eq_some hr)))
      · rw [hd] at hw
        exact hw

/-- The properties whose definitions take less than they say, or of which this is not known. -/
def Spec.narrowProperties : List (List Char) := [
  c!"position-area", c!"animation-iteration-count", c!"flex-flow", c!"flex-grow", c!"flex-shrink", c!"font-width", c!"font-language-override", c!"masonry-flow",
  c!"line-height", c!"columns", c!"block-ellipsis", c!"block-step", c!"text-size-adjust", c!"voice-balance", c!"text-align", c!"text-align-all", c!"text-wrap",
  c!"hyphenate-character", c!"caret", c!"zoom", c!"will-change"]

/-- What ends a value, and what a computed value begins with. -/
def overHeads : List Head := [.kind .rightCurly, .kind .semicolon, .delim '!']

theorem accepted_rows : ∀ row ∈ DEFINITIONS, propertyName row.1 ∈ narrowProperties ∨
    (infoAt 6 row.1).any (fun I => apartAll I.more overHeads && apartAll I.firsts (COMPUTED.map .func)) = true := by decide +kernel
theorem propertyNames_undashed : ∀ row ∈ DEFINITIONS, ¬ ['-', '-'] <+: propertyName row.1 := by decide +kernel

theorem Spec.ValueOver.among {c : Cursor} (h : ValueOver c) : Among src overHeads c := by
  unfold overHeads
  rw [Among.cons, Among.cons, Among.one]
  exact h

theorem valueOver_clear {c : Cursor} (h : ValueOver c) : Clear src c := by
  rcases h with h | h | h
  · exact clear_of_kind h (by decide) (by decide) (by decide) (by decide)
  · exact clear_of_kind h (by decide) (by decide) (by decide) (by decide)
  · exact clear_of_kind (k := .delim) h.1 (by decide) (by decide) (by decide) (by decide)

theorem valueEnds_yields {c : Cursor} {rest : List Cursor} (h : ValueOver c) : Yields src (c :: rest) valueEnds (c :: rest) fun b => b = true := by
  unfold valueEnds
  refine .atEnd (.neg (by decide) (.peekN1 ?_))
  by_cases hi : c.token.inSet KindSet.RIGHT_CURLY_OR_SEMICOLON = true
  · exact .pos hi (.pure rfl)
  · refine .neg hi (.peek ?_)
    rcases h with h | h | h
    · exact absurd (by rw [Token.inSet, show c.token.kindBits = _ from beq_iff_eq.mp h]; decide) hi
    · exact absurd (by rw [Token.inSet, show c.token.kindBits = _ from beq_iff_eq.mp h]; decide) hi
    · refine (show Yields src (c :: rest) (Pure.pure (c.token.isKind .delim && c.token.isChar '!')) _ _ from .pure ?_)
      obtain ⟨h1, h2⟩ := h
      simp only [Bool.and_eq_true]
      exact ⟨h1, h2⟩

/-- Alternatives that are kept. -/
theorem Yields.attempt {α β : Type} {body : Prog β} {keep : Except Diag β → Bool} {k : Except Diag β → Prog α} {ts ts1 ts' : List Cursor} {P : β → Prop} {Q : α → Prop}
    (hb : Yields src ts body ts1 P) (hk : ∀ b, P b → keep (.ok b) = true) (h : ∀ b, P b → Yields src ts1 (k (.ok b)) ts' Q) : Yields src ts (Prog.attempt body keep k) ts' Q := by
  intro p hp
  obtain ⟨b, q, w, h1, h2, h3⟩ := hb hp
  obtain ⟨a, q2, w2, g1, g2, g3⟩ := h b h3 h2
  exact ⟨a, q2, _, gives_attempt.mpr ⟨_, _, _, _, h1, .inl ⟨hk b h3, rfl, g1⟩⟩, g2, g3⟩

/-- What is asked of a value: it matches the definition of its property, its tokens are tidy, it is not one of the CSS-wide keywords. -/
structure Spec.GoodValue (src : List Char) (n : List Char) (w : List Cursor) : Prop where
  narrow : n ∉ narrowProperties
  tidy : Tidy src w
  means : ∃ row ∈ DEFINITIONS, propertyName row.1 = n ∧ MeaningAt src 6 row.1 w
  wide : ∀ c ∈ w.head?, IsKind .ident c → ∀ k ∈ WIDE_KEYWORDS, ¬ Named src c k

theorem propertyNames_nodup : (DEFINITIONS.map fun row => propertyName row.1).Nodup := by decide +kernel

theorem find_of_nodup {α β : Type} [BEq β] [LawfulBEq β] {f : α → β} : ∀ {l : List α} {a : α}, (l.map f).Nodup → a ∈ l → l.find? (fun x => f x == f a) = some a
  | [], _, _, h => nomatch h
  | x :: l, a, hn, h => by
    rw [List.map_cons, List.nodup_cons] at hn
    rw [List.find?_cons]
    by_cases e : f x = f a
    · rcases List.mem_cons.mp h with rfl | h
      · simp
      · exact absurd (e ▸ List.mem_map_of_mem h) hn.1
    · rw [beq_false_of_ne e]
      rcases List.mem_cons.mp h with rfl | h
      · exact absurd rfl e
      · exact find_of_nodup hn.2 h

theorem find_named {α β : Type} [BEq β] [LawfulBEq β] {f : α → β} {l : List α} {a : α} {n : β} (hn : (l.map f).Nodup) (hm : a ∈ l) (h : f a = n) :
    l.find? (fun x => f x == n) = some a := by
  subst h
  exact find_of_nodup hn hm

theorem styleValue_yields' {V : Values Val} {l : Leaf} {I : Info} {L : List Cursor → Prop} {fuel : Nat} {name c : Cursor} {n : List Char} {w rest : List Cursor}
    (hi : IsKind .ident name) (hcl : Clear src name) (hn : Named src name n) (hm : n ∈ V.names) (hd : ¬ ['-', '-'] <+: n) (hp : V.parser n = l.parser) (hcomp : Complete src l I L)
    (hap : (apartAll I.more overHeads && apartAll I.firsts (COMPUTED.map .func)) = true) (hw : L w) (ht : Tidy src w)
    (hwide : ∀ c ∈ w.head?, IsKind .ident c → ∀ k ∈ WIDE_KEYWORDS, ¬ Named src c k) (hc : ValueOver c) :
    Yields src (w ++ c :: rest) (styleValue V fuel name) (c :: rest) fun v => ∃ x, v = .typed n x ∧ x.cursors.Perm w := by
  simp only [Bool.and_eq_true] at hap
  obtain ⟨f, w', rfl, _, hfirst⟩ := hcomp.starts hw ht.decent
  have hfc : Clear src f := ht.clear f (.head _)
  have hdash : name.token.isDashedIdent = false := by
    cases hd' : name.token.isDashedIdent
    · rfl
    · obtain ⟨s, hs, _, _, h4⟩ := hcl (.inl hi)
      cases hs.same hn
      exact absurd (h4 hi hd') hd
  unfold styleValue
  rw [if_neg (by rw [hdash]; decide)]
  refine Yields.bind (Yields.ifPeek_none (Exactly.no Exactly.words hfc ?_)) ?_
  · rw [Among.words]
    rintro ⟨h1, k, h2, h3⟩
    exact hwide f rfl h1 k h2 h3
  rintro _ rfl
  dsimp only
  refine Yields.peek (Yields.test (Exactly.no Exactly.funcs hfc ?_) ?_)
  · exact fun h => apartAll_spec hfc hap.2 hfirst h
  rw [if_neg (by decide)]
  refine Yields.attempt (P := fun r => ∃ x, r = .inl (.typed n x) ∧ x.cursors.Perm (f :: w')) ?_ ?_ ?_ (ts1 := c :: rest)
  · unfold typedValue
    refine Yields.test (b := true) (Exactly.yes Exactly.words hcl ?_) (Yields.pos rfl ?_)
    · rw [Among.words]
      exact ⟨hi, n, hm, hn⟩
    refine Yields.bind (ts1 := f :: w' ++ c :: rest) (P := fun b => b = (n, name)) ?_ ?_
    · intro p hp
      exact ⟨(n, name), p, [], gives_buildKeyword.mpr ⟨rfl, rfl, n, by rw [hp.source]; exact hn, List.contains_iff_mem.mpr hm, rfl⟩, hp, rfl⟩
    rintro _ rfl
    dsimp only
    refine Yields.bind (Yields.result (P := fun v => v.cursors.Perm (f :: w')) (ts' := c :: rest) ?_) ?_
    · rw [hp]
      exact hcomp.parse hw ht (valueOver_clear hc) fun h => apartAll_spec (valueOver_clear hc) hap.1 h hc.among
    rintro _ ⟨v, rfl, hv⟩
    dsimp only
    refine Yields.bind (valueEnds_yields hc) ?_
    rintro _ rfl
    exact Yields.pos rfl (.pure ⟨v, rfl, hv⟩)
  · rintro _ ⟨x, rfl, _⟩; rfl
  · rintro _ ⟨x, rfl, hx⟩
    exact .pure ⟨x, rfl, hx⟩

theorem realValues_parser {n : List Char} {row} (h : DEFINITIONS.find? (fun row => propertyName row.1 == n) = some row) :
    realValues.parser n = (definitionLeaf 6 row.1).parser := by
  unfold realValues; dsimp only; rw [h]

section
attribute [local irreducible] DEFINITIONS infoAt definitionLeaf MeaningAt propertyName

theorem styleValue_yields {fuel : Nat} {name c : Cursor} {n : List Char} {w rest : List Cursor} (hi : IsKind .ident name) (hcl : Clear src name) (hn : Named src name n)
    (hg : GoodValue src n w) (hc : ValueOver c) :
    Yields src (w ++ c :: rest) (styleValue realValues fuel name) (c :: rest) fun v => ∃ x, v = .typed n x ∧ x.cursors.Perm w := by
  obtain ⟨row, hm, hrow, hw⟩ := hg.means
  have hfind : DEFINITIONS.find? (fun row => propertyName row.1 == n) = some row := find_named (f := fun row => propertyName row.1) propertyNames_nodup hm hrow
  have hany : (infoAt 6 row.1).any (fun I => apartAll I.more overHeads && apartAll I.firsts (COMPUTED.map .func)) = true := by
    rcases accepted_rows row hm with h | h
    · rw [hrow] at h; exact absurd h hg.narrow
    · exact h
  obtain ⟨I, hI, hap⟩ := (Option.any_eq_true _ _).mp hany
  exact styleValue_yields' hi hcl hn (hrow ▸ List.mem_map_of_mem hm) (hrow ▸ propertyNames_undashed row hm) (realValues_parser hfind) (types_complete 6 row.1 I hI) hap hw hg.tidy hg.wide hc

end

/-- What follows a value: `}` or `;`, at once or after `!important`; in the latter case the two tokens are given too. -/
inductive Spec.Ending (src : List Char) : Option BangImportant → List Cursor → List Cursor → Prop
  | plain {c : Cursor} {rest : List Cursor} : IsKind .rightCurly c ∨ IsKind .semicolon c → Ending src none (c :: rest) (c :: rest)
  | important {bang word : Cursor} {rest : List Cursor} : IsDelim '!' bang → IsWord src c!"important" word → Clear src word →
      Ending src (some ⟨bang, word⟩) (bang :: word :: rest) rest

theorem ending_yields {imp : Option BangImportant} {tail rest : List Cursor} (h : Ending src imp tail rest) :
    Yields src tail (ifPeek isBangImportant bangImportant) rest fun o => o = imp := by
  cases h with
  | @plain c rest hc =>
    refine Yields.mono (Yields.ifPeek_none ?_) fun _ h => h
    unfold isBangImportant
    refine Tests.neg ?_ Tests.pure
    rw [Bool.and_eq_true]
    rintro ⟨h1, -⟩
    rcases hc with h | h <;> exact IsKind.other h (by decide) (by decide) (by decide) h1
  | @important bang word rest hb hw hc =>
    have heq : word.eqIgnoreAsciiCase src c!"important" = .ok true := by
      obtain ⟨s, hs, he, _⟩ := hc (.inl hw.1)
      rcases hw.2 with h | h
      · cases hs.same h
        simpa using he c!"important" (plainName_spec (by decide))
      · exact h
    have htest : ∀ ⦃p : Parser⦄, On src p (bang :: word :: rest) → Gives (isBangImportant bang) p (.ok true) p [] := by
      intro p hp
      obtain ⟨q, hq, ho⟩ := hp.next
      obtain ⟨r, hr, _⟩ := ho.next
      unfold isBangImportant
      rw [if_pos (by rw [Bool.and_eq_true]; exact hb)]
      refine gives_ask.mpr ⟨true, ?_, rfl, rfl, rfl⟩
      rw [peekN_two hq hr]
      dsimp only
      rw [if_pos (show word.token.isKind .ident = true from hw.1), hp.source]
      exact heq
    intro p hp
    have hbody : Yields src (bang :: word :: rest) bangImportant rest fun b => b = ⟨bang, word⟩ := by
      unfold bangImportant
      refine Yields.bind (P := fun d => d = bang) (Yields.tok (Exactly.yes Exactly.delim (clear_of_kind (k := .delim) hb.1 (by decide) (by decide) (by decide) (by decide)) (Among.one.mpr hb)) rfl) ?_
      rintro _ rfl
      refine Yields.bind (P := fun d => d = word) (Yields.tok ((Tests.kind).congr hw.1) rfl) ?_
      rintro _ rfl
      exact Yields.test (Tests.eqCase heq) (Yields.pos rfl (.pure rfl))
    obtain ⟨b, q, w, h1, h2, rfl⟩ := hbody hp
    obtain ⟨q0, hq0, _⟩ := hp.next
    refine ⟨some ⟨bang, word⟩, q, w, ?_, h2, rfl⟩
    unfold ifPeek
    refine gives_of_peek (peek_of_next hq0) ?_
    have := gives_seq (htest hp) (f := fun b => if b = true then (do let a ← bangImportant; Pure.pure (some a)) else Pure.pure none) (by
      rw [if_pos rfl]
      exact gives_seq h1 (gives_pure.mpr ⟨rfl, rfl, rfl⟩))
    simpa using this

theorem Spec.Ending.over {imp : Option BangImportant} {tail rest : List Cursor} (h : Ending src imp tail rest) : ∃ c r, tail = c :: r ∧ ValueOver c := by
  cases h with
  | plain h => exact ⟨_, _, rfl, h.imp id .inl⟩
  | important h => exact ⟨_, _, rfl, .inr (.inr h)⟩

theorem property_yields {fuel : Nat} {name colon : Cursor} {n : List Char} {w tail rest : List Cursor} {imp : Option BangImportant} (hi : IsKind .ident name) (hcl : Clear src name)
    (hn : Named src name n) (hco : IsKind .colon colon) (hg : GoodValue src n w) (ht : Ending src imp tail rest) :
    Yields src (name :: colon :: (w ++ tail)) (property realValues fuel) rest fun d => d.name = name ∧ d.colon = colon ∧ d.important = imp ∧
      ∃ x, d.value = .typed n x ∧ x.cursors.Perm w := by
  unfold property declarationOf
  refine Yields.bind (P := fun d => d = name) (Yields.tok ((Tests.kind).congr hi) rfl) ?_
  rintro _ rfl
  refine Yields.bind (P := fun b => b = true) (.pure rfl) ?_
  rintro _ rfl
  refine Yields.neg (by decide) ?_
  refine Yields.bind (P := fun d => d = colon) (Yields.tok ((Tests.kind).congr hco) rfl) ?_
  rintro _ rfl
  obtain ⟨c, r, rfl, hc⟩ := ht.over
  refine Yields.bind (styleValue_yields hi hcl hn hg hc) ?_
  rintro _ ⟨x, rfl, hx⟩
  refine Yields.bind (ending_yields ht) ?_
  rintro _ rfl
  exact .pure ⟨rfl, rfl, rfl, x, rfl, hx⟩

/-- C82. A declaration whose value matches the definition of its property (see `narrowProperties` for those that are left out, and `Tidy` and `GoodValue` for what
else is asked) is parsed, with a typed value that has exactly the tokens of it (their order may be another), with its `!important`, and what follows is left. -/
theorem C82_declaration_partial {p : Parser} (hr : Ready p) (hs : p.skip = KindSet.TRIVIA) {cs : List Cursor} (ht : Stream p.lexer cs) {name colon : Cursor} {n : List Char}
    {w tail rest : List Cursor} {imp : Option BangImportant} (hcs : solid cs = name :: colon :: (w ++ tail)) (hi : IsKind .ident name) (hcl : Clear p.lexer.source name)
    (hn : Named p.lexer.source name n) (hco : IsKind .colon colon) (hg : GoodValue p.lexer.source n w) (hend : Ending p.lexer.source imp tail rest) :
    ∃ d p', (property realValues p.fuel).run p = .ok (.ok d, p') ∧ d.name = name ∧ d.colon = colon ∧ d.important = imp ∧ (∃ x, d.value = .typed n x ∧ x.cursors.Perm w) ∧
      ∃ cs', Stream p'.lexer cs' ∧ solid cs' = rest := by
  obtain ⟨cs', hl, hlen⟩ := hr.left
  cases hl.stream.det ht
  obtain ⟨d, q, u, h1, h2, h3, h4, h5, h6⟩ := property_yields (fuel := p.fuel) hi hcl hn hco hg hend (p := p) ⟨rfl, hs, cs, ht, hcs, hlen⟩
  obtain ⟨cs2, g1, g2, _⟩ := h2.stream
  refine ⟨d, q, ?_, h3, h4, h5, h6, cs2, g1, g2⟩
  unfold Prog.run
  rw [show (property realValues p.fuel).runLog p = .ok (_, q, u) from h1]
  rfl

/-- C82, in a source without escapes, capital letters in units and the like (`PlainNames`): all names are clear. -/
theorem C82_plain_partial {p : Parser} (hr : Ready p) (hplain : PlainNames p.lexer.source) (hs : p.skip = KindSet.TRIVIA) {cs : List Cursor} (ht : Stream p.lexer cs)
    {name colon : Cursor} {n : List Char} {w tail rest : List Cursor} (hcs : solid cs = name :: colon :: (w ++ tail)) (hi : IsKind .ident name)
    (hn : Named p.lexer.source name n) (hco : IsKind .colon colon)
    -- the value: it matches the definition of a property that is not left out, functions are closed, no images, and no CSS-wide keyword
    (hm : ∃ row ∈ DEFINITIONS, propertyName row.1 = n ∧ MeaningAt p.lexer.source 6 row.1 w) (hnar : n ∉ narrowProperties) (hclosed : opens w ≤ closings w)
    (himg : ∀ c ∈ w, IsKind .function c → ∀ f ∈ imageFunctions, ¬ Called p.lexer.source c f)
    (hwide : ∀ c ∈ w.head?, IsKind .ident c → ∀ k ∈ WIDE_KEYWORDS, ¬ Named p.lexer.source c k)
    -- what follows: `}`, `;`, or `!important`
    (hend : (∃ c, tail = c :: rest.drop 1 ∧ rest = tail ∧ (IsKind .rightCurly c ∨ IsKind .semicolon c)) ∨
      ∃ bang word, tail = bang :: word :: rest ∧ IsDelim '!' bang ∧ IsWord p.lexer.source c!"important" word) :
    ∃ d p', (property realValues p.fuel).run p = .ok (.ok d, p') ∧ d.name = name ∧ d.colon = colon ∧ (∃ x, d.value = .typed n x ∧ x.cursors.Perm w) ∧
      ∃ cs', Stream p'.lexer cs' ∧ solid cs' = rest := by
  obtain ⟨x, hb⟩ := hr.before
  have hclear : ∀ c ∈ solid cs, Clear p.lexer.source c := fun c hc => clear_of_stream ht hb hr.tame hplain c (List.mem_filter.mp hc).1
  rw [hcs] at hclear
  have hg : GoodValue p.lexer.source n w := ⟨hnar, ⟨fun c hc => hclear c (by simp [hc]), hclosed, himg⟩, hm, hwide⟩
  have hcl : Clear p.lexer.source name := hclear name (.head _)
  rcases hend with ⟨c, e, rfl, hc⟩ | ⟨bang, word, rfl, h1, h2⟩
  · cases rest with
    | nil => cases e
    | cons d rest =>
      cases e
      obtain ⟨d, p', a, b, c', _, e, f⟩ := C82_declaration_partial hr hs ht hcs hi hcl hn hco hg (.plain hc)
      exact ⟨d, p', a, b, c', e, f⟩
  · obtain ⟨d, p', a, b, c', _, e, f⟩ := C82_declaration_partial hr hs ht hcs hi hcl hn hco hg (.important h1 h2 (hclear word (by simp)))
    exact ⟨d, p', a, b, c', e, f⟩

end

/-! ### The names of the properties -/

namespace Spec

/-- The words of a name without dashes, each with a capital letter: `border-top` is `BorderTop`, and `-webkit-x` is `WebkitX`. -/
def typeWords : Bool → List Char → List Char
  | _, [] => []
  | up, c :: cs => if c = '-' then typeWords true cs else (if up = true ∧ 'a' ≤ c ∧ c ≤ 'z' then Char.ofNat (c.toNat - 32) else c) :: typeWords false cs

/-- The type of the values of a property. -/
def typeOfProperty (n : List Char) : List Char := typeWords true n ++ c!"StyleValue"

end Spec

/-- The property of a type is the one that the type is named after, two types have two properties, and those of vendors, and no others, begin with a dash. -/
theorem C82_names : (∀ row ∈ DEFINITIONS, typeOfProperty (propertyName row.1) = row.1) ∧ (DEFINITIONS.map fun row => propertyName row.1).Nodup ∧
    ∀ row ∈ DEFINITIONS, (propertyName row.1).head? = some '-' ↔ c!"Webkit" <+: row.1 ∨ c!"Moz" <+: row.1 ∨ c!"Ms" <+: row.1 := by
  refine ⟨by decide +kernel, by decide +kernel, by decide +kernel⟩

/-! ### A case that meets the hypotheses, and values that are not typed -/

theorem meaningAt_of {src : List Char} {k : Nat} {name : List Char} {d : Def} {w : List Cursor} (h1 : name ≠ c!"Image") (h2 : name ≠ c!"Image1D") (h3 : name ≠ c!"Color")
    (h4 : handDefs.find? (·.1 == name) = none) (h5 : definitionOf name = some d) (h : Matches src (MeaningAt src k) d w) : MeaningAt src (k + 1) name w := by
  rw [MeaningAt, if_neg h1, if_neg h2, if_neg h3, h4, h5]
  exact h
theorem meaningAt_hand {src : List Char} {k : Nat} {name : List Char} {row : List Char × Def} {w : List Cursor} (h1 : name ≠ c!"Image") (h2 : name ≠ c!"Image1D")
    (h3 : name ≠ c!"Color") (h4 : handDefs.find? (·.1 == name) = some row) (h : Matches src (MeaningAt src k) row.2 w) : MeaningAt src (k + 1) name w := by
  rw [MeaningAt, if_neg h1, if_neg h2, if_neg h3, h4]
  exact h

def sampleValue : List Char := c!"border-top :solid/**/#f00 !important;"
def sampleValueToken (i : Nat) : Cursor := (solid ((lexUpTo 40 (Parser.new sampleValue).lexer).getD [])).getD i ⟨0, Token.EOF⟩

/-- The hypotheses of C82 are met: two of the three parts of `border-top`, with comments, before `!important`. -/
example : let p := Parser.new sampleValue
    let t := sampleValueToken
    Ready p ∧ PlainNames sampleValue ∧ p.skip = KindSet.TRIVIA ∧ (∃ cs, Stream p.lexer cs ∧ solid cs = t 0 :: t 1 :: ([t 2, t 3] ++ [t 4, t 5, t 6])) ∧
      IsKind .ident (t 0) ∧ Named sampleValue (t 0) c!"border-top" ∧ IsKind .colon (t 1) ∧ GoodValue sampleValue c!"border-top" [t 2, t 3] ∧
      Ending sampleValue (some ⟨t 4, t 5⟩) [t 4, t 5, t 6] [t 6] := by
  have hplain : PlainNames sampleValue := plainNames_of (by unfold Upper; decide) (by decide)
  have hready : Ready (Parser.new sampleValue) := ready_new (tame_of_ascii (by decide) (by decide))
  have hstream : Stream (Parser.new sampleValue).lexer ((lexUpTo 40 (Parser.new sampleValue).lexer).getD []) := lexUpTo_stream 40 (by decide +kernel)
  have hclear : ∀ c ∈ solid ((lexUpTo 40 (Parser.new sampleValue).lexer).getD []), Clear sampleValue c := fun c hc => by
    obtain ⟨x, hb⟩ := hready.before
    exact clear_of_stream hstream hb hready.tame hplain c (List.mem_filter.mp hc).1
  have hsolid : solid ((lexUpTo 40 (Parser.new sampleValue).lexer).getD []) = sampleValueToken 0 :: sampleValueToken 1 :: ([sampleValueToken 2, sampleValueToken 3] ++
    [sampleValueToken 4, sampleValueToken 5, sampleValueToken 6]) := by decide +kernel
  rw [hsolid] at hclear
  refine ⟨hready, hplain, rfl, ⟨_, hstream, hsolid⟩, by decide +kernel, by decide +kernel, by decide +kernel, ⟨by decide, ⟨fun c hc => hclear c ?_, by decide +kernel, ?_⟩,
    ⟨(c!"BorderTopStyleValue", c!" <line-width> || <line-style> || <color> "), ?_, ?_, ?_⟩, ?_⟩, .important ⟨by decide +kernel, by decide +kernel⟩ ⟨by decide +kernel, .inl (by decide +kernel)⟩ (hclear _ (by simp))⟩
  · simp only [List.mem_cons, List.not_mem_nil, or_false] at hc
    rcases hc with rfl | rfl <;> simp
  · intro c hc
    simp only [List.mem_cons, List.not_mem_nil, or_false] at hc
    rcases hc with rfl | rfl <;> exact fun h => absurd h (by decide +kernel)
  · decide +kernel
  · decide +kernel
  · refine meaningAt_of (d := .comb [.type (.custom c!"LineWidth"), .type (.custom c!"LineStyle"), .type .color] .options) (by decide) (by decide) (by decide) rfl rfl (.some (es := [.type (.custom c!"LineStyle"), .type .color]) (rest := [.type (.custom c!"LineWidth")]) (by simp) ?_
        (.cons (w := [sampleValueToken 2]) (.type (meaningAt_hand (row := (c!"LineStyle", oneOf c!"none hidden dotted dashed solid double groove ridge inset outset"))
          (by decide) (by decide) (by decide) rfl (.one (d := .ident c!"solid") (List.mem_map.mpr ⟨c!"solid", by decide +kernel, rfl⟩) (.ident ⟨by decide +kernel, .inl (by decide +kernel)⟩))))
          (.cons (w := [sampleValueToken 3]) (v := []) (.type ?_) .nil)))
    · exact (List.perm_append_comm (l₁ := [Def.type (.custom c!"LineStyle"), .type .color]) (l₂ := [.type (.custom c!"LineWidth")]))
    · exact .inl ⟨_, rfl, by decide +kernel⟩
  · intro c hc
    cases hc
    intro _ k hk hn
    have hs : Named sampleValue (sampleValueToken 2) c!"solid" := by decide +kernel
    cases hs.same hn
    revert hk; decide

/-- Numbers without a fraction are not numbers. -/
theorem C82_counterexample_number : typedIn c!"a{flex-grow:1;line-height:2;voice-balance:2;zoom:2}" =
    some [(c!"flex-grow", none), (c!"line-height", none), (c!"voice-balance", none), (c!"zoom", none)] := by decide +kernel
/-- Percentages, and strings, are not taken. -/
theorem C82_counterexample_percentage : typedIn c!"a{font-width:50%;text-size-adjust:50%;hyphenate-character:\"a\";text-align:\"a\"}" =
    some [(c!"font-width", none), (c!"text-size-adjust", none), (c!"hyphenate-character", none), (c!"text-align", none)] := by decide +kernel
/-- Properties that refer to others by `||`: the reference takes what it does not start with. -/
theorem C82_counterexample_options : typedIn c!"a{flex-flow:wrap;flex-flow:wrap row;text-wrap:stable;caret:bar;block-step:up;columns:auto 12em}" =
    some [(c!"flex-flow", none), (c!"flex-flow", none), (c!"text-wrap", none), (c!"caret", none), (c!"block-step", none), (c!"columns", none)] := by decide +kernel
/-- Lists, and pairs, that are not taken. -/
theorem C82_counterexample_lists : typedIn c!"a{animation-iteration-count:2,infinite;position-area:center left;will-change:auto,foo}" =
    some [(c!"animation-iteration-count", none), (c!"position-area", none), (c!"will-change", none)] := by decide +kernel
/-- Functions that are not taken. -/
theorem C82_counterexample_functions : typedIn c!"a{border-top-color:stripes(red,blue);width:calc-size(auto,1px)}" =
    some [(c!"border-top-color", none), (c!"width", none)] := by decide +kernel
/-- The tokens of the value are written in another order. -/
theorem C82_counterexample_order : typedIn c!"a{border-top:red solid 1px}" = some [(c!"border-top", some [c!"1px", c!"solid", c!"red"])] := by decide +kernel

end Hdx

/-
Properties C86-C90: what an editor shows of a style sheet.
-/
import Verif.Props.Highlight
import Verif.Props.LspTokens
import Verif.Props.CssRealValues
import Verif.Props.SheetReturns

namespace Hdx
open Spec Prog Highlighter Lsp

variable {τ : Type} {V : Values τ} {src : List Char} {f : Features} {rules : List (CssRule τ)} {p' : Parser} {vs : List (Visit τ)}

/-! ## C86 What is shown is true -/

theorem tagModifiers_of {s : List Char} {k : TagKind} (h : TagSays s k) : TagModifiers s (tagShows k) := by
  cases k <;> simp only [TagSays] at h <;> simp [TagModifiers, tagShows, h]

theorem VisitLabel.truly {tokens : List Cursor} {v : Visit τ} (h : VisitLabel src v) (hm : ∀ c ∈ v.marks, c ∈ tokens) : ∀ x ∈ v.shows, ShownTruly src tokens x := by
  have decl : ∀ {n c : Cursor} {u : Bool}, n ∈ tokens → c ∈ tokens → IsKind .ident n → IsKind .colon c → ∀ x ∈ declarationShows n c u, ShownTruly src tokens x := by
    intro n c u hn hc h1 h2 x hx
    simp only [declarationShows, List.mem_cons, List.not_mem_nil, or_false] at hx
    rcases hx with rfl | rfl
    · refine .declaration hn h1 ?_ ?_ <;> cases u <;> cases n.token.isDashedIdent <;> decide
    · exact .punctuation hc (.inr (.inr h2))
  intro x hx
  cases v with
  | tag k t =>
    obtain ⟨h1, s, h2, h3⟩ := h
    simp only [Visit.shows, List.mem_singleton] at hx
    subst hx
    exact .tag (hm t (by simp [Visit.marks])) h1 h2 (tagModifiers_of h3)
  | pseudoClass v a b =>
    obtain ⟨n, ⟨h1, h2, h3, h4⟩, ht⟩ := h
    simp only [Visit.shows, List.mem_singleton] at hx
    subst hx
    exact .pseudoClass (hm a (by simp [Visit.marks])) (hm b (by simp [Visit.marks])) h1 h2 ht h3 h4 rfl
  | styleDeclaration o cl =>
    simp only [Visit.shows, List.mem_cons, List.mem_map, Option.mem_toList, braceShows] at hx
    rcases hx with rfl | ⟨c, hc, rfl⟩
    · exact .punctuation (hm _ (by simp [Visit.marks])) (.inl h.1)
    · exact .punctuation (hm _ (by simp [Visit.marks, Option.mem_def.mp hc])) (.inr (.inl (h.2 c hc)))
  | property d => exact decl (hm _ (by simp [Visit.marks])) (hm _ (by simp [Visit.marks])) h.1 h.2.1 x hx
  | propertyRule n =>
    simp only [Visit.shows, List.mem_singleton] at hx
    subst hx
    exact .declaration (hm _ (by simp [Visit.marks])) h.1 (by decide) (by simp [h.2])
  | propertyRuleProperty d => exact decl (hm _ (by simp [Visit.marks])) (hm _ (by simp [Visit.marks])) h.1 h.2.1 x hx
  | other s => cases hx

theorem entries_mem (h : SheetFacts src tokens vs) {x : Highlight} (hx : x ∈ entries vs) : show' x ∈ vs.flatMap Visit.shows := by
  rw [h.entries_eq] at hx
  rw [← h.inserts_show]
  exact List.mem_map_of_mem (List.mem_reverse.mp hx)

/-- For every source within the limits (and shorter than 64 KiB), every feature set and every parser of property values: if the style sheet is parsed
and walked, every highlight, as a client reads it by the legend, covers tokens of the source that are what it says. -/
theorem C86_truth_partial (ht : Tame f src) (hs : byteLen src < 65536) (h : (cssStyleSheet V).run (Parser.newWithFeatures src f) = .ok (.ok rules, p'))
    (hv : sheetVisits rules = .ok vs) : ∃ tokens, LexedUntil (Lexer.newWithFeatures src f) tokens p'.offset ∧ ∀ x ∈ entries vs, ShownTruly src tokens (show' x) := by
  obtain ⟨tokens, h1, h2⟩ := sheetFacts ht hs h hv
  refine ⟨tokens, h1, fun x hx => ?_⟩
  obtain ⟨v, hv', hx⟩ := List.mem_flatMap.mp (entries_mem h2 hx)
  exact (h2.labels v hv').truly (h2.marks v hv') _ hx

/-! ## C87 The parts that are shown -/

/-- Whatever is visited, there is one entry for a span, and it is the one that was inserted last. -/
theorem C87_map (visits : List (Visit τ)) :
    (Highlighter.entries visits).Pairwise (fun a b => a.span ≠ b.span)
      ∧ ∀ h, h ∈ Highlighter.entries visits ↔ ∃ before after, visits.flatMap Highlighter.inserts = before ++ h :: after ∧ ∀ x ∈ after, x.span ≠ h.span := by
  unfold Highlighter.entries
  generalize visits.flatMap Highlighter.inserts = hs
  suffices ∀ hs : List Lsp.Highlight, (hs.reverse.foldl Highlighter.insert []).Pairwise (fun a b => a.span ≠ b.span)
      ∧ ∀ h, h ∈ hs.reverse.foldl Highlighter.insert [] ↔ ∃ before after, hs.reverse = before ++ h :: after ∧ ∀ x ∈ after, x.span ≠ h.span by
    have := this hs.reverse
    rwa [List.reverse_reverse] at this
  intro hs
  induction hs with
  | nil => exact ⟨.nil, fun h => ⟨nofun, by rintro ⟨b, a, e, _⟩; cases b <;> cases e⟩⟩
  | cons k hs ih =>
    simp only [List.reverse_cons, List.foldl_append, List.foldl_cons, List.foldl_nil]
    generalize hs.reverse = l at ih
    generalize l.foldl Highlighter.insert [] = m at ih
    unfold Highlighter.insert
    refine ⟨List.pairwise_cons.mpr ⟨fun x hx => ?_, ih.1.filter _⟩, fun h => ?_⟩
    · have := (List.mem_filter.mp hx).2
      simp only [bne_iff_ne, ne_eq] at this
      exact fun e => this e.symm
    · simp only [List.mem_cons, List.mem_filter, bne_iff_ne, ne_eq]
      constructor
      · rintro (rfl | ⟨hm, hne⟩)
        · exact ⟨l, [], rfl, nofun⟩
        · obtain ⟨b, a, rfl, ha⟩ := (ih.2 h).mp hm
          refine ⟨b, a ++ [k], by simp, fun x hx => ?_⟩
          rcases List.mem_append.mp hx with hx | hx
          · exact ha x hx
          · cases List.mem_singleton.mp hx
            exact fun e => hne e.symm
      · rintro ⟨b, a, e, ha⟩
        rcases List.eq_nil_or_concat a with rfl | ⟨a', y, rfl⟩
        · have := List.append_inj' e rfl
          exact .inl (by have := this.2; simp at this; exact this.symm)
        · have e' : l ++ [k] = (b ++ h :: a') ++ [y] := by simpa using e
          obtain ⟨e1, e2⟩ := List.append_inj' e' rfl
          cases e2
          refine .inr ⟨(ih.2 h).mpr ⟨b, a', e1, fun x hx => ha x (by simp [hx])⟩, fun e => ha k (by simp) e.symm⟩

/-- The parts that are shown are not empty, lie in the source, and no two of them have a character in common; and no highlight is lost because
another one is at the same place. -/
theorem C87_apart_partial (ht : Tame f src) (hs : byteLen src < 65536) (h : (cssStyleSheet V).run (Parser.newWithFeatures src f) = .ok (.ok rules, p'))
    (hv : sheetVisits rules = .ok vs) : (entries vs).Pairwise (fun a b => Apart a.span b.span) ∧ (∀ x ∈ entries vs, x.span.start < x.span.stop ∧ x.span.stop ≤ byteLen src) ∧
      (entries vs).Perm (vs.flatMap inserts) := by
  obtain ⟨tokens, h1, h2⟩ := sheetFacts ht hs h hv
  refine ⟨?_, ?_, by rw [h2.entries_eq]; exact List.reverse_perm _⟩
  · rw [h2.entries_eq, List.pairwise_reverse]
    exact h2.inserts_apart.imp fun h => h.symm
  · intro x hx
    exact h2.shows_pos (show' x) (entries_mem h2 hx)

/-! ## C88 When the walk ends -/

/-- Walking a style sheet panics exactly if it comes to a `@media` or a `@-webkit-keyframes` rule, at any depth, but not in a `@-moz-document` rule. -/
theorem C88_panics (rules : List (CssRule τ)) : (sheetVisits rules = .error .todo ↔ ∃ r ∈ walkedAll rules, Unfinished r = true) ∧
    (∀ e, sheetVisits rules = .error e → e = .todo) := by
  rcases sheetVisits_walks rules with ⟨vs, h1, h2, _⟩ | ⟨h1, h2⟩
  · rw [h1]
    refine ⟨⟨nofun, fun ⟨r, hr, hu⟩ => ?_⟩, nofun⟩
    rw [h2 r hr] at hu; cases hu
  · exact ⟨⟨fun _ => h2, fun _ => h1⟩, fun e he => by rw [h1] at he; cases he; rfl⟩

/-! ## C89 All that is to be shown -/

/-- The highlights, as a client reads them, are exactly what is to be shown of the rules that are walked: tags, pseudo-classes, the braces of style rules,
the names and colons of declarations, and the name of a `@property` rule. -/
theorem C89_all_partial (ht : Tame f src) (hs : byteLen src < 65536) (h : (cssStyleSheet V).run (Parser.newWithFeatures src f) = .ok (.ok rules, p'))
    (hv : sheetVisits rules = .ok vs) : ((entries vs).map show').Perm ((walkedAll rules).flatMap ruleShows) := by
  obtain ⟨tokens, h1, h2⟩ := sheetFacts ht hs h hv
  rw [h2.entries_eq, List.map_reverse, h2.inserts_show, sheet_shows hv]
  exact List.reverse_perm _

/-! ### Examples -/

/-- What is shown of a source, with the text of each part. -/
def Spec.showSheet (src : List Char) : Except Panic (Option (List (String × List String × List Char))) :=
  match (cssStyleSheet realValues).run (Parser.new src) with
  | .error e => .error e
  | .ok (.error _, _) => .ok none
  | .ok (.ok rules, _) => (sheetVisits rules).map fun vs => some ((entries vs).reverse.map fun h =>
      let s := show' h
      (s.type, s.modifiers, (s.span.contents src).toOption.getD []))

set_option maxRecDepth 100000 in
example : showSheet c!"a:hover{color:red;--x:y;zz:1}" = .ok (some [("Tag", [], c!"a"), ("PseudoClass", [], c!":hover"), ("Punctuation", [], c!"{"), ("Punctuation", [], c!"}"),
    ("Declaration", [], c!"color"), ("Punctuation", [], c!":"), ("Declaration", ["Custom"], c!"--x"), ("Punctuation", [], c!":"),
    ("Declaration", ["Unknown"], c!"zz"), ("Punctuation", [], c!":")]) := by decide +kernel

set_option maxRecDepth 100000 in
example : showSheet c!"portal:-moz-any-link,a-b,foo{}@keyframes x{from{color:red}}@page{margin:1px;@top-left{zz:1}}@property --a{syntax:'*';foo:bar}" =
    .ok (some [("Tag", ["Experimental"], c!"portal"), ("PseudoClass", ["Deprecated"], c!":-moz-any-link"), ("Tag", ["Custom"], c!"a-b"), ("Tag", ["Unknown"], c!"foo"),
      ("Punctuation", [], c!"{"), ("Punctuation", [], c!"}"), ("Declaration", [], c!"color"), ("Punctuation", [], c!":"), ("Declaration", [], c!"margin"), ("Punctuation", [], c!":"),
      ("Declaration", ["Unknown"], c!"zz"), ("Punctuation", [], c!":"), ("Declaration", ["Custom"], c!"--a"), ("Declaration", [], c!"syntax"), ("Punctuation", [], c!":"),
      ("Declaration", ["Unknown"], c!"foo"), ("Punctuation", [], c!":")]) := by decide +kernel

set_option maxRecDepth 100000 in
/-- Not every obsolete element is shown as deprecated: `acronym` is, `marquee` and `tt` (which are in both lists) are not. -/
theorem C86_counterexample_obsolete : showSheet c!"acronym,marquee,tt{}" = .ok (some [("Tag", ["Deprecated"], c!"acronym"), ("Tag", [], c!"marquee"), ("Tag", [], c!"tt"),
      ("Punctuation", [], c!"{"), ("Punctuation", [], c!"}")])
    ∧ c!"marquee" ∈ HTML_NON_CONFORMING_TAGS ∧ c!"tt" ∈ HTML_NON_CONFORMING_TAGS := ⟨by decide +kernel, by decide +kernel, by decide +kernel⟩

set_option maxRecDepth 100000 in
/-- A `@media` or `@-webkit-keyframes` rule ends the walk with a panic, wherever it is; in `@-moz-document` nothing is looked at. -/
theorem C88_counterexample : (showSheet c!"a{}@media print{}").map (fun _ => ()) = .error .todo ∧ (showSheet c!"a{@media print{}}").map (fun _ => ()) = .error .todo
    ∧ (showSheet c!"@-webkit-keyframes a{}").map (fun _ => ()) = .error .todo ∧ showSheet c!"@-moz-document url(x){@media print{}a{}}" = .ok (some []) := by decide +kernel

set_option maxRecDepth 100000 in
/-- Ids, classes, `*`, attributes, pseudo-elements, what is in the parentheses of a pseudo-class, tags with a namespace and the declarations of `@font-face` are not shown. -/
theorem C89_counterexample : showSheet c!"#a.b[c]:is(d)*::before{}" = .ok (some [("Punctuation", [], c!"{"), ("Punctuation", [], c!"}")])
    ∧ showSheet c!"svg|a{}" = .ok (some [("Punctuation", [], c!"{"), ("Punctuation", [], c!"}")])
    ∧ showSheet c!"@font-face{src:local(x)}" = .ok (some []) := ⟨by decide +kernel, by decide +kernel, by decide +kernel⟩

/-! ## C90 What the server sends -/

theorem parsedSheet_run (hs : byteLen src < 65536) (h : parsedSheet V src = .ok (some rules)) : ∃ p', (cssStyleSheet V).run (Parser.newWithFeatures src {}) = .ok (.ok rules, p') := by
  unfold parsedSheet at h
  cases hr : (Parser.new src).parseEntirely (cssStyleSheet V).run with
  | error e => rw [hr] at h; cases h
  | ok y =>
    obtain ⟨ret, l⟩ := y
    rw [hr] at h
    simp only [Except.map, Except.ok.injEq] at h
    obtain ⟨r, q, rest, h1, _, _, h2, _⟩ := C36_rest (f := {}) hs hr
    rw [h] at h2
    cases r with
    | ok a => cases h2; exact ⟨q, h1⟩
    | error e => cases h2

/-- The text of what is shown. -/
theorem SheetFacts.text {tokens : List Cursor} (h : SheetFacts src tokens vs) {x : Shown} (hx : x ∈ vs.flatMap Visit.shows) :
    ∃ pre text post, src = pre ++ text ++ post ∧ x.span = ⟨byteLen pre, byteLen pre + byteLen text⟩ ∧ text ≠ [] ∧ text.head? ≠ some '\n' := by
  obtain ⟨v, hv, hx⟩ := List.mem_flatMap.mp hx
  obtain ⟨a, ha, b, hb, e, t⟩ := h.hull hv x hx
  obtain ⟨pre, text, post, g⟩ := h.texts _ (h.marks _ hv _ ha)
  obtain ⟨pre', text', post', g'⟩ := h.texts _ (h.marks _ hv _ hb)
  have hn : text.head? ≠ some '\n' := g.not_newline (by
    rcases marks_kind (h.labels v hv) a ha with hk | hk | hk | hk <;> rw [(isKind_iff (by decide)).mp hk] <;> decide)
  rcases t with rfl | t
  · exact ⟨pre, text, post, g.source, by rw [e, g.start, g.stop], g.nonempty, hn⟩
  · have e1 : byteLen pre' = byteLen (pre ++ text) := by
      rw [← g'.start, ← t, g.stop]; simp only [byteLen_eq, utf8Len_append]
    have e2 : pre' = pre ++ text := by
      have es : (pre ++ text) ++ post = pre' ++ (text' ++ post') := by rw [← g.source, g'.source, List.append_assoc]
      obtain ⟨m, hm⟩ := prefix_of_le es (by omega)
      have : m = [] := Classical.byContradiction fun hne => by
        have := utf8Len_pos hne
        rw [hm] at e1
        simp only [byteLen_eq, utf8Len_append] at e1; omega
      rw [hm, this]; simp
    refine ⟨pre, text ++ text', post', by rw [g'.source, e2]; simp, ?_, by simp [g.nonempty], ?_⟩
    · rw [e, g.start, g'.stop, e1]
      simp only [byteLen_eq, utf8Len_append, Nat.add_assoc]
    · cases ht : text with
      | nil => exact absurd ht g.nonempty
      | cons c cs => rw [ht] at hn; simpa using hn

/-- What a client makes of a reply: the tokens with the places they are at. -/
def Spec.withPlaces (tokens : List SemanticToken) : List (SemanticToken × Position) :=
  tokens.zip (Lsp.Spec.decodeDeltas ⟨0, 0⟩ (tokens.map fun t => (t.deltaLine, t.deltaStart)))

/-- What a client that counts lines and columns by `place` and lengths by `size` understands is what is shown. -/
def Spec.Understood (src : List Char) (place : List Char → Position) (size : List Char → Nat) (x : Shown) (t : SemanticToken × Position) : Prop :=
  ∃ pre text post, src = pre ++ text ++ post ∧ x.span = ⟨byteLen pre, byteLen pre + byteLen text⟩ ∧ text ≠ [] ∧ x.type = KINDS.getD t.1.tokenType "" ∧
    x.modifiers = namesOf MODIFIERS t.1.tokenModifiers ∧ t.1.length = size text ∧ t.2 = place pre

theorem reply_of (ht : Tame {} src) (hs : byteLen src < 65536) (hp : parsedSheet V src = .ok (some rules)) (hu : ∀ r ∈ walkedAll rules, Unfinished r = false) :
    ∃ data, ∃ shown : List Shown, highlightReply V src = .ok (some data) ∧ shown.Perm ((walkedAll rules).flatMap ruleShows) ∧ shown.Pairwise (fun a b => a.span.stop ≤ b.span.start) ∧
      (withPlaces (semanticTokens data)).length = shown.length ∧ (semanticTokens data).length = shown.length ∧
      ∀ x ∈ shown.zip (withPlaces (semanticTokens data)), (∃ pre text post, src = pre ++ text ++ post ∧ x.1.span = ⟨byteLen pre, byteLen pre + byteLen text⟩ ∧ text.head? ≠ some '\n') ∧
        Understood src (fun pre => ⟨lineOf pre, columnOf pre⟩) byteLen x.1 x.2 := by
  obtain ⟨p', hr⟩ := parsedSheet_run hs hp
  obtain ⟨vs, hv⟩ : ∃ vs, sheetVisits rules = .ok vs := by
    rcases sheetVisits_walks rules with ⟨vs, h1, _⟩ | ⟨_, r, h1, h2⟩
    · exact ⟨vs, h1⟩
    · rw [hu r h1] at h2; cases h2
  obtain ⟨tokens, h1, h2⟩ := sheetFacts ht hs hr hv
  have hc := C87_apart_partial ht hs hr hv
  have hall := C89_all_partial ht hs hr hv
  obtain ⟨data, d1, d2, d3, d4, d5⟩ := C51_deltas (source := src) (hs := entries vs) fun x hx => by
    obtain ⟨pre, text, post, e1, e2, _⟩ := h2.text (entries_mem h2 hx)
    exact ⟨pre, text ++ post, by rw [e1, List.append_assoc], by show (show' x).span.start = _; rw [e2]⟩
  have pl : withPlaces (semanticTokens data) = (semanticTokens data).zip (Lsp.Spec.decodeDeltas ⟨0, 0⟩ (data.map (·.2))) := by
    unfold withPlaces semanticTokens
    simp only [List.map_map]
    rfl
  refine ⟨data, data.map fun x => show' x.1, ?_, ?_, ?_, ?_, by simp [semanticTokens], ?_⟩
  · unfold highlightReply
    rw [hp]
    simp only [hv, d1]
    rfl
  · refine List.Perm.trans ?_ hall
    have := d2.map show'
    rwa [List.map_map] at this
  · have ap : (data.map (·.1)).Pairwise (fun a b => Apart a.span b.span) :=
      (d2.pairwise_iff (R := fun a b : Highlight => Apart a.span b.span) fun h => h.symm).mpr hc.1
    rw [List.pairwise_map] at d3 ap ⊢
    refine List.Pairwise.imp_of_mem ?_ (d3.and ap)
    intro a b ha hb ⟨g1, g2⟩
    have pa := (hc.2.1 a.1 (d2.mem_iff.mp (List.mem_map_of_mem ha))).1
    have pb := (hc.2.1 b.1 (d2.mem_iff.mp (List.mem_map_of_mem hb))).1
    simp only [spanLe, Bool.or_eq_true, Bool.and_eq_true, decide_eq_true_eq, beq_iff_eq] at g1
    show a.1.span.stop ≤ b.1.span.start
    unfold Apart at g2
    omega
  · rw [pl]
    simp [semanticTokens, d4]
  · intro x hx
    rw [pl] at hx
    unfold semanticTokens at hx
    obtain ⟨y, hy, e⟩ : ∃ y ∈ data.zip (Lsp.Spec.decodeDeltas ⟨0, 0⟩ (data.map (·.2))), x = (show' y.1.1, ⟨y.1.2.1, y.1.2.2, y.1.1.span.stop - y.1.1.span.start, y.1.1.kind, y.1.1.modifier⟩, y.2) := by
      generalize Lsp.Spec.decodeDeltas ⟨0, 0⟩ (data.map (·.2)) = places at hx
      clear d1 d2 d3 d4 d5 pl
      induction data generalizing places with
      | nil => simp at hx
      | cons a data ih =>
        cases places with
        | nil => simp at hx
        | cons b places =>
          simp only [List.map_cons, List.zip_cons_cons, List.mem_cons] at hx
          rcases hx with rfl | hx
          · exact ⟨(a, b), by simp, rfl⟩
          · obtain ⟨y, hy, e⟩ := ih places hx
            exact ⟨y, by simp [hy], e⟩
    subst e
    have hm : y.1.1 ∈ entries vs := d2.mem_iff.mp (List.mem_map.mpr ⟨y.1, (List.of_mem_zip hy).1, rfl⟩)
    obtain ⟨pre, text, post, e1, e2, e3, e4⟩ := h2.text (entries_mem h2 hm)
    obtain ⟨pre', ⟨post', f1, f2⟩, f3⟩ := d5 y hy
    have e2' : y.1.1.span = ⟨byteLen pre, byteLen pre + byteLen text⟩ := e2
    have : pre' = pre := by
      have es : pre' ++ post' = pre ++ (text ++ post) := by rw [← f1, e1, List.append_assoc]
      obtain ⟨m, hm⟩ := prefix_of_le es (by rw [← f2, e2']; exact Nat.le_refl _)
      have : m = [] := Classical.byContradiction fun hne => by
        have := utf8Len_pos hne
        rw [e2'] at f2
        simp only [hm, byteLen_eq, utf8Len_append] at f2; omega
      rw [hm, this]; simp
    subst this
    refine ⟨⟨pre', text, post, e1, e2, e4⟩, pre', text, post, e1, e2, e3, rfl, rfl, ?_, f3⟩
    show y.1.1.span.stop - y.1.1.span.start = byteLen text
    rw [e2']; simp

/-- For every source within the limits: if the whole is parsed and there is no `@media` or `@-webkit-keyframes` rule that is walked, the server sends all that is
to be shown, in the order of the source, one after the other; each token with the type and modifiers of the legend, the number of line feeds before it, the number of
characters since the last of them, and the number of its bytes. -/
theorem C90_reply_partial (ht : Tame {} src) (hs : byteLen src < 65536) (hp : parsedSheet V src = .ok (some rules)) (hu : ∀ r ∈ walkedAll rules, Unfinished r = false) :
    ∃ data, ∃ shown : List Shown, highlightReply V src = .ok (some data) ∧ shown.Perm ((walkedAll rules).flatMap ruleShows) ∧ shown.Pairwise (fun a b => a.span.stop ≤ b.span.start) ∧
      (withPlaces (semanticTokens data)).length = shown.length ∧ (semanticTokens data).length = shown.length ∧
      ∀ x ∈ shown.zip (withPlaces (semanticTokens data)), Understood src (fun pre => ⟨lineOf pre, columnOf pre⟩) byteLen x.1 x.2 := by
  obtain ⟨data, shown, h1, h2, h3, h4, h5, h6⟩ := reply_of ht hs hp hu
  exact ⟨data, shown, h1, h2, h3, h4, h5, fun x hx => (h6 x hx).2⟩

/-- In ASCII sources without lone carriage returns, these are the positions and lengths of the protocol. Missing: other sources (`C90_counterexample_length`, `C45_counterexample`). -/
theorem C90_protocol_partial (ha : ∀ c ∈ src, c.toNat < 128) (hcr : ∀ a b, src = a ++ '\r' :: b → b.head? = some '\n') (ht : Tame {} src) (hs : byteLen src < 65536)
    (hp : parsedSheet V src = .ok (some rules)) (hu : ∀ r ∈ walkedAll rules, Unfinished r = false) :
    ∃ data, ∃ shown : List Shown, highlightReply V src = .ok (some data) ∧ shown.Perm ((walkedAll rules).flatMap ruleShows) ∧ shown.Pairwise (fun a b => a.span.stop ≤ b.span.start) ∧
      (withPlaces (semanticTokens data)).length = shown.length ∧ (semanticTokens data).length = shown.length ∧
      ∀ x ∈ shown.zip (withPlaces (semanticTokens data)), Understood src Lsp.Spec.position (fun text => (text.map Lsp.Spec.utf16Size).sum) x.1 x.2 := by
  obtain ⟨data, shown, h1, h2, h3, h4, h5, h6⟩ := reply_of ht hs hp hu
  refine ⟨data, shown, h1, h2, h3, h4, h5, fun x hx => ?_⟩
  obtain ⟨⟨pre', text', post', f1, f2, f3⟩, pre, text, post, e1, e2, e3, e4, e5, e6, e7⟩ := h6 x hx
  have hpre : pre' = pre ∧ text' = text := by
    rw [f2] at e2
    simp only [Span.mk.injEq] at e2
    have es : pre' ++ (text' ++ post') = pre ++ (text ++ post) := by rw [← List.append_assoc, ← f1, e1, List.append_assoc]
    have split : ∀ {a b c d : List Char}, a ++ b = c ++ d → byteLen a = byteLen c → a = c ∧ b = d := by
      intro a b c d h hl
      obtain ⟨m, hm⟩ := prefix_of_le h (by omega)
      have : m = [] := Classical.byContradiction fun hne => by
        have := utf8Len_pos hne
        simp only [hm, byteLen_eq, utf8Len_append] at hl; omega
      subst this
      rw [List.append_nil] at hm
      subst hm
      exact ⟨rfl, List.append_cancel_left h⟩
    obtain ⟨q1, q2⟩ := split es e2.1
    exact ⟨q1, (split q2 (by omega)).1⟩
  obtain ⟨rfl, rfl⟩ := hpre
  have at' : ∀ c ∈ text', c.toNat < 128 := fun c hc => ha c (by rw [e1]; simp [hc])
  refine ⟨pre', text', post, e1, e2, e3, e4, e5, ?_, ?_⟩
  · rw [e6]
    clear e6 e1 e2 f1 f2 e3 f3
    induction text' with
    | nil => rfl
    | cons c cs ih =>
      have hc := at' c (by simp)
      have h8 : c.utf8Size = 1 := by
        have : c.val ≤ 0x7f := by
          have h128 : c.val.toNat < 128 := hc
          exact UInt32.le_iff_toNat_le.mpr (by show c.val.toNat ≤ 127; omega)
        unfold Char.utf8Size
        simp [this]
      have h16 : Lsp.Spec.utf16Size c = 1 := by unfold Lsp.Spec.utf16Size; rw [if_pos (by omega)]
      have := ih fun d hd => at' d (by simp [hd])
      simp only [byteLen_eq] at this ⊢
      simp only [List.map_cons, List.sum_cons, h16, utf8Len_cons, h8, this]
  · rw [e7]
    refine (position_eq (fun c hc => ?_) ?_).symm
    · have := ha c (by rw [e1]; simp [hc]); omega
    · intro a b e
      cases b with
      | nil =>
        have := hcr a (text' ++ post) (by rw [e1, e]; simp)
        cases text' with
        | nil => exact absurd rfl e3
        | cons c cs => exact absurd (by simpa using this) (by simpa using f3)
      | cons c b =>
        have := hcr a (c :: b ++ text' ++ post) (by rw [e1, e]; simp)
        simpa using this

/-- The order in which the entries come out of the hash map does not matter. -/
theorem C90_any_order_partial {l : List Highlight} (ht : Tame f src) (hs : byteLen src < 65536) (h : (cssStyleSheet V).run (Parser.newWithFeatures src f) = .ok (.ok rules, p'))
    (hv : sheetVisits rules = .ok vs) (hp : l.Perm (entries vs)) : highlightData src l = highlightData src (entries vs) := by
  have hc := C87_apart_partial ht hs h hv
  unfold highlightData
  congr 1
  have total : ∀ a b : Highlight, (spanLe a.span b.span || spanLe b.span a.span) = true := by
    intro a b
    simp only [spanLe, Bool.or_eq_true, Bool.and_eq_true, decide_eq_true_eq, beq_iff_eq]; omega
  have trans : ∀ a b c : Highlight, spanLe a.span b.span = true → spanLe b.span c.span = true → spanLe a.span c.span = true := by
    intro a b c
    simp only [spanLe, Bool.or_eq_true, Bool.and_eq_true, decide_eq_true_eq, beq_iff_eq]; omega
  have s1 := List.pairwise_mergeSort (le := fun a b : Highlight => spanLe a.span b.span) trans total l
  have s2 := List.pairwise_mergeSort (le := fun a b : Highlight => spanLe a.span b.span) trans total (entries vs)
  have q1 := List.mergeSort_perm l fun a b : Highlight => spanLe a.span b.span
  have q2 := List.mergeSort_perm (entries vs) fun a b : Highlight => spanLe a.span b.span
  have ap : ∀ a ∈ entries vs, ∀ b ∈ entries vs, a.span = b.span → a = b := by
    intro a ha b hb e
    refine Classical.byContradiction fun hne => ?_
    have : Apart a.span b.span := by
      have hpw := hc.1
      revert ha hb
      generalize entries vs = es at hpw
      intro ha hb
      induction hpw with
      | nil => cases ha
      | cons h _ ih =>
        rcases List.mem_cons.mp ha with e1 | ha <;> rcases List.mem_cons.mp hb with e2 | hb
        · exact absurd (e1.trans e2.symm) hne
        · exact e1 ▸ h _ hb
        · exact (e2 ▸ h _ ha).symm
        · exact ih ha hb
    have pa := (hc.2.1 a ha).1
    rw [← e] at this
    unfold Apart at this
    omega
  refine List.Perm.eq_of_pairwise (le := fun a b : Highlight => spanLe a.span b.span = true) ?_ s1 s2 (q1.trans (hp.trans q2.symm))
  intro a b ha hb hab hba
  refine ap a (hp.mem_iff.mp (q1.mem_iff.mp ha)) b (q2.mem_iff.mp hb) ?_
  simp only [spanLe, Bool.or_eq_true, Bool.and_eq_true, decide_eq_true_eq, beq_iff_eq] at hab hba
  have e1 : a.span.start = b.span.start := by omega
  have e2 : a.span.stop = b.span.stop := by omega
  cases ha' : a.span; cases hb' : b.span
  simp_all

/-! ### Examples for C90 -/

theorem run_parsedSheet {src : List Char} {rules : List (CssRule τ)} (h : ((Parser.new src).parseEntirely (cssStyleSheet V).run).toOption.bind (·.1.output) = some rules) :
    parsedSheet V src = .ok (some rules) := by
  unfold parsedSheet
  revert h
  cases (Parser.new src).parseEntirely (cssStyleSheet V).run with
  | error e => intro h; cases h
  | ok y => intro h; simpa [Except.map, Except.toOption] using h

set_option maxRecDepth 100000 in
/-- The hypotheses of `C90_reply_partial` and `C90_protocol_partial` hold of a style sheet with a tag, a pseudo-class, braces and two declarations on two lines. -/
example : ∃ rules, Tame {} c!"a:hover{color:red;\nzz:1}" ∧ byteLen c!"a:hover{color:red;\nzz:1}" < 65536 ∧ parsedSheet realValues c!"a:hover{color:red;\nzz:1}" = .ok (some rules) ∧
    (∀ r ∈ walkedAll rules, Unfinished r = false) ∧ ((walkedAll rules).flatMap ruleShows).length = 8 := by
  have h : (((Parser.new c!"a:hover{color:red;\nzz:1}").parseEntirely (cssStyleSheet realValues).run).toOption.bind (·.1.output)).any (fun rules =>
      (walkedAll rules).all (fun r => !Unfinished r) && ((walkedAll rules).flatMap ruleShows).length == 8) = true := by decide +kernel
  obtain ⟨rules, h1, h2⟩ := (Option.any_eq_true _ _).mp h
  simp only [Bool.and_eq_true, List.all_eq_true, Bool.not_eq_true', beq_iff_eq] at h2
  exact ⟨rules, tame_of_ascii (by decide) (by decide), by decide, run_parsedSheet h1, h2.1, h2.2⟩

set_option maxRecDepth 100000 in
/-- The length that is sent for the tag `é` is 2 (its bytes); by the protocol it is 1. -/
theorem C90_counterexample_length : (∃ data, highlightReply realValues c!"é{}" = .ok (some data) ∧ ∃ t ∈ withPlaces (semanticTokens data), t.2 = ⟨0, 0⟩ ∧
    KINDS.getD t.1.tokenType "" = "Tag" ∧ t.1.length = 2) ∧ (c!"é".map Lsp.Spec.utf16Size).sum = 1 := by
  refine ⟨?_, by decide⟩
  have h : (((Parser.new c!"é{}").parseEntirely (cssStyleSheet realValues).run).toOption.bind (·.1.output)).any (fun rules =>
      (walkedAll rules).all (fun r => !Unfinished r) && ((walkedAll rules).flatMap ruleShows).contains ⟨"Tag", ["Unknown"], ⟨0, 2⟩⟩) = true := by decide +kernel
  obtain ⟨rules, h1, h2⟩ := (Option.any_eq_true _ _).mp h
  simp only [Bool.and_eq_true, List.all_eq_true, Bool.not_eq_true', List.contains_iff_mem] at h2
  obtain ⟨data, shown, g1, g2, _, g4, _, g6⟩ := C90_reply_partial (src := c!"é{}") (V := realValues) ⟨withinLimits_of_short (by decide), escAscii_of_no_backslash (by decide), nofun⟩ (by decide) (run_parsedSheet h1) h2.1
  refine ⟨data, g1, ?_⟩
  obtain ⟨i, hi, e⟩ := List.mem_iff_getElem.mp (g2.mem_iff.mpr h2.2)
  have hz : (shown[i], (withPlaces (semanticTokens data))[i]'(by omega)) ∈ shown.zip (withPlaces (semanticTokens data)) := by
    rw [← List.getElem_zip (h := by simp [g4, hi])]
    exact List.getElem_mem _
  obtain ⟨pre, text, post, e1, e2, e3, e4, e5, e6, e7⟩ := g6 _ hz
  rw [e] at e2 e4
  simp only [Span.mk.injEq] at e2
  have hp : pre = [] := Classical.byContradiction fun hne => by have := utf8Len_pos hne; rw [byteLen_eq] at e2; omega
  subst hp
  exact ⟨_, List.getElem_mem _, e7, e4.symm, by rw [e6]; have : byteLen [] = 0 := rfl; omega⟩

set_option maxRecDepth 100000 in
/-- There is not always a reply: of `x/**/|y{}` there is no style sheet, and nothing is sent. -/
theorem C90_counterexample_silent : highlightReply realValues c!"x/**/|y{}" = .ok none := by decide +kernel

end Hdx

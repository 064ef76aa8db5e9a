/-
Properties C93-C95: what the functions of the WebAssembly module return.
-/
import Verif.Model.Wasm
import Verif.Spec.Wasm
import Verif.Lemmas.Blames
import Verif.Props.Build

namespace Hdx
open Spec Prog

/-! ### C93: `lex` -/

theorem wasmLex_tiles (n : Nat) : ∀ (l : Lexer) (x : List Char), x.length ≤ n → l.Before x → Tame l.features x →
    ∃ ts, wasmLexLoop l = .ok (ts ++ [Token.EOF]) ∧ Tiles ts x ∧ ∀ t ∈ ts, t.kind ≠ .eof := by
  induction n with
  | zero =>
    intro l x hx hb ht
    cases List.eq_nil_of_length_eq_zero (Nat.le_zero.mp hx)
    refine ⟨[], ?_, .nil, nofun⟩
    have := advance_before hb
    rw [if_pos rfl] at this
    rw [wasmLexLoop.eq_def]
    split
    · next h => rw [this] at h; cases h
    · next h =>
      rw [this] at h
      cases h
      rw [if_pos (by decide)]
      rfl
  | succ n ih =>
    intro l x hx hb ht
    by_cases hne : x = []
    · subst hne
      exact ih l [] (by simp) hb ht
    obtain ⟨t, l', text, x', h1, h2, h3, h4, h5, h6, h7⟩ := advance_tame hb ht hne
    have hpos := utf8Len_pos h4
    rw [← byteLen_eq, ← h5] at hpos
    have hlen : x'.length ≤ n := by
      have : text.length ≠ 0 := fun h => h4 (List.eq_nil_of_length_eq_zero h)
      rw [h3, List.length_append] at hx
      omega
    obtain ⟨ts, g1, g2, g3⟩ := ih l' x' hlen h7 (by rw [(advance_keeps h1).2.1]; rw [h3] at ht; exact ht.suffix)
    refine ⟨t :: ts, ?_, by rw [h3]; exact .cons h5 h4 g2, ?_⟩
    · rw [wasmLexLoop.eq_def]
      split
      · next h => rw [h1] at h; cases h
      · next h =>
        rw [h1] at h
        cases h
        rw [if_neg h2, dif_neg (by omega), g1]
        rfl
    · intro u hu
      rcases List.mem_cons.mp hu with rfl | hu
      · exact h2
      · exact g3 u hu

/-- `lex` returns the tokens of the source, which cut it into pieces that are not empty, and after them one Eof token of length 0; none of the others is Eof.
What is sent for each token is its kind, its length, and for a dimension its unit. Missing from the full C93: sources that are not `Tame`. -/
theorem C93_lex_partial {src : List Char} (ht : Tame {} src) :
    ∃ ts, wasmLex src = .ok (ts.map Token.wasm ++ [⟨"Eof".toList, 0, none⟩]) ∧ Tiles ts src ∧ ∀ t ∈ ts, t.kind ≠ .eof := by
  obtain ⟨ts, h1, h2, h3⟩ := wasmLex_tiles _ _ src (Nat.le_refl _) (before_new src {}) ht
  refine ⟨ts, ?_, h2, h3⟩
  show (wasmLexLoop (Lexer.newWithFeatures src {})).map _ = _
  rw [h1]
  simp only [Except.map, List.map_append, List.map_cons, List.map_nil]
  rfl

/-- A token is sent with a unit if, and only if, it is a dimension. -/
theorem C93_unit (t : Token) : t.wasm.unit = if t.kind = .dimension then some t.dimensionUnit else none := by
  have h : t.kindBits = Kind.dimension.bits ↔ t.kind = .dimension := by
    rw [← isKind_iff (k := .dimension) (by decide)]
    simp [Token.isKind]
  unfold Token.wasm
  by_cases hk : t.kind = .dimension
  · simp [hk, h.mpr hk]
  · simp [hk, mt h.mp hk]

/-- The kinds of tokens have different names. -/
theorem C93_names {a b : Kind} : a.name = b.name ↔ a = b := by
  constructor
  · revert a b
    intro a b
    cases a <;> cases b <;> first | (intro _; rfl) | (intro h; exact absurd h (by decide))
  · rintro rfl; rfl

example : wasmLex c!"1px {" = .ok [⟨c!"Dimension", 3, some .px⟩, ⟨c!"Whitespace", 1, none⟩, ⟨c!"LeftCurly", 1, none⟩, ⟨c!"Eof", 0, none⟩] := by decide +kernel

/-! ### C94, C95: `parse` and `minify` -/

/-- A token that is not skipped is one of those that are left. -/
theorem peek_in_rest {skip : KindSet} (l : Lexer) {c : Cursor} (h : Parser.peekNextLoop skip l = .ok c) (hc : c.token.isKind .eof = false) :
    ∀ {rest : List Cursor} {off : Nat}, LexedUntil l rest off → off = byteLen l.source → c ∈ rest ∧ c.token.inSet skip = false := by
  fun_induction Parser.peekNextLoop skip l with
  | case1 => cases h
  | case2 l t l' ha he =>
    cases h
    intro rest off hr hoff
    cases hr with
    | done =>
      have := (advance_eof ha).mpr ((C03_eof_iff_at_end ha).mpr hoff)
      rw [this] at hc
      cases hc
    | step ha' hk _ =>
      rw [ha] at ha'; cases ha'
      simp only [hc, Bool.false_or, Bool.not_eq_true'] at he
      exact ⟨by simp, he⟩
  | case3 => cases h
  | case4 l t l' ha he hz ih =>
    intro rest off hr hoff
    cases hr with
    | done =>
      have := (advance_eof ha).mpr ((C03_eof_iff_at_end ha).mpr hoff)
      simp [this] at he
    | step ha' hk hr =>
      rw [ha] at ha'; cases ha'
      obtain ⟨g1, g2⟩ := ih h hr (by rw [(advance_keeps ha).1]; exact hoff)
      exact ⟨List.mem_cons_of_mem _ g1, g2⟩

/-- What a style sheet is parsed to: a style sheet and no errors; or no style sheet and one error or two, of which one has a label. -/
theorem sheet_errors {src : List Char} {output : Option (List (CssRule Val))} {errors : List Diag} (hs : byteLen src < 65536) (h : wasmSheet src = .ok (output, errors)) :
    (∃ rules, output = some rules ∧ errors = [])
      ∨ (output = none ∧ ∃ d q, Blame src {} d q ∧ Somewhere src {} q
          ∧ ((errors = [d] ∧ d.code ≠ .unexpectedCloseCurly) ∨ errors = [d, ⟨.expectedEnd, ⟨q.lexer.offset, byteLen src⟩⟩])) := by
  unfold wasmSheet at h
  cases hp : (Parser.new src).parseEntirely (cssStyleSheet realValues).run with
  | error e => rw [hp] at h; cases h
  | ok x =>
    obtain ⟨ret, l⟩ := x
    rw [hp] at h
    simp only [Except.map, Except.ok.injEq, Prod.mk.injEq] at h
    obtain ⟨rfl, rfl⟩ := h
    obtain ⟨r, q, rest, h1, h2, h3, h4, h5⟩ := C36_rest (prog := cssStyleSheet realValues) (f := {}) hs hp
    obtain ⟨w, hg⟩ := gives_of_run h1
    have hg' : Gives (styleSheetLoop (cssRule realValues (Parser.newWithFeatures src {}).fuel false) (Parser.newWithFeatures src {}).fuel []) (Parser.newWithFeatures src {}) r q w := hg
    cases r with
    | ok rules =>
      refine .inl ⟨rules, h4, ?_⟩
      rcases h5 with ⟨_, g, _⟩ | ⟨⟨c, hc, hk⟩, _⟩
      · exact g
      · rcases styleSheetLoop_ends _ hg' with he | ⟨e, hpeek, he⟩
        · rw [lexed_at_end h2 (by simpa [Parser.atEnd, Lexer.atEnd, byteLen_eq] using he)] at hc
          cases hc
        · rw [rest_skipped _ hpeek he h2 c hc] at hk
          cases hk
    | error d =>
      have hb : Blame src {} d q := Blames.styleSheetLoop (Blames.cssRule _) _ _ (Somewhere.new hs) nofun hg'
      refine .inr ⟨h4, d, q, hb, (Somewhere.new hs).gives hg', ?_⟩
      rcases h5 with ⟨ha, g, _⟩ | ⟨_, g, _⟩
      · refine .inl ⟨g, fun hcode => ?_⟩
        rcases hb with ⟨e, _⟩ | ⟨_, c, hc, hk, _⟩ | ⟨e, _⟩
        · rw [hcode] at e; cases e
        · have hne : c.token.isKind .eof = false := by
            simp only [Token.isKind, beq_iff_eq] at hk ⊢
            rw [hk]; decide
          obtain ⟨m1, m2⟩ := peek_in_rest _ hc hne h2 (by rw [h3])
          rw [ha c m1] at m2
          cases m2
        · rw [hcode] at e; cases e
      · exact .inr g

/-- `minify` returns an error exactly if there is no style sheet, and otherwise the same text as `csskit build`: with C92, every token of the source but
whitespace, comments and semicolons, in order. -/
theorem C94_minify_partial (fmt : FloatFmt) {src : List Char} (hs : byteLen src < 65536) : minify fmt src = build fmt src := by
  unfold minify build
  cases h : wasmSheet src with
  | error e =>
    have : parsedSheet realValues src = .error e := by
      unfold wasmSheet at h
      unfold parsedSheet
      cases hp : (Parser.new src).parseEntirely (cssStyleSheet realValues).run with
      | error e' => rw [hp] at h; cases h; rfl
      | ok x => rw [hp] at h; cases h
    rw [this]
    rfl
  | ok x =>
    obtain ⟨output, errors⟩ := x
    have : parsedSheet realValues src = .ok output := by
      unfold wasmSheet at h
      unfold parsedSheet
      cases hp : (Parser.new src).parseEntirely (cssStyleSheet realValues).run with
      | error e' => rw [hp] at h; cases h
      | ok y => rw [hp] at h; cases h; rfl
    rw [this]
    rcases sheet_errors hs h with ⟨rules, rfl, rfl⟩ | ⟨rfl, d, q, _, _, ⟨rfl, _⟩ | rfl⟩
    · rfl
    · rfl
    · rfl

/-- `parse` never fails in silence: there is no style sheet exactly if there are diagnostics. -/
theorem C95_not_silent {src : List Char} {output : Option (List (CssRule Val))} {diagnostics : List WasmDiagnostic} (hs : byteLen src < 65536)
    (h : wasmParse src = .ok (output, diagnostics)) : output = none ↔ diagnostics ≠ [] := by
  unfold wasmParse at h
  cases hw : wasmSheet src with
  | error e => rw [hw] at h; cases h
  | ok x =>
    obtain ⟨o, errors⟩ := x
    rw [hw] at h
    simp only [Except.map, Except.ok.injEq, Prod.mk.injEq] at h
    obtain ⟨rfl, rfl⟩ := h
    rcases sheet_errors hs hw with ⟨rules, rfl, rfl⟩ | ⟨rfl, d, q, hb, _, ⟨rfl, hd⟩ | rfl⟩
    · simp [wasmDiagnostics]
    · have : d.code ≠ .unexpectedEnd := by
        rcases hb with ⟨e, _⟩ | ⟨e, _⟩ | ⟨e, _⟩ <;> rw [e] <;> decide
      simp [wasmDiagnostics, Diag.label, hd, this]
    · simp [wasmDiagnostics, Diag.label]

/-- `minify` and `csskit build` write nothing exactly for the sources for which `parse` has diagnostics. -/
theorem C94_refused (fmt : FloatFmt) {src : List Char} {output : Option (List (CssRule Val))} {diagnostics : List WasmDiagnostic} (hs : byteLen src < 65536)
    (h : wasmParse src = .ok (output, diagnostics)) : (minify fmt src = .ok none ↔ diagnostics ≠ []) ∧ (build fmt src = .ok none ↔ diagnostics ≠ []) := by
  rw [C94_minify_partial fmt hs, and_self, ← C95_not_silent hs h]
  have hp : parsedSheet realValues src = .ok output := by
    unfold wasmParse wasmSheet at h
    unfold parsedSheet
    cases hp : (Parser.new src).parseEntirely (cssStyleSheet realValues).run with
    | error e => rw [hp] at h; cases h
    | ok x =>
      rw [hp] at h
      simp only [Except.map, Except.ok.injEq, Prod.mk.injEq] at h ⊢
      exact h.1
  unfold build
  rw [hp]
  cases output with
  | none => exact ⟨fun _ => rfl, fun _ => rfl⟩
  | some rules =>
    refine ⟨fun hb => ?_, nofun⟩
    change ((FmtSink.new []).appendAll fmt stringSink src (CssRule.cursorsOf realValues rules) >>= fun sink => pure (some sink.writer)) = .ok none at hb
    cases ha : (FmtSink.new []).appendAll fmt stringSink src (CssRule.cursorsOf realValues rules) with
    | error e => rw [ha] at hb; cases hb
    | ok sink => rw [ha] at hb; cases hb

theorem wasmDiagnostics_mem {errors : List Diag} {x : WasmDiagnostic} (h : x ∈ wasmDiagnostics errors) :
    ∃ d ∈ errors, d.code ≠ .unexpectedCloseCurly ∧ x = ⟨d.span.start, d.span.stop, d.code⟩ := by
  unfold wasmDiagnostics at h
  obtain ⟨d, hd, hx⟩ := List.mem_flatMap.mp h
  refine ⟨d, hd, ?_⟩
  unfold Diag.label at hx
  split at hx
  · cases hx
  · next hc =>
    simp only [Option.map_some, Option.toList_some, List.mem_singleton] at hx
    exact ⟨fun e => hc (.inr e), hx⟩

/-- A place where a token begins is between two characters. -/
theorem lexed_place {src : List Char} {tokens : List Cursor} {off : Nat} (ht : Tame {} src) (h : LexedUntil (Lexer.new src) tokens off) :
    ∃ before after, src = before ++ after ∧ off = byteLen before := by
  obtain ⟨y, ⟨pre, h1, h2⟩, _⟩ := LexedUntil_before h (m := { Lexer.new src with offset := off }) (before_new src {}) ht rfl rfl rfl
  exact ⟨pre, y, h1, h2⟩

/-- A token of the source, or its end, is a piece of its text. -/
theorem ofSource_text {src : List Char} {c : Cursor} (hs : byteLen src < 65536) (ht : Tame {} src) (h : OfSource src {} c) :
    ∃ before text after, src = before ++ text ++ after ∧ c.span.start = byteLen before ∧ c.span.stop = byteLen (before ++ text) ∧ (text = [] → after = []) := by
  rcases h with ⟨tokens, off, hl, hc⟩ | rfl
  · obtain ⟨_, pre, text, post, hat⟩ := (lexed_tokens hl (before_new src {}) ht hs).2 c hc
    exact ⟨pre, text, post, hat.source, hat.start, by simp [Cursor.span, hat.stop, byteLen_eq], fun e => absurd e hat.nonempty⟩
  · exact ⟨src, [], [], by simp, rfl, by simp [Cursor.span, Cursor.endOffset]; intro _; rfl, fun _ => rfl⟩

/-- Where the diagnostics of `parse` are: each begins between two characters of the source, where a token begins. One for a token that was not expected
is at a token of the source or at its end; one for a rest that was ignored ends at the end of the source; so that either selects a piece of the text,
and selects nothing only at the end. Missing from the full C95: where a `BadDeclaration` ends (`C95_counterexample`), and longer or not `Tame` sources. -/
theorem C95_points_partial {src : List Char} {output : Option (List (CssRule Val))} {diagnostics : List WasmDiagnostic} (hs : byteLen src < 65536) (ht : Tame {} src)
    (h : wasmParse src = .ok (output, diagnostics)) {x : WasmDiagnostic} (hx : x ∈ diagnostics) :
    (∃ before after, src = before ++ after ∧ x.start = byteLen before)
      ∧ (x.code = .unexpected ∨ x.code = .expectedEnd ∨ x.code = .badDeclaration)
      ∧ (x.code = .unexpected → ∃ c, OfSource src {} c ∧ x.start = c.offset ∧ x.stop = c.endOffset)
      ∧ (x.code = .expectedEnd → x.stop = byteLen src)
      ∧ (x.code ≠ .badDeclaration → ∃ before text after, src = before ++ text ++ after ∧ x.start = byteLen before ∧ x.stop = byteLen (before ++ text)
          ∧ (text = [] → after = [])) := by
  unfold wasmParse at h
  cases hw : wasmSheet src with
  | error e => rw [hw] at h; cases h
  | ok y =>
    obtain ⟨o, errors⟩ := y
    rw [hw] at h
    simp only [Except.map, Except.ok.injEq, Prod.mk.injEq] at h
    obtain ⟨rfl, rfl⟩ := h
    obtain ⟨d, hd, hcurly, rfl⟩ := wasmDiagnostics_mem hx
    simp only
    have hblame : ∀ {q}, Blame src {} d q → (∃ before after, src = before ++ after ∧ d.span.start = byteLen before)
      ∧ (d.code = .unexpected ∨ d.code = .expectedEnd ∨ d.code = .badDeclaration)
      ∧ (d.code = .unexpected → ∃ c, OfSource src {} c ∧ d.span.start = c.offset ∧ d.span.stop = c.endOffset)
      ∧ (d.code = .expectedEnd → d.span.stop = byteLen src)
      ∧ (d.code ≠ .badDeclaration → ∃ before text after, src = before ++ text ++ after ∧ d.span.start = byteLen before ∧ d.span.stop = byteLen (before ++ text)
          ∧ (text = [] → after = [])) := by
      rintro q (⟨hcode, c, hc, hspan⟩ | ⟨e, _⟩ | ⟨e, tokens, hl⟩)
      · obtain ⟨before, text, after, g1, g2, g3, g4⟩ := ofSource_text hs ht hc
        rw [← hspan] at g2 g3
        refine ⟨⟨before, text ++ after, by rw [g1, List.append_assoc], g2⟩, .inl hcode, fun _ => ⟨c, hc, by rw [hspan]; rfl, by rw [hspan]; rfl⟩, ?_, fun _ => ⟨before, text, after, g1, g2, g3, g4⟩⟩
        intro e
        rw [e] at hcode
        cases hcode
      · exact absurd e hcurly
      · refine ⟨lexed_place ht hl, .inr (.inr e), ?_, ?_, fun h => absurd e h⟩
        · intro e'; rw [e] at e'; cases e'
        · intro e'; rw [e] at e'; cases e'
    rcases sheet_errors hs hw with ⟨rules, rfl, rfl⟩ | ⟨rfl, d', q, hb, hq, ⟨rfl, _⟩ | rfl⟩
    · cases hd
    · cases List.mem_singleton.mp hd
      exact hblame hb
    · simp only [List.mem_cons, List.not_mem_nil, or_false] at hd
      rcases hd with rfl | rfl
      · exact hblame hb
      · obtain ⟨tokens, hl⟩ := hq.reached
        obtain ⟨before, after, g1, g2⟩ := lexed_place ht hl
        refine ⟨⟨before, after, g1, g2⟩, .inr (.inl rfl), nofun, fun _ => rfl, fun _ => ⟨before, after, [], by simp [g1], g2, by rw [← g1], fun _ => rfl⟩⟩

set_option maxRecDepth 100000 in
/-- Whitespace before a custom property that is not in a rule: the diagnostic ends behind the end of the source. -/
theorem C95_counterexample : (wasmParse c!"          --x:{").map (fun r => (r.1.isNone, r.2)) = .ok (true, [⟨10, 20, .badDeclaration⟩, ⟨14, 15, .expectedEnd⟩])
    ∧ byteLen c!"          --x:{" = 15 :=
  ⟨by decide +kernel, by decide +kernel⟩

set_option maxRecDepth 100000 in
/-- A style sheet that is parsed, and one that is not: a comment where a selector is expected. -/
example : minify sampleFmt c!"a { color : red }" = .ok (some c!"a{color:red}") ∧ minify sampleFmt c!"a{x|=y{} /**/}" = .ok none
    ∧ (wasmParse c!"a { color : red }").map (fun r => (r.1.isNone, r.2)) = .ok (false, [])
    ∧ (wasmParse c!"a{x|=y{} /**/}").map (fun r => (r.1.isNone, r.2)) = .ok (true, [⟨9, 13, .unexpected⟩, ⟨13, 14, .expectedEnd⟩]) :=
  ⟨by decide +kernel, by decide +kernel, by decide +kernel, by decide +kernel⟩

example : byteLen c!"a{x|=y{} /**/}" < 65536 ∧ Tame {} c!"a{x|=y{} /**/}" ∧ Tame {} c!"          --x:{" :=
  ⟨by decide, tame_of_ascii (by decide) (by decide), tame_of_ascii (by decide) (by decide)⟩

end Hdx

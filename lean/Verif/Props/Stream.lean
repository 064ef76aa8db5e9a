/-
C01 - C05: the token stream as a whole.

`l.Before cs` says that the lexer `l` is positioned on a character boundary with the text `cs` still to come.
-/
import Verif.Lemmas.ScanCover
import Verif.Lemmas.Guards

namespace Hdx
open Spec

/-- The lexer is on a character boundary and `cs` is the text still to come. -/
def Lexer.Before (l : Lexer) (cs : List Char) : Prop := ∃ pre, l.source = pre ++ cs ∧ l.offset = byteLen pre

/-- The guard of this file's `_partial` theorems: the text is within the documented limits, no backslash is directly followed
by a non-ASCII character, and, when single-line comments are enabled, those are ASCII. -/
structure Tame (f : Features) (cs : List Char) : Prop where
  limits : WithinLimits cs
  escapes : EscAscii cs
  comments : f.singleLineComments = true → LineCommentsAscii cs

theorem Tame.suffix {f : Features} {a b : List Char} (h : Tame f (a ++ b)) : Tame f b :=
  ⟨h.limits.suffix, h.escapes.suffix, fun hf => (h.comments hf).suffix⟩

theorem tame_of_ascii {f : Features} {cs : List Char} (h : ∀ c ∈ cs, c.toNat < 128) (hl : byteLen cs < 2 ^ 12) :
    Tame f cs := ⟨withinLimits_of_short hl, escAscii_of_ascii h, fun _ => lineCommentsAscii_of_ascii h⟩

theorem before_new (src : List Char) (f : Features) : (Lexer.newWithFeatures src f).Before src := ⟨[], rfl, rfl⟩

theorem readNextToken_before (f : Features) (pre cs : List Char) :
    readNextToken f (pre ++ cs) (utf8Len pre)
      = if cs = [] then .ok Token.EOF else (scanToken f cs).map (·.1) := by
  unfold readNextToken
  rw [dropBytes_append]
  by_cases h : cs = []
  · simp [h]
  · have := utf8Len_pos h
    have h' : ¬ utf8Len cs = 0 := by omega
    simp [h, h']

theorem advance_before {l : Lexer} {cs : List Char} (h : l.Before cs) :
    l.advance = if cs = [] then .ok (Token.EOF, { l with token := Token.EOF })
      else (scanToken l.features cs).map (fun p => (p.1, { l with token := p.1, offset := l.offset + p.1.len.toNat })) := by
  obtain ⟨pre, h1, h2⟩ := h
  rw [byteLen_eq] at h2
  unfold Lexer.advance
  rw [h1, h2, readNextToken_before]
  by_cases hc : cs = []
  · simp [hc, show Token.EOF.len.toNat = 0 from rfl, h1, h2]
  · simp only [hc, if_false]
    cases hs : scanToken l.features cs with
    | error e => simp [Except.map]
    | ok p => simp [Except.map, h1, h2]

/-- The next call of `advance()` returns `t` and moves the offset by its length. -/
def Lexer.Yields (l : Lexer) (t : Token) : Prop :=
  ∃ l', l.advance = .ok (t, l') ∧ l'.offset = l.offset + t.len.toNat ∧ l'.source = l.source ∧ l'.features = l.features

theorem yields_of_scan {l : Lexer} {cs r : List Char} {t : Token} (h : l.Before cs) (hne : cs ≠ [])
    (hs : scanToken l.features cs = .ok (t, r)) : l.Yields t := by
  exact ⟨{ l with token := t, offset := l.offset + t.len.toNat }, by rw [advance_before h, if_neg hne, hs]; rfl, rfl, rfl, rfl⟩

/-- What one call does to a lexer positioned before a tame, non-empty text. -/
theorem advance_tame {l : Lexer} {cs : List Char} (h : l.Before cs) (ht : Tame l.features cs) (hne : cs ≠ []) :
    ∃ t l' text cs', l.advance = .ok (t, l') ∧ t.kind ≠ .eof ∧ cs = text ++ cs' ∧ text ≠ [] ∧ t.len.toNat = byteLen text
      ∧ l' = { l with token := t, offset := l.offset + t.len.toNat } ∧ l'.Before cs' := by
  obtain ⟨t, r, h1, text, cs', h2, h3, h4, h5⟩ := scan_covers hne ht.escapes ht.limits ht.comments
  have := advance_before h
  rw [if_neg hne, h1] at this
  refine ⟨t, _, text, cs', this, h5, h2, h3, by rw [byteLen_eq, h4], rfl, ?_⟩
  obtain ⟨pre, p1, p2⟩ := h
  refine ⟨pre ++ text, by simp [p1, h2], ?_⟩
  simp only [byteLen_eq, utf8Len_append] at *
  omega

/-! ## C02 Every advance makes progress -/

/-- If the lexer is not at the end, `advance()` does not panic, returns a token that is not EOF, has length at least 1, and
moves the offset forward by exactly that length, not passing the end. Missing from the full C02: texts outside `Tame`. -/
theorem C02_partial {l : Lexer} {cs : List Char} (h : l.Before cs) (ht : Tame l.features cs) (hne : cs ≠ []) :
    ∃ t l', l.advance = .ok (t, l') ∧ t.kind ≠ .eof ∧ 1 ≤ t.len.toNat
      ∧ l'.offset = l.offset + t.len.toNat ∧ l'.offset ≤ byteLen l.source
      ∧ l'.source = l.source ∧ l'.features = l.features := by
  obtain ⟨t, l', text, cs', h1, h2, h3, h4, h5, h6, pre', h7, h8⟩ := advance_tame h ht hne
  have hpos := utf8Len_pos h4
  have hs : l'.source = l.source := by rw [h6]
  refine ⟨t, l', h1, h2, by rw [h5, byteLen_eq]; omega, by rw [h6], ?_, hs, by rw [h6]⟩
  rw [h8, ← hs, h7]
  simp only [byteLen_eq, utf8Len_append]; omega

example : ∃ t l', (Lexer.new c!"a{b:1px}").advance = .ok (t, l') ∧ t.kind ≠ .eof ∧ 1 ≤ t.len.toNat :=
  let ⟨t, l', h1, h2, h3, _⟩ := C02_partial (before_new c!"a{b:1px}" {})
    (tame_of_ascii (by decide) (by decide)) (by decide)
  ⟨t, l', h1, h2, h3⟩

/-! ## C04 No panic, no split character -/

/-- `advance()` does not panic and leaves the lexer on a character boundary. Missing: texts outside `Tame`. -/
theorem C04_partial {l : Lexer} {cs : List Char} (h : l.Before cs) (ht : Tame l.features cs) :
    ∃ t l' text cs', l.advance = .ok (t, l') ∧ cs = text ++ cs' ∧ l'.Before cs'
      ∧ sliceBytes l.source l.offset (l.offset + t.len.toNat) = some text := by
  by_cases hne : cs = []
  · subst hne
    refine ⟨Token.EOF, _, [], [], by rw [advance_before h, if_pos rfl], rfl, ?_, ?_⟩
    · obtain ⟨pre, h1, h2⟩ := h; exact ⟨pre, h1, h2⟩
    · obtain ⟨pre, h1, h2⟩ := h
      rw [h1, h2, byteLen_eq]
      simpa [show Token.EOF.len.toNat = 0 from rfl] using sliceBytes_append pre [] []
  · obtain ⟨t, l', text, cs', h1, h2, h3, h4, h5, h6, h7⟩ := advance_tame h ht hne
    refine ⟨t, l', text, cs', h1, h3, h7, ?_⟩
    obtain ⟨pre, p1, p2⟩ := h
    rw [p1, p2, h5, h3]
    simpa [byteLen_eq] using sliceBytes_append pre text cs'

/-- Outside the guard `advance()` panics: an escaped non-ASCII character at the start of an identifier. -/
theorem C04_counterexample_panic : (Lexer.new c!"\\é").advance = .error .slice := by
  decide +kernel

/-- Outside the guard `advance()` stops inside a character: in a string an escaped `é` counts one byte too few, ... -/
theorem C04_counterexample_escape :
    ∃ t l, (Lexer.new c!"\"\\é").advance = .ok (t, l) ∧ l.offset = 3 ∧ l.advance = .error .slice := by
  refine ⟨_, _, rfl, ?_, ?_⟩ <;> decide +kernel

/-- ... and so does every non-ASCII character of a single-line comment. -/
theorem C04_counterexample_comment :
    ∃ t l, (Lexer.newWithFeatures c!"//é" { singleLineComments := true }).advance = .ok (t, l) ∧ l.offset = 3
      ∧ l.advance = .error .slice := by
  refine ⟨_, _, rfl, ?_, ?_⟩ <;> decide +kernel

/-! ## C01 The tokens tile the source -/

/-- The source slices of consecutive tokens, the first one starting at `off`; `none` if one is not a valid `str` slice. -/
def tokenSlices (src : List Char) : Nat → List Token → Option (List (List Char))
  | _, [] => some []
  | off, t :: ts => do
    let s ← sliceBytes src off (off + t.len.toNat)
    let r ← tokenSlices src (off + t.len.toNat) ts
    return s :: r

theorem tile_aux (src : List Char) (f : Features) (n : Nat) :
    ∀ (l : Lexer) (cs : List Char), cs.length ≤ n → l.source = src → l.features = f → l.Before cs → Tame f cs →
      ∃ ts l' texts, l.advanceN ts.length = .ok (ts, l') ∧ tokenSlices src l.offset ts = some texts ∧ texts.flatten = cs
        ∧ (∀ s ∈ texts, s ≠ []) ∧ (∀ t ∈ ts, t.kind ≠ .eof) ∧ ts.length ≤ cs.length
        ∧ l'.source = src ∧ l'.features = f ∧ l'.offset = byteLen src := by
  induction n with
  | zero =>
    rintro l cs hn hs hf ⟨pre, p1, p2⟩ _
    have : cs = [] := List.length_eq_zero_iff.mp (by omega)
    subst this
    exact ⟨[], l, [], rfl, rfl, rfl, by simp, by simp, by simp, hs, hf, by rw [p2, ← hs, p1]; simp⟩
  | succ n ih =>
    intro l cs hn hs hf hb ht
    by_cases hne : cs = []
    · subst hne
      obtain ⟨pre, p1, p2⟩ := hb
      exact ⟨[], l, [], rfl, rfl, rfl, by simp, by simp, by simp, hs, hf, by rw [p2, ← hs, p1]; simp⟩
    · obtain ⟨t, l', text, cs', h1, h2, h3, h4, h5, h6, h7⟩ := advance_tame hb (hf ▸ ht) hne
      have hlen : cs'.length + 1 ≤ cs.length := by
        have := List.length_pos_iff.mpr h4
        rw [h3]; simp; omega
      obtain ⟨ts, l'', texts, i1, i2, i3, i4, i5, i6, i7, i8, i9⟩ := ih l' cs' (by omega) (by rw [h6]; exact hs)
        (by rw [h6]; exact hf) h7 (by rw [h3] at ht; exact ht.suffix)
      refine ⟨t :: ts, l'', text :: texts, ?_, ?_, by simp [i3, h3], ?_, ?_, by simp; omega, i7, i8, i9⟩
      · simp only [List.length_cons, Lexer.advanceN, h1, bind, Except.bind, i1, pure, Except.pure]
      · have hsl : sliceBytes src l.offset (l.offset + t.len.toNat) = some text := by
          obtain ⟨pre, p1, p2⟩ := hb
          rw [← hs, p1, p2, h5, h3]
          simpa [byteLen_eq] using sliceBytes_append pre text cs'
        have ho : l'.offset = l.offset + t.len.toNat := by rw [h6]
        rw [ho] at i2
        simp only [tokenSlices, hsl, bind, Option.bind, i2, pure]
      · simpa using ⟨h4, i4⟩
      · simpa using ⟨h2, i5⟩

/-- Repeated `advance()` from the start: after finitely many calls (at most one per character) the tokens' slices, taken in
order and contiguously from offset 0, are valid `str` slices, none is empty, and their concatenation is the source; the lexer
is then at the end and returns EOF. Missing from the full C01: texts outside `Tame`. -/
theorem C01_partial (src : List Char) (f : Features) (ht : Tame f src) :
    ∃ ts l texts, (Lexer.newWithFeatures src f).advanceN ts.length = .ok (ts, l)
      ∧ tokenSlices src 0 ts = some texts ∧ texts.flatten = src ∧ (∀ s ∈ texts, s ≠ []) ∧ (∀ t ∈ ts, t.kind ≠ .eof)
      ∧ ts.length ≤ src.length ∧ l.offset = byteLen src ∧ (l.advance).map (·.1) = .ok Token.EOF := by
  obtain ⟨ts, l, texts, h1, h2, h3, h4, h5, h6, h7, h8, h9⟩ :=
    tile_aux src f src.length _ src (Nat.le_refl _) rfl rfl (before_new src f) ht
  refine ⟨ts, l, texts, h1, h2, h3, h4, h5, h6, h9, ?_⟩
  rw [advance_before (cs := []) ⟨src, by simp [h7], h9⟩]
  rfl

example : ∃ ts l texts, (Lexer.new c!"@media (width>=1e2px){é::b\\41 /**/}").advanceN ts.length = .ok (ts, l)
    ∧ tokenSlices c!"@media (width>=1e2px){é::b\\41 /**/}" 0 ts = some texts
    ∧ texts.flatten = c!"@media (width>=1e2px){é::b\\41 /**/}" :=
  let ⟨ts, l, texts, h1, h2, h3, _⟩ := C01_partial c!"@media (width>=1e2px){é::b\\41 /**/}" {}
    ⟨withinLimits_of_short (by decide), escAscii_of_check (by decide), by simp⟩
  ⟨ts, l, texts, h1, h2, h3⟩

/-! ## C03 EOF exactly at the end -/

/-- EOF is returned exactly when the offset is the end of the source: for every lexer state whatsoever whose `advance()` does
not panic. -/
theorem C03_eof_iff_at_end {l l' : Lexer} {t : Token} (h : l.advance = .ok (t, l')) :
    t.kind = .eof ↔ l.offset = byteLen l.source := by
  rw [byteLen_eq]
  unfold Lexer.advance readNextToken at h
  by_cases he : utf8Len l.source = l.offset
  · simp only [he, BEq.rfl, if_true] at h
    injection h with h; injection h with h _
    subst h
    exact ⟨fun _ => he.symm, fun _ => rfl⟩
  · have he' : (utf8Len l.source == l.offset) = false := by simp [he]
    simp only [he', Bool.false_eq_true, if_false] at h
    refine ⟨fun hk => absurd hk ?_, fun hk => absurd hk.symm he⟩
    cases hd : dropBytes l.source l.offset with
    | none => simp [hd] at h
    | some cs =>
      simp only [hd] at h
      cases hs : scanToken l.features cs with
      | error e => simp [hs, Except.map] at h
      | ok p =>
        simp only [hs, Except.map] at h
        injection h with h; injection h with h _
        subst h
        obtain ⟨t, r⟩ := p
        refine scan_kind ?_ hs
        rintro rfl
        obtain ⟨a, h1, h2⟩ := dropBytes_eq_some hd
        simp at h1; subst h1; exact he h2

/-- At the end, every further call returns EOF and leaves the offset where it is. -/
theorem C03_eof_forever (n : Nat) (l : Lexer) (h : l.offset = byteLen l.source) :
    l.advanceN n = .ok (List.replicate n Token.EOF, if n = 0 then l else { l with token := Token.EOF }) := by
  have step : ∀ l : Lexer, l.offset = byteLen l.source → l.advance = .ok (Token.EOF, { l with token := Token.EOF }) := by
    intro l h
    rw [advance_before (cs := []) ⟨l.source, by simp, h⟩, if_pos rfl]
  have : ∀ n, ∀ l : Lexer, l.offset = byteLen l.source → l.advanceN n
      = .ok (List.replicate n Token.EOF, if n = 0 then l else { l with token := Token.EOF }) := by
    intro n
    induction n with
    | zero => intro l h; rfl
    | succ n ih =>
      intro l h
      simp only [Lexer.advanceN, step l h, bind, Except.bind, pure, Except.pure]
      rw [ih _ (by exact h)]
      by_cases hn : n = 0
      · subst hn; rfl
      · simp [hn, List.replicate_succ]
  exact this n l h

/-- A NUL in the text is a token, not the end. -/
example : ((Lexer.new c!"\x00").advanceN 2).map (fun p => (p.1.map Token.kind, p.2.offset)) = .ok ([.ident, .eof], 1) := by
  decide +kernel
example : ((Lexer.new c!"ab").advanceN 4).map (fun p => p.1.map Token.kind) = .ok [.ident, .eof, .eof, .eof] := by
  decide +kernel

/-! ## C05 Lexing is a function of the remaining text -/

/-- Two lexers with the same features positioned before the same text return the same token (or both panic). -/
theorem C05_suffix {l₁ l₂ : Lexer} {cs : List Char} (h₁ : l₁.Before cs) (h₂ : l₂.Before cs)
    (hf : l₁.features = l₂.features) : l₁.advance.map (·.1) = l₂.advance.map (·.1) := by
  rw [advance_before h₁, advance_before h₂, hf]
  by_cases h : cs = []
  · simp [h, Except.map]
  · simp only [h, if_false]
    cases scanToken l₂.features cs <;> simp [Except.map]

theorem advanceN_keeps (n : Nat) : ∀ {l l' : Lexer} {ts : List Token}, l.advanceN n = .ok (ts, l') →
    l'.source = l.source ∧ l'.features = l.features := by
  induction n with
  | zero => intro l l' ts h; simp [Lexer.advanceN] at h; simp [h.2]
  | succ n ih =>
    intro l l' ts h
    simp only [Lexer.advanceN, bind, Except.bind] at h
    cases ha : l.advance with
    | error e => simp [ha] at h
    | ok p =>
      obtain ⟨t, l1⟩ := p
      simp only [ha] at h
      cases hn : Lexer.advanceN n l1 with
      | error e => simp [hn] at h
      | ok q =>
        obtain ⟨ts1, l2⟩ := q
        simp [hn, pure, Except.pure] at h
        have := ih hn
        rw [← h.2]
        have hk : l1.source = l.source ∧ l1.features = l.features := by
          unfold Lexer.advance at ha
          split at ha
          · contradiction
          · injection ha with ha; injection ha with _ ha; subst ha; exact ⟨rfl, rfl⟩
        exact ⟨this.1.trans hk.1, this.2.trans hk.2⟩

/-- Rewinding to a checkpoint after any number of calls restores the lexer, so the same calls return the same tokens. -/
theorem C05_rewind (n m : Nat) {l l' : Lexer} {ts : List Token} (h : l.advanceN n = .ok (ts, l')) :
    l'.rewind l.checkpoint = l ∧ (l'.rewind l.checkpoint).advanceN m = l.advanceN m := by
  have := advanceN_keeps n h
  have e : l'.rewind l.checkpoint = l := by
    simp only [Lexer.rewind, Lexer.checkpoint]
    rw [show l' = ⟨l'.source, l'.offset, l'.token, l'.features⟩ from rfl]
    simp only [this.1, this.2]
  exact ⟨e, by rw [e]⟩

example : ((Lexer.new c!"a b c").advanceN 3).map (fun p => (p.1.map Token.kind, p.2.offset))
    = .ok ([.ident, .whitespace, .ident], 3) := by decide +kernel

end Hdx

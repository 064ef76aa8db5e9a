/-
C06 - C09: whitespace, comments and strings.
-/
import Verif.Props.Stream

namespace Hdx
open Spec

/-! ## C06 Whitespace -/

theorem foldl_wsFlag_bit (ws : List Char) (hw : ∀ c ∈ ws, Ws c) (st : Whitespace) (i : Nat) (hi : i < 8) :
    (ws.foldl (fun s c => s.or (wsFlag c)) st).bits.getLsbD i
      = (st.bits.getLsbD i || ws.any (fun c => (wsFlag c).bits.getLsbD i)) := by
  induction ws generalizing st with
  | nil => simp
  | cons c ws ih =>
    rw [List.foldl_cons, ih (fun c hc => hw c (by simp [hc]))]
    simp [Whitespace.or, Bool.or_assoc]

theorem intersects_bit (w : Whitespace) (i : Nat) (hi : i < 8) :
    w.intersects ⟨BitVec.twoPow 8 i⟩ = w.bits.getLsbD i := by
  unfold Whitespace.intersects
  rw [BitVec.and_twoPow]
  cases h : w.bits.getLsbD i
  · simp
  · simp only [if_true]
    have : BitVec.twoPow 8 i ≠ 0#8 := by
      intro h0
      have := congrArg (fun b => b.getLsbD i) h0
      simp at this; omega
    simp [this]

/-- With default features: a maximal run of whitespace is one Whitespace token covering exactly the run, whose style has each
flag exactly when such a character occurs. -/
theorem C06_collapsed {l : Lexer} {ws rest : List Char} (h : l.Before (ws ++ rest))
    (hf : l.features.separateWhitespace = false) (hw : MaximalRun Ws ws rest) (hl : byteLen (ws ++ rest) < 2 ^ 32) :
    ∃ t, l.Yields t ∧ t.kind = .whitespace ∧ t.len.toNat = byteLen ws
      ∧ (t.whitespaceStyle.intersects .space = true ↔ ' ' ∈ ws)
      ∧ (t.whitespaceStyle.intersects .tab = true ↔ '\t' ∈ ws)
      ∧ (t.whitespaceStyle.intersects .newline = true ↔ ∃ c ∈ ws, Newline c) := by
  obtain ⟨hne, hws, hr⟩ := hw
  match ws, hne with
  | c :: ws, _ =>
  have hs := scan_ws (f := l.features) (cs := ws ++ rest) (hws c (by simp)) hf
  rw [← List.cons_append, consumeWhitespace_eq _ hws hr] at hs
  rw [byteLen_eq, utf8Len_append] at hl
  refine ⟨_, yields_of_scan h (by simp) hs, ?_⟩
  have hlt := wsFlags_lt (c :: ws) .none (by decide)
  obtain ⟨h1, h2, h3⟩ := C17_whitespace _ hlt (w32 (c :: ws).length)
  have hu := utf8Len_ws hws
  refine ⟨h1, by rw [h2, w32_toNat (by omega), byteLen_eq, hu], ?_⟩
  rw [h3]
  have key := fun i hi => (intersects_bit ((c :: ws).foldl (fun s c => s.or (wsFlag c)) Whitespace.none) i hi).trans
    (foldl_wsFlag_bit (c :: ws) hws .none i hi)
  have k0 := key 0 (by decide)
  have k1 := key 1 (by decide)
  have k2 := key 2 (by decide)
  rw [show (⟨BitVec.twoPow 8 0⟩ : Whitespace) = Whitespace.space from rfl] at k0
  rw [show (⟨BitVec.twoPow 8 1⟩ : Whitespace) = Whitespace.tab from rfl] at k1
  rw [show (⟨BitVec.twoPow 8 2⟩ : Whitespace) = Whitespace.newline from rfl] at k2
  have e0 : ∀ i, Whitespace.none.bits.getLsbD i = false := by intro i; simp [Whitespace.none]
  rw [e0, Bool.false_or] at k0 k1 k2
  have cls : ∀ d, Ws d → ((wsFlag d).bits.getLsbD 0 = true ↔ d = ' ') ∧ ((wsFlag d).bits.getLsbD 1 = true ↔ d = '\t')
      ∧ ((wsFlag d).bits.getLsbD 2 = true ↔ Newline d) := by
    rintro d (rfl | rfl | rfl | rfl | rfl) <;> (simp only [← isNewline_iff]; decide)
  refine ⟨?_, ?_, ?_⟩
  · rw [k0, List.any_eq_true]
    exact ⟨fun ⟨d, hd, hb⟩ => ((cls d (hws d hd)).1.mp hb) ▸ hd, fun hm => ⟨' ', hm, by decide⟩⟩
  · rw [k1, List.any_eq_true]
    exact ⟨fun ⟨d, hd, hb⟩ => ((cls d (hws d hd)).2.1.mp hb) ▸ hd, fun hm => ⟨'\t', hm, by decide⟩⟩
  · rw [k2, List.any_eq_true]
    exact ⟨fun ⟨d, hd, hb⟩ => ⟨d, hd, (cls d (hws d hd)).2.2.mp hb⟩,
      fun ⟨d, hd, hb⟩ => ⟨d, hd, (cls d (hws d hd)).2.2.mpr hb⟩⟩

/-- With `SeparateWhitespace`: a maximal run of one class is one Whitespace token with exactly that flag. -/
theorem C06_separate {l : Lexer} {ws rest : List Char} {P : Char → Prop} {style : Whitespace}
    (hP : (P = (· = ' ') ∧ style = .space) ∨ (P = (· = '\t') ∧ style = .tab) ∨ (P = Newline ∧ style = .newline))
    (h : l.Before (ws ++ rest)) (hf : l.features.separateWhitespace = true) (hw : MaximalRun P ws rest)
    (hl : byteLen (ws ++ rest) < 2 ^ 32) :
    ∃ t, l.Yields t ∧ t.kind = .whitespace ∧ t.len.toNat = byteLen ws ∧ t.whitespaceStyle = style := by
  obtain ⟨hne, hws, hr⟩ := hw
  have hall : ∀ c ∈ ws, Ws c := by
    intro c hc
    have := hws c hc
    rcases hP with ⟨rfl, _⟩ | ⟨rfl, _⟩ | ⟨rfl, _⟩
    · exact Or.inl this
    · exact Or.inr (Or.inl this)
    · exact Or.inr (Or.inr this)
  have hu := utf8Len_ws hall
  rw [byteLen_eq, utf8Len_append] at hl
  have fin : ∀ st : Whitespace, st.bits.toNat < 8 → scanToken l.features (ws ++ rest)
      = .ok (Token.newWhitespace st (w32 ws.length), rest) →
      ∃ t, l.Yields t ∧ t.kind = .whitespace ∧ t.len.toNat = byteLen ws ∧ t.whitespaceStyle = st := by
    intro st hst hs
    refine ⟨_, yields_of_scan h (by simp [hne]) hs, ?_⟩
    obtain ⟨h1, h2, h3⟩ := C17_whitespace st hst (w32 ws.length)
    exact ⟨h1, by rw [h2, w32_toNat (by omega), byteLen_eq, hu], h3⟩
  match ws, hne with
  | c :: ws, _ =>
  have hc := hws c (by simp)
  have hs := scan_sep (f := l.features) (cs := ws ++ rest) (hall c (by simp)) hf
  rw [← List.cons_append] at hs
  rcases hP with ⟨rfl, rfl⟩ | ⟨rfl, rfl⟩ | ⟨rfl, rfl⟩
  · rw [if_neg (by rw [hc]; decide), if_pos hc, consumeSame_eq hws hr] at hs
    exact fin _ (by decide) hs
  · rw [if_pos hc, consumeSame_eq hws hr] at hs
    exact fin _ (by decide) hs
  · rw [if_neg, if_neg, consumeNewlines_eq hws hr] at hs
    · exact fin _ (by decide) hs
    · rintro rfl; revert hc; rw [← isNewline_iff]; decide
    · rintro rfl; revert hc; rw [← isNewline_iff]; decide

example : MaximalRun Ws c!" \n\t" c!"a" :=
  ⟨by simp, by simp [Ws, Newline], by rw [starts_cons, ← isWhitespace_iff]; decide⟩
example : (Lexer.new c!" \n\ta").Before (c!" \n\t" ++ c!"a") := before_new _ _

/-! ## C07 Block comments -/

/-- The documented styles of block comments (css_lexer/src/comment_style.rs:35-52), from the text after `/*`. -/
def Spec.BlockStyle (after : List Char) (style : CommentStyle) : Prop :=
  (Starts (· = '!') after → style = .blockBang)
  ∧ (Starts (· = '#') after → style = .blockPound)
  ∧ (Starts (fun c => c = '-' ∨ c = '=') after → style = .blockHeading)
  ∧ (Starts (· = '*') after → ¬ ['*', '/'] <+: after → style = .blockStar)
  ∧ (['*', '/'] <+: after → style = .block)
  ∧ (¬ Starts (fun c => c ∈ ['!', '#', '-', '=', '*']) after → style = .block)

theorem blockCommentStyle_spec (cs : List Char) : Spec.BlockStyle cs (blockCommentStyle cs) := by
  unfold Spec.BlockStyle blockCommentStyle
  match cs with
  | [] =>
    have h := fun P => not_starts_nil P
    exact ⟨fun hs => absurd hs (h _), fun hs => absurd hs (h _), fun hs => absurd hs (h _), fun hs => absurd hs (h _),
      fun hs => by simp at hs, fun _ => by decide⟩
  | [c] =>
    simp only [starts_cons, peekNth_cons_zero, peekNth_cons_succ, peekNth_nil]
    refine ⟨?_, ?_, ?_, ?_, ?_, ?_⟩
    · rintro rfl; decide
    · rintro rfl; decide
    · rintro (rfl | rfl) <;> decide
    · rintro rfl _; decide
    · intro h; simp at h
    · intro h
      simp only [List.mem_cons, List.not_mem_nil, or_false, not_or] at h
      simp [h]
  | c :: d :: r =>
    simp only [starts_cons, peekNth_cons_zero, peekNth_cons_succ]
    refine ⟨?_, ?_, ?_, ?_, ?_, ?_⟩
    · rintro rfl; simp
    · rintro rfl; simp
    · rintro (rfl | rfl) <;> simp
    · rintro rfl hn; simp at hn; simp [Ne.symm hn]
    · intro h; simp at h; simp [← h.1, ← h.2]
    · intro h
      simp only [List.mem_cons, List.not_mem_nil, or_false, not_or] at h
      simp [h]

/-- A block comment ends right after the first `*/` that follows its opener. -/
theorem C07_closed {l : Lexer} {body rest : List Char} (h : l.Before ('/' :: '*' :: (body ++ ['*', '/'] ++ rest)))
    (hb : FirstClose body rest) (hl : byteLen ('/' :: '*' :: (body ++ ['*', '/'] ++ rest)) < 2 ^ 32) :
    ∃ t, l.Yields t ∧ t.kind = .comment ∧ t.len.toNat = byteLen ('/' :: '*' :: (body ++ ['*', '/']))
      ∧ ∃ style, t.commentStyle = some style ∧ Spec.BlockStyle (body ++ ['*', '/'] ++ rest) style := by
  have hs := scan_slash (f := l.features) (cs := '*' :: (body ++ ['*', '/'] ++ rest))
  rw [if_pos (by rfl), List.tail_cons, blockCommentLoop_eq hb] at hs
  refine ⟨_, yields_of_scan h (by simp) hs, ?_⟩
  obtain ⟨h1, h2, h3⟩ := C17_comment (blockCommentStyle (body ++ ['*', '/'] ++ rest)) (w32 (2 + utf8Len body + 2))
  refine ⟨h1, ?_, _, h3, blockCommentStyle_spec _⟩
  simp only [byteLen_eq, utf8Len_cons, utf8Len_append, utf8Len_nil, show '/'.utf8Size = 1 by decide,
    show '*'.utf8Size = 1 by decide] at *
  rw [h2, w32_toNat (by omega)]; omega

/-- A block comment that is never closed extends to the end of the text. -/
theorem C07_unclosed {l : Lexer} {body : List Char} (h : l.Before ('/' :: '*' :: body)) (hb : NoClose body)
    (hl : byteLen ('/' :: '*' :: body) < 2 ^ 32) :
    ∃ t, l.Yields t ∧ t.kind = .comment ∧ t.len.toNat = byteLen ('/' :: '*' :: body)
      ∧ ∃ style, t.commentStyle = some style ∧ Spec.BlockStyle body style := by
  have hs := scan_slash (f := l.features) (cs := '*' :: body)
  rw [if_pos (by rfl), List.tail_cons, blockCommentLoop_open hb] at hs
  refine ⟨_, yields_of_scan h (by simp) hs, ?_⟩
  obtain ⟨h1, h2, h3⟩ := C17_comment (blockCommentStyle body) (w32 (2 + utf8Len body))
  refine ⟨h1, ?_, _, h3, blockCommentStyle_spec _⟩
  simp only [byteLen_eq, utf8Len_cons, show '/'.utf8Size = 1 by decide, show '*'.utf8Size = 1 by decide] at *
  rw [h2, w32_toNat (by omega)]; omega

/-- The two cases are exhaustive. -/
theorem C07_total (cs : List Char) : NoClose cs ∨ ∃ body rest, cs = body ++ ['*', '/'] ++ rest ∧ FirstClose body rest :=
  exists_close cs

example : ((Lexer.new c!"/** a*b **/*/").advance.map (fun p => (p.1.len.toNat, p.1.commentStyle)))
    = .ok (11, some .blockStar) := by decide +kernel

/-! ## C08 Single-line comments -/

/-- With `SingleLineComments`, `//` starts a Comment that ends just before the first newline. Missing from the full C08:
comments with non-ASCII characters (whose length is under-counted) or NUL (which ends the comment early). -/
theorem C08_partial {l : Lexer} {body rest : List Char} (h : l.Before ('/' :: '/' :: (body ++ rest)))
    (hf : l.features.singleLineComments = true) (hb : ∀ c ∈ body, ¬ Newline c)
    (hr : rest = [] ∨ Starts Newline rest) (hascii : ∀ c ∈ body, c.toNat < 128 ∧ c ≠ NUL)
    (hl : byteLen ('/' :: '/' :: (body ++ rest)) < 2 ^ 32) :
    ∃ t, l.Yields t ∧ t.kind = .comment ∧ t.len.toNat = byteLen ('/' :: '/' :: body)
      ∧ (Starts (· = '*') (body ++ rest) → t.commentStyle = some .singleStar)
      ∧ (Starts (· = '!') (body ++ rest) → t.commentStyle = some .singleBang)
      ∧ (¬ Starts (fun c => c = '*' ∨ c = '!') (body ++ rest) → t.commentStyle = some .single) := by
  have hs := scan_slash (f := l.features) (cs := '/' :: (body ++ rest))
  rw [if_neg (by simp), if_pos (by simp [hf]), List.tail_cons, lineCommentLoop_eq
    (fun c hc => ⟨hb c hc, (hascii c hc).2⟩)
    (hr.imp_right (fun ⟨c, r, e, hc⟩ => ⟨c, r, e, Or.inl hc⟩))] at hs
  refine ⟨_, yields_of_scan h (by simp) hs, ?_⟩
  obtain ⟨h1, h2, h3⟩ := C17_comment (lineCommentStyle (body ++ rest)) (w32 (2 + body.length))
  have hbl : utf8Len body = body.length := utf8Len_of_ascii (fun c hc => by simpa [isAscii] using (hascii c hc).1)
  refine ⟨h1, ?_, ?_⟩
  · simp only [byteLen_eq, utf8Len_cons, utf8Len_append, show '/'.utf8Size = 1 by decide] at *
    rw [h2, w32_toNat (by omega)]; omega
  · rw [h3]
    generalize body ++ rest = cs
    cases cs with
    | nil =>
      have h := fun P => not_starts_nil P
      exact ⟨fun hs => absurd hs (h _), fun hs => absurd hs (h _), fun _ => rfl⟩
    | cons c r =>
      simp only [starts_cons, lineCommentStyle, peekNth_cons_zero]
      refine ⟨?_, ?_, ?_⟩
      · rintro rfl; rfl
      · rintro rfl; rfl
      · intro hn; simp only [not_or] at hn; simp [hn.1, hn.2]

/-- Without the feature `//` is two `/` delims. -/
theorem C08_disabled {l : Lexer} {rest : List Char} (h : l.Before ('/' :: '/' :: rest))
    (hf : l.features.singleLineComments = false) : l.Yields Token.SLASH := by
  have hs := scan_slash (f := l.features) (cs := '/' :: rest)
  rw [if_neg (by simp), if_neg (by simp [hf])] at hs
  exact yields_of_scan h (by simp) hs

/-- What is missing: `//é` followed by a newline is one byte short, and a NUL ends the comment. -/
theorem C08_counterexample :
    ((Lexer.newWithFeatures c!"//é\n" { singleLineComments := true }).advance.map (·.1.len.toNat)) = .ok 3
    ∧ ((Lexer.newWithFeatures c!"//a\x00b" { singleLineComments := true }).advance.map (·.1.len.toNat)) = .ok 3 := by
  decide +kernel

example : ((Lexer.newWithFeatures c!"//! ab\nc" { singleLineComments := true }).advance.map
    (fun p => (p.1.len.toNat, p.1.commentStyle))) = .ok (6, some .singleBang) := by decide +kernel

/-! ## C09 Strings -/

/-- The style of a quote character. -/
def Spec.quoteOf (q : Char) : QuoteStyle := if q = '"' then .double else .single

/-- String tokens. `us` is the content up to the closing quote, an unescaped newline or the end of the text. Missing from the
full C09: texts with an escaped non-ASCII character or an escaped NUL, and `quote_style()` of an unclosed single-quoted string. -/
theorem C09_partial {l : Lexer} {q : Char} {us : List StrUnit} {rest : List Char} (hq : q = '"' ∨ q = '\'')
    (h : l.Before (q :: (strText us ++ rest))) (hv : ValidStr q us rest) (hr : StrStops q rest)
    (ha : EscAscii (strText us ++ rest)) (hn : NoEscNul (strText us ++ rest))
    (hl : byteLen (q :: (strText us ++ rest)) < 2 ^ 32) :
    (Starts (· = q) rest →
      ∃ t, l.Yields t ∧ t.kind = .string ∧ t.len.toNat = byteLen (q :: (strText us ++ [q])) ∧ t.hasCloseQuote = true
        ∧ t.quoteStyle = Spec.quoteOf q ∧ (t.containsEscapeChars = true ↔ StrHasEsc us))
    ∧ (rest = [] →
      ∃ t, l.Yields t ∧ t.kind = .string ∧ t.len.toNat = byteLen (q :: strText us) ∧ t.hasCloseQuote = false
        ∧ (q = '"' → t.quoteStyle = .double) ∧ (t.containsEscapeChars = true ↔ StrHasEsc us))
    ∧ (Starts Newline rest →
      ∃ t, l.Yields t ∧ t.kind = .badString ∧ t.len.toNat = byteLen (q :: strText us)) := by
  have hs := scan_quote (f := l.features) (cs := strText us ++ rest) hq
  have hqs : q.utf8Size = 1 := by rcases hq with rfl | rfl <;> decide
  have heq := stringLoop_eq hq hv hr ha hn false 1
  simp only [byteLen_eq, utf8Len_cons, utf8Len_append, hqs, utf8Len_nil] at hl ⊢
  have hqo : (if q == '"' then QuoteStyle.double else .single) = Spec.quoteOf q := by
    rcases hq with rfl | rfl <;> rfl
  have hqo' : Spec.quoteOf q = .single ∨ Spec.quoteOf q = .double := by
    rcases hq with rfl | rfl <;> simp [Spec.quoteOf]
  refine ⟨?_, ?_, ?_⟩
  · rintro ⟨c, r, rfl, rfl⟩
    simp only [strFinish, if_true] at heq
    rw [consumeString, heq, hqo] at hs
    refine ⟨_, yields_of_scan h (by simp) hs, ?_⟩
    obtain ⟨h1, h2, h3, h4, h5⟩ := C17_string (Spec.quoteOf c) hqo' true (false || strEsc us)
      (w32 (1 + utf8Len (strText us) + 1))
    simp only [utf8Len_cons, hqs] at hl
    exact ⟨h1, by rw [h2, w32_toNat (by omega)]; omega, h3, h5 (Or.inl rfl), by rw [h4]; simpa using strEsc_iff us⟩
  · rintro rfl
    simp only [strFinish] at heq
    rw [consumeString, heq, hqo] at hs
    refine ⟨_, yields_of_scan h (by simp) hs, ?_⟩
    obtain ⟨h1, h2, h3, h4, h5⟩ := C17_string (Spec.quoteOf q) hqo' false (false || strEsc us)
      (w32 (1 + utf8Len (strText us)))
    refine ⟨h1, by rw [h2, w32_toNat (by omega)], h3, ?_, by rw [h4]; simpa using strEsc_iff us⟩
    rintro rfl; exact h5 (Or.inr rfl)
  · rintro ⟨c, r, rfl, hc⟩
    have hcq : ¬ c = q := by
      rintro rfl
      revert hc; rw [← isNewline_iff]; rcases hq with rfl | rfl <;> decide
    simp only [strFinish, hcq, if_false] at heq
    rw [consumeString, heq] at hs
    refine ⟨_, yields_of_scan h (by simp) hs, ?_⟩
    obtain ⟨h1, h2⟩ := C17_badString (w32 (1 + utf8Len (strText us)))
    exact ⟨h1, by rw [h2, w32_toNat (by omega)]⟩

/-- Every text after a quote has such a content, so the three cases of `C09_partial` are exhaustive. -/
theorem C09_total (q : Char) (hq : q = '"' ∨ q = '\'') (cs : List Char) :
    ∃ us rest, cs = strText us ++ rest ∧ ValidStr q us rest ∧ StrStops q rest := exists_str q hq cs

/-- What is missing: an unclosed single-quoted string has no quote style; an escaped NUL ends the string; and see
`C04_counterexample_escape`. -/
theorem C09_counterexample :
    ((Lexer.new c!"'ab").advance.map (·.1.quoteStyle)) = .ok .none
    ∧ ((Lexer.new c!"\"a\\\x00b\"").advance.map (fun p => (p.1.len.toNat, p.1.hasCloseQuote))) = .ok (3, false) := by
  decide +kernel

example : ((Lexer.new c!"'a\\'b\\\nc' d").advance.map (fun p => (p.1.kind, p.1.len.toNat, p.1.quoteStyle)))
    = .ok (.string, 9, .single) := by decide +kernel
example : ValidStr '\'' [.chr 'a', .esc ['\''], .chr 'b', .cont ['\n'], .chr 'c'] c!"' d" := by
  refine ⟨by decide, by rw [← isNewline_iff]; decide, by decide, .plain (by rw [← isHexDigit_iff]; decide)
    (by rw [← isNewline_iff]; decide), by decide, by rw [← isNewline_iff]; decide, by decide,
    .one (Or.inl rfl) (by simp), by decide, by rw [← isNewline_iff]; decide, by decide, trivial⟩

end Hdx

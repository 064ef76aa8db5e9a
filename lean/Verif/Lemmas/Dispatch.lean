/-
Helper lemmas: which branch of `read_next_token` a first character selects.
-/
import Verif.Lemmas.EvalUrl
import Verif.Lemmas.Number
import Verif.Lemmas.UrlKeyword
import Verif.Lemmas.TokenLemmas

namespace Hdx
open Spec

/-- The codes of the characters that always are a token of their own. -/
def singles : List Nat := [33, 36, 37, 38, 40, 41, 42, 44, 58, 59, 61, 62, 63, 91, 93, 94, 96, 123, 124, 125, 126]

theorem single_iff (n : Nat) (h : n < 128) : (singleCharToken n != Token.EOF) = decide (n ∈ singles) := by
  revert h n; decide +kernel

theorem single_cond (c : Char) :
    (decide (c.toNat < 128) && singleCharToken c.toNat != Token.EOF) = decide (c.toNat ∈ singles) := by
  by_cases h : c.toNat < 128
  · rw [single_iff _ h]; simp [h]
  · have : ¬ c.toNat ∈ singles := by
      intro hm; simp [singles] at hm; omega
    simp [h, this]

section
variable {f : Features} {c : Char} {cs : List Char}

theorem scan_single (h : c.toNat ∈ singles) : scanToken f (c :: cs) = .ok (singleCharToken c.toNat, cs) := by
  unfold scanToken
  dsimp only
  rw [peekNth_cons_zero]
  rw [single_cond, if_pos (by simpa using h)]
  rfl

theorem scan_identAscii (h : c.toNat < 128 ∧ isIdentAsciiStart c = true) :
    scanToken f (c :: cs) = consumeIdentLike (c :: cs) := by
  unfold scanToken
  dsimp only
  rw [peekNth_cons_zero]
  rw [single_cond, if_neg, if_pos (by simpa using h)]
  simp [isIdentAsciiStart] at h
  simp [singles]; omega

theorem scan_nul : scanToken f (NUL :: cs) = consumeIdentLike (NUL :: cs) := by
  unfold scanToken
  dsimp only
  rw [peekNth_cons_zero]
  rw [single_cond, if_neg (by decide), if_neg (by decide), if_pos (by decide), if_pos]
  simp [isIdentStartSequence, show ¬ REPL = '-' by decide, show isIdentStart REPL = true by decide]

theorem scan_nil : scanToken f [] = .ok (Token.EOF, []) := by
  unfold scanToken
  rfl

theorem ws_codes (h : Ws c) : c.toNat = 32 ∨ c.toNat = 9 ∨ c.toNat = 10 ∨ c.toNat = 13 ∨ c.toNat = 12 := by
  rcases h with rfl | rfl | rfl | rfl | rfl <;> decide

theorem scan_ws (h : Ws c) (hf : f.separateWhitespace = false) :
    scanToken f (c :: cs) = .ok (Token.newWhitespace (consumeWhitespace .none (c :: cs)).2.1
      (w32 (consumeWhitespace .none (c :: cs)).1), (consumeWhitespace .none (c :: cs)).2.2) := by
  have hw := (isWhitespace_iff c).mpr h
  unfold scanToken
  dsimp only
  rw [peekNth_cons_zero]
  rw [single_cond]
  have : c.toNat ∉ singles ∧ ¬ (c.toNat < 128 && isIdentAsciiStart c) = true ∧ ¬ (c == EOFc) = true := by
    rcases h with rfl | rfl | rfl | rfl | rfl <;> decide
  rw [if_neg (by simpa using this.1), if_neg this.2.1, if_neg this.2.2, if_pos (by simp [hw, hf])]

theorem scan_sep (h : Ws c) (hf : f.separateWhitespace = true) :
    scanToken f (c :: cs) =
      if c = '\t' then .ok (Token.newWhitespace .tab (w32 (consumeSame '\t' (c :: cs)).1), (consumeSame '\t' (c :: cs)).2)
      else if c = ' ' then
        .ok (Token.newWhitespace .space (w32 (consumeSame ' ' (c :: cs)).1), (consumeSame ' ' (c :: cs)).2)
      else .ok (Token.newWhitespace .newline (w32 (consumeNewlines (c :: cs)).1), (consumeNewlines (c :: cs)).2) := by
  have hw := (isWhitespace_iff c).mpr h
  unfold scanToken
  dsimp only
  rw [peekNth_cons_zero]
  rw [single_cond]
  have : c.toNat ∉ singles ∧ ¬ (c.toNat < 128 && isIdentAsciiStart c) = true ∧ ¬ (c == EOFc) = true := by
    rcases h with rfl | rfl | rfl | rfl | rfl <;> decide
  rw [if_neg (by simpa using this.1), if_neg this.2.1, if_neg this.2.2, if_neg (by simp [hf])]
  rcases h with rfl | rfl | rfl | rfl | rfl <;> rfl

theorem scan_quote (h : c = '"' ∨ c = '\'') : scanToken f (c :: cs) = .ok (consumeString (c :: cs)) := by
  unfold scanToken
  dsimp only
  rw [peekNth_cons_zero]
  rw [single_cond]
  rcases h with rfl | rfl <;> rfl

theorem scan_digit (h : Digit c) : scanToken f (c :: cs) = .ok (consumeNumeric (c :: cs)) := by
  have hd := (isDigit_iff c).mpr h
  unfold scanToken
  dsimp only
  rw [peekNth_cons_zero]
  rw [single_cond]
  simp only [Digit, show '0'.toNat = 48 from rfl, show '9'.toNat = 57 from rfl] at h
  have hne : ∀ d : Char, ¬ (48 ≤ d.toNat ∧ d.toNat ≤ 57) → (c == d) = false := by
    intro d hd; rw [beq_eq_false_iff_ne]; rintro rfl; exact hd h
  rw [if_neg (by simp [singles]; omega), if_neg (by simp [isIdentAsciiStart]; omega)]
  simp only [isWhitespace, isNewline, isQuote, EOFc, CRc, LFc, FFc, TABc, SPACEc, hne '\x00' (by decide),
    hne '\x0d' (by decide), hne '\x0a' (by decide), hne '\x0c' (by decide), hne '\x09' (by decide), hne ' ' (by decide),
    hne '\'' (by decide), hne '"' (by decide), hd]
  rfl

theorem scan_dash : scanToken f ('-' :: cs) =
    if peekNth cs 0 == '-' && peekNth cs 1 == '>' then .ok (Token.CDC, cs.tail.tail)
    else if isIdentStartSequence '-' (peekNth cs 0) (peekNth cs 1) then consumeIdentLike ('-' :: cs)
    else if isNumberStart ('-' :: cs) then .ok (consumeNumeric ('-' :: cs))
    else .ok (Token.DASH, cs) := by
  unfold scanToken; dsimp only; rw [peekNth_cons_zero, single_cond]; rfl

theorem scan_dotplus (h : c = '.' ∨ c = '+') : scanToken f (c :: cs) =
    if isNumberStart (c :: cs) then .ok (consumeNumeric (c :: cs)) else .ok (Token.newDelim c, cs) := by
  unfold scanToken; dsimp only; rw [peekNth_cons_zero, single_cond]
  rcases h with rfl | rfl <;> rfl

theorem scan_lt : scanToken f ('<' :: cs) =
    if peekNth cs 0 == '!' && peekNth cs 1 == '-' && peekNth cs 2 == '-' then .ok (Token.CDO, cs.tail.tail.tail)
    else .ok (Token.LESS_THAN, cs) := by
  unfold scanToken; dsimp only; rw [peekNth_cons_zero, single_cond]; rfl

theorem scan_hash : scanToken f ('#' :: cs) =
    if isIdent (peekNth cs 0) || isEscapeSequence (peekNth cs 0) (peekNth cs 1) then .ok (consumeHash ('#' :: cs))
    else .ok (Token.HASH, cs) := by
  unfold scanToken; dsimp only; rw [peekNth_cons_zero, single_cond]; rfl

theorem scan_at : scanToken f ('@' :: cs) =
    if isIdentStartSequence (peekNth cs 0) (peekNth cs 1) (peekNth cs 2) then
      .ok (Token.newAtKeyword (consumeIdentSeq cs).1.nonLower (consumeIdentSeq cs).1.dashed (consumeIdentSeq cs).1.esc
        (w32 ((consumeIdentSeq cs).1.len + 1)), (consumeIdentSeq cs).2)
    else .ok (Token.AT, cs) := by
  unfold scanToken; dsimp only; rw [peekNth_cons_zero, single_cond]; rfl

theorem scan_backslash : scanToken f ('\\' :: cs) =
    if isEscapeSequence '\\' (peekNth cs 0) then consumeIdentLike ('\\' :: cs) else .ok (Token.BACKSLASH, cs) := by
  unfold scanToken; dsimp only; rw [peekNth_cons_zero, single_cond]; rfl

theorem scan_slash : scanToken f ('/' :: cs) =
    if peekNth cs 0 == '*' then
      .ok (Token.newComment (blockCommentStyle cs.tail) (w32 (blockCommentLoop 2 cs.tail).1), (blockCommentLoop 2 cs.tail).2)
    else if peekNth cs 0 == '/' && f.singleLineComments then
      .ok (Token.newComment (lineCommentStyle cs.tail) (w32 (lineCommentLoop 2 cs.tail).1), (lineCommentLoop 2 cs.tail).2)
    else .ok (Token.SLASH, cs) := by
  unfold scanToken; dsimp only; rw [peekNth_cons_zero, single_cond]; rfl

/-- The characters with a branch of their own. -/
def special : List Char :=
  ['\x00', ' ', '\t', '\n', '\r', '\x0c', '"', '\'', '-', '.', '+', '<', '#', '@', '\\', '/']

theorem scan_other (h1 : c.toNat ∉ singles) (h2 : c ∉ special) (h3 : ¬ Digit c) (h4 : ¬ (c.toNat < 128 ∧ NameStart c)) :
    scanToken f (c :: cs) =
      if isIdentStart c then consumeIdentLike (c :: cs) else .ok (Token.newDelim c, cs) := by
  unfold scanToken
  dsimp only
  rw [peekNth_cons_zero]
  rw [single_cond, if_neg (by simpa using h1)]
  have h5 : ¬ (c.toNat < 128 && isIdentAsciiStart c) = true := by
    simp only [Bool.and_eq_true, decide_eq_true_eq]
    rintro ⟨a, b⟩
    apply h4
    rw [← isIdentStart_iff, isIdentStart, if_pos (by simpa [isAscii] using a)]
    exact ⟨a, b⟩
  rw [if_neg h5]
  have hd : isDigit c = false := by rw [Bool.eq_false_iff, Ne, isDigit_iff]; exact h3
  simp only [special, List.mem_cons, List.not_mem_nil, or_false, not_or] at h2
  obtain ⟨a1, a2, a3, a4, a5, a6, a7, a8, a9, a10, a11, a12, a13, a14, a15, a16⟩ := h2
  simp only [isWhitespace, isNewline, isQuote, EOFc, CRc, LFc, FFc, TABc, SPACEc, hd,
    beq_eq_false_iff_ne.mpr a1, beq_eq_false_iff_ne.mpr a2, beq_eq_false_iff_ne.mpr a3, beq_eq_false_iff_ne.mpr a4,
    beq_eq_false_iff_ne.mpr a5, beq_eq_false_iff_ne.mpr a6, beq_eq_false_iff_ne.mpr a7, beq_eq_false_iff_ne.mpr a8,
    beq_eq_false_iff_ne.mpr a9, beq_eq_false_iff_ne.mpr a10, beq_eq_false_iff_ne.mpr a11, beq_eq_false_iff_ne.mpr a12,
    beq_eq_false_iff_ne.mpr a13, beq_eq_false_iff_ne.mpr a14, beq_eq_false_iff_ne.mpr a15, beq_eq_false_iff_ne.mpr a16]
  rfl

end

end Hdx

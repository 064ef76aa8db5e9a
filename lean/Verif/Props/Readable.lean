/-
C67, the other kinds: which tokens' text can be read.
-/
import Verif.Props.Total

namespace Hdx
open Spec

/-- The text of a token can be read: `parse_str` returns. -/
def Spec.Readable (c : Cursor) (source : List Char) : Prop := ∃ s, c.parseStr source = .ok s

theorem Spec.Decodable.readable {c : Cursor} {source : List Char} (h : Decodable c source) : Readable c source := h.1

/-- A token without escapes. -/
theorem inner_readable {c : Cursor} {source inner after : List Char} (h : Inner c source inner after) (he : c.token.containsEscapeChars = false) :
    Readable c source := by
  unfold Readable Cursor.parseStr
  rw [h.stop]
  simp only [bind, Except.bind, h.slice, he]
  exact ⟨_, rfl⟩

/-- The kinds of token that have a text with escapes in it, or something around it. -/
def Spec.WRAPPED : List Kind := [.string, .dimension, .ident, .function, .url, .hash, .atKeyword, .comment]

theorem noEscape_of_kind {t : Token} (hk : t.kind ∉ WRAPPED) (he : t.kind ≠ .eof) :
    t.containsEscapeChars = false ∧ t.leadingLen = 0#32 ∧ t.trailingLen = 0#32 := by
  have hb := kindBits_of_kind he
  generalize hkk : t.kind = k at *
  have h1 : ∀ k : Kind, k ∉ WRAPPED → (k.bits == Kind.string.bits) = false ∧ (k.bits == Kind.dimension.bits) = false ∧ (k.bits &&& 0b11000 == 0b01000) = false := by
    intro k; cases k <;> decide
  obtain ⟨a, b, c⟩ := h1 k hk
  refine ⟨?_, ?_, ?_⟩
  · simp [Token.containsEscapeChars, Token.canEscape, Token.isIdentLike, hb, a, b, c]
  · unfold Token.leadingLen; rw [hkk]; cases k <;> first | rfl | exact absurd (by decide) hk
  · unfold Token.trailingLen; rw [hkk]; cases k <;> first | rfl | exact absurd (by decide) hk

theorem ScanCase.identLike_of_url {f : Features} {cs r : List Char} {t : Token} (h : ScanCase f cs t r) (hk : t.kind = .url) :
    consumeIdentLike cs = .ok (t, r) := by
  have hs := h.kindStarts
  cases h with
  | identLike h h' => exact h'
  | single h => have := singles_kind _ h; rw [hk] at this; exact absurd this (by decide)
  | numeric h h' =>
    have := consumeNumeric_kind cs
    rw [h'] at this
    simp only at this
    rw [hk] at this; simp at this
  | @ws c cs ws rest h h' e hm =>
    have e := newWhitespace_kind (ws.foldl (fun s c => s.or (wsFlag c)) .none) (w32 ws.length) (wsFlags_lt _ _ (by decide))
    rw [e] at hk; simp at hk
  | @wsSep P st c cs ws rest hP hc hf he hm =>
    have e : (Token.newWhitespace st (w32 ws.length)).kind = .whitespace := by
      apply newWhitespace_kind
      rcases hP with ⟨_, rfl⟩ | ⟨_, rfl⟩ | ⟨_, rfl⟩ <;> decide
    rw [e] at hk; simp at hk
  | @string q cs t r hq h =>
    have := consumeString_kind q cs
    rw [h] at this
    simp only at this
    rw [hk] at this; simp at this
  | cdc => rw [show Token.CDC.kind = .cdcOrCdo from by decide] at hk; simp at hk
  | cdo => rw [show Token.CDO.kind = .cdcOrCdo from by decide] at hk; simp at hk
  | @hash cs t r h h' =>
    have e : t.kind = .hash := by
      rw [show t = (consumeHash ('#' :: cs)).1 by rw [h']]
      simp [consumeHash, newHash_eq]
    rw [e] at hk; simp at hk
  | «at» h => rw [newAtKeyword_eq, mkTok_kind] at hk; simp at hk
  | block => rw [newComment_eq, mkTok_kind] at hk; simp at hk
  | line h => rw [newComment_eq, mkTok_kind] at hk; simp at hk
  | dash => exact absurd hk (by decide)
  | @dotplus c => rw [(C17_delim c).1] at hk; simp at hk
  | lt => exact absurd hk (by decide)
  | pound => exact absurd hk (by decide)
  | atSign => exact absurd hk (by decide)
  | backslash => exact absurd hk (by decide)
  | slash => exact absurd hk (by decide)
  | @other c => rw [(C17_delim c).1] at hk; simp at hk

section
variable {l l' : Lexer} {x : List Char} {t : Token}

theorem advance_pos (hb : l.Before x) (ht : Tame l.features l.source) (hne : x ≠ []) (ha : l.advance = .ok (t, l')) : Tame l.features x ∧ t.len.toNat ≠ 0 := by
  have htx : Tame l.features x := by
    obtain ⟨pre, hp, _⟩ := hb
    rw [hp] at ht; exact ht.suffix
  refine ⟨htx, ?_⟩
  obtain ⟨t', l2, text, cs', a1, a2, a3, a4, a5, a6, a7⟩ := advance_tame hb htx hne
  rw [ha] at a1; cases a1
  have := utf8Len_pos a4
  rw [a5, byteLen_eq]; omega

/-- Whitespace, delimiters, `-->`, bad strings, bad urls, punctuation. -/
theorem readable_plain (hb : l.Before x) (ht : Tame l.features l.source) (hne : x ≠ []) (ha : l.advance = .ok (t, l')) (hk : t.kind ∉ WRAPPED) : Readable ⟨l.offset, t⟩ l.source := by
  obtain ⟨htx, hpos⟩ := advance_pos hb ht hne ha
  obtain ⟨t', l2, text, cs', a1, a2, a3, a4, a5, a6, a7⟩ := advance_tame hb htx hne
  rw [ha] at a1; cases a1
  obtain ⟨e1, e2, e3⟩ := noEscape_of_kind hk a2
  have hin : Inner ⟨l.offset, t⟩ l.source text ([] ++ cs') :=
    inner_of_before (lead := []) (by simpa [← a3] using hb) ht.limits.total (by rw [e2]; rfl) (by rw [e3]; rfl) (by rw [a5]; simp [byteLen_eq]) hpos
  exact inner_readable hin e1

/-- What a string is made of. -/
theorem stringLoop_decodes (q : Char) (esc : Bool) (len : Nat) (cs : List Char) (ha : EscAscii cs) (hq : q = '"' ∨ q = '\'') {a b : Bool} {n : Nat}
    (h : (stringLoop q esc len cs).1 = .str a b n) :
    ∃ us, cs = strText us ++ ((if a then [q] else []) ++ (stringLoop q esc len cs).2) ∧ n = len + utf8Len (strText us) + (if a then 1 else 0)
      ∧ DecodeOk true us ((if a then [q] else []) ++ (stringLoop q esc len cs).2) ∧ ¬ Starts Newline (strText us) := by
  fun_induction stringLoop q esc len cs with
  | case1 => cases h; exact ⟨[], by simp, by simp, trivial, not_starts_nil _⟩
  | case2 => cases h
  | case3 esc len c cs h1 h2 ih =>
    simp only [beq_iff_eq] at h2; subst h2
    obtain ⟨us, e1, e2, e3, e4⟩ := ih ha.tail h
    refine ⟨.chr EOFc :: us, by simp [StrUnit.text, ← e1], ?_, ⟨by decide, e3⟩, ?_⟩
    · simp [StrUnit.text, show EOFc.utf8Size = 1 by decide]; omega
    · simp [StrUnit.text, Starts, Newline]; decide
  | case4 esc len c cs h1 h2 h3 h4 =>
    simp only [beq_iff_eq] at h4; subst h4
    cases h
    exact ⟨[], by simp, by simp, trivial, not_starts_nil _⟩
  | case5 esc len c cs h1 h2 h3 h4 ih =>
    have hs : c.utf8Size = 1 := by
      simp only [Bool.or_eq_true, beq_iff_eq] at h3; rcases h3 with rfl | rfl <;> decide
    obtain ⟨us, e1, e2, e3, e4⟩ := ih ha.tail h
    refine ⟨.chr c :: us, by simp [StrUnit.text, ← e1], ?_, ⟨?_, e3⟩, ?_⟩
    · simp [StrUnit.text, hs]; omega
    · simp only [Bool.or_eq_true, beq_iff_eq] at h3; rcases h3 with rfl | rfl <;> decide
    · simp only [strText_cons, StrUnit.text, List.cons_append, List.nil_append, starts_cons, ← isNewline_iff]; exact h1
  | case6 esc len c cs h1 h2 h3 h4 h5 =>
    simp only [beq_iff_eq] at h4; subst h4
    cases h
    refine ⟨[.esc []], by simp [StrUnit.text], by simp [StrUnit.text, show '\\'.utf8Size = 1 by decide], ⟨.inl ⟨rfl, rfl, rfl⟩, trivial⟩, ?_⟩
    simp [StrUnit.text, Newline]
  | case7 esc len c cs h1 h2 h3 h4 h5 h6 ih =>
    simp only [beq_iff_eq] at h4; subst h4
    obtain ⟨nl, r, e, hn⟩ := exists_oneNewline ((peek_newline cs).mp h6)
    subst e
    rw [consumeNewline_eq hn] at ih h ⊢
    obtain ⟨us, e1, e2, e3, e4⟩ := ih (EscAscii.suffix (a := '\\' :: nl) (by simpa using ha)) h
    refine ⟨.cont nl :: us, by simpa [StrUnit.text] using e1, ?_, ⟨rfl, by rw [← e1]; exact hn, e4, e3⟩, ?_⟩
    · simp [StrUnit.text, show '\\'.utf8Size = 1 by decide]; simp at e2; omega
    · simp [StrUnit.text, Newline]
  | case8 esc len c cs h1 h2 h3 h4 h5 h6 h7 ih =>
    obtain ⟨rfl, hn⟩ := isEscapeSequence_eq h7
    obtain ⟨e, c1, c2, c3⟩ := consumeEscape_spec cs hn
    have c3 := c3 ha.next
    obtain ⟨us, e1, e2, e3, e4⟩ := ih (EscAscii.suffix (a := '\\' :: e) (by simpa [← c1] using ha)) h
    refine ⟨.esc e :: us, by simp [StrUnit.text, ← e1, ← c1], ?_, ⟨.inr (by rw [← e1]; exact c2), e3⟩, ?_⟩
    · simp [StrUnit.text, show '\\'.utf8Size = 1 by decide]; omega
    · simp [StrUnit.text, Newline]
  | case9 => cases h
  | case10 esc len c cs h1 h2 h3 h4 ih =>
    obtain ⟨us, e1, e2, e3, e4⟩ := ih ha.tail h
    refine ⟨.chr c :: us, by simp [StrUnit.text, ← e1], ?_, ⟨by simpa using h4, e3⟩, ?_⟩
    · simp [StrUnit.text]; omega
    · simp only [strText_cons, StrUnit.text, List.cons_append, List.nil_append, starts_cons, ← isNewline_iff]; exact h1

theorem readable_string (hb : l.Before x) (ht : Tame l.features l.source) (hne : x ≠ []) (ha : l.advance = .ok (t, l')) (hk : t.kind = .string) :
    Decodable ⟨l.offset, t⟩ l.source := by
  obtain ⟨htx, hpos⟩ := advance_pos hb ht hne ha
  have hsrc : byteLen l.source < 2 ^ 32 := ht.limits.total
  have hlx := name_inner hb hsrc
  obtain ⟨r, hsc, hcase⟩ := advance_cases hb hne ha
  obtain ⟨q, cs, rfl, hq⟩ := hcase.kindStarts.string (.inl hk)
  have hc : consumeString (q :: cs) = (t, r) := by
    rw [scan_quote hq] at hsc; injection hsc
  have hq1 : q.utf8Size = 1 := by rcases hq with rfl | rfl <;> rfl
  have hd := fun a b n => stringLoop_decodes q false 1 cs (a := a) (b := b) (n := n) htx.escapes.tail hq
  unfold consumeString at hc
  simp only at hc
  generalize stringLoop q false 1 cs = R at hd hc
  obtain ⟨R, r'⟩ := R
  match R with
  | .bad n =>
    simp only [Prod.mk.injEq] at hc
    rw [← hc.1, newBadString_eq, mkTok_kind] at hk
    exact absurd hk (by decide)
  | .str a b n =>
    obtain ⟨us, e1, e2, e3, _⟩ := hd a b n rfl
    simp only [Prod.mk.injEq] at hc e1 e3
    obtain ⟨k1, k2, k3, k4, _⟩ := C17_string (if q == '"' then .double else .single) (by split <;> simp) a b (w32 n)
    rw [hc.1] at k1 k2 k3 k4
    subst e1
    have hn : n < 2 ^ 32 := by
      cases a <;> simp [byteLen_eq, hq1] at hlx e2 <;> omega
    replace k2 := congrArg BitVec.toNat k2
    rw [w32_toNat hn] at k2
    have a1 : t.leadingLen = 1#32 := by simp [Token.leadingLen, k1]
    have a2 : t.trailingLen = b2w a := by simp [Token.trailingLen, k1, k3]
    have hin : Inner ⟨l.offset, t⟩ l.source (strText us) ((if a then [q] else []) ++ r') :=
      inner_of_before (lead := [q]) (by simpa using hb) hsrc (by rw [a1]; simp [byteLen_eq, hq1]) (by rw [a2]; cases a <;> simp [byteLen_eq, hq1, b2w])
        (by rw [k2, e2]; cases a <;> simp [byteLen_eq, hq1] <;> omega) hpos
    exact inner_total hin (by rw [isString_true k1]; exact e3)

/-- What an unquoted url is made of. -/
theorem urlLoop_decodes (esc : Bool) (len : Nat) (cs : List Char) (ha : EscAscii cs) {a b : Bool} {m n : Nat}
    (h : (urlLoop esc len cs).1 = .url a b m n) :
    ∃ us ws, cs = nameText us ++ ((ws ++ if a then [')'] else []) ++ (urlLoop esc len cs).2) ∧ (∀ c ∈ ws, Ws c) ∧ m = ws.length + (if a then 1 else 0)
      ∧ n = len + utf8Len (nameText us) + m ∧ NameDecodes us ((ws ++ if a then [')'] else []) ++ (urlLoop esc len cs).2) := by
  fun_induction urlLoop esc len cs with
  | case1 => cases h; exact ⟨[], [], by simp, by simp, by simp, by simp, trivial⟩
  | case2 esc len c cs h' =>
    simp only [beq_iff_eq] at h'; subst h'
    cases h
    exact ⟨[], [], by simp, by simp, by simp, by simp, trivial⟩
  | case3 => cases h; exact ⟨[], [], by simp, by simp, by simp, by simp, trivial⟩
  | case4 esc len c cs h1 h2 h3 n st heq =>
    obtain ⟨ws, w1, w2, w3⟩ := consumeWhitespace_cover .none (c :: cs)
    rw [heq] at w1 w2
    cases h
    simp only at w1 w2
    exact ⟨[], ws, by simpa using w1, w3, by rw [w2, utf8Len_ws w3]; simp, by simp, trivial⟩
  | case5 esc len c cs h1 h2 h3 n st d ds h4 heq =>
    obtain ⟨ws, w1, w2, w3⟩ := consumeWhitespace_cover .none (c :: cs)
    rw [heq] at w1 w2
    simp only [beq_iff_eq] at h4; subst h4
    cases h
    simp only at w1 w2
    exact ⟨[], ws, by simpa using w1, w3, by rw [w2, utf8Len_ws w3]; simp, by simp; omega, trivial⟩
  | case6 esc len c cs h1 h2 h3 n st d ds h4 h5 heq =>
    obtain ⟨ws, w1, w2, w3⟩ := consumeWhitespace_cover .none (c :: cs)
    rw [heq] at w1 w2
    cases h
    simp only at w1 w2
    exact ⟨[], ws, by simpa using w1, w3, by rw [w2, utf8Len_ws w3]; simp, by simp, trivial⟩
  | case7 => cases h
  | case8 => cases h
  | case9 => cases h
  | case10 esc len c cs h1 h2 h3 h4 h5 h6 h7 ih =>
    obtain ⟨rfl, hn⟩ := isEscapeSequence_eq h7
    obtain ⟨e, c1, c2, c3⟩ := consumeEscape_spec cs hn
    have c3 := c3 ha.next
    obtain ⟨us, ws, e1, e2, e3, e4, e5⟩ := ih (EscAscii.suffix (a := '\\' :: e) (by simpa [← c1] using ha)) h
    refine ⟨.esc e :: us, ws, ?_, e2, e3, ?_, ⟨by rw [← e1]; exact c2, e5⟩⟩
    · rw [nameText_esc, List.cons_append, List.append_assoc, ← e1, ← c1]
    · simp [show '\\'.utf8Size = 1 by decide]; omega
  | case11 => cases h
  | case12 esc len c cs h1 h2 h3 h4 h5 h6 ih =>
    obtain ⟨us, ws, e1, e2, e3, e4, e5⟩ := ih ha.tail h
    refine ⟨.chr c :: us, ws, ?_, e2, e3, ?_, ⟨by simpa using h6, e5⟩⟩
    · rw [nameText_chr, List.cons_append, ← e1]
    · simp; omega

/-- The spaces of a url are few enough for the twelve bits a token has for them: a name with its parenthesis and the spaces behind it, and a run of
spaces, are shorter than 4 KiB. -/
structure Spec.ShortUrls (cs : List Char) : Prop where
  leading : ∀ pre us ws post, cs = pre ++ (nameText us ++ '(' :: (ws ++ post)) → ValidName us ('(' :: (ws ++ post)) → (∀ c ∈ ws, Ws c) →
    byteLen (nameText us) + 1 + ws.length < 2 ^ 12
  trailing : ∀ pre ws post, cs = pre ++ (ws ++ post) → (∀ c ∈ ws, Ws c) → ws.length + 1 < 2 ^ 12

theorem readable_url (hb : l.Before x) (ht : Tame l.features l.source) (hne : x ≠ []) (ha : l.advance = .ok (t, l')) (hk : t.kind = .url)
    (hu : ShortUrls x) : Decodable ⟨l.offset, t⟩ l.source := by
  obtain ⟨htx, hpos⟩ := advance_pos hb ht hne ha
  have hsrc : byteLen l.source < 2 ^ 32 := ht.limits.total
  have hlx := name_inner hb hsrc
  obtain ⟨r, hsc, hcase⟩ := advance_cases hb hne ha
  have hc := hcase.identLike_of_url hk
  obtain ⟨us, rest, nl, d, e, u, g1, g2, g3, g4, g5⟩ := consumeIdentLike_spec htx.escapes
  have hx := g1.split
  subst hx
  by_cases hp : Starts (· = '(') rest
  · obtain ⟨c, rest, rfl, rfl⟩ := hp
    cases hu' : (u && !isQuote (peekPastWs 4 rest)) with
    | true =>
      rw [g3 rest rfl hu'] at hc
      injection hc with hc
      obtain ⟨ws, w1, w2, w3⟩ := consumeWhitespace_cover .none rest
      unfold consumeUrl at hc
      generalize consumeWhitespace .none rest = W at w1 w2 hc
      obtain ⟨k, st, r1⟩ := W
      simp only at w1 w2 hc
      subst w1
      have hd := fun a b m n => urlLoop_decodes e (utf8Len (nameText us) + 1 + k) r1 (a := a) (b := b) (m := m) (n := n)
        (EscAscii.suffix (a := nameText us ++ '(' :: ws) (by simpa using htx.escapes))
      generalize urlLoop e (utf8Len (nameText us) + 1 + k) r1 = R at hd hc
      obtain ⟨R, r'⟩ := R
      match R with
      | .bad n =>
        simp only [Prod.mk.injEq] at hc
        rw [← hc.1, newBadUrl_eq, mkTok_kind] at hk
        exact absurd hk (by decide)
      | .url a b m n =>
        obtain ⟨vs, ws2, e1, e2, e3, e4, e5⟩ := hd a b m n rfl
        simp only [Prod.mk.injEq] at hc e1 e5
        have hk2 := utf8Len_ws w3
        have hl := hu.leading [] us ws r1 (by simp) g1.valid w3
        rw [byteLen_eq] at hl
        subst e1
        have hm := hu.trailing (nameText us ++ '(' :: (ws ++ nameText vs)) ws2 ((if a then [')'] else []) ++ r') (by simp) e2
        have hm' : m < 2 ^ 12 := by rw [e3]; cases a <;> simp <;> omega
        obtain ⟨k1, k2, k3, k4, k5, k6, k7⟩ := C17_url a (decide (k > 0)) b (w32 (utf8Len (nameText us) + 1 + k)) (w32 m) (w32 n)
          (by rw [w32_toNat (by omega)]; omega) (by rw [w32_toNat (by omega)]; omega)
        rw [hc.1] at k1 k2 k6 k7
        have htr : utf8Len (ws2 ++ if a then [')'] else []) = m := by
          rw [utf8Len_append, utf8Len_ws e2, e3]; cases a <;> rfl
        have hn : n < 2 ^ 32 := by
          simp only [byteLen_eq, utf8Len_append, utf8Len_cons, show '('.utf8Size = 1 from rfl] at hlx htr
          omega
        replace k2 := congrArg BitVec.toNat k2
        rw [w32_toNat hn] at k2
        have hin : Inner ⟨l.offset, t⟩ l.source (nameText vs) ((ws2 ++ if a then [')'] else []) ++ r') :=
          inner_of_before (lead := nameText us ++ '(' :: ws) (by simpa using hb) hsrc
            (by rw [k6, w32_toNat (by omega)]; simp [byteLen_eq, show '('.utf8Size = 1 from rfl]; omega)
            (by rw [k7, w32_toNat (by omega), byteLen_eq, htr])
            (by rw [k2, e4, byteLen_eq, byteLen_eq, byteLen_eq, htr]; simp [show '('.utf8Size = 1 from rfl]; omega) hpos
        rw [← strText_map] at hin
        exact inner_total hin (by rw [isString_false (by simp [k1])]; exact decodeOk_map e5)
    | false =>
      rw [g4 rest rfl hu'] at hc
      injection hc with hc; injection hc with hc _
      rw [← hc, (C17_function nl d e _).1] at hk
      exact absurd hk (by decide)
  · rw [g5 hp] at hc
    injection hc with hc; injection hc with hc _
    rw [← hc, (C17_ident nl d e _).1] at hk
    exact absurd hk (by decide)

theorem readable_comment (hb : l.Before x) (ht : Tame l.features l.source) (hne : x ≠ []) (ha : l.advance = .ok (t, l')) (hk : t.kind = .comment)
    (hf : l.features.singleLineComments = false) (hcl : ∀ body, x = '/' :: '*' :: body → ¬ NoClose body) : Readable ⟨l.offset, t⟩ l.source := by
  obtain ⟨htx, hpos⟩ := advance_pos hb ht hne ha
  have hsrc : byteLen l.source < 2 ^ 32 := ht.limits.total
  have hlx := name_inner hb hsrc
  obtain ⟨r, hsc, hcase⟩ := advance_cases hb hne ha
  rcases hcase.kindStarts.comment hk with ⟨cs, rfl⟩ | ⟨_, h⟩
  · simp only [List.cons_append, List.nil_append] at *
    rcases exists_close cs with hno | ⟨body, rest, rfl, hcb⟩
    · exact absurd hno (hcl cs rfl)
    · rw [scan_slash, if_pos (by rfl), List.tail_cons, blockCommentLoop_eq hcb] at hsc
      injection hsc with hsc; injection hsc with hsc _
      obtain ⟨k1, k2, k3⟩ := C17_comment (blockCommentStyle (body ++ ['*', '/'] ++ rest)) (w32 (2 + utf8Len body + 2))
      rw [hsc] at k1 k2 k3
      simp only [byteLen_eq, utf8Len_append, utf8Len_cons, show '*'.utf8Size = 1 from rfl, show '/'.utf8Size = 1 from rfl, utf8Len_nil] at hlx
      replace k2 := congrArg BitVec.toNat k2
      rw [w32_toNat (by omega)] at k2
      have hbk : (blockCommentStyle (body ++ ['*', '/'] ++ rest)).isBlock = true := by
        unfold blockCommentStyle; dsimp only; (repeat' split) <;> rfl
      generalize blockCommentStyle (body ++ ['*', '/'] ++ rest) = st at k3 hbk
      have a1 : t.leadingLen = 2#32 := by simp [Token.leadingLen, k1]
      have a2 : t.trailingLen = 2#32 := by simp [Token.trailingLen, k1, k3, hbk]
      have hin : Inner ⟨l.offset, t⟩ l.source body (['*', '/'] ++ rest) :=
        inner_of_before (lead := ['/', '*']) (by simpa using hb) hsrc (by rw [a1]; rfl) (by rw [a2]; rfl)
          (by rw [k2]; simp [byteLen_eq, show '*'.utf8Size = 1 from rfl, show '/'.utf8Size = 1 from rfl] <;> omega) hpos
      refine inner_readable hin ?_
      have hb' := kindBits_of_kind (t := t) (by rw [k1]; decide)
      rw [k1] at hb'
      simp [Token.containsEscapeChars, Token.canEscape, Token.isIdentLike, hb', Kind.bits]
  · rw [hf] at h; cases h

/-- The text of every token can be read, strings and urls and bad tokens and whitespace included, except that of a comment that is not closed. Missing
from the full C67: sources outside `Tame`, comments that are not closed (`C67_counterexample_comment`), single line comments, and the spaces of urls. -/
theorem C67_readable_partial (hb : l.Before x) (ht : Tame l.features l.source) (ha : l.advance = .ok (t, l')) (hf : l.features.singleLineComments = false)
    (hu : ShortUrls x) (hcl : ∀ body, x = '/' :: '*' :: body → ¬ NoClose body) : Readable ⟨l.offset, t⟩ l.source := by
  by_cases hne : x = []
  · subst hne
    rw [advance_before hb, if_pos rfl] at ha
    cases ha
    obtain ⟨pre, hp, ho⟩ := hb
    simp only [List.append_nil] at hp
    subst hp
    have h1 : Token.EOF.leadingLen.toNat = 0 := by decide
    have h2 : Token.EOF.trailingLen.toNat = 0 := by decide
    have h3 : Token.EOF.containsEscapeChars = false := by decide
    have h4 : Token.EOF.len.toNat = 0 := by decide
    have hs := sliceBytes_append l.source [] []
    simp only [List.append_nil, utf8Len_nil, Nat.add_zero] at hs
    rw [← byteLen_eq, ← ho] at hs
    unfold Readable Cursor.parseStr
    simp [Cursor.innerEnd, Cursor.endOffset, Cursor.innerStart, h1, h2, h3, h4, bind, Except.bind, slice, hs]
    exact ⟨_, rfl⟩
  by_cases hw : t.kind ∈ WRAPPED
  · simp only [WRAPPED, List.mem_cons, List.not_mem_nil, or_false] at hw
    rcases hw with hk | hk | hk | hk | hk | hk | hk | hk
    · exact (readable_string hb ht hne ha hk).readable
    · exact (C67_decodable_partial hb ht ha (by simp [hk])).readable
    · exact (C67_decodable_partial hb ht ha (by simp [hk])).readable
    · exact (C67_decodable_partial hb ht ha (by simp [hk])).readable
    · exact (readable_url hb ht hne ha hk hu).readable
    · exact (C67_decodable_partial hb ht ha (by simp [hk])).readable
    · exact (C67_decodable_partial hb ht ha (by simp [hk])).readable
    · exact readable_comment hb ht hne ha hk hf hcl
  · exact readable_plain hb ht hne ha hw

/-- Strings and urls can be lower-cased and compared too. -/
theorem C67_strings_partial (hb : l.Before x) (ht : Tame l.features l.source) (ha : l.advance = .ok (t, l')) (hu : ShortUrls x)
    (hk : t.kind = .string ∨ t.kind = .url) : Decodable ⟨l.offset, t⟩ l.source := by
  have hne : x ≠ [] := by
    rintro rfl
    rw [advance_before hb, if_pos rfl] at ha
    cases ha; exact absurd hk (by decide)
  rcases hk with hk | hk
  · exact readable_string hb ht hne ha hk
  · exact readable_url hb ht hne ha hk hu
end

/-- A comment that is not closed is shorter than its `/*` and the `*/` it does not have: reading its text panics. -/
theorem C67_counterexample_comment : ((Lexer.new c!"/*a").advance.map (fun p => (p.1.kind, (Cursor.mk 0 p.1).parseStr c!"/*a")))
    = .ok (.comment, .error .slice) := by decide +kernel

/-- A backslash before a newline is a delimiter: its text can be read, but not lower-cased. -/
theorem C67_counterexample_backslash : ((Lexer.new c!"\\\n").advance.map (fun p => (p.1.kind, (Cursor.mk 0 p.1).parseStr c!"\\\n",
    (Cursor.mk 0 p.1).parseStrLower c!"\\\n"))) = .ok (.delim, .ok c!"\\", .error .slice) := by decide +kernel

theorem shortUrls_of_short {cs : List Char} (h : byteLen cs < 4094) : ShortUrls cs where
  leading pre us ws post e _ hw := by
    subst e
    simp only [byteLen_eq, utf8Len_append, utf8Len_cons, show '('.utf8Size = 1 from rfl, utf8Len_ws hw] at *; omega
  trailing pre ws post e hw := by
    subst e
    simp only [byteLen_eq, utf8Len_append, utf8Len_ws hw] at *; omega

/-- A string that the end of the source ends, one with an escape and a line break, and a url. -/
example : Tame {} c!"'a\\62\\\nc" ∧ ShortUrls c!"'a\\62\\\nc" ∧ ((Lexer.new c!"'a\\62\\\nc").advance.map (fun p => (p.1.kind, (Cursor.mk 0 p.1).parseStr c!"'a\\62\\\nc")))
    = .ok (.string, .ok c!"abc") := ⟨tame_of_ascii (by decide) (by decide), shortUrls_of_short (by decide), by decide +kernel⟩
example : ((Lexer.new c!"url( a\\62 )").advance.map (fun p => (p.1.kind, (Cursor.mk 0 p.1).parseStr c!"url( a\\62 )"))) = .ok (.url, .ok c!"ab") := by decide +kernel
example : ((Lexer.new c!"/*a*/").advance.map (fun p => (p.1.kind, (Cursor.mk 0 p.1).parseStr c!"/*a*/"))) = .ok (.comment, .ok c!"a") := by decide +kernel

end Hdx

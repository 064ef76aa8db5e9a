/-
Helper lemmas: every token the scanner returns covers a non-empty prefix of the remaining text.
-/
import Verif.Lemmas.Cover
import Verif.Lemmas.Numeric
import Verif.Lemmas.Dispatch

namespace Hdx
open Spec

theorem covers_one {c : Char} {cs : List Char} {t : Token} (hl : t.len.toNat = c.utf8Size) (hk : t.kind ≠ .eof) :
    Covers (c :: cs) t := ⟨[c], cs, rfl, by simp, by simp [hl], hk⟩

theorem covers_ok {cs : List Char} {p : Token × List Char} (h : Covers cs p.1) :
    ∃ t r, (.ok p : Except Panic (Token × List Char)) = .ok (t, r) ∧ Covers cs t := ⟨p.1, p.2, rfl, h⟩

theorem covers_word {cs text rest : List Char} {k : Kind} {a b c : Bool} {l : BitVec 32} {n : Nat}
    (hk : k ≠ .eof ∧ k ≠ .number ∧ k ≠ .dimension ∧ k.bits < 16) (h : cs = text ++ rest) (hn : n = utf8Len text)
    (hne : text ≠ []) (ht : utf8Len cs < 2 ^ 32) : Covers cs (mkTok k a b c l (w32 n)) := by
  refine ⟨text, rest, h, hne, ?_, by simpa using hk.1⟩
  rw [len_word _ _ _ _ _ _ hk, w32_toNat, hn]
  subst h; simp at ht; omega

theorem singles_table : ∀ n ∈ singles, (singleCharToken n).len = 1#32 ∧ (singleCharToken n).kind ≠ .eof := by
  decide +kernel

theorem singles_lt : ∀ n ∈ singles, n < 128 := by decide

theorem consumeIdentLike_covers {cs : List Char} (ha : EscAscii cs) (hl : WithinLimits cs) (hne : ¬ NameEnds cs) :
    ∃ t r, consumeIdentLike cs = .ok (t, r) ∧ Covers cs t := by
  obtain ⟨us, rest, nl, d, e, u, h1, h2, h3, h4, h5⟩ := consumeIdentLike_spec ha
  have htot := hl.total
  rw [byteLen_eq] at htot
  have hn := nameScan_nonempty h1 hne
  have hs := h1.split
  by_cases hp : Starts (· = '(') rest
  · obtain ⟨c, r, rfl, rfl⟩ := hp
    cases hb : (u && !isQuote (peekPastWs 4 r)) with
    | true =>
      refine ⟨_, _, h3 r rfl hb, ?_⟩
      have hcs : cs = (nameText us ++ ['(']) ++ r := by rw [hs]; simp
      rw [hcs]
      refine consumeUrl_covers _ e _ r ?_ (by simp) ?_ ?_
      · simp [show '('.utf8Size = 1 by decide]
      · rw [hcs] at ha; exact ha.suffix
      · rw [← hcs]; exact htot
    | false =>
      refine ⟨_, _, h4 r rfl hb, ?_⟩
      rw [newFunction_eq]
      exact covers_word (text := nameText us ++ ['(']) (rest := r) (by decide) (by rw [hs]; simp)
        (by simp [show '('.utf8Size = 1 by decide]) (by simp) htot
  · refine ⟨_, _, h5 hp, ?_⟩
    rw [newIdent_eq]
    exact covers_word (by decide) hs rfl hn htot

theorem number_len {s i f e : List Char} (h : NumberParts s i f e) :
    utf8Len (s ++ (i ++ (f ++ e))) = (s ++ (i ++ (f ++ e))).length ∧ s ++ (i ++ (f ++ e)) ≠ [] := by
  refine ⟨utf8Len_of_ascii ?_, ?_⟩
  · exact number_ascii ⟨_, _, _, _, h, rfl⟩
  · intro h0
    have := h.nonempty
    simp at h0
    simp [h0] at this

theorem startsName_unitStart {r : List Char} (h : StartsName r) : Starts (fun c => NameChar c ∨ c = '%' ∨ c = '\\') r := by
  rcases h with ⟨c, r, rfl, hc⟩ | ⟨r, rfl, _⟩ | ⟨r, rfl, _⟩
  · simp; exact Or.inl (Or.inl hc)
  · simp
  · rw [starts_cons]; exact Or.inl dash_nameChar

theorem consumeNumeric_covers {cs : List Char} (h : isNumberStart cs = true) (ha : EscAscii cs) (hl : WithinLimits cs) :
    Covers cs (consumeNumeric cs).1 := by
  obtain ⟨s, i, f, e, r, hp, hcs, hlong, fl, sg, hfl, hsg, h1, h2, h3⟩ := consumeNumeric_spec h
  obtain ⟨hlen, hne⟩ := number_len hp
  have htot := hl.total
  rw [byteLen_eq] at htot
  generalize s ++ (i ++ (f ++ e)) = num at *
  have hlong' : LongestNumber (num ++ r) num := hcs ▸ hlong
  have hnt : utf8Len num + utf8Len r < 2 ^ 32 := by rw [hcs] at htot; simpa using htot
  by_cases hpc : Starts (· = '%') r
  · obtain ⟨c, r', rfl, rfl⟩ := hpc
    rw [h1 r' rfl]
    have hd := hl.dimension [] num ('%' :: r') hcs hlong' (by simp)
    have := C17_dimension_known fl sg (w32 num.length) 1#32 (F32.parse num) .percent (by decide)
      (by rw [w32_toNat (by omega)]; exact hd)
    refine ⟨num ++ ['%'], r', by simp [hcs], by simp, ?_, ?_⟩
    · simp only [this.2.1, BitVec.toNat_add, w32_toNat (show num.length < 2 ^ 32 by omega)]
      simp [hlen, show '%'.utf8Size = 1 by decide, DimensionUnit.len]; omega
    · rw [this.1]; decide
  · by_cases hn : StartsName r
    · rw [h2 hpc hn]
      have hd := hl.dimension [] num r hcs hlong' (startsName_unitStart hn)
      obtain ⟨us, u1, u2, u3⟩ := consumeUnit_spec r
      have ha' : EscAscii r := by rw [hcs] at ha; exact ha.suffix
      have u2 := u2 ha'
      have hs := u1.split
      generalize consumeUnit r = U at *
      obtain ⟨unit, m, r'⟩ := U
      simp only at *
      by_cases hk : unit = .unknown
      · subst hk
        have hu := hl.unit [] num us r' (by rw [hcs, hs]; rfl) (by rw [← hs]; exact hlong') u1.valid
        rw [byteLen_eq] at hu
        have := C17_dimension_unknown fl sg (w32 num.length) (w32 m) (F32.parse num)
          (by rw [w32_toNat (by omega)]; exact hd) (by rw [w32_toNat (by omega)]; omega)
        refine ⟨num ++ nameText us, r', by simp [hcs, hs], by simp [hne], ?_, ?_⟩
        · rw [this.2.1, BitVec.toNat_add, w32_toNat (by omega), w32_toNat (by omega)]
          simp [hlen]; omega
        · rw [this.1]; decide
      · obtain ⟨x, x1, x2, x3, x4, x5⟩ := u3 hk
        have := C17_dimension_known fl sg (w32 num.length) (w32 m) (F32.parse num) unit hk
          (by rw [w32_toNat (by omega)]; exact hd)
        have hx : utf8Len (x.take unit.len) = unit.len := by
          rw [utf8Len_of_ascii (fun c hc => by simpa [isAscii] using x2 c (List.mem_of_mem_take hc))]
          simp; omega
        have hul : unit.len < 100 := by cases unit <;> decide
        refine ⟨num ++ x.take unit.len, x.drop unit.len ++ r', ?_, by simp [hne], ?_, ?_⟩
        · rw [hcs, hs, x1, nameText_chrs]
          simp only [List.append_assoc]
          rw [← List.append_assoc (x.take _), List.take_append_drop]
        · rw [this.2.1, BitVec.toNat_add, w32_toNat (by omega)]
          simp [hlen, hx]; omega
        · rw [this.1]; decide
    · rw [h3 hpc hn]
      have hd := hl.number [] num r hcs hlong'
      have := C17_number fl sg (w32 num.length) (F32.parse num) (by rw [w32_toNat (by omega)]; exact hd)
      refine ⟨num, r, hcs, hne, ?_, ?_⟩
      · rw [this.2.1, w32_toNat (by omega), hlen]
      · rw [this.1]; decide

theorem identSeq_covers {pre : Char} {cs : List Char} {k : Kind} {a b c : Bool} (hpre : pre.utf8Size = 1)
    (hk : k ≠ .eof ∧ k ≠ .number ∧ k ≠ .dimension ∧ k.bits < 16) (ha : EscAscii cs) (ht : utf8Len (pre :: cs) < 2 ^ 32) :
    Covers (pre :: cs) (mkTok k a b c 0#32 (w32 ((consumeIdentSeq cs).1.len + 1))) := by
  obtain ⟨us, h1, h2, _⟩ := identLoop_spec {} cs
  refine covers_word (text := pre :: nameText us) (rest := (consumeIdentSeq cs).2) hk ?_ ?_ (by simp) ht
  · simp [consumeIdentSeq, ← h1.split]
  · have := h2 ha
    simp [consumeIdentSeq, this, hpre]; omega

theorem newWhitespace_covers {cs ws rest : List Char} {st : Whitespace} (hst : st.bits.toNat < 8) {n : Nat}
    (h : cs = ws ++ rest) (hw : ∀ c ∈ ws, Ws c) (hne : ws ≠ []) (hn : n = ws.length) (ht : utf8Len cs < 2 ^ 32) :
    Covers cs (Token.newWhitespace st (w32 n)) := by
  rw [newWhitespace_eq st hst]
  exact covers_word (by decide) h (by rw [hn, utf8Len_ws hw]) hne ht

theorem wsFlags_lt (ws : List Char) (st : Whitespace) (h : st.bits.toNat < 8) :
    (ws.foldl (fun s c => s.or (wsFlag c)) st).bits.toNat < 8 := by
  induction ws generalizing st with
  | nil => simpa using h
  | cons c ws ih =>
    simp only [List.foldl_cons]
    apply ih
    simp only [Whitespace.or, BitVec.toNat_or]
    have : (wsFlag c).bits.toNat < 8 := by
      unfold wsFlag; split
      · decide
      · split <;> decide
    exact Nat.or_lt_two_pow (n := 3) h this

theorem ws_run {c : Char} {cs ws rest : List Char} {P : Char → Prop} (h : c :: cs = ws ++ rest) (hc : P c)
    (hr : ¬ Starts P rest) : ws ≠ [] := by
  rintro rfl
  apply hr
  simp only [List.nil_append] at h
  rw [← h]; simpa using hc

theorem scan_covers_dash {f : Features} {cs : List Char} (ha : EscAscii ('-' :: cs)) (hl : WithinLimits ('-' :: cs)) :
    ∃ t r, scanToken f ('-' :: cs) = .ok (t, r) ∧ Covers ('-' :: cs) t := by
  have htot := hl.total
  rw [byteLen_eq] at htot
  rw [scan_dash]
  split
  · rename_i hcd
    refine ⟨_, _, rfl, ?_⟩
    match cs, hcd with
    | [], h => simp [EOFc] at h
    | [_], h => simp [EOFc] at h
    | a :: b :: r, h =>
      simp at h
      exact ⟨['-', '-', '>'], r, by simp [h], by simp, by decide, by decide⟩
  · split
    · rename_i hs
      refine consumeIdentLike_covers ha hl (startsName_not_ends ?_)
      exact (isIdentStartSequence_iff ('-' :: cs)).mp hs
    · split
      · rename_i hn
        exact covers_ok (consumeNumeric_covers hn ha hl)
      · exact ⟨_, _, rfl, covers_one (by decide) (by decide)⟩

theorem scan_covers_dot {f : Features} {cs : List Char} (ha : EscAscii ('.' :: cs)) (hl : WithinLimits ('.' :: cs)) :
    ∃ t r, scanToken f ('.' :: cs) = .ok (t, r) ∧ Covers ('.' :: cs) t := by
  have htot := hl.total
  rw [byteLen_eq] at htot
  rw [scan_dotplus (Or.inl rfl)]
  split
  · rename_i hn
    exact covers_ok (consumeNumeric_covers hn ha hl)
  · exact ⟨_, _, rfl, covers_one (by decide) (by decide)⟩

theorem scan_covers_plus {f : Features} {cs : List Char} (ha : EscAscii ('+' :: cs)) (hl : WithinLimits ('+' :: cs)) :
    ∃ t r, scanToken f ('+' :: cs) = .ok (t, r) ∧ Covers ('+' :: cs) t := by
  have htot := hl.total
  rw [byteLen_eq] at htot
  rw [scan_dotplus (Or.inr rfl)]
  split
  · rename_i hn
    exact covers_ok (consumeNumeric_covers hn ha hl)
  · exact ⟨_, _, rfl, covers_one (by decide) (by decide)⟩

theorem scan_covers_lt {f : Features} {cs : List Char} (ha : EscAscii ('<' :: cs)) (hl : WithinLimits ('<' :: cs)) :
    ∃ t r, scanToken f ('<' :: cs) = .ok (t, r) ∧ Covers ('<' :: cs) t := by
  have htot := hl.total
  rw [byteLen_eq] at htot
  rw [scan_lt]
  split
  · rename_i hcd
    refine ⟨_, _, rfl, ?_⟩
    match cs, hcd with
    | [], h => simp [EOFc] at h
    | [_], h => simp [EOFc] at h
    | [_, _], h => simp [EOFc] at h
    | a :: b :: d :: r, h =>
      simp at h
      exact ⟨['<', '!', '-', '-'], r, by simp [h], by simp, by decide, by decide⟩
  · exact ⟨_, _, rfl, covers_one (by decide) (by decide)⟩

theorem scan_covers_hash {f : Features} {cs : List Char} (ha : EscAscii ('#' :: cs)) (hl : WithinLimits ('#' :: cs)) :
    ∃ t r, scanToken f ('#' :: cs) = .ok (t, r) ∧ Covers ('#' :: cs) t := by
  have htot := hl.total
  rw [byteLen_eq] at htot
  rw [scan_hash]
  split
  · refine ⟨_, _, rfl, ?_⟩
    simp only [consumeHash, List.tail_cons, newHash_eq]
    exact identSeq_covers (by decide) (by decide) ha.tail htot
  · exact ⟨_, _, rfl, covers_one (by decide) (by decide)⟩

theorem scan_covers_at {f : Features} {cs : List Char} (ha : EscAscii ('@' :: cs)) (hl : WithinLimits ('@' :: cs)) :
    ∃ t r, scanToken f ('@' :: cs) = .ok (t, r) ∧ Covers ('@' :: cs) t := by
  have htot := hl.total
  rw [byteLen_eq] at htot
  rw [scan_at]
  split
  · refine ⟨_, _, rfl, ?_⟩
    rw [newAtKeyword_eq]
    exact identSeq_covers (by decide) (by decide) ha.tail htot
  · exact ⟨_, _, rfl, covers_one (by decide) (by decide)⟩

theorem scan_covers_backslash {f : Features} {cs : List Char} (ha : EscAscii ('\\' :: cs)) (hl : WithinLimits ('\\' :: cs)) :
    ∃ t r, scanToken f ('\\' :: cs) = .ok (t, r) ∧ Covers ('\\' :: cs) t := by
  have htot := hl.total
  rw [byteLen_eq] at htot
  rw [scan_backslash]
  split
  · rename_i hs
    refine consumeIdentLike_covers ha hl (startsName_not_ends ?_)
    exact Or.inr (Or.inl ((isEscapeSequence_iff '\\' cs).mp hs))
  · exact ⟨_, _, rfl, covers_one (by decide) (by decide)⟩

theorem scan_covers_slash {f : Features} {cs : List Char} (ha : EscAscii ('/' :: cs)) (hl : WithinLimits ('/' :: cs))
    (hf : f.singleLineComments = true → LineCommentsAscii ('/' :: cs)) :
    ∃ t r, scanToken f ('/' :: cs) = .ok (t, r) ∧ Covers ('/' :: cs) t := by
  have htot := hl.total
  rw [byteLen_eq] at htot
  rw [scan_slash]
  split
  · rename_i hst
    refine ⟨_, _, rfl, ?_⟩
    match cs, hst with
    | [], h => simp [EOFc] at h
    | a :: r, h =>
      simp at h; subst h
      rw [newComment_eq, List.tail_cons]
      rcases exists_close r with hno | ⟨body, rest, rfl, hb⟩
      · rw [blockCommentLoop_open hno]
        exact covers_word (text := '/' :: '*' :: r) (rest := []) (by decide) (by simp)
          (by simp [show '/'.utf8Size = 1 by decide, show '*'.utf8Size = 1 by decide]; omega) (by simp) htot
      · rw [blockCommentLoop_eq hb]
        exact covers_word (text := '/' :: '*' :: (body ++ ['*', '/'])) (rest := rest) (by decide) (by simp)
          (by simp [show '/'.utf8Size = 1 by decide, show '*'.utf8Size = 1 by decide]; omega) (by simp) htot
  · split
    · rename_i hst
      refine ⟨_, _, rfl, ?_⟩
      match cs, hst with
      | [], h => simp [EOFc] at h
      | a :: r, h =>
        simp at h; obtain ⟨rfl, hslc⟩ := h
        rw [newComment_eq, List.tail_cons]
        obtain ⟨body, rest, rfl, b1, b2⟩ := exists_run (fun c => !(isNewline c || c == NUL)) r
        have b1' : ∀ c ∈ body, ¬ Newline c ∧ c ≠ NUL := by
          intro c hc; have := b1 c hc; rw [← isNewline_iff]; simpa using this
        have hrest : rest = [] ∨ Starts (fun c => Newline c ∨ c = NUL) rest := by
          cases rest with
          | nil => exact Or.inl rfl
          | cons d ds =>
            right
            simp only [starts_cons] at b2 ⊢
            rw [← isNewline_iff]
            simp at b2; cases hnl : isNewline d <;> simp_all
        rw [lineCommentLoop_eq b1' hrest]
        have hasc := hf hslc [] body rest (by simp) (fun c hc => (b1' c hc).1)
        have hbl : utf8Len body = body.length := utf8Len_of_ascii (fun c hc => by simpa [isAscii] using hasc c hc)
        exact covers_word (text := '/' :: '/' :: body) (rest := rest) (by decide) (by simp)
          (by simp [show '/'.utf8Size = 1 by decide]; omega) (by simp) htot
    · exact ⟨_, _, rfl, covers_one (by decide) (by decide)⟩

/-- The main covering lemma. -/
theorem scan_covers {f : Features} {cs : List Char} (hne : cs ≠ []) (ha : EscAscii cs) (hl : WithinLimits cs)
    (hf : f.singleLineComments = true → LineCommentsAscii cs) :
    ∃ t r, scanToken f cs = .ok (t, r) ∧ Covers cs t := by
  have htot := hl.total
  rw [byteLen_eq] at htot
  match cs, hne with
  | c :: cs, _ =>
  by_cases h1 : c.toNat ∈ singles
  · refine ⟨_, _, scan_single h1, ?_⟩
    obtain ⟨a, b⟩ := singles_table _ h1
    exact covers_one (by rw [a, utf8Size_ascii (singles_lt _ h1)]; rfl) b
  by_cases h2 : c.toNat < 128 ∧ NameStart c
  · rw [scan_identAscii ⟨h2.1, by
      have := (isIdentStart_iff c).mpr h2.2
      rw [isIdentStart, if_pos (by simpa [isAscii] using h2.1)] at this
      exact this⟩]
    exact consumeIdentLike_covers ha hl (startsName_not_ends (Or.inl (by simpa using h2.2)))
  by_cases h3 : Digit c
  · refine ⟨_, _, scan_digit h3, consumeNumeric_covers ?_ ha hl⟩
    simp [isNumberStart, (isDigit_iff c).mpr h3]
  by_cases h4 : Ws c
  · cases hsep : f.separateWhitespace with
    | false =>
      refine ⟨_, _, scan_ws h4 hsep, ?_⟩
      obtain ⟨ws, rest, e, w1, w2⟩ := exists_ws (c :: cs)
      have hn := ws_run e h4 w2
      rw [e, consumeWhitespace_eq _ w1 w2]
      exact newWhitespace_covers (wsFlags_lt _ _ (by decide)) rfl w1 hn rfl (e ▸ htot)
    | true =>
      rw [scan_sep h4 hsep]
      by_cases ht : c = '\t'
      · rw [if_pos ht]
        refine ⟨_, _, rfl, ?_⟩
        obtain ⟨ws, rest, e, w1, w2⟩ := exists_run (· == '\t') (c :: cs)
        simp only [beq_iff_eq] at w1 w2
        have hn := ws_run e ht w2
        rw [e, consumeSame_eq w1 w2]
        exact newWhitespace_covers (by decide) rfl (fun c hc => by rw [w1 c hc]; simp [Ws]) hn rfl (e ▸ htot)
      · rw [if_neg ht]
        by_cases hsp : c = ' '
        · rw [if_pos hsp]
          refine ⟨_, _, rfl, ?_⟩
          obtain ⟨ws, rest, e, w1, w2⟩ := exists_run (· == ' ') (c :: cs)
          simp only [beq_iff_eq] at w1 w2
          have hn := ws_run e hsp w2
          rw [e, consumeSame_eq w1 w2]
          exact newWhitespace_covers (by decide) rfl (fun c hc => by rw [w1 c hc]; simp [Ws]) hn rfl (e ▸ htot)
        · rw [if_neg hsp]
          refine ⟨_, _, rfl, ?_⟩
          have hnl : Newline c := by rcases h4 with h | h | h <;> simp_all
          obtain ⟨ws, rest, e, w1, w2⟩ := exists_run isNewline (c :: cs)
          simp only [isNewline_iff] at w1 w2
          have hn := ws_run e hnl w2
          rw [e, consumeNewlines_eq w1 w2]
          exact newWhitespace_covers (by decide) rfl (fun c hc => Or.inr (Or.inr (w1 c hc))) hn rfl (e ▸ htot)
  by_cases h5 : c ∈ special
  · simp only [special, List.mem_cons, List.not_mem_nil, or_false] at h5
    rcases h5 with rfl | rfl | rfl | rfl | rfl | rfl | rfl | rfl | rfl | rfl | rfl | rfl | rfl | rfl | rfl | rfl
    · rw [show ('\x00' : Char) = NUL from rfl, scan_nul]
      refine consumeIdentLike_covers ha hl ?_
      rintro ⟨hh, _⟩; exact hh (by simp [NUL])
    · exact absurd (by simp [Ws]) h4
    · exact absurd (by simp [Ws]) h4
    · exact absurd (by simp [Ws, Newline]) h4
    · exact absurd (by simp [Ws, Newline]) h4
    · exact absurd (by simp [Ws, Newline]) h4
    · exact ⟨_, _, scan_quote (Or.inl rfl), consumeString_covers (Or.inl rfl) ha hl⟩
    · exact ⟨_, _, scan_quote (Or.inr rfl), consumeString_covers (Or.inr rfl) ha hl⟩
    · exact scan_covers_dash ha hl
    · exact scan_covers_dot ha hl
    · exact scan_covers_plus ha hl
    · exact scan_covers_lt ha hl
    · exact scan_covers_hash ha hl
    · exact scan_covers_at ha hl
    · exact scan_covers_backslash ha hl
    · exact scan_covers_slash ha hl hf
  · rw [scan_other h1 h5 h3 h2]
    split
    · rename_i hs
      refine consumeIdentLike_covers ha hl (startsName_not_ends (Or.inl ?_))
      simpa using (isIdentStart_iff c).mp hs
    · have := C17_delim c
      exact ⟨_, _, rfl, covers_one this.2.1 (by rw [this.1]; decide)⟩

/-! ### The kind of a scanned token -/

theorem consumeUrl_kind (n : Nat) (e : Bool) (cs : List Char) :
    (consumeUrl n e cs).1.kind = .url ∨ (consumeUrl n e cs).1.kind = .badUrl := by
  unfold consumeUrl
  dsimp only
  split
  · left; simp [newUrl_eq]
  · right; simp [newBadUrl_eq]

theorem consumeIdentLike_kind {cs r : List Char} {t : Token} (h : consumeIdentLike cs = .ok (t, r)) :
    t.kind ∈ [Kind.url, .badUrl, .function, .ident] := by
  unfold consumeIdentLike at h
  simp only [bind, Except.bind, pure, Except.pure] at h
  split at h
  · contradiction
  · split at h
    · split at h
      · injection h with h
        rename_i s' _ _ _
        have := consumeUrl_kind (s'.1.len + 1) s'.1.esc s'.2.tail
        rw [h] at this
        rcases this with h | h <;> simp [h]
      · injection h with h; injection h with h _; subst h; simp [newFunction_eq]
    · injection h with h; injection h with h _; subst h; simp [newIdent_eq]

theorem consumeNumeric_kind (cs : List Char) : (consumeNumeric cs).1.kind = .dimension ∨ (consumeNumeric cs).1.kind = .number := by
  unfold consumeNumeric
  dsimp only
  split
  · left; simp [newDimension_eq]
  · split
    · left; simp [newDimension_eq]
    · right; simp [newNumber_eq]

theorem consumeString_kind (c : Char) (cs : List Char) :
    (consumeString (c :: cs)).1.kind = .string ∨ (consumeString (c :: cs)).1.kind = .badString := by
  unfold consumeString
  dsimp only
  split
  · left; simp [newString_eq]
  · right; simp [newBadString_eq]

theorem newWhitespace_kind (st : Whitespace) (n : BitVec 32) (h : st.bits.toNat < 8) :
    (Token.newWhitespace st n).kind = .whitespace := by
  rw [newWhitespace_eq st h]; simp

/-- Only the end of the text is EOF. -/
theorem scan_kind {f : Features} {cs r : List Char} {t : Token} (hne : cs ≠ []) (h : scanToken f cs = .ok (t, r)) :
    t.kind ≠ .eof := by
  have hid : ∀ {cs : List Char}, consumeIdentLike cs = .ok (t, r) → t.kind ≠ .eof := by
    intro cs h
    have := consumeIdentLike_kind h
    intro he; simp [he] at this
  have hnum : ∀ {cs : List Char}, (.ok (consumeNumeric cs) : Except Panic _) = .ok (t, r) → t.kind ≠ .eof := by
    intro cs h
    injection h with h
    have := consumeNumeric_kind cs
    rw [h] at this
    intro he; simp [he] at this
  match cs, hne with
  | c :: cs, _ =>
  by_cases h1 : c.toNat ∈ singles
  · rw [scan_single h1] at h
    injection h with h; injection h with h _; subst h
    exact (singles_table _ h1).2
  by_cases h2 : c.toNat < 128 ∧ NameStart c
  · rw [scan_identAscii ⟨h2.1, by
      have := (isIdentStart_iff c).mpr h2.2
      rw [isIdentStart, if_pos (by simpa [isAscii] using h2.1)] at this
      exact this⟩] at h
    exact hid h
  by_cases h3 : Digit c
  · rw [scan_digit h3] at h; exact hnum h
  by_cases h4 : Ws c
  · cases hsep : f.separateWhitespace with
    | false =>
      rw [scan_ws h4 hsep] at h
      injection h with h; injection h with h _; subst h
      obtain ⟨ws, rest, e, w1, w2⟩ := exists_ws (c :: cs)
      rw [e, consumeWhitespace_eq _ w1 w2, newWhitespace_kind _ _ (wsFlags_lt _ _ (by decide))]
      decide
    | true =>
      rw [scan_sep h4 hsep] at h
      split at h
      · injection h with h; injection h with h _; subst h
        rw [newWhitespace_kind _ _ (by decide)]; decide
      · split at h
        · injection h with h; injection h with h _; subst h
          rw [newWhitespace_kind _ _ (by decide)]; decide
        · injection h with h; injection h with h _; subst h
          rw [newWhitespace_kind _ _ (by decide)]; decide
  by_cases h5 : c ∈ special
  · have fin : ∀ {x : Token} {y : List Char}, x.kind ≠ .eof → (.ok (x, y) : Except Panic _) = .ok (t, r) → t.kind ≠ .eof := by
      intro x y hx h; injection h with h; injection h with h _; subst h; exact hx
    simp only [special, List.mem_cons, List.not_mem_nil, or_false] at h5
    rcases h5 with rfl | rfl | rfl | rfl | rfl | rfl | rfl | rfl | rfl | rfl | rfl | rfl | rfl | rfl | rfl | rfl
    · rw [show ('\x00' : Char) = NUL from rfl, scan_nul] at h; exact hid h
    · exact absurd (by simp [Ws]) h4
    · exact absurd (by simp [Ws]) h4
    · exact absurd (by simp [Ws, Newline]) h4
    · exact absurd (by simp [Ws, Newline]) h4
    · exact absurd (by simp [Ws, Newline]) h4
    · rw [scan_quote (Or.inl rfl)] at h
      have := consumeString_kind '"' cs
      injection h with h; rw [h] at this; intro he; simp [he] at this
    · rw [scan_quote (Or.inr rfl)] at h
      have := consumeString_kind '\'' cs
      injection h with h; rw [h] at this; intro he; simp [he] at this
    · rw [scan_dash] at h
      split at h
      · exact fin (by decide) h
      · split at h
        · exact hid h
        · split at h
          · exact hnum h
          · exact fin (by decide) h
    · rw [scan_dotplus (Or.inl rfl)] at h
      split at h
      · exact hnum h
      · exact fin (by decide) h
    · rw [scan_dotplus (Or.inr rfl)] at h
      split at h
      · exact hnum h
      · exact fin (by decide) h
    · rw [scan_lt] at h
      split at h
      · exact fin (by decide) h
      · exact fin (by decide) h
    · rw [scan_hash] at h
      split at h
      · rw [show consumeHash ('#' :: cs) = ((consumeHash ('#' :: cs)).1, (consumeHash ('#' :: cs)).2) from rfl] at h
        refine fin ?_ h
        simp [consumeHash, newHash_eq]
      · exact fin (by decide) h
    · rw [scan_at] at h
      split at h
      · exact fin (by simp [newAtKeyword_eq]) h
      · exact fin (by decide) h
    · rw [scan_backslash] at h
      split at h
      · exact hid h
      · exact fin (by decide) h
    · rw [scan_slash] at h
      split at h
      · exact fin (by simp [newComment_eq]) h
      · split at h
        · exact fin (by simp [newComment_eq]) h
        · exact fin (by decide) h
  · rw [scan_other h1 h5 h3 h2] at h
    split at h
    · exact hid h
    · injection h with h; injection h with h _; subst h
      rw [(C17_delim c).1]; decide

end Hdx

/-
C67: the text of a name token can always be decoded.
-/
import Verif.Props.Decode
import Verif.Lemmas.TokenStream
import Verif.Props.Lexical3
import Verif.Props.Lexical4

namespace Hdx
open Spec

/-- Which scanner produced an Ident or Function token. -/
theorem ScanCase.identLike_of_kind {f : Features} {cs r : List Char} {t : Token} (h : ScanCase f cs t r) (hk : t.kind = .ident ∨ t.kind = .function) :
    consumeIdentLike cs = .ok (t, r) := by
  have hs := h.kindStarts
  cases h with
  | identLike h h' => exact h'
  | single h => have := singles_kind _ h; rcases hk with e | e <;> rw [e] at this <;> exact absurd this (by decide)
  | numeric h h' =>
    have := consumeNumeric_kind cs
    rw [h'] at this
    simp only at this
    rcases hk with e | e <;> rw [e] at this <;> simp at this
  | @ws c cs ws rest h h' e hm =>
    have e := newWhitespace_kind (ws.foldl (fun s c => s.or (wsFlag c)) .none) (w32 ws.length) (wsFlags_lt _ _ (by decide))
    rw [e] at hk; simp at hk
  | @wsSep P st c cs ws rest hP hc hf he hm =>
    have e : (Token.newWhitespace st (w32 ws.length)).kind = .whitespace := by
      apply newWhitespace_kind
      rcases hP with ⟨_, rfl⟩ | ⟨_, rfl⟩ | ⟨_, rfl⟩ <;> decide
    rw [e] at hk; simp at hk
  | @string q cs t r hq h =>
    have := consumeString_kind q cs
    rw [h] at this
    simp only at this
    rcases hk with e | e <;> rw [e] at this <;> simp at this
  | cdc => rw [show Token.CDC.kind = .cdcOrCdo from by decide] at hk; simp at hk
  | cdo => rw [show Token.CDO.kind = .cdcOrCdo from by decide] at hk; simp at hk
  | @hash cs t r h h' =>
    have e : t.kind = .hash := by
      rw [show t = (consumeHash ('#' :: cs)).1 by rw [h']]
      simp [consumeHash, newHash_eq]
    rw [e] at hk; simp at hk
  | «at» h => rw [newAtKeyword_eq, mkTok_kind] at hk; simp at hk
  | block => rw [newComment_eq, mkTok_kind] at hk; simp at hk
  | line h => rw [newComment_eq, mkTok_kind] at hk; simp at hk
  | dash => exact absurd hk (by decide)
  | @dotplus c => rw [(C17_delim c).1] at hk; simp at hk
  | lt => exact absurd hk (by decide)
  | pound => exact absurd hk (by decide)
  | atSign => exact absurd hk (by decide)
  | backslash => exact absurd hk (by decide)
  | slash => exact absurd hk (by decide)
  | @other c => rw [(C17_delim c).1] at hk; simp at hk

theorem name_inner {l : Lexer} {x : List Char} (hb : l.Before x) (hsrc : byteLen l.source < 2 ^ 32) : byteLen x < 2 ^ 32 := by
  obtain ⟨pre, hp, _⟩ := hb
  rw [hp] at hsrc; simp only [byteLen_eq, utf8Len_append] at *; omega

theorem decodeOk_chrs {x after : List Char} (h : ∀ c ∈ x, c ≠ '\\') : DecodeOk false ((chrs x).map NameUnit.toStr) after := by
  induction x with
  | nil => trivial
  | cons c x ih => exact ⟨h c (by simp), ih fun c hc => h c (by simp [hc])⟩

theorem chrs_noBackslash {y rest : List Char} (hv : NameDecodes (chrs y) rest) : ∀ c ∈ y, c ≠ '\\' := by
  induction y with
  | nil => simp
  | cons c y ih =>
    intro d hd
    rcases List.mem_cons.mp hd with rfl | hd
    · exact hv.1
    · exact ih hv.2 d hd

theorem number_noBackslash {t : List Char} (h : IsNumber t) : ∀ c ∈ t, c ≠ '\\' := by
  obtain ⟨s, i, f, e, hp, rfl⟩ := h
  have hs : ∀ {s}, IsSign s → ∀ c ∈ s, c ≠ '\\' := by
    intro s hs; cases hs <;> simp <;> decide
  have hd : ∀ {ds}, Digits ds → ∀ c ∈ ds, c ≠ '\\' := fun h c hc he => by
    have := h c hc
    rw [he, ← isDigit_iff] at this
    exact absurd this (by decide)
  intro c hc
  simp only [List.mem_append] at hc
  rcases hc with hc | hc | hc | hc
  · exact hs hp.isSign c hc
  · exact hd hp.isInt c hc
  · have := hp.isFrac
    cases this with
    | none => simp at hc
    | some a _ =>
      rcases List.mem_cons.mp hc with rfl | hc
      · decide
      · exact hd a c hc
  · have := hp.isExp
    cases this with
    | none => simp at hc
    | some a b c' _ =>
      rcases List.mem_cons.mp hc with rfl | hc
      · rcases a with rfl | rfl <;> decide
      · rcases List.mem_append.mp hc with hc | hc
        · exact hs b c hc
        · exact hd c' c hc

/-- Numbers and dimensions. -/
theorem numeric_decodable {l l' : Lexer} {x : List Char} {t : Token} (hb : l.Before x) (ht : Tame l.features l.source) (ha : l.advance = .ok (t, l'))
    (hne : x ≠ []) (hk : t.kind = .number ∨ t.kind = .dimension) : Decodable ⟨l.offset, t⟩ l.source := by
  have htx : Tame l.features x := by
    obtain ⟨pre, hp, _⟩ := hb
    rw [hp] at ht; exact ht.suffix
  have hsrc : byteLen l.source < 2 ^ 32 := ht.limits.total
  have hpos : t.len.toNat ≠ 0 := by
    obtain ⟨t', l2, text, cs', a1, a2, a3, a4, a5, a6, a7⟩ := advance_tame hb htx hne
    rw [ha] at a1; cases a1
    have := utf8Len_pos a4
    rw [a5, byteLen_eq]; omega
  obtain ⟨r0, hsc, hcase⟩ := advance_cases hb hne ha
  have hst := hcase.kindStarts.numeric hk
  rw [scan_startsNumber hst] at hsc
  replace hsc : consumeNumeric x = (t, r0) := by injection hsc
  obtain ⟨s, i, f, e, r, hp, hcs, hlong, fl, sg, hfl, hsg, h1, h2, h3⟩ := consumeNumeric_spec ((isNumberStart_iff _).mpr hst)
  have hnl := (number_len hp).1
  have hnob := number_noBackslash ⟨_, _, _, _, hp, rfl⟩
  generalize s ++ (i ++ (f ++ e)) = num at *
  subst hcs
  have hbt := htx.limits.total
  rw [byteLen_eq, utf8Len_append] at hbt
  have hw : (w32 num.length).toNat = num.length := w32_toNat (by omega)
  by_cases hpc : Starts (· = '%') r
  · obtain ⟨c, r', rfl, rfl⟩ := hpc
    rw [h1 r' rfl] at hsc
    replace hsc := congrArg Prod.fst hsc; simp only at hsc
    have hd := htx.limits.dimension [] num ('%' :: r') rfl hlong (by simp)
    obtain ⟨k1, k2, k3, _⟩ := C17_dimension_known fl sg (w32 num.length) 1#32 (F32.parse num) .percent (by decide) (by rw [hw]; exact hd)
    rw [hsc] at k1 k2 k3
    obtain ⟨a1, a2⟩ := affixes_dimension k1
    have hin : Inner ⟨l.offset, t⟩ l.source (nameText (chrs ['%'])) ([] ++ r') :=
      inner_of_before (lead := num) (by simpa using hb) hsrc (by rw [a1, k3, hw, byteLen_eq, hnl]) (by rw [a2]; rfl)
        (by rw [k2, BitVec.toNat_add, hw, byteLen_eq, hnl]; simp [DimensionUnit.len, byteLen_eq]; rw [show '%'.utf8Size = 1 from rfl]; omega) hpos
    rw [← strText_map] at hin
    exact inner_total hin (by rw [isString_false (by simp [k1])]; exact decodeOk_chrs (by decide))
  by_cases hs : StartsName r
  · rw [h2 hpc hs] at hsc
    replace hsc := congrArg Prod.fst hsc; simp only at hsc
    have hd := htx.limits.dimension [] num _ rfl hlong (startsName_unitStart hs)
    obtain ⟨us, u1, u2, u3⟩ := consumeUnit_spec r
    replace u2 := u2 htx.escapes.suffix
    generalize consumeUnit r = U at *
    obtain ⟨unit, m, rest⟩ := U
    simp only at *
    have hx := u1.split
    subst hx
    have hul := htx.limits.unit [] num us rest rfl hlong u1.valid
    rw [byteLen_eq] at hul
    by_cases hu : unit = .unknown
    · subst hu
      obtain ⟨k1, k2, k3, _⟩ := C17_dimension_unknown fl sg (w32 num.length) (w32 m) (F32.parse num)
        (by rw [hw]; exact hd) (by rw [w32_toNat (by omega)]; omega)
      rw [hsc] at k1 k2 k3
      obtain ⟨a1, a2⟩ := affixes_dimension k1
      have hin : Inner ⟨l.offset, t⟩ l.source (nameText us) ([] ++ rest) :=
        inner_of_before (lead := num) (by simpa using hb) hsrc (by rw [a1, k3, hw, byteLen_eq, hnl]) (by rw [a2]; rfl)
          (by rw [k2, BitVec.toNat_add, hw, byteLen_eq, hnl, w32_toNat (by omega), u2]; simp [byteLen_eq]; omega) hpos
      rw [← strText_map] at hin
      exact inner_total hin (by rw [isString_false (by simp [k1])]; exact decodeOk_map (validName_decodes u1.valid))
    · obtain ⟨y, rfl, y2, y3, y4, _⟩ := u3 hu
      obtain ⟨k1, k2, k3, _⟩ := C17_dimension_known fl sg (w32 num.length) (w32 m) (F32.parse num) unit hu (by rw [hw]; exact hd)
      rw [hsc] at k1 k2 k3
      obtain ⟨a1, a2⟩ := affixes_dimension k1
      rw [nameText_chrs] at hb u2 hul hbt
      have hasc : utf8Len (y.take unit.len) = unit.len := by
        rw [utf8Len_of_ascii (fun c hc => by simpa [isAscii] using y2 c (List.take_subset _ _ hc)), List.length_take]; omega
      have hay : utf8Len y = y.length := utf8Len_of_ascii (fun c hc => by simpa [isAscii] using y2 c hc)
      have hin : Inner ⟨l.offset, t⟩ l.source (nameText (chrs (y.take unit.len))) ([] ++ (y.drop unit.len ++ rest)) := by
        rw [nameText_chrs]
        refine inner_of_before (lead := num) ?_ hsrc (by rw [a1, k3, hw, byteLen_eq, hnl]) (by rw [a2]; rfl) ?_ hpos
        · rw [List.nil_append, ← List.append_assoc (y.take unit.len), List.take_append_drop]; exact hb
        · rw [k2, BitVec.toNat_add, hw, byteLen_eq, byteLen_eq, byteLen_eq, hnl, hasc]; simp; omega
      rw [← strText_map] at hin
      have hv := validName_decodes u1.valid
      have hnb := chrs_noBackslash hv
      exact inner_total hin (by rw [isString_false (by simp [k1])]; exact decodeOk_chrs fun c hc => hnb c (List.take_subset _ _ hc))
  · rw [h3 hpc hs] at hsc
    replace hsc := congrArg Prod.fst hsc; simp only at hsc
    have hn := htx.limits.number [] num r rfl hlong
    obtain ⟨k1, k2, k3, _⟩ := C17_number fl sg (w32 num.length) (F32.parse num) (by rw [hw]; exact hn)
    rw [hsc] at k1 k2 k3
    have a1 : t.leadingLen = 0#32 := by simp [Token.leadingLen, k1]
    have a2 : t.trailingLen = 0#32 := by simp [Token.trailingLen, k1]
    have hin : Inner ⟨l.offset, t⟩ l.source (nameText (chrs num)) ([] ++ r) :=
      inner_of_before (lead := []) (by simpa using hb) hsrc (by rw [a1]; rfl) (by rw [a2]; rfl)
        (by rw [k2, hw]; simp [byteLen_eq, hnl]) hpos
    rw [← strText_map] at hin
    exact inner_total hin (by rw [isString_false (by simp [k1])]; exact decodeOk_chrs hnob)

/-- The names of a source the lexer handles - identifiers, functions, at-keywords, hashes - can be decoded, lower-cased, and compared with
anything, without a panic; and so can numbers and dimensions. Missing from the full C67: sources outside `Tame` (`C67_counterexample`).
The other kinds of token are in Props/Readable.lean. -/
theorem C67_decodable_partial {l l' : Lexer} {x : List Char} {t : Token} (hb : l.Before x) (ht : Tame l.features l.source) (ha : l.advance = .ok (t, l'))
    (hk : t.kind = .ident ∨ t.kind = .function ∨ t.kind = .atKeyword ∨ t.kind = .hash ∨ t.kind = .number ∨ t.kind = .dimension) : Decodable ⟨l.offset, t⟩ l.source := by
  have htx : Tame l.features x := by
    obtain ⟨pre, hp, _⟩ := hb
    rw [hp] at ht; exact ht.suffix
  have hne : x ≠ [] := by
    rintro rfl
    rw [advance_before hb, if_pos rfl] at ha
    cases ha; exact absurd hk (by decide)
  have hsrc : byteLen l.source < 2 ^ 32 := ht.limits.total
  have hlx := name_inner hb hsrc
  have hpos : t.len.toNat ≠ 0 := by
    obtain ⟨t', l2, text, cs', a1, a2, a3, a4, a5, a6, a7⟩ := advance_tame hb htx hne
    rw [ha] at a1; cases a1
    have := utf8Len_pos a4
    rw [a5, byteLen_eq]; omega
  have hidf : t.kind = .ident ∨ t.kind = .function → Decodable ⟨l.offset, t⟩ l.source := by
    intro hk
    obtain ⟨r, _, hcase⟩ := advance_cases hb hne ha
    have hc := hcase.identLike_of_kind hk
    obtain ⟨us, rest, nl, d, e, u, g1, g2, g3, g4, g5⟩ := consumeIdentLike_spec htx.escapes
    have hx := g1.split
    subst hx
    by_cases hp : Starts (· = '(') rest
    · obtain ⟨c, rest, rfl, rfl⟩ := hp
      cases hu : (u && !isQuote (peekPastWs 4 rest)) with
      | true =>
        rw [g3 rest rfl hu] at hc
        have hkk := consumeUrl_kind (utf8Len (nameText us) + 1) e rest
        injection hc with hc
        rw [hc] at hkk
        rcases hk with h | h <;> rw [h] at hkk <;> simp at hkk
      | false =>
        rw [g4 rest rfl hu] at hc
        injection hc with hc; injection hc with hc _
        obtain ⟨k1, k2, _⟩ := C17_function nl d e (w32 (utf8Len (nameText us) + 1))
        rw [hc] at k1 k2
        have hl : utf8Len (nameText us) + 1 < 2 ^ 32 := by
          simp only [byteLen_eq, utf8Len_append, utf8Len_cons, show '('.utf8Size = 1 from rfl] at hlx; omega
        replace k2 := congrArg BitVec.toNat k2
        rw [w32_toNat hl] at k2
        obtain ⟨a1, a2⟩ := affixes_function k1
        have hin : Inner ⟨l.offset, t⟩ l.source (nameText us) (['('] ++ rest) :=
          inner_of_before (lead := []) (by simpa using hb) hsrc (by rw [a1]; rfl) (by rw [a2]; rfl)
            (by rw [k2]; simp [byteLen_eq]; rfl) hpos
        rw [← strText_map] at hin
        exact inner_total hin (by rw [isString_false (by simp [k1])]; exact decodeOk_map (validName_decodes g1.valid))
    · rw [g5 hp] at hc
      injection hc with hc; injection hc with hc _
      obtain ⟨k1, k2, _⟩ := C17_ident nl d e (w32 (utf8Len (nameText us)))
      rw [hc] at k1 k2
      have hl : utf8Len (nameText us) < 2 ^ 32 := by
        simp only [byteLen_eq, utf8Len_append] at hlx; omega
      replace k2 := congrArg BitVec.toNat k2
      rw [w32_toNat hl] at k2
      obtain ⟨a1, a2⟩ := affixes_plain k1
      have hin : Inner ⟨l.offset, t⟩ l.source (nameText us) ([] ++ rest) :=
        inner_of_before (lead := []) (by simpa using hb) hsrc (by rw [a1]; rfl) (by rw [a2]; rfl)
          (by rw [k2]; simp [byteLen_eq]) hpos
      rw [← strText_map] at hin
      exact inner_total hin (by rw [isString_false (by simp [k1])]; exact decodeOk_map (validName_decodes g1.valid))
  rcases hk with hk | hk | hk | hk | hk
  · exact hidf (.inl hk)
  · exact hidf (.inr hk)
  · obtain ⟨r, rfl, hs⟩ := (C10_only hb hne ha).2.1 hk
    obtain ⟨us, rest, rfl, hn⟩ := C10_total r
    obtain ⟨t', ⟨_, y, _⟩, _, hd⟩ := C22_atKeyword_partial hb hs hn (by simpa using (htx.suffix (a := ['@'])).escapes) hsrc
    rw [ha] at y; cases y
    exact hd.decodable
  · obtain ⟨r, rfl, hs⟩ := (C10_only hb hne ha).2.2 hk
    obtain ⟨us, rest, rfl, hn⟩ := C10_total r
    obtain ⟨t', ⟨_, y, _⟩, _, hd⟩ := C22_hash_partial hb hs hn (by simpa using (htx.suffix (a := ['#'])).escapes) hsrc
    rw [ha] at y; cases y
    exact hd.decodable
  · exact numeric_decodable hb ht ha hne hk

/-- The kinds of punctuation that have a kind of their own. -/
def Spec.PUNCTUATION : List Kind := [.colon, .semicolon, .comma, .leftSquare, .rightSquare, .leftParen, .rightParen, .leftCurly, .rightCurly]

theorem ScanCase.punctuation {f : Features} {cs r : List Char} {t : Token} (h : ScanCase f cs t r) (hk : t.kind ∈ PUNCTUATION) :
    ∃ c, cs = c :: r ∧ c.toNat ∈ singles ∧ t = singleCharToken c.toNat := by
  have kill : ∀ {P : Prop} (k : Kind), t.kind = k → k ∉ PUNCTUATION → P := fun k h1 h2 => absurd (h1 ▸ hk) h2
  cases h with
  | @single c cs h => exact ⟨c, rfl, h, rfl⟩
  | identLike h h' =>
    have := consumeIdentLike_kind h'
    simp only [List.mem_cons, List.not_mem_nil, or_false] at this
    rcases this with e | e | e | e <;> exact kill _ e (by decide)
  | numeric h h' =>
    have := consumeNumeric_kind cs
    rw [h'] at this
    simp only at this
    rcases this with e | e <;> exact kill _ e (by decide)
  | @ws c cs ws rest h h' e hm =>
    exact kill _ (newWhitespace_kind (ws.foldl (fun s c => s.or (wsFlag c)) .none) (w32 ws.length) (wsFlags_lt _ _ (by decide))) (by decide)
  | @wsSep P st c cs ws rest hP hc hf he hm =>
    have e : (Token.newWhitespace st (w32 ws.length)).kind = .whitespace := by
      apply newWhitespace_kind
      rcases hP with ⟨_, rfl⟩ | ⟨_, rfl⟩ | ⟨_, rfl⟩ <;> decide
    exact kill _ e (by decide)
  | @string q cs t r hq h =>
    have := consumeString_kind q cs
    rw [h] at this
    simp only at this
    rcases this with e | e <;> exact kill _ e (by decide)
  | cdc => exact absurd hk (by decide)
  | cdo => exact absurd hk (by decide)
  | @hash cs t r h h' =>
    have e : t.kind = .hash := by
      rw [show t = (consumeHash ('#' :: cs)).1 by rw [h']]
      simp [consumeHash, newHash_eq]
    exact kill _ e (by decide)
  | «at» h => exact kill .atKeyword (by rw [newAtKeyword_eq, mkTok_kind]) (by decide)
  | block => exact kill .comment (by rw [newComment_eq, mkTok_kind]) (by decide)
  | line h => exact kill .comment (by rw [newComment_eq, mkTok_kind]) (by decide)
  | dash => exact absurd hk (by decide)
  | @dotplus c => exact kill _ (C17_delim c).1 (by decide)
  | lt => exact absurd hk (by decide)
  | pound => exact absurd hk (by decide)
  | atSign => exact absurd hk (by decide)
  | backslash => exact absurd hk (by decide)
  | slash => exact absurd hk (by decide)
  | @other c => exact kill _ (C17_delim c).1 (by decide)

/-- Punctuation can be read too: a colon, a comma, a bracket. -/
theorem C67_punctuation_partial {l l' : Lexer} {x : List Char} {t : Token} (hb : l.Before x) (ht : Tame l.features l.source) (ha : l.advance = .ok (t, l'))
    (hk : t.kind ∈ PUNCTUATION) : Decodable ⟨l.offset, t⟩ l.source := by
  have hne : x ≠ [] := by
    rintro rfl
    rw [advance_before hb, if_pos rfl] at ha
    cases ha; exact absurd hk (by decide)
  have hsrc : byteLen l.source < 2 ^ 32 := ht.limits.total
  obtain ⟨r, _, hcase⟩ := advance_cases hb hne ha
  obtain ⟨c, rfl, hc, rfl⟩ := hcase.punctuation hk
  have h1 : ∀ n ∈ singles, (singleCharToken n).leadingLen = 0#32 ∧ (singleCharToken n).trailingLen = 0#32 ∧ (singleCharToken n).len = 1#32 := by
    decide +kernel
  have h2 : ∀ n ∈ singles, n < 128 := by decide
  have h3 : ∀ n ∈ singles, (singleCharToken n).kind ∈ PUNCTUATION → n ≠ 92 := by decide +kernel
  obtain ⟨e1, e2, e3⟩ := h1 _ hc
  have hu : c.utf8Size = 1 := by
    have := h2 _ hc
    exact Char.utf8Size_eq_one_iff.mpr (by
      rw [UInt32.le_iff_toNat_le]; exact (by show c.toNat ≤ 127; omega))
  have hin : Inner ⟨l.offset, singleCharToken c.toNat⟩ l.source (nameText (chrs [c])) ([] ++ r) :=
    inner_of_before (lead := []) (by simpa using hb) hsrc (by rw [e1]; rfl) (by rw [e2]; rfl)
      (by rw [e3]; simp [byteLen_eq, utf8Len_cons, hu]) (by rw [e3]; decide)
  rw [← strText_map] at hin
  have hnb : ∀ d ∈ [c], d ≠ '\\' := by
    intro d hd
    rw [List.mem_singleton] at hd
    subst hd
    rintro rfl
    exact h3 _ hc hk rfl
  have hns : ∀ k ∈ PUNCTUATION, k ≠ .string := by decide
  have hstr : Cursor.isString ⟨l.offset, singleCharToken c.toNat⟩ = false := isString_false (hns _ hk)
  have hdec : DecodeOk false ((chrs [c]).map NameUnit.toStr) ([] ++ r) := decodeOk_chrs hnb
  refine inner_total hin ?_
  rw [hstr]
  exact hdec

/-- Beyond the guard: the escape of a character that is not ASCII makes the token too short, and decoding it panics. -/
theorem C67_counterexample : ((Lexer.new c!"#\\é").advance.map (fun p => (p.1.kind, (Cursor.mk 0 p.1).parseStr c!"#\\é",
    (Cursor.mk 0 p.1).eqIgnoreAsciiCase c!"#\\é" c!"é"))) = .ok (.hash, .error .slice, .error .slice) := by decide +kernel

/-- A name with escapes, a unit the lexer does not know, and what is left of `1svm`. -/
example : Tame {} c!"\\41 b-c 1fo\\6f 1svm" ∧ ((Lexer.new c!"\\41 b-c").advance.map (fun p => (p.1.kind, (Cursor.mk 0 p.1).parseStrLower c!"\\41 b-c")))
    = .ok (.ident, .ok c!"ab-c") := ⟨tame_of_ascii (by decide) (by decide), by decide +kernel⟩
example : ((Lexer.new c!"1svm").advance.map (fun p => (p.1.kind, (Cursor.mk 0 p.1).parseStr c!"1svm"))) = .ok (.dimension, .ok c!"s") := by decide +kernel

end Hdx

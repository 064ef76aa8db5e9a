/-
C22-C27: decoding the text of tokens, spans and positions.
-/
import Verif.Props.Lexical1
import Verif.Props.Lexical3
import Verif.Lemmas.Decode

namespace Hdx
open Spec

/-! ## Names as decodable texts -/

/-- A name element as a string element. -/
def Spec.NameUnit.toStr : NameUnit → StrUnit
  | .chr c => .chr c
  | .esc e => .esc e

theorem strText_map (us : List NameUnit) : strText (us.map NameUnit.toStr) = nameText us := by
  induction us with
  | nil => rfl
  | cons u us ih => cases u <;> simp_all [strText, nameText, NameUnit.toStr, StrUnit.text, NameUnit.text]

theorem unitsValue_map (us : List NameUnit) : unitsValue false (us.map NameUnit.toStr) = nameValue us := by
  induction us with
  | nil => rfl
  | cons u us ih => cases u <;> simp_all [nameValue, NameUnit.toStr, unitValue, NameUnit.value]

/-- What the decoder needs: every backslash of the text starts an escape. -/
def NameDecodes : List NameUnit → List Char → Prop
  | [], _ => True
  | .chr c :: us, rest => c ≠ '\\' ∧ NameDecodes us rest
  | .esc e :: us, rest => EscTail e (nameText us ++ rest) ∧ NameDecodes us rest

theorem decodeOk_map {us : List NameUnit} {rest : List Char} (h : NameDecodes us rest) :
    DecodeOk false (us.map NameUnit.toStr) rest := by
  induction us with
  | nil => trivial
  | cons u us ih =>
    cases u with
    | chr c => exact ⟨h.1, ih h.2⟩
    | esc e => exact ⟨.inr (by rw [strText_map]; exact h.1), ih h.2⟩

theorem validName_decodes {us : List NameUnit} {rest : List Char} (h : ValidName us rest) : NameDecodes us rest := by
  induction us with
  | nil => trivial
  | cons u us ih =>
    cases u with
    | chr c =>
      refine ⟨?_, ih h.2⟩
      rintro rfl
      rcases h.1 with h | h
      · rw [← isIdent_iff] at h; exact absurd h (by decide)
      · exact absurd h (by decide)
    | esc e => exact ⟨h.1, ih h.2⟩

theorem validUrl_decodes {us : List NameUnit} {rest : List Char} (h : ValidUrl us rest) : NameDecodes us rest := by
  induction us with
  | nil => trivial
  | cons u us ih =>
    cases u with
    | chr c => exact ⟨h.1.2.2.2.2.2.1, ih h.2⟩
    | esc e => exact ⟨h.1, ih h.2⟩

theorem nameValue_plain {us : List NameUnit} (hb : '\\' ∉ nameText us) (hn : NUL ∉ nameText us) : nameText us = nameValue us := by
  induction us with
  | nil => rfl
  | cons u us ih =>
    cases u with
    | esc e => exact absurd (by simp [nameText, NameUnit.text]) hb
    | chr c =>
      simp only [nameText_chr, List.mem_cons, not_or] at hb hn
      simp only [nameText_chr, nameValue, List.map_cons, NameUnit.value, sourceChar, if_neg (Ne.symm hn.1)]
      rw [ih hb.2 hn.2]; rfl

/-- The cursor `c` stands on a token of `source` whose inner text (without the affixes) is `inner`, followed by `after`. -/
structure Inner (c : Cursor) (source inner after : List Char) : Prop where
  split : ∃ pre lead trail post, source = pre ++ (lead ++ (inner ++ (trail ++ post))) ∧ after = trail ++ post
    ∧ c.offset = byteLen pre ∧ c.token.leadingLen.toNat = byteLen lead ∧ c.token.trailingLen.toNat = byteLen trail
    ∧ c.token.len.toNat = byteLen lead + byteLen inner + byteLen trail
  notDummy : c.offset ≠ 4294967295

theorem Inner.stop {c : Cursor} {source inner after : List Char} (h : Inner c source inner after) :
    c.innerEnd = .ok (c.innerStart + utf8Len inner) := by
  obtain ⟨⟨pre, lead, trail, post, h1, h2, h3, h4, h5, h6⟩, h7⟩ := h
  simp only [byteLen_eq] at *
  unfold Cursor.innerEnd Cursor.innerStart Cursor.endOffset
  have h8 : (c.offset == DUMMY) = false := by simpa [DUMMY] using h7
  simp only [h8, Bool.false_eq_true, if_false]
  rw [h5, h6, h4, if_neg (by omega)]
  congr 1; omega

theorem Inner.at {c : Cursor} {source inner after : List Char} (h : Inner c source inner after) :
    At source c.innerStart [] inner after 0 (c.innerStart + utf8Len inner) := by
  obtain ⟨⟨pre, lead, trail, post, h1, h2, h3, h4, h5, h6⟩, h7⟩ := h
  simp only [byteLen_eq] at *
  exact ⟨rfl, ⟨pre ++ lead, by simp [h1, h2], by simp [Cursor.innerStart, h3, h4]⟩, by simp⟩

theorem Inner.slice {c : Cursor} {source inner after : List Char} (h : Inner c source inner after) :
    slice source c.innerStart (c.innerStart + utf8Len inner) = .ok inner := by
  obtain ⟨⟨pre, lead, trail, post, h1, h2, h3, h4, h5, h6⟩, h7⟩ := h
  simp only [byteLen_eq] at *
  have := sliceBytes_append (pre ++ lead) inner (trail ++ post)
  simp only [utf8Len_append, List.append_assoc] at this
  simp only [Hdx.slice, Cursor.innerStart, h3, h4, h1, this]

theorem isString_false {c : Cursor} (h : c.token.kind ≠ .string) : c.isString = false := by
  unfold Cursor.isString
  rw [Bool.eq_false_iff]
  intro he
  apply h
  rw [Token.kind]
  rw [beq_iff_eq] at he
  rw [he]; rfl

theorem isString_true {t : Token} (h : t.kind = .string) (o : Nat) : Cursor.isString ⟨o, t⟩ = true := by
  unfold Cursor.isString
  simp only [beq_iff_eq]
  have hlt : t.kindBits < 32 := by
    simp only [Token.kindBits]
    have : (t.w0 >>> 24 &&& 31#32).toNat ≤ 31 := by
      rw [BitVec.toNat_and]; exact Nat.and_le_right
    omega
  have : ∀ n < 32, Kind.ofBits n = .string → n = Kind.string.bits := by decide +kernel
  exact this _ hlt h

section
variable {c : Cursor} {source : List Char} {us : List NameUnit} {after : List Char}

theorem inner_parseStr (h : Inner c source (nameText us) after) (hk : c.token.kind ≠ .string) (hv : NameDecodes us after)
    (he : c.token.containsEscapeChars = false → '\\' ∉ nameText us ∧ NUL ∉ nameText us) :
    c.parseStr source = .ok (nameValue us) := by
  unfold Cursor.parseStr
  rw [h.stop]
  simp only [bind, Except.bind, h.slice, isString_false hk]
  cases hc : c.token.containsEscapeChars with
  | false => simp only [Bool.not_false, if_true, pure, Except.pure]; rw [nameValue_plain (he hc).1 (he hc).2]
  | true =>
    simp only [Bool.not_true, Bool.false_eq_true, if_false]
    have hat := h.at
    rw [← strText_map] at hat ⊢
    rw [parseLoop_eq (decodeOk_map hv) hat, unitsValue_map]
    simp

theorem asciiLower_eq (c : Char) : toAsciiLower c = asciiLower c := by
  simp only [toAsciiLower, asciiLower, Bool.and_eq_true, decide_eq_true_eq]; rfl

theorem asciiLower_id {c : Char} (h : ¬ Upper c) : asciiLower c = c := by rw [asciiLower]; exact if_neg h

theorem map_asciiLower_id {cs : List Char} (h : ∀ c ∈ cs, ¬ Upper c) : cs.map asciiLower = cs := by
  induction cs with
  | nil => rfl
  | cons c cs ih => simp [asciiLower_id (h c (by simp)), ih (fun d hd => h d (by simp [hd]))]

theorem map_toAsciiLower (cs : List Char) : cs.map toAsciiLower = cs.map asciiLower := by
  simp [asciiLower_eq]

theorem inner_parseStrLower (h : Inner c source (nameText us) after) (hk : c.token.kind ≠ .string) (hv : NameDecodes us after)
    (he : c.token.containsEscapeChars = false → '\\' ∉ nameText us ∧ NUL ∉ nameText us)
    (hl : c.token.isLowerCase = true → ∀ d ∈ nameValue us, ¬ Upper d) :
    c.parseStrLower source = .ok ((nameValue us).map asciiLower) := by
  unfold Cursor.parseStrLower
  split
  · rename_i hlc
    rw [inner_parseStr h hk hv he, map_asciiLower_id (hl hlc)]
  · rw [h.stop]
    simp only [bind, Except.bind, h.slice, isString_false hk]
    have hat := h.at
    rw [← strText_map] at hat ⊢
    rw [lowerLoop_eq (decodeOk_map hv) hat, unitsValue_map, map_toAsciiLower]
    simp

theorem utf8Len_lower (cs : List Char) : utf8Len (cs.map asciiLower) = utf8Len cs := by
  induction cs with
  | nil => rfl
  | cons c cs ih =>
    simp only [List.map_cons, utf8Len_cons, ih]
    congr 1
    unfold asciiLower
    split
    · rename_i h
      simp only [show 'A'.toNat = 65 from rfl, show 'Z'.toNat = 90 from rfl] at h
      rw [utf8Size_ascii (c := c) (by omega), utf8Size_ascii]
      rw [toNat_ofNat_valid (Or.inl (by omega))]; omega
    · rfl

theorem eqOk_map (h : ∀ e, NameUnit.esc e ∈ us → e ≠ [NUL]) : EqOk false (us.map NameUnit.toStr) := by
  induction us with
  | nil => trivial
  | cons u us ih =>
    have ih := ih (fun e he => h e (by simp [he]))
    cases u with
    | chr c => exact ih
    | esc e => exact ⟨by simp, h e (by simp), ih⟩

theorem inner_eq (h : Inner c source (nameText us) after) (hk : c.token.kind ≠ .string) (hv : NameDecodes us after)
    (he : c.token.containsEscapeChars = false → '\\' ∉ nameText us ∧ NUL ∉ nameText us)
    (hl : c.token.containsEscapeChars = false → c.token.isLowerCase = true → ∀ d ∈ nameValue us, ¬ Upper d)
    (hu : c.token.containsEscapeChars = true → (∀ d ∈ nameValue us, ¬ Upper d) ∧ ∀ e, NameUnit.esc e ∈ us → e ≠ [NUL])
    {k : List Char} (hkl : ∀ d ∈ k, ¬ Upper d) :
    c.eqIgnoreAsciiCase source k = .ok (decide ((nameValue us).map asciiLower = k)) := by
  unfold Cursor.eqIgnoreAsciiCase
  rw [h.stop]
  simp only [bind, Except.bind, h.slice, isString_false hk]
  cases hc : c.token.containsEscapeChars with
  | false =>
    have hval := nameValue_plain (he hc).1 (he hc).2
    simp only [Bool.not_false, if_true, pure, Except.pure]
    rw [if_neg (by omega)]
    simp only [Nat.add_sub_cancel_left]
    by_cases hlen : utf8Len (nameText us) = utf8Len k
    · rw [if_neg (by simpa using hlen)]
      cases hlc : c.token.isLowerCase with
      | true =>
        simp only [if_true, Except.ok.injEq]
        rw [map_asciiLower_id (hl hc hlc), ← hval, Bool.eq_iff_iff, beq_iff_eq, decide_eq_true_iff]
      | false =>
        simp only [Bool.false_eq_true, if_false, Except.ok.injEq]
        rw [map_toAsciiLower, map_toAsciiLower, map_asciiLower_id hkl, hval, Bool.eq_iff_iff, beq_iff_eq, decide_eq_true_iff]
    · rw [if_pos (by simpa using hlen)]
      simp only [Except.ok.injEq]
      symm
      rw [decide_eq_false_iff_not]
      rintro rfl
      rw [utf8Len_lower, ← hval] at hlen
      exact hlen rfl
  | true =>
    simp only [Bool.not_true, Bool.false_eq_true, if_false]
    obtain ⟨hu1, hu2⟩ := hu hc
    have hat := h.at
    rw [← strText_map] at hat ⊢
    rw [eqLoop_eq (decodeOk_map hv) (eqOk_map hu2) hat, unitsValue_map, map_asciiLower_id hu1]
    simp only [Except.ok.injEq]
    rw [Bool.eq_iff_iff, beq_iff_eq, decide_eq_true_iff]
    exact ⟨Eq.symm, Eq.symm⟩

end

theorem inner_of_before {l : Lexer} {lead inner trail post : List Char} {t : Token}
    (h : l.Before (lead ++ (inner ++ (trail ++ post)))) (hsrc : byteLen l.source < 2 ^ 32)
    (h1 : t.leadingLen.toNat = byteLen lead) (h2 : t.trailingLen.toNat = byteLen trail)
    (h3 : t.len.toNat = byteLen lead + byteLen inner + byteLen trail) (h4 : t.len.toNat ≠ 0) :
    Inner ⟨l.offset, t⟩ l.source inner (trail ++ post) := by
  obtain ⟨pre, hp, ho⟩ := h
  refine ⟨⟨pre, lead, trail, post, hp, rfl, ho, h1, h2, h3⟩, ?_⟩
  rw [hp] at hsrc
  simp only [byteLen_eq, utf8Len_append] at *
  simp only [ho]
  omega

/-! ## C22-C24 for the tokens of a source

Each theorem has the hypotheses of the corresponding `C10`/`C13`/`C16` theorem, and a source below 4 GiB. `us` is the name
(the longest one), `nameValue us` its value. What the three methods return is stated by `Decodes`. -/

/-- `parse_str()` returns the value of the name `us` (C22); `parse_str_lower()` returns that value, lower-cased, unless an escape
of a token that claims to be lower-case stands for an upper-case letter (C23); `eq_ignore_ascii_case()` with a lower-case
keyword is equality with the lower-cased value, unless there are escapes and the value has upper-case letters or an
escaped NUL (C24); and none of them panics. -/
structure Spec.Decodes (us : List NameUnit) (c : Cursor) (source : List Char) : Prop where
  str : c.parseStr source = .ok (nameValue us)
  lower : (c.token.isLowerCase = true → ∀ e, NameUnit.esc e ∈ us → ¬ Upper (escapedChar e)) →
    c.parseStrLower source = .ok ((nameValue us).map asciiLower)
  eq : ('\\' ∈ nameText us ∨ NUL ∈ nameText us ∨ c.token.kind = .dimension →
      (∀ d ∈ nameValue us, ¬ Upper d) ∧ ∀ e, NameUnit.esc e ∈ us → e ≠ [NUL]) →
    ∀ k : List Char, (∀ d ∈ k, ¬ Upper d) →
    c.eqIgnoreAsciiCase source k = .ok (decide ((nameValue us).map asciiLower = k))
  total : (∃ s, c.parseStrLower source = .ok s) ∧ ∀ k, ∃ b, c.eqIgnoreAsciiCase source k = .ok b

/-- `parse_str()`, `parse_str_lower()` and `eq_ignore_ascii_case()` return: they do not panic. -/
def Spec.Decodable (c : Cursor) (source : List Char) : Prop :=
  (∃ s, c.parseStr source = .ok s) ∧ (∃ s, c.parseStrLower source = .ok s) ∧ ∀ k, ∃ b, c.eqIgnoreAsciiCase source k = .ok b

theorem Spec.Decodes.decodable {us : List NameUnit} {c : Cursor} {source : List Char} (h : Decodes us c source) : Decodable c source :=
  ⟨⟨_, h.str⟩, h.total⟩

/-- None of the three methods panics on a token whose text is made of units they can walk over. -/
theorem inner_total {c : Cursor} {source after : List Char} {us : List StrUnit} (h : Inner c source (strText us) after) (hv : DecodeOk c.isString us after) :
    Decodable c source := by
  have h1 : ∃ s, c.parseStr source = .ok s := by
    unfold Cursor.parseStr
    rw [h.stop]
    simp only [bind, Except.bind, h.slice]
    split
    · exact ⟨_, rfl⟩
    · exact ⟨_, parseLoop_eq hv h.at⟩
  refine ⟨h1, ?_, fun k => ?_⟩
  · unfold Cursor.parseStrLower
    split
    · exact h1
    · rw [h.stop]
      simp only [bind, Except.bind, h.slice]
      exact ⟨_, lowerLoop_eq hv h.at⟩
  · unfold Cursor.eqIgnoreAsciiCase
    rw [h.stop]
    simp only [bind, Except.bind, h.slice]
    split
    · rw [if_neg (by omega)]
      split
      · exact ⟨_, rfl⟩
      · split <;> exact ⟨_, rfl⟩
    · exact eqLoop_total hv h.at

theorem name_total {c : Cursor} {source after : List Char} {us : List NameUnit} (h : Inner c source (nameText us) after) (hk : c.token.kind ≠ .string)
    (hv : NameDecodes us after) : (∃ s, c.parseStrLower source = .ok s) ∧ ∀ k, ∃ b, c.eqIgnoreAsciiCase source k = .ok b := by
  rw [← strText_map] at h
  exact (inner_total h (by rw [isString_false hk]; exact decodeOk_map hv)).2

theorem value_not_upper {us : List NameUnit} (h1 : ∀ c, NameUnit.chr c ∈ us → ¬ Upper c)
    (h2 : ∀ e, NameUnit.esc e ∈ us → ¬ Upper (escapedChar e)) : ∀ d ∈ nameValue us, ¬ Upper d := by
  intro d hd
  simp only [nameValue, List.mem_map] at hd
  obtain ⟨u, hu, rfl⟩ := hd
  cases u with
  | esc e => exact h2 e hu
  | chr c =>
    simp only [NameUnit.value, sourceChar]
    split
    · intro h; exact absurd h.2 (by decide)
    · exact h1 c hu

theorem decodes_of_facts {us : List NameUnit} {source after : List Char} {c : Cursor}
    (h : Inner c source (nameText us) after) (hk : c.token.kind ≠ .string) (hv : NameDecodes us after)
    (hf : NameFacts us c.token) : Decodes us c source := by
  have he : c.token.containsEscapeChars = false → '\\' ∉ nameText us ∧ NUL ∉ nameText us := by
    intro hc
    have := hf.escape
    rw [hc] at this
    simpa using this
  refine ⟨inner_parseStr h hk hv he, fun hl => inner_parseStrLower h hk hv he ?_, fun hu k hkl => inner_eq h hk hv he ?_ ?_ hkl, name_total h hk hv⟩
  · intro hlc; exact value_not_upper (hf.lower hlc) (hl hlc)
  · intro hc hlc
    refine value_not_upper (hf.lower hlc) ?_
    intro e hm
    exfalso; apply (he hc).1
    simp only [nameText, List.mem_flatMap]
    exact ⟨_, hm, by simp [NameUnit.text]⟩
  · intro hc
    rcases hf.escape.mp hc with h | h
    · exact hu (Or.inl h)
    · exact hu (Or.inr (Or.inl h))

theorem affixes_plain {t : Token} (h : t.kind = .ident) : t.leadingLen = 0#32 ∧ t.trailingLen = 0#32 := by
  simp [Token.leadingLen, Token.trailingLen, h]
theorem affixes_prefixed {t : Token} (h : t.kind = .atKeyword ∨ t.kind = .hash) : t.leadingLen = 1#32 ∧ t.trailingLen = 0#32 := by
  rcases h with h | h <;> simp [Token.leadingLen, Token.trailingLen, h]
theorem affixes_function {t : Token} (h : t.kind = .function) : t.leadingLen = 0#32 ∧ t.trailingLen = 1#32 := by
  simp [Token.leadingLen, Token.trailingLen, h]
theorem affixes_dimension {t : Token} (h : t.kind = .dimension) : t.leadingLen = t.numericLen ∧ t.trailingLen = 0#32 := by
  simp [Token.leadingLen, Token.trailingLen, h]

theorem nameText_pos {us : List NameUnit} {rest : List Char} (h : StartsName (nameText us ++ rest)) (hn : NameEnds rest) :
    byteLen (nameText us) ≠ 0 := by
  rw [byteLen_eq, ne_eq, utf8Len_eq_zero]
  intro h0
  rw [h0] at h
  exact startsName_not_ends h hn

theorem C22_ident_partial {l : Lexer} {us : List NameUnit} {rest : List Char} (h : l.Before (nameText us ++ rest))
    (hs : StartsName (nameText us ++ rest)) (hc : ¬ ['-', '-', '>'] <+: nameText us ++ rest) (hn : IsName us rest)
    (hp : ¬ Starts (· = '(') rest) (ha : EscAscii (nameText us ++ rest)) (hsrc : byteLen l.source < 2 ^ 32) :
    ∃ t, l.Yields t ∧ t.kind = .ident ∧ Decodes us ⟨l.offset, t⟩ l.source := by
  have hl : byteLen (nameText us) < 2 ^ 32 := by
    obtain ⟨pre, hp, _⟩ := h
    rw [hp] at hsrc; simp only [byteLen_eq, utf8Len_append] at *; omega
  obtain ⟨t, t1, t2, t3, t4, _⟩ := C10_ident_partial h hs hc hn hp ha hl
  refine ⟨t, t1, t2, decodes_of_facts (after := [] ++ rest) ?_ (by simp [t2]) (validName_decodes hn.1) t4⟩
  obtain ⟨a1, a2⟩ := affixes_plain t2
  exact inner_of_before (lead := []) (by simpa using h) hsrc (by rw [a1]; rfl) (by rw [a2]; rfl) (by rw [t3]; simp [byteLen])
    (by rw [t3]; exact nameText_pos hs hn.2)

theorem C22_function_partial {l : Lexer} {us : List NameUnit} {rest : List Char} (h : l.Before (nameText us ++ '(' :: rest))
    (hs : StartsName (nameText us ++ '(' :: rest)) (hn : IsName us ('(' :: rest))
    (ha : EscAscii (nameText us ++ '(' :: rest)) (hsrc : byteLen l.source < 2 ^ 32) :
    ∃ t, l.Yields t ∧ (t.kind = .url ∨ t.kind = .badUrl ∨ (t.kind = .function ∧ Decodes us ⟨l.offset, t⟩ l.source)) := by
  have hl : byteLen (nameText us) + 1 < 2 ^ 32 := by
    obtain ⟨pre, hp, _⟩ := h
    rw [hp] at hsrc
    simp only [byteLen_eq, utf8Len_append, utf8Len_cons, show '('.utf8Size = 1 from rfl] at *; omega
  obtain ⟨t, t1, t2⟩ := C10_function_partial h hs hn ha hl
  refine ⟨t, t1, ?_⟩
  rcases t2 with t2 | t2 | ⟨t2, t3, t4, _⟩
  · exact Or.inl t2
  · exact Or.inr (Or.inl t2)
  · refine Or.inr (Or.inr ⟨t2, decodes_of_facts (after := ['('] ++ rest) ?_ (by simp [t2]) (validName_decodes hn.1) t4⟩)
    obtain ⟨a1, a2⟩ := affixes_function t2
    exact inner_of_before (lead := []) (by simpa using h) hsrc (by rw [a1]; rfl) (by rw [a2]; rfl) (by rw [t3]; simp [byteLen, show '('.utf8Size = 1 from rfl])
      (by omega)

theorem C22_atKeyword_partial {l : Lexer} {us : List NameUnit} {rest : List Char} (h : l.Before ('@' :: (nameText us ++ rest)))
    (hs : StartsName (nameText us ++ rest)) (hn : IsName us rest)
    (ha : EscAscii (nameText us ++ rest)) (hsrc : byteLen l.source < 2 ^ 32) :
    ∃ t, l.Yields t ∧ t.kind = .atKeyword ∧ Decodes us ⟨l.offset, t⟩ l.source := by
  have hl : byteLen (nameText us) + 1 < 2 ^ 32 := by
    obtain ⟨pre, hp, _⟩ := h
    rw [hp] at hsrc
    simp only [byteLen_eq, utf8Len_append, utf8Len_cons, show '@'.utf8Size = 1 from rfl] at *; omega
  obtain ⟨t, t1, t2, t3, t4, _⟩ := C10_atKeyword_partial h hs hn ha hl
  refine ⟨t, t1, t2, decodes_of_facts (after := [] ++ rest) ?_ (by simp [t2]) (validName_decodes hn.1) t4⟩
  obtain ⟨a1, a2⟩ := affixes_prefixed (Or.inl t2)
  exact inner_of_before (lead := ['@']) (by simpa using h) hsrc (by rw [a1]; rfl) (by rw [a2]; rfl)
    (by rw [t3]; simp [byteLen, show '@'.utf8Size = 1 from rfl]; omega) (by omega)

theorem C22_hash_partial {l : Lexer} {us : List NameUnit} {rest : List Char} (h : l.Before ('#' :: (nameText us ++ rest)))
    (hs : Starts NameChar (nameText us ++ rest) ∨ StartsEscape (nameText us ++ rest)) (hn : IsName us rest)
    (ha : EscAscii (nameText us ++ rest)) (hsrc : byteLen l.source < 2 ^ 32) :
    ∃ t, l.Yields t ∧ t.kind = .hash ∧ Decodes us ⟨l.offset, t⟩ l.source := by
  have hl : byteLen (nameText us) + 1 < 2 ^ 32 := by
    obtain ⟨pre, hp, _⟩ := h
    rw [hp] at hsrc
    simp only [byteLen_eq, utf8Len_append, utf8Len_cons, show '#'.utf8Size = 1 from rfl] at *; omega
  obtain ⟨t, t1, t2, t3, t4, _⟩ := C10_hash_partial h hs hn ha hl
  refine ⟨t, t1, t2, decodes_of_facts (after := [] ++ rest) ?_ (by simp [t2]) (validName_decodes hn.1) t4⟩
  obtain ⟨a1, a2⟩ := affixes_prefixed (Or.inr t2)
  exact inner_of_before (lead := ['#']) (by simpa using h) hsrc (by rw [a1]; rfl) (by rw [a2]; rfl)
    (by rw [t3]; simp [byteLen, show '#'.utf8Size = 1 from rfl]; omega) (by omega)

/-- Lower-casing leaves a backslash and NUL as they are, so a text whose lower-casing has none has none. -/
theorem not_mem_of_lower {c : Char} (hc : c.toLower = c) {cs ds : List Char} (h : cs.map Char.toLower = ds) (hd : c ∉ ds) : c ∉ cs := by
  intro hm
  apply hd
  rw [← h, ← hc]
  exact List.mem_map_of_mem hm

theorem unitName_plain (u : DimensionUnit) {n : List Char} (h : unitName u = some n) : '\\' ∉ n ∧ NUL ∉ n := by
  have : ∀ u ∈ DimensionUnit.all, '\\' ∉ ((unitName u).getD []) ∧ NUL ∉ ((unitName u).getD []) := by decide +kernel
  have := this u (mem_all u)
  rw [h] at this
  exact this

/-- The unit of a dimension. (Dimensions never claim to be lower-case.) -/
theorem C22_dimension_partial {l : Lexer} {num rest : List Char} {us : List NameUnit} (h : l.Before (num ++ (nameText us ++ rest)))
    (hn : LongestNumber (num ++ (nameText us ++ rest)) num) (hs : StartsName (nameText us ++ rest)) (hu : IsName us rest)
    (ha : EscAscii (num ++ (nameText us ++ rest))) (hl : WithinLimits (num ++ (nameText us ++ rest)))
    (hsv : (nameText us).map Char.toLower ∉ [c!"sv", c!"svm", c!"svma", c!"svmi"]) (hsrc : byteLen l.source < 2 ^ 32) :
    ∃ t, l.Yields t ∧ t.kind = .dimension ∧ Decodes us ⟨l.offset, t⟩ l.source := by
  obtain ⟨t, t1, t2, t3, t4, t5, t6, t7⟩ := C13_partial h hn hs hu ha hl hsv
  obtain ⟨a1, a2⟩ := affixes_dimension t2
  have hnum : byteLen num = num.length := by
    obtain ⟨⟨s, i, f, e, hp, rfl⟩, _⟩ := hn
    rw [byteLen_eq]; exact (number_len hp).1
  have hin : Inner ⟨l.offset, t⟩ l.source (nameText us) ([] ++ rest) :=
    inner_of_before (lead := num) (by simpa using h) hsrc (by rw [a1, t6, hnum]) (by rw [a2]; rfl)
      (by rw [t3, hnum]; simp [byteLen]) (by rw [t3]; have := nameText_pos hs hu.2; omega)
  have he : t.containsEscapeChars = false → '\\' ∉ nameText us ∧ NUL ∉ nameText us := by
    intro hc
    have hnm := t4 _ (t7 hc) rfl
    have hp := unitName_plain _ hnm
    exact ⟨not_mem_of_lower (by decide) rfl hp.1, not_mem_of_lower (by decide) rfl hp.2⟩
  have hlow : t.isLowerCase = false := by
    simp only [Token.isLowerCase, Token.isIdentLike]
    have : t.kindBits = Kind.dimension.bits := by
      have hlt : t.kindBits < 32 := by
        simp only [Token.kindBits]
        have : (t.w0 >>> 24 &&& 31#32).toNat ≤ 31 := by rw [BitVec.toNat_and]; exact Nat.and_le_right
        omega
      have : ∀ n < 32, Kind.ofBits n = .dimension → n = Kind.dimension.bits := by decide +kernel
      exact this _ hlt t2
    rw [this]; rfl
  have hd := validName_decodes hu.1
  refine ⟨t, t1, t2, inner_parseStr hin (by simp [t2]) hd he, fun _ => inner_parseStrLower hin (by simp [t2]) hd he ?_, fun hu k hkl => ?_,
    name_total hin (by simp [t2]) hd⟩
  · intro hlc; rw [hlow] at hlc; cases hlc
  · refine inner_eq hin (by simp [t2]) hd he (fun _ hlc => by rw [hlow] at hlc; cases hlc) (fun _ => ?_) hkl
    exact hu (Or.inr (Or.inr t2))

/-- The value of an unquoted url. -/
theorem C22_url_partial {l : Lexer} {x ws1 ws2 rest : List Char} {us : List NameUnit}
    (h : l.Before (x ++ '(' :: (ws1 ++ (nameText us ++ (ws2 ++ rest))))) (hx : x.map Char.toLower = c!"url")
    (h1 : ∀ c ∈ ws1, Ws c) (h2 : ∀ c ∈ ws2, Ws c) (hm : ¬ Starts Ws (nameText us ++ (ws2 ++ rest)))
    (hv : ValidUrl us (ws2 ++ rest)) (hr : rest = [] ∨ Starts (· = ')') rest)
    (ha : EscAscii (x ++ '(' :: (ws1 ++ (nameText us ++ (ws2 ++ rest))))) (hsrc : byteLen l.source < 2 ^ 32)
    (hl1 : 4 + ws1.length < 2 ^ 12) (hl2 : ws2.length + 1 < 2 ^ 12) :
    ∃ t, l.Yields t ∧ t.kind = .url ∧ Cursor.parseStr ⟨l.offset, t⟩ l.source = .ok (nameValue us) ∧ Decodable ⟨l.offset, t⟩ l.source := by
  have hl : byteLen (x ++ '(' :: (ws1 ++ (nameText us ++ (ws2 ++ rest)))) < 2 ^ 32 := by
    obtain ⟨pre, hp, _⟩ := h
    rw [hp] at hsrc
    simp only [byteLen_eq, utf8Len_append] at *; omega
  obtain ⟨t, t1, t2, t3, t4, t5, t6, t7⟩ := C16_url h hx h1 h2 hm hv hr ha hl
  obtain ⟨t7', t8⟩ := t7 hl1 hl2
  clear t7
  have hxl : byteLen (x ++ '(' :: ws1) = 4 + ws1.length := by
    have hx3 : x.length = 3 := by have := congrArg List.length hx; simpa using this
    have hxa : ∀ c ∈ x, isAscii c = true := by
      intro c hc
      have hm : c.toLower ∈ c!"url" := by rw [← hx]; exact List.mem_map_of_mem hc
      rw [← toAsciiLower_eq] at hm
      unfold toAsciiLower at hm
      split at hm
      · rename_i h; simp at h; simp [isAscii]; omega
      · have : ∀ d ∈ c!"url", isAscii d = true := by decide
        exact this c hm
    rw [byteLen_eq, utf8Len_append, utf8Len_cons, utf8Len_of_ascii hxa, utf8Len_ws h1, hx3, show '('.utf8Size = 1 from rfl]
    omega
  have hw2 : byteLen ws2 = ws2.length := by rw [byteLen_eq, utf8Len_ws h2]
  have hsplit : ∃ cl post, rest = cl ++ post ∧ byteLen cl = if rest = [] then 0 else 1 := by
    rcases hr with rfl | ⟨c, r, rfl, rfl⟩
    · exact ⟨[], [], rfl, rfl⟩
    · exact ⟨[')'], r, rfl, by simp [byteLen]; rfl⟩
  obtain ⟨cl, post, rfl, hcl⟩ := hsplit
  have hin : Inner ⟨l.offset, t⟩ l.source (nameText us) ((ws2 ++ cl) ++ post) := by
    refine inner_of_before (lead := x ++ '(' :: ws1) (by simpa using h) hsrc (by rw [t7', hxl]) ?_ ?_ (by rw [t3]; omega)
    · rw [t8, byteLen_eq, utf8Len_append, ← byteLen_eq, ← byteLen_eq, hw2, hcl]
    · rw [t3, hxl, byteLen_eq (ws2 ++ cl), utf8Len_append, ← byteLen_eq, ← byteLen_eq, hw2, hcl]; omega
  have hvd : NameDecodes us ((ws2 ++ cl) ++ post) := validUrl_decodes (by simpa using hv)
  have hstr : Cursor.parseStr ⟨l.offset, t⟩ l.source = .ok (nameValue us) := inner_parseStr (us := us) hin (by simp [t2]) hvd ?_
  · exact ⟨t, t1, t2, hstr, ⟨_, hstr⟩, name_total hin (by simp [t2]) hvd⟩
  · intro hc
    rw [hc] at t6
    simp only [Bool.false_eq_true, false_iff, not_or, not_exists] at t6
    have hall : ∀ c ∈ nameText us, UrlChar c := by
      clear h hm t3 ha hl hr t8 hin hvd
      replace t6 := t6.1
      generalize ws2 ++ (cl ++ post) = after at hv
      induction us with
      | nil => simp
      | cons u us ih =>
        cases u with
        | esc e => exact absurd (by simp) (t6 e)
        | chr c =>
          intro d hd
          simp only [nameText_chr, List.mem_cons] at hd
          rcases hd with rfl | hd
          · exact hv.1
          · exact ih (fun e he => t6 e (by simp [he])) hv.2 d hd
    exact ⟨fun hb => (hall _ hb).2.2.2.2.2.1 rfl, fun hb => (hall _ hb).2.2.2.2.2.2 (Or.inl (by decide))⟩

theorem validStr_not_newline {q : Char} {us : List StrUnit} {rest : List Char} (h : ValidStr q us rest) :
    ¬ Starts Newline (strText us) := by
  rintro ⟨c, r, hr, hc⟩
  cases us with
  | nil => simp at hr
  | cons u us =>
    cases u with
    | chr d => simp [StrUnit.text] at hr; rw [hr.1] at h; exact h.2.1 hc
    | esc e => simp [StrUnit.text] at hr; rw [← hr.1] at hc; revert hc; simp [Newline]
    | cont e => simp [StrUnit.text] at hr; rw [← hr.1] at hc; revert hc; simp [Newline]

theorem validStr_decodes {q : Char} {us : List StrUnit} {rest : List Char} (h : ValidStr q us rest) : DecodeOk true us rest := by
  induction us with
  | nil => trivial
  | cons u us ih =>
    cases u with
    | chr c => exact ⟨h.2.2.1, ih h.2.2.2⟩
    | esc e => exact ⟨.inr h.1, ih h.2⟩
    | cont n => exact ⟨rfl, h.1, validStr_not_newline h.2, ih h.2⟩

theorem unitsValue_str (us : List StrUnit) : unitsValue true us = strValue us := by
  induction us with
  | nil => rfl
  | cons u us ih =>
    rw [unitsValue_cons, ih]
    cases u <;> simp [strValue, unitValue, StrUnit.value]

theorem strValue_plain {us : List StrUnit} (h : ¬ StrHasEsc us) : strText us = strValue us := by
  induction us with
  | nil => rfl
  | cons u us ih =>
    simp only [StrHasEsc, not_or] at h
    have ih := ih (by
      simp only [StrHasEsc, not_or]
      exact ⟨fun ⟨u, hu, he⟩ => h.1 ⟨u, by simp [hu], he⟩, fun hm => h.2 (by simp [hm])⟩)
    cases u with
    | chr c =>
      have : c ≠ NUL := fun he => h.2 (by simp [he])
      rw [strText_cons, ih]
      simp [strValue, StrUnit.text, StrUnit.value, sourceChar, this]
    | esc e => exact absurd ⟨.esc e, by simp, by simp⟩ h.1
    | cont e => exact absurd ⟨.cont e, by simp, by simp⟩ h.1

theorem inner_parseStr_string {c : Cursor} {source after : List Char} {us : List StrUnit} {q : Char}
    (h : Inner c source (strText us) after) (hk : c.token.kind = .string) (hv : ValidStr q us after)
    (he : c.token.containsEscapeChars = false → ¬ StrHasEsc us) : c.parseStr source = .ok (strValue us) := by
  unfold Cursor.parseStr
  rw [h.stop]
  have hs : c.isString = true := isString_true hk c.offset
  simp only [bind, Except.bind, h.slice, hs]
  cases hc : c.token.containsEscapeChars with
  | false => simp only [Bool.not_false, if_true, pure, Except.pure]; rw [strValue_plain (he hc)]
  | true =>
    simp only [Bool.not_true, Bool.false_eq_true, if_false]
    rw [parseLoop_eq (validStr_decodes hv) h.at, unitsValue_str]
    simp

/-- The content of a string, closed or unclosed. -/
theorem C22_string_partial {l : Lexer} {q : Char} {us : List StrUnit} {rest : List Char} (hq : q = '"' ∨ q = '\'')
    (h : l.Before (q :: (strText us ++ rest))) (hv : ValidStr q us rest) (hr : Starts (· = q) rest ∨ rest = [])
    (ha : EscAscii (strText us ++ rest)) (hn : NoEscNul (strText us ++ rest)) (hsrc : byteLen l.source < 2 ^ 32) :
    ∃ t, l.Yields t ∧ t.kind = .string ∧ Cursor.parseStr ⟨l.offset, t⟩ l.source = .ok (strValue us) ∧ Decodable ⟨l.offset, t⟩ l.source := by
  have hl : byteLen (q :: (strText us ++ rest)) < 2 ^ 32 := by
    obtain ⟨pre, hp, _⟩ := h
    rw [hp] at hsrc
    simp only [byteLen_eq, utf8Len_append] at *; omega
  have hq1 : q.utf8Size = 1 := by rcases hq with rfl | rfl <;> rfl
  have hC := C09_partial hq h hv (by rcases hr with hr | hr; exact Or.inr (Or.inl hr); exact Or.inl hr) ha hn hl
  rcases hr with ⟨c, r, rfl, rfl⟩ | rfl
  · obtain ⟨t, t1, t2, t3, t4, t5, t6⟩ := hC.1 ⟨_, _, rfl, rfl⟩
    have a1 : t.leadingLen = 1#32 := by simp [Token.leadingLen, t2]
    have a2 : t.trailingLen = 1#32 := by simp [Token.trailingLen, t2, t4]; rfl
    have hin : Inner ⟨l.offset, t⟩ l.source (strText us) ([c] ++ r) := ?_
    · exact ⟨t, t1, t2, inner_parseStr_string (q := c) hin t2 hv (fun hc => by rw [hc] at t6; simpa using t6),
        inner_total hin (by rw [isString_true t2]; exact validStr_decodes hv)⟩
    exact inner_of_before (lead := [c]) (by simpa using h) hsrc (by rw [a1]; simp [byteLen, hq1]) (by rw [a2]; simp [byteLen, hq1])
      (by rw [t3]; simp [byteLen, hq1]; omega) (by rw [t3]; simp [byteLen, hq1])
  · obtain ⟨t, t1, t2, t3, t4, t5, t6⟩ := hC.2.1 rfl
    have a1 : t.leadingLen = 1#32 := by simp [Token.leadingLen, t2]
    have a2 : t.trailingLen = 0#32 := by simp [Token.trailingLen, t2, t4]; rfl
    have hin : Inner ⟨l.offset, t⟩ l.source (strText us) ([] ++ []) := ?_
    · exact ⟨t, t1, t2, inner_parseStr_string (q := q) hin t2 hv (fun hc => by rw [hc] at t6; simpa using t6),
        inner_total hin (by rw [isString_true t2]; exact validStr_decodes hv)⟩
    exact inner_of_before (lead := [q]) (by simpa using h) hsrc (by rw [a1]; simp [byteLen, hq1]) (by rw [a2]; simp [byteLen])
      (by rw [t3]; simp [byteLen, hq1]) (by rw [t3]; simp [byteLen, hq1])

example : Decodes [.chr 'A', .esc c!"31 ", .chr 'x'] ⟨0, Token.newIdent true false true 6#32⟩ c!"A\\31 x{" := by
  refine decodes_of_facts (after := c!"{") ⟨⟨[], [], [], c!"{", rfl, rfl, rfl, by decide +kernel, by decide +kernel, by decide +kernel⟩, by decide⟩
    (by decide +kernel) ⟨by decide, EscTail.hex (ds := c!"31") (ws := c!" ") (by decide) (by decide) (by simp only [← isHexDigit_iff]; decide)
      (Or.inr (by rw [List.cons_append, starts_cons, ← isHexDigit_iff]; decide)) (.one (by simp [Ws]) (by simp)), by decide, trivial⟩
    ⟨?_, ?_, ?_⟩
  · rw [show Token.containsEscapeChars _ = true from by decide +kernel]; simp
  · intro h; exact absurd h (by decide +kernel)
  · intro _; exact ⟨'A', by simp, by simp [Lower, show 'A'.toNat = 65 from rfl, show 'a'.toNat = 97 from rfl]⟩
example : ((Lexer.new c!"A\\31 x{").advance.map (·.1)) = .ok (Token.newIdent true false true 6#32) := by decide +kernel
example : nameValue [.chr 'A', .esc c!"31 ", .chr 'x'] = c!"A1x" := by decide +kernel
example : nameValue [.esc c!"d800", .esc c!"110000", .esc c!"0", .chr NUL, .esc c!"{"] = c!"\uFFFD\uFFFD\uFFFD\uFFFD{" := by decide +kernel
example : ((Lexer.new c!"'a\\\nb\\41'").advance.map (fun p => (Cursor.mk 0 p.1).parseStr c!"'a\\\nb\\41'")) = .ok (.ok c!"abA") := by
  decide +kernel
example : ((Lexer.new c!"12\\70x").advance.map (fun p => (Cursor.mk 0 p.1).parseStr c!"12\\70x")) = .ok (.ok c!"px") := by decide +kernel

/-- What is missing from the full C22: when an escaped character is not ASCII, the token is too short, and decoding it
panics, or loses the end of the name. -/
theorem C22_counterexample :
    ((Lexer.new c!"#\\é").advance.map (fun p => (Cursor.mk 0 p.1).parseStr c!"#\\é")) = .ok (.error .slice)
    ∧ ((Lexer.new c!"#\\éx").advance.map (fun p => (Cursor.mk 0 p.1).parseStr c!"#\\éx")) = .ok (.ok ['é']) := by decide +kernel

/-! ## C23, C24 -/

/-- `parse_str_lower()` is `parse_str()` with ASCII upper-case letters lowered. Missing from the full C23: escapes that stand for
upper-case letters in tokens that claim to be lower-case (`C23_counterexample`); and the guards of the `C22` theorems, which
establish `Decodes` for every token. -/
theorem C23_partial {us : List NameUnit} {c : Cursor} {source : List Char} (h : Decodes us c source)
    (hu : ∀ e, NameUnit.esc e ∈ us → ¬ Upper (escapedChar e)) :
    ∃ s, c.parseStr source = .ok s ∧ c.parseStrLower source = .ok (s.map asciiLower) :=
  ⟨_, h.str, h.lower (fun _ => hu)⟩

/-- Tokens that do not claim to be lower-case need no such condition. -/
theorem C23_not_lower {us : List NameUnit} {c : Cursor} {source : List Char} (h : Decodes us c source)
    (hl : c.token.isLowerCase = false) : ∃ s, c.parseStr source = .ok s ∧ c.parseStrLower source = .ok (s.map asciiLower) :=
  ⟨_, h.str, h.lower (fun hc => by rw [hl] at hc; cases hc)⟩

theorem C23_counterexample :
    ((Lexer.new c!"\\41").advance.map (fun p => ((Cursor.mk 0 p.1).parseStr c!"\\41", (Cursor.mk 0 p.1).parseStrLower c!"\\41")))
      = .ok (.ok c!"A", .ok c!"A") := by decide +kernel

/-- For a name without escapes `eq_ignore_ascii_case` decides case-insensitive equality with a lower-case keyword. -/
theorem C24_partial {us : List NameUnit} {c : Cursor} {source : List Char} (h : Decodes us c source)
    (hk : c.token.kind ≠ .dimension) (hb : '\\' ∉ nameText us) (hn : NUL ∉ nameText us) {k : List Char} (hkl : ∀ d ∈ k, ¬ Upper d) :
    c.eqIgnoreAsciiCase source k = .ok (decide (c.parseStrLower source = .ok k)) := by
  have hesc : ∀ e, NameUnit.esc e ∉ us := by
    intro e he
    apply hb
    simp only [nameText, List.mem_flatMap]
    exact ⟨_, he, by simp [NameUnit.text]⟩
  rw [h.eq (fun hh => by rcases hh with hh | hh | hh <;> contradiction) k hkl, h.lower (fun _ e he => absurd he (hesc e))]
  simp

/-- For a name with escapes it does so if the value has no upper-case letter (and no escaped NUL). Missing from the full C24:
`C24_counterexample`. -/
theorem C24_escaped_partial {us : List NameUnit} {c : Cursor} {source : List Char} (h : Decodes us c source)
    (hu : ∀ d ∈ nameValue us, ¬ Upper d) (hn : ∀ e, NameUnit.esc e ∈ us → e ≠ [NUL]) {k : List Char} (hkl : ∀ d ∈ k, ¬ Upper d) :
    c.eqIgnoreAsciiCase source k = .ok (decide (c.parseStrLower source = .ok k)) := by
  rw [h.eq (fun _ => ⟨hu, hn⟩) k hkl, h.lower (fun _ e he => hu _ (by
    simp only [nameValue, List.mem_map]; exact ⟨_, he, rfl⟩))]
  simp

theorem C24_counterexample :
    ((Lexer.new c!"A\\62").advance.map (fun p => ((Cursor.mk 0 p.1).parseStrLower c!"A\\62",
      (Cursor.mk 0 p.1).eqIgnoreAsciiCase c!"A\\62" c!"ab"))) = .ok (.ok c!"ab", .ok false) := by decide +kernel

example : ((Lexer.new c!"a\\62").advance.map (fun p => (Cursor.mk 0 p.1).eqIgnoreAsciiCase c!"a\\62" c!"ab")) = .ok (.ok true)
    ∧ ((Lexer.new c!"AB").advance.map (fun p => (Cursor.mk 0 p.1).eqIgnoreAsciiCase c!"AB" c!"ab")) = .ok (.ok true)
    ∧ ((Lexer.new c!"AB").advance.map (fun p => (Cursor.mk 0 p.1).eqIgnoreAsciiCase c!"AB" c!"ac")) = .ok (.ok false) := by decide +kernel

/-! ## C25 -/

/-- For every text after a backslash that is a valid escape (no newline follows), `consume_escape_sequence` of the lexer
and `parse_escape_sequence` of the decoder use the same number of bytes, which is the length of the escape (the lexer also
counts the backslash); the character is the escaped one, and NUL only for an escaped NUL, which the callers replace.
Missing from the full C25: escaped non-ASCII characters, where the lexer counts one byte. -/
theorem C25_partial {cs : List Char} (h : ¬ Starts Newline cs) (ha : ¬ Starts (fun c => 128 ≤ c.toNat) cs) :
    ∃ e r, cs = e ++ r ∧ EscTail e r ∧ (consumeEscape cs).1 = 1 + (parseEscape cs).2 ∧ (parseEscape cs).2 = byteLen e
      ∧ sourceChar (parseEscape cs).1 = escapedChar e ∧ escapedChar e ≠ NUL := by
  obtain ⟨e, r, rfl, he⟩ := exists_escTail cs h
  obtain ⟨e', h1, h2, h3⟩ := consumeEscape_spec (e ++ r) h
  have hee : e' = e := escTail_unique h2 he h1.symm
  subst hee
  refine ⟨e', r, rfl, he, ?_, ?_, ?_, ?_⟩
  · rw [h3 (by
      rintro ⟨c, s, hcs, hna⟩
      exact ha ⟨c, s, hcs, by simp only [isAscii, decide_eq_true_eq] at hna; omega⟩), parseEscape_eq he]
  · rw [parseEscape_eq he, byteLen_eq]
  · rw [parseEscape_eq he, ← rawEscaped_value]
    simp only [sourceChar, beq_iff_eq]; rfl
  · rw [← rawEscaped_value]
    split
    · decide
    · rename_i hh; simpa [EOFc, NUL] using hh

/-- The decoder alone is right for every escape, ASCII or not. -/
theorem C25_decoder {e r : List Char} (h : EscTail e r) :
    (parseEscape (e ++ r)).2 = byteLen e ∧ sourceChar (parseEscape (e ++ r)).1 = escapedChar e := by
  rw [parseEscape_eq h, byteLen_eq, ← rawEscaped_value]
  refine ⟨rfl, ?_⟩
  simp only [sourceChar, beq_iff_eq]; rfl

theorem C25_counterexample : consumeEscape c!"é" = (2, []) ∧ parseEscape c!"é" = ('é', 2) := by decide +kernel

example : consumeEscape c!"1F600 x" = (7, ['x']) ∧ parseEscape c!"1F600 x" = ('😀', 6) := by decide +kernel

/-! ## C26 Spans -/

/-- `a + b` is the smallest span containing both. -/
theorem C26_hull (a b : Span) : (a.add b).contains a = true ∧ (a.add b).contains b = true
    ∧ ∀ s : Span, s.contains a = true → s.contains b = true → s.contains (a.add b) = true := by
  grind [Span.contains, Span.add]

theorem C26_comm (a b : Span) : a.add b = b.add a := by
  simp only [Span.add, Span.mk.injEq]; constructor <;> split <;> split <;> omega
theorem C26_assoc (a b c : Span) : (a.add b).add c = a.add (b.add c) := by
  simp only [Span.add, Span.mk.injEq]
  constructor <;> (repeat' split) <;> omega
theorem C26_idem (a : Span) : a.add a = a := by
  cases a; simp [Span.add]

/-- `contains` is inclusion of byte positions, for spans that are not empty. -/
theorem C26_contains {a b : Span} (hb : b.start < b.stop) :
    a.contains b = true ↔ ∀ i, b.start ≤ i ∧ i < b.stop → a.start ≤ i ∧ i < a.stop := by
  simp only [Span.contains, Bool.and_eq_true, decide_eq_true_eq]
  constructor
  · intro h i hi; omega
  · intro h
    have h1 := h b.start (by omega)
    have h2 := h (b.stop - 1) (by omega)
    omega

example : (Span.mk 3 5).add ⟨1, 4⟩ = ⟨1, 5⟩ ∧ (Span.mk 1 5).contains ⟨3, 5⟩ = true := by decide

/-! ## C27 Lines and columns -/

/-- The number of line feeds before a position, given the text before it. -/
def Spec.lineOf (pre : List Char) : Nat := pre.count '\n'
/-- The number of characters between the last line feed and the position. -/
def Spec.columnOf (pre : List Char) : Nat := (pre.reverse.takeWhile (· ≠ '\n')).length

theorem takeWhile_mem {p : Char → Bool} {l : List Char} {x : Char} (h : x ∈ l.takeWhile p) : p x = true := by
  induction l with
  | nil => simp at h
  | cons a l ih =>
    rw [List.takeWhile_cons] at h
    split at h
    · rename_i hp
      rcases List.mem_cons.mp h with rfl | h
      · exact hp
      · exact ih h
    · simp at h

theorem takeWhile_all {p : Char → Bool} {l : List Char} (h : ∀ x ∈ l, p x = true) : l.takeWhile p = l := by
  induction l with
  | nil => rfl
  | cons a l ih => rw [List.takeWhile_cons, if_pos (h a (by simp)), ih (fun x hx => h x (by simp [hx]))]

theorem lineColLoop_eq (line col : Nat) (pre post : List Char) :
    Span.lineColLoop line col (utf8Len pre) (pre ++ post) =
      .ok (line + lineOf pre, if '\n' ∈ pre then columnOf pre else col + pre.length) := by
  induction pre generalizing line col with
  | nil => cases post <;> simp [Span.lineColLoop, lineOf]
  | cons c pre ih =>
    have := c.utf8Size_pos
    simp only [List.cons_append, utf8Len_cons, Span.lineColLoop]
    rw [if_neg (by simp; omega), if_neg (by omega), Nat.add_sub_cancel_left, ih, ih]
    have hcol : columnOf (c :: pre) = if '\n' ∈ pre then columnOf pre else if c = '\n' then pre.length else pre.length + 1 := by
      simp only [columnOf, List.reverse_cons, List.takeWhile_append]
      have hall : (pre.reverse.takeWhile (· ≠ '\n')).length = pre.reverse.length ↔ '\n' ∉ pre := by
        constructor
        · intro hl hm
          have hp := (List.takeWhile_prefix (p := fun x => decide (x ≠ '\n')) (l := pre.reverse)).eq_of_length hl
          have := takeWhile_mem (p := fun x => decide (x ≠ '\n')) (l := pre.reverse) (x := '\n') (by rw [hp]; simpa using hm)
          simp at this
        · intro hm
          rw [takeWhile_all]
          intro x hx
          simp only [List.mem_reverse] at hx
          simp only [decide_eq_true_eq]
          rintro rfl; exact hm hx
      by_cases hm : '\n' ∈ pre
      · rw [if_neg (by rw [hall]; simpa using hm), if_pos hm]
      · rw [if_pos (by rw [hall]; exact hm), if_neg hm]
        by_cases hc : c = '\n'
        · simp [hc]
        · simp [hc]
    by_cases hc : c = '\n'
    · subst hc
      simp only [beq_self_eq_true, if_true, List.mem_cons, true_or, if_true, hcol, lineOf, List.count_cons_self]
      simp only [Except.ok.injEq, Prod.mk.injEq]
      refine ⟨by omega, ?_⟩
      split <;> simp
    · have hc' : ¬ '\n' = c := fun h => hc h.symm
      rw [if_neg (by simpa using hc), hcol]
      simp only [List.mem_cons, hc', false_or, lineOf, List.count_cons_of_ne hc, List.length_cons]
      simp only [Except.ok.injEq, Prod.mk.injEq, true_and]
      split
      · rfl
      · omega

/-- For a span that starts on a character boundary `line_and_column()` does not panic and returns the number of line feeds
before it and the number of characters since the last one. -/
theorem C27_value (pre post : List Char) (stop : Nat) :
    (Span.mk (byteLen pre) stop).lineAndColumn (pre ++ post) = .ok (lineOf pre, columnOf pre) := by
  rw [Span.lineAndColumn, byteLen_eq, lineColLoop_eq]
  congr 2
  · simp
  · split
    · rfl
    · rename_i hm
      simp only [columnOf]
      rw [takeWhile_all]
      · simp
      · intro x hx
        simp only [List.mem_reverse] at hx
        simp only [decide_eq_true_eq]
        rintro rfl; exact hm hx

theorem lineCol_inj_aux {pre m : List Char} (h1 : lineOf pre = lineOf (pre ++ m)) (h2 : columnOf pre = columnOf (pre ++ m)) : m = [] := by
  have hm : '\n' ∉ m := by
    simp only [lineOf, List.count_append] at h1
    rw [← List.count_eq_zero]; omega
  have hr : ∀ x ∈ m.reverse, decide (x ≠ '\n') = true := by
    intro x hx
    simp only [List.mem_reverse] at hx
    simp only [decide_eq_true_eq]
    rintro rfl; exact hm hx
  simp only [columnOf, List.reverse_append] at h2
  rw [List.takeWhile_append_of_pos hr, List.length_append] at h2
  have : m.reverse.length = 0 := by omega
  simpa using this

/-- Two positions on character boundaries of the same text with the same result are equal. -/
theorem C27_injective {pre post pre' post' : List Char} (h : pre ++ post = pre' ++ post') {e e' : Nat}
    (he : (Span.mk (byteLen pre) e).lineAndColumn (pre ++ post) = (Span.mk (byteLen pre') e').lineAndColumn (pre' ++ post')) :
    byteLen pre = byteLen pre' := by
  rw [C27_value, C27_value] at he
  simp only [Except.ok.injEq, Prod.mk.injEq] at he
  rcases List.append_eq_append_iff.mp h with ⟨m, rfl, _⟩ | ⟨m, rfl, _⟩
  · rw [lineCol_inj_aux he.1 he.2]; simp
  · rw [lineCol_inj_aux he.1.symm he.2.symm]; simp

/-- Off a character boundary it panics (a subtraction underflows). -/
theorem C27_off_boundary : (Span.mk 1 2).lineAndColumn c!"é" = .error .underflow := by decide +kernel

example : (Span.mk 6 7).lineAndColumn c!"a\né\nb\r" = .ok (2, 1) := by decide +kernel

end Hdx

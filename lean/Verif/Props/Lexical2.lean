/-
C10 - C13: names, numbers and units.
-/
import Verif.Lemmas.Classify
import Verif.Props.Stream
import Verif.Spec.Units

namespace Hdx
open Spec

/-! ## C10 Identifier-like tokens are maximal -/

/-- The longest name is unique: any name the same text starts with is an initial part of it. -/
theorem C10_longest {us us' : List NameUnit} {r r' : List Char} (h : IsName us r) (h' : ValidName us' r')
    (e : nameText us ++ r = nameText us' ++ r') : us' <+: us ∧ (NameEnds r' → us' = us ∧ r' = r) := by
  have hp := validName_prefix h.1 h.2 h' e
  refine ⟨hp, fun he => ?_⟩
  have hp' := validName_prefix h' he h.1 e.symm
  have hu : us' = us := hp.eq_of_length (Nat.le_antisymm hp.length_le hp'.length_le)
  subst hu
  exact ⟨rfl, (List.append_cancel_left e).symm⟩

/-- Every text has a (possibly empty) longest name. -/
theorem C10_total (cs : List Char) : ∃ us rest, cs = nameText us ++ rest ∧ IsName us rest := by
  obtain ⟨us, h, _⟩ := identLoop_spec {} cs
  exact ⟨us, _, h.split, h.valid, h.ends⟩

theorem nameScan_eq {us us' : List NameUnit} {r r' : List Char} (h : IsName us r) (h' : NameScan (nameText us ++ r) us' r') :
    us' = us ∧ r' = r := (C10_longest h h'.valid h'.split).2 h'.ends

/-- The name's text contains a backslash or NUL. -/
theorem hasEsc_iff {us : List NameUnit} {r : List Char} (h : ValidName us r) :
    HasEsc us ↔ '\\' ∈ nameText us ∨ NUL ∈ nameText us := by
  induction us with
  | nil => simp [hasEsc_nil]
  | cons u us ih =>
    cases u with
    | chr c =>
      have h1 := h.1
      have hb : ¬ '\\' = c := by
        rintro rfl
        rcases h1 with h1 | h1
        · rw [← isIdent_iff] at h1; exact absurd h1 (by decide)
        · exact absurd h1 (by decide)
      rw [hasEsc_chr, ih h.2]
      simp only [nameText_chr, List.mem_cons, hb, false_or]
      constructor
      · rintro (rfl | h | h)
        · exact Or.inr (Or.inl rfl)
        · exact Or.inl h
        · exact Or.inr (Or.inr h)
      · rintro (h | h | h)
        · exact Or.inr (Or.inl h)
        · exact Or.inl h.symm
        · exact Or.inr (Or.inr h)
    | esc e => simp [hasEsc_esc us]

theorem startsDashed_iff {us : List NameUnit} : StartsDashed us ↔ ['-', '-'] <+: nameText us := by
  constructor
  · rintro ⟨us, rfl⟩; simp
  · rintro ⟨z, hz⟩
    cases us with
    | nil => simp at hz
    | cons u us =>
      cases u with
      | esc e => simp at hz
      | chr c =>
        simp at hz
        obtain ⟨rfl, hz⟩ := hz
        cases us with
        | nil => simp at hz
        | cons u us =>
          cases u with
          | esc e => simp at hz
          | chr c => simp at hz; exact ⟨us, by rw [hz.1]⟩

theorem chr_mem_text {c : Char} {us : List NameUnit} (h : NameUnit.chr c ∈ us) : c ∈ nameText us := by
  simp only [nameText, List.mem_flatMap]
  exact ⟨_, h, by simp [NameUnit.text]⟩

theorem text_mem_chr {c : Char} {us : List NameUnit} (hb : '\\' ∉ nameText us) (h : c ∈ nameText us) : NameUnit.chr c ∈ us := by
  simp only [nameText, List.mem_flatMap] at h
  obtain ⟨u, hu, hc⟩ := h
  cases u with
  | chr d => simp [NameUnit.text] at hc; subst hc; exact hu
  | esc e =>
    exfalso; apply hb
    simp only [nameText, List.mem_flatMap]
    exact ⟨_, hu, by simp [NameUnit.text]⟩

theorem upper_not {c : Char} (h : Upper c) : ¬ Lower c ∧ ¬ Digit c ∧ c ≠ '-' ∧ c ≠ NUL := by
  simp only [Upper, Lower, Digit, show 'A'.toNat = 65 from rfl, show 'Z'.toNat = 90 from rfl, show 'a'.toNat = 97 from rfl,
    show 'z'.toNat = 122 from rfl, show '0'.toNat = 48 from rfl, show '9'.toNat = 57 from rfl] at *
  refine ⟨by omega, by omega, ?_, ?_⟩
  · rintro rfl; simp [show '-'.toNat = 45 from rfl] at h
  · rintro rfl; simp [show NUL.toNat = 0 from rfl] at h

/-- The facts C11 claims of a token whose name is `us`. -/
structure Spec.NameFacts (us : List NameUnit) (t : Token) : Prop where
  /-- `contains_escape_chars()` exactly when the name's text contains a backslash or NUL. -/
  escape : t.containsEscapeChars = true ↔ '\\' ∈ nameText us ∨ NUL ∈ nameText us
  /-- `is_lower_case()` implies that no unescaped character of the name is an upper-case ASCII letter. -/
  lower : t.isLowerCase = true → ∀ c, NameUnit.chr c ∈ us → ¬ Upper c
  /-- Any unescaped upper-case letter or non-ASCII character is reported. -/
  notLower : t.isLowerCase = false → ∃ c, NameUnit.chr c ∈ us ∧ ¬ Lower c

/-- `is_dashed_ident()` exactly when the name starts with two hyphens. -/
def Spec.DashedFact (us : List NameUnit) (t : Token) : Prop := t.isDashedIdent = true ↔ ['-', '-'] <+: nameText us

theorem nameFacts_of {us : List NameUnit} {r : List Char} (hv : ValidName us r) {nl e : Bool} (he : e = true ↔ HasEsc us)
    (hn1 : HasNonLower us → nl = true) (hn2 : nl = true → ∃ c, NameUnit.chr c ∈ us ∧ c ≠ NUL ∧ ¬ Lower c) {t : Token}
    (h1 : t.isLowerCase = !nl) (h2 : t.containsEscapeChars = e) : NameFacts us t := by
  refine ⟨by rw [h2, he, hasEsc_iff hv], ?_, ?_⟩
  · intro hl c hc hu
    have := upper_not hu
    have := hn1 ⟨c, hc, this.2.2.2, this.1, this.2.1, this.2.2.1⟩
    rw [h1, this] at hl; simp at hl
  · intro hl
    have : nl = true := by rw [h1] at hl; simpa using hl
    obtain ⟨c, hc, _, hn⟩ := hn2 this
    exact ⟨c, hc, hn⟩

theorem nameFacts_of_flags {us : List NameUnit} {r : List Char} (hv : ValidName us r) {nl d e u : Bool}
    (hf : NameFlags us nl d e u) {t : Token} (h1 : t.isLowerCase = !nl) (h2 : t.containsEscapeChars = e) :
    NameFacts us t := nameFacts_of hv hf.esc hf.nonLower_of hf.of_nonLower h1 h2

theorem dashedFact_of_flags {us : List NameUnit} {nl d e u : Bool} (hf : NameFlags us nl d e u) {t : Token}
    (h1 : t.isDashedIdent = d) (hn : NUL ∉ nameText us) : DashedFact us t := by
  rw [DashedFact, h1, hf.dashed (fun h => hn (chr_mem_text h)), startsDashed_iff]

/-- A text that starts a name and in which no `(` follows the name: one Ident token covering exactly the longest name, with
truthful facts (C11). Missing from the full C10: escaped non-ASCII characters (`C04_counterexample_panic`). -/
theorem C10_ident_partial {l : Lexer} {us : List NameUnit} {rest : List Char} (h : l.Before (nameText us ++ rest))
    (hs : StartsName (nameText us ++ rest)) (hc : ¬ ['-', '-', '>'] <+: nameText us ++ rest) (hn : IsName us rest)
    (hp : ¬ Starts (· = '(') rest) (ha : EscAscii (nameText us ++ rest)) (hl : byteLen (nameText us) < 2 ^ 32) :
    ∃ t, l.Yields t ∧ t.kind = .ident ∧ t.len.toNat = byteLen (nameText us)
      ∧ NameFacts us t ∧ (NUL ∉ nameText us → DashedFact us t) := by
  have hne : nameText us ++ rest ≠ [] := by
    intro h0; rw [h0] at hs; exact absurd nameEnds_nil (startsName_not_ends hs)
  have hsc := scan_startsName (f := l.features) hs hc
  obtain ⟨us', rest', nl, d, e, u, g1, g2, g3, g4, g5⟩ := consumeIdentLike_spec ha
  obtain ⟨rfl, rfl⟩ := nameScan_eq hn g1
  rw [g5 hp] at hsc
  refine ⟨_, yields_of_scan h hne hsc, ?_⟩
  obtain ⟨k1, k2, k3, k4, k5⟩ := C17_ident nl d e (w32 (utf8Len (nameText us')))
  rw [byteLen_eq] at hl ⊢
  exact ⟨k1, by rw [k2, w32_toNat hl], nameFacts_of_flags g1.valid g2 k3 k5, dashedFact_of_flags g2 k4⟩

/-- With a `(` right after the name: one Function token covering exactly the longest name and the `(`, unless the text is
lexed as a url (see C15 for when). -/
theorem C10_function_partial {l : Lexer} {us : List NameUnit} {rest : List Char} (h : l.Before (nameText us ++ '(' :: rest))
    (hs : StartsName (nameText us ++ '(' :: rest)) (hn : IsName us ('(' :: rest))
    (ha : EscAscii (nameText us ++ '(' :: rest)) (hl : byteLen (nameText us) + 1 < 2 ^ 32) :
    ∃ t, l.Yields t ∧ (t.kind = .url ∨ t.kind = .badUrl ∨ (t.kind = .function ∧ t.len.toNat = byteLen (nameText us) + 1
      ∧ NameFacts us t ∧ (NUL ∉ nameText us → DashedFact us t))) := by
  have hc : ¬ StartsCdc (nameText us ++ '(' :: rest) := by
    rintro ⟨z, hz⟩
    obtain ⟨us', hu⟩ : StartsDashed us := by
      cases us with
      | nil => simp at hz
      | cons u us =>
        cases u with
        | esc e => simp at hz
        | chr c =>
          simp at hz
          obtain ⟨rfl, hz⟩ := hz
          cases us with
          | nil => simp at hz
          | cons u us =>
            cases u with
            | esc e => simp at hz
            | chr c => simp at hz; exact ⟨us, by rw [hz.1]⟩
    subst hu
    simp at hz
    cases us' with
    | nil => simp at hz
    | cons u us =>
      cases u with
      | esc e => simp at hz
      | chr c =>
        simp at hz
        obtain ⟨rfl, _⟩ := hz
        have := hn.1.2.2.1
        rcases this with h | h
        · rw [← isIdent_iff] at h; exact absurd h (by decide)
        · exact absurd h (by decide)
  have hsc := scan_startsName (f := l.features) hs hc
  obtain ⟨us', rest', nl, d, e, u, g1, g2, g3, g4, g5⟩ := consumeIdentLike_spec ha
  obtain ⟨rfl, rfl⟩ := nameScan_eq hn g1
  rw [byteLen_eq] at hl ⊢
  cases hb : (u && !isQuote (peekPastWs 4 rest)) with
  | true =>
    rw [g3 rest rfl hb] at hsc
    refine ⟨_, yields_of_scan h (by simp) hsc, ?_⟩
    rcases consumeUrl_kind (utf8Len (nameText us') + 1) e rest with h | h
    · exact Or.inl h
    · exact Or.inr (Or.inl h)
  | false =>
    rw [g4 rest rfl hb] at hsc
    refine ⟨_, yields_of_scan h (by simp) hsc, Or.inr (Or.inr ?_)⟩
    obtain ⟨k1, k2, k3, k4, k5⟩ := C17_function nl d e (w32 (utf8Len (nameText us') + 1))
    exact ⟨k1, by rw [k2, w32_toNat hl], nameFacts_of_flags g1.valid g2 k3 k5, dashedFact_of_flags g2 k4⟩

/-- What `consume_ident_sequence` returns on a text that starts with the longest name `us`. -/
theorem identSeq_name {us : List NameUnit} {rest : List Char} (hn : IsName us rest) (ha : EscAscii (nameText us ++ rest)) :
    ∃ nl d e : Bool, consumeIdentSeq (nameText us ++ rest) = (⟨utf8Len (nameText us), nl, d, e⟩, rest)
      ∧ (e = true ↔ HasEsc us) ∧ (nl = true ↔ HasNonLower us) ∧ (d = true ↔ StartsDashed us) := by
  obtain ⟨us', g1, g2, g3, g4, g5, g6⟩ := identLoop_spec {} (nameText us ++ rest)
  obtain ⟨rfl, he⟩ := nameScan_eq hn g1
  have g2 := g2 ha
  simp at g2 g3 g4 g5
  unfold consumeIdentSeq
  generalize identLoop {} (nameText us' ++ rest) = R at *
  obtain ⟨⟨a, b, c, d⟩, r⟩ := R
  simp only at *
  subst g2 he
  exact ⟨b, c, d, rfl, g3, g4, g5⟩

/-- The extra fact of AtKeyword and Hash tokens: `is_lower_case()` is exact for the unescaped characters. -/
def Spec.LowerExact (us : List NameUnit) (t : Token) : Prop :=
  t.isLowerCase = true ↔ ∀ c, NameUnit.chr c ∈ us → c = NUL ∨ Lower c ∨ Digit c ∨ c = '-'

theorem lowerExact_of {us : List NameUnit} {nl : Bool} (h : nl = true ↔ HasNonLower us) {t : Token}
    (ht : t.isLowerCase = !nl) : LowerExact us t := by
  have : nl = false ↔ ¬ HasNonLower us := by rw [← h]; simp
  rw [LowerExact, ht, Bool.not_eq_true', this]
  simp only [HasNonLower, not_exists, not_and]
  constructor
  · intro hh c hc
    by_cases h1 : c = NUL
    · exact Or.inl h1
    by_cases h2 : Lower c
    · exact Or.inr (Or.inl h2)
    by_cases h3 : Digit c
    · exact Or.inr (Or.inr (Or.inl h3))
    · exact Or.inr (Or.inr (Or.inr (Classical.byContradiction (hh c hc h1 h2 h3))))
  · intro hh c hc h1 h2 h3 h4
    rcases hh c hc with h | h | h | h
    · exact h1 h
    · exact h2 h
    · exact h3 h
    · exact h4 h

/-- `@` followed by a text that starts a name: one AtKeyword token covering exactly `@` and the longest name. -/
theorem C10_atKeyword_partial {l : Lexer} {us : List NameUnit} {rest : List Char} (h : l.Before ('@' :: (nameText us ++ rest)))
    (hs : StartsName (nameText us ++ rest)) (hn : IsName us rest)
    (ha : EscAscii (nameText us ++ rest)) (hl : byteLen (nameText us) + 1 < 2 ^ 32) :
    ∃ t, l.Yields t ∧ t.kind = .atKeyword ∧ t.len.toNat = byteLen (nameText us) + 1
      ∧ NameFacts us t ∧ DashedFact us t ∧ LowerExact us t := by
  have hsc := scan_at (f := l.features) (cs := nameText us ++ rest)
  obtain ⟨nl, d, e, g0, g1, g2, g3⟩ := identSeq_name hn ha
  rw [if_pos ((isIdentStartSequence_iff _).mpr hs), g0] at hsc
  refine ⟨_, yields_of_scan h (by simp) hsc, ?_⟩
  obtain ⟨k1, k2, k3, k4, k5⟩ := C17_atKeyword nl d e (w32 (utf8Len (nameText us) + 1))
  rw [byteLen_eq] at hl ⊢
  refine ⟨k1, by rw [k2, w32_toNat hl], ?_, ?_, lowerExact_of g2 k3⟩
  · refine nameFacts_of hn.1 g1 g2.mpr ?_ k3 k5
    intro hh
    obtain ⟨c, c1, c2, c3, _⟩ := g2.mp hh
    exact ⟨c, c1, c2, c3⟩
  · rw [DashedFact, k4, ← startsDashed_iff]; exact g3

/-- `#` followed by a name character or an escape: one Hash token covering exactly `#` and the longest name; and
`hash_is_id_like()` reports whether the first character is an unescaped name character. -/
theorem C10_hash_partial {l : Lexer} {us : List NameUnit} {rest : List Char} (h : l.Before ('#' :: (nameText us ++ rest)))
    (hs : Starts NameChar (nameText us ++ rest) ∨ StartsEscape (nameText us ++ rest)) (hn : IsName us rest)
    (ha : EscAscii (nameText us ++ rest)) (hl : byteLen (nameText us) + 1 < 2 ^ 32) :
    ∃ t, l.Yields t ∧ t.kind = .hash ∧ t.len.toNat = byteLen (nameText us) + 1
      ∧ NameFacts us t ∧ LowerExact us t ∧ (t.hashIsIdLike = true ↔ Starts NameChar (nameText us ++ rest)) := by
  have hsc := scan_hash (f := l.features) (cs := nameText us ++ rest)
  obtain ⟨nl, d, e, g0, g1, g2, g3⟩ := identSeq_name hn ha
  have hiff : isIdent (peekNth (nameText us ++ rest) 0) = true ↔ Starts NameChar (nameText us ++ rest) :=
    peek_iff_starts isIdent NameChar isIdent_iff nul_not_nameChar _
  rw [if_pos] at hsc
  · simp only [consumeHash, List.tail_cons, g0] at hsc
    refine ⟨_, yields_of_scan h (by simp) hsc, ?_⟩
    obtain ⟨k1, k2, k3, k4, k5⟩ := C17_hash nl (isIdent (peekNth (nameText us ++ rest) 0)) e (w32 (utf8Len (nameText us) + 1))
    rw [byteLen_eq] at hl ⊢
    refine ⟨k1, by rw [k2, w32_toNat hl], ?_, lowerExact_of g2 k3, by rw [k4]; exact hiff⟩
    refine nameFacts_of hn.1 g1 g2.mpr ?_ k3 k5
    intro hh
    obtain ⟨c, c1, c2, c3, _⟩ := g2.mp hh
    exact ⟨c, c1, c2, c3⟩
  · rcases hs with hs | hs
    · rw [hiff.mpr hs]; rfl
    · obtain ⟨r, hr, hnl⟩ := hs
      rw [hr]
      simp only [peekNth_cons_zero, peekNth_cons_succ]
      rw [(isEscapeSequence_iff '\\' r).mpr ⟨r, rfl, hnl⟩]; simp

/-- The next token, when there is text left and `advance()` does not panic, comes from one of the branches of the scanner. -/
theorem advance_cases {l l' : Lexer} {cs : List Char} {t : Token} (h : l.Before cs) (hne : cs ≠ [])
    (ha : l.advance = .ok (t, l')) : ∃ r, scanToken l.features cs = .ok (t, r) ∧ ScanCase l.features cs t r := by
  rw [advance_before h, if_neg hne] at ha
  cases hs : scanToken l.features cs with
  | error e => rw [hs] at ha; simp [Except.map] at ha
  | ok p =>
    obtain ⟨t', r⟩ := p
    rw [hs] at ha
    simp only [Except.map, Except.ok.injEq, Prod.mk.injEq] at ha
    obtain ⟨rfl, _⟩ := ha
    exact ⟨r, rfl, scan_cases hne hs⟩

theorem advance_starts {l l' : Lexer} {cs : List Char} {t : Token} (h : l.Before cs) (hne : cs ≠ [])
    (ha : l.advance = .ok (t, l')) : KindStarts l.features cs t.kind :=
  let ⟨_, _, hc⟩ := advance_cases h hne ha
  hc.kindStarts

/-- Conversely to the `C10` theorems: every Ident or Function token comes from a text that starts a name (or with a NUL, which
stands for U+FFFD) and is not `-->`, every AtKeyword from `@` and a name start, every Hash from `#` and a name character or
escape. -/
theorem C10_only {l l' : Lexer} {cs : List Char} {t : Token} (h : l.Before cs) (hne : cs ≠ [])
    (ha : l.advance = .ok (t, l')) :
    (t.kind = .ident ∨ t.kind = .function → (StartsName cs ∧ ¬ ['-', '-', '>'] <+: cs) ∨ Starts (· = NUL) cs)
    ∧ (t.kind = .atKeyword → ∃ r, cs = '@' :: r ∧ StartsName r)
    ∧ (t.kind = .hash → ∃ r, cs = '#' :: r ∧ (Starts NameChar r ∨ StartsEscape r)) := by
  have hk := advance_starts h hne ha
  refine ⟨fun e => hk.name ?_, hk.atKeyword, hk.hash⟩
  rcases e with e | e
  · exact Or.inl e
  · exact Or.inr (Or.inl e)

example : (Lexer.new c!"--Foo\\31 x{").Before (nameText [.chr '-', .chr '-', .chr 'F', .chr 'o', .chr 'o', .esc c!"31 ", .chr 'x']
    ++ c!"{") := before_new _ _
example : ((Lexer.new c!"--Foo\\31 x{").advance.map (fun p => (p.1.kind, p.1.len.toNat, p.1.isDashedIdent,
    p.1.containsEscapeChars, p.1.isLowerCase))) = .ok (.ident, 10, true, true, false) := by decide +kernel
example : IsName [.chr 'a', .esc c!"31 ", .chr 'x'] c!"{" := by
  refine ⟨⟨Or.inl (by rw [← isIdent_iff]; decide), ?_, Or.inl (by rw [← isIdent_iff]; decide), trivial⟩, ?_, ?_⟩
  · exact EscTail.hex (ds := c!"31") (ws := c!" ") (by decide) (by decide) (by simp only [← isHexDigit_iff]; decide)
      (Or.inr (by rw [List.cons_append, starts_cons, ← isHexDigit_iff]; decide))
      (.one (by simp [Ws]) (by simp))
  · rw [starts_cons, ← isIdent_iff]; decide
  · rintro ⟨r, h, _⟩; simp at h
example : ((Lexer.new c!"@media").advance.map (fun p => (p.1.kind, p.1.len.toNat))) = .ok (.atKeyword, 6) := by decide +kernel
example : ((Lexer.new c!"#a1 ").advance.map (fun p => (p.1.kind, p.1.len.toNat, p.1.hashIsIdLike))) = .ok (.hash, 3, true) := by
  decide +kernel

/-! ## C11 What the facts of `NameFacts` leave out -/

/-- `is_lower_case()` looks at the source text only, so an escaped upper-case letter goes unnoticed; and a name that starts
with NUL and two hyphens is reported as dashed although its third character is the first hyphen. -/
theorem C11_counterexample :
    ((Lexer.new c!"\\41 ").advance.map (fun p => (p.1.kind, p.1.isLowerCase))) = .ok (.ident, true)
    ∧ ((Lexer.new c!"\x00--x").advance.map (fun p => (p.1.kind, p.1.isDashedIdent))) = .ok (.ident, true) := by
  decide +kernel

/-- For names without escapes the lower-case fact is a fact about the name itself. -/
theorem C11_lower_unescaped {us : List NameUnit} {t : Token} (h : NameFacts us t) (hb : '\\' ∉ nameText us)
    (hl : t.isLowerCase = true) : ∀ c ∈ nameText us, ¬ Upper c :=
  fun c hc => h.lower hl c (text_mem_chr hb hc)

/-! ## C12 Numbers -/

theorem longestNumber_unique {cs t t' : List Char} (h : LongestNumber cs t) (h' : LongestNumber cs t') : t = t' := by
  have h1 := h.2.2 t' h'.1 h'.2.1
  have h2 := h'.2.2 t h.1 h.2.1
  exact (List.prefix_of_prefix_length_le h.2.1 h'.2.1 h2).eq_of_length (by omega)

theorem sign_iff {s i f e : List Char} (h : NumberParts s i f e) :
    s ≠ [] ↔ Starts (fun c => c = '+' ∨ c = '-') (s ++ (i ++ (f ++ e))) := by
  have hs := h.isSign
  cases hs with
  | plus => simp
  | minus => simp
  | none =>
    simp only [ne_eq, not_true_eq_false, List.nil_append, false_iff]
    rintro ⟨c, r, hc, hcs⟩
    match i, h.isInt with
    | d :: i, hi =>
      simp at hc
      have := (isDigit_iff d).mpr (hi d (by simp))
      rw [hc.1] at this
      rcases hcs with rfl | rfl <;> exact absurd this (by decide)
    | [], _ =>
      have hf := h.isFrac
      cases hf with
      | none => have := h.nonempty; simp at this
      | some => simp at hc; rcases hcs with rfl | rfl <;> simp at hc

theorem float_iff {s i f e : List Char} (h : NumberParts s i f e) :
    (f ≠ [] ∨ e ≠ []) ↔ '.' ∈ s ++ (i ++ (f ++ e)) ∨ 'e' ∈ s ++ (i ++ (f ++ e)) ∨ 'E' ∈ s ++ (i ++ (f ++ e)) := by
  have hdig : ∀ {ds : List Char}, Digits ds → '.' ∉ ds ∧ 'e' ∉ ds ∧ 'E' ∉ ds := by
    intro ds hd
    refine ⟨fun hm => ?_, fun hm => ?_, fun hm => ?_⟩ <;>
      exact absurd (hd _ hm) (by rw [← isDigit_iff]; decide)
  have hsg : ∀ {s : List Char}, IsSign s → '.' ∉ s ∧ 'e' ∉ s ∧ 'E' ∉ s := by
    intro s hs; cases hs <;> simp
  constructor
  · rintro (hf | he)
    · have := h.isFrac
      cases this with
      | none => simp at hf
      | some => left; simp
    · have := h.isExp
      cases this with
      | none => simp at he
      | some hh => right; rcases hh with rfl | rfl <;> simp
  · intro hm
    by_cases hf : f = []
    · by_cases he : e = []
      · exfalso
        subst hf he
        have h1 := hsg h.isSign
        have h2 := hdig h.isInt
        simp [h1, h2] at hm
      · exact Or.inr he
    · exact Or.inl hf

/-- A text that starts a number is lexed to a Number or Dimension token whose numeric part is the longest prefix matching the
grammar, and whose facts are truthful: `is_float()`/`is_int()`, `has_sign()`, `numeric_len()`, `value()`. It is a Number token
exactly when neither `%` nor a name follows, and then covers just the number. Missing from the full C12: numbers longer than the
documented limits, and escaped non-ASCII characters in the unit. -/
theorem C12_partial {l : Lexer} {num rest : List Char} (h : l.Before (num ++ rest)) (hn : LongestNumber (num ++ rest) num)
    (ha : EscAscii (num ++ rest)) (hl : WithinLimits (num ++ rest)) :
    ∃ t, l.Yields t ∧ (t.kind = .number ∨ t.kind = .dimension)
      ∧ (t.kind = .dimension ↔ Starts (· = '%') rest ∨ StartsName rest)
      ∧ (t.kind = .number → t.len.toNat = num.length)
      ∧ t.numericLen.toNat = num.length
      ∧ (t.isFloat = true ↔ '.' ∈ num ∨ 'e' ∈ num ∨ 'E' ∈ num) ∧ t.isInt = !t.isFloat
      ∧ (t.hasSign = true ↔ Starts (fun c => c = '+' ∨ c = '-') num)
      ∧ t.value = F32.parse num := by
  have hs : StartsNumber (num ++ rest) := ⟨num, hn.1, hn.2.1⟩
  have hsc := scan_startsNumber (f := l.features) hs
  obtain ⟨s, i, f, e, r, hp, hcs, hlong, fl, sg, hfl, hsg, h1, h2, h3⟩ := consumeNumeric_spec ((isNumberStart_iff _).mpr hs)
  have hnum := longestNumber_unique hlong hn
  have hlen := (number_len hp).1
  have hne := (number_len hp).2
  rw [sign_iff hp] at hsg
  rw [float_iff hp] at hfl
  rw [hnum] at hcs hfl hsg hlen hne h1 h2 h3
  have hr : r = rest := (List.append_cancel_left hcs).symm
  subst hr
  have hbt := hl.total
  rw [byteLen_eq] at hbt
  simp only [utf8Len_append] at hbt
  have hne' : num ++ r ≠ [] := by simp [hne]
  have hw : (w32 num.length).toNat = num.length := w32_toNat (by omega)
  by_cases hpc : Starts (· = '%') r
  · obtain ⟨c, r', rfl, rfl⟩ := hpc
    rw [h1 r' rfl] at hsc
    have hd := hl.dimension [] num ('%' :: r') rfl hn (by simp)
    obtain ⟨k1, k2, k3, k4, k5, k6, k7, k8⟩ := C17_dimension_known fl sg (w32 num.length) 1#32 (F32.parse num) .percent
      (by decide) (by rw [hw]; exact hd)
    exact ⟨_, yields_of_scan h hne' hsc, Or.inr k1, by simp [k1], by simp [k1], by rw [k3, hw], by rw [k4]; exact hfl,
      by rw [k4, k5], by rw [k6]; exact hsg, k7⟩
  · by_cases hn' : StartsName r
    · rw [h2 hpc hn'] at hsc
      have hd := hl.dimension [] num r rfl hn (startsName_unitStart hn')
      obtain ⟨us, u1, u2, u3⟩ := consumeUnit_spec r
      have u2 := u2 ha.suffix
      have hsp := u1.split
      refine ⟨_, yields_of_scan h hne' hsc, ?_⟩
      generalize consumeUnit r = U at *
      obtain ⟨unit, m, r'⟩ := U
      simp only at *
      by_cases hk : unit = .unknown
      · subst hk
        have hu := hl.unit [] num us r' (by rw [hsp]; rfl) (by rw [← hsp]; exact hn) u1.valid
        rw [byteLen_eq] at hu
        obtain ⟨k1, k2, k3, k4, k5, k6, k7, k8⟩ := C17_dimension_unknown fl sg (w32 num.length) (w32 m) (F32.parse num)
          (by rw [hw]; exact hd) (by rw [w32_toNat (by omega)]; omega)
        exact ⟨Or.inr k1, by simp [k1, hn'], by simp [k1], by rw [k3, hw], by rw [k4]; exact hfl, by rw [k4, k5],
          by rw [k6]; exact hsg, k7⟩
      · obtain ⟨k1, k2, k3, k4, k5, k6, k7, k8⟩ := C17_dimension_known fl sg (w32 num.length) (w32 m) (F32.parse num) unit hk
          (by rw [hw]; exact hd)
        exact ⟨Or.inr k1, by simp [k1, hn'], by simp [k1], by rw [k3, hw], by rw [k4]; exact hfl, by rw [k4, k5],
          by rw [k6]; exact hsg, k7⟩
    · rw [h3 hpc hn'] at hsc
      have hd := hl.number [] num r rfl hn
      obtain ⟨k1, k2, k3, k4, k5, k6, k7⟩ := C17_number fl sg (w32 num.length) (F32.parse num) (by rw [hw]; exact hd)
      exact ⟨_, yields_of_scan h hne' hsc, Or.inl k1, by simp [k1, hpc, hn'], fun _ => by rw [k2, hw], by rw [k3, hw],
        by rw [k4]; exact hfl, by rw [k4, k5], by rw [k6]; exact hsg, k7⟩

/-- Every text that starts a number has a longest number, so `C12_partial` applies to it. -/
theorem C12_total {cs : List Char} (h : StartsNumber cs) : ∃ num rest, cs = num ++ rest ∧ LongestNumber (num ++ rest) num := by
  obtain ⟨s, i, f, e, r, hp, hcs, hlong, _⟩ := consumeNumeric_spec ((isNumberStart_iff _).mpr h)
  exact ⟨_, r, hcs, by rw [← hcs]; exact hlong⟩

/-- Number and Dimension tokens come only from texts that start a number. -/
theorem C12_only {l l' : Lexer} {cs : List Char} {t : Token} (h : l.Before cs) (hne : cs ≠ [])
    (ha : l.advance = .ok (t, l')) (hk : t.kind = .number ∨ t.kind = .dimension) : StartsNumber cs :=
  (advance_starts h hne ha).numeric hk

example : ((Lexer.new c!"-1.5e+3em").advance.map (fun p => (p.1.kind, p.1.numericLen.toNat, p.1.isFloat, p.1.hasSign)))
    = .ok (.dimension, 7, true, true) := by decide +kernel
example : StartsNumber c!"+.5" := (isNumberStart_iff _).mp (by decide)
example : WithinLimits c!"-1.5e+3em" ∧ EscAscii c!"-1.5e+3em" :=
  ⟨withinLimits_of_short (by decide), escAscii_of_check (by decide)⟩

/-! ## C13 Units -/

theorem toAsciiLower_eq (c : Char) : toAsciiLower c = c.toLower := by
  unfold toAsciiLower Char.toLower
  by_cases h : 65 ≤ c.toNat ∧ c.toNat ≤ 90
  · have h1 : (65 ≤ c.toNat && c.toNat ≤ 90) = true := by simpa using h
    have h2 : c.val ≥ 'A'.val ∧ c.val ≤ 'Z'.val := by
      constructor
      · rw [ge_iff_le, UInt32.le_iff_toNat_le]; exact h.1
      · rw [UInt32.le_iff_toNat_le]; exact h.2
    rw [if_pos h1, dif_pos h2]
    apply char_eq_of_toNat
    rw [toNat_ofNat_valid (Or.inl (by omega))]
    show c.toNat + 32 = (c.val + ('a'.val - 'A'.val)).toNat
    rw [UInt32.toNat_add, show ('a'.val - 'A'.val).toNat = 32 by decide, show c.val.toNat = c.toNat from rfl]
    omega
  · have h1 : ¬ (65 ≤ c.toNat && c.toNat ≤ 90) = true := by simpa using h
    have h2 : ¬ (c.val ≥ 'A'.val ∧ c.val ≤ 'Z'.val) := by
      rw [ge_iff_le, UInt32.le_iff_toNat_le, UInt32.le_iff_toNat_le]
      exact fun hh => h hh
    rw [if_neg h1, dif_neg h2]

theorem map_lower (x : List Char) : x.map toAsciiLower = x.map Char.toLower := by
  apply List.map_congr_left; intro c _; exact toAsciiLower_eq c

/-- A number directly followed by `%`. -/
theorem C13_percent {l : Lexer} {num rest : List Char} (h : l.Before (num ++ '%' :: rest))
    (hn : LongestNumber (num ++ '%' :: rest) num) (hl : WithinLimits (num ++ '%' :: rest)) :
    ∃ t, l.Yields t ∧ t.kind = .dimension ∧ t.dimensionUnit = .percent ∧ t.len.toNat = num.length + 1 := by
  have hs : StartsNumber (num ++ '%' :: rest) := ⟨num, hn.1, hn.2.1⟩
  have hsc := scan_startsNumber (f := l.features) hs
  obtain ⟨s, i, f, e, r, hp, hcs, hlong, fl, sg, hfl, hsg, h1, h2, h3⟩ := consumeNumeric_spec ((isNumberStart_iff _).mpr hs)
  have hnum := longestNumber_unique hlong hn
  rw [hnum] at hcs h1
  rw [h1 rest (List.append_cancel_left hcs).symm] at hsc
  have hd := hl.dimension [] num ('%' :: rest) rfl hn (by simp)
  have hw : (w32 num.length).toNat = num.length := w32_toNat (by omega)
  obtain ⟨k1, k2, k3, k4, k5, k6, k7, k8⟩ := C17_dimension_known fl sg (w32 num.length) 1#32 (F32.parse num) .percent
      (by decide) (by rw [hw]; exact hd)
  refine ⟨_, yields_of_scan h (by simp) hsc, k1, k8, ?_⟩
  rw [k2, BitVec.toNat_add, hw]
  simp [DimensionUnit.len]; omega

/-- A number directly followed by a name: a Dimension token covering the number and exactly the longest name, reporting the
known unit `u` exactly when the name, compared ASCII case-insensitively, is the CSS name of `u`. Missing from the full C13: names
starting with an upper-case `D` are not recognised (they are still covered, and never mistaken for another unit), and the four
texts `sv`, `svm`, `svma`, `svmi`; see `C13_counterexample`. -/
theorem C13_partial {l : Lexer} {num rest : List Char} {us : List NameUnit} (h : l.Before (num ++ (nameText us ++ rest)))
    (hn : LongestNumber (num ++ (nameText us ++ rest)) num) (hs : StartsName (nameText us ++ rest)) (hu : IsName us rest)
    (ha : EscAscii (num ++ (nameText us ++ rest))) (hl : WithinLimits (num ++ (nameText us ++ rest)))
    (hsv : (nameText us).map Char.toLower ∉ [c!"sv", c!"svm", c!"svma", c!"svmi"]) :
    ∃ t, l.Yields t ∧ t.kind = .dimension ∧ t.len.toNat = num.length + byteLen (nameText us)
      ∧ (∀ u, u ≠ .unknown → t.dimensionUnit = u → unitName u = some ((nameText us).map Char.toLower))
      ∧ (¬ Starts (· = 'D') (nameText us) → ∀ u, unitName u = some ((nameText us).map Char.toLower) → t.dimensionUnit = u)
      ∧ t.numericLen.toNat = num.length ∧ (t.containsEscapeChars = false → t.dimensionUnit ≠ .unknown) := by
  have hst : StartsNumber (num ++ (nameText us ++ rest)) := ⟨num, hn.1, hn.2.1⟩
  have hsc := scan_startsNumber (f := l.features) hst
  obtain ⟨s, i, f, e, r, hp, hcs, hlong, fl, sg, hfl, hsg, h1, h2, h3⟩ := consumeNumeric_spec ((isNumberStart_iff _).mpr hst)
  have hnum := longestNumber_unique hlong hn
  have hne := (number_len hp).2
  have hnl := (number_len hp).1
  rw [hnum] at hcs h2 hne hnl
  have hr : r = nameText us ++ rest := (List.append_cancel_left hcs).symm
  subst hr
  have hpc : ¬ Starts (· = '%') (nameText us ++ rest) := by
    rintro ⟨c, r, hr, rfl⟩
    have := startsName_unitStart hs
    rw [hr] at hs
    rcases hs with h | ⟨r, h, _⟩ | ⟨r, h, _⟩
    · simp at h; rw [← isIdentStart_iff] at h; exact absurd h (by decide)
    · simp at h
    · simp at h
  rw [h2 hpc hs] at hsc
  have hbt := hl.total
  rw [byteLen_eq] at hbt
  simp only [utf8Len_append] at hbt
  have hw : (w32 num.length).toNat = num.length := w32_toNat (by omega)
  have hd := hl.dimension [] num _ rfl hn (startsName_unitStart hs)
  have hul := hl.unit [] num us rest rfl hn hu.1
  have hcomplete : ∀ {u : DimensionUnit}, ¬ Starts (· = 'D') (nameText us) →
      unitName u = some ((nameText us).map Char.toLower) → (consumeUnit (nameText us ++ rest)).1 = u := by
    intro u hD hn
    have hup : u ≠ .percent := by
      rintro rfl
      simp only [unitName, Option.some.injEq] at hn
      match hx : nameText us with
      | [] => rw [hx] at hn; simp at hn
      | [c] =>
        rw [hx] at hn
        simp only [List.map_cons, List.map_nil, List.cons.injEq, and_true] at hn
        rw [hx] at hpc
        apply hpc
        simp only [List.singleton_append, starts_cons]
        rw [← toAsciiLower_eq] at hn
        unfold toAsciiLower at hn
        split at hn
        · rename_i hr
          simp at hr
          have := congrArg Char.toNat hn
          have hv := toNat_ofNat_valid (n := c.toNat + 32) (Or.inl (by omega))
          rw [hv] at this
          have h37 : ('%' : Char).toNat = 37 := rfl
          omega
        · exact hn.symm
      | _ :: _ :: _ => rw [hx] at hn; simp at hn
    rw [← map_lower] at hn
    rw [consumeUnit_complete hup hn hD hu.2]
  obtain ⟨us', u1, u2, u3⟩ := consumeUnit_spec (nameText us ++ rest)
  have u2 := u2 ha.suffix
  obtain ⟨he, hr'⟩ := nameScan_eq hu u1
  subst us'
  refine ⟨_, yields_of_scan h (by simp [hne]) hsc, ?_⟩
  generalize consumeUnit (nameText us ++ rest) = U at *
  obtain ⟨unit, m, r'⟩ := U
  simp only at *
  subst hr'
  rw [byteLen_eq] at hul ⊢
  by_cases hk : unit = .unknown
  · subst hk
    obtain ⟨k1, k2, k3, k4, k5, k6, k7, k8⟩ := C17_dimension_unknown fl sg (w32 num.length) (w32 m) (F32.parse num)
      (by rw [hw]; exact hd) (by rw [w32_toNat (by omega)]; omega)
    refine ⟨k1, ?_, ?_, ?_, by rw [k3, hw], ?_⟩
    · rw [k2, BitVec.toNat_add, hw, w32_toNat (by omega)]; omega
    · intro u hu0 hu1; rw [k8] at hu1; exact absurd hu1.symm hu0
    · intro hD u hu1; rw [k8]; exact hcomplete hD hu1
    · intro hc; exfalso
      rw [newDimension_eq] at hc
      simp [Token.containsEscapeChars] at hc
  · obtain ⟨x, x1, x2, x3, x4, x5⟩ := u3 hk
    have hx : nameText us = x := by rw [x1]; simp
    rw [map_lower, ← hx] at x5
    obtain ⟨x5, x6⟩ := x5 hsv
    have hax : utf8Len (nameText us) = x.length := by
      rw [hx]; exact utf8Len_of_ascii (fun c hc => by simpa [isAscii] using x2 c hc)
    obtain ⟨k1, k2, k3, k4, k5, k6, k7, k8⟩ := C17_dimension_known fl sg (w32 num.length) (w32 m) (F32.parse num) unit hk
      (by rw [hw]; exact hd)
    refine ⟨k1, ?_, ?_, ?_, by rw [k3, hw], fun _ => by rw [k8]; exact hk⟩
    · rw [k2, BitVec.toNat_add, hw, x6, hx]
      rw [hx] at hax hul
      have : (BitVec.ofNat 32 x.length).toNat = x.length := by
        simp; omega
      rw [this]; omega
    · intro u hu0 hu1; rw [k8] at hu1; rw [← hu1]; exact x5
    · intro hD u hu1; rw [k8]; exact hcomplete hD hu1

/-- Not recognised: `1DEG`; and mistaken for seconds, leaving part of the unit behind: `1sv`. -/
theorem C13_counterexample :
    ((Lexer.new c!"1DEG").advance.map (fun p => p.1.dimensionUnit)) = .ok .unknown
    ∧ ((Lexer.new c!"1sv").advance.map (fun p => (p.1.dimensionUnit, p.1.len.toNat))) = .ok (.s, 2) := by
  decide +kernel

example : ((Lexer.new c!"12RLh ").advance.map (fun p => (p.1.dimensionUnit, p.1.len.toNat))) = .ok (.rlh, 5) := by
  decide +kernel
example : ((Lexer.new c!"1pxx").advance.map (fun p => (p.1.dimensionUnit, p.1.len.toNat))) = .ok (.unknown, 4) := by
  decide +kernel
example : unitName .rlh = some (c!"RLh".map Char.toLower) ∧ StartsName c!"RLh " ∧ IsName (chrs c!"RLh") c!" " := by
  refine ⟨by decide, Or.inl (by rw [starts_cons, ← isIdentStart_iff]; decide), ⟨?_, ?_, ?_, trivial⟩, ?_, ?_⟩
  · exact Or.inl (by rw [← isIdent_iff]; decide)
  · exact Or.inl (by rw [← isIdent_iff]; decide)
  · exact Or.inl (by rw [← isIdent_iff]; decide)
  · rw [starts_cons, ← isIdent_iff]; decide
  · rintro ⟨r, h, _⟩; simp at h

end Hdx

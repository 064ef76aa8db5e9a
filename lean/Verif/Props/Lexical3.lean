/-
C15, C16: urls. C20, C21: constants and affixes. Converses of C06 - C09.
-/
import Verif.Props.Lexical2

namespace Hdx
open Spec

/-! ## Converses of C06 - C09: which texts these tokens come from -/

/-- Whitespace tokens come only from whitespace. -/
theorem C06_only {l l' : Lexer} {cs : List Char} {t : Token} (h : l.Before cs) (hne : cs ≠ [])
    (ha : l.advance = .ok (t, l')) (hk : t.kind = .whitespace) : Starts Ws cs :=
  (advance_starts h hne ha).whitespace hk

/-- Comment tokens come only from `/*`, or `//` with the feature on. -/
theorem C07_only {l l' : Lexer} {cs : List Char} {t : Token} (h : l.Before cs) (hne : cs ≠ [])
    (ha : l.advance = .ok (t, l')) (hk : t.kind = .comment) :
    ['/', '*'] <+: cs ∨ (['/', '/'] <+: cs ∧ l.features.singleLineComments = true) :=
  (advance_starts h hne ha).comment hk

/-- String tokens come only from quotes. -/
theorem C09_only {l l' : Lexer} {cs : List Char} {t : Token} (h : l.Before cs) (hne : cs ≠ [])
    (ha : l.advance = .ok (t, l')) (hk : t.kind = .string ∨ t.kind = .badString) : Starts (fun c => c = '"' ∨ c = '\'') cs :=
  (advance_starts h hne ha).string hk

/-! ## C15 Which function-shaped tokens are urls -/

theorem lower_letter {c d : Char} (hd : 97 ≤ d.toNat ∧ d.toNat ≤ 122) :
    c.toLower = d ↔ c = d ∨ c = Char.ofNat (d.toNat - 32) := by
  rw [← toAsciiLower_eq]
  constructor
  · intro h; exact lower_inv hd h
  · rintro (rfl | rfl)
    · unfold toAsciiLower; rw [if_neg]; simp; omega
    · unfold toAsciiLower
      have hv := toNat_ofNat_valid (n := d.toNat - 32) (Or.inl (by omega))
      rw [hv, if_pos (by simp; omega)]
      apply char_eq_of_toNat
      rw [toNat_ofNat_valid (Or.inl (by omega))]; omega

theorem lower_u (c : Char) : c.toLower = 'u' ↔ c = 'u' ∨ c = 'U' := lower_letter (d := 'u') (by decide)
theorem lower_r (c : Char) : c.toLower = 'r' ↔ c = 'r' ∨ c = 'R' := lower_letter (d := 'r') (by decide)
theorem lower_l (c : Char) : c.toLower = 'l' ↔ c = 'l' ∨ c = 'L' := lower_letter (d := 'l') (by decide)

theorem urlFits_rest {x : List Char} (i : Nat) (hi : 3 ≤ i) (h : NUL ∉ x) : UrlFits i (chrs x) := by
  induction x generalizing i with
  | nil => simp [chrs, UrlFits]
  | cons c x ih =>
    simp only [List.mem_cons, not_or] at h
    simp only [chrs, List.map_cons, UrlFits]
    exact ⟨fun h' => h.1 h'.symm, by omega, by omega, by omega, ih (i + 1) (by omega) h.2⟩

/-- The url-likeness of an unescaped name: its first three characters (as far as it has them) are those of `url`. -/
theorem urlFits_plain {x : List Char} (h : NUL ∉ x) (hd : ¬ Starts (· = '-') x) :
    UrlFitsFrom 0 (chrs x) ↔ (x.take 3).map Char.toLower <+: c!"url" := by
  match x with
  | [] => simp [chrs, UrlFitsFrom, UrlFits]
  | c :: x =>
    simp only [starts_cons] at hd
    rw [show chrs (c :: x) = .chr c :: chrs x from rfl, urlFitsFrom_chr hd]
    simp only [List.mem_cons, not_or] at h
    have hn : ∀ {c : Char}, ¬ NUL = c → (c ≠ NUL) := fun h h' => h h'.symm
    match x, h with
    | [], h =>
      simp [chrs, UrlFits, hn h.1, ← lower_u, eq_comm]
    | [d], h =>
      simp only [List.mem_cons, not_or] at h
      simp [chrs, UrlFits, hn h.1, hn h.2.1, ← lower_u, ← lower_r, eq_comm]
    | d :: e :: x, h =>
      simp only [List.mem_cons, not_or] at h
      have := urlFits_rest (x := x) 3 (by omega) h.2.2.2
      simp only [chrs] at this
      simp [chrs, UrlFits, hn h.1, hn h.2.1, hn h.2.2.1, ← lower_u, ← lower_r, ← lower_l, this, eq_comm]

theorem isQuote_iff (c : Char) : isQuote c = true ↔ c = '"' ∨ c = '\'' := by
  simp [isQuote, or_comm]

theorem peekPastWs_eq (n : Nat) {ws rest : List Char} (hw : ∀ c ∈ ws, Ws c) (hr : ¬ Starts Ws rest) (hl : ws.length ≤ n) :
    peekPastWs n (ws ++ rest) = peekNth rest 0 := by
  have hr' : ∀ n, peekPastWs n rest = peekNth rest 0 := by
    intro n
    cases n with
    | zero => rfl
    | succ n =>
      rw [peekPastWs, if_neg]
      intro h
      exact hr ((peek_iff_starts isWhitespace Ws isWhitespace_iff (by rw [← isWhitespace_iff]; decide) rest).mp h)
  induction n generalizing ws with
  | zero => have : ws = [] := List.length_eq_zero_iff.mp (by omega); subst this; exact hr' 0
  | succ n ih =>
    cases ws with
    | nil => exact hr' _
    | cons c ws =>
      rw [peekPastWs, if_pos (by simpa using (isWhitespace_iff c).mpr (hw c (by simp)))]
      simpa using ih (fun d hd => hw d (by simp [hd])) (by simpa using hl)

theorem not_cdc_paren {us : List NameUnit} {rest : List Char} (hn : IsName us ('(' :: rest)) :
    ¬ StartsCdc (nameText us ++ '(' :: rest) := by
  rintro ⟨z, hz⟩
  have hmem : '>' ∉ nameText us ∨ True := Or.inr trivial
  match us, hn.1 with
  | [], _ => simp at hz
  | .esc e :: us, _ => simp at hz
  | [.chr c], _ => simp at hz
  | .chr c :: .esc e :: us, _ => simp at hz
  | [.chr c, .chr d], _ => simp at hz
  | .chr c :: .chr d :: .esc e :: us, _ => simp at hz
  | .chr c :: .chr d :: .chr e :: us, hv =>
    simp at hz
    obtain ⟨_, _, rfl, _⟩ := hz
    rcases hv.2.2.1 with h | h
    · rw [← isIdent_iff] at h; exact absurd h (by decide)
    · exact absurd h (by decide)

theorem nameText_chrs_mem {x : List Char} {u : NameUnit} (h : u ∈ chrs x) : ∃ c ∈ x, u = .chr c := by
  simp only [chrs, List.mem_map] at h
  obtain ⟨c, hc, rfl⟩ := h
  exact ⟨c, hc, rfl⟩

/-- An unescaped name followed by `(`, at most four whitespace characters, and then `rest`: the token is a Url or BadUrl exactly
when the name is `url` (in any case) and `rest` does not start with a quote; otherwise it is a Function. Missing from the full C15:
names with escapes, names that start with a hyphen, the names `u` and `ur`, names that merely start with `url`, and more than four
whitespace characters; `C15_counterexample` shows that the claim is false for each. -/
theorem C15_partial {l : Lexer} {x ws rest : List Char} (h : l.Before (x ++ '(' :: (ws ++ rest)))
    (hs : StartsName (x ++ '(' :: (ws ++ rest))) (hn : IsName (chrs x) ('(' :: (ws ++ rest))) (h0 : NUL ∉ x)
    (hd : ¬ Starts (· = '-') x) (hu : x.map Char.toLower ≠ c!"u" ∧ x.map Char.toLower ≠ c!"ur")
    (hp : c!"url" <+: x.map Char.toLower → x.length = 3)
    (hw : ∀ c ∈ ws, Ws c) (hw4 : ws.length ≤ 4) (hr : ¬ Starts Ws rest) (ha : EscAscii (x ++ '(' :: (ws ++ rest))) :
    ∃ t, l.Yields t ∧ (t.kind = .url ∨ t.kind = .badUrl ∨ t.kind = .function)
      ∧ (t.kind = .url ∨ t.kind = .badUrl ↔ x.map Char.toLower = c!"url" ∧ ¬ Starts (fun c => c = '"' ∨ c = '\'') rest) := by
  rw [← nameText_chrs x] at h hs ha
  have hsc := scan_startsName (f := l.features) hs (not_cdc_paren hn)
  obtain ⟨us', rest', nl, d, e, u, g1, g2, g3, g4, g5⟩ := consumeIdentLike_spec ha
  obtain ⟨rfl, rfl⟩ := nameScan_eq hn g1
  have hul : u = true ↔ x.map Char.toLower = c!"url" := by
    rw [g2.urlLike, urlFits_plain h0 hd]
    constructor
    · intro hh
      match x, hu, hp, hs with
      | [], _, _, hs =>
        exfalso
        simp [chrs, StartsName] at hs
        rcases hs with hs | ⟨r, hs, _⟩
        · rw [← isIdentStart_iff] at hs; exact absurd hs (by decide)
        · simp at hs
      | [a], hu, _, _ =>
        simp only [List.take, List.map_cons, List.map_nil, List.cons_prefix_cons, List.nil_prefix, and_true] at hh
        simp [hh] at hu
      | [a, b], hu, _, _ =>
        simp only [List.take, List.map_cons, List.map_nil, List.cons_prefix_cons, List.nil_prefix, and_true] at hh
        simp [hh] at hu
      | a :: b :: c :: x, _, hp, _ =>
        simp only [List.take, List.map_cons, List.map_nil, List.cons_prefix_cons, List.nil_prefix, and_true] at hh
        have := hp (by simp [hh])
        have hx : x = [] := List.length_eq_zero_iff.mp (by simpa using this)
        simp [hh, hx]
    · intro hh
      have : x.length = 3 := by rw [← List.length_map (f := Char.toLower), hh]; rfl
      rw [List.take_of_length_le (by omega), hh]; exact List.prefix_refl _
  have hq : isQuote (peekPastWs 4 (ws ++ rest)) = true ↔ Starts (fun c => c = '"' ∨ c = '\'') rest := by
    rw [peekPastWs_eq 4 hw hr hw4]
    exact peek_iff_starts isQuote _ isQuote_iff (by decide) rest
  cases hb : (u && !isQuote (peekPastWs 4 (ws ++ rest))) with
  | true =>
    rw [g3 _ rfl hb] at hsc
    refine ⟨_, yields_of_scan h (by simp) hsc, ?_⟩
    have hk := consumeUrl_kind (utf8Len (nameText (chrs x)) + 1) e (ws ++ rest)
    simp only [Bool.and_eq_true, Bool.not_eq_true'] at hb
    refine ⟨hk.elim Or.inl (fun h => Or.inr (Or.inl h)), fun _ => ⟨hul.mp hb.1, fun hh => ?_⟩, fun _ => hk⟩
    rw [hq.mpr hh] at hb; simp at hb
  | false =>
    rw [g4 _ rfl hb] at hsc
    refine ⟨_, yields_of_scan h (by simp) hsc, ?_⟩
    have hk := (C17_function nl d e (w32 (utf8Len (nameText (chrs x)) + 1))).1
    refine ⟨Or.inr (Or.inr hk), ?_, ?_⟩
    · intro hh; rw [hk] at hh; simp at hh
    · rintro ⟨h1, h2⟩
      rw [hul.mpr h1] at hb
      simp at hb
      exact absurd (hq.mp hb) h2

/-- Each exclusion of `C15_partial` is needed: `u(`, `ur(`, `urlx(`, `-rl(` and `--l(` are lexed as urls; `\000075rl(`, whose name
decodes to `url`, is lexed as a function; and so is a quoted url after five whitespace characters taken for an unquoted one. -/
theorem C15_counterexample :
    ((Lexer.new c!"u(a)").advance.map (·.1.kind)) = .ok .url
    ∧ ((Lexer.new c!"ur(a)").advance.map (·.1.kind)) = .ok .url
    ∧ ((Lexer.new c!"urlx(a)").advance.map (·.1.kind)) = .ok .url
    ∧ ((Lexer.new c!"-rl(a)").advance.map (·.1.kind)) = .ok .url
    ∧ ((Lexer.new c!"--l(a)").advance.map (·.1.kind)) = .ok .url
    ∧ ((Lexer.new c!"\\000075rl(a)").advance.map (·.1.kind)) = .ok .function
    ∧ ((Lexer.new c!"url(     \"a\")").advance.map (·.1.kind)) = .ok .badUrl := by
  decide +kernel

example : ((Lexer.new c!"UrL(  a)").advance.map (·.1.kind)) = .ok .url
    ∧ ((Lexer.new c!"url( \"a\")").advance.map (·.1.kind)) = .ok .function
    ∧ ((Lexer.new c!"calc(a)").advance.map (·.1.kind)) = .ok .function := by decide +kernel

/-! ## C16 Unquoted urls -/

theorem plain_valid {x rest : List Char} (h : ∀ c ∈ x, NameChar c) : ValidName (chrs x) rest := by
  induction x with
  | nil => trivial
  | cons c x ih => exact ⟨Or.inl (h c (by simp)), ih (fun d hd => h d (by simp [hd]))⟩

theorem url_letters {x : List Char} (h : x.map Char.toLower = c!"url") :
    ∃ a b c, x = [a, b, c] ∧ (a = 'u' ∨ a = 'U') ∧ (b = 'r' ∨ b = 'R') ∧ (c = 'l' ∨ c = 'L') := by
  match x with
  | [a, b, c] =>
    simp only [List.map_cons, List.map_nil, List.cons.injEq, and_true] at h
    exact ⟨a, b, c, rfl, (lower_u a).mp h.1, (lower_r b).mp h.2.1, (lower_l c).mp h.2.2⟩
  | [] => simp at h
  | [_] => simp at h
  | [_, _] => simp at h
  | _ :: _ :: _ :: _ :: _ => simp at h

theorem url_isName {x rest : List Char} (hx : x.map Char.toLower = c!"url") :
    IsName (chrs x) ('(' :: rest) ∧ StartsName (x ++ '(' :: rest) ∧ ¬ Starts (· = '-') x ∧ NUL ∉ x ∧ utf8Len x = 3
      ∧ '\\' ∉ x := by
  obtain ⟨a, b, c, rfl, ha, hb, hc⟩ := url_letters hx
  have hend : NameEnds ('(' :: rest) := by
    refine ⟨by rw [starts_cons, ← isIdent_iff]; decide, ?_⟩
    rintro ⟨r, h, _⟩; simp at h
  refine ⟨⟨plain_valid ?_, hend⟩, Or.inl ?_, ?_, ?_, ?_, ?_⟩
  · intro d hd
    simp only [← isIdent_iff]
    simp at hd
    rcases hd with rfl | rfl | rfl
    · rcases ha with rfl | rfl <;> decide
    · rcases hb with rfl | rfl <;> decide
    · rcases hc with rfl | rfl <;> decide
  · simp only [List.cons_append, starts_cons, ← isIdentStart_iff]
    rcases ha with rfl | rfl <;> decide
  · rcases ha with rfl | rfl <;> simp
  · rcases ha with rfl | rfl <;> rcases hb with rfl | rfl <;> rcases hc with rfl | rfl <;> decide
  · rcases ha with rfl | rfl <;> rcases hb with rfl | rfl <;> rcases hc with rfl | rfl <;> decide
  · rcases ha with rfl | rfl <;> rcases hb with rfl | rfl <;> rcases hc with rfl | rfl <;> decide

theorem url_scan {f : Features} {x rest : List Char} (hx : x.map Char.toLower = c!"url")
    (hq : isQuote (peekPastWs 4 rest) = false) (ha : EscAscii (x ++ '(' :: rest)) :
    scanToken f (x ++ '(' :: rest) = .ok (consumeUrl 4 false rest) := by
  obtain ⟨hn, hs, hd, h0, h3, hb⟩ := url_isName (rest := rest) hx
  rw [← nameText_chrs x] at ha hs ⊢
  rw [scan_startsName hs (not_cdc_paren hn)]
  obtain ⟨us', rest', nl, d, e, u, g1, g2, g3, g4, g5⟩ := consumeIdentLike_spec ha
  obtain ⟨rfl, rfl⟩ := nameScan_eq hn g1
  have hu : u = true := by
    rw [g2.urlLike, urlFits_plain h0 hd]
    have : x.length = 3 := by rw [← List.length_map (f := Char.toLower), hx]; rfl
    rw [List.take_of_length_le (by omega), hx]; exact List.prefix_refl _
  have he : e = false := by
    have : ¬ (e = true) := by
      rw [g2.esc, hasEsc_iff g1.valid]; simp [hb, h0]
    simpa using this
  rw [g3 _ rfl (by rw [hu, hq]; rfl), he]
  simp [h3]

theorem peekPastWs_notQuote {n : Nat} {ws rest : List Char} (hw : ∀ c ∈ ws, Ws c) (hr : ¬ Starts Ws rest)
    (hq : ¬ Starts (fun c => c = '"' ∨ c = '\'') rest ∨ n < ws.length) : isQuote (peekPastWs n (ws ++ rest)) = false := by
  induction n generalizing ws with
  | zero =>
    rcases hq with hq | hq
    · cases ws with
      | nil =>
        rw [Bool.eq_false_iff]
        intro h
        exact hq ((peek_iff_starts isQuote _ isQuote_iff (by decide) rest).mp h)
      | cons c ws =>
        have := (isWhitespace_iff c).mpr (hw c (by simp))
        show isQuote c = false
        rw [Bool.eq_false_iff]; intro h
        rw [isQuote_iff] at h
        rcases h with rfl | rfl <;> exact absurd this (by decide)
    · match ws, hq with
      | c :: ws, _ =>
        have := (isWhitespace_iff c).mpr (hw c (by simp))
        show isQuote c = false
        rw [Bool.eq_false_iff]; intro h
        rw [isQuote_iff] at h
        rcases h with rfl | rfl <;> exact absurd this (by decide)
  | succ n ih =>
    cases ws with
    | nil =>
      rw [peekPastWs_eq (n + 1) hw hr (by simp)]
      have hq : ¬ Starts (fun c => c = '"' ∨ c = '\'') rest := by simpa using hq
      rw [Bool.eq_false_iff]
      intro h
      exact hq ((peek_iff_starts isQuote _ isQuote_iff (by decide) rest).mp h)
    | cons c ws =>
      rw [peekPastWs, if_pos (by simpa using (isWhitespace_iff c).mpr (hw c (by simp)))]
      exact ih (fun d hd => hw d (by simp [hd])) (by simpa using hq)

/-- `url(`, leading whitespace, a valid value, trailing whitespace, and then `)` or the end of input: one Url token covering all of
it, whose affixes delimit the value. -/
theorem C16_url {l : Lexer} {x ws1 ws2 rest : List Char} {us : List NameUnit}
    (h : l.Before (x ++ '(' :: (ws1 ++ (nameText us ++ (ws2 ++ rest))))) (hx : x.map Char.toLower = c!"url")
    (h1 : ∀ c ∈ ws1, Ws c) (h2 : ∀ c ∈ ws2, Ws c) (hm : ¬ Starts Ws (nameText us ++ (ws2 ++ rest)))
    (hv : ValidUrl us (ws2 ++ rest)) (hr : rest = [] ∨ Starts (· = ')') rest)
    (ha : EscAscii (x ++ '(' :: (ws1 ++ (nameText us ++ (ws2 ++ rest)))))
    (hl : byteLen (x ++ '(' :: (ws1 ++ (nameText us ++ (ws2 ++ rest)))) < 2 ^ 32) :
    let closing := if rest = [] then 0 else 1
    ∃ t, l.Yields t ∧ t.kind = .url
      ∧ t.len.toNat = 4 + ws1.length + byteLen (nameText us) + ws2.length + closing
      ∧ (t.urlHasClosingParen = true ↔ rest ≠ []) ∧ (t.urlHasLeadingSpace = true ↔ ws1 ≠ [])
      ∧ (t.containsEscapeChars = true ↔ (∃ e, NameUnit.esc e ∈ us) ∨ ws2 ≠ [])
      ∧ (4 + ws1.length < 2 ^ 12 → ws2.length + 1 < 2 ^ 12 →
          t.leadingLen.toNat = 4 + ws1.length ∧ t.trailingLen.toNat = ws2.length + closing) := by
  have hq : ¬ Starts (fun c => c = '"' ∨ c = '\'') (nameText us ++ (ws2 ++ rest)) := by
    rintro ⟨c, r, he, hc⟩
    have hcq : ∀ {r' : List Char}, c :: r = ')' :: r' → False := by
      intro r' h; simp at h; rcases hc with rfl | rfl <;> simp at h
    have hcw : ∀ {w : Char} {r'}, Ws w → c :: r = w :: r' → False := by
      intro w r' hw h; simp at h; rw [← h.1, ← isWhitespace_iff] at hw
      rcases hc with rfl | rfl <;> exact absurd hw (by decide)
    match us, hv with
    | [], _ =>
      match ws2, h2 with
      | [], _ =>
        rcases hr with rfl | ⟨d, r', rfl, rfl⟩
        · simp at he
        · exact hcq (by simpa using he.symm)
      | w :: ws2, h2 => exact hcw (h2 w (by simp)) (by simpa using he.symm)
    | .esc e :: us, _ => simp at he; rcases hc with rfl | rfl <;> simp at he
    | .chr d :: us, hv =>
      simp at he
      have := hv.1
      rw [he.1] at this
      rcases hc with rfl | rfl
      · exact this.2.1 rfl
      · exact this.2.2.1 rfl
  have hsc := url_scan (f := l.features) hx (peekPastWs_notQuote (n := 4) h1 hm (Or.inl hq)) ha
  have h3 := (url_isName (rest := []) hx).2.2.2.2.1
  have hend := urlLoop_eq hv h2 (hr.elim Or.inl (fun h => Or.inr (Or.inl h)))
    (by rcases hr with rfl | ⟨c, r, rfl, rfl⟩
        · exact not_starts_nil _
        · simp [NUL])
    ha.suffix.tail.suffix false (4 + ws1.length)
  rw [byteLen_eq] at hl ⊢
  simp only [utf8Len_append, utf8Len_cons, h3, utf8Len_ws h1, utf8Len_ws h2, show '('.utf8Size = 1 by decide] at hl
  have hne : x ++ '(' :: (ws1 ++ (nameText us ++ (ws2 ++ rest))) ≠ [] := by simp
  rw [consumeUrl, consumeWhitespace_eq _ h1 hm] at hsc
  simp only [hend] at hsc
  have hlead : (decide (ws1.length > 0) = true) ↔ ws1 ≠ [] := by simp [List.length_pos_iff]
  have hesc : ((false || unitsEsc us) || !ws2.isEmpty) = true ↔ (∃ e, NameUnit.esc e ∈ us) ∨ ws2 ≠ [] := by
    simp [unitsEsc_iff]
  rcases hr with rfl | ⟨c, r, rfl, rfl⟩
  · simp only [urlFinish] at hsc
    refine ⟨_, yields_of_scan h hne hsc, ?_⟩
    have kk := C17_url false (decide (ws1.length > 0)) ((false || unitsEsc us) || !ws2.isEmpty) (w32 (4 + ws1.length))
      (w32 ws2.length) (w32 (4 + ws1.length + utf8Len (nameText us) + ws2.length))
    have klen : (Token.newUrl false (decide (ws1.length > 0)) ((false || unitsEsc us) || !ws2.isEmpty) (w32 (4 + ws1.length))
      (w32 ws2.length) (w32 (4 + ws1.length + utf8Len (nameText us) + ws2.length))).len.toNat
        = 4 + ws1.length + utf8Len (nameText us) + ws2.length := by
      rw [newUrl_eq, len_word _ _ _ _ _ _ (by decide), w32_toNat (by omega)]
    refine ⟨by simp [newUrl_eq], by rw [klen]; simp, by simp [newUrl_eq, Token.urlHasClosingParen],
      by simpa [newUrl_eq, Token.urlHasLeadingSpace] using hlead,
      by rw [← hesc]; simp [newUrl_eq, Token.containsEscapeChars, Token.canEscape, Token.isIdentLike, Kind.bits], ?_⟩
    intro a1 a2
    obtain ⟨_, _, _, _, _, k6, k7⟩ := kk (by rw [w32_toNat (by omega)]; omega) (by rw [w32_toNat (by omega)]; omega)
    rw [k6, k7, w32_toNat (by omega), w32_toNat (by omega)]; simp
  · simp only [urlFinish, if_true] at hsc
    refine ⟨_, yields_of_scan h hne hsc, ?_⟩
    simp only [utf8Len_cons, show ')'.utf8Size = 1 by decide] at hl
    have kk := C17_url true (decide (ws1.length > 0)) ((false || unitsEsc us) || !ws2.isEmpty) (w32 (4 + ws1.length))
      (w32 (ws2.length + 1)) (w32 (4 + ws1.length + utf8Len (nameText us) + ws2.length + 1))
    have klen : (Token.newUrl true (decide (ws1.length > 0)) ((false || unitsEsc us) || !ws2.isEmpty) (w32 (4 + ws1.length))
      (w32 (ws2.length + 1)) (w32 (4 + ws1.length + utf8Len (nameText us) + ws2.length + 1))).len.toNat
        = 4 + ws1.length + utf8Len (nameText us) + ws2.length + 1 := by
      rw [newUrl_eq, len_word _ _ _ _ _ _ (by decide), w32_toNat (by omega)]
    refine ⟨by simp [newUrl_eq], by rw [klen]; simp, by simp [newUrl_eq, Token.urlHasClosingParen],
      by simpa [newUrl_eq, Token.urlHasLeadingSpace] using hlead,
      by rw [← hesc]; simp [newUrl_eq, Token.containsEscapeChars, Token.canEscape, Token.isIdentLike, Kind.bits], ?_⟩
    intro a1 a2
    obtain ⟨_, _, _, _, _, k6, k7⟩ := kk (by rw [w32_toNat (by omega)]; omega) (by rw [w32_toNat (by omega)]; omega)
    rw [k6, k7, w32_toNat (by omega), w32_toNat (by omega)]; simp

/-- `url(` followed by something that is not a url value: one BadUrl token that extends to the first unescaped `)` (included) or to
the end of input. Missing from the full C16: a NUL right after the value ends the url instead of spoiling it
(`C16_counterexample`). -/
theorem C16_bad_partial {l : Lexer} {x ws1 ws2 rest : List Char} {us us2 : List NameUnit}
    (h : l.Before (x ++ '(' :: (ws1 ++ (nameText us ++ (ws2 ++ (nameText us2 ++ rest)))))) (hx : x.map Char.toLower = c!"url")
    (h1 : ∀ c ∈ ws1, Ws c) (h2 : ∀ c ∈ ws2, Ws c) (hm : ¬ Starts Ws (nameText us ++ (ws2 ++ (nameText us2 ++ rest))))
    (hq : ¬ Starts (fun c => c = '"' ∨ c = '\'') (nameText us ++ (ws2 ++ (nameText us2 ++ rest))) ∨ 4 < ws1.length)
    (hv : ValidUrl us (ws2 ++ (nameText us2 ++ rest))) (hsp : UrlSpoilt ws2 (nameText us2 ++ rest))
    (hrem : ValidRemnant us2 rest) (hr : rest = [] ∨ Starts (· = ')') rest)
    (h0 : ¬ Starts (· = NUL) (nameText us2 ++ rest))
    (ha : EscAscii (x ++ '(' :: (ws1 ++ (nameText us ++ (ws2 ++ (nameText us2 ++ rest))))))
    (hl : byteLen (x ++ '(' :: (ws1 ++ (nameText us ++ (ws2 ++ (nameText us2 ++ rest))))) < 2 ^ 32) :
    ∃ t, l.Yields t ∧ t.kind = .badUrl
      ∧ t.len.toNat = 4 + ws1.length + byteLen (nameText us) + ws2.length + byteLen (nameText us2) + (if rest = [] then 0 else 1) := by
  have hsc := url_scan (f := l.features) hx (peekPastWs_notQuote (n := 4) h1 hm hq) ha
  have h3 := (url_isName (rest := []) hx).2.2.2.2.1
  have hend := urlLoop_eq hv h2 (Or.inr (Or.inr hsp)) h0 ha.suffix.tail.suffix false (4 + ws1.length)
  rw [byteLen_eq, byteLen_eq] at *
  simp only [utf8Len_append, utf8Len_cons, h3, utf8Len_ws h1, utf8Len_ws h2, show '('.utf8Size = 1 by decide] at hl
  rw [consumeUrl, consumeWhitespace_eq _ h1 hm] at hsc
  simp only [hend] at hsc
  have hf : urlFinish (false || unitsEsc us) (4 + ws1.length + utf8Len (nameText us)) ws2 (nameText us2 ++ rest)
      = (.bad (4 + ws1.length + utf8Len (nameText us) + ws2.length), nameText us2 ++ rest) := by
    match hc : nameText us2 ++ rest with
    | [] => exact absurd hc hsp.1
    | c :: r =>
      have : ¬ c = ')' := by
        have := hsp.2.1; rw [hc] at this; simpa using this
      simp [urlFinish, this]
  rw [hf] at hsc
  simp only [badUrlRemnants_eq hrem hr ha.suffix.tail.suffix.suffix.suffix] at hsc
  refine ⟨_, yields_of_scan h (by simp) hsc, (C17_badUrl _).1, ?_⟩
  rw [(C17_badUrl _).2]
  rcases hr with rfl | ⟨c, r, rfl, rfl⟩
  · simp only [remnantFinish]
    simp at hl ⊢
    rw [w32_toNat (by omega)]
  · simp only [remnantFinish]
    simp [show ')'.utf8Size = 1 by decide] at hl ⊢
    rw [w32_toNat (by omega)]

/-- Every text after `url(` has one of the two forms. -/
theorem C16_total (cs : List Char) : ∃ ws1 us ws2 rest, cs = ws1 ++ (nameText us ++ (ws2 ++ rest)) ∧ (∀ c ∈ ws1, Ws c)
    ∧ (∀ c ∈ ws2, Ws c) ∧ ¬ Starts Ws (nameText us ++ (ws2 ++ rest)) ∧ ValidUrl us (ws2 ++ rest)
    ∧ (rest = [] ∨ Starts (· = ')') rest ∨ (UrlSpoilt ws2 rest ∧ ∃ us2 rest2, rest = nameText us2 ++ rest2 ∧ ValidRemnant us2 rest2
        ∧ (rest2 = [] ∨ Starts (· = ')') rest2))) := by
  obtain ⟨ws1, r, rfl, h1, h2⟩ := exists_ws cs
  obtain ⟨us, ws2, rest, rfl, h3, h4, h5⟩ := exists_url r
  refine ⟨ws1, us, ws2, rest, rfl, h1, h4, h2, h3, ?_⟩
  rcases h5 with h | h | h
  · exact Or.inl h
  · exact Or.inr (Or.inl h)
  · obtain ⟨us2, rest2, e, hv, hr⟩ := exists_remnant rest
    exact Or.inr (Or.inr ⟨h, us2, rest2, e, hv, hr⟩)

theorem C16_counterexample :
    ((Lexer.new c!"url(a\x00b)").advance.map (fun p => (p.1.kind, p.1.len.toNat))) = .ok (.url, 5) := by
  decide +kernel

example : ((Lexer.new c!"url( a\\)b )x").advance.map (fun p => (p.1.kind, p.1.len.toNat, p.1.leadingLen.toNat,
    p.1.trailingLen.toNat))) = .ok (.url, 11, 5, 2) := by decide +kernel
example : ((Lexer.new c!"url(a b\\)c)x").advance.map (fun p => (p.1.kind, p.1.len.toNat))) = .ok (.badUrl, 11) := by
  decide +kernel
example : ValidUrl [.chr 'a', .esc [')'], .chr 'b'] c!" )x" := by
  refine ⟨⟨?_, by decide, by decide, by decide, by decide, by decide, ?_⟩,
    .plain (by rw [← isHexDigit_iff]; decide) (by rw [← isNewline_iff]; decide),
    ⟨?_, by decide, by decide, by decide, by decide, by decide, ?_⟩, trivial⟩
  all_goals first | (rw [← isWhitespace_iff]; decide) | (rw [← isNonPrintable_iff]; decide)

end Hdx

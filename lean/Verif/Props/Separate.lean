/-
C28: where `needs_separator_for` asks for no separator, two texts written next to each other are lexed as they were.
-/
import Verif.Lemmas.SwapScan
import Verif.Props.Sink
import Verif.Lemmas.TokenStream

namespace Hdx
open Spec

theorem first_scan {f : Features} {v : List Char} {b : Token} (h : FirstToken f v b) (hne : v ≠ []) : ∃ r, scanToken f v = .ok (b, r) ∧ ScanCase f v b r := by
  obtain ⟨l', h1, _⟩ := h
  exact advance_cases (before_new v f) hne h1

theorem first_of_scan {f : Features} {v r : List Char} {b : Token} (hne : v ≠ []) (h : scanToken f v = .ok (b, r)) : FirstToken f v b :=
  yields_of_scan (before_new v f) hne h

theorem first_unique {f : Features} {v : List Char} {b b' : Token} (h : FirstToken f v b) (h' : FirstToken f v b') : b = b' := by
  obtain ⟨l, h1, _⟩ := h
  obtain ⟨l', h2, _⟩ := h'
  rw [h1] at h2
  simp only [Except.ok.injEq, Prod.mk.injEq] at h2
  exact h2.1

theorem first_nil {f : Features} {b : Token} (h : FirstToken f [] b) : b = Token.EOF := by
  obtain ⟨l', h1, _⟩ := h
  rw [advance_before (before_new [] f), if_pos rfl] at h1
  simp only [Except.ok.injEq, Prod.mk.injEq] at h1
  exact h1.1.symm

/-! ### What the second token says about the text it comes from -/

def NameKind (b : Token) : Prop := b.kind = .ident ∨ b.kind = .function ∨ b.kind = .url ∨ b.kind = .badUrl

theorem first_name {f : Features} {v : List Char} {b : Token} (h : FirstToken f v b) (hs : (StartsName v ∧ ¬ StartsCdc v) ∨ Starts (· = NUL) v) :
    NameKind b := by
  have hne : v ≠ [] := by
    rintro rfl
    rcases hs with ⟨hs, _⟩ | hs
    · exact startsName_not_ends hs nameEnds_nil
    · exact not_starts_nil _ hs
  obtain ⟨r, h1, _⟩ := first_scan h hne
  have : consumeIdentLike v = .ok (b, r) := by
    rcases hs with ⟨hs, hc⟩ | ⟨c, q, rfl, rfl⟩
    · rw [scan_startsName hs hc] at h1; exact h1
    · rw [scan_nul] at h1; exact h1
  have := consumeIdentLike_kind this
  simp only [List.mem_cons, List.not_mem_nil, or_false] at this
  unfold NameKind
  rcases this with h | h | h | h <;> simp [h]

theorem first_cdc {f : Features} {v : List Char} {b : Token} (h : FirstToken f v b) (hs : StartsCdc v) : b = Token.CDC := by
  obtain ⟨q, rfl⟩ := hs
  refine first_unique h (first_of_scan (by simp) (r := q) ?_)
  rw [show ['-', '-', '>'] ++ q = '-' :: '-' :: '>' :: q from rfl, scan_dash, if_pos (by rfl)]
  rfl

theorem first_number {f : Features} {v : List Char} {b : Token} (h : FirstToken f v b) (hs : StartsNumber v) (ht : Tame f v) :
    (b.kind = .number ∨ b.kind = .dimension) ∧ (b.hasSign = true ↔ Starts (fun c => c = '+' ∨ c = '-') v) := by
  obtain ⟨num, rest, rfl, hn⟩ := C12_total hs
  obtain ⟨t, h1, h2, _, _, _, _, _, h3, _⟩ := C12_partial (before_new (num ++ rest) f) hn ht.escapes ht.limits
  have := first_unique h h1
  subst this
  refine ⟨h2, ?_⟩
  rw [h3]
  have hne : num ≠ [] := by
    obtain ⟨s, i, fr, e, hp, rfl⟩ := hn.1
    intro h0
    simp at h0
    rcases hp.nonempty with h | h
    · exact h h0.2.1
    · exact h h0.2.2.1
  obtain ⟨c, num, rfl⟩ := List.exists_cons_of_ne_nil hne
  simp

theorem first_single {f : Features} {c : Char} {v : List Char} {b : Token} (h : FirstToken f (c :: v) b) (hc : c.toNat ∈ singles) :
    b = singleCharToken c.toNat := first_unique h (first_of_scan (by simp) (scan_single hc))

theorem first_dash {f : Features} {v : List Char} {b : Token} (h : FirstToken f ('-' :: v) b) (ht : Tame f ('-' :: v)) :
    b = Token.CDC ∨ NameKind b ∨ ((b.kind = .number ∨ b.kind = .dimension) ∧ b.hasSign = true) ∨ b = Token.DASH := by
  by_cases h1 : StartsCdc ('-' :: v)
  · exact Or.inl (first_cdc h h1)
  by_cases h2 : StartsName ('-' :: v)
  · exact Or.inr (Or.inl (first_name h (Or.inl ⟨h2, h1⟩)))
  by_cases h3 : StartsNumber ('-' :: v)
  · obtain ⟨g1, g2⟩ := first_number h h3 ht
    exact Or.inr (Or.inr (Or.inl ⟨g1, g2.mpr (by simp)⟩))
  · refine Or.inr (Or.inr (Or.inr (first_unique h (first_of_scan (by simp) (r := v) ?_))))
    rw [scan_dash, if_neg (fun h => h1 ((peek_cdc v).mp h)), if_neg (show ¬ isIdentStartSequence '-' (peekNth v 0) (peekNth v 1) = true from fun h => h2 ((isIdentStartSequence_iff ('-' :: v)).mp h)),
      if_neg (fun h => h3 ((isNumberStart_iff _).mp h))]

/-! ### What a pair that needs no separator looks like -/

theorem needs_name_false {a b : Token} (ha : NameRow (classOf a) ∨ a.kind = .ident ∨ a.kind = .atKeyword ∨ a.kind = .hash ∨ a.kind = .dimension)
    (h : a.needsSeparatorFor b = false) : ¬ NameKind b ∧ b ≠ Token.CDC
      ∧ (b.kind = .number ∨ b.kind = .dimension → b.hasSign = true ∧ Token.f32LtZero b.value = false)
      ∧ (a.kind = .ident → b ≠ Token.LEFT_PAREN) := by
  have hk : a.kind = .ident ∨ a.kind = .atKeyword ∨ a.kind = .hash ∨ a.kind = .dimension := by
    rcases ha with ha | ha
    · obtain ⟨c1, c2, c3, c4, c5, c6, c7, c8⟩ := class_word a
      rcases ha with ha | ha | ha | ha
      · exact Or.inl (c1.mp ha)
      · exact Or.inr (Or.inl (c6.mp ha))
      · exact Or.inr (Or.inr (Or.inl (c7.mp ha)))
      · exact Or.inr (Or.inr (Or.inr (c8.mp (Or.inr ha))))
    · exact ha
  refine ⟨?_, ?_, ?_, ?_⟩
  · intro hn
    unfold Token.needsSeparatorFor at h
    rcases hn with hn | hn | hn | hn <;> rcases hk with hk | hk | hk | hk <;> simp [hk, hn] at h
  · rintro rfl
    unfold Token.needsSeparatorFor at h
    have : Token.CDC.isCdc = true := by decide
    rcases hk with hk | hk | hk | hk <;> simp [hk, this] at h
  · intro hn
    unfold Token.needsSeparatorFor at h
    rcases hn with hn | hn <;> rcases hk with hk | hk | hk | hk <;> simp [hk, hn] at h <;> grind
  · rintro hi rfl
    unfold Token.needsSeparatorFor at h
    have : Token.LEFT_PAREN.char = some '(' := by decide
    simp [hi, this] at h

/-- After a name, a text whose first token needs no separator does not continue it. -/
theorem nameEnds_of_needs {f : Features} {a b : Token} {x z v : List Char} (ha : NameRow (classOf a))
    (hb : FirstToken f v b) (h : a.needsSeparatorFor b = false) (ht : Tame f v) (hm : ¬ Merges f a x z b v) : NameEnds v := by
  obtain ⟨n1, n2, n3, _⟩ := needs_name_false (Or.inl ha) h
  have hesc : ¬ StartsEscape v := by
    rintro ⟨q, rfl, hq⟩
    refine n1 (first_name hb (Or.inl ⟨Or.inr (Or.inl ⟨q, rfl, hq⟩), ?_⟩))
    rintro ⟨w, hw⟩; simp at hw
  refine ⟨?_, hesc⟩
  rintro ⟨c, q, rfl, hc⟩
  rcases hc with (hc | hc | rfl) | rfl
  · refine n1 (first_name hb (Or.inl ⟨Or.inl ⟨c, q, rfl, hc⟩, ?_⟩))
    rintro ⟨w, hw⟩; simp at hw; rw [← hw.1] at hc; exact dash_not_nameStart hc
  · have hsn : StartsNumber (c :: q) := by
      rw [← isNumberStart_iff]; simp [isNumberStart, (isDigit_iff c).mpr hc]
    obtain ⟨g1, g2⟩ := first_number hb hsn ht
    have := g2.mp (n3 g1).1
    simp at this
    have := digit_not_sign hc
    grind
  · rcases first_dash hb ht with h1 | h1 | ⟨h1, h2⟩ | h1
    · exact n2 h1
    · exact n1 h1
    · exact hm (.minusZero ha ⟨_, _, rfl, rfl⟩ ⟨h1, n3 h1⟩)
    · exact hm (.hyphen ha (by rw [h1]; decide))
  · exact n1 (first_name hb (Or.inr ⟨_, _, rfl, rfl⟩))

/-! ### One token, another text after it -/

/-- The hypotheses of the theorem below. -/
structure Swap (f : Features) (a b : Token) (x z v : List Char) : Prop where
  ne : x ≠ []
  len : a.len.toNat = utf8Len x
  first : FirstToken f v b
  needs : a.needsSeparatorFor b = false
  tz : Tame f (x ++ z)
  tv : Tame f (x ++ v)
  merges : ¬ Merges f a x z b v

variable {f : Features} {a b : Token} {x z v : List Char}

theorem Swap.one (s : Swap f a b x z v) {c : Char} {cs : List Char} (h : x ++ z = c :: cs) (hl : a.len.toNat = c.utf8Size) : x = [c] ∧ cs = z := by
  have := split_eq (x := x) (z := z) (y := [c]) (r := cs) (by simpa using h) (by rw [← s.len, hl]; simp)
  exact ⟨this.1.symm, this.2⟩

theorem Swap.whole (s : Swap f a b x z v) {y r : List Char} (h : x ++ z = y ++ r) (hl : a.len.toNat = utf8Len y) : y = x ∧ r = z :=
  split_eq h (by rw [← s.len, hl])

theorem Swap.bound (s : Swap f a b x z v) : utf8Len x + utf8Len z < 2 ^ 32 := by
  have := s.tz.limits.total
  rw [byteLen_eq, utf8Len_append] at this
  exact this

theorem Swap.single (s : Swap f a b x z v) {c : Char} {cs : List Char} (h : x ++ z = c :: cs) (hc : c.toNat ∈ singles) (ha : a = singleCharToken c.toNat) :
    scanToken f (x ++ v) = .ok (a, v) := by
  have hl := (singles_table _ hc).1
  have h1 : c.utf8Size = 1 := utf8Size_ascii (by simpa [isAscii] using singles_lt _ hc)
  obtain ⟨rfl, rfl⟩ := s.one h (by rw [ha, hl, h1]; rfl)
  subst ha
  exact scan_single hc

theorem first_ws (h : FirstToken f v b) (hs : Starts Ws v) : b.kind = .whitespace := by
  obtain ⟨c, q, rfl, hc⟩ := hs
  obtain ⟨r, h1, _⟩ := first_scan h (by simp)
  cases hf : f.separateWhitespace with
  | false =>
    rw [scan_ws hc hf] at h1
    obtain ⟨ws, rest, e, w1, w2⟩ := exists_ws (c :: q)
    rw [e, consumeWhitespace_eq _ w1 w2] at h1
    injection h1 with h1; injection h1 with h1 _; subst h1
    exact newWhitespace_kind _ _ (wsFlags_lt _ _ (by decide))
  | true =>
    rw [scan_sep hc hf] at h1
    split at h1
    · injection h1 with h1; injection h1 with h1 _; subst h1; exact newWhitespace_kind _ _ (by decide)
    · split at h1 <;> (injection h1 with h1; injection h1 with h1 _; subst h1; exact newWhitespace_kind _ _ (by decide))

theorem Swap.ws (s : Swap f a b x z v) {ws rest : List Char} {P : Char → Prop} (h : x ++ z = ws ++ rest) (hr : MaximalRun P ws rest) (hP : ∀ c, P c → Ws c)
    {st : Whitespace} (hst : st.bits.toNat < 8) (ha : a = Token.newWhitespace st (w32 ws.length)) : ws = x ∧ rest = z ∧ MaximalRun P x v := by
  have h1 : utf8Len ws = ws.length := utf8Len_of_ascii (fun c hc => by
    have := ws_codes (hP c (hr.2.1 c hc)); simp [isAscii]; omega)
  have hb := s.bound
  have h2 : utf8Len x + utf8Len z = utf8Len ws + utf8Len rest := by rw [← utf8Len_append, h, utf8Len_append]
  obtain ⟨rfl, rfl⟩ := s.whole h (by
    rw [ha, newWhitespace_eq st hst, len_word _ _ _ _ _ _ (by decide), w32_toNat (by omega), h1])
  refine ⟨rfl, rfl, hr.1, hr.2.1, ?_⟩
  rintro ⟨c, q, rfl, hc⟩
  exact s.merges (.whitespace (by rw [ha]; exact newWhitespace_kind _ _ hst) (first_ws s.first ⟨c, q, rfl, hP c hc⟩))

theorem Swap.wsAny (s : Swap f a b x z v) {ws rest : List Char} (hf : f.separateWhitespace = false) (h : x ++ z = ws ++ rest) (hr : MaximalRun Ws ws rest)
    (ha : a = Token.newWhitespace (ws.foldl (fun s c => s.or (wsFlag c)) .none) (w32 ws.length)) : scanToken f (x ++ v) = .ok (a, v) := by
  obtain ⟨rfl, rfl, h1, h2, h3⟩ := s.ws h hr (fun _ h => h) (wsFlags_lt _ _ (by decide)) ha
  obtain ⟨c, ws, rfl⟩ := List.exists_cons_of_ne_nil h1
  rw [List.cons_append, scan_ws (h2 c (by simp)) hf, ← List.cons_append, consumeWhitespace_eq _ h2 h3, ha]

theorem Swap.wsSep (s : Swap f a b x z v) {ws rest : List Char} {P : Char → Prop} {st : Whitespace}
    (hP : (P = (· = ' ') ∧ st = Whitespace.space) ∨ (P = (· = '\t') ∧ st = .tab) ∨ (P = Newline ∧ st = .newline))
    (hf : f.separateWhitespace = true) (h : x ++ z = ws ++ rest) (hr : MaximalRun P ws rest)
    (ha : a = Token.newWhitespace st (w32 ws.length)) : scanToken f (x ++ v) = .ok (a, v) := by
  have hPw : ∀ c, P c → Ws c := by
    rcases hP with ⟨rfl, _⟩ | ⟨rfl, _⟩ | ⟨rfl, _⟩ <;> intro c hc
    · exact Or.inl hc
    · exact Or.inr (Or.inl hc)
    · exact Or.inr (Or.inr hc)
  obtain ⟨rfl, rfl, h1, h2, h3⟩ := s.ws h hr hPw (by rcases hP with ⟨_, rfl⟩ | ⟨_, rfl⟩ | ⟨_, rfl⟩ <;> decide) ha
  obtain ⟨c, ws, rfl⟩ := List.exists_cons_of_ne_nil h1
  have hc := h2 c (by simp)
  rw [List.cons_append, scan_sep (hPw c hc) hf, ← List.cons_append]
  rcases hP with ⟨rfl, rfl⟩ | ⟨rfl, rfl⟩ | ⟨rfl, rfl⟩
  · rw [if_neg (by rw [hc]; decide), if_pos hc, consumeSame_eq h2 h3, ha]
  · rw [if_pos hc, consumeSame_eq h2 h3, ha]
  · have : c ≠ '\t' ∧ c ≠ ' ' := by
      rcases hc with rfl | rfl | rfl <;> decide
    rw [if_neg this.1, if_neg this.2, consumeNewlines_eq h2 h3, ha]

theorem Swap.string (s : Swap f a b x z v) {q : Char} {cs r : List Char} (h : x ++ z = q :: cs) (hq : q = '"' ∨ q = '\'')
    (hs : consumeString (q :: cs) = (a, r)) : scanToken f (x ++ v) = .ok (a, v) := by
  unfold consumeString at hs
  simp only at hs
  obtain ⟨text, t1, t2, t3⟩ := stringLoop_cover q false 1 cs (EscAscii.suffix (a := [q]) (by simpa [← h] using s.tz.escapes))
  have hb := s.bound
  rw [← utf8Len_append, h] at hb
  have hq1 : q.utf8Size = 1 := by rcases hq with rfl | rfl <;> decide
  match hr : stringLoop q false 1 cs with
  | (.bad m, r') =>
    rw [hr] at hs
    injection hs with h1 h2
    exact absurd (Merges.badString (by rw [← h1]; simp [newBadString_eq])) s.merges
  | (.str hc e m, r') =>
    rw [hr] at hs t1 t2
    injection hs with h1 h2
    cases hc with
    | false =>
      refine absurd (Merges.openString ?_ ?_) s.merges
      · rw [← h1, newString_eq]; simp
      · rw [← h1, newString_eq]; simp [Token.hasCloseQuote]
    | true =>
      obtain ⟨y, y1, y2, y3⟩ := stringLoop_local hr
      have hm := t2 _ _ _ rfl
      simp only at t1
      have hy : y = text := List.append_cancel_right (by rw [← y1, ← t1])
      subst hy
      obtain ⟨rfl, rfl⟩ := s.whole (y := q :: y) (r := r') (by rw [h, y1]; rfl) (by
        rw [← h1, newString_eq, len_word _ _ _ _ _ _ (by decide), w32_toNat]
        · simp [hm, hq1]
        · rw [y1] at hb; simp at hb; omega)
      rw [List.cons_append, scan_quote hq]
      unfold consumeString
      simp only [y3 v, h1]


/-! Names -/

theorem hash_cond (cs : List Char) : (isIdent (peekNth cs 0) || isEscapeSequence (peekNth cs 0) (peekNth cs 1)) = true ↔
    (Starts NameChar cs ∨ StartsEscape cs) := by
  match cs with
  | [] =>
    simp only [peekNth_nil]
    constructor
    · intro h; exact absurd h (by decide)
    · rintro (h | ⟨r, h, _⟩)
      · exact absurd h (not_starts_nil _)
      · simp at h
  | d :: cs => simp [isIdent_iff, isEscapeSequence_iff]

theorem cdc_split {p q : List Char} (h : StartsCdc (p ++ q)) : ['-', '-', '>'] <+: p ∨ (p = [] ∧ StartsCdc q) ∨ (p = ['-'] ∧ ['-', '>'] <+: q)
    ∨ (p = ['-', '-'] ∧ ['>'] <+: q) := by
  match p with
  | [] => exact Or.inr (Or.inl ⟨rfl, h⟩)
  | [c] =>
    simp only [StartsCdc, List.cons_append, List.nil_append, List.cons_prefix_cons] at h
    obtain ⟨rfl, h⟩ := h
    exact Or.inr (Or.inr (Or.inl ⟨rfl, h⟩))
  | [c, d] =>
    simp only [StartsCdc, List.cons_append, List.nil_append, List.cons_prefix_cons] at h
    obtain ⟨rfl, rfl, h⟩ := h
    exact Or.inr (Or.inr (Or.inr ⟨rfl, h⟩))
  | c :: d :: e :: p =>
    simp only [StartsCdc, List.cons_append, List.cons_prefix_cons, List.nil_prefix, and_true] at h
    obtain ⟨rfl, rfl, rfl⟩ := h
    exact Or.inl ⟨p, rfl⟩

theorem nameRow_of_kind (h : a.kind = .ident ∨ a.kind = .atKeyword ∨ a.kind = .hash) : NameRow (classOf a) := by
  obtain ⟨c1, _, _, _, _, c6, c7, _⟩ := class_word a
  rcases h with h | h | h
  · exact Or.inl (c1.mpr h)
  · exact Or.inr (Or.inl (c6.mpr h))
  · exact Or.inr (Or.inr (Or.inl (c7.mpr h)))

theorem Swap.name (s : Swap f a b x z v) {us : List NameUnit} {p : List Char} (hx : x = p ++ nameText us) (hz : IsName us z) (hr : NameRow (classOf a)) :
    IsName us v := by
  have hv := nameEnds_of_needs hr s.first s.needs s.tv.suffix s.merges
  refine ⟨validName_swap hz.1 hv ?_ ?_, hv⟩
  · rintro hz0 w hw
    exact s.merges (.endEscape hr hz0 ⟨p ++ w, by rw [hx, hw]; simp⟩)
  · intro hw he
    exact s.merges (.hexSpace hr (by rw [hx]; exact he.append p) hw)

theorem hashStart_swap {us : List NameUnit} (hu : IsName us z) (hv : IsName us v) (hs : Starts NameChar (nameText us ++ z) ∨ StartsEscape (nameText us ++ z)) :
    Starts NameChar (nameText us ++ v) ∨ StartsEscape (nameText us ++ v) := by
  cases us with
  | nil =>
    rcases hs with ⟨c, q, hq, hcc⟩ | hs
    · exact absurd ⟨c, q, hq, Or.inl hcc⟩ hu.2.1
    · exact absurd hs hu.2.2
  | cons u us =>
    cases u with
    | chr c =>
      rw [show nameText (.chr c :: us) ++ z = c :: (nameText us ++ z) from rfl] at hs
      rw [show nameText (.chr c :: us) ++ v = c :: (nameText us ++ v) from rfl]
      rcases hs with hs | ⟨q, hq, _⟩
      · left; simpa using hs
      · simp at hq; exact absurd hq.1 (nameChar_not_esc hu.1.1)
    | esc e => exact Or.inr ⟨e ++ (nameText us ++ v), by simp [nameText, NameUnit.text], escTail_not_newline hv.1.1⟩

theorem Swap.hash (s : Swap f a b x z v) {cs r : List Char} (h : x ++ z = '#' :: cs) (hs : Starts NameChar cs ∨ StartsEscape cs)
    (hc : consumeHash ('#' :: cs) = (a, r)) : scanToken f (x ++ v) = .ok (a, v) := by
  obtain ⟨us, rest, rfl, hu⟩ := C10_total cs
  have az := s.tz.escapes
  rw [h] at az
  have az := EscAscii.suffix (a := ['#']) az
  have hb := s.bound
  rw [← utf8Len_append, h] at hb
  obtain ⟨nl, d, e, g, _⟩ := identSeq_name hu az
  unfold consumeHash at hc
  simp only [List.tail_cons, g, Prod.mk.injEq] at hc
  obtain ⟨hc, rfl⟩ := hc
  have hk : a.kind = .hash := by rw [← hc, newHash_eq]; simp
  obtain ⟨h1, rfl⟩ := s.whole (y := '#' :: nameText us) (r := rest) (by rw [h]; rfl) (by
    rw [← hc, newHash_eq, len_word _ _ _ _ _ _ (by decide), w32_toNat]
    · simp [show '#'.utf8Size = 1 from rfl]; omega
    · simp [show '#'.utf8Size = 1 from rfl] at hb; omega)
  have hv := s.name (p := ['#']) (by rw [← h1]; rfl) hu (nameRow_of_kind (Or.inr (Or.inr hk)))
  have av := s.tv.escapes
  rw [← h1] at av ⊢
  have av := EscAscii.suffix (a := ['#']) av
  obtain ⟨i, i1, i2⟩ := identSeq_swap hu hv az av
  rw [g] at i1
  injection i1 with i1 _
  have hne : nameText us ≠ [] := by
    intro h0
    rw [h0] at hs
    rcases hs with ⟨c, q, hq, hcc⟩ | hs
    · exact hu.2.1 ⟨c, q, hq, Or.inl hcc⟩
    · exact hu.2.2 hs
  rw [List.cons_append, scan_hash, if_pos]
  · unfold consumeHash
    simp only [List.tail_cons, i2, ← i1]
    rw [← hc, peekNth_append hne v rest]
  · rw [hash_cond]
    exact hashStart_swap hu hv hs

theorem Swap.at (s : Swap f a b x z v) {cs : List Char} (h : x ++ z = '@' :: cs) (hs : StartsName cs)
    (hc : a = Token.newAtKeyword (consumeIdentSeq cs).1.nonLower (consumeIdentSeq cs).1.dashed (consumeIdentSeq cs).1.esc (w32 ((consumeIdentSeq cs).1.len + 1))) :
    scanToken f (x ++ v) = .ok (a, v) := by
  obtain ⟨us, rest, rfl, hu⟩ := C10_total cs
  have az := s.tz.escapes
  rw [h] at az
  have az := EscAscii.suffix (a := ['@']) az
  have hb := s.bound
  rw [← utf8Len_append, h] at hb
  obtain ⟨nl, d, e, g, _⟩ := identSeq_name hu az
  have hk : a.kind = .atKeyword := by rw [hc, newAtKeyword_eq]; simp
  obtain ⟨h1, rfl⟩ := s.whole (y := '@' :: nameText us) (r := rest) (by rw [h]; rfl) (by
    rw [hc, newAtKeyword_eq, len_word _ _ _ _ _ _ (by decide), g, w32_toNat]
    · simp [show '@'.utf8Size = 1 from rfl]; omega
    · simp [show '@'.utf8Size = 1 from rfl] at hb; simp; omega)
  have hv := s.name (p := ['@']) (by rw [← h1]; rfl) hu (nameRow_of_kind (Or.inr (Or.inl hk)))
  have av := s.tv.escapes
  rw [← h1] at av ⊢
  have av := EscAscii.suffix (a := ['@']) av
  obtain ⟨i, i1, i2⟩ := identSeq_swap hu hv az av
  rw [i1] at hc
  rw [List.cons_append, scan_at, if_pos ((isIdentStartSequence_iff _).mpr (startsName_swap hu hv hs)), i2, hc]

theorem escAscii_last {p : List Char} {c : Char} (h : EscAscii (p ++ z)) (hc : c.toNat < 128) : EscAscii (p ++ [c]) := by
  intro pre d post hd
  rcases List.eq_nil_or_concat post with rfl | ⟨post, e, rfl⟩
  · have := congrArg List.getLast? hd
    simp at this
    rw [← this]; exact hc
  · have : p = pre ++ '\\' :: d :: post := by
      have := congrArg List.dropLast hd
      rw [List.dropLast_concat] at this
      rw [this]
      simp [show pre ++ '\\' :: d :: (post ++ [e]) = (pre ++ '\\' :: d :: post) ++ [e] by simp, -List.append_assoc]
    exact h pre d (post ++ z) (by rw [this]; simp)

theorem consumeUrl_paren (n : Nat) (e : Bool) : (consumeUrl n e [')']).1.kind = .url := by
  unfold consumeUrl
  simp [consumeWhitespace, show isWhitespace ')' = false from rfl, urlLoop, newUrl_eq]

theorem Swap.identLike (s : Swap f a b x z v) {r : List Char} (hs : (StartsName (x ++ z) ∧ ¬ StartsCdc (x ++ z)) ∨ Starts (· = NUL) (x ++ z))
    (hc : consumeIdentLike (x ++ z) = .ok (a, r)) : scanToken f (x ++ v) = .ok (a, v) := by
  obtain ⟨us, rest, e, hu⟩ := C10_total (x ++ z)
  have az := s.tz.escapes
  have av := s.tv.escapes
  have hb := s.bound
  rw [← utf8Len_append] at hb
  rw [e] at hs hc az hb
  have hlen := urlState_len hu az
  have hne : nameText us ≠ [] := by
    intro h0
    rw [h0] at hs
    rcases hs with ⟨hs, _⟩ | ⟨c, q, hq, hcc⟩
    · exact startsName_not_ends hs hu.2
    · exact hu.2.1 ⟨c, q, hq, Or.inr hcc⟩
  simp only [utf8Len_append] at hb
  rw [consumeIdentLike_units hu az] at hc
  -- the text before what follows starts with the name
  have dispatch : ∀ {y w : List Char} {t : Token}, x = nameText us ++ y → IsName us (y ++ w) → ¬ StartsCdc (x ++ w) →
      ∀ {r : List Char}, consumeIdentLike (x ++ w) = .ok (t, r) → scanToken f (x ++ w) = .ok (t, r) := by
    intro y w t hy hv hcd r hgoal
    rcases hs with ⟨hs, _⟩ | ⟨c, q, hq, rfl⟩
    · rw [scan_startsName _ hcd, hgoal]
      rw [hy, List.append_assoc]
      exact startsName_swap hu hv hs
    · obtain ⟨c, t, ht⟩ := List.exists_cons_of_ne_nil hne
      rw [ht] at hq
      simp at hq
      rw [hy, ht, hq.1] at hgoal ⊢
      simp only [List.cons_append] at hgoal ⊢
      rw [scan_nul, hgoal]
  by_cases hp : Starts (· = '(') rest
  · rw [if_pos ((peek_paren rest).mpr hp)] at hc
    obtain ⟨c, rest, rfl, rfl⟩ := hp
    replace hc : (if ((urlState {} us).urlLike && !isQuote (peekPastWs 4 rest)) = true then
        (.ok (consumeUrl ((urlState {} us).len + 1) (urlState {} us).esc rest) : Except Panic (Token × List Char))
      else .ok (Token.newFunction (urlState {} us).nonLower (urlState {} us).dashed (urlState {} us).esc (w32 ((urlState {} us).len + 1)), rest))
        = .ok (a, r) := hc
    have hnc : ∀ w, ¬ StartsCdc (nameText us ++ '(' :: w) := by
      intro w hw
      have hpre : ['-', '-', '>'] <+: nameText us := by
        rcases cdc_split hw with h | ⟨h, h'⟩ | ⟨h, h'⟩ | ⟨h, h'⟩
        · exact h
        · exact absurd h hne
        · simp at h'
        · simp at h'
      obtain ⟨q, hq⟩ := hpre
      rcases hs with ⟨_, hs⟩ | ⟨c, q', hq', hcc⟩
      · exact hs ⟨q ++ '(' :: rest, by rw [← hq]; simp⟩
      · rw [← hq] at hq'
        simp at hq'
        rw [hcc] at hq'
        exact absurd hq'.1 (by decide)
    have hpar : '('.utf8Size = 1 := rfl
    by_cases hul : ((urlState {} us).urlLike && !isQuote (peekPastWs 4 rest)) = true
    · rw [if_pos hul] at hc
      injection hc with hc
      obtain ⟨text, t1, t2⟩ := consumeUrl_rest hc (EscAscii.suffix (a := nameText us ++ ['(']) (by simpa using az)) (by simp [hpar] at hb; omega)
      have hx := s.whole (y := nameText us ++ '(' :: text) (r := r) (by rw [e, t1]; simp) (by rw [t2, hlen]; simp [hpar]; omega)
      obtain ⟨h1, rfl⟩ := hx
      obtain ⟨y, y1, y2, y3⟩ := consumeUrl_local hc
        (fun hk => by
          cases hq : a.urlHasClosingParen with
          | true => rfl
          | false => exact absurd (Merges.openUrl hk hq) s.merges)
        (fun hk hr => s.merges (.openBadUrl hk hr))
      have hy : text = y := List.append_cancel_right (by rw [← y1, ← t1])
      subst hy
      have hv : IsName us ('(' :: (text ++ v)) := isName_paren hu _
      have e2 : x ++ v = nameText us ++ '(' :: (text ++ v) := by rw [← h1]; simp
      refine dispatch (y := '(' :: text) h1.symm hv (by rw [e2]; exact hnc _) ?_
      rw [e2] at av ⊢
      rw [consumeIdentLike_units hv av, if_pos (by simp)]
      refine (if_pos ?_).trans (by rw [List.tail_cons, y3 v])
      rw [List.tail_cons, ← peekPastWs_local y2 4 r v, ← t1]
      exact hul
    · rw [if_neg hul] at hc
      injection hc with hc
      injection hc with hc h2
      obtain ⟨h1, rfl⟩ := s.whole (y := nameText us ++ ['(']) (r := rest) (by rw [e]; simp) (by
        rw [← hc, newFunction_eq, len_word _ _ _ _ _ _ (by decide), w32_toNat, hlen]
        · simp [hpar]
        · simp [hpar] at hb; omega)
      have hk : a.kind = .function := by rw [← hc, newFunction_eq]; simp
      have hv : IsName us ('(' :: v) := isName_paren hu _
      have e2 : x ++ v = nameText us ++ '(' :: v := by rw [← h1]; simp
      refine dispatch (y := ['(']) h1.symm hv (by rw [e2]; exact hnc _) ?_
      rw [e2] at av ⊢
      rw [consumeIdentLike_units hv av, if_pos (by simp)]
      refine (if_neg ?_).trans (by rw [List.tail_cons, hc])
      intro hul2
      simp only [List.tail_cons] at hul2
      simp only [Bool.and_eq_true, Bool.not_eq_true'] at hul2
      -- the name is one the lexer takes for `url`
      have hurl : ∃ t, FirstToken f (x ++ [')']) t ∧ t.kind = .url := by
        have e3 : x ++ [')'] = nameText us ++ '(' :: [')'] := by rw [← h1]; simp
        have hw : IsName us ('(' :: [')']) := isName_paren hu _
        have aw : EscAscii (nameText us ++ '(' :: [')']) := by
          have := escAscii_last (p := nameText us ++ ['(']) (z := rest) (c := ')') (by simpa using az) (by decide)
          simpa using this
        have hk := consumeUrl_paren ((urlState {} us).len + 1) (urlState {} us).esc
        refine ⟨_, first_of_scan (r := (consumeUrl ((urlState {} us).len + 1) (urlState {} us).esc [')']).2) (by simp)
          (dispatch (y := ['(']) h1.symm hw (by rw [e3]; exact hnc _) ?_), hk⟩
        rw [e3, consumeIdentLike_units hw aw, if_pos (by simp)]
        refine (if_pos ?_).trans rfl
        rw [List.tail_cons, hul2.1]
        decide
      have hq : ∀ c, v.head? = some c → isQuote c = true → False := by
        intro c hv hq
        match v, hv with
        | d :: v, hv =>
          simp at hv; subst hv
          have hd : isWhitespace d = false := by
            simp [isQuote] at hq; rcases hq with rfl | rfl <;> decide
          simp [peekPastWs, hd, hq] at hul2
      by_cases hb1 : b.kind = .string ∨ b.kind = .badString
      · have hv0 : v ≠ [] := by
          rintro rfl
          rw [first_nil s.first] at hb1
          revert hb1; decide
        obtain ⟨_, _, hcase⟩ := first_scan s.first hv0
        obtain ⟨d, q, rfl, hd⟩ := hcase.kindStarts.string hb1
        exact hq d rfl (by rcases hd with rfl | rfl <;> decide)
      · exact s.merges (.urlFunction hk hurl (fun h => hb1 (Or.inl h)) (fun h => hb1 (Or.inr h)))
  · rw [if_neg (fun h => hp ((peek_paren rest).mp h))] at hc
    injection hc with hc
    injection hc with hc h2
    have hk : a.kind = .ident := by rw [← hc, newIdent_eq]; simp
    obtain ⟨h1, rfl⟩ := s.whole (y := nameText us) (r := rest) e (by
      rw [← hc, newIdent_eq, len_word _ _ _ _ _ _ (by decide), w32_toNat (by omega), hlen])
    have hv := s.name (p := []) (by rw [← h1]; rfl) hu (nameRow_of_kind (Or.inl hk))
    rw [← h1] at av
    have hpv : ¬ Starts (· = '(') v := by
      rintro ⟨c, q, rfl, rfl⟩
      exact (needs_name_false (Or.inr (Or.inl hk)) s.needs).2.2.2 hk (first_single s.first (by decide))
    obtain ⟨t, i1, i2⟩ := ident_swap hu hv az av hp hpv
    rw [consumeIdentLike_units hu az, if_neg (fun h => hp ((peek_paren rest).mp h))] at i1
    injection i1 with i1
    injection i1 with i1 _
    refine dispatch (y := []) (by rw [h1]; simp) hv ?_ (by rw [← h1, i2, ← i1, hc])
    intro hcd
    rcases cdc_split hcd with ⟨q, hq⟩ | ⟨h, h'⟩ | ⟨h, h'⟩ | ⟨h, h'⟩
    · rcases hs with ⟨_, hs⟩ | ⟨c, q', hq', hcc⟩
      · exact hs ⟨q ++ rest, by rw [h1, ← hq]; simp⟩
      · rw [h1, ← hq] at hq'
        simp at hq'
        rw [hcc] at hq'
        exact absurd hq'.1 (by decide)
    · exact s.ne h
    · obtain ⟨q, rfl⟩ := h'
      exact hv.2.1 (by simp [NameChar])
    · obtain ⟨q, rfl⟩ := h'
      exact s.merges (.arrow h (by simp))


/-! Delimiters -/

theorem Swap.delim (s : Swap f a b x z v) {c : Char} {cs : List Char} (h : x ++ z = c :: cs) (ha : a.len.toNat = c.utf8Size)
    (hv : scanToken f (c :: v) = .ok (a, v)) : scanToken f (x ++ v) = .ok (a, v) := by
  obtain ⟨rfl, _⟩ := s.one h ha
  exact hv

/-- What a token that a name may not precede tells about the text. -/
theorem first_nameStart (h : FirstToken f v b) (h1 : ¬ NameKind b) (h2 : b ≠ Token.CDC) : ¬ StartsName v := by
  intro hs
  by_cases hc : StartsCdc v
  · exact h2 (first_cdc h hc)
  · exact h1 (first_name h (Or.inl ⟨hs, hc⟩))

theorem needs_delim {c : Char} (hk : a.kind = .delim) (ha : a.char = some c) (hc : c = '#' ∨ c = '-' ∨ c = '@') (h : a.needsSeparatorFor b = false) :
    ¬ NameKind b ∧ b ≠ Token.CDC ∧ (b.char ≠ some '-') ∧ (c ≠ '@' → ¬ (b.kind = .number ∨ b.kind = .dimension)) := by
  unfold Token.needsSeparatorFor at h
  have hcdc : Token.CDC.isCdc = true := by decide
  rw [hk, ha] at h
  rcases hc with rfl | rfl | rfl
  · refine ⟨?_, ?_, ?_, ?_⟩
    · rintro (hn | hn | hn | hn) <;> simp [hn] at h
    · rintro rfl; simp [hcdc] at h
    · intro hn; simp [hn] at h
    · rintro _ (hn | hn) <;> simp [hn] at h
  · refine ⟨?_, ?_, ?_, ?_⟩
    · rintro (hn | hn | hn | hn) <;> simp [hn] at h
    · rintro rfl; simp [hcdc] at h
    · intro hn; simp [hn] at h
    · rintro _ (hn | hn) <;> simp [hn] at h
  · refine ⟨?_, ?_, ?_, ?_⟩
    · rintro (hn | hn | hn | hn) <;> simp [hn] at h
    · rintro rfl; simp [hcdc] at h
    · intro hn; simp [hn] at h
    · simp

theorem Swap.noDash (s : Swap f a b x z v) (h1 : ¬ NameKind b) (h2 : b ≠ Token.CDC) (h3 : b.char ≠ some '-')
    (h4 : ¬ (b.kind = .number ∨ b.kind = .dimension)) : ¬ Starts (· = '-') v := by
  rintro ⟨c, q, rfl, rfl⟩
  rcases first_dash s.first s.tv.suffix with h | h | h | h
  · exact h2 h
  · exact h1 h
  · exact h4 h.1
  · exact h3 (by rw [h]; decide)

theorem Swap.noNumber (s : Swap f a b x z v) (h4 : ¬ (b.kind = .number ∨ b.kind = .dimension)) : ¬ StartsNumber v :=
  fun h => h4 (first_number s.first h s.tv.suffix).1

theorem startsNumber_digit {c : Char} {q : List Char} (h : Digit c) : StartsNumber (c :: q) := by
  rw [← isNumberStart_iff]; simp [isNumberStart, (isDigit_iff c).mpr h]

theorem startsNumber_dot {q : List Char} (h : Starts Digit q) : StartsNumber ('.' :: q) := by
  obtain ⟨c, q, rfl, h⟩ := h
  rw [← isNumberStart_iff]; simp [isNumberStart, (isDigit_iff c).mpr h]

theorem startsNumber_sign {c : Char} {q : List Char} (hc : c = '+' ∨ c = '-') (h : StartsNumber (c :: q)) : StartsNumber q := by
  rw [← isNumberStart_iff] at h
  have hd : isDigit c = false := by rcases hc with rfl | rfl <;> decide
  have hd2 : (c == '.') = false := by rcases hc with rfl | rfl <;> decide
  simp only [isNumberStart, peekNth_cons_zero, hd, hd2, Bool.false_or, Bool.false_and, Bool.or_false, Bool.and_eq_true, peekNth_cons_succ] at h
  match q, h with
  | [], h => exact absurd h.2 (by decide)
  | [d], h =>
    simp at h
    rcases h.2 with h | h
    · exact startsNumber_digit ((isDigit_iff d).mp h)
    · exact absurd h.2 (by decide)
  | d :: d' :: q, h =>
    simp at h
    rcases h.2 with h | h
    · exact startsNumber_digit ((isDigit_iff d).mp h)
    · rw [h.1]
      exact startsNumber_dot (by simpa using (isDigit_iff d').mp h.2)

theorem Swap.dash (s : Swap f a b x z v) {cs : List Char} (h : x ++ z = '-' :: cs) (ha : a = Token.DASH) : scanToken f (x ++ v) = .ok (a, v) := by
  refine s.delim h (by subst ha; rfl) ?_
  obtain ⟨n1, n2, n3, n4⟩ := needs_delim (c := '-') (by rw [ha]; rfl) (by rw [ha]; rfl) (by simp) s.needs
  have n4 := n4 (by decide)
  have n5 := s.noDash n1 n2 n3 n4
  have n6 := s.noNumber n4
  have n7 := first_nameStart s.first n1 n2
  rw [scan_dash, if_neg, if_neg, if_neg, ha]
  · intro hh
    exact n6 (startsNumber_sign (Or.inr rfl) ((isNumberStart_iff _).mp hh))
  · intro hh
    rcases (isIdentStartSequence_iff ('-' :: v)).mp hh with hh | ⟨r, hr, _⟩ | ⟨r, hr, hh⟩
    · simp at hh; exact dash_not_nameStart hh
    · simp at hr
    · simp at hr; subst hr
      rcases hh with ⟨c, q, rfl, rfl | hc⟩ | hh
      · exact n5 (by simp)
      · exact n7 (Or.inl (by simpa using hc))
      · exact n7 (Or.inr (Or.inl hh))
  · intro hh
    obtain ⟨q, hq⟩ := (peek_cdc v).mp hh
    simp at hq
    exact n5 (by rw [← hq]; simp)

theorem Swap.pound (s : Swap f a b x z v) {cs : List Char} (h : x ++ z = '#' :: cs) (ha : a = Token.HASH) : scanToken f (x ++ v) = .ok (a, v) := by
  refine s.delim h (by subst ha; rfl) ?_
  obtain ⟨n1, n2, n3, n4⟩ := needs_delim (c := '#') (by rw [ha]; rfl) (by rw [ha]; rfl) (by simp) s.needs
  have n4 := n4 (by decide)
  have n5 := s.noDash n1 n2 n3 n4
  have n6 := s.noNumber n4
  have n7 := first_nameStart s.first n1 n2
  rw [scan_hash, if_neg, ha]
  rw [hash_cond]
  rintro (⟨c, q, rfl, hc⟩ | hh)
  · rcases hc with hc | hc | rfl
    · exact n7 (Or.inl (by simpa using hc))
    · exact n6 (startsNumber_digit hc)
    · exact n5 (by simp)
  · exact n7 (Or.inr (Or.inl hh))

theorem Swap.atSign (s : Swap f a b x z v) {cs : List Char} (h : x ++ z = '@' :: cs) (ha : a = Token.AT) : scanToken f (x ++ v) = .ok (a, v) := by
  refine s.delim h (by subst ha; rfl) ?_
  obtain ⟨n1, n2, _⟩ := needs_delim (c := '@') (by rw [ha]; rfl) (by rw [ha]; rfl) (by simp) s.needs
  have n7 := first_nameStart s.first n1 n2
  rw [scan_at, if_neg (fun hh => n7 ((isIdentStartSequence_iff v).mp hh)), ha]

theorem Swap.dotplus (s : Swap f a b x z v) {c : Char} {cs : List Char} (h : x ++ z = c :: cs) (hc : c = '.' ∨ c = '+') (ha : a = Token.newDelim c) :
    scanToken f (x ++ v) = .ok (a, v) := by
  refine s.delim h (by subst ha; rcases hc with rfl | rfl <;> rfl) ?_
  have n4 : ¬ (b.kind = .number ∨ b.kind = .dimension) := by
    have hn := s.needs
    unfold Token.needsSeparatorFor at hn
    rcases hc with rfl | rfl
    · rw [ha, show (Token.newDelim '.').kind = .delim from rfl, show (Token.newDelim '.').char = some '.' from rfl] at hn
      rintro (h | h) <;> simp [h] at hn
    · rw [ha, show (Token.newDelim '+').kind = .delim from rfl, show (Token.newDelim '+').char = some '+' from rfl] at hn
      rintro (h | h) <;> simp [h] at hn
  have n6 := s.noNumber n4
  rw [scan_dotplus hc, if_neg, ha]
  intro hh
  rcases hc with rfl | rfl
  · match v, n6, hh with
    | [], _, hh => simp [isNumberStart] at hh; exact absurd hh (by decide)
    | d :: v, n6, hh =>
      have hd1 : isDigit '.' = false := by decide
      have hd2 : isSign '.' = false := by decide
      simp [isNumberStart, hd1, hd2] at hh
      exact n6 (startsNumber_digit ((isDigit_iff d).mp hh))
  · exact n6 (startsNumber_sign (Or.inl rfl) ((isNumberStart_iff _).mp hh))

theorem Swap.lt (s : Swap f a b x z v) {cs : List Char} (h : x ++ z = '<' :: cs) (ha : a = Token.LESS_THAN) : scanToken f (x ++ v) = .ok (a, v) := by
  obtain ⟨hx, _⟩ := s.one h (by subst ha; rfl)
  refine s.delim h (by subst ha; rfl) ?_
  rw [scan_lt, if_neg, ha]
  intro hh
  refine s.merges (.cdo hx ?_)
  match v, hh with
  | [], h => simp [EOFc] at h
  | [_], h => simp [EOFc] at h
  | [_, _], h => simp [EOFc] at h
  | p :: q :: d :: r, hc =>
    simp at hc
    obtain ⟨⟨rfl, rfl⟩, rfl⟩ := hc
    exact ⟨r, rfl⟩

theorem Swap.backslash (s : Swap f a b x z v) {cs : List Char} (h : x ++ z = '\\' :: cs) (ha : a = Token.BACKSLASH) : scanToken f (x ++ v) = .ok (a, v) := by
  obtain ⟨hx, _⟩ := s.one h (by subst ha; rfl)
  refine s.delim h (by subst ha; rfl) ?_
  rw [scan_backslash, if_neg, ha]
  intro hh
  obtain ⟨q, hq, hq2⟩ := (isEscapeSequence_iff '\\' v).mp hh
  simp at hq
  exact s.merges (.backslash hx (by rw [hq]; exact hq2))

theorem first_slash (h : FirstToken f ('/' :: v) b) : b.kind = .comment ∨ b = Token.SLASH := by
  obtain ⟨r, h1, _⟩ := first_scan h (by simp)
  rw [scan_slash] at h1
  split at h1
  · left; injection h1 with h1; injection h1 with h1 _; rw [← h1, newComment_eq]; simp
  · split at h1
    · left; injection h1 with h1; injection h1 with h1 _; rw [← h1, newComment_eq]; simp
    · right; injection h1 with h1; injection h1 with h1 _; exact h1.symm

theorem Swap.slash (s : Swap f a b x z v) {cs : List Char} (h : x ++ z = '/' :: cs) (ha : a = Token.SLASH) : scanToken f (x ++ v) = .ok (a, v) := by
  obtain ⟨hx, _⟩ := s.one h (by subst ha; rfl)
  refine s.delim h (by subst ha; rfl) ?_
  have hn := s.needs
  unfold Token.needsSeparatorFor at hn
  rw [ha, show Token.SLASH.kind = .delim from rfl, show Token.SLASH.char = some '/' from rfl] at hn
  rw [scan_slash, if_neg, if_neg, ha]
  · intro hh
    simp only [Bool.and_eq_true] at hh
    obtain ⟨c, q, rfl, rfl⟩ := (peek_starts_eq (by decide) v).mp hh.1
    rcases first_slash s.first with hb | hb
    · exact s.merges (.slashes hh.2 hx hb)
    · rw [hb, show Token.SLASH.char = some '/' from rfl] at hn; simp at hn
  · intro hh
    obtain ⟨c, q, rfl, rfl⟩ := (peek_starts_eq (by decide) v).mp hh
    rw [first_single s.first (by decide), show (singleCharToken '*'.toNat).char = some '*' by decide] at hn
    simp at hn

theorem Swap.other (s : Swap f a b x z v) {c : Char} {cs : List Char} (h : x ++ z = c :: cs) (h1 : c.toNat ∉ singles) (h2 : c ∉ special)
    (h3 : ¬ Digit c) (h4 : ¬ NameStart c) (ha : a = Token.newDelim c) : scanToken f (x ++ v) = .ok (a, v) := by
  refine s.delim h (by subst ha; rw [(C17_delim c).2.1]) ?_
  rw [scan_other h1 h2 h3 (fun h => h4 h.2), if_neg (fun h => h4 ((isIdentStart_iff c).mp h)), ha]

theorem Swap.cdc (s : Swap f a b x z v) {cs : List Char} (h : x ++ z = '-' :: '-' :: '>' :: cs) (ha : a = Token.CDC) : scanToken f (x ++ v) = .ok (a, v) := by
  obtain ⟨rfl, rfl⟩ := s.whole (y := ['-', '-', '>']) (r := cs) h (by subst ha; rfl)
  simp only [List.cons_append, List.nil_append]
  rw [scan_dash, if_pos (by rfl), ha]; rfl

theorem Swap.cdo (s : Swap f a b x z v) {cs : List Char} (h : x ++ z = '<' :: '!' :: '-' :: '-' :: cs) (ha : a = Token.CDO) :
    scanToken f (x ++ v) = .ok (a, v) := by
  obtain ⟨rfl, rfl⟩ := s.whole (y := ['<', '!', '-', '-']) (r := cs) h (by subst ha; rfl)
  simp only [List.cons_append, List.nil_append]
  rw [scan_lt, if_pos (by rfl), ha]; rfl


/-! Comments -/

theorem Swap.block (s : Swap f a b x z v) {cs : List Char} (h : x ++ z = '/' :: '*' :: cs)
    (ha : a = Token.newComment (blockCommentStyle cs) (w32 (blockCommentLoop 2 cs).1)) : scanToken f (x ++ v) = .ok (a, v) := by
  have hb := s.bound
  rw [← utf8Len_append, h] at hb
  have h1 : '/'.utf8Size = 1 := rfl
  have h2 : '*'.utf8Size = 1 := rfl
  simp [h1, h2] at hb
  rcases exists_close cs with hcl | ⟨body, rest, rfl, hcl⟩
  · rw [blockCommentLoop_open hcl] at ha
    obtain ⟨hx, rfl⟩ := s.whole (y := '/' :: '*' :: cs) (r := []) (by rw [h]; simp) (by
      rw [ha, newComment_eq, len_word _ _ _ _ _ _ (by decide), w32_toNat (by omega)]
      simp [h1, h2]; omega)
    exact absurd (Merges.openComment ⟨cs, hx.symm, hcl⟩) s.merges
  · rw [blockCommentLoop_eq hcl] at ha
    simp [h1, h2] at hb
    obtain ⟨rfl, rfl⟩ := s.whole (y := '/' :: '*' :: (body ++ ['*', '/'])) (r := rest) (by rw [h]; simp) (by
      rw [ha, newComment_eq, len_word _ _ _ _ _ _ (by decide), w32_toNat (by omega)]
      simp [h1, h2]; omega)
    rw [List.cons_append, scan_slash, if_pos (by rfl), List.cons_append, List.tail_cons, blockCommentLoop_eq (firstClose_swap hcl v),
      blockCommentStyle_swap body v rest, ha]

theorem Swap.line (s : Swap f a b x z v) {cs : List Char} (hf : f.singleLineComments = true) (h : x ++ z = '/' :: '/' :: cs)
    (ha : a = Token.newComment (lineCommentStyle cs) (w32 (lineCommentLoop 2 cs).1)) : scanToken f (x ++ v) = .ok (a, v) := by
  have hb := s.bound
  rw [← utf8Len_append, h] at hb
  have h1 : '/'.utf8Size = 1 := rfl
  simp [h1] at hb
  have hasc := s.tz.comments hf
  rw [h] at hasc
  obtain ⟨body, rest, rfl, hbody, hrest⟩ : ∃ body rest, cs = body ++ rest ∧ (∀ c ∈ body, ¬ Newline c ∧ c ≠ NUL)
      ∧ (rest = [] ∨ Starts (fun c => Newline c ∨ c = NUL) rest) := by
    obtain ⟨body, rest, e, b1, b2⟩ := exists_run (fun c => !(isNewline c || c == NUL)) cs
    refine ⟨body, rest, e, ?_, ?_⟩
    · intro c hc; have := b1 c hc; rw [← isNewline_iff]; simpa using this
    · cases rest with
      | nil => exact Or.inl rfl
      | cons d ds =>
        right
        simp only [starts_cons] at b2 ⊢
        rw [← isNewline_iff]
        simp at b2; cases hnl : isNewline d <;> simp_all
  have hasc := hasc [] body rest (by simp) (fun c hc => (hbody c hc).1)
  have hbl : utf8Len body = body.length := utf8Len_of_ascii (fun c hc => by simpa [isAscii] using hasc c hc)
  rw [lineCommentLoop_eq hbody hrest] at ha
  simp at hb
  obtain ⟨rfl, rfl⟩ := s.whole (y := '/' :: '/' :: body) (r := rest) (by rw [h]; simp) (by
    rw [ha, newComment_eq, len_word _ _ _ _ _ _ (by decide), w32_toNat (by omega)]
    simp [h1]; omega)
  have hv : v = [] ∨ Starts (fun c => Newline c ∨ c = NUL) v := by
    apply Classical.byContradiction
    intro hc
    exact s.merges (.lineComment hf ⟨body, rfl⟩ (fun h => hc (Or.inl h)) (fun h => hc (Or.inr h)))
  rw [List.cons_append, scan_slash, if_neg (by simp), if_pos (by simp [hf]), List.cons_append, List.tail_cons, lineCommentLoop_eq hbody hv, ha]
  have key : ∀ r : List Char, (r = [] ∨ Starts (fun c => Newline c ∨ c = NUL) r) → lineCommentStyle r = .single := by
    rintro r (rfl | ⟨c, q, rfl, hc⟩)
    · rfl
    · rcases hc with (rfl | rfl | rfl) | rfl <;> rfl
  cases body with
  | nil => rw [List.nil_append, List.nil_append, key _ hv, key _ hrest]
  | cons c body => rfl

/-! Numbers -/

theorem startsName_first {q : List Char} (h : StartsName q) : ∃ c r, q = c :: r ∧ ¬ Digit c ∧ c ≠ '.' ∧ c ≠ '%' ∧ c ≠ '+' := by
  rcases h with ⟨c, r, rfl, h⟩ | ⟨r', rfl, _⟩ | ⟨r', rfl, _⟩
  · refine ⟨c, r, rfl, fun hd => digit_not_nameStart hd h, ?_, ?_, ?_⟩ <;>
    · rintro rfl; rw [← isIdentStart_iff] at h; revert h; decide
  · exact ⟨_, _, rfl, by rw [← isDigit_iff]; decide, by decide, by decide, by decide⟩
  · exact ⟨_, _, rfl, by rw [← isDigit_iff]; decide, by decide, by decide, by decide⟩

/-- If a name is no exponent, it is no exponent with another text after it (`1e` and `+3` excepted). -/
theorem expStarts_swap {us : List NameUnit} {z v : List Char} (hz : ¬ ExpStarts (nameText us ++ z)) (hv : NameEnds v)
    (hx : ∀ c, nameText us = [c] → c = 'e' ∨ c = 'E' → ¬ Starts (· = '+') v) (hne : nameText us ≠ []) : ¬ ExpStarts (nameText us ++ v) := by
  rintro ⟨c, sg, q, hq, hc, hsg, d, q', rfl, hd⟩
  have nd : ∀ w, v ≠ d :: w := by
    rintro w rfl
    exact hv.1 (by simp [NameChar, hd])
  have nm : ∀ w, v ≠ '-' :: w := by
    rintro w rfl
    exact hv.1 (by simp [NameChar])
  match h : nameText us, hne with
  | [c1], _ =>
    rw [h] at hq
    simp at hq
    obtain ⟨rfl, hq⟩ := hq
    cases hsg with
    | none => exact nd _ hq
    | plus => exact hx _ h hc (by rw [hq]; simp)
    | minus => exact nm _ hq
  | [c1, c2], _ =>
    rw [h] at hq hz
    simp at hq
    obtain ⟨rfl, hq⟩ := hq
    cases hsg with
    | none =>
      simp at hq
      exact hz ⟨c1, [], c2 :: z, by simp, hc, .none, by simp [hq.1, hd]⟩
    | plus => simp at hq; exact nd _ hq.2
    | minus => simp at hq; exact nd _ hq.2
  | c1 :: c2 :: c3 :: t, _ =>
    rw [h] at hq hz
    simp at hq
    obtain ⟨rfl, hq⟩ := hq
    cases hsg with
    | none =>
      simp at hq
      exact hz ⟨c1, [], c2 :: c3 :: (t ++ z), by simp, hc, .none, by simp [hq.1, hd]⟩
    | plus => simp at hq; exact hz ⟨c1, ['+'], c3 :: (t ++ z), by simp [hq.1], hc, .plus, by simp [hq.2.1, hd]⟩
    | minus => simp at hq; exact hz ⟨c1, ['-'], c3 :: (t ++ z), by simp [hq.1], hc, .minus, by simp [hq.2.1, hd]⟩

theorem consumeUnit_node (cs : List Char) (h : (consumeUnit cs).1 ≠ .unknown) :
    ∃ x, cs = x ++ (consumeUnit cs).2.2 ∧ x.map toAsciiLower ∈ unitNodes ∧ (consumeUnit cs).1 = unitOf (x.map toAsciiLower) := by
  obtain ⟨x, h1, h2, h3, h4, h5, h6⟩ := unitWalk_spec [] .unknown cs
  obtain ⟨us, i1, i2, i3, i4, i5, i6⟩ := identLoop_spec {} (unitWalk [] .unknown cs).2.2
  have hcu : consumeUnit cs =
      if (identLoop {} (unitWalk [] .unknown cs).2.2).1.len > 0 then
        (.unknown, (unitWalk [] .unknown cs).1.length + (identLoop {} (unitWalk [] .unknown cs).2.2).1.len, (identLoop {} (unitWalk [] .unknown cs).2.2).2)
      else ((unitWalk [] .unknown cs).2.1, (unitWalk [] .unknown cs).1.length, (identLoop {} (unitWalk [] .unknown cs).2.2).2) := rfl
  rw [hcu] at h ⊢
  split at h
  · simp at h
  · rename_i hz
    rw [if_neg hz]
    have hus : us = [] := by
      cases us with
      | nil => rfl
      | cons u us => simp at i6; omega
    subst hus
    simp only [List.nil_append] at h2
    refine ⟨x, ?_, by rw [← h2]; exact h5 (by simp [unitNodes]), by rw [← h2]; exact h4 rfl⟩
    have := i1.split
    simp [nameText] at this
    rw [← this]; exact h1

theorem svTexts_s : ∀ p ∈ svTexts, unitOf p = .s := by decide +kernel

theorem svTexts_head {y : List Char} (h : y.map toAsciiLower ∈ svTexts) : ∃ d t, y = d :: t ∧ (NameChar d ∨ d = NUL) ∧ (d = 's' ∨ d = 'S') := by
  cases y with
  | nil => simp [svTexts] at h
  | cons d t =>
    have hd : toAsciiLower d = 's' := by
      simp only [svTexts, List.map_cons, List.mem_cons, List.cons.injEq, List.not_mem_nil, or_false] at h
      rcases h with h | h | h | h <;> exact h.1
    have := lower_inv (d := 's') (by decide) hd
    have hd' : d = 's' ∨ d = 'S' := this
    refine ⟨d, t, rfl, Or.inl (Or.inl ?_), hd'⟩
    rw [← isIdentStart_iff]
    rcases hd' with rfl | rfl <;> decide

theorem consumeUnit_s {d : Char} (hd : d = 's' ∨ d = 'S') (hv : NameEnds v) (ha : EscAscii v) : consumeUnit (d :: v) = (.s, 1, v) := by
  have h1 : unitStep [] d = some ['s'] := by rcases hd with rfl | rfl <;> decide +kernel
  have h2 : unitUpdate ['s'] .unknown = .s := by decide +kernel
  have hw : unitWalk [] .unknown (d :: v) = (['s'], .s, v) := by
    rw [unitWalk, h1]
    simp only [h2]
    exact unitWalk_stop hv
  obtain ⟨nl, d, e, g, _⟩ := identSeq_name (us := []) (rest := v) ⟨trivial, hv⟩ ha
  unfold consumeUnit
  rw [hw]
  rw [show nameText [] ++ v = v from rfl] at g
  simp only [g]
  simp [nameText]

theorem unitAssign_percent : ∀ e ∈ unitAssign, e.2 ≠ .percent := by decide +kernel

theorem consumeUnit_ne_percent (cs : List Char) : (consumeUnit cs).1 ≠ .percent := by
  have hw : ∀ (p : List Char) (u : DimensionUnit) (cs : List Char), u ≠ .percent → (unitWalk p u cs).2.1 ≠ .percent := by
    intro p u cs
    fun_induction unitWalk p u cs with
    | case1 => exact id
    | case2 => exact id
    | case3 p u c cs p' h ih =>
      intro hu
      refine ih ?_
      unfold unitUpdate
      cases hf : unitAssign.find? (fun e => e.1 == p') with
      | none => simpa using hu
      | some e => exact unitAssign_percent e (List.mem_of_find?_eq_some hf)
  unfold consumeUnit
  simp only
  split
  · simp
  · exact hw _ _ _ (by decide)

theorem Swap.numeric (s : Swap f a b x z v) {r : List Char} (hs : StartsNumber (x ++ z)) (ha : consumeNumeric (x ++ z) = (a, r)) :
    scanToken f (x ++ v) = .ok (a, v) := by
  obtain ⟨num, rest, e, hlong⟩ := C12_total hs
  obtain ⟨fl, sg, hdet⟩ := consumeNumeric_det num
  obtain ⟨d1, d2, d3⟩ := hdet rest hlong
  obtain ⟨sn, i, fr, ex, hp, hnum⟩ := hlong.1
  obtain ⟨hlen, hne⟩ := number_len hp
  rw [← hnum] at hlen hne
  have hlim := s.tz.limits
  have az := s.tz.escapes
  have av := s.tv.escapes
  have hb := s.bound
  rw [← utf8Len_append] at hb
  rw [e] at ha hlim az hb
  simp only [utf8Len_append] at hb
  -- it is enough that the number still ends where it did
  have fin : ∀ {r' : List Char}, LongestNumber (num ++ r') num → ∀ {t q}, consumeNumeric (num ++ r') = (t, q) → scanToken f (num ++ r') = .ok (t, q) := by
    intro r' hl t q hc
    rw [scan_startsNumber ⟨num, hl.1, hl.2.1⟩, hc]
  by_cases hpc : Starts (· = '%') rest
  · obtain ⟨c, rest, rfl, rfl⟩ := hpc
    rw [d1 rest rfl] at ha
    injection ha with ha h2
    have hd := hlim.dimension [] num ('%' :: rest) rfl hlong (by simp)
    have hk := C17_dimension_known fl sg (w32 num.length) 1#32 (F32.parse num) .percent (by decide)
      (by rw [w32_toNat (by omega)]; exact hd)
    obtain ⟨rfl, rfl⟩ := s.whole (y := num ++ ['%']) (r := rest) (by rw [e]; simp) (by
      rw [← ha, hk.2.1, BitVec.toNat_add, w32_toNat (show num.length < 2 ^ 32 by omega)]
      simp [hlen, show '%'.utf8Size = 1 by decide, DimensionUnit.len]; omega)
    have hl : LongestNumber (num ++ '%' :: v) num := by
      rw [hnum]
      refine longest_of_ends hp ⟨?_, by simp, ?_⟩
      · rw [starts_cons, ← isDigit_iff]; decide
      · rintro _ ⟨e, s, q, hq, he, _⟩
        simp at hq
        rcases he with rfl | rfl <;> simp at hq
    rw [List.append_assoc]
    exact fin hl (by rw [(hdet _ hl).1 v rfl, ha])
  by_cases hn : StartsName rest
  · rw [d2 hpc hn] at ha
    obtain ⟨us, u1, u2, u3⟩ := consumeUnit_spec rest
    have u2 := u2 az.suffix
    have hd := hlim.dimension [] num rest rfl hlong (startsName_unitStart hn)
    have hsp := u1.split
    have hu : IsName us (consumeUnit rest).2.2 := ⟨u1.valid, u1.ends⟩
    have hune : nameText us ≠ [] := nameScan_nonempty u1 (startsName_not_ends hn)
    have hper := consumeUnit_ne_percent rest
    generalize hU : consumeUnit rest = U at *
    obtain ⟨unit, m, r'⟩ := U
    simp only at *
    subst hsp
    injection ha with ha h2
    have hcl : (classOf a = .dimension ∧ num ++ nameText us = x ∧ r' = z) ∨
        (classOf a = .dimension ∧ unit = .s ∧ ∃ d, x = num ++ [d] ∧ (NameChar d ∨ d = NUL) ∧ (d = 's' ∨ d = 'S')) := by
      simp only [utf8Len_append] at hb
      by_cases hk : unit = .unknown
      · subst hk
        have hul := hlim.unit [] num us r' rfl hlong u1.valid
        rw [byteLen_eq] at hul
        have hk := C17_dimension_unknown fl sg (w32 num.length) (w32 m) (F32.parse num)
          (by rw [w32_toNat (by omega)]; exact hd) (by rw [w32_toNat (by omega)]; omega)
        rw [ha] at hk
        refine Or.inl ⟨by simp [classOf, hk.1, hk.2.2.2.2.2.2.2], s.whole (by rw [e]; simp) ?_⟩
        rw [hk.2.1, BitVec.toNat_add, w32_toNat (by omega), w32_toNat (by omega)]
        simp [hlen]; omega
      · have hk0 := hk
        obtain ⟨y, y1, y2, y3, y4, y5⟩ := u3 hk
        have hk := C17_dimension_known fl sg (w32 num.length) (w32 m) (F32.parse num) unit hk
          (by rw [w32_toNat (by omega)]; exact hd)
        rw [ha] at hk
        have hy : utf8Len (y.take unit.len) = unit.len := by
          rw [utf8Len_of_ascii (fun c hc => by simpa [isAscii] using y2 c (List.mem_of_mem_take hc))]
          simp; omega
        have hul : unit.len < 100 := by cases unit <;> decide
        have hcls : classOf a = .dimension := by simp [classOf, hk.1, hk.2.2.2.2.2.2.2, hper]
        have hny : nameText us = y := by rw [y1, nameText_chrs]
        have hcov := s.whole (y := num ++ y.take unit.len) (r := y.drop unit.len ++ r') (by
          rw [e, hny]
          simp only [List.append_assoc]
          rw [← List.append_assoc (y.take _), List.take_append_drop]) (by
          rw [hk.2.1, BitVec.toNat_add, w32_toNat (by omega)]
          simp [hlen, hy]; omega)
        match hdr : y.drop unit.len with
        | [] =>
          rw [hdr] at hcov
          have : y.take unit.len = y := by
            have := List.take_append_drop unit.len y
            rw [hdr] at this; simpa using this
          rw [this] at hcov
          rw [hny]
          exact Or.inl ⟨hcls, hcov.1, by simpa using hcov.2⟩
        | c :: t =>
          right
          have hsv : y.map toAsciiLower ∈ svTexts := by
            apply Classical.byContradiction
            intro hn
            have := (y5 hn).2
            rw [this] at hdr
            simp at hdr
          obtain ⟨w, w1, w2, w3⟩ := consumeUnit_node (nameText us ++ r') (by rw [hU]; exact hk0)
          rw [hU] at w1 w3
          simp only at w1 w3
          have hw : w = y := by rw [← hny]; exact List.append_cancel_right (bs := r') (by rw [w1])
          subst hw
          have hs := svTexts_s _ hsv
          rw [← w3] at hs
          refine ⟨hcls, hs, ?_⟩
          obtain ⟨d, t', ht', hd⟩ := svTexts_head hsv
          refine ⟨d, ?_, hd⟩
          rw [hs] at hcov
          rw [← hcov.1, ht']
          rfl
    rcases hcl with ⟨hk, rfl, rfl⟩ | ⟨hk, rfl, d, rfl, hd⟩
    case inr =>
      have hrow : NameRow (classOf a) := Or.inr (Or.inr (Or.inr hk))
      have hends := nameEnds_of_needs hrow s.first s.needs s.tv.suffix s.merges
      have hv : IsName [.chr d] v := ⟨⟨hd.1, trivial⟩, hends⟩
      have hcu : consumeUnit (d :: v) = (.s, 1, v) := consumeUnit_s hd.2 hends av.suffix
      have hn' : StartsName (d :: v) := by
        left
        rw [starts_cons, ← isIdentStart_iff]
        rcases hd.2 with rfl | rfl <;> decide
      have hl : LongestNumber (num ++ (d :: v)) num := by
        rw [hnum]
        refine longest_of_ends hp ⟨?_, ?_, ?_⟩
        · rw [starts_cons, ← isDigit_iff]; rcases hd.2 with rfl | rfl <;> decide
        · rintro w hw; simp at hw; rcases hd.2 with rfl | rfl <;> simp at hw
        · rintro _ ⟨c, sq, q, hq, he, _⟩
          simp at hq
          rcases hd.2 with rfl | rfl <;> rcases he with rfl | rfl <;> simp at hq
      have hpv : ¬ Starts (· = '%') (d :: v) := by rw [starts_cons]; rcases hd.2 with rfl | rfl <;> decide
      rw [List.append_assoc]
      exact fin hl (by rw [(hdet _ hl).2.1 hpv hn', hcu, ← ha, newDimension_eq, newDimension_eq]; rfl)
    have hrow : NameRow (classOf a) := Or.inr (Or.inr (Or.inr hk))
    have hv := s.name (p := num) rfl hu hrow
    rw [List.append_assoc] at av ⊢
    obtain ⟨u', n', c1, c2⟩ := consumeUnit_swap hu hv az.suffix av.suffix
    rw [hU] at c1
    injection c1 with c1 c1'
    injection c1' with c1' _
    have hn' := startsName_swap hu hv hn
    obtain ⟨c, q, hq, q1, q2, q3, q4⟩ := startsName_first hn'
    have hl : LongestNumber (num ++ (nameText us ++ v)) num := by
      rw [hnum]
      refine longest_of_ends hp ⟨?_, ?_, ?_⟩
      · rw [hq, starts_cons]; exact q1
      · rintro w hw; rw [hq] at hw; simp at hw; exact absurd hw.1 q2
      · rintro rfl
        refine expStarts_swap (noExp_of_longest hp (by rw [← hnum]; exact hlong)) hv.2 ?_ hune
        rintro c hc he hplus
        exact s.merges (.exponent ⟨num, c, hlong.1, by rw [hc], he⟩ hplus)
    have hpv : ¬ Starts (· = '%') (nameText us ++ v) := by rw [hq, starts_cons]; exact q3
    exact fin hl (by rw [(hdet _ hl).2.1 hpv hn', c2, ← c1, ← c1', ← ha])
  · rw [d3 hpc hn] at ha
    injection ha with ha h2
    have hd := hlim.number [] num rest rfl hlong
    have hk := C17_number fl sg (w32 num.length) (F32.parse num) (by rw [w32_toNat (by omega)]; exact hd)
    obtain ⟨rfl, rfl⟩ := s.whole (y := num) (r := rest) e (by rw [← ha, hk.2.1, w32_toNat (by omega), hlen])
    have hk1 : a.kind = .number := by rw [← ha]; exact hk.1
    have hn := s.needs
    unfold Token.needsSeparatorFor at hn
    rw [hk1] at hn
    have n1 : ¬ NameKind b := by rintro (h | h | h | h) <;> simp [h] at hn
    have n2 : b ≠ Token.CDC := by
      rintro rfl
      have : Token.CDC.isCdc = true := by decide
      simp [this] at hn
    have n4 : ¬ (b.kind = .number ∨ b.kind = .dimension) := by rintro (h | h) <;> simp [h] at hn
    have n6 := s.noNumber n4
    have n7 := first_nameStart s.first n1 n2
    have n8 : ¬ Starts (· = '%') v := by
      rintro ⟨c, q, rfl, rfl⟩
      rw [first_single s.first (by decide), show (singleCharToken '%'.toNat).char = some '%' by decide] at hn
      simp at hn
    have hl : LongestNumber (num ++ v) num := by
      rw [hnum]
      refine longest_of_ends hp ⟨?_, ?_, ?_⟩
      · rintro ⟨c, q, rfl, hc⟩; exact n6 (startsNumber_digit hc)
      · rintro q rfl hq; exact n6 (startsNumber_dot hq)
      · rintro _ ⟨c, sq, q, rfl, he, _⟩
        refine n7 (Or.inl ?_)
        rw [starts_cons, ← isIdentStart_iff]
        rcases he with rfl | rfl <;> decide
    exact fin hl (by rw [(hdet _ hl).2.2 n8 n7, ha])


theorem Swap.scan (s : Swap f a b x z v) {r : List Char} (h : ScanCase f (x ++ z) a r) : scanToken f (x ++ v) = .ok (a, v) := by
  generalize hx : x ++ z = cs at h
  cases h with
  | single hc => exact s.single hx hc rfl
  | identLike h1 h2 => subst hx; exact s.identLike h1 h2
  | numeric h1 h2 => subst hx; exact s.numeric h1 h2
  | ws h1 h2 h3 h4 => exact s.wsAny h2 (hx.trans h3) h4 rfl
  | wsSep h1 h2 h3 h4 h5 => exact s.wsSep h1 h3 (hx.trans h4) h5 rfl
  | string h1 h2 => exact s.string hx h1 h2
  | cdc => exact s.cdc hx rfl
  | cdo => exact s.cdo hx rfl
  | hash h1 h2 => exact s.hash hx h1 h2
  | «at» h1 => exact s.at hx h1 rfl
  | block => exact s.block hx rfl
  | line h1 => exact s.line h1 hx rfl
  | dash => exact s.dash hx rfl
  | dotplus h1 => exact s.dotplus hx h1 rfl
  | lt => exact s.lt hx rfl
  | pound => exact s.pound hx rfl
  | atSign => exact s.atSign hx rfl
  | backslash => exact s.backslash hx rfl
  | slash => exact s.slash hx rfl
  | other h1 h2 h3 h4 => exact s.other hx h1 h2 h3 h4 rfl

theorem Spec.swap_scan (hx : x ≠ []) (hlen : a.len.toNat = byteLen x) (ha : FirstToken f (x ++ z) a) (hb : FirstToken f v b) (hn : a.needsSeparatorFor b = false)
    (tz : Tame f (x ++ z)) (tv : Tame f (x ++ v)) (hm : z = v ∨ ¬ Merges f a x z b v) : ∃ r, scanToken f (x ++ v) = .ok (a, r) := by
  obtain ⟨r, h1, hc⟩ := first_scan ha (by simp [hx])
  rcases hm with rfl | hm
  · exact ⟨r, h1⟩
  · have s : Swap f a b x z v := ⟨hx, by rw [hlen, byteLen_eq], hb, hn, tz, tv, hm⟩
    exact ⟨v, s.scan hc⟩

/-- What the next call does, from anywhere in a source. -/
theorem advance_exact {l : Lexer} {x v : List Char} {a : Token} (hl : l.Before (x ++ v)) (hx : x ≠ []) (hlen : a.len.toNat = byteLen x)
    {r : List Char} (h : scanToken l.features (x ++ v) = .ok (a, r)) :
    ∃ l', l.advance = .ok (a, l') ∧ l'.offset = l.offset + byteLen x ∧ l'.features = l.features ∧ l'.source = l.source ∧ l'.Before v := by
  refine ⟨{ l with token := a, offset := l.offset + a.len.toNat }, by rw [advance_before hl, if_neg (by simp [hx]), h]; rfl, by rw [← hlen], rfl, rfl, ?_⟩
  obtain ⟨pre, h1, h2⟩ := hl
  refine ⟨pre ++ x, by simp [h1], ?_⟩
  simp only [byteLen_eq, utf8Len_append] at *
  omega

theorem yields_of_first {l : Lexer} {v : List Char} {b : Token} (hl : l.Before v) (h : FirstToken l.features v b) : l.Yields b := by
  by_cases hv : v = []
  · subst hv
    rw [first_nil h]
    exact ⟨{ l with token := Token.EOF }, by rw [advance_before hl, if_pos rfl], by simp [show Token.EOF.len.toNat = 0 from rfl], rfl, rfl⟩
  · obtain ⟨r, h1, _⟩ := first_scan h hv
    exact yields_of_scan hl hv h1

/-! ## C28 Texts written next to each other are lexed as they were -/

/-- Let `a` be lexed from the text `x` (in front of some `z`), and `b` be the first token of `v`. If `a.needs_separator_for(b)` is false, then `x`
and `v` written next to each other, anywhere in a source, are lexed to exactly the same `a` (covering exactly `x`) and then the same `b`. Missing from
the full C28: the exceptions listed in `Spec.Merges`, each of which has a counterexample below, and texts outside `Tame`. -/
theorem C28_partial {l : Lexer} {x z v : List Char} {a b : Token} (hx : x ≠ []) (ha : FirstToken l.features (x ++ z) a) (hlen : a.len.toNat = byteLen x)
    (hb : FirstToken l.features v b) (hn : a.needsSeparatorFor b = false) (tz : Tame l.features (x ++ z)) (tv : Tame l.features (x ++ v))
    (hm : z = v ∨ ¬ Merges l.features a x z b v) (hl : l.Before (x ++ v)) :
    ∃ l', l.advance = .ok (a, l') ∧ l'.offset = l.offset + byteLen x ∧ l'.Yields b := by
  obtain ⟨r, hs⟩ := swap_scan hx hlen ha hb hn tz tv hm
  obtain ⟨l', h1, h2, h3, _, h4⟩ := advance_exact hl hx hlen hs
  exact ⟨l', h1, h2, yields_of_first h4 (by rw [h3]; exact hb)⟩

theorem needs_space (a : Token) : a.needsSeparatorFor (Token.newWhitespace .space 1#32) = false := by
  have h1 : (Token.newWhitespace .space 1#32).kind = .whitespace := by decide
  have h2 : (Token.newWhitespace .space 1#32).char = none := by decide
  have h3 : (Token.newWhitespace .space 1#32).isCdc = false := by decide
  unfold Token.needsSeparatorFor
  simp only [h1, h2, h3]
  split
  iterate 5 simp
  split <;> simp

theorem needs_eof (a : Token) : a.needsSeparatorFor Token.EOF = false := by
  have h1 : Token.EOF.kind = .eof := by decide
  have h2 : Token.EOF.char = none := by decide
  have h3 : Token.EOF.isCdc = false := by decide
  unfold Token.needsSeparatorFor
  simp only [h1, h2, h3]
  split
  iterate 5 simp
  split <;> simp

theorem char_ws {b : Token} (h : b.kind = .whitespace) : b.char = none ∧ b.isCdc = false := by
  have hk : b.kindBits = b.kind.bits := kindBits_of_kind (by rw [h]; decide)
  rw [h] at hk
  unfold Token.char Token.isCdc Token.isDelimLike
  simp [hk, Kind.bits]

theorem needs_ws {a b : Token} (h : a.needsSeparatorFor b = true) : b.kind ≠ .whitespace := by
  intro hb
  obtain ⟨h1, h2⟩ := char_ws hb
  revert h
  unfold Token.needsSeparatorFor
  simp only [hb, h1, h2]
  split
  iterate 5 simp
  split <;> simp

theorem scan_space (h : ¬ Starts Ws v) : scanToken f (' ' :: v) = .ok (Token.newWhitespace .space 1#32, v) := by
  cases hf : f.separateWhitespace with
  | false =>
    rw [scan_ws (by simp [Ws]) hf, show ' ' :: v = [' '] ++ v from rfl, consumeWhitespace_eq _ (by simp [Ws]) h]
    rfl
  | true =>
    rw [scan_sep (by simp [Ws]) hf, if_neg (by decide), if_pos rfl, show ' ' :: v = [' '] ++ v from rfl,
      consumeSame_eq (by simp) (fun ⟨c, q, e, hc⟩ => h ⟨c, q, e, Or.inl hc⟩)]
    rfl

theorem first_eof (f : Features) : FirstToken f [] Token.EOF :=
  ⟨{ Lexer.newWithFeatures [] f with token := Token.EOF }, by rw [advance_before (before_new [] f), if_pos rfl], rfl, rfl, rfl⟩

theorem join_ne {ps : List Piece} {p : Piece} (h : p.text ≠ []) (needs : Token → Token → Bool) : Piece.join needs (p :: ps) ≠ [] := by
  cases ps with
  | nil => exact h
  | cons q ps => simp [Piece.join, h]

theorem kind_of_lexed {p : Piece} (h : p.Lexed f) : p.token.kind ≠ .eof := by
  obtain ⟨_, _, hc⟩ := first_scan h.first (by simp [h.nonempty])
  exact hc.kindStarts.noEof

/-- A whole text: the texts of any number of lexed tokens, written one after the other with a space exactly where `needs_separator_for` asks for one
(which is what the writer sink writes, C30), are lexed to the same tokens with one whitespace token at each such space. Missing from the full
C28: as for `C28_partial`. -/
theorem C28_whole_partial {l : Lexer} {ps : List Piece} (hp : ∀ p ∈ ps, p.Lexed l.features) (ht : Tame l.features (Piece.join Token.needsSeparatorFor ps))
    (ha : Piece.Apart l.features Token.needsSeparatorFor ps) (hl : l.Before (Piece.join Token.needsSeparatorFor ps)) :
    Returns l (Piece.tokens Token.needsSeparatorFor ps) := by
  have main : ∀ (ps : List Piece) (f : Features), (∀ p ∈ ps, p.Lexed f) → Tame f (Piece.join Token.needsSeparatorFor ps) →
      Piece.Apart f Token.needsSeparatorFor ps → (∀ p qs, ps = p :: qs → FirstToken f (Piece.join Token.needsSeparatorFor ps) p.token) ∧
      ∀ l : Lexer, l.features = f → l.Before (Piece.join Token.needsSeparatorFor ps) → Returns l (Piece.tokens Token.needsSeparatorFor ps) := by
    intro ps
    induction ps with
    | nil =>
      intro f _ _ _
      refine ⟨by simp, fun l hf hl => ?_⟩
      rw [Piece.tokens]
      rw [Piece.join] at hl
      exact .eof (by rw [advance_before hl, if_pos rfl])
    | cons p ps ih =>
      intro f hp ht ha
      have hp0 := hp p (by simp)
      cases ps with
      | nil =>
        simp only [Piece.join, Piece.Apart, Piece.tokens] at *
        obtain ⟨r, hs⟩ := swap_scan hp0.nonempty hp0.len hp0.first (first_eof f) (needs_eof _) hp0.tame (by simpa using ht) ha
        refine ⟨?_, fun l hf hl => ?_⟩
        · rintro q qs h
          injection h with h _
          subst h
          simp only [List.append_nil] at hs
          exact first_of_scan hp0.nonempty hs
        · subst hf
          obtain ⟨l', h1, _, _, _, h2⟩ := advance_exact (v := []) (by simpa using hl) hp0.nonempty hp0.len hs
          exact .cons h1 (kind_of_lexed hp0) (.eof (by rw [advance_before h2, if_pos rfl]))
      | cons q ps =>
        obtain ⟨ha1, ha2⟩ := ha
        have hq0 := hp q (by simp)
        have hqne : Piece.join Token.needsSeparatorFor (q :: ps) ≠ [] := join_ne hq0.nonempty _
        simp only [Piece.join, Piece.tokens] at ht ⊢
        obtain ⟨ih1, ih2⟩ := ih f (fun p' h => hp p' (by simp [h])) (Tame.suffix (by rw [List.append_assoc] at ht; exact ht.suffix)) ha2
        have hfirst := ih1 q ps rfl
        by_cases hn : p.token.needsSeparatorFor q.token = true
        · rw [if_pos hn] at ha1 ht ⊢
          have hnws : ¬ Starts Ws (Piece.join Token.needsSeparatorFor (q :: ps)) := fun h => needs_ws hn (first_ws hfirst h)
          have hsp : scanToken f (' ' :: Piece.join Token.needsSeparatorFor (q :: ps)) = .ok (Token.newWhitespace .space 1#32, _) := scan_space hnws
          obtain ⟨r, hs⟩ := swap_scan hp0.nonempty hp0.len hp0.first (first_of_scan (by simp) hsp) (needs_space _) hp0.tame (by simpa using ht) ha1
          simp only [List.append_assoc, List.cons_append, List.nil_append]
          refine ⟨?_, fun l hf hl => ?_⟩
          · rintro p' qs h
            injection h with h _
            subst h
            exact first_of_scan (by simp) hs
          · subst hf
            obtain ⟨l', h1, _, h2, _, h3⟩ := advance_exact hl hp0.nonempty hp0.len hs
            obtain ⟨l'', h4, _, h5, _, h6⟩ := advance_exact (x := [' ']) (l := l') (a := Token.newWhitespace .space 1#32) h3 (by simp) (by rfl) (by rw [h2]; exact hsp)
            simp only [if_pos hn, List.cons_append, List.nil_append]
            exact .cons h1 (kind_of_lexed hp0) (.cons h4 (by decide) (ih2 l'' (by rw [h5, h2]) h6))
        · rw [if_neg hn] at ha1 ht ⊢
          obtain ⟨r, hs⟩ := swap_scan hp0.nonempty hp0.len hp0.first hfirst (by simpa using hn) hp0.tame (by simpa using ht) ha1
          simp only [List.append_assoc, List.nil_append, if_neg hn]
          refine ⟨?_, fun l hf hl => ?_⟩
          · rintro p' qs h
            injection h with h _
            subst h
            exact first_of_scan (by simp [hqne]) hs
          · subst hf
            obtain ⟨l', h1, _, h2, _, h3⟩ := advance_exact hl hp0.nonempty hp0.len hs
            exact .cons h1 (kind_of_lexed hp0) (ih2 l' h2 h3)
  exact (main ps l.features hp ht ha).2 l rfl hl


/-- The first token of a text, for concrete texts. -/
def firstOf (f : Features) (cs : List Char) : Except Panic Token := (Lexer.newWithFeatures cs f).advance.map (·.1)

/-- `a` is the whole of `x`, no separator is asked for between it and the first token of `v`, and yet the two texts together do not start with `a`. -/
def mergesAt (f : Features) (x z v : List Char) : Bool :=
  match firstOf f (x ++ z), firstOf f v, firstOf f (x ++ v) with
  | .ok a, .ok b, .ok t => a.len.toNat == byteLen x && !a.needsSeparatorFor b && t != a
  | _, _, _ => false

theorem mergesAt_iff {f : Features} {x z v : List Char} (h : mergesAt f x z v = true) :
    ∃ a b t, FirstToken f (x ++ z) a ∧ a.len.toNat = byteLen x ∧ FirstToken f v b ∧ a.needsSeparatorFor b = false ∧ FirstToken f (x ++ v) t ∧ t ≠ a := by
  have key : ∀ {cs t}, firstOf f cs = .ok t → FirstToken f cs t := by
    intro cs t h
    unfold firstOf at h
    cases ha : (Lexer.newWithFeatures cs f).advance with
    | error e => rw [ha] at h; simp [Except.map] at h
    | ok p =>
      rw [ha] at h
      simp only [Except.map, Except.ok.injEq] at h
      by_cases hc : cs = []
      · subst hc
        rw [advance_before (before_new [] f), if_pos rfl] at ha
        injection ha with ha
        rw [← ha] at h
        simp only at h
        rw [← h]; exact first_eof f
      · obtain ⟨r, h1, _⟩ := advance_cases (before_new cs f) hc (show _ = Except.ok (p.1, p.2) from ha)
        rw [← h]
        exact first_of_scan hc h1
  unfold mergesAt at h
  split at h
  · rename_i a b t h1 h2 h3
    simp only [Bool.and_eq_true, beq_iff_eq, Bool.not_eq_true', bne_iff_ne] at h
    exact ⟨a, b, t, key h1, h.1.1, key h2, h.1.2, key h3, h.2⟩
  · simp at h

/-- Each exception is real: `needs_separator_for` asks for nothing, and the texts merge. In order: a name and `-`; a name and `-0`; a dimension and
`-0`; an escape and a space (the space a writer would add is swallowed); a backslash at the end; `--` and `>`; `1e` and `+3`; an open string; a
bad string; an open url; `url(` and `)`; an open comment; whitespace twice; `<` and `!--`; `\`. -/
theorem C28_counterexample :
    (∀ p ∈ [(c!"a", c!" ", c!"-"), (c!"a", c!"", c!"-0"), (c!"1px", c!"", c!"-0"), (c!"\\61", c!"", c!" b"), (c!"a\\", c!"", c!";"), (c!"--", c!"", c!">"), (c!"1e", c!"", c!"+3"),
      (c!"\"a", c!"", c!";"), (c!"\"a", c!"\n", c!";"), (c!"url(a", c!"", c!"b"), (c!"url(", c!"'x'", c!")"), (c!"/* a", c!"", c!"b"), (c!" ", c!"", c!" "),
      (c!"<", c!"", c!"!--"), (c!"\\", c!"\n", c!"a")], mergesAt {} p.1 p.2.1 p.2.2 = true)
    ∧ (∀ p ∈ [(c!"/", c!" ", c!"// a"), (c!"// a", c!"\n", c!"b")], mergesAt { singleLineComments := true } p.1 p.2.1 p.2.2 = true) := by
  decide +kernel


/-- The same for what the writer sink has written: if each cursor is written as the text its token was lexed from (`C30_text_partial` says when), the
string the sink builds is lexed to the cursors' tokens with one whitespace token at each separator. -/
theorem C28_written_partial (fmt : FloatFmt) (src : List Char) (f : Features) (w : List (Cursor × Piece))
    (hw : ∀ e ∈ w, e.1.token = e.2.token ∧ e.1.writes fmt src = .ok [e.2.text] ∧ e.2.Lexed f)
    (ht : Tame f (Piece.join Token.needsSeparatorFor (w.map (·.2)))) (ha : Piece.Apart f Token.needsSeparatorFor (w.map (·.2))) :
    ∃ r, (FmtSink.new []).appendAll fmt stringWriter src (w.map (·.1)) = .ok r ∧ r.err = false
      ∧ Returns (Lexer.newWithFeatures r.writer f) (Piece.tokens Token.needsSeparatorFor (w.map (·.2))) := by
  let text : Cursor → List (List Char) := fun c => match c.writes fmt src with
    | .ok t => t
    | .error _ => []
  have htext : ∀ e ∈ w, text e.1 = [e.2.text] := by
    intro e he
    simp only [text, (hw e he).2.1]
  obtain ⟨r, h1, h2, h3⟩ := C30_infallible fmt src [] text (w.map (·.1)) (by
    intro c hc
    obtain ⟨e, he, rfl⟩ := List.mem_map.mp hc
    rw [htext e he]; exact (hw e he).2.1)
  refine ⟨r, h1, h2, ?_⟩
  have hj : ∀ w : List (Cursor × Piece), (∀ e ∈ w, e.1.token = e.2.token ∧ text e.1 = [e.2.text]) →
      (joined Token.needsSeparatorFor text (w.map (·.1))).flatten = Piece.join Token.needsSeparatorFor (w.map (·.2)) := by
    intro w
    induction w with
    | nil => intro _; simp [joined, Piece.join]
    | cons e w ih =>
      intro h
      have he := h e (by simp)
      cases w with
      | nil => simp [joined, Piece.join, he.2]
      | cons d w =>
        have ih := ih (fun e' he' => h e' (by simp [he']))
        have hd := h d (by simp)
        simp only [List.map_cons] at ih ⊢
        simp only [joined, Piece.join, he.2, he.1, hd.1]
        rw [← ih]
        split <;> simp
  rw [h3, hj w (fun e he => ⟨(hw e he).1, htext e he⟩), List.nil_append]
  refine C28_whole_partial (l := Lexer.newWithFeatures _ f) ?_ ht ha (before_new _ _)
  intro p hp
  obtain ⟨e, he, rfl⟩ := List.mem_map.mp hp
  exact (hw e he).2.2

/-! Concrete cases. -/

/-- `a.b` : an ident and a dot, lexed apart from each other. -/
example : ∃ l', (Lexer.new c!"a.b").advance = .ok (Token.newIdent false false false 1#32, l') ∧ l'.offset = 0 + 1 ∧ l'.Yields (Token.newDelim '.') := by
  refine C28_partial (l := Lexer.new c!"a.b") (x := c!"a") (z := c!" c") (v := c!".b") (by decide) (first_of_scan (r := c!" c") (by decide) (by decide +kernel))
    (by decide) (first_of_scan (r := c!"b") (by decide) (by decide +kernel)) (by decide +kernel) (tame_of_ascii (by decide) (by decide)) (tame_of_ascii (by decide) (by decide))
    (Or.inr ?_) (before_new _ _)
  intro h
  have hk : (Token.newIdent false false false 1#32).kind = .ident := by decide
  have hv : ∀ P : Char → Prop, Starts P c!".b" → P '.' := by rintro P ⟨c, q, h, hc⟩; simp at h; rw [h.1]; exact hc
  cases h with
  | hyphen _ h => revert h; decide
  | minusZero _ h _ => exact absurd (hv _ h) (by decide)
  | hexSpace _ _ h => have := hv _ h; revert this; simp [Ws, Newline]
  | endEscape _ h _ => simp at h
  | arrow h _ => simp at h
  | exponent _ h => exact absurd (hv _ h) (by decide)
  | openString h | badString h | openUrl h | openBadUrl h | urlFunction h | whitespace h => rw [hk] at h; simp at h
  | openComment h => obtain ⟨_, h, _⟩ := h; simp at h
  | lineComment h => simp [Lexer.new, Lexer.newWithFeatures] at h
  | slashes h => simp [Lexer.new, Lexer.newWithFeatures] at h
  | cdo h => simp at h
  | backslash h => simp at h


/-- `a` and `b`, taken from `a b.c`: a separator is needed, written, and lexed to a whitespace token; nothing is needed before the dot. -/
example : Returns (Lexer.new c!"a b.") [Token.newIdent false false false 1#32, Token.newWhitespace .space 1#32, Token.newIdent false false false 1#32,
    Token.newDelim '.', Token.EOF] := by
  have h := C28_whole_partial (l := Lexer.new c!"a b.") (ps := [⟨Token.newIdent false false false 1#32, c!"a", c!" b."⟩,
    ⟨Token.newIdent false false false 1#32, c!"b", c!"."⟩, ⟨Token.newDelim '.', c!".", c!""⟩]) ?_ (tame_of_ascii (by decide +kernel) (by decide +kernel)) ?_
    (by rw [show Piece.join Token.needsSeparatorFor _ = c!"a b." by decide +kernel]; exact before_new _ _)
  · exact h
  · intro p hp
    simp only [List.mem_cons, List.not_mem_nil, or_false] at hp
    rcases hp with rfl | rfl | rfl
    · exact ⟨by decide, first_of_scan (r := c!" b.") (by decide) (by decide +kernel), by decide, tame_of_ascii (by decide) (by decide)⟩
    · exact ⟨by decide, first_of_scan (r := c!".") (by decide) (by decide +kernel), by decide, tame_of_ascii (by decide) (by decide)⟩
    · exact ⟨by decide, first_of_scan (r := c!"") (by decide) (by decide +kernel), by decide, tame_of_ascii (by decide) (by decide)⟩
  · simp only [Piece.Apart]
    rw [if_pos (by decide +kernel), if_neg (by decide +kernel)]
    exact ⟨Or.inl (by decide +kernel), Or.inl (by decide +kernel), Or.inl trivial⟩

end Hdx

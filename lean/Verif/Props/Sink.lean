/-
C29-C31: the separator table and the cursor sinks.
-/
import Verif.Model.Sink
import Verif.Spec.Serialize
import Verif.Props.TokenFacts
import Verif.Props.Lexical4

namespace Hdx
open Spec

/-! ## C29 The separator table -/

theorem char_kind {t : Token} (h : t.Wf) (hc : t.char ≠ none) : t.kind ∈ [Kind.delim, .colon, .semicolon, .comma, .leftSquare,
    .rightSquare, .leftParen, .rightParen, .leftCurly, .rightCurly] := by
  rw [← C18_is_delim_like t h]
  unfold Token.char at hc
  split at hc
  · assumption
  · exact absurd rfl hc

theorem cdc_kind {t : Token} (h : t.Wf) (hc : t.isCdc = true) : t.kind = .cdcOrCdo := ((C18_is_cdc t h).mp hc).1

theorem class_chr {t : Token} (h : t.Wf) (c : Char) : classOf t = .chr c ↔ t.char = some c := by
  have hc := char_kind h
  unfold classOf
  generalize t.char = x at *
  generalize t.kind = k at *
  cases x with
  | none => cases k <;> simp <;> split <;> simp
  | some d =>
    have := hc (by simp)
    simp only [List.mem_cons, List.not_mem_nil, or_false] at this
    rcases this with rfl | rfl | rfl | rfl | rfl | rfl | rfl | rfl | rfl | rfl <;> simp

theorem class_cdc {t : Token} (h : t.Wf) : classOf t = .cdc ↔ t.isCdc = true := by
  have hc := cdc_kind h
  unfold classOf
  generalize t.char = x at *
  generalize t.kind = k at *
  generalize t.isCdc = i at *
  cases i with
  | false => cases k <;> simp <;> (try split) <;> simp
  | true => rw [hc rfl]; simp

theorem class_word (t : Token) : (classOf t = .ident ↔ t.kind = .ident) ∧ (classOf t = .function ↔ t.kind = .function)
    ∧ (classOf t = .url ↔ t.kind = .url) ∧ (classOf t = .badUrl ↔ t.kind = .badUrl) ∧ (classOf t = .number ↔ t.kind = .number)
    ∧ (classOf t = .atKeyword ↔ t.kind = .atKeyword) ∧ (classOf t = .hashTok ↔ t.kind = .hash)
    ∧ (classOf t = .percentage ∨ classOf t = .dimension ↔ t.kind = .dimension) := by
  unfold classOf
  generalize t.char = x
  generalize t.kind = k
  cases k <;> cases x <;> simp <;> split <;> simp_all

theorem needs_second {a b : Token} (hb : b.Wf) : a.needsSeparatorFor b = true ↔
    let name2 := classOf b = .ident ∨ classOf b = .function ∨ classOf b = .url ∨ classOf b = .badUrl
    let number2 := classOf b = .number ∨ classOf b = .percentage ∨ classOf b = .dimension
    let unsigned := ¬ SignedNotNegative b
    let cdc := classOf b = .cdc
    let chr := fun c => classOf b = .chr c
    (a.kind = .ident ∧ (number2 ∧ unsigned ∨ name2 ∨ chr '(' ∨ cdc))
    ∨ ((a.kind = .atKeyword ∨ a.kind = .hash ∨ a.kind = .dimension) ∧ (number2 ∧ unsigned ∨ name2 ∨ cdc))
    ∨ (a.kind = .number ∧ (name2 ∨ number2 ∨ chr '%' ∨ cdc))
    ∨ (a.kind ∉ [Kind.ident, .atKeyword, .hash, .dimension, .number]
      ∧ ((a.char = some '#' ∧ (name2 ∨ number2 ∨ chr '-' ∨ cdc)) ∨ (a.char = some '-' ∧ (name2 ∨ number2 ∨ chr '-' ∨ cdc))
        ∨ (a.char = some '@' ∧ (name2 ∨ chr '-' ∨ cdc)) ∨ (a.char = some '.' ∧ number2) ∨ (a.char = some '+' ∧ number2)
        ∨ (a.char = some '/' ∧ (chr '*' ∨ chr '/')))) := by
  obtain ⟨c1, c2, c3, c4, c5, c6, c7, c8⟩ := class_word b
  simp only [class_chr hb, class_cdc hb, c1, c2, c3, c4, c5, c8]
  unfold Token.needsSeparatorFor SignedNotNegative
  generalize ea : a.char = ac
  generalize b.char = bc
  generalize a.kind = ak
  generalize b.kind = bk
  generalize b.isCdc = cd
  generalize b.hasSign = hs
  generalize Token.f32LtZero b.value = lt
  cases ak <;> simp only [reduceCtorEq, false_and, false_or, or_false, true_and, List.mem_cons, List.not_mem_nil, or_true, true_or, not_true_eq_false, not_false_eq_true, or_self] <;>
    first
    | grind
    | (split <;> simp_all <;> grind)

/-- `needs_separator_for(a, b)` is true for every pair the table marks, except: a non-negative signed number after a name (it starts
with `+`, unless it is `-0`); and - missing from the full C29 - a `-` after a name (`C29_counterexample`). -/
theorem C29_partial {a b : Token} (ha : a.Wf) (hb : b.Wf) (h : Marked (classOf a) (classOf b))
    (h1 : NameRow (classOf a) → ¬ SignedNotNegative b) (h2 : NameRow (classOf a) → classOf b ≠ .chr '-') :
    a.needsSeparatorFor b = true := by
  rw [needs_second hb]
  have hk := char_kind ha
  obtain ⟨c1, c2, c3, c4, c5, c6, c7, c8⟩ := class_word a
  unfold Marked at h
  unfold NameRow at *
  simp only
  generalize classOf b = cb at *
  unfold markedColumns at h
  split at h <;> rename_i hcl
  all_goals (try exact absurd h (List.not_mem_nil))
  all_goals simp only [List.mem_cons, List.not_mem_nil, or_false] at h
  all_goals first
    | (have hcl' := (class_chr ha _).mp hcl
       have hk := hk (by rw [hcl']; simp)
       simp only [hcl, reduceCtorEq, false_or, or_false, or_true, true_or, true_iff, forall_const, false_iff, false_implies] at h1 h2 c1 c2 c3 c4 c5 c6 c7 c8
       grind)
    | (simp only [hcl, reduceCtorEq, false_or, or_false, or_true, true_or, true_iff, forall_const, false_iff, false_implies] at h1 h2 c1 c2 c3 c4 c5 c6 c7 c8
       grind)

/-- Conversely, it is true only for pairs the table marks, for two slashes, and for percentages, which it treats as dimensions. -/
theorem C29_only {a b : Token} (ha : a.Wf) (hb : b.Wf) (h : a.needsSeparatorFor b = true) :
    Marked (classOf a) (classOf b) ∨ (a.char = some '/' ∧ b.char = some '/')
      ∨ (classOf a = .percentage ∧ Marked .dimension (classOf b)) := by
  rw [needs_second hb] at h
  obtain ⟨c1, c2, c3, c4, c5, c6, c7, c8⟩ := class_word a
  simp only at h
  rw [← class_chr hb]
  unfold Marked
  generalize classOf b = cb at *
  rcases h with ⟨hk, h⟩ | ⟨hk, h⟩ | ⟨hk, h⟩ | ⟨_, h⟩
  · rw [c1.mpr hk]; left; simp only [markedColumns, List.mem_cons, List.not_mem_nil, or_false]; grind
  · rcases hk with hk | hk | hk
    · rw [c6.mpr hk]; left; simp only [markedColumns, List.mem_cons, List.not_mem_nil, or_false]; grind
    · rw [c7.mpr hk]; left; simp only [markedColumns, List.mem_cons, List.not_mem_nil, or_false]; grind
    · rcases c8.mpr hk with hp | hp
      · right; right; refine ⟨hp, ?_⟩; simp only [markedColumns, List.mem_cons, List.not_mem_nil, or_false]; grind
      · rw [hp]; left; simp only [markedColumns, List.mem_cons, List.not_mem_nil, or_false]; grind
  · rw [c5.mpr hk]; left; simp only [markedColumns, List.mem_cons, List.not_mem_nil, or_false]; grind
  · rcases h with ⟨hk, h⟩ | ⟨hk, h⟩ | ⟨hk, h⟩ | ⟨hk, h⟩ | ⟨hk, h⟩ | ⟨hk, h⟩
    all_goals rw [(class_chr ha _).mpr hk]
    all_goals simp only [markedColumns, List.mem_cons, List.not_mem_nil, or_false]
    all_goals grind

/-- What is missing from the full C29: the table separates a name from `-`, the code does not, although `a` and `-` then merge into one
identifier; the same for `-0`, whose sign the comparison `value() < 0.0` misses. -/
theorem C29_counterexample :
    (∃ a b, (Lexer.new c!"a ").advance.map (·.1) = .ok a ∧ (Lexer.new c!"- ").advance.map (·.1) = .ok b
      ∧ Marked (classOf a) (classOf b) ∧ a.needsSeparatorFor b = false)
    ∧ (∃ a b, (Lexer.new c!"a ").advance.map (·.1) = .ok a ∧ (Lexer.new c!"-0 ").advance.map (·.1) = .ok b
      ∧ Marked (classOf a) (classOf b) ∧ a.needsSeparatorFor b = false)
    ∧ (Lexer.new c!"a- ").advance.map (·.1.len.toNat) = .ok 2 ∧ (Lexer.new c!"a-0 ").advance.map (·.1.len.toNat) = .ok 3 := by
  refine ⟨⟨Token.newIdent false false false 1#32, ⟨0x30000000#32, 0x2d#32⟩, ?_⟩, ⟨Token.newIdent false false false 1#32,
    Token.newNumber false true 2#32 0x80000000#32, ?_⟩, ?_⟩
  · unfold Marked; decide +kernel
  · unfold Marked; decide +kernel
  · decide +kernel

example : (Token.newIdent false false false 1#32).Wf ∧ (Token.newNumber false true 2#32 0xbf800000#32).Wf
    ∧ Marked (classOf (Token.newIdent false false false 1#32)) (classOf (Token.newNumber false true 2#32 0xbf800000#32))
    ∧ (Token.newIdent false false false 1#32).needsSeparatorFor (Token.newNumber false true 2#32 0xbf800000#32) = true := by
  unfold Token.Wf Marked; decide +kernel

/-! ## C30 The formatting sink -/

theorem writeAll_append {σ : Type} (w : Writer σ) (s : σ) (xs ys : List (List Char)) :
    w.writeAll s (xs ++ ys) = if (w.writeAll s xs).2 then w.writeAll (w.writeAll s xs).1 ys else w.writeAll s xs := by
  induction xs generalizing s with
  | nil => simp [Writer.writeAll]
  | cons x xs ih =>
    simp only [List.cons_append, Writer.writeAll]
    by_cases h : (w.write s x).2 = true
    · simp only [h, if_true]; exact ih _
    · simp [h]

theorem append_err {σ : Type} (fmt : FloatFmt) (w : Writer σ) (src : List Char) (s : FmtSink σ) (h : s.err = true) (cs : List Cursor) :
    s.appendAll fmt w src cs = .ok s := by
  induction cs with
  | nil => rfl
  | cons c cs ih => simp [FmtSink.appendAll, FmtSink.append, h, ih]

/-- The strings written by the rest of the cursors when the last token was `a`. -/
def joinedAfter (text : Cursor → List (List Char)) (a : Token) : List Cursor → List (List Char)
  | [] => []
  | d :: cs => (if a.needsSeparatorFor d.token then [[' ']] else []) ++ text d ++ joinedAfter text d.token cs

theorem joined_cons (text : Cursor → List (List Char)) (c : Cursor) (cs : List Cursor) :
    joined Token.needsSeparatorFor text (c :: cs) = text c ++ joinedAfter text c.token cs := by
  induction cs generalizing c with
  | nil => simp [joined, joinedAfter]
  | cons d cs ih => rw [joined, ih]; simp [joinedAfter]

theorem appendAll_after {σ : Type} (fmt : FloatFmt) (w : Writer σ) (src : List Char) (text : Cursor → List (List Char)) (cs : List Cursor)
    (ht : ∀ c ∈ cs, c.writes fmt src = .ok (text c)) (s : σ) (a : Token) :
    ∃ r, (FmtSink.mk s (some a) false).appendAll fmt w src cs = .ok r
      ∧ r.writer = (w.writeAll s (joinedAfter text a cs)).1 ∧ r.err = !(w.writeAll s (joinedAfter text a cs)).2 := by
  induction cs generalizing s a with
  | nil => exact ⟨_, rfl, rfl, rfl⟩
  | cons c cs ih =>
    have hc := ht c (by simp)
    have ih := fun s a => ih (fun c h => ht c (by simp [h])) s a
    simp only [FmtSink.appendAll, FmtSink.append, joinedAfter, hc, Bool.false_eq_true, if_false]
    rw [List.append_assoc, writeAll_append]
    by_cases hn : a.needsSeparatorFor c.token = true
    · simp only [hn, if_true, Writer.writeAll]
      by_cases h1 : (w.write s [' ']).2 = true
      · simp only [h1, if_true, Bool.not_true, Bool.false_eq_true, if_false]
        rw [writeAll_append]
        by_cases h2 : (w.writeAll (w.write s [' ']).1 (text c)).2 = true
        · simp only [h2, if_true, Bool.not_true]; exact ih _ _
        · simp only [h2, Bool.false_eq_true, if_false]
          simp only [Bool.not_eq_true] at h2
          simp only [h2, Bool.not_false]
          rw [append_err _ _ _ _ rfl]
          exact ⟨_, rfl, rfl, rfl⟩
      · simp only [Bool.not_eq_true] at h1
        simp only [h1, Bool.not_false, if_true, Bool.false_eq_true, if_false]
        rw [append_err _ _ _ _ rfl]
        exact ⟨_, rfl, rfl, rfl⟩
    · simp only [hn, Bool.false_eq_true, if_false, Writer.writeAll, if_true, Bool.not_true]
      rw [writeAll_append]
      by_cases h2 : (w.writeAll s (text c)).2 = true
      · simp only [h2, if_true, Bool.not_true]; exact ih _ _
      · simp only [Bool.not_eq_true] at h2
        simp only [h2, Bool.false_eq_true, if_false, Bool.not_false]
        rw [append_err _ _ _ _ rfl]
        exact ⟨_, rfl, rfl, rfl⟩

theorem appendAll_new {σ : Type} (fmt : FloatFmt) (w : Writer σ) (src : List Char) (text : Cursor → List (List Char)) (cs : List Cursor)
    (ht : ∀ c ∈ cs, c.writes fmt src = .ok (text c)) (s : σ) :
    ∃ r, (FmtSink.new s).appendAll fmt w src cs = .ok r
      ∧ r.writer = (w.writeAll s (joined Token.needsSeparatorFor text cs)).1
      ∧ r.err = !(w.writeAll s (joined Token.needsSeparatorFor text cs)).2 := by
  cases cs with
  | nil => exact ⟨_, rfl, rfl, rfl⟩
  | cons c cs =>
    rw [joined_cons, writeAll_append]
    simp only [FmtSink.appendAll, FmtSink.append, FmtSink.new, ht c (by simp), Bool.false_eq_true, if_false, Bool.not_true]
    by_cases h2 : (w.writeAll s (text c)).2 = true
    · simp only [h2, if_true, Bool.not_true]
      exact appendAll_after fmt w src text cs (fun c h => ht c (by simp [h])) _ _
    · simp only [Bool.not_eq_true] at h2
      simp only [h2, Bool.false_eq_true, if_false, Bool.not_false]
      rw [append_err _ _ _ _ rfl]
      exact ⟨_, rfl, rfl, rfl⟩

/-- A writer that never fails, such as `String`. -/
def stringWriter : Writer (List Char) := ⟨fun s x => (s ++ x, true)⟩

/-- A writer that records every attempted write and fails or not depending on everything attempted so far. -/
def recordingWriter (ok : List (List Char) → Bool) : Writer (List (List Char)) := ⟨fun s x => (s ++ [x], ok (s ++ [x]))⟩

theorem string_writeAll (s : List Char) (xs : List (List Char)) : stringWriter.writeAll s xs = (s ++ xs.flatten, true) := by
  induction xs generalizing s with
  | nil => simp [Writer.writeAll]
  | cons x xs ih => simp only [Writer.writeAll, stringWriter]; have := ih (s ++ x); simp only [stringWriter] at this; simp [this]

theorem recording_writeAll (ok : List (List Char) → Bool) (s xs : List (List Char)) :
    ∃ a b, xs = a ++ b ∧ ((recordingWriter ok).writeAll s xs).1 = s ++ a
      ∧ (((recordingWriter ok).writeAll s xs).2 = true → b = [])
      ∧ (((recordingWriter ok).writeAll s xs).2 = false → a ≠ [] ∧ ok (s ++ a) = false)
      ∧ ∀ p q, a = p ++ q → p ≠ [] → (q = [] → ((recordingWriter ok).writeAll s xs).2 = true) → ok (s ++ p) = true := by
  induction xs generalizing s with
  | nil => exact ⟨[], [], by simp [Writer.writeAll]⟩
  | cons x xs ih =>
    simp only [Writer.writeAll, show (recordingWriter ok).write s x = (s ++ [x], ok (s ++ [x])) from rfl]
    by_cases h : ok (s ++ [x]) = true
    · obtain ⟨a, b, h1, h2, h3, h4, h5⟩ := ih (s ++ [x])
      simp only [h, if_true]
      refine ⟨x :: a, b, by simp [h1], by simp [h2], h3, fun hf => ⟨by simp, by simpa using (h4 hf).2⟩, ?_⟩
      intro p q e hp hq
      cases p with
      | nil => exact absurd rfl hp
      | cons y p =>
        simp only [List.cons_append, List.cons.injEq] at e
        obtain ⟨rfl, e⟩ := e
        by_cases hp' : p = []
        · simpa [hp'] using h
        · simpa using h5 p q e hp' hq
    · simp only [h, Bool.false_eq_true, if_false]
      simp only [Bool.not_eq_true] at h
      refine ⟨[x], xs, by simp, by simp, by simp, by simp [h], ?_⟩
      intro p q e hp hq
      cases p with
      | nil => exact absurd rfl hp
      | cons y p =>
        simp only [List.cons_append, List.cons.injEq, List.nil_eq, List.append_eq_nil_iff] at e
        simp [e.2.2] at hq

/-- Appending cursors to a sink on a `String` writes the strings of each cursor, in order, with one space between two neighbours
exactly when `needs_separator_for` holds. -/
theorem C30_infallible (fmt : FloatFmt) (src s : List Char) (text : Cursor → List (List Char)) (cs : List Cursor)
    (ht : ∀ c ∈ cs, c.writes fmt src = .ok (text c)) :
    ∃ r, (FmtSink.new s).appendAll fmt stringWriter src cs = .ok r ∧ r.err = false
      ∧ r.writer = s ++ (joined Token.needsSeparatorFor text cs).flatten := by
  obtain ⟨r, h1, h2, h3⟩ := appendAll_new fmt stringWriter src text cs ht s
  rw [string_writeAll] at h2 h3
  exact ⟨r, h1, h3, h2⟩

/-- With a writer that fails, whatever the point of failure: what is attempted is a prefix of the same sequence, that ends with the
first write that failed; nothing is attempted after it. -/
theorem C30_fallible (fmt : FloatFmt) (src : List Char) (ok : List (List Char) → Bool) (text : Cursor → List (List Char))
    (cs : List Cursor) (ht : ∀ c ∈ cs, c.writes fmt src = .ok (text c)) :
    ∃ r done notDone, (FmtSink.new []).appendAll fmt (recordingWriter ok) src cs = .ok r ∧ r.writer = done
      ∧ joined Token.needsSeparatorFor text cs = done ++ notDone
      ∧ (r.err = false → notDone = []) ∧ (r.err = true → done ≠ [] ∧ ok done = false)
      ∧ ∀ p q, done = p ++ q → p ≠ [] → (q = [] → r.err = false) → ok p = true := by
  obtain ⟨r, h1, h2, h3⟩ := appendAll_new fmt (recordingWriter ok) src text cs ht []
  obtain ⟨a, b, g1, g2, g3, g4, g5⟩ := recording_writeAll ok [] (joined Token.needsSeparatorFor text cs)
  refine ⟨r, a, b, h1, by rw [h2, g2]; rfl, g1, fun h => g3 (by simpa [h] using h3), fun h => g4 (by simpa [h] using h3), ?_⟩
  intro p q e hp hq
  exact g5 p q e hp (fun h => by have := hq h; simpa [this] using h3)

/-- Once a write has failed, appending anything leaves the sink and its writer as they are. -/
theorem C30_after_error {σ : Type} (fmt : FloatFmt) (w : Writer σ) (src : List Char) (s : FmtSink σ) (h : s.err = true)
    (cs : List Cursor) : s.appendAll fmt w src cs = .ok s := append_err fmt w src s h cs

theorem append_inj_utf8 {a b c d : List Char} (h : a ++ b = c ++ d) (hl : utf8Len a = utf8Len c) : a = c ∧ b = d := by
  induction a generalizing c with
  | nil =>
    cases c with
    | nil => exact ⟨rfl, h⟩
    | cons x c => have := Char.utf8Size_pos x; simp at hl; omega
  | cons x a ih =>
    cases c with
    | nil => have := Char.utf8Size_pos x; simp at hl; omega
    | cons y c =>
      simp only [List.cons_append, List.cons.injEq] at h
      obtain ⟨rfl, h⟩ := h
      simp only [utf8Len_cons, Nat.add_left_cancel_iff] at hl
      obtain ⟨rfl, h'⟩ := ih h hl
      exact ⟨rfl, h'⟩

theorem ScanCase.shape {f : Features} {cs r : List Char} {t : Token} (h : ScanCase f cs t r) :
    (∃ c, t.char = some c ∧ t.kind ∈ [Kind.delim, .colon, .semicolon, .comma, .leftSquare, .rightSquare, .leftParen, .rightParen, .leftCurly,
      .rightCurly]) ∨ (t = Token.CDC ∧ cs = c!"-->" ++ r) ∨ (t = Token.CDO ∧ cs = c!"<!--" ++ r)
    ∨ t.kind ∈ [Kind.number, .dimension] ∨ t.kind ∈ [Kind.comment, .whitespace, .badString, .badUrl, .ident, .function, .atKeyword, .hash, .string, .url] := by
  cases h with
  | single h =>
    have := singles_char _ h
    exact Or.inl ⟨_, this, singles_kind _ h⟩
  | identLike h h' =>
    have := consumeIdentLike_kind h'
    simp only [List.mem_cons, List.not_mem_nil, or_false] at this
    rcases this with e | e | e | e <;> rw [e] <;> simp
  | numeric h h' =>
    have := consumeNumeric_kind cs
    rw [h'] at this
    simp only at this
    rcases this with e | e <;> rw [e] <;> simp
  | @ws c cs ws rest h h' e hm =>
    have e := newWhitespace_kind (ws.foldl (fun s c => s.or (wsFlag c)) .none) (w32 ws.length) (wsFlags_lt _ _ (by decide))
    rw [e]; simp
  | @wsSep P st c cs ws rest hP hc hf he hm =>
    have e : (Token.newWhitespace st (w32 ws.length)).kind = .whitespace := by
      apply newWhitespace_kind
      rcases hP with ⟨_, rfl⟩ | ⟨_, rfl⟩ | ⟨_, rfl⟩ <;> decide
    rw [e]; simp
  | @string q cs t r hq h =>
    have := consumeString_kind q cs
    rw [h] at this
    simp only at this
    rcases this with e | e <;> rw [e] <;> simp
  | cdc => exact Or.inr (Or.inl ⟨rfl, rfl⟩)
  | cdo => exact Or.inr (Or.inr (Or.inl ⟨rfl, rfl⟩))
  | @hash cs t r h h' =>
    have e : t.kind = .hash := by
      rw [show t = (consumeHash ('#' :: cs)).1 by rw [h']]
      simp [consumeHash, newHash_eq]
    rw [e]; simp
  | «at» => rw [newAtKeyword_eq, mkTok_kind]; simp
  | block => rw [newComment_eq, mkTok_kind]; simp
  | line => rw [newComment_eq, mkTok_kind]; simp
  | dash => exact Or.inl ⟨'-', by decide, by decide⟩
  | @dotplus c => exact Or.inl ⟨c, (C17_delim c).2.2, by rw [(C17_delim c).1]; decide⟩
  | lt => exact Or.inl ⟨'<', by decide, by decide⟩
  | pound => exact Or.inl ⟨'#', by decide, by decide⟩
  | atSign => exact Or.inl ⟨'@', by decide, by decide⟩
  | backslash => exact Or.inl ⟨'\\', by decide, by decide⟩
  | slash => exact Or.inl ⟨'/', by decide, by decide⟩
  | @other c => exact Or.inl ⟨c, (C17_delim c).2.2, by rw [(C17_delim c).1]; decide⟩

/-- What `write_str` writes for a lexed cursor is its source text, in one piece. Missing from the full C30: numbers and dimensions
with a known unit, which are written from their value (see `C30_counterexample`), and texts outside `Tame`. -/
theorem C30_text_partial {l l' : Lexer} {cs : List Char} {t : Token} (fmt : FloatFmt) (h : l.Before cs) (ht : Tame l.features cs)
    (hne : cs ≠ []) (hl : byteLen l.source < 2 ^ 32) (ha : l.advance = .ok (t, l')) (hn : t.kind ≠ .number)
    (hd : t.kind = .dimension → t.dimensionUnit = .unknown) :
    ∃ text rest, cs = text ++ rest ∧ t.len.toNat = byteLen text ∧ (Cursor.mk l.offset t).writes fmt l.source = .ok [text] := by
  obtain ⟨t', l'', text, cs', h1, h2, h3, h4, h5, h6, h7⟩ := advance_tame h ht hne
  rw [h1] at ha
  injection ha with ha; injection ha with ha _; subst ha
  refine ⟨text, cs', h3, h5, ?_⟩
  have hslice : (Cursor.mk l.offset t').strSlice l.source = .ok text := by
    obtain ⟨pre, p1, p2⟩ := h
    have hoff : ¬ l.offset = DUMMY := by
      have := utf8Len_pos hne
      rw [p1, byteLen_eq, utf8Len_append] at hl
      rw [p2, byteLen_eq]; unfold DUMMY; omega
    have := sliceBytes_append pre text cs'
    simp only [Cursor.strSlice, Cursor.span, Span.contents, Cursor.endOffset, beq_iff_eq, hoff, if_false]
    rw [p1, h3, p2, h5, byteLen_eq, byteLen_eq, this]
  obtain ⟨r, hs, hc⟩ := advance_cases h hne h1
  have huniq : ∀ {a : List Char}, t'.len.toNat = utf8Len a → a <+: cs → a = text := by
    intro a ha hp
    obtain ⟨b, hb⟩ := hp
    rw [h3] at hb
    exact (append_inj_utf8 hb (by rw [← ha, h5, byteLen_eq])).1
  rcases hc.shape with ⟨c, hc1, hc2⟩ | ⟨rfl, hc1⟩ | ⟨rfl, hc1⟩ | hk | hk
  · obtain ⟨e, hcase⟩ := hc.char_eq hc1
    have : [c] = text := by
      refine huniq ?_ ⟨r, by simp [e]⟩
      rcases hcase with ⟨e1, e2⟩ | ⟨e1, _⟩ | e1
      · rw [e1, (singles_table _ e2).1, utf8Len_of_ascii (by simpa [isAscii] using singles_lt _ e2)]; rfl
      · rw [e1, (C17_delim c).2.1]; simp
      · simp only [List.mem_cons, List.not_mem_nil, or_false, Prod.mk.injEq] at e1
        rcases e1 with ⟨rfl, rfl⟩ | ⟨rfl, rfl⟩ | ⟨rfl, rfl⟩ | ⟨rfl, rfl⟩ | ⟨rfl, rfl⟩ | ⟨rfl, rfl⟩ <;> decide
    subst this
    simp only [List.mem_cons, List.not_mem_nil, or_false] at hc2
    rcases hc2 with e | e | e | e | e | e | e | e | e | e <;> simp [Cursor.writes, e, hc1]
  · have : c!"-->" = text := huniq (by decide) ⟨r, by simp [hc1]⟩
    subst this
    simp [Cursor.writes, show Token.CDC.kind = .cdcOrCdo by decide, show Token.CDC.isCdc = true by decide]
  · have : c!"<!--" = text := huniq (by decide) ⟨r, by simp [hc1]⟩
    subst this
    simp [Cursor.writes, show Token.CDO.kind = .cdcOrCdo by decide, show Token.CDO.isCdc = false by decide]
  · simp only [List.mem_cons, List.not_mem_nil, or_false] at hk
    rcases hk with e | e
    · exact absurd e hn
    · simp [Cursor.writes, e, hd e, hslice, Except.map]
  · simp only [List.mem_cons, List.not_mem_nil, or_false] at hk
    rcases hk with e | e | e | e | e | e | e | e | e | e <;> simp [Cursor.writes, e, hslice, Except.map]

/-- A number is written from its value, in the form with a sign exactly if there was a sign in the source: the sign is never lost. Missing from the
full C30: that the text is the same, for which Rust's formatting of floats would have to be modelled (it is not: `1e3` is written `1000`). -/
theorem C30_number_partial {l : Lexer} {num rest : List Char} (fmt : FloatFmt) (h : l.Before (num ++ rest)) (hn : LongestNumber (num ++ rest) num)
    (ha : EscAscii (num ++ rest)) (hl : WithinLimits (num ++ rest)) (hr : ¬ Starts (· = '%') rest) (hr' : ¬ StartsName rest) :
    ∃ t, l.Yields t ∧ (Starts (fun c => c = '+' ∨ c = '-') num → (Cursor.mk l.offset t).writes fmt l.source = .ok [fmt.signed (F32.parse num)])
      ∧ (¬ Starts (fun c => c = '+' ∨ c = '-') num → (Cursor.mk l.offset t).writes fmt l.source = .ok [fmt.plain (F32.parse num)]) := by
  obtain ⟨t, h1, h2, h3, h4, h5, h6, h7, h8, h9⟩ := C12_partial h hn ha hl
  have hk : t.kind = .number := by
    rcases h2 with h2 | h2
    · exact h2
    · rcases h3.mp h2 with h | h
      · exact absurd h hr
      · exact absurd h hr'
  refine ⟨t, h1, fun hs => ?_, fun hs => ?_⟩
  · simp [Cursor.writes, hk, h8.mpr hs, h9]
  · have : t.hasSign = false := by cases hh : t.hasSign with | false => rfl | true => exact absurd (h8.mp hh) hs
    simp [Cursor.writes, hk, this, h9]

/-- For example `+1.5` and `1.5`. -/
example (fmt : FloatFmt) : ((Lexer.new c!"+1.5 ").advance.map fun r => (Cursor.mk 0 r.1).writes fmt c!"+1.5 ") = .ok (.ok [fmt.signed 0x3fc00000])
    ∧ ((Lexer.new c!"1.5 ").advance.map fun r => (Cursor.mk 0 r.1).writes fmt c!"1.5 ") = .ok (.ok [fmt.plain 0x3fc00000]) := by
  have h1 : (Lexer.new c!"+1.5 ").advance.map (fun r => (r.1.kind, r.1.hasSign, r.1.value)) = .ok (.number, true, 0x3fc00000) := by decide +kernel
  have h2 : (Lexer.new c!"1.5 ").advance.map (fun r => (r.1.kind, r.1.hasSign, r.1.value)) = .ok (.number, false, 0x3fc00000) := by decide +kernel
  constructor
  · cases h : (Lexer.new c!"+1.5 ").advance with
    | error e => rw [h] at h1; cases h1
    | ok r =>
      rw [h] at h1
      simp only [Except.map, Except.ok.injEq, Prod.mk.injEq] at h1
      simp [Except.map, Cursor.writes, h1.1, h1.2.1, h1.2.2]
  · cases h : (Lexer.new c!"1.5 ").advance with
    | error e => rw [h] at h2; cases h2
    | ok r =>
      rw [h] at h2
      simp only [Except.map, Except.ok.injEq, Prod.mk.injEq] at h2
      simp [Except.map, Cursor.writes, h2.1, h2.2.1, h2.2.2]

/-- What is missing from the full C30: the text of a dimension with a known unit is not its source text; the sign of `+1px` is
lost, however `f32`s are formatted; `1svmax` is written with the unit `svmin`. -/
theorem C30_counterexample (fmt : FloatFmt) :
    (∃ a b, (Lexer.new c!"+1px").advance.map (·.1) = .ok a ∧ (Lexer.new c!"1px").advance.map (·.1) = .ok b
      ∧ (Cursor.mk 0 a).writes fmt c!"+1px" = .ok [fmt.plain 0x3f800000#32, c!"px"]
      ∧ (Cursor.mk 0 b).writes fmt c!"1px" = .ok [fmt.plain 0x3f800000#32, c!"px"])
    ∧ (∀ v n, n.toNat < 2 ^ 12 → (Cursor.mk 0 (Token.newDimension false false n 5#32 v .svmax)).writes fmt [] =
        .ok [fmt.plain v, DimensionUnit.svmax.str]) ∧ DimensionUnit.svmax.str = c!"svmin" := by
  refine ⟨⟨Token.newDimension false true 2#32 2#32 0x3f800000#32 .px, Token.newDimension false false 1#32 2#32 0x3f800000#32 .px, ?_, ?_, ?_, ?_⟩, ?_, ?_⟩
  · decide +kernel
  · decide +kernel
  · rfl
  · rfl
  · intro v n hn
    have ⟨hk, _, _, _, _, _, hv, hu⟩ := C17_dimension_known false false n 5#32 v .svmax (by decide) hn
    simp [Cursor.writes, hk, hu, hv]
  · decide

example (fmt : FloatFmt) : ∃ t l', (Lexer.new c!"\"a\"b").advance = .ok (t, l') ∧ t.kind = .string
    ∧ ∃ text rest, c!"\"a\"b" = text ++ rest ∧ t.len.toNat = byteLen text ∧ (Cursor.mk 0 t).writes fmt c!"\"a\"b" = .ok [text] := by
  obtain ⟨p, hp, hk⟩ : ∃ p, (Lexer.new c!"\"a\"b").advance = .ok p ∧ p.1.kind = .string :=
    match h : (Lexer.new c!"\"a\"b").advance with
    | .ok p => ⟨p, rfl, by
        have : (Lexer.new c!"\"a\"b").advance.map (·.1.kind) = .ok .string := by decide +kernel
        rw [h] at this; injection this⟩
    | .error e => by
        have : (Lexer.new c!"\"a\"b").advance.map (·.1.kind) = .ok .string := by decide +kernel
        rw [h] at this; cases this
  exact ⟨p.1, p.2, hp, hk, C30_text_partial fmt (before_new _ _) (tame_of_ascii (by decide) (by decide)) (by decide) (by decide) hp
    (by rw [hk]; decide) (by rw [hk]; intro h; cases h)⟩

example (fmt : FloatFmt) : ∃ r, (FmtSink.new []).appendAll fmt stringWriter c!"ab" [⟨0, Token.newIdent false false false 1#32⟩,
      ⟨1, Token.newIdent false false false 1#32⟩] = .ok r ∧ r.writer = c!"a b" := ⟨_, rfl, by decide⟩

/-! ## C31 The vector sink -/

theorem separator_facts (t : Token) : SEPARATOR.token.needsSeparatorFor t = false ∧ t.needsSeparatorFor SEPARATOR.token = false := by
  constructor
  · unfold Token.needsSeparatorFor
    simp [show SEPARATOR.token.kind = .whitespace from rfl, show SEPARATOR.token.char = none by decide]
  · unfold Token.needsSeparatorFor
    generalize t.kind = k
    generalize t.char = ch
    simp only [show SEPARATOR.token.kind = .whitespace from rfl, show SEPARATOR.token.char = none by decide, show SEPARATOR.token.isCdc = false by decide]
    cases k <;> simp <;> split <;> simp

/-- Two neighbours never need a separator. -/
def Apart : List Cursor → Prop
  | [] => True
  | [_] => True
  | a :: b :: cs => a.token.needsSeparatorFor b.token = false ∧ Apart (b :: cs)

theorem apart_snoc (cs : List Cursor) (c : Cursor) (h : Apart cs) (hl : ∀ a, cs.getLast? = some a → a.token.needsSeparatorFor c.token = false) :
    Apart (cs ++ [c]) := by
  induction cs with
  | nil => trivial
  | cons a cs ih =>
    cases cs with
    | nil => exact ⟨hl a rfl, trivial⟩
    | cons b cs => exact ⟨h.1, ih h.2 (fun x hx => hl x (by simpa using hx))⟩

/-- After any sequence of appends: the appended cursors are the stored ones with some separators taken out, in order; apart from
separators the stored cursors are the appended ones; and no two neighbours need a separator. -/
theorem C31_appends (cs : List Cursor) :
    let stored := (VecSink.appendAll {} cs).cursors
    cs.Sublist stored ∧ stored.filter (· != SEPARATOR) = cs.filter (· != SEPARATOR)
      ∧ ∀ i a b, stored[i]? = some a → stored[i + 1]? = some b → a.token.needsSeparatorFor b.token = false := by
  have key : ∀ cs (s : VecSink), ∃ extra, (s.appendAll cs).cursors = s.cursors ++ extra ∧ cs.Sublist extra
      ∧ extra.filter (· != SEPARATOR) = cs.filter (· != SEPARATOR) ∧ (Apart s.cursors → Apart (s.appendAll cs).cursors) := by
    intro cs
    induction cs with
    | nil => exact fun s => ⟨[], by simp [VecSink.appendAll]⟩
    | cons c cs ih =>
      intro s
      obtain ⟨e, h1, h2, h3, h4⟩ := ih (s.append c)
      have hs : s.appendAll (c :: cs) = (s.append c).appendAll cs := rfl
      rw [hs, h1]
      have happ : ∃ sep, (s.append c).cursors = s.cursors ++ (sep ++ [c]) ∧ (sep = [] ∨ sep = [SEPARATOR])
          ∧ (Apart s.cursors → Apart (s.append c).cursors) := by
        unfold VecSink.append
        dsimp only
        split
        · rename_i last hl
          by_cases hn : last.token.needsSeparatorFor c.token = true
          · refine ⟨[SEPARATOR], by simp [hn], Or.inr rfl, fun ha => ?_⟩
            simp only [hn, if_true]
            refine apart_snoc _ _ (apart_snoc _ _ ha fun a _ => (separator_facts _).2) ?_
            intro a hx
            simp at hx
            rw [← hx]
            exact (separator_facts _).1
          · refine ⟨[], by simp [hn], Or.inl rfl, fun ha => ?_⟩
            simp only [hn, Bool.false_eq_true, if_false]
            refine apart_snoc _ _ ha fun a hx => ?_
            rw [hl] at hx; injection hx with hx; subst hx; simpa using hn
        · rename_i hl
          exact ⟨[], by simp, Or.inl rfl, fun ha => apart_snoc _ _ ha fun a hx => by rw [hl] at hx; cases hx⟩
      obtain ⟨sep, g1, g2, g3⟩ := happ
      refine ⟨sep ++ [c] ++ e, by simp [g1], ?_, ?_, fun ha => h1 ▸ h4 (g3 ha)⟩
      · rw [List.append_assoc]
        exact (List.Sublist.cons_cons c h2).trans (List.sublist_append_right _ _)
      · rw [List.filter_append, List.filter_append, h3]
        rcases g2 with rfl | rfl
        · simp [List.filter_cons]
          split <;> simp
        · simp [List.filter_cons]
          split <;> simp
  obtain ⟨e, h1, h2, h3, h4⟩ := key cs {}
  simp only [show ({} : VecSink).cursors = [] from rfl, List.nil_append] at h1 h4
  have ha := h4 trivial
  dsimp only
  rw [h1] at ha ⊢
  refine ⟨h2, h3, ?_⟩
  clear h1 h2 h3 h4
  induction e with
  | nil => simp
  | cons x e ih =>
    intro i a b hx hy
    cases i with
    | zero =>
      cases e with
      | nil => simp at hy
      | cons y e => simp at hx hy; subst hx; subst hy; exact ha.1
    | succ i =>
      refine ih ?_ i a b (by simpa using hx) (by simpa using hy)
      cases e with
      | nil => trivial
      | cons y e => exact ha.2

end Hdx

/-
Well-bracketed token sequences parse to well-bracketed trees.
-/
import Verif.Spec.Brackets
import Verif.Props.Grammar

namespace Hdx
open Spec Prog

theorem inSet_kind {t : Token} {s : KindSet} (h : t.kind ≠ .eof) : t.inSet s = s.contains t.kind := by
  rw [Token.inSet, kindBits_of_kind h]; rfl

theorem bits_inj {a b : Kind} (h : a.bits = b.bits) : a = b := by
  revert h; cases a <;> cases b <;> decide

theorem isKind_kind {t : Token} {k : Kind} (h : t.kind ≠ .eof) : t.isKind k = decide (t.kind = k) := by
  rw [Token.isKind, kindBits_of_kind h]
  by_cases hk : t.kind = k
  · simp [hk]
  · have : t.kind.bits ≠ k.bits := fun hh => hk (bits_inj hh)
    simp [this, hk]

theorem dropWhile_pre {f : Cursor → Bool} {pre rest : List Cursor} {c : Cursor} (h : ∀ x ∈ pre, f x = true) (hc : f c = false) :
    (pre ++ c :: rest).dropWhile f = c :: rest := by
  induction pre with
  | nil => simp [hc]
  | cons x pre ih =>
    rw [List.cons_append, List.dropWhile_cons_of_pos (h x (by simp))]
    exact ih fun y hy => h y (by simp [hy])

theorem takeWhile_pre {f : Cursor → Bool} {pre rest : List Cursor} {c : Cursor} (h : ∀ x ∈ pre, f x = true) (hc : f c = false) :
    (pre ++ c :: rest).takeWhile f = pre := by
  induction pre with
  | nil => simp [hc]
  | cons x pre ih =>
    rw [List.cons_append, List.takeWhile_cons_of_pos (h x (by simp)), ih fun y hy => h y (by simp [hy])]

/-- `q` is `p` at another position. -/
structure Elsewhere (p q : Parser) : Prop where
  skip : q.skip = p.skip
  stop : q.stop = p.stop
  nested : q.nested = p.nested

theorem Elsewhere.rfl {p : Parser} : Elsewhere p p := ⟨Eq.refl _, Eq.refl _, Eq.refl _⟩
theorem Elsewhere.trans {p q r : Parser} (h : Elsewhere p q) (h' : Elsewhere q r) : Elsewhere p r :=
  ⟨h'.skip.trans h.skip, h'.stop.trans h.stop, h'.nested.trans h.nested⟩

theorem peek_at {p : Parser} {pre rest : List Cursor} {c : Cursor} (h : Stream p.lexer (pre ++ c :: rest))
    (hp : ∀ x ∈ pre, x.token.inSet p.skip = true) (hc : c.token.inSet p.skip = false) : p.peekNext = .ok c := by
  rw [peekNext_stream h, firstOutside, dropWhile_pre hp hc]; rfl

theorem next_at {p : Parser} {pre rest : List Cursor} {c : Cursor} (h : Stream p.lexer (pre ++ c :: rest))
    (hp : ∀ x ∈ pre, x.token.inSet p.skip = true) (hc : c.token.inSet p.skip = false) :
    ∃ q, p.next = .ok (c, q) ∧ Stream q.lexer rest ∧ Elsewhere p q := by
  obtain ⟨l', a, b, _⟩ := next_stream h
  rw [firstOutside, dropWhile_pre hp hc] at a
  rw [dropWhile_pre hp hc] at b
  exact ⟨_, a, b, ⟨rfl, rfl, rfl⟩⟩

theorem stop_at {p : Parser} {pre rest : List Cursor} {c : Cursor} (h : Stream p.lexer (pre ++ c :: rest)) (hs : p.skip.contains .eof = false)
    (hp : ∀ x ∈ pre, x.token.inSet p.skip = true) (hc : c.token.inSet p.skip = false) : p.nextIsStop = .ok (p.stop.contains c.token.kind) := by
  rw [nextIsStop_stream h hs, firstOutside, dropWhile_pre hp hc]; rfl

theorem ws_at {p : Parser} {pre rest : List Cursor} {c : Cursor} (h : Stream p.lexer (pre ++ c :: rest))
    (hp : ∀ x ∈ pre, (x.token.inSet p.skip && !x.token.isKind .whitespace) = true)
    (hc : (c.token.inSet p.skip && !c.token.isKind .whitespace) = false) : p.peekNextIncludingWhitespace = .ok c := by
  rw [peekWs_stream h, firstWsOrOutside, dropWhile_pre hp hc]; rfl

theorem isTrivia_inSet {c : Cursor} (h : IsTrivia c) : c.token.inSet KindSet.TRIVIA = true := by
  rcases h with h | h <;> rw [inSet_kind (by rw [h]; decide), h] <;> decide

theorem TRIVIA_iff {c : Cursor} : c.token.inSet KindSet.TRIVIA = true ↔ IsTrivia c := by
  refine ⟨fun h => ?_, isTrivia_inSet⟩
  by_cases he : c.token.kind = .eof
  · exfalso
    have hall : ∀ n < 32, Kind.ofBits n = .eof → KindSet.TRIVIA.containsBits n = false := by decide
    have : ((c.token.w0 >>> 24) &&& 0b11111#32).toNat ≤ 31 := by rw [BitVec.toNat_and]; exact Nat.and_le_right
    have := hall c.token.kindBits (by unfold Token.kindBits; omega) he
    rw [Token.inSet, this] at h; cases h
  · rw [inSet_kind he] at h
    unfold IsTrivia
    revert h; cases c.token.kind <;> decide

/-- What may follow a well-bracketed sequence for the loop to stop there. -/
def Ends (stop : KindSet) (T : List Cursor) : Prop :=
  (∀ c ∈ T, IsTrivia c) ∨ ∃ pre c rest, T = pre ++ c :: rest ∧ (∀ x ∈ pre, IsTrivia x) ∧ ¬ IsTrivia c ∧
    (stop.contains c.token.kind = true ∨ c.token.inSet CV_KINDS = false)

/-- A parser as it is inside a component value list. -/
structure InValues (p : Parser) : Prop where
  skip : p.skip = KindSet.TRIVIA
  stop : ∀ k, CV_KINDS.contains k = true → p.stop.contains k = false

theorem InValues.elsewhere {p q : Parser} (h : InValues p) (hq : Elsewhere p q) : InValues q :=
  ⟨hq.skip.trans h.skip, fun k hk => by rw [hq.stop]; exact h.stop k hk⟩

theorem balanced_comments {pre cs : List Cursor} (hp : ∀ x ∈ pre, x.token.kind = .comment) (h : Balanced (pre ++ cs)) : Balanced cs := by
  induction pre with
  | nil => exact h
  | cons x pre ih =>
    have hx := hp x (by simp)
    have ih := ih fun y hy => hp y (by simp [hy])
    rw [List.cons_append] at h
    generalize hl : x :: (pre ++ cs) = l at h
    cases h with
    | nil => cases hl
    | single h1 h2 => cases hl; exact ih h2
    | block h1 h2 h3 => injection hl with h _; rw [← h, hx] at h1; cases h1
    | function h1 h2 h3 h4 => injection hl with h _; rw [← h, hx] at h1; cases h1

/-- Splits off the leading comments. -/
theorem split_comments (X : List Cursor) : ∃ pre Y, X = pre ++ Y ∧ (∀ x ∈ pre, x.token.kind = .comment) ∧ (∀ c ∈ Y.head?, c.token.kind ≠ .comment) := by
  induction X with
  | nil => exact ⟨[], [], rfl, by simp, by simp⟩
  | cons x X ih =>
    by_cases hx : x.token.kind = .comment
    · obtain ⟨pre, Y, h1, h2, h3⟩ := ih
      exact ⟨x :: pre, Y, by rw [h1]; rfl, by simp [hx]; exact h2, h3⟩
    · exact ⟨[], x :: X, rfl, by simp, by simp [hx]⟩

theorem dropWhile_all {f : Cursor → Bool} {l : List Cursor} (h : ∀ x ∈ l, f x = true) : l.dropWhile f = [] := by
  induction l with
  | nil => rfl
  | cons x l ih => rw [List.dropWhile_cons_of_pos (h x (by simp))]; exact ih fun y hy => h y (by simp [hy])

/-- What is claimed of a parser for one component value, for sequences up to a length. -/
def ItemOk (item : Prog ComponentValue) (k : Nat) : Prop :=
  ∀ {p : Parser} {X T : List Cursor}, InValues p → Balanced X → X.length ≤ k → (∃ c ∈ X, ¬ IsTrivia c) → Stream p.lexer (X ++ T) →
    ∃ v q w X', Gives item p (.ok v) q w ∧ Matched v ∧ Balanced X' ∧ X'.length < X.length ∧ Stream q.lexer (X' ++ T) ∧ Elsewhere p q

theorem notTrivia_inSet {p : Parser} (hp : InValues p) {c : Cursor} (h : ¬ IsTrivia c) : c.token.inSet p.skip = false := by
  rw [hp.skip]
  cases hh : c.token.inSet KindSet.TRIVIA
  · rfl
  · exact absurd (TRIVIA_iff.mp hh) h

theorem trivia_inSet {p : Parser} (hp : InValues p) {c : Cursor} (h : IsTrivia c) : c.token.inSet p.skip = true := by
  rw [hp.skip]; exact TRIVIA_iff.mpr h

/-- The first token that is not trivia. -/
theorem split_trivia {X : List Cursor} (h : ∃ c ∈ X, ¬ IsTrivia c) :
    ∃ pre c Y, X = pre ++ c :: Y ∧ (∀ x ∈ pre, IsTrivia x) ∧ ¬ IsTrivia c := by
  induction X with
  | nil => simp at h
  | cons x X ih =>
    by_cases hx : IsTrivia x
    · obtain ⟨c, hc, hn⟩ := h
      rcases List.mem_cons.mp hc with rfl | hc
      · exact absurd hx hn
      · obtain ⟨pre, c, Y, rfl, h2, h3⟩ := ih ⟨c, hc, hn⟩
        exact ⟨x :: pre, c, Y, rfl, by simp [hx]; exact h2, h3⟩
    · exact ⟨[], x, X, rfl, by simp, hx⟩

/-- The first token of a well-bracketed sequence that is not trivia starts a component value. -/
theorem balanced_first {pre Y : List Cursor} {c : Cursor} (hp : ∀ x ∈ pre, IsTrivia x) (hc : ¬ IsTrivia c) (h : Balanced (pre ++ c :: Y)) :
    CV_KINDS.contains c.token.kind = true ∧ c.token.kind ≠ .eof := by
  induction pre with
  | nil =>
    have hs : ∀ k ∈ Spec.singles, k ≠ Kind.comment → CV_KINDS.contains k = true ∧ k ≠ .eof := by decide
    have hb : ∀ k k', Mirror k k' → CV_KINDS.contains k = true ∧ k ≠ .eof := by intro k k' h; cases h <;> decide
    rw [List.nil_append] at h
    generalize hl : c :: Y = l at h
    cases h with
    | nil => cases hl
    | single h1 h2 => injection hl with h _; rw [← h] at h1; exact hs _ h1 fun h => hc (.inr h)
    | block h1 h2 h3 => injection hl with h _; rw [← h] at h1; exact hb _ _ h1
    | function h1 h2 h3 h4 => injection hl with h _; rw [← h] at h1; rw [h1]; decide
  | cons x pre ih =>
    have hx := hp x (by simp)
    have ih := ih fun y hy => hp y (by simp [hy])
    rw [List.cons_append] at h
    generalize hl : x :: (pre ++ c :: Y) = l at h
    cases h with
    | nil => cases hl
    | single h1 h2 => cases hl; exact ih h2
    | block h1 h2 h3 => injection hl with h _; rw [← h] at h1; rcases hx with hx | hx <;> rw [hx] at h1 <;> cases h1
    | function h1 h2 h3 h4 => injection hl with h _; rw [← h] at h1; rcases hx with hx | hx <;> rw [hx] at h1 <;> cases h1

theorem gives_of_atEnd {α : Type} {p : Parser} {f : Bool → Prog α} {r : Except Diag α} {q : Parser} {w : List Cursor}
    (h : Gives (f p.atEnd) p r q w) : Gives (atEnd >>= f) p r q w :=
  gives_bind.mpr (.inl ⟨_, p, [], w, gives_atEnd.mpr ⟨rfl, rfl, rfl⟩, h, rfl⟩)
theorem gives_of_stop {α : Type} {p : Parser} {b : Bool} (hb : p.nextIsStop = .ok b) {f : Bool → Prog α} {r : Except Diag α} {q : Parser} {w : List Cursor}
    (h : Gives (f b) p r q w) : Gives (nextIsStop >>= f) p r q w :=
  gives_bind.mpr (.inl ⟨_, p, [], w, gives_nextIsStop.mpr ⟨_, hb, rfl, rfl, rfl⟩, h, rfl⟩)
theorem gives_of_peek {α : Type} {p : Parser} {c : Cursor} (hc : p.peekNext = .ok c) {f : Cursor → Prog α} {r : Except Diag α} {q : Parser} {w : List Cursor}
    (h : Gives (f c) p r q w) : Gives (peek >>= f) p r q w :=
  gives_bind.mpr (.inl ⟨_, p, [], w, gives_peek.mpr ⟨_, hc, rfl, rfl, rfl⟩, h, rfl⟩)
theorem gives_seq {α β : Type} {x : Prog α} {f : α → Prog β} {p p1 q : Parser} {a : α} {r : Except Diag β} {w1 w2 : List Cursor}
    (h1 : Gives x p (.ok a) p1 w1) (h2 : Gives (f a) p1 r q w2) : Gives (x >>= f) p r q (w1 ++ w2) :=
  gives_bind.mpr (.inl ⟨_, _, _, _, h1, h2, rfl⟩)

/-- The loop over a well-bracketed sequence. -/
theorem loop_ok {item : Prog ComponentValue} {k : Nat} (hi : ItemOk item k) :
    ∀ (m : Nat) {p : Parser} {X T : List Cursor} {acc : List ComponentValue}, InValues p → Balanced X → X.length ≤ k → X.length < m →
      Ends p.stop T → Stream p.lexer (X ++ T) →
      ∃ vs q w tr, Gives (componentValuesLoop item m acc) p (.ok (acc ++ vs)) q w ∧ (∀ v ∈ vs, Matched v) ∧ (∀ c ∈ tr, IsTrivia c)
        ∧ Stream q.lexer (tr ++ T) ∧ Elsewhere p q := by
  intro m
  induction m with
  | zero => intro p X T acc _ _ _ h; omega
  | succ m ih =>
    intro p X T acc hp hX hk hm hT hS
    have hse : p.skip.contains .eof = false := by rw [hp.skip]; decide
    by_cases hnt : ∃ c ∈ X, ¬ IsTrivia c
    · obtain ⟨pre, c, Y, hXe, hpre, hc⟩ := split_trivia hnt
      have hfirst := balanced_first hpre hc (hXe ▸ hX)
      have hS' : Stream p.lexer (pre ++ c :: (Y ++ T)) := by rw [hXe] at hS; simpa using hS
      have hpeek := peek_at hS' (fun x hx => trivia_inSet hp (hpre x hx)) (notTrivia_inSet hp hc)
      have hstop := stop_at hS' hse (fun x hx => trivia_inSet hp (hpre x hx)) (notTrivia_inSet hp hc)
      have hend : p.atEnd = false := by
        rw [Parser.atEnd, hS.at_end, hXe]; simp
      rw [hp.stop _ hfirst.1] at hstop
      obtain ⟨v, q, w, X', i1, i2, i3, i4, i5, i6⟩ := hi hp hX hk hnt hS
      obtain ⟨vs, q2, w2, tr, j1, j2, j3, j4, j5⟩ := ih (acc := acc ++ [v]) (hp.elsewhere i6) i3 (by omega) (by omega) (by rw [i6.stop]; exact hT) i5
      refine ⟨v :: vs, q2, w ++ w2, tr, ?_, by simp [i2]; exact j2, j3, j4, i6.trans j5⟩
      unfold componentValuesLoop
      refine gives_of_atEnd ?_
      rw [hend, if_neg (by simp)]
      refine gives_of_stop hstop ?_
      rw [if_neg (by simp)]
      refine gives_of_peek hpeek ?_
      rw [if_pos (by rw [inSet_kind hfirst.2]; exact hfirst.1)]
      rw [show acc ++ v :: vs = acc ++ [v] ++ vs by simp]
      exact gives_seq (f := fun v => componentValuesLoop item m (acc ++ [v])) i1 j1
    · have hall : ∀ c ∈ X, IsTrivia c := fun c hc => Classical.byContradiction fun h => hnt ⟨c, hc, h⟩
      refine ⟨[], p, [], X, ?_, by simp, hall, hS, .rfl⟩
      unfold componentValuesLoop
      refine gives_of_atEnd ?_
      by_cases hend : p.atEnd = true
      · rw [if_pos hend, List.append_nil]; exact gives_pure.mpr ⟨rfl, rfl, rfl⟩
      rw [if_neg hend]
      rcases hT with hT | ⟨pre, c, rest, rfl, hpre, hc, hx⟩
      · have hnone : (X ++ T).dropWhile (fun c => c.token.inSet p.skip) = [] := by
          refine dropWhile_all ?_
          intro x hx
          rcases List.mem_append.mp hx with hx | hx
          · exact trivia_inSet hp (hall x hx)
          · exact trivia_inSet hp (hT x hx)
        refine gives_of_stop (nextIsStop_stream hS hse) ?_
        rw [firstOutside, hnone]
        by_cases hb : p.stop.contains ((([] : List Cursor).head?.getD (eofOf p.lexer)).token.kind) = true
        · rw [if_pos hb, List.append_nil]; exact gives_pure.mpr ⟨rfl, rfl, rfl⟩
        rw [if_neg hb]
        refine gives_of_peek (peekNext_stream hS) ?_
        rw [firstOutside, hnone, if_neg (by show ¬ Token.EOF.inSet CV_KINDS = true; decide), List.append_nil]
        exact gives_pure.mpr ⟨rfl, rfl, rfl⟩
      · have hS' : Stream p.lexer ((X ++ pre) ++ c :: rest) := by simpa using hS
        have hpre' : ∀ x ∈ X ++ pre, x.token.inSet p.skip = true := by
          intro x hx
          rcases List.mem_append.mp hx with hx | hx
          · exact trivia_inSet hp (hall x hx)
          · exact trivia_inSet hp (hpre x hx)
        refine gives_of_stop (stop_at hS' hse hpre' (notTrivia_inSet hp hc)) ?_
        by_cases hb : p.stop.contains c.token.kind = true
        · rw [if_pos hb, List.append_nil]; exact gives_pure.mpr ⟨rfl, rfl, rfl⟩
        rw [if_neg hb]
        refine gives_of_peek (peek_at hS' hpre' (notTrivia_inSet hp hc)) ?_
        rcases hx with hx | hx
        · exact absurd hx hb
        rw [if_neg (by simp [hx]), List.append_nil]
        exact gives_pure.mpr ⟨rfl, rfl, rfl⟩

/-- The loop over the arguments of a function. -/
theorem functionLoop_ok {item : Prog ComponentValue} {k : Nat} (hi : ItemOk item k) :
    ∀ (m : Nat) {p : Parser} {X T : List Cursor} {e : Cursor} {acc : List ComponentValue}, InValues p → Balanced X → X.length ≤ k → X.length < m →
      e.token.kind = .rightParen → Stream p.lexer (X ++ e :: T) →
      ∃ vs q w tr, Gives (functionLoop item m acc) p (.ok (acc ++ vs)) q w ∧ (∀ v ∈ vs, Matched v) ∧ (∀ c ∈ tr, IsTrivia c)
        ∧ Stream q.lexer (tr ++ e :: T) ∧ Elsewhere p q := by
  intro m
  induction m with
  | zero => intro p X T e acc _ _ _ h; omega
  | succ m ih =>
    intro p X T e acc hp hX hk hm hT hS
    have hend : p.atEnd = false := by
      rw [Parser.atEnd, hS.at_end]; simp
    by_cases hnt : ∃ c ∈ X, ¬ IsTrivia c
    · obtain ⟨pre, c, Y, hXe, hpre, hc⟩ := split_trivia hnt
      have hfirst := balanced_first hpre hc (hXe ▸ hX)
      have hS' : Stream p.lexer (pre ++ c :: (Y ++ e :: T)) := by rw [hXe] at hS; simpa using hS
      have hpeek := peek_at hS' (fun x hx => trivia_inSet hp (hpre x hx)) (notTrivia_inSet hp hc)
      obtain ⟨v, q, w, X', i1, i2, i3, i4, i5, i6⟩ := hi hp hX hk hnt hS
      obtain ⟨vs, q2, w2, tr, j1, j2, j3, j4, j5⟩ := ih (acc := acc ++ [v]) (hp.elsewhere i6) i3 (by omega) (by omega) hT i5
      refine ⟨v :: vs, q2, w ++ w2, tr, ?_, by simp [i2]; exact j2, j3, j4, i6.trans j5⟩
      unfold functionLoop
      refine gives_of_atEnd ?_
      rw [hend, if_neg (by simp)]
      refine gives_of_peek hpeek ?_
      rw [isKind_kind hfirst.2, if_neg]
      · rw [show acc ++ v :: vs = acc ++ [v] ++ vs by simp]
        exact gives_seq (f := fun v => functionLoop item m (acc ++ [v])) i1 j1
      · intro hh
        have hh := of_decide_eq_true hh
        rw [hh] at hfirst
        revert hfirst; decide
    · have hall : ∀ c ∈ X, IsTrivia c := fun c hc => Classical.byContradiction fun h => hnt ⟨c, hc, h⟩
      refine ⟨[], p, [], X, ?_, by simp, hall, hS, .rfl⟩
      unfold functionLoop
      refine gives_of_atEnd ?_
      rw [hend, if_neg (by simp)]
      have hc : ¬ IsTrivia e := by rintro (h | h) <;> rw [hT] at h <;> cases h
      refine gives_of_peek (peek_at hS (fun x hx => trivia_inSet hp (hall x hx)) (notTrivia_inSet hp hc)) ?_
      rw [isKind_kind (by rw [hT]; decide), if_pos (by simp [hT]), List.append_nil]
      exact gives_pure.mpr ⟨rfl, rfl, rfl⟩

theorem gives_of_ws {α : Type} {p : Parser} {x c : Cursor} (hc : p.peekNextIncludingWhitespace = .ok c) {f : Bool → Prog α} {r : Except Diag α}
    {q : Parser} {w : List Cursor} (h : Gives (f (c.token.isKind .whitespace)) p r q w) : Gives (isWs x >>= f) p r q w :=
  gives_bind.mpr (.inl ⟨_, p, [], w, gives_ask.mpr ⟨_, by rw [hc]; rfl, rfl, rfl, rfl⟩, h, rfl⟩)

theorem stop_disjoint {o e : Kind} (h : Mirror o e) : pairEnd o = e ∧ (∀ k, CV_KINDS.contains k = true → (KindSet.new [pairEnd o]).contains k = false)
    ∧ (KindSet.new [pairEnd o]).contains e = true ∧ o ≠ .eof ∧ e ≠ .eof ∧ PAIR_START.contains o = true ∧ PAIR_END.contains e = true
    ∧ o ≠ .whitespace ∧ o ≠ .comment ∧ e ≠ .whitespace ∧ e ≠ .comment := by
  cases h <;> refine ⟨by decide, fun k => by cases k <;> decide, by decide, by decide, by decide, by decide, by decide, by decide, by decide, by decide, by decide⟩

theorem simpleBlock_ok {item : Prog ComponentValue} {k : Nat} (hi : ItemOk item k) {p : Parser} (hp : InValues p) {pre inner cs : List Cursor}
    {o e : Cursor} (hpre : ∀ x ∈ pre, x.token.kind = .comment) (hm : Mirror o.token.kind e.token.kind) (hin : Balanced inner) (hk : inner.length ≤ k)
    {m : Nat} (hlen : inner.length < m) (hS : Stream p.lexer (pre ++ o :: (inner ++ e :: cs))) :
    ∃ v q w, Gives (simpleBlock item m) p (.ok v) q w ∧ Matched v ∧ Stream q.lexer cs ∧ Elsewhere p q := by
  obtain ⟨s1, s2, s3, s4, s5, s6, s7, s8, s9, s10, s11⟩ := stop_disjoint hm
  have hot : ¬ IsTrivia o := by rintro (h | h); exact s8 h; exact s9 h
  have het : ¬ IsTrivia e := by rintro (h | h); exact s10 h; exact s11 h
  obtain ⟨q, n1, n2, n3⟩ := next_at hS (fun x hx => trivia_inSet hp (.inr (hpre x hx))) (notTrivia_inSet hp hot)
  have hq : InValues { q with stop := KindSet.new [pairEnd o.token.kind] } := ⟨n3.skip.trans hp.skip, s2⟩
  obtain ⟨vs, q2, w2, tr, j1, j2, j3, j4, j5⟩ := loop_ok hi m (acc := []) (T := e :: cs) hq hin hk hlen
    (.inr ⟨[], e, cs, rfl, by simp, het, .inl s3⟩) n2
  have hq3 : InValues { q2 with stop := q.stop } := ⟨j5.skip.trans hq.skip, fun k hk => by rw [show ({ q2 with stop := q.stop } : Parser).stop = q.stop from rfl, n3.stop]; exact hp.stop k hk⟩
  have hpe : ∀ x ∈ tr, x.token.inSet ({ q2 with stop := q.stop } : Parser).skip = true := fun x hx => trivia_inSet hq3 (j3 x hx)
  obtain ⟨q4, m1, m2, m3⟩ := next_at (p := { q2 with stop := q.stop }) j4 hpe (notTrivia_inSet hq3 het)
  have hend : e.token.inSet PAIR_END = true := by rw [inSet_kind s5]; exact s7
  have hbeg : o.token.inSet PAIR_START = true := by rw [inSet_kind s4]; exact s6
  refine ⟨.simpleBlock p.offset o.token vs (some e.token), q4, [] ++ ([o] ++ (w2 ++ ([] ++ ([e] ++ [])))), ?_, .block hm j2, m2, ⟨?_, ?_, ?_⟩⟩
  rotate_left
  · rw [m3.skip]; exact j5.skip.trans n3.skip
  · rw [m3.stop]; exact n3.stop
  · rw [m3.nested]; exact j5.nested.trans n3.nested
  unfold simpleBlock
  refine gives_seq (gives_offset.mpr ⟨rfl, rfl, rfl⟩) ?_
  refine gives_seq (gives_inSet_ok.mpr ⟨n1, rfl, hbeg⟩) ?_
  refine gives_setStop.mpr ?_
  refine gives_seq (gives_result.mpr ⟨_, j1, rfl⟩) ?_
  refine gives_setStop.mpr ?_
  refine gives_seq (gives_ofResult.mpr ⟨rfl, rfl, rfl⟩) ?_
  refine gives_of_peek (peek_of_next m1) ?_
  rw [if_pos hend]
  refine gives_seq (gives_result.mpr ⟨_, gives_inSet_ok.mpr ⟨m1, rfl, hend⟩, rfl⟩) ?_
  exact gives_pure.mpr ⟨rfl, rfl, rfl⟩

theorem functionBlock_ok {item : Prog ComponentValue} {k : Nat} (hi : ItemOk item k) {p : Parser} (hp : InValues p) {pre inner cs : List Cursor}
    {o e : Cursor} (hpre : ∀ x ∈ pre, x.token.kind = .comment) (ho : o.token.kind = .function) (he : e.token.kind = .rightParen)
    (hin : Balanced inner) (hk : inner.length ≤ k)
    {m : Nat} (hlen : inner.length < m) (hS : Stream p.lexer (pre ++ o :: (inner ++ e :: cs))) :
    ∃ v q w, Gives (functionBlock item m) p (.ok v) q w ∧ Matched v ∧ Stream q.lexer cs ∧ Elsewhere p q := by
  have hot : ¬ IsTrivia o := by rintro (h | h) <;> rw [ho] at h <;> cases h
  have het : ¬ IsTrivia e := by rintro (h | h) <;> rw [he] at h <;> cases h
  obtain ⟨q, n1, n2, n3⟩ := next_at hS (fun x hx => trivia_inSet hp (.inr (hpre x hx))) (notTrivia_inSet hp hot)
  obtain ⟨vs, q2, w2, tr, j1, j2, j3, j4, j5⟩ := functionLoop_ok hi m (acc := []) (T := cs) (hp.elsewhere n3) hin hk hlen he n2
  have hq2 := (hp.elsewhere n3).elsewhere j5
  obtain ⟨q4, m1, m2, m3⟩ := next_at j4 (fun x hx => trivia_inSet hq2 (j3 x hx)) (notTrivia_inSet hq2 het)
  refine ⟨.function o vs (some e), q4, [o] ++ (w2 ++ ([e] ++ [])), ?_, .function ho he j2, m2, n3.trans (j5.trans m3)⟩
  unfold functionBlock
  refine gives_seq (gives_isKind_ok.mpr ⟨n1, rfl, by rw [isKind_kind (by rw [ho]; decide)]; simp [ho]⟩) ?_
  refine gives_seq j1 ?_
  refine gives_seq (gives_result.mpr ⟨_, gives_isKind_ok.mpr ⟨m1, rfl, by rw [isKind_kind (by rw [he]; decide)]; simp [he]⟩, rfl⟩) ?_
  exact gives_pure.mpr ⟨rfl, rfl, rfl⟩

theorem item_ok (n : Nat) : ItemOk (componentValue n) n := by
  induction n with
  | zero =>
    intro p X T _ _ hl hx
    have : X = [] := List.length_eq_zero_iff.mp (by omega)
    subst this; simp at hx
  | succ n ih =>
    intro p X T hp hX hl hx hS
    obtain ⟨pre, Y, rfl, hpre, hY⟩ := split_comments X
    have hbY := balanced_comments hpre hX
    cases Y with
    | nil =>
      obtain ⟨c, hc, hn⟩ := hx
      exact absurd (.inr (hpre c (by simpa using hc))) hn
    | cons c Y =>
      have hcc : c.token.kind ≠ .comment := hY c rfl
      have hS' : Stream p.lexer (pre ++ c :: (Y ++ T)) := by simpa using hS
      have hprews : ∀ x ∈ pre, (x.token.inSet p.skip && !x.token.isKind .whitespace) = true := by
        intro x hx
        have hk := hpre x hx
        rw [trivia_inSet hp (.inr hk), isKind_kind (by rw [hk]; decide), hk]; rfl
      by_cases hw : c.token.kind = .whitespace
      · have hwk : c.token.isKind .whitespace = true := by rw [isKind_kind (by rw [hw]; decide), hw]; rfl
        have hws := ws_at hS' hprews (by rw [hwk]; simp)
        obtain ⟨q, n1, n2, n3⟩ := next_at (p := { p with skip := KindSet.COMMENTS }) hS'
          (fun x hx => by
            have hk := hpre x hx
            show x.token.inSet KindSet.COMMENTS = true
            rw [inSet_kind (by rw [hk]; decide), hk]; decide)
          (by show c.token.inSet KindSet.COMMENTS = false; rw [inSet_kind (by rw [hw]; decide), hw]; decide)
        have hbY' : Balanced Y := by
          generalize hl : c :: Y = l at hbY
          cases hbY with
          | nil => cases hl
          | single h1 h2 => cases hl; exact h2
          | block h1 h2 h3 => injection hl with h _; rw [← h, hw] at h1; cases h1
          | function h1 h2 h3 h4 => injection hl with h _; rw [← h, hw] at h1; cases h1
        refine ⟨.token c, { q with skip := p.skip }, [c], Y, ?_, .token, hbY', by simp; omega, n2, ⟨rfl, n3.stop, n3.nested⟩⟩
        unfold componentValue
        refine gives_of_peek (peekNext_stream hS) ?_
        refine gives_of_ws hws ?_
        rw [if_pos hwk]
        refine gives_seq (w1 := [c]) (w2 := []) (a := c) (p1 := { q with skip := p.skip }) ?_ (gives_pure.mpr ⟨rfl, rfl, rfl⟩)
        refine gives_setSkip.mpr (gives_next.mpr ⟨c, q, [], n1, gives_setSkip.mpr ?_, rfl⟩)
        rw [if_pos hwk]
        exact gives_pure.mpr ⟨rfl, rfl, rfl⟩
      · have hnt : ¬ IsTrivia c := by rintro (h | h); exact hw h; exact hcc h
        have hne := (balanced_first (pre := []) (by simp) hnt hbY).2
        have hprei : ∀ x ∈ pre, x.token.inSet p.skip = true := fun x hx => trivia_inSet hp (.inr (hpre x hx))
        have hwk : c.token.isKind .whitespace = false := by rw [isKind_kind hne]; simp [hw]
        have hws := ws_at hS' hprews (by rw [notTrivia_inSet hp hnt]; rfl)
        have hpeek := peek_at hS' hprei (notTrivia_inSet hp hnt)
        have key : ∃ v q w X', Gives (if c.token.inSet PAIR_START then
              setState true fun old => do
                let block ← result (simpleBlock (componentValue n) n)
                setState old fun _ => ofResult block
            else if c.token.isKind .function then functionBlock (componentValue n) n
            else if c.token.inSet CV_TOKENS then do
              let c ← tok (inSet CV_TOKENS)
              pure (.token c)
            else do
              let c ← take
              fail .unexpected c) p (.ok v) q w ∧ Matched v ∧ Balanced X' ∧ X'.length < (pre ++ c :: Y).length ∧ Stream q.lexer (X' ++ T) ∧ Elsewhere p q := by
          generalize hl2 : c :: Y = l at hbY
          cases hbY with
          | nil => cases hl2
          | single h1 h2 =>
            injection hl2 with e1 e2; subst e1; subst e2
            have hs : ∀ k ∈ Spec.singles, k ≠ Kind.comment → k ≠ .whitespace → PAIR_START.contains k = false ∧ k ≠ .function ∧ CV_TOKENS.contains k = true := by decide
            obtain ⟨a1, a2, a3⟩ := hs _ h1 hcc hw
            obtain ⟨q, n1, n2, n3⟩ := next_at hS' hprei (notTrivia_inSet hp hnt)
            refine ⟨.token c, q, [c], Y, ?_, .token, h2, by simp; omega, n2, n3⟩
            rw [if_neg (by rw [inSet_kind hne, a1]; simp), if_neg (by rw [isKind_kind hne]; simp [a2]), if_pos (by rw [inSet_kind hne, a3])]
            refine gives_seq (w1 := [c]) (w2 := []) (gives_inSet_ok.mpr ⟨n1, rfl, by rw [inSet_kind hne, a3]⟩) (gives_pure.mpr ⟨rfl, rfl, rfl⟩)
          | @block o inner e cs h1 h2 h3 =>
            injection hl2 with e1 e2; subst e1; subst e2
            obtain ⟨s1, s2, s3, s4, s5, s6, s7, s8, s9, s10, s11⟩ := stop_disjoint h1
            have hp' : InValues { p with nested := true } := ⟨hp.skip, hp.stop⟩
            obtain ⟨v, q, w, g1, g2, g3, g4⟩ := simpleBlock_ok ih (p := { p with nested := true }) hp' hpre h1 h2 (by simp at hl; omega) (m := n) (by simp at hl; omega)
              (by simpa using hS')
            refine ⟨v, { q with nested := p.nested }, w, cs, ?_, g2, h3, by simp; omega, g3, ⟨g4.skip, g4.stop, rfl⟩⟩
            rw [if_pos (by rw [inSet_kind hne]; exact s6)]
            refine gives_setState.mpr ?_
            rw [← List.append_nil w]
            refine gives_seq (gives_result.mpr ⟨_, g1, rfl⟩) ?_
            exact gives_setState.mpr (gives_ofResult.mpr ⟨rfl, rfl, rfl⟩)
          | @function o inner e cs h1 h2 h3 h4 =>
            injection hl2 with e1 e2; subst e1; subst e2
            obtain ⟨v, q, w, g1, g2, g3, g4⟩ := functionBlock_ok ih hp hpre h1 h2 h3 (by simp at hl; omega) (m := n) (by simp at hl; omega)
              (by simpa using hS')
            refine ⟨v, q, w, cs, ?_, g2, h4, by simp; omega, g3, g4⟩
            rw [if_neg (by rw [inSet_kind hne, h1]; decide), if_pos (by rw [isKind_kind hne, h1]; rfl)]
            exact g1
        obtain ⟨v, q, w, X', k1, k2⟩ := key
        refine ⟨v, q, w, X', ?_, k2⟩
        unfold componentValue
        refine gives_of_peek hpeek ?_
        refine gives_of_ws hws ?_
        rw [if_neg (by rw [hwk]; simp)]
        exact k1

end Hdx

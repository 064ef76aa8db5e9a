/-
Component values, from the tokens that are neither whitespace nor comments.
-/
import Verif.Spec.RawValues
import Verif.Lemmas.Steps
import Verif.Lemmas.Balanced

namespace Hdx
open Spec Prog
section
variable {src : List Char}

/-- After `p` comes a parser with fewer tokens, in the same modes. -/
structure Fewer (p q : Parser) : Prop where
  room : ∀ {m}, Room (m + 1) p → Room m q
  stop : q.stop = p.stop

theorem Room.mono {m n : Nat} {p : Parser} (h : Room m p) (hn : m ≤ n) : Room n p := fun t ht => Nat.lt_of_lt_of_le (h t ht) hn
theorem Room.congr {n : Nat} {p q : Parser} (h : Room n p) (e : q.lexer = p.lexer) : Room n q := fun t ht => h t (e ▸ ht)

theorem On.congr {p q : Parser} {ts : List Cursor} (h : On src p ts) (e : q.lexer = p.lexer) (hs : q.skip = p.skip) : On src q ts := by
  obtain ⟨h1, h2, cs, h3, h4, h5⟩ := h
  exact ⟨by rw [e]; exact h1, hs.trans h2, cs, by rw [e]; exact h3, h4, by rw [show q.fuel = p.fuel from fuel_same (by rw [e])]; exact h5⟩

/-- The next token, and what is left. -/
theorem On.step {p : Parser} {c : Cursor} {ts : List Cursor} (h : On src p (c :: ts)) : ∃ q, p.next = .ok (c, q) ∧ On src q ts ∧ Fewer p q := by
  obtain ⟨q, h1, h2⟩ := h.next
  refine ⟨q, h1, h2, ?_, ?_⟩
  · intro m hr
    obtain ⟨_, _, cs, hst, hs, _⟩ := h
    obtain ⟨l', a, b, _⟩ := next_stream hst
    rw [a] at h1
    cases h1
    intro t ht
    cases ht.det b
    have h3 := hr _ hst
    have h4 := (List.dropWhile_suffix (l := cs) (fun c => c.token.inSet p.skip)).length_le
    rw [List.length_tail]
    cases hcs : cs with
    | nil => rw [hcs] at hs; cases hs
    | cons x xs =>
      rw [hcs] at h3 h4
      simp at h3 h4
      omega
  · obtain ⟨_, _, cs, hst, hs, _⟩ := h
    obtain ⟨l', a, b, _⟩ := next_stream hst
    rw [a] at h1
    cases h1
    rfl

theorem On.peek {p : Parser} {c : Cursor} {ts : List Cursor} (h : On src p (c :: ts)) : p.peekNext = .ok c := by
  obtain ⟨q, h1, _⟩ := h.next
  exact peek_of_next h1

theorem On.nextIsStop {p : Parser} {c : Cursor} {ts : List Cursor} (h : On src p (c :: ts)) : p.nextIsStop = .ok (p.stop.contains c.token.kind) := by
  obtain ⟨_, hskip, cs, hst, hs, _⟩ := h
  obtain ⟨pre, rest, rfl, h1, h2, h3⟩ := List.filter_eq_cons_iff.mp hs
  exact stop_at hst (by rw [hskip]; decide) (fun x hx => by simpa [hskip] using h1 x hx) (by simpa [hskip] using h2)

theorem On.notTrivia {p : Parser} {ts : List Cursor} (h : On src p ts) : ∀ c ∈ ts, ¬ IsTrivia c := by
  obtain ⟨_, _, cs, _, hs, _⟩ := h
  intro c hc ht
  rw [← hs] at hc
  have := (List.mem_filter.mp hc).2
  rw [isTrivia_inSet ht] at this
  cases this

/-- Whitespace is ahead, or it is not. -/
theorem On.ws {p : Parser} {ts : List Cursor} (h : On src p ts) :
    (∃ c q, (∀ d, Gives (isWs d) p (.ok true) p []) ∧ Gives whitespace p (.ok c) q [c] ∧ c.token.kind = .whitespace ∧ On src q ts ∧ Fewer p q) ∨ ∀ d, Gives (isWs d) p (.ok false) p [] := by
  obtain ⟨hsrc, hs, tail, hl, ht, hf⟩ := h
  have hws := peekWs_stream hl
  have hg : ∀ d, Gives (isWs d) p (.ok ((firstWsOrOutside p.lexer p.skip tail).token.isKind .whitespace)) p [] := fun d => gives_ask.mpr ⟨_, by rw [hws]; rfl, rfl, rfl, rfl⟩
  by_cases hw : (firstWsOrOutside p.lexer p.skip tail).token.isKind .whitespace = true
  · left
    have hdrop : tail.dropWhile (fun c => c.token.inSet p.skip && !c.token.isKind .whitespace) = tail.dropWhile fun c => c.token.inSet KindSet.COMMENTS := by
      rw [hs]
      congr 1
      funext c
      exact comment_iff
    obtain ⟨l', a, b, c1, c2⟩ := next_stream (p := { p with skip := KindSet.COMMENTS }) hl
    cases hd : tail.dropWhile (fun c => c.token.inSet KindSet.COMMENTS) with
    | nil =>
      unfold firstWsOrOutside at hw
      rw [hdrop, hd] at hw
      exact absurd hw (by show ¬ Token.EOF.isKind .whitespace = true; decide)
    | cons c more =>
      have hcw : c.token.isKind .whitespace = true := by
        unfold firstWsOrOutside at hw
        rw [hdrop, hd] at hw
        exact hw
      dsimp only at a b c1
      rw [hd] at b
      have e1 : firstOutside p.lexer KindSet.COMMENTS tail = c := by unfold firstOutside; rw [hd]; rfl
      rw [e1] at a
      have hlen : more.length < tail.length := by
        have := (List.dropWhile_suffix (l := tail) (fun c => c.token.inSet KindSet.COMMENTS)).length_le
        rw [hd] at this
        exact this
      refine ⟨c, { p with lexer := l', trivia := p.trivia ++ tail.takeWhile (fun c => c.token.inSet KindSet.COMMENTS) }, fun d => by rw [← hw]; exact hg d, ?_, ?_, ⟨c1.trans hsrc, hs, more, b, ?_, ?_⟩, ?_, rfl⟩
      · unfold whitespace
        refine gives_setSkip.mpr (gives_next.mpr ⟨c, _, [], a, gives_setSkip.mpr ?_, rfl⟩)
        rw [if_pos hcw]
        exact gives_pure.mpr ⟨rfl, rfl, rfl⟩
      · exact (isKind_iff (by decide)).mp hcw
      · have e : tail = tail.takeWhile (fun c => c.token.inSet KindSet.COMMENTS) ++ c :: more := by
          rw [← hd]
          exact List.takeWhile_append_dropWhile.symm
        have e' := congrArg solid e
        rw [ht, solid_append, solid_gap] at e'
        · rw [e']
          unfold solid
          rw [List.filter_cons_of_neg]
          · rfl
          · rw [inSet_of_kind (k := .whitespace) (by decide) hcw]; decide
        · intro d hd'
          have h1 := takeWhile_spec hd'
          have h2 := comment_iff (t := d.token)
          rw [h1] at h2
          exact (Bool.and_eq_true_iff.mp h2).1
      · have : ({ p with lexer := l', trivia := p.trivia ++ tail.takeWhile (fun c => c.token.inSet KindSet.COMMENTS) } : Parser).fuel = p.fuel := fuel_same c1
        rw [this]; omega
      · intro m hr t h2
        cases h2.det b
        have := hr _ hl
        show more.length < m
        omega
  · right
    intro d
    have := hg d
    rw [Bool.eq_false_iff.mpr hw] at this
    exact this

/-- One component value. -/
inductive Unit' : List Cursor → Prop
  | single {c : Cursor} : c.token.kind ∈ valueKinds → Unit' [c]
  | block {o e : Cursor} {inner : List Cursor} : Mirror o.token.kind e.token.kind → Balanced inner → Unit' (o :: (inner ++ [e]))
  | function {f e : Cursor} {inner : List Cursor} : f.token.kind = .function → e.token.kind = .rightParen → Balanced inner → Unit' (f :: (inner ++ [e]))

theorem Unit'.first {u : List Cursor} (h : Unit' u) : ∃ c us, u = c :: us ∧ CV_KINDS.contains c.token.kind = true ∧ c.token.kind ≠ .eof ∧ c.token.kind ≠ .whitespace := by
  cases h with
  | @single c h =>
    refine ⟨c, _, rfl, ?_⟩
    revert h; cases c.token.kind <;> decide
  | @block o e inner h _ =>
    refine ⟨o, _, rfl, ?_⟩
    revert h
    cases o.token.kind <;> cases e.token.kind <;> intro h <;> cases h <;> decide
  | @function f e inner h _ _ => exact ⟨f, _, rfl, by rw [h]; decide⟩

/-- Values, one after the other, that do not begin with a token at which the loop stops. -/
inductive Units (S : KindSet) : List Cursor → Prop
  | nil : Units S []
  | cons {u ts : List Cursor} {c : Cursor} : Unit' u → c ∈ u.head? → S.contains c.token.kind = false → Units S ts → Units S (u ++ ts)

/-- What one component value becomes. -/
def UnitBecomes (u : List Cursor) (v : ComponentValue) : Prop := ∀ {ts vs}, ReadsAs ts vs → ReadsAs (u ++ ts) (v :: vs)

/-- What the parser of one value does. -/
def ItemRuns (src : List Char) (n : Nat) : Prop := ∀ (p : Parser) (u rest : List Cursor), Unit' u → On src p (u ++ rest) → Room n p →
  ∃ v q w, Gives (componentValue n) p (.ok v) q w ∧ Fewer p q ∧ ((∃ c, v = .token c ∧ c.token.kind = .whitespace ∧ On src q (u ++ rest)) ∨ (UnitBecomes u v ∧ On src q rest))

theorem loop_runs {n : Nat} (hi : ItemRuns src n) {S : KindSet} {e : Cursor} {rest : List Cursor} (he : S.contains e.token.kind = true) :
    ∀ (m : Nat) {p : Parser} {X : List Cursor} {acc : List ComponentValue}, Units S X → On src p (X ++ e :: rest) → Room m p → Room n p → p.stop = S →
      ∃ vs q w, Gives (componentValuesLoop (componentValue n) m acc) p (.ok (acc ++ vs)) q w ∧ On src q (e :: rest) ∧ q.stop = S ∧ ReadsAs X vs := by
  intro m
  induction m with
  | zero =>
    intro p X acc _ ho hr
    obtain ⟨cs, hst, _⟩ := ho.stream
    exact absurd (hr _ hst) (by omega)
  | succ m ih =>
    intro p X acc hX ho hm hn hS
    cases hX with
    | nil =>
      refine ⟨[], p, [], ?_, ho, hS, .nil⟩
      unfold componentValuesLoop
      refine gives_of_atEnd ?_
      rw [ho.not_end, if_neg (by simp)]
      refine gives_of_stop ho.nextIsStop ?_
      rw [hS, if_pos he, List.append_nil]
      exact gives_pure.mpr ⟨rfl, rfl, rfl⟩
    | @cons u ts c hu hc hSc hts =>
      rw [List.append_assoc] at ho
      obtain ⟨c', us, rfl, hcv, hne, _⟩ := hu.first
      cases hc
      obtain ⟨v, q, w, i1, i2, i3⟩ := hi _ _ _ hu ho hn
      have key : ∃ vs q2 w2, Gives (componentValuesLoop (componentValue n) m (acc ++ [v])) q (.ok (acc ++ [v] ++ vs)) q2 w2 ∧ On src q2 (e :: rest) ∧ q2.stop = S ∧ ReadsAs (c :: us ++ ts) (v :: vs) := by
        have hn' : Room n q := by
          cases n with
          | zero =>
            obtain ⟨cs, hst, _⟩ := ho.stream
            exact absurd (hn _ hst) (by omega)
          | succ n => exact (i2.room hn).mono (by omega)
        rcases i3 with ⟨d, rfl, hd, ho'⟩ | ⟨hb, ho'⟩
        · obtain ⟨vs, q2, w2, j1, j2, j3, j4⟩ := ih (acc := acc ++ [.token d]) (.cons hu rfl hSc hts) (by rw [List.append_assoc]; exact ho') (i2.room hm) hn' (i2.stop.trans hS)
          exact ⟨vs, q2, w2, j1, j2, j3, .space hd j4⟩
        · obtain ⟨vs, q2, w2, j1, j2, j3, j4⟩ := ih (acc := acc ++ [v]) hts ho' (i2.room hm) hn' (i2.stop.trans hS)
          exact ⟨vs, q2, w2, j1, j2, j3, hb j4⟩
      obtain ⟨vs, q2, w2, j1, j2, j3, j4⟩ := key
      refine ⟨v :: vs, q2, w ++ w2, ?_, j2, j3, j4⟩
      unfold componentValuesLoop
      refine gives_of_atEnd ?_
      rw [On.not_end (c := c) ho, if_neg (by simp)]
      refine gives_of_stop (On.nextIsStop ho) ?_
      rw [hS, hSc, if_neg (by simp)]
      refine gives_of_peek (On.peek ho) ?_
      rw [inSet_kind hne, if_pos hcv, show acc ++ v :: vs = acc ++ [v] ++ vs by simp]
      exact gives_seq (f := fun v => componentValuesLoop (componentValue n) m (acc ++ [v])) i1 j1

theorem functionLoop_runs {n : Nat} (hi : ItemRuns src n) {S : KindSet} {e : Cursor} {rest : List Cursor} (he : e.token.kind = .rightParen) :
    ∀ (m : Nat) {p : Parser} {X : List Cursor} {acc : List ComponentValue}, Units (KindSet.new [.rightParen]) X → On src p (X ++ e :: rest) → Room m p → Room n p → p.stop = S →
      ∃ vs q w, Gives (functionLoop (componentValue n) m acc) p (.ok (acc ++ vs)) q w ∧ On src q (e :: rest) ∧ q.stop = S ∧ ReadsAs X vs := by
  intro m
  induction m with
  | zero =>
    intro p X acc _ ho hr
    obtain ⟨cs, hst, _⟩ := ho.stream
    exact absurd (hr _ hst) (by omega)
  | succ m ih =>
    intro p X acc hX ho hm hn hS
    cases hX with
    | nil =>
      refine ⟨[], p, [], ?_, ho, hS, .nil⟩
      unfold functionLoop
      refine gives_of_atEnd ?_
      rw [ho.not_end, if_neg (by simp)]
      refine gives_of_peek (On.peek ho) ?_
      rw [isKind_kind (by rw [he]; decide), if_pos (by simp [he]), List.append_nil]
      exact gives_pure.mpr ⟨rfl, rfl, rfl⟩
    | @cons u ts c hu hc hSc hts =>
      rw [List.append_assoc] at ho
      obtain ⟨c', us, rfl, hcv, hne, _⟩ := hu.first
      cases hc
      obtain ⟨v, q, w, i1, i2, i3⟩ := hi _ _ _ hu ho hn
      have key : ∃ vs q2 w2, Gives (functionLoop (componentValue n) m (acc ++ [v])) q (.ok (acc ++ [v] ++ vs)) q2 w2 ∧ On src q2 (e :: rest) ∧ q2.stop = S ∧ ReadsAs (c :: us ++ ts) (v :: vs) := by
        have hn' : Room n q := by
          cases n with
          | zero =>
            obtain ⟨cs, hst, _⟩ := ho.stream
            exact absurd (hn _ hst) (by omega)
          | succ n => exact (i2.room hn).mono (by omega)
        rcases i3 with ⟨d, rfl, hd, ho'⟩ | ⟨hb, ho'⟩
        · obtain ⟨vs, q2, w2, j1, j2, j3, j4⟩ := ih (acc := acc ++ [.token d]) (.cons hu rfl hSc hts) (by rw [List.append_assoc]; exact ho') (i2.room hm) hn' (i2.stop.trans hS)
          exact ⟨vs, q2, w2, j1, j2, j3, .space hd j4⟩
        · obtain ⟨vs, q2, w2, j1, j2, j3, j4⟩ := ih (acc := acc ++ [v]) hts ho' (i2.room hm) hn' (i2.stop.trans hS)
          exact ⟨vs, q2, w2, j1, j2, j3, hb j4⟩
      obtain ⟨vs, q2, w2, j1, j2, j3, j4⟩ := key
      refine ⟨v :: vs, q2, w ++ w2, ?_, j2, j3, j4⟩
      unfold functionLoop
      refine gives_of_atEnd ?_
      rw [On.not_end (c := c) ho, if_neg (by simp)]
      refine gives_of_peek (On.peek ho) ?_
      rw [isKind_kind hne, if_neg, show acc ++ v :: vs = acc ++ [v] ++ vs by simp]
      · exact gives_seq (f := fun v => functionLoop (componentValue n) m (acc ++ [v])) i1 j1
      · intro hk
        rw [of_decide_eq_true hk] at hSc
        exact absurd hSc (by decide)

/-- A well-bracketed sequence, if no token in it is whitespace or a comment. -/
theorem units_of_balanced {S : KindSet} (hS : ∀ k, CV_KINDS.contains k = true → S.contains k = false) {X : List Cursor} (h : Balanced X) (ht : ∀ c ∈ X, ¬ IsTrivia c) : Units S X := by
  have go : ∀ {u ts : List Cursor}, Unit' u → Units S ts → Units S (u ++ ts) := fun hu hts => by
    obtain ⟨c, us, rfl, hcv, _⟩ := hu.first
    exact .cons hu rfl (hS _ hcv) hts
  induction h with
  | nil => exact .nil
  | @single c cs hc _ ih =>
    refine go (u := [c]) (.single ?_) (ih fun x hx => ht x (by simp [hx]))
    have := ht c (by simp)
    revert hc this
    unfold IsTrivia
    cases c.token.kind <;> decide
  | @block o inner e cs hm hi _ _ ih =>
    have := go (u := o :: (inner ++ [e])) (ts := cs) (.block hm hi) (ih fun x hx => ht x (by simp [hx]))
    simpa using this
  | @function f inner e cs h1 h2 hi _ _ ih =>
    have := go (u := f :: (inner ++ [e])) (ts := cs) (.function h1 h2 hi) (ih fun x hx => ht x (by simp [hx]))
    simpa using this

theorem room_between {α : Type} {x : Prog α} {p q : Parser} {r : Except Diag α} {w A : List Cursor} (h : On src p A) (g : Gives x p r q w) {m : Nat} (hr : Room m p) : Room m q := by
  obtain ⟨cs, hst, _⟩ := h.stream
  obtain ⟨cs', g1, g2⟩ := runLog_suffix _ g hst
  intro t ht
  cases ht.det g1
  exact Nat.lt_of_le_of_lt g2.length_le (hr _ hst)

theorem item_runs : ∀ n : Nat, ItemRuns src n
  | 0 => by
    intro _ _ _ _ ho hr
    obtain ⟨cs, hst, _⟩ := ho.stream
    exact absurd (hr _ hst) (by omega)
  | n + 1 => by
    intro p u rest hu ho hr
    have hi := item_runs n
    obtain ⟨c, us, rfl, hcv, hne, hnw⟩ := hu.first
    rcases ho.ws with ⟨d, q, h1, h2, h3, h4, h5⟩ | hnows
    · refine ⟨.token d, q, [d], ?_, h5, .inl ⟨d, rfl, h3, h4⟩⟩
      unfold componentValue
      refine gives_of_peek ho.peek (gives_seq (w1 := []) (h1 _) ?_)
      rw [if_pos rfl]
      exact gives_seq (f := fun c => (Pure.pure (ComponentValue.token c) : Prog _)) h2 (gives_pure.mpr ⟨rfl, rfl, rfl⟩)
    · have hun : ∀ {r q w}, Gives (if c.token.inSet PAIR_START = true then
            setState true fun old => do
              let block ← result (simpleBlock (componentValue n) n)
              setState old fun _ => ofResult block
          else if c.token.isKind .function = true then functionBlock (componentValue n) n
          else if c.token.inSet CV_TOKENS = true then do
            let c ← tok (inSet CV_TOKENS)
            pure (.token c)
          else do
            let c ← take
            fail .unexpected c) p r q w → Gives (componentValue (n + 1)) p r q w := by
        intro r q w h
        unfold componentValue
        refine gives_of_peek ho.peek (gives_seq (w1 := []) (hnows _) ?_)
        exact h
      obtain ⟨q, n1, n2, n3⟩ := On.step ho
      cases hu with
      | @single c hk =>
        refine ⟨.token c, q, [c], hun ?_, n3, .inr ⟨fun h => .single hk h, n2⟩⟩
        have e1 : c.token.inSet PAIR_START = false := by rw [inSet_kind hne]; revert hk; cases c.token.kind <;> decide
        have e2 : c.token.isKind .function = false := by rw [isKind_kind hne]; revert hk; cases c.token.kind <;> decide
        have e3 : c.token.inSet CV_TOKENS = true := by rw [inSet_kind hne]; revert hk; cases c.token.kind <;> decide
        rw [if_neg (by simp [e1]), if_neg (by simp [e2]), if_pos e3]
        exact gives_seq (f := fun c => (Pure.pure (ComponentValue.token c) : Prog _)) (gives_inSet_ok.mpr ⟨n1, rfl, e3⟩) (gives_pure.mpr ⟨rfl, rfl, rfl⟩)
      | @function _ e inner h1 h2 hb =>
        have n2' : On src q (inner ++ e :: rest) := by simpa using n2
        have hX : Units (KindSet.new [.rightParen]) inner := units_of_balanced (fun k => by cases k <;> decide) hb fun x hx => n2'.notTrivia x (by simp [hx])
        obtain ⟨vs, q2, w2, j1, j2, j3, j4⟩ := functionLoop_runs hi (S := q.stop) h2 n (acc := []) hX n2' (n3.room hr) (n3.room hr) rfl
        obtain ⟨q4, m1, m2, m3⟩ := On.step j2
        have hroom : ∀ {m}, Room (m + 1) p → Room m q4 := fun hm => m3.room (room_between n2' j1 (n3.room hm) |>.mono (Nat.le_succ _))
        refine ⟨.function c vs (some e), q4, [c] ++ (w2 ++ ([e] ++ [])), hun ?_, ⟨hroom, m3.stop.trans (j3.trans n3.stop)⟩, .inr ⟨fun h => ?_, m2⟩⟩
        · have e1 : c.token.inSet PAIR_START = false := by rw [inSet_kind hne, h1]; decide
          have e2 : c.token.isKind .function = true := by rw [isKind_kind hne, h1]; decide
          have e3 : e.token.isKind .rightParen = true := by rw [isKind_kind (by rw [h2]; decide), h2]; decide
          rw [if_neg (by simp [e1]), if_pos e2]
          unfold functionBlock
          refine gives_seq (gives_tok.mpr ⟨c, n1, rfl, by rw [if_pos e2]⟩) (gives_seq j1 (gives_seq (gives_result.mpr ⟨_, gives_tok.mpr ⟨e, m1, rfl, rfl⟩, rfl⟩) ?_))
          rw [if_pos e3]
          exact gives_pure.mpr ⟨rfl, rfl, rfl⟩
        · have := ReadsAs.function (f := c) (e := e) h1 h2 j4 h
          simpa using this
      | @block _ e inner hm hb =>
        obtain ⟨s1, s2, s3, s4, s5, s6, s7, s8, s9, s10, s11⟩ := stop_disjoint hm
        clear n1 n2 n3 q
        obtain ⟨q, n1', n2, n3'⟩ := On.step (p := { p with nested := true }) (ho.congr rfl rfl)
        have n3 : Fewer p q := ⟨fun hm => n3'.room (hm.congr rfl), n3'.stop⟩
        have n2' : On src q (inner ++ e :: rest) := by simpa using n2
        have hX : Units (KindSet.new [pairEnd c.token.kind]) inner := units_of_balanced s2 hb fun x hx => n2'.notTrivia x (by simp [hx])
        obtain ⟨vs, q2, w2, j1, j2, j3, j4⟩ := loop_runs hi (S := KindSet.new [pairEnd c.token.kind]) s3 n (p := { q with stop := KindSet.new [pairEnd c.token.kind] }) (acc := [])
          hX (n2'.congr rfl rfl) ((n3.room hr).congr rfl) ((n3.room hr).congr rfl) rfl
        have j2' : On src { q2 with stop := q.stop } (e :: rest) := j2.congr rfl rfl
        obtain ⟨q4, m1, m2, m3⟩ := On.step j2'
        have hroom : ∀ {m}, Room (m + 1) p → Room m q4 := fun hm =>
          m3.room (Room.congr (p := q2) (room_between (p := { q with stop := KindSet.new [pairEnd c.token.kind] }) (n2'.congr rfl rfl) j1 ((n3.room hm).congr rfl)) rfl |>.mono (Nat.le_succ _))
        have hend : e.token.inSet PAIR_END = true := by rw [inSet_kind s5]; exact s7
        have hbeg : c.token.inSet PAIR_START = true := by rw [inSet_kind s4]; exact s6
        refine ⟨.simpleBlock ({ p with nested := true } : Parser).offset c.token vs (some e.token), { q4 with nested := p.nested }, ([] ++ ([c] ++ (w2 ++ ([] ++ ([e] ++ []))))) ++ [], hun ?_,
          ⟨fun hm => (hroom hm).congr rfl, m3.stop.trans n3.stop⟩, .inr ⟨fun h => ?_, m2.congr rfl rfl⟩⟩
        · rw [if_pos hbeg]
          refine gives_setState.mpr (gives_seq (gives_result.mpr ⟨_, ?_, rfl⟩) (gives_setState.mpr (gives_ofResult.mpr ⟨rfl, rfl, rfl⟩)))
          unfold simpleBlock
          refine gives_seq (gives_offset.mpr ⟨rfl, rfl, rfl⟩) ?_
          refine gives_seq (gives_inSet_ok.mpr ⟨n1', rfl, hbeg⟩) ?_
          refine gives_setStop.mpr ?_
          refine gives_seq (gives_result.mpr ⟨_, j1, rfl⟩) ?_
          refine gives_setStop.mpr ?_
          refine gives_seq (gives_ofResult.mpr ⟨rfl, rfl, rfl⟩) ?_
          refine gives_of_peek (peek_of_next m1) ?_
          rw [if_pos hend]
          refine gives_seq (gives_result.mpr ⟨_, gives_inSet_ok.mpr ⟨m1, rfl, hend⟩, rfl⟩) ?_
          exact gives_pure.mpr ⟨rfl, rfl, rfl⟩
        · have := ReadsAs.block (o := c) (e := e) (start := ({ p with nested := true } : Parser).offset) hm j4 h
          simpa using this
end
end Hdx

/-
Programs on the remaining tokens, whitespace and comments included.
-/
import Verif.Props.ValueAccepts
import Verif.Props.SelectorAccepts
import Verif.Lemmas.SelectorModes

namespace Hdx
open Spec Prog

/-- A program only moves forward. -/
theorem runLog_suffix {α : Type} (x : Prog α) : ∀ {p q : Parser} {r : Except Diag α} {w cs : List Cursor}, x.runLog p = .ok (r, q, w) → Stream p.lexer cs →
    ∃ cs', Stream q.lexer cs' ∧ cs' <:+ cs := by
  induction x with
  | ret r => intro p q r w cs h hs; simp only [runLog, Except.ok.injEq, Prod.mk.injEq] at h; obtain ⟨_, rfl, _⟩ := h; exact ⟨cs, hs, List.suffix_rfl⟩
  | panic e => intro p q r w cs h; simp [runLog] at h
  | read k ih => intro p q r w cs h hs; exact ih p h hs
  | next k ih =>
    intro p q r w cs h hs
    obtain ⟨l', a, b, _⟩ := next_stream hs
    simp only [runLog, a] at h
    generalize hr : (k _).runLog _ = res at h
    cases res with
    | error e => simp [Except.map] at h
    | ok y =>
      simp only [Except.map, Except.ok.injEq, Prod.mk.injEq] at h
      obtain ⟨_, rfl, _⟩ := h
      obtain ⟨cs', h1, h2⟩ := ih _ (q := y.2.1) (r := y.1) (w := y.2.2) hr b
      exact ⟨cs', h1, h2.trans ((List.tail_suffix _).trans (List.dropWhile_suffix _))⟩
  | consumeTrivia k ih =>
    intro p q r w cs h hs
    obtain ⟨l', tr', g1, g2, g4⟩ := consumeTriviaLoop_exact (skip := p.skip) hs p.trivia
    have e : p.consumeTrivia = .ok { p with lexer := l', trivia := tr' } := by unfold Parser.consumeTrivia; rw [g1]; rfl
    simp only [runLog, e] at h
    obtain ⟨cs', h1, h2⟩ := ih h g2
    exact ⟨cs', h1, h2.trans (List.dropWhile_suffix _)⟩
  | setSkip s k ih => intro p q r w cs h hs; exact ih p.skip h hs
  | setStop s k ih => intro p q r w cs h hs; exact ih p.stop h hs
  | setState s k ih => intro p q r w cs h hs; exact ih p.nested h hs
  | attempt body keep k ihb ihk =>
    intro p q r w cs h hs
    simp only [runLog] at h
    cases hb : body.runLog p with
    | error e => rw [hb] at h; cases h
    | ok y =>
      obtain ⟨r1, p1, w1⟩ := y
      rw [hb] at h
      simp only at h
      obtain ⟨cs1, h1, h2⟩ := ihb hb hs
      split at h
      · generalize hr : (k r1).runLog p1 = res at h
        cases res with
        | error e => simp [Except.map] at h
        | ok y =>
          simp only [Except.map, Except.ok.injEq, Prod.mk.injEq] at h
          obtain ⟨_, rfl, _⟩ := h
          obtain ⟨cs', h3, h4⟩ := ihk _ (q := y.2.1) (r := y.1) (w := y.2.2) hr h1
          exact ⟨cs', h3, h4.trans h2⟩
      · have hsrc := runLog_source body hb
        exact ihk _ h (Stream.congr hs hsrc.1 hsrc.2 rfl)

/-- The tokens from the first one that is neither whitespace nor a comment. -/
def ahead (cs : List Cursor) : List Cursor := cs.dropWhile fun c => c.token.inSet KindSet.TRIVIA

theorem solid_ahead (cs : List Cursor) : solid (ahead cs) = solid cs := by
  induction cs with
  | nil => rfl
  | cons c cs ih =>
    unfold ahead solid at *
    by_cases h : c.token.inSet KindSet.TRIVIA = true
    · rw [List.dropWhile_cons_of_pos (a := c) h, ih, List.filter_cons_of_neg (by simp [h])]
    · rw [List.dropWhile_cons_of_neg (a := c) h]

theorem solid_append (a b : List Cursor) : solid (a ++ b) = solid a ++ solid b := List.filter_append ..

theorem solid_gap {g : List Cursor} (h : Gap g) : solid g = [] := List.filter_eq_nil_iff.mpr fun c hc => by simp [h c hc]
theorem gap_of_solid {g : List Cursor} (h : solid g = []) : Gap g := fun c hc => by simpa using List.filter_eq_nil_iff.mp h c hc

theorem ahead_gap {g cs : List Cursor} (h : Gap g) : ahead (g ++ cs) = ahead cs := List.dropWhile_append_of_pos h

theorem ahead_suffix {a b : List Cursor} (h : a <:+ b) : ahead a <:+ ahead b := by
  obtain ⟨pre, rfl⟩ := h
  induction pre with
  | nil => exact List.suffix_rfl
  | cons c pre ih =>
    rw [List.cons_append]
    by_cases h : c.token.inSet KindSet.TRIVIA = true
    · unfold ahead at *
      rw [List.dropWhile_cons_of_pos (a := c) h]
      exact ih
    · unfold ahead at *
      rw [List.dropWhile_cons_of_neg (a := c) h]
      exact (List.dropWhile_suffix _).trans ((List.suffix_append pre a).trans (List.suffix_cons c _))

theorem ahead_head {cs : List Cursor} {c : Cursor} {more : List Cursor} (h : ahead cs = c :: more) : c.token.inSet KindSet.TRIVIA = false := by
  have := List.head?_dropWhile_not (fun c : Cursor => c.token.inSet KindSet.TRIVIA) cs
  unfold ahead at h
  rw [h] at this
  simpa using this

theorem ahead_same {x y a b : List Cursor} (ha : a <:+ x) (hb : b <:+ y) (h : ahead x = ahead y) (hs : solid a = solid b) : ahead a = ahead b := by
  have key : ∀ {a b : List Cursor}, ahead a <:+ ahead b → solid a = solid b → ahead a = ahead b := by
    intro a b h1 h2
    obtain ⟨g, hg⟩ := h1
    rw [← solid_ahead a, ← solid_ahead b, ← hg, solid_append] at h2
    have hn : solid g = [] := by
      have := congrArg List.length h2
      rw [List.length_append] at this
      exact List.length_eq_zero_iff.mp (by omega)
    cases g with
    | nil => exact hg
    | cons c g =>
      have := gap_of_solid hn c (.head _)
      rw [ahead_head hg.symm] at this
      cases this
  have h1 := ahead_suffix ha
  have h2 := ahead_suffix hb
  rw [h] at h1
  rcases List.suffix_or_suffix_of_suffix h1 h2 with h3 | h3
  · exact key h3 hs
  · exact (key h3 hs.symm).symm

/-- The parser is in `src`, skips whitespace and comments, and the tokens ahead are `cs`; whitespace and comments before the first other token are left open. -/
structure Stands (src : List Char) (p : Parser) (cs : List Cursor) : Prop where
  skip : p.skip = KindSet.TRIVIA
  left : ∃ tail, Left src p tail ∧ ahead tail = ahead cs ∧ tail.length + 1 < p.fuel

section
variable {src : List Char} {α β : Type}

theorem Stands.on {p : Parser} {cs : List Cursor} (h : Stands src p cs) : On src p (solid cs) := by
  obtain ⟨hs, tail, hl, ht, hf⟩ := h
  exact ⟨hl.source, hs, tail, hl.stream, by rw [← solid_ahead, ht, solid_ahead], hf⟩

theorem Stands.gap {p : Parser} {g cs : List Cursor} (hg : Gap g) : Stands src p (g ++ cs) ↔ Stands src p cs := by
  constructor <;> rintro ⟨hs, tail, hl, ht, hf⟩
  · exact ⟨hs, tail, hl, by rw [ht, ahead_gap hg], hf⟩
  · exact ⟨hs, tail, hl, by rw [ht, ahead_gap hg], hf⟩

theorem Left.moved {p : Parser} {q : Parser} {tail cs : List Cursor} (h : Left src p tail) (hs : Stream q.lexer cs) (hsuf : cs <:+ tail) (hsrc : q.lexer.source = src)
    (hq : q.skip = KindSet.TRIVIA) : Left src q cs := ⟨hsrc, hs, by rw [hq]; exact .lit (by decide), fun c hc => h.names c (hsuf.subset hc)⟩

/-- Fewer than `n` tokens remain. -/
def Room (n : Nat) (p : Parser) : Prop := ∀ tail, Stream p.lexer tail → tail.length < n

theorem Room.after {n : Nat} {p q : Parser} {cs : List Cursor} {x : Prog α} {r : Except Diag α} {w : List Cursor} (h : Room n p) (hp : Stands src p cs) (hg : Gives x p r q w) : Room n q := by
  obtain ⟨_, tail, hl, _, _⟩ := hp
  obtain ⟨cs1, g1, g2⟩ := runLog_suffix x hg hl.stream
  intro t ht
  cases ht.det g1
  have := h _ hl.stream
  have := g2.length_le
  omega

theorem Room.less {n : Nat} {p q : Parser} {cs cs' : List Cursor} {x : Prog α} {r : Except Diag α} {w : List Cursor} (h : Room (n + 1) p) (hp : Stands src p cs) (hg : Gives x p r q w)
    (hq : Stands src q cs') (hne : solid cs' ≠ solid cs) : Room n q := by
  obtain ⟨_, tail, hl, ht, _⟩ := hp
  obtain ⟨_, tail', hl', ht', _⟩ := hq
  obtain ⟨cs1, g1, g2⟩ := runLog_suffix x hg hl.stream
  cases hl'.stream.det g1
  intro t h2
  cases h2.det g1
  have h3 := h _ hl.stream
  have h4 := g2.length_le
  have : tail'.length ≠ tail.length := by
    intro e
    rw [g2.eq_of_length e] at ht'
    exact hne (by rw [← solid_ahead cs', ← ht', ht, solid_ahead])
  omega

/-- On the tokens `cs`, of which there are fewer than `n`, the program succeeds, `cs'` are left, and `P` holds of the result. -/
def Steps (src : List Char) (n : Nat) (cs : List Cursor) (x : Prog α) (cs' : List Cursor) (P : α → Prop) : Prop :=
  ∀ ⦃p : Parser⦄, Stands src p cs → Room n p → ∃ a q w, Gives x p (.ok a) q w ∧ Stands src q cs' ∧ P a

theorem fuel_same {p q : Parser} (h : q.lexer.source = p.lexer.source) : q.fuel = p.fuel := by simp only [Parser.fuel, h]

theorem Yields.steps {n : Nat} {cs cs' : List Cursor} {x : Prog α} {P : α → Prop} (h : Yields src (solid cs) x (solid cs') P) (hsuf : cs' <:+ cs) : Steps src n cs x cs' P := by
  intro p hp _
  obtain ⟨a, q, w, h1, h2, h3⟩ := h hp.on
  obtain ⟨hs, tail, hl, ht, hf⟩ := hp
  obtain ⟨cs1, g1, g2⟩ := runLog_suffix x h1 hl.stream
  obtain ⟨cs2, k1, k2, k3⟩ := h2.stream
  cases k1.det g1
  refine ⟨a, q, w, h1, ⟨h2.skip, _, hl.moved g1 g2 h2.source h2.skip, ahead_same g2 hsuf ht k2, k3⟩, h3⟩

namespace Steps
variable {n : Nat} {cs cs1 cs' : List Cursor} {P : α → Prop} {Q : β → Prop}

theorem pure {a : α} (h : P a) : Steps src n cs (Pure.pure a) cs P := fun p hp _ => ⟨a, p, [], gives_pure.mpr ⟨rfl, rfl, rfl⟩, hp, h⟩
theorem bind {x : Prog α} {f : α → Prog β} (hx : Steps src n cs x cs1 P) (hf : ∀ a, P a → Steps src n cs1 (f a) cs' Q) : Steps src n cs (x >>= f) cs' Q := by
  intro p hp hr
  obtain ⟨a, q, w, h1, h2, h3⟩ := hx hp hr
  obtain ⟨b, q2, w2, g1, g2, g3⟩ := hf a h3 h2 (hr.after hp h1)
  exact ⟨b, q2, _, gives_seq h1 g1, g2, g3⟩
/-- The first part consumes a token. -/
theorem eat {x : Prog α} {f : α → Prog β} (hx : Steps src (n + 1) cs x cs1 P) (hne : solid cs1 ≠ solid cs) (hf : ∀ a, P a → Steps src n cs1 (f a) cs' Q) :
    Steps src (n + 1) cs (x >>= f) cs' Q := by
  intro p hp hr
  obtain ⟨a, q, w, h1, h2, h3⟩ := hx hp hr
  obtain ⟨b, q2, w2, g1, g2, g3⟩ := hf a h3 h2 (hr.less hp h1 h2 hne)
  exact ⟨b, q2, _, gives_seq h1 g1, g2, g3⟩
theorem mono {x : Prog α} {P' : α → Prop} (h : Steps src n cs x cs' P) (hp : ∀ a, P a → P' a) : Steps src n cs x cs' P' := fun p hq hr => by
  obtain ⟨a, q, w, h1, h2, h3⟩ := h hq hr
  exact ⟨a, q, w, h1, h2, hp _ h3⟩
theorem more {m : Nat} {x : Prog α} (h : Steps src m cs x cs' P) (hm : n ≤ m) : Steps src n cs x cs' P := fun p hq hr =>
  h hq fun t ht => Nat.lt_of_lt_of_le (hr t ht) hm
theorem pos {b : Prop} [Decidable b] {x y : Prog α} (hb : b) (h : Steps src n cs x cs' P) : Steps src n cs (if b then x else y) cs' P := by rw [if_pos hb]; exact h
theorem neg {b : Prop} [Decidable b] {x y : Prog α} (hb : ¬ b) (h : Steps src n cs y cs' P) : Steps src n cs (if b then x else y) cs' P := by rw [if_neg hb]; exact h
theorem result {x : Prog α} (h : Steps src n cs x cs' P) : Steps src n cs (Prog.result x) cs' fun r => ∃ a, r = .ok a ∧ P a := by
  intro p hp hr
  obtain ⟨a, q, w, h1, h2, h3⟩ := h hp hr
  exact ⟨.ok a, q, w, gives_result.mpr ⟨_, h1, rfl⟩, h2, a, rfl, h3⟩
theorem ofResult {a : α} {f : α → Prog β} (h : Steps src n cs (f a) cs' Q) : Steps src n cs (Prog.ofResult (.ok a) >>= f) cs' Q := h
theorem setStop {s : KindSet} {k : KindSet → Prog α} (h : ∀ s, Steps src n cs (k s) cs' P) : Steps src n cs (Prog.setStop s k) cs' P := by
  intro p hp hr
  obtain ⟨a, q, w, h1, h2, h3⟩ := h p.stop (p := { p with stop := s }) ⟨hp.skip, hp.left.imp fun t ht => ⟨ht.1.congr rfl rfl, ht.2⟩⟩ hr
  exact ⟨a, q, w, gives_setStop.mpr h1, h2, h3⟩
theorem setState {s : Bool} {k : Bool → Prog α} (h : ∀ s, Steps src n cs (k s) cs' P) : Steps src n cs (Prog.setState s k) cs' P := by
  intro p hp hr
  obtain ⟨a, q, w, h1, h2, h3⟩ := h p.nested (p := { p with nested := s }) ⟨hp.skip, hp.left.imp fun t ht => ⟨ht.1.congr rfl rfl, ht.2⟩⟩ hr
  exact ⟨a, q, w, gives_setState.mpr h1, h2, h3⟩
theorem attempt {body : Prog β} {keep : Except Diag β → Bool} {k : Except Diag β → Prog α}
    (hb : Steps src n cs body cs1 Q) (hk : ∀ b, Q b → keep (.ok b) = true) (h : ∀ b, Q b → Steps src n cs1 (k (.ok b)) cs' P) : Steps src n cs (Prog.attempt body keep k) cs' P := by
  intro p hp hr
  obtain ⟨b, q, w, h1, h2, h3⟩ := hb hp hr
  obtain ⟨a, q2, w2, g1, g2, g3⟩ := h b h3 h2 (hr.after hp h1)
  exact ⟨a, q2, _, gives_attempt.mpr ⟨_, _, _, _, h1, .inl ⟨hk b h3, rfl, g1⟩⟩, g2, g3⟩
theorem gap {g : List Cursor} {x : Prog α} (hg : Gap g) (h : Steps src n cs x cs' P) : Steps src n (g ++ cs) x cs' P := fun _ hp => h ((Stands.gap hg).mp hp)
theorem peek {c : Cursor} {more : List Cursor} {f : Cursor → Prog β} (hc : solid cs = c :: more) (hf : Steps src n cs (f c) cs' Q) : Steps src n cs (Prog.peek >>= f) cs' Q := by
  intro p hp hr
  have ho := hp.on
  rw [hc] at ho
  obtain ⟨q, hq, _⟩ := ho.next
  obtain ⟨b, q2, w2, g1, g2, g3⟩ := hf hp hr
  exact ⟨b, q2, _, gives_of_peek (peek_of_next hq) g1, g2, g3⟩
theorem peekN1 {c : Cursor} {more : List Cursor} {f : Cursor → Prog β} (hc : solid cs = c :: more) (hf : Steps src n cs (f c) cs' Q) : Steps src n cs (Prog.peekN 1 >>= f) cs' Q := by
  intro p hp hr
  have ho := hp.on
  rw [hc] at ho
  obtain ⟨q, hq, _⟩ := ho.next
  obtain ⟨b, q2, w2, g1, g2, g3⟩ := hf hp hr
  exact ⟨b, q2, _, gives_seq (gives_peekN.mpr ⟨_, peekN1_of_next hq, rfl, rfl, rfl⟩) g1, g2, g3⟩
theorem test {x : Prog Bool} {b : Bool} {f : Bool → Prog β} (hx : Tests src x b) (h : Steps src n cs (f b) cs' Q) : Steps src n cs (x >>= f) cs' Q := by
  intro p hp hr
  obtain ⟨b, q2, w2, g1, g2, g3⟩ := h hp hr
  exact ⟨b, q2, _, gives_seq (hx hp.on.source) g1, g2, g3⟩
theorem ask {g : Parser → Except Panic α} {f : α → Prog β} (hg : ∀ p, ∃ a, g p = .ok a) (h : ∀ a, Steps src n cs (f a) cs' Q) : Steps src n cs (Prog.ask g >>= f) cs' Q := by
  intro p hp hr
  obtain ⟨a, ha⟩ := hg p
  obtain ⟨b, q2, w2, g1, g2, g3⟩ := h a hp hr
  exact ⟨b, q2, _, gives_seq (gives_ask.mpr ⟨a, ha, rfl, rfl, rfl⟩) g1, g2, g3⟩
theorem offset {f : Nat → Prog β} (h : ∀ a, Steps src n cs (f a) cs' Q) : Steps src n cs (Prog.offset >>= f) cs' Q := by
  intro p hp hr
  obtain ⟨b, q2, w2, g1, g2, g3⟩ := h p.offset hp hr
  exact ⟨b, q2, _, gives_seq (gives_offset.mpr ⟨rfl, rfl, rfl⟩) g1, g2, g3⟩
theorem atEnd {c : Cursor} {more : List Cursor} {f : Bool → Prog β} (hc : solid cs = c :: more) (h : Steps src n cs (f false) cs' Q) : Steps src n cs (Prog.atEnd >>= f) cs' Q := by
  intro p hp hr
  obtain ⟨b, q2, w2, g1, g2, g3⟩ := h hp hr
  have ho := hp.on
  rw [hc] at ho
  exact ⟨b, q2, _, gives_seq (gives_atEnd.mpr ⟨by rw [ho.not_end], rfl, rfl⟩) g1, g2, g3⟩
/-- A token, with whitespace and comments before it. -/
theorem tok {test : Cursor → Prog Bool} {g : List Cursor} {c : Cursor} {f : Cursor → Prog β} (hg : Gap g) (ht : Tests src (test c) true) (hc : c.token.inSet KindSet.TRIVIA = false)
    (h : Steps src n cs (f c) cs' Q) : Steps src n (g ++ c :: cs) (Prog.tok test >>= f) cs' Q := by
  have hy : Yields src (solid (g ++ c :: cs)) (Prog.tok test) (solid cs) fun d => d = c := by
    rw [solid_append, solid_gap hg, show solid (c :: cs) = c :: solid cs from List.filter_cons_of_pos (by simp [hc])]
    exact Yields.tok ht rfl
  refine bind (hy.steps ⟨g ++ [c], by simp⟩) ?_
  rintro _ rfl
  exact h
theorem ifPeek_none {test : Cursor → Prog Bool} {body : Prog α} {c : Cursor} {more : List Cursor} {f : Option α → Prog β} (hc : solid cs = c :: more) (ht : Tests src (test c) false)
    (h : Steps src n cs (f none) cs' Q) : Steps src n cs (Prog.ifPeek test body >>= f) cs' Q := by
  have hy : Yields src (solid cs) (Prog.ifPeek test body) (solid cs) fun o => o = none := by
    rw [hc]
    exact Yields.ifPeek_none ht
  refine bind (hy.steps List.suffix_rfl) ?_
  rintro _ rfl
  exact h
theorem ifPeek_some {test : Cursor → Prog Bool} {body : Prog α} {c : Cursor} {more : List Cursor} (hc : solid cs = c :: more) (ht : Tests src (test c) true)
    (h : Steps src n cs body cs' P) : Steps src n cs (Prog.ifPeek test body) cs' fun o => ∃ a, o = some a ∧ P a := by
  unfold Prog.ifPeek
  exact peek hc (Steps.test ht (pos rfl (bind h fun a ha => pure ⟨a, rfl, ha⟩)))
end Steps
end
end Hdx

namespace Hdx
open Spec Prog
section
variable {src : List Char} {α β : Type}

theorem comment_bits : ∀ b : Fin 32, (KindSet.TRIVIA.containsBits b.val && !(b.val == Kind.whitespace.bits)) = KindSet.COMMENTS.containsBits b.val := by decide +kernel
theorem kindBits_small (t : Token) : t.kindBits < 32 := by
  unfold Token.kindBits
  rw [BitVec.toNat_and]
  exact Nat.lt_of_le_of_lt Nat.and_le_right (by decide)
theorem comment_iff {t : Token} : (t.inSet KindSet.TRIVIA && !t.isKind .whitespace) = t.inSet KindSet.COMMENTS := comment_bits ⟨t.kindBits, kindBits_small t⟩
theorem takeWhile_spec {f : Cursor → Bool} {d : Cursor} : ∀ {cs : List Cursor}, d ∈ cs.takeWhile f → f d = true
  | c :: cs, h => by
    rw [List.takeWhile_cons] at h
    split at h
    · rcases List.mem_cons.mp h with rfl | h
      · assumption
      · exact takeWhile_spec h
    · cases h

/-- What the loops do first. -/
theorem ws_step {p : Parser} {cs : List Cursor} (hp : Stands src p cs) :
    ∃ o q w, Gives (ifPeek isWs whitespace) p (.ok o) q w ∧ Stands src q cs ∧ ∀ n, Room (n + 1) p → if o.isSome then Room n q else q = p := by
  obtain ⟨hs, tail, hl, ht, hf⟩ := hp
  have hp : Stands src p cs := ⟨hs, tail, hl, ht, hf⟩
  have hpk : p.peekNext = .ok (firstOutside p.lexer p.skip tail) := peekNext_stream hl.stream
  have hws := peekWs_stream hl.stream
  by_cases hw : (firstWsOrOutside p.lexer p.skip tail).token.isKind .whitespace = true
  · have hdrop : tail.dropWhile (fun c => c.token.inSet p.skip && !c.token.isKind .whitespace) = tail.dropWhile fun c => c.token.inSet KindSet.COMMENTS := by
      have hne := notEof_of_stream hl.stream
      rw [hs]
      revert hne
      clear hl ht hf hpk hws hw
      induction tail with
      | nil => intro _; rfl
      | cons c cs ih =>
        intro hne
        rw [List.dropWhile_cons, List.dropWhile_cons, comment_iff, ih fun c hc => hne c (List.mem_cons_of_mem _ hc)]
    have hl' : Left src { p with skip := KindSet.COMMENTS } tail := ⟨hl.source, hl.stream, .lit (s := KindSet.COMMENTS) (by decide), hl.names⟩
    obtain ⟨l', a, b, c1, c2⟩ := next_stream hl'.stream
    have hfirst : firstOutside p.lexer KindSet.COMMENTS tail = firstWsOrOutside p.lexer p.skip tail := by
      unfold firstOutside firstWsOrOutside; rw [hdrop]
    cases hd : tail.dropWhile (fun c => c.token.inSet KindSet.COMMENTS) with
    | nil =>
      unfold firstWsOrOutside at hw
      rw [hdrop, hd] at hw
      exact absurd hw (by show ¬ Token.EOF.isKind .whitespace = true; decide)
    | cons c more =>
      have hcw : c.token.isKind .whitespace = true := by
        unfold firstWsOrOutside at hw
        rw [hdrop, hd] at hw
        exact hw
      dsimp only at a b c1
      rw [hd] at b
      have e1 : firstOutside p.lexer KindSet.COMMENTS tail = c := by unfold firstOutside; rw [hd]; rfl
      rw [e1] at a
      refine ⟨some c, { p with lexer := l', trivia := p.trivia ++ tail.takeWhile (fun c => c.token.inSet KindSet.COMMENTS) }, [c], ?_, ⟨hs, more, ?_, ?_, ?_⟩, ?_⟩
      · unfold ifPeek
        refine gives_of_peek hpk (gives_of_ws hws ?_)
        rw [hw, if_pos rfl]
        have : Gives whitespace p (.ok c) { p with lexer := l', trivia := p.trivia ++ tail.takeWhile (fun c => c.token.inSet KindSet.COMMENTS) } [c] := by
          unfold whitespace
          refine gives_setSkip.mpr (gives_next.mpr ⟨c, _, [], a, gives_setSkip.mpr ?_, rfl⟩)
          rw [if_pos hcw]
          exact gives_pure.mpr ⟨rfl, rfl, rfl⟩
        have := gives_seq this (f := fun a => Pure.pure (some a)) (gives_pure.mpr ⟨rfl, rfl, rfl⟩)
        simpa using this
      · have hsuf : more <:+ tail := by
          have := List.dropWhile_suffix (l := tail) (fun c => c.token.inSet KindSet.COMMENTS)
          rw [hd] at this
          exact (List.suffix_cons c more).trans this
        exact hl.moved b hsuf (c1.trans hl.source) hs
      · rw [← ht]
        have e : tail = tail.takeWhile (fun c => c.token.inSet KindSet.COMMENTS) ++ c :: more := by rw [← hd, List.takeWhile_append_dropWhile]
        rw [e, show ∀ a : List Cursor, a ++ c :: more = (a ++ [c]) ++ more from fun a => by simp, ahead_gap]
        intro d hd
        rcases List.mem_append.mp hd with h | h
        · have h1 := takeWhile_spec h
          have h2 := comment_iff (t := d.token)
          rw [h1] at h2
          exact (Bool.and_eq_true_iff.mp h2).1
        · rw [List.mem_singleton.mp h, inSet_of_kind (k := .whitespace) (by decide) hcw]; decide
      · have hlen : more.length < tail.length := by
          have := (List.dropWhile_suffix (l := tail) (fun c => c.token.inSet KindSet.COMMENTS)).length_le
          rw [hd] at this
          exact this
        have : ({ p with lexer := l', trivia := p.trivia ++ tail.takeWhile (fun c => c.token.inSet KindSet.COMMENTS) } : Parser).fuel = p.fuel := fuel_same c1
        rw [this]; omega
      · intro n hr
        show Room n _
        intro t h2
        cases h2.det b
        have := (List.dropWhile_suffix (l := tail) (fun c => c.token.inSet KindSet.COMMENTS)).length_le
        rw [hd, List.length_cons] at this
        have h3 := hr _ hl.stream
        show more.length < n
        omega
  · refine ⟨none, p, [], ?_, hp, fun n _ => by simp⟩
    unfold ifPeek
    refine gives_of_peek hpk (gives_of_ws hws ?_)
    rw [if_neg hw]
    exact gives_pure.mpr ⟨rfl, rfl, rfl⟩

/-- A loop that begins with whitespace. -/
theorem ws_loop {L K : Nat → Prog α} (hL : ∀ n, L (n + 1) = (ifPeek isWs whitespace >>= fun ws => if ws.isSome then L n else K n)) {cs cs' : List Cursor} {P : α → Prop} :
    ∀ n, (∀ m, m + 1 ≤ n → Steps src (m + 1) cs (K m) cs' P) → Steps src n cs (L n) cs' P
  | 0, _ => fun p hp hr => by
    obtain ⟨_, tail, hl, _⟩ := hp
    exact absurd (hr tail hl.stream) (by omega)
  | n + 1, hK => fun p hp hr => by
    rw [hL]
    obtain ⟨o, q, w, h1, h2, h3⟩ := ws_step hp
    have h3 := h3 n hr
    cases o with
    | some c =>
      obtain ⟨a, q2, w2, g1, g2, g3⟩ := ws_loop hL n (fun m hm => hK m (by omega)) h2 h3
      exact ⟨a, q2, _, gives_seq h1 g1, g2, g3⟩
    | none =>
      obtain ⟨a, q2, w2, g1, g2, g3⟩ := hK n (Nat.le_refl _) h2 (by simp only [Option.isSome_none, Bool.false_eq_true, if_false] at h3; rw [h3]; exact hr)
      exact ⟨a, q2, _, gives_seq h1 g1, g2, g3⟩

theorem solid_cons {c : Cursor} {cs : List Cursor} (h : c.token.inSet KindSet.TRIVIA = false) : solid (c :: cs) = c :: solid cs := List.filter_cons_of_pos (by simp [h])

/-- A token that is there. -/
theorem Steps.some {test : Cursor → Prog Bool} {n : Nat} {c : Cursor} {cs : List Cursor} (ht : Tests src (test c) true) (hc : c.token.inSet KindSet.TRIVIA = false) :
    Steps src n (c :: cs) (Prog.ifPeek test (Prog.tok test)) cs fun o => o = some c := by
  have hy : Yields src (solid (c :: cs)) (Prog.tok test) (solid cs) fun d => d = c := by
    rw [solid_cons hc]
    exact Yields.tok ht rfl
  refine Steps.mono (Steps.ifPeek_some (solid_cons hc) ht (hy.steps (List.suffix_cons c cs))) ?_
  rintro _ ⟨_, rfl, rfl⟩
  rfl

/-- A list of tokens, at a place between two that are neither whitespace nor comments. -/
theorem solid_split {cs a b : List Cursor} (h : solid cs = a ++ b) : ∃ x y, cs = x ++ y ∧ solid x = a ∧ solid y = b := by
  obtain ⟨x, y, h1, h2, h3⟩ := List.filter_eq_append_iff.mp h
  exact ⟨x, y, h1, h2, h3⟩

theorem notTrivia_of {k : Kind} {c : Cursor} (h : IsKind k c) (h1 : k ≠ .eof) (h2 : KindSet.TRIVIA.contains k = false) : c.token.inSet KindSet.TRIVIA = false := by
  rw [inSet_of_kind h1 h]; exact h2

end
end Hdx

/-
Properties C39 (re-emission of component values) and C48 (bracket matching).
-/
import Verif.Lemmas.Balanced

namespace Hdx
open Spec Prog

/-! ## C39 Component values re-emit the tokens they consumed -/

theorem strip_token (c : Cursor) : (strip c).token = c.token := by
  unfold strip; split <;> rfl

theorem strip_fields {a b : Cursor} (h : strip a = strip b) : a.token = b.token ∧ (isBracket a.token = false → a = b) := by
  have ht : a.token = b.token := by rw [← strip_token a, h, strip_token]
  refine ⟨ht, fun hb => ?_⟩
  unfold strip at h
  rwa [hb, if_neg (by simp), ← ht, hb, if_neg (by simp)] at h

theorem map_strip_tokens {a b : List Cursor} (h : a.map strip = b.map strip) : a.map (·.token) = b.map (·.token) := by
  have := congrArg (List.map (·.token)) h
  simpa [List.map_map, Function.comp_def, strip_token] using this

theorem map_strip_nonBrackets : ∀ {a b : List Cursor}, a.map strip = b.map strip →
    a.filter (fun c => !isBracket c.token) = b.filter (fun c => !isBracket c.token)
  | [], [], _ => rfl
  | [], _ :: _, h => by simp at h
  | _ :: _, [], h => by simp at h
  | x :: a, y :: b, h => by
    simp only [List.map_cons, List.cons.injEq] at h
    obtain ⟨h1, h2⟩ := strip_fields h.1
    have ih := map_strip_nonBrackets h.2
    cases hb : isBracket x.token
    · rw [List.filter_cons_of_pos (by simp [hb]), List.filter_cons_of_pos (by simp [← h1, hb]), ih, h2 hb]
    · rw [List.filter_cons_of_neg (by simp [hb]), List.filter_cons_of_neg (by simp [← h1, hb]), ih]

/-- For every source shorter than 64 KiB (see `C34_counterexample` for why), every feature set and every stop set, at any nesting
depth: when component values are parsed from the start of the source, the tokens of the consumed text are dealt, in order, between
the parser's trivia and a list `kept`, and the cursors the tree emits have exactly the tokens of `kept`, in the same order - none is
lost, added, repeated or moved. Cursors other than brackets also come back at the same position. -/
theorem C39_round_trip {src : List Char} {f : Features} {stop : KindSet} {fuel : Nat} {vs : List ComponentValue} {p' : Parser}
    (hs : byteLen src < 65536) (h : (componentValues fuel).run { Parser.newWithFeatures src f with stop } = .ok (.ok vs, p')) :
    ∃ tokens kept, LexedUntil (Lexer.newWithFeatures src f) tokens p'.offset ∧ Dealt kept p'.trivia tokens
      ∧ (ComponentValue.cursorsOf vs).map (·.token) = kept.map (·.token)
      ∧ (ComponentValue.cursorsOf vs).filter (fun c => !isBracket c.token) = kept.filter (fun c => !isBracket c.token) := by
  unfold Prog.run at h
  cases hr : (componentValues fuel).runLog { Parser.newWithFeatures src f with stop } with
  | error e => rw [hr] at h; cases h
  | ok y =>
    obtain ⟨r, q, w⟩ := y
    rw [hr] at h
    simp only [Except.map, Except.ok.injEq, Prod.mk.injEq] at h
    obtain ⟨rfl, rfl⟩ := h
    obtain ⟨tr, cs, a, b, c⟩ := (Prog.runLog_moved (componentValues fuel) (by simp [Parser.newWithFeatures])
      (by rw [byteLen_eq] at hs; exact hs) (by simp [Fits, Parser.newWithFeatures]) hr).tokens
    simp only [Parser.newWithFeatures, List.nil_append] at a
    obtain ⟨more, h1, h2⟩ := componentValuesLoop_taken (item := componentValue fuel) (fun h => componentValue_taken fuel h) fuel hr
    simp only [List.nil_append] at h1
    subst h1
    exact ⟨cs, w.filter notEof, b, a ▸ c, map_strip_tokens h2, map_strip_nonBrackets h2⟩

/-- `a/**/[b (c)]d` is parsed, and `a [ b ws ( c ) ] d` come back. -/
example : ((componentValues 20).run (Parser.new c!"a/**/[b (c)]d")).map (fun r => (r.1.toOption.map fun vs => (ComponentValue.cursorsOf vs).map (·.token.kind)))
    = .ok (some [.ident, .leftSquare, .ident, .whitespace, .leftParen, .ident, .rightParen, .rightSquare, .ident]) := by decide +kernel

/-- The positions of brackets do not come back: after a comment the opening bracket is emitted at the position of the comment, and
every closing bracket at the position of a dummy cursor. -/
theorem C39_bracket_positions : ((componentValues 20).run (Parser.new c!"a/**/[b]")).map (fun r => (r.1.toOption.map fun vs => (ComponentValue.cursorsOf vs).map fun c => (c.token.kind, c.offset)))
    = .ok (some [(.ident, 0), (.leftSquare, 1), (.ident, 6), (.rightSquare, DUMMY)]) := by decide +kernel

/-! ## C48 Brackets -/

theorem Stream.lexedUntil {l : Lexer} {cs : List Cursor} (h : Stream l cs) : LexedUntil l cs (byteLen l.source) := by
  induction h with
  | nil h => rw [← h]; exact .done
  | cons ha hk hz h ih =>
    refine .step ha (fun he => ?_) (by rw [← (advance_keeps ha).1]; exact ih)
    rw [(advance_eof ha).mpr he] at hk; cases hk

theorem Stream.lexedUntil_det {l : Lexer} {cs cs' : List Cursor} {off : Nat} (h : LexedUntil l cs off) (ho : off = byteLen l.source)
    (h' : Stream l cs') : cs = cs' := by
  induction h generalizing cs' with
  | done => exact Stream.det (.nil ho) h'
  | step ha hk _ ih =>
    cases h' with
    | nil h2 => exact absurd ((C03_eof_iff_at_end ha).mpr h2) hk
    | cons ha2 hk2 hz2 h2 => rw [ha] at ha2; cases ha2; rw [ih (by rw [(advance_keeps ha).1]; exact ho) h2]

theorem run_of_gives {α : Type} {x : Prog α} {p p' : Parser} {r : Except Diag α} {w : List Cursor} (h : Gives x p r p' w) : x.run p = .ok (r, p') := by
  unfold Prog.run; rw [h]; rfl

/-- For every source the lexer handles (`Tame`) whose tokens are well-bracketed, at any depth: parsing component values succeeds
without a panic, all tokens but trailing trivia are consumed, and every block in the result is closed by the bracket that mirrors its
opening bracket, every function by `)`. Missing from the full C48: sources that are not well-bracketed (`C48_counterexample`). -/
theorem C48_balanced_partial {src : List Char} {f : Features} (ht : Tame f src) {tokens : List Cursor}
    (hl : LexedUntil (Lexer.newWithFeatures src f) tokens (byteLen src)) (hb : Balanced tokens) {fuel : Nat} (hf : tokens.length < fuel) :
    ∃ vs p' rest, (componentValues fuel).run (Parser.newWithFeatures src f) = .ok (.ok vs, p') ∧ (∀ v ∈ vs, Matched v)
      ∧ LexedUntil p'.lexer rest (byteLen src) ∧ (∀ c ∈ rest, IsTrivia c) := by
  obtain ⟨cs, hcs, _⟩ := Stream.of_tame (l := Lexer.newWithFeatures src f) src.length (Nat.le_refl _) (before_new src f) ht
  have := Stream.lexedUntil_det hl rfl hcs
  subst this
  have hin : InValues (Parser.newWithFeatures src f) := ⟨rfl, fun k _ => by
    change KindSet.NONE.contains k = false
    cases k <;> decide⟩
  obtain ⟨vs, q, w, tr, h1, h2, h3, h4, _⟩ := loop_ok (item_ok fuel) fuel (acc := []) hin hb (by omega) hf (.inl (by simp : ∀ c ∈ [], IsTrivia c))
    (by rw [List.append_nil]; exact hcs)
  have hsrc : q.lexer.source = src := (runLog_source _ h1).1
  refine ⟨vs, q, tr, run_of_gives h1, h2, ?_, h3⟩
  rw [List.append_nil] at h4
  rw [← hsrc]; exact h4.lexedUntil

/-- `n` tokens from the lexer. -/
def lexN : Nat → Lexer → Except Panic (List Cursor × Nat)
  | 0, l => .ok ([], l.offset)
  | n + 1, l =>
    match l.advance with
    | .error e => .error e
    | .ok (t, l') => (lexN n l').map fun r => (⟨l.offset, t⟩ :: r.1, r.2)

theorem lexN_lexedUntil : ∀ (n : Nat) {l : Lexer} {cs : List Cursor} {off : Nat}, lexN n l = .ok (cs, off) → (∀ c ∈ cs, c.token.kind ≠ .eof) →
    LexedUntil l cs off
  | 0, l, cs, off, h, _ => by cases h; exact .done
  | n + 1, l, cs, off, h, hk => by
    unfold lexN at h
    cases ha : l.advance with
    | error e => rw [ha] at h; cases h
    | ok x =>
      obtain ⟨t, l'⟩ := x
      rw [ha] at h
      simp only at h
      cases hn : lexN n l' with
      | error e => rw [hn] at h; cases h
      | ok y =>
        obtain ⟨cs', off'⟩ := y
        rw [hn] at h
        simp only [Except.map, Except.ok.injEq, Prod.mk.injEq] at h
        obtain ⟨rfl, rfl⟩ := h
        have h1 := hk ⟨l.offset, t⟩ List.mem_cons_self
        exact .step ha h1 (lexN_lexedUntil n hn fun c hc => hk c (by simp [hc]))

theorem lexN_kinds (n : Nat) {l : Lexer} {ks : List Kind} {off : Nat} (h : (lexN n l).map (fun r => (r.1.map (·.token.kind), r.2)) = .ok (ks, off))
    (hk : ks.contains .eof = false) : ∃ cs, LexedUntil l cs off ∧ cs.map (·.token.kind) = ks := by
  cases hn : lexN n l with
  | error e => rw [hn] at h; cases h
  | ok y =>
    obtain ⟨cs, off'⟩ := y
    rw [hn] at h
    simp only [Except.map, Except.ok.injEq, Prod.mk.injEq] at h
    obtain ⟨rfl, rfl⟩ := h
    refine ⟨cs, lexN_lexedUntil n hn fun c hc he => ?_, rfl⟩
    have : (cs.map (·.token.kind)).contains .eof = true := by simp; exact ⟨c, hc, he⟩
    rw [this] at hk; cases hk

/-- `[a/f()]c` is handled and well-bracketed. -/
example : Tame {} c!"[a/f()]c" ∧ ∃ tokens, LexedUntil (Lexer.new c!"[a/f()]c") tokens (byteLen c!"[a/f()]c") ∧ Balanced tokens := by
  refine ⟨tame_of_ascii (by decide) (by decide), ?_⟩
  obtain ⟨cs, h1, h2⟩ := lexN_kinds 7 (l := Lexer.new c!"[a/f()]c") (ks := [.leftSquare, .ident, .delim, .function, .rightParen, .rightSquare, .ident])
    (off := 8) (by decide +kernel) (by decide)
  refine ⟨cs, h1, ?_⟩
  simp only [List.map_eq_cons_iff, List.map_eq_nil_iff] at h2
  obtain ⟨a, _, rfl, ha, b, _, rfl, hb, s, _, rfl, hs, c, _, rfl, hc, d, _, rfl, hd, e, _, rfl, he, f, _, rfl, hf, rfl⟩ := h2
  exact .block (inner := [b, s, c, d]) (by rw [ha, he]; exact .square)
    (.single (by rw [hb]; decide) (.single (by rw [hs]; decide) (.function (inner := []) hc hd .nil .nil))) (.single (by rw [hf]; decide) .nil)

/-- The brackets of a block. -/
def brackets : ComponentValue → Option (Kind × Option Kind)
  | .simpleBlock _ o _ e => some (o.kind, e.map (·.kind))
  | _ => none

/-- A block is closed by any closing bracket: in `[a)b]` the first value is a complete block, opened by `[` and closed by `)`. -/
theorem C48_counterexample : ((componentValues 20).run (Parser.new c!"[a)b]")).map (fun r => (r.1.toOption.map fun vs => vs.map brackets))
    = .ok (some [some (.leftSquare, some .rightParen), none]) := by decide +kernel

end Hdx

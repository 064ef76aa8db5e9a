/-
Programs that return: on a parser whose remaining text has a token stream, they neither panic nor run out of fuel.
-/
import Verif.Props.Readable
import Verif.Props.Rules
import Verif.Lemmas.Writes

namespace Hdx
open Spec Prog

/-- A source, and whether it is known to be free of what makes the parsers of css_ast panic. -/
structure Text where
  chars : List Char
  strict : Bool

/-- Any source. -/
instance : Coe (List Char) Text := ⟨fun s => ⟨s, false⟩⟩

/-- The token does not open a function, and is not an at-keyword, of which the parser of css_ast is unfinished. -/
structure Spec.Calm (c : Cursor) (source : List Char) : Prop where
  supports : c.token.kind = .function → ∀ s, c.parseStrLower source = .ok s → s ∉ [c!"font-tech", c!"font-format"]
  rules : c.token.kind = .atKeyword → ∀ s, c.parseStrLower source = .ok s → s ∉ [c!"page", c!"container"]

/-- What is known of a token: a name can be decoded; in a strict text, every token can be read. -/
structure Known (src : Text) (c : Cursor) : Prop where
  names : c.token.kind = .ident ∨ c.token.kind = .function ∨ c.token.kind = .atKeyword ∨ c.token.kind = .hash ∨
    c.token.kind = .number ∨ c.token.kind = .dimension ∨ c.token.kind = .colon → Decodable c src.chars
  reads : src.strict = true → Readable c src.chars
  calm : src.strict = true → Calm c src.chars
  whole : src.strict = true → ∃ s, c.strSlice src.chars = .ok s

instance {src : Text} {c : Cursor} : CoeFun (Known src c) (fun _ => c.token.kind = .ident ∨ c.token.kind = .function ∨ c.token.kind = .atKeyword ∨ c.token.kind = .hash ∨
    c.token.kind = .number ∨ c.token.kind = .dimension ∨ c.token.kind = .colon → Decodable c src.chars) := ⟨Known.names⟩

/-- A set of tokens to skip: never the end of the file, and in a strict text no delimiters. -/
structure SkipIn (src : Text) (s : KindSet) : Prop where
  eof : s.contains .eof = false
  delim : src.strict = true → s.contains .delim = false

theorem SkipIn.lit {src : Text} {s : KindSet} (h : s.contains .eof = false ∧ s.contains .delim = false) : SkipIn src s := ⟨h.1, fun _ => h.2⟩
theorem SkipIn.plain {src : List Char} {s : KindSet} (h : s.contains .eof = false) : SkipIn src s := ⟨h, fun h => by cases h⟩

/-- `cs` are the tokens of `src` that remain, what there is to know of them is known, and the parser does not skip EOF. -/
structure Left (src : Text) (p : Parser) (cs : List Cursor) : Prop where
  source : p.lexer.source = src.chars
  stream : Stream p.lexer cs
  skip : SkipIn src p.skip
  names : ∀ c ∈ cs, Known src c

/-- The end of the file can be read. -/
theorem eof_readable {l : Lexer} (ho : l.offset = byteLen l.source) : Readable ⟨l.offset, Token.EOF⟩ l.source := by
  have h1 : Token.EOF.leadingLen.toNat = 0 := by decide
  have h2 : Token.EOF.trailingLen.toNat = 0 := by decide
  have h3 : Token.EOF.containsEscapeChars = false := by decide
  have h4 : Token.EOF.len.toNat = 0 := by decide
  have hs := sliceBytes_append l.source [] []
  simp only [List.append_nil, utf8Len_nil, Nat.add_zero] at hs
  rw [← byteLen_eq, ← ho] at hs
  unfold Readable Cursor.parseStr
  simp [Cursor.innerEnd, Cursor.endOffset, Cursor.innerStart, h1, h2, h3, h4, Bind.bind, Except.bind, slice, hs]
  exact ⟨_, rfl⟩

/-- The whole text of a token can be read. -/
theorem strSlice_of_text {source pre text post : List Char} {t : Token} (hs : source = pre ++ (text ++ post)) (hl : t.len.toNat = byteLen text) :
    ∃ s, (Cursor.mk (byteLen pre) t).strSlice source = .ok s := by
  simp only [Cursor.strSlice, Cursor.span, Span.contents, Cursor.endOffset]
  by_cases h : (byteLen pre == DUMMY) = true
  · have := sliceBytes_append pre [] (text ++ post)
    simp only [List.nil_append, utf8Len_nil, Nat.add_zero] at this
    rw [if_pos h, hs, byteLen_eq, this]; exact ⟨_, rfl⟩
  · rw [if_neg h, hs, hl, byteLen_eq, byteLen_eq, sliceBytes_append pre text post]; exact ⟨_, rfl⟩

theorem known_eof_at {src : Text} {l : Lexer} (hs : l.source = src.chars) (ho : l.offset = byteLen l.source) : Known src ⟨l.offset, Token.EOF⟩ where
  names := fun h => by
    have : Token.EOF.kind = .eof := by decide
    simp only [this] at h; simp at h
  reads := fun _ => by rw [← hs]; exact eof_readable ho
  calm := fun _ => by
    have : Token.EOF.kind = .eof := by decide
    constructor <;> (simp only [this]; simp)
  whole := fun _ => by
    rw [← hs, ho]
    exact strSlice_of_text (pre := l.source) (text := []) (post := []) (by simp) (by decide)

theorem known_eof {src : Text} {l : Lexer} (hs : l.source = src.chars) : Known src (eofOf l) :=
  known_eof_at (l := { l with offset := byteLen l.source }) hs rfl

/-- With fewer than `n` tokens left, `x` returns and does not go back; if it succeeds with a result in `P`, it has consumed a token. -/
def EatsIf {α : Type} (src : Text) (n : Nat) (P : α → Prop) (x : Prog α) : Prop :=
  ∀ ⦃p : Parser⦄ ⦃cs : List Cursor⦄, Left src p cs → cs.length < n →
    ∃ r p' w cs', Gives x p r p' w ∧ Left src p' cs' ∧ cs' <:+ cs ∧ ∀ a, r = .ok a → P a → cs'.length < cs.length
/-- With fewer than `n` tokens left, `x` returns and does not go back. -/
abbrev Fine {α : Type} (src : Text) (n : Nat) (x : Prog α) : Prop := EatsIf src n (fun _ => False) x
/-- ... and if it succeeds it has consumed a token. -/
abbrev Eats {α : Type} (src : Text) (n : Nat) (x : Prog α) : Prop := EatsIf src n (fun _ => True) x

theorem Stream.suffix_mem {cs cs' : List Cursor} (h : cs' <:+ cs) {c : Cursor} (hc : c ∈ cs') : c ∈ cs := h.subset hc

theorem notEof_of_stream {l : Lexer} {cs : List Cursor} (h : Stream l cs) : ∀ c ∈ cs, c.token.isKind .eof = false := by
  induction h with
  | nil => simp
  | cons ha hk hz h ih =>
    intro c hc
    rcases List.mem_cons.mp hc with rfl | hc
    · exact hk
    · exact ih c hc

theorem firstOutside_mem {l : Lexer} {skip : KindSet} {cs : List Cursor} : firstOutside l skip cs = eofOf l ∨ firstOutside l skip cs ∈ cs := by
  unfold firstOutside
  cases h : (cs.dropWhile fun c => c.token.inSet skip) with
  | nil => exact .inl rfl
  | cons c r =>
    refine .inr ?_
    have : c ∈ cs.dropWhile fun c => c.token.inSet skip := by rw [h]; simp
    exact (List.dropWhile_suffix _).subset this

theorem Left.congr {src : Text} {p q : Parser} {cs : List Cursor} (h : Left src p cs) (hl : q.lexer = p.lexer) (hs : q.skip = p.skip) : Left src q cs :=
  ⟨by rw [hl]; exact h.source, by rw [hl]; exact h.stream, by rw [hs]; exact h.skip, h.names⟩

theorem Left.next {src : Text} {p : Parser} {cs : List Cursor} (h : Left src p cs) : ∃ c p' cs', p.next = .ok (c, p') ∧ Left src p' cs' ∧ cs' <:+ cs ∧ p'.skip = p.skip ∧
    (c.token.isKind .eof = false → cs'.length < cs.length ∧ c ∈ cs) ∧ Known src c := by
  obtain ⟨l', a, b, c1, c2⟩ := next_stream h.stream
  have hsuf : (cs.dropWhile (fun c => c.token.inSet p.skip)).tail <:+ cs := (List.tail_suffix _).trans (List.dropWhile_suffix _)
  refine ⟨_, _, _, a, ⟨by rw [← h.source]; exact c1, b, h.skip, fun c hc => h.names c (hsuf.subset hc)⟩, hsuf, rfl, fun hk => ⟨?_, ?_⟩, ?_⟩
  · have hne : cs.dropWhile (fun c => c.token.inSet p.skip) ≠ [] := by
      intro he
      rw [firstOutside, he] at hk
      exact absurd hk (by simp [eofOf, eof_isKind])
    have h1 := (List.dropWhile_suffix (l := cs) (fun c => c.token.inSet p.skip)).length_le
    have h2 := List.length_pos_iff.mpr hne
    rw [List.length_tail]; omega
  · rcases firstOutside_mem (l := p.lexer) (skip := p.skip) (cs := cs) with h | h
    · rw [h] at hk; exact absurd hk (by simp [eofOf, eof_isKind])
    · exact h
  · rcases firstOutside_mem (l := p.lexer) (skip := p.skip) (cs := cs) with he | he
    · rw [he]; exact known_eof h.source
    · exact h.names _ he

theorem Left.peek {src : Text} {p : Parser} {cs : List Cursor} (h : Left src p cs) : ∃ c, p.peekNext = .ok c ∧ Known src c := by
  refine ⟨_, peekNext_stream h.stream, ?_⟩
  rcases firstOutside_mem (l := p.lexer) (skip := p.skip) (cs := cs) with he | he
  · rw [he]; exact known_eof h.source
  · exact h.names _ he

theorem peekN_stream {p : Parser} {cs : List Cursor} (h : Stream p.lexer cs) (n : Nat) :
    ∃ c, p.peekN (n + 1) = .ok c ∧ (c = eofOf p.lexer ∨ c ∈ cs) := by
  unfold Parser.peekN
  generalize p.lexer = l at h
  generalize p.skip = skip
  induction h generalizing n with
  | @nil l h =>
    refine ⟨⟨l.offset, Token.EOF⟩, ?_, .inl (by rw [h]; rfl)⟩
    have ha := Stream.advance_nil h
    rw [Parser.peekNLoop.eq_def]
    split
    · rename_i e he; rw [ha] at he; cases he
    · rename_i t l' he; rw [ha] at he; cases he
      rw [if_pos eof_isKind]
  | @cons l l' t cs ha hk hz h ih =>
    rw [Parser.peekNLoop.eq_def]
    split
    · rename_i e he; rw [ha] at he; cases he
    · rename_i t2 l2 he; rw [ha] at he; cases he
      rw [if_neg (by simp [hk])]
      have hmem : ∀ n, ∃ c, Parser.peekNLoop skip (n + 1) l' = .ok c ∧ (c = eofOf l ∨ c ∈ (⟨l.offset, t⟩ : Cursor) :: cs) := by
        intro n
        obtain ⟨c, c1, c2⟩ := ih n
        exact ⟨c, c1, c2.imp (fun h => by rw [h, eofOf, eofOf, (advance_keeps ha).1]) (List.mem_cons_of_mem _)⟩
      split
      · cases n with
        | zero => exact ⟨_, rfl, .inr (by simp)⟩
        | succ n => exact hmem n
      · exact hmem n

theorem Left.peekN {src : Text} {p : Parser} {cs : List Cursor} (h : Left src p cs) (n : Nat) : ∃ c, p.peekN (n + 1) = .ok c ∧ Known src c := by
  obtain ⟨c, c1, c2⟩ := peekN_stream h.stream n
  refine ⟨c, c1, ?_⟩
  rcases c2 with he | he
  · rw [he]; exact known_eof h.source
  · exact h.names _ he

namespace EatsIf
variable {α β : Type} {src : Text} {n : Nat} {P : α → Prop} {Q : β → Prop}

theorem mono {m : Nat} {x : Prog α} (h : EatsIf src n P x) (hm : m ≤ n) : EatsIf src m P x := fun _ _ hl hn => h hl (by omega)
theorem weaken {P' : α → Prop} {x : Prog α} (h : EatsIf src n P x) (hp : ∀ a, P' a → P a) : EatsIf src n P' x := by
  intro p cs hl hn
  obtain ⟨r, p', w, cs', h1, h2, h3, h4⟩ := h hl hn
  exact ⟨r, p', w, cs', h1, h2, h3, fun a ha hP => h4 a ha (hp a hP)⟩
theorem fine {x : Prog α} (h : EatsIf src n P x) : Fine src n x := h.weaken (fun _ h => h.elim)

theorem ret {r : Except Diag α} (h : ∀ a, r = .ok a → ¬ P a) : EatsIf src n P (Prog.ret r) := fun p cs hl _ =>
  ⟨r, p, [], cs, gives_ret.mpr ⟨rfl, rfl, rfl⟩, hl, List.suffix_rfl, fun a ha hP => (h a ha hP).elim⟩
theorem pure {a : α} (h : ¬ P a) : EatsIf src n P (Pure.pure a : Prog α) := ret (fun b hb => by cases hb; exact h)
theorem err {d : Diag} : EatsIf src n P (Prog.ret (.error d)) := ret (fun b hb => by cases hb)
theorem fail {d : DiagCode} {c : Cursor} : EatsIf src n P (Prog.fail d c : Prog α) := err
theorem ofErr {d : Diag} : EatsIf src n P (Prog.ofResult (.error d)) := err

theorem ask {f : Parser → Except Panic α} (hf : ∀ p cs, Left src p cs → ∃ a, f p = .ok a ∧ ¬ P a) : EatsIf src n P (Prog.ask f) := by
  intro p cs hl _
  obtain ⟨a, ha, hP⟩ := hf p cs hl
  exact ⟨.ok a, p, [], cs, gives_ask.mpr ⟨a, ha, rfl, rfl, rfl⟩, hl, List.suffix_rfl, fun b hb hPb => by cases hb; exact (hP hPb).elim⟩

/-- Sequence: what follows sees one token less if the first part has consumed one. -/
theorem bindE {x : Prog α} {k : Except Diag α → Prog β} (hx : EatsIf src (n + 1) P x) (h1 : ∀ a, P a → Fine src n (k (.ok a)))
    (h2 : ∀ a, ¬ P a → EatsIf src (n + 1) Q (k (.ok a))) (h3 : ∀ d, EatsIf src (n + 1) Q (k (.error d))) : EatsIf src (n + 1) Q (Prog.bindE x k) := by
  intro p cs hl hn
  obtain ⟨r, p', w, cs', g1, g2, g3, g4⟩ := hx hl hn
  have hlen := g3.length_le
  have fin : ∀ {y : Prog β}, (k r = y) → EatsIf src (n + 1) Q y → ∃ r p' w cs', Gives (Prog.bindE x k) p r p' w ∧ Left src p' cs' ∧ cs' <:+ cs ∧
      ∀ a, r = .ok a → Q a → cs'.length < cs.length := by
    rintro y rfl hy
    obtain ⟨r2, p2, w2, cs2, j1, j2, j3, j4⟩ := hy g2 (by omega)
    exact ⟨r2, p2, _, cs2, gives_bindE.mpr ⟨r, p', w, w2, g1, j1, rfl⟩, j2, j3.trans g3, fun a ha hQ => Nat.lt_of_lt_of_le (j4 a ha hQ) hlen⟩
  cases r with
  | error d => exact fin rfl (h3 d)
  | ok a =>
    by_cases hP : P a
    · have hlt := g4 a rfl hP
      obtain ⟨r2, p2, w2, cs2, j1, j2, j3, _⟩ := h1 a hP g2 (by omega)
      have := j3.length_le
      exact ⟨r2, p2, _, cs2, gives_bindE.mpr ⟨_, p', w, w2, g1, j1, rfl⟩, j2, j3.trans g3, fun a ha hQ => by omega⟩
    · exact fin rfl (h2 a hP)

theorem bind {x : Prog α} {f : α → Prog β} (hx : EatsIf src (n + 1) P x) (h1 : ∀ a, P a → Fine src n (f a))
    (h2 : ∀ a, ¬ P a → EatsIf src (n + 1) Q (f a)) : EatsIf src (n + 1) Q (x >>= f) := by
  rw [bind_def, Prog.bind]
  exact bindE hx h1 h2 (fun d => err)

/-- Sequence after something that consumes a token when it succeeds. -/
theorem eat {x : Prog α} {f : α → Prog β} (hx : Eats src (n + 1) x) (h1 : ∀ a, Fine src n (f a)) : EatsIf src (n + 1) Q (x >>= f) :=
  bind hx (fun a _ => h1 a) (fun a h => absurd trivial h)
theorem seq {x : Prog α} {f : α → Prog β} (hx : Fine src n x) (h2 : ∀ a, EatsIf src n Q (f a)) : EatsIf src n Q (x >>= f) := by
  cases n with
  | zero => intro p cs _ h; exact absurd h (by omega)
  | succ n => exact bind hx (fun a h => h.elim) (fun a _ => h2 a)

theorem result {x : Prog α} (h : EatsIf src n P x) : EatsIf src n (fun r => ∃ a, r = .ok a ∧ P a) (Prog.result x) := by
  intro p cs hl hn
  obtain ⟨r, p', w, cs', h1, h2, h3, h4⟩ := h hl hn
  exact ⟨.ok r, p', w, cs', gives_result.mpr ⟨r, h1, rfl⟩, h2, h3, fun b hb hP => by
    cases hb; obtain ⟨a, ha, hP⟩ := hP; exact h4 a ha hP⟩

theorem setStop {s : KindSet} {k : KindSet → Prog α} (h : ∀ o, EatsIf src n P (k o)) : EatsIf src n P (Prog.setStop s k) := by
  intro p cs hl hn
  obtain ⟨r, p', w, cs', h1, h2⟩ := h p.stop (hl.congr (q := { p with stop := s }) rfl rfl) hn
  exact ⟨r, p', w, cs', gives_setStop.mpr h1, h2⟩
theorem setState {s : Bool} {k : Bool → Prog α} (h : ∀ o, EatsIf src n P (k o)) : EatsIf src n P (Prog.setState s k) := by
  intro p cs hl hn
  obtain ⟨r, p', w, cs', h1, h2⟩ := h p.nested (hl.congr (q := { p with nested := s }) rfl rfl) hn
  exact ⟨r, p', w, cs', gives_setState.mpr h1, h2⟩

theorem ite {b : Prop} [Decidable b] {x y : Prog α} (hx : EatsIf src n P x) (hy : EatsIf src n P y) : EatsIf src n P (if b then x else y) := by
  split <;> assumption

theorem attempt {body : Prog α} {keep : Except Diag α → Bool} {k : Except Diag α → Prog β} (hb : EatsIf src n P body)
    (hk : ∀ r, (∀ a, r = .ok a → P a → keep r = false) → EatsIf src n Q (k r)) (hs : ∀ a, P a → keep (.ok a) = true → Fine src n (k (.ok a))) :
    EatsIf src n Q (Prog.attempt body keep k) := by
  intro p cs hl hn
  obtain ⟨r, p', w, cs', h1, h2, h3, h4⟩ := hb hl hn
  have hlen := h3.length_le
  cases hkeep : keep r with
  | true =>
    by_cases hP : ∃ a, r = .ok a ∧ P a
    · obtain ⟨a, rfl, hP⟩ := hP
      have hlt := h4 a rfl hP
      obtain ⟨r2, p2, w2, cs2, j1, j2, j3, _⟩ := hs a hP hkeep h2 (by omega)
      have := j3.length_le
      exact ⟨r2, p2, _, cs2, gives_attempt.mpr ⟨_, p', w, w2, h1, .inl ⟨hkeep, rfl, j1⟩⟩, j2, j3.trans h3, fun a ha hQ => by omega⟩
    · obtain ⟨r2, p2, w2, cs2, j1, j2, j3, j4⟩ := hk r (fun a ha hPa => absurd ⟨a, ha, hPa⟩ hP) h2 (by omega)
      exact ⟨r2, p2, _, cs2, gives_attempt.mpr ⟨_, p', w, w2, h1, .inl ⟨hkeep, rfl, j1⟩⟩, j2, j3.trans h3,
        fun a ha hQ => Nat.lt_of_lt_of_le (j4 a ha hQ) hlen⟩
  | false =>
    obtain ⟨s1, s2⟩ := runLog_source body h1
    have hl' : Left src (p'.rewind p.checkpoint) cs := by
      refine ⟨h2.source, hl.stream.congr ?_ ?_ ?_, h2.skip, hl.names⟩
      · simp [Parser.rewind, Lexer.rewind, s1]
      · simp [Parser.rewind, Lexer.rewind, s2]
      · simp [Parser.rewind, Lexer.rewind, Parser.checkpoint, Lexer.checkpoint]
    obtain ⟨r2, p2, w2, cs2, j1, j2, j3, j4⟩ := hk r (fun _ _ _ => hkeep) hl' hn
    exact ⟨r2, p2, _, cs2, gives_attempt.mpr ⟨_, p', w, w2, h1, .inr ⟨hkeep, rfl, j1⟩⟩, j2, j3, j4⟩

theorem tryParse {x : Prog α} (h : EatsIf src n P x) : EatsIf src n P (Prog.tryParse x) := by
  refine attempt h (fun r hr => ?_) (fun a _ _ => ret (by simp))
  refine ret (fun a ha hP => ?_)
  subst ha
  exact absurd (hr a rfl hP) (by simp [Except.toBool])

/-- Looking at the next token. -/
theorem peekSeq {f : Cursor → Prog β} (h : ∀ c, Known src c → EatsIf src n Q (f c)) : EatsIf src n Q (Prog.peek >>= f) := by
  intro p cs hl hn
  obtain ⟨c, hc, hk⟩ := hl.peek
  obtain ⟨r, p', w, cs', h1, h2⟩ := h c hk hl hn
  exact ⟨r, p', w, cs', gives_of_peek hc h1, h2⟩

theorem ifPeek {test : Cursor → Prog Bool} {body : Prog α} (ht : ∀ c, Known src c → Fine src n (test c)) (hb : EatsIf src n P body) :
    EatsIf src n (fun o => ∃ a, o = some a ∧ P a) (Prog.ifPeek test body) := by
  cases n with
  | zero => intro p cs _ h; exact absurd h (by omega)
  | succ n =>
    unfold Prog.ifPeek
    refine peekSeq (fun c hc => seq (ht c hc) (fun b => ite (bind hb (fun a _ => pure (by simp)) (fun a ha => pure ?_)) (pure ?_)))
    · rintro ⟨b, e, hP⟩; cases e; exact ha hP
    · rintro ⟨b, e, _⟩; cases e

theorem peek : Fine src n Prog.peek := ask fun p cs hl => by
  obtain ⟨c, hc, _⟩ := hl.peek; exact ⟨c, hc, id⟩
theorem peekN {k : Nat} : Fine src n (Prog.peekN (k + 1)) := ask fun p cs hl => by
  obtain ⟨c, hc, _⟩ := hl.peekN k; exact ⟨c, hc, id⟩
theorem atEnd : Fine src n Prog.atEnd := ask fun p cs hl => ⟨_, rfl, id⟩
theorem offset : Fine src n Prog.offset := ask fun p cs hl => ⟨_, rfl, id⟩
theorem isNested : Fine src n Prog.isNested := ask fun p cs hl => ⟨_, rfl, id⟩
theorem nextIsStop : Fine src n Prog.nextIsStop := ask fun p cs hl => ⟨_, nextIsStop_stream hl.stream hl.skip.eof, id⟩
theorem isWs {c : Cursor} : Fine src n (Prog.isWs c) := ask fun p cs hl => by
  rw [peekWs_stream hl.stream]; exact ⟨_, rfl, id⟩
theorem isKind {k : Kind} {c : Cursor} : Fine src n (Prog.isKind k c) := pure id
theorem isDelim {ch : Char} {c : Cursor} : Fine src n (Prog.isDelim ch c) := pure id
theorem inSet {s : KindSet} {c : Cursor} : Fine src n (Prog.inSet s c) := pure id

/-- Nothing is known about a cursor that was taken. -/
theorem take : EatsIf src n (fun c => notEof c = true) Prog.take := by
  intro p cs hl _
  obtain ⟨c, p', cs', h1, h2, h3, _, h4, _⟩ := hl.next
  refine ⟨.ok c, p', [c], cs', gives_take.mpr ⟨c, h1, rfl, rfl⟩, h2, h3, fun a ha hP => ?_⟩
  cases ha
  refine (h4 ?_).1
  simpa [notEof] using hP

theorem tok {g : Cursor → Bool} (hg : ∀ c, g c = true → notEof c = true) : Eats src n (Prog.tok fun c => Pure.pure (g c)) := by
  intro p cs hl _
  obtain ⟨c, p', cs', h1, h2, h3, _, h4, _⟩ := hl.next
  refine ⟨_, p', [c], cs', gives_tok.mpr ⟨c, h1, rfl, rfl⟩, h2, h3, fun a ha _ => ?_⟩
  cases hc : g c with
  | false => rw [hc] at ha; cases ha
  | true => exact (h4 (by simpa [notEof] using hg c hc)).1
/-- A token, and what is known of it afterwards. -/
theorem tokSeq {g : Cursor → Bool} (hg : ∀ c, g c = true → notEof c = true) {f : Cursor → Prog β}
    (h : ∀ c, g c = true → Known src c → Fine src n (f c)) : EatsIf src (n + 1) Q (Prog.tok (fun c => Pure.pure (g c)) >>= f) := by
  intro p cs hl hn
  obtain ⟨c, p', cs', h1, h2, h3, _, h4, h5⟩ := hl.next
  have hlen := h3.length_le
  cases hc : g c with
  | false =>
    refine ⟨_, p', [c], cs', gives_bind.mpr (.inr ⟨_, gives_tok.mpr ⟨c, h1, rfl, by rw [if_neg (by simp [hc])]⟩, rfl⟩), h2, h3, fun a ha _ => by cases ha⟩
  | true =>
    have hlt := (h4 (by simpa [notEof] using hg c hc)).1
    obtain ⟨r, p2, w, cs2, j1, j2, j3, _⟩ := h c hc h5 h2 (by omega)
    have := j3.length_le
    exact ⟨r, p2, _, cs2, gives_bind.mpr (.inl ⟨c, p', [c], w, gives_tok.mpr ⟨c, h1, rfl, by rw [if_pos hc]⟩, j1, rfl⟩), j2, j3.trans h3,
      fun a ha hQ => by omega⟩
theorem tokKindSeq {k : Kind} (hk : k ≠ .eof) {f : Cursor → Prog β} (h : ∀ c, c.token.isKind k = true → Known src c → Fine src n (f c)) :
    EatsIf src (n + 1) Q (Prog.tok (Prog.isKind k) >>= f) := tokSeq (g := fun c => c.token.isKind k) (fun _ h => isKind_notEof hk h) h
theorem eqCase {c : Cursor} {o : List Char} (hd : Decodable c src.chars) : Fine src n (Prog.eqIgnoreAsciiCase c o) := ask fun p cs hl => by
  obtain ⟨b, hb⟩ := hd.2.2 o
  exact ⟨b, by rw [hl.source]; exact hb, id⟩
theorem strLower {c : Cursor} (hd : Decodable c src.chars) : Fine src n (Prog.strLower c) := ask fun p cs hl => by
  obtain ⟨b, hb⟩ := hd.2.1
  exact ⟨b, by rw [hl.source]; exact hb, id⟩
theorem tokKind {k : Kind} (hk : k ≠ .eof) : Eats src n (Prog.tok (Prog.isKind k)) := tok (g := fun c => c.token.isKind k) fun _ h => isKind_notEof hk h
theorem tokSet {s : KindSet} (hs : s.contains .eof = false) : Eats src n (Prog.tok (Prog.inSet s)) :=
  tok (g := fun c => c.token.inSet s) fun _ h => inSet_notEof hs h
theorem tokDelim {ch : Char} : Eats src n (Prog.tok (Prog.isDelim ch)) :=
  tok (g := fun c => c.token.isKind .delim && c.token.isChar ch) fun c h => isKind_notEof (k := .delim) (by decide) (by
    simp only [Bool.and_eq_true] at h; exact h.1)

theorem whitespace : Eats src n Prog.whitespace := by
  intro p cs hl _
  have hl' : Left src { p with skip := KindSet.COMMENTS } cs := ⟨hl.source, hl.stream, .lit (s := KindSet.COMMENTS) (by decide), hl.names⟩
  obtain ⟨c, p', cs', h1, h2, h3, h5, h4, h6⟩ := hl'.next
  unfold Prog.whitespace
  have hl2 : Left src { p' with skip := p.skip } cs' := ⟨h2.source, h2.stream, hl.skip, h2.names⟩
  cases hw : c.token.isKind .whitespace with
  | true =>
    refine ⟨.ok c, _, [c], cs', gives_setSkip.mpr (gives_next.mpr ⟨c, p', [], h1, gives_setSkip.mpr ?_, rfl⟩), hl2, h3, fun a ha _ => ?_⟩
    · rw [if_pos hw]; exact gives_pure.mpr ⟨rfl, rfl, rfl⟩
    · exact (h4 (by simpa [notEof] using isKind_notEof (by decide) hw)).1
  | false =>
    refine ⟨.error ⟨.unexpected, c.span⟩, _, [c], cs', gives_setSkip.mpr (gives_next.mpr ⟨c, p', [], h1, gives_setSkip.mpr ?_, rfl⟩), hl2, h3,
      fun a ha _ => ?_⟩
    · rw [if_neg (by simp [hw])]; exact gives_fail.mpr ⟨rfl, rfl, rfl⟩
    · cases ha

end EatsIf
end Hdx

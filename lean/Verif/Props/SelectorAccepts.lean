/-
C76: selectors of the grammar are accepted, with the components they show.
-/
import Verif.Props.SelectorShape

namespace Hdx
open Spec Prog

/-! ### Specification -/

namespace Spec

/-- A simple selector or a combinator, with its tokens. -/
inductive SelPiece where
  | id (c : Cursor)
  | cls (dot name : Cursor)
  | tag (c : Cursor)
  | star (c : Cursor)
  | child (c : Cursor)
  | nextSibling (c : Cursor)
  | subsequentSibling (c : Cursor)
  | nesting (c : Cursor)
  | space (c : Cursor)
  | pseudo (colon name : Cursor)

def SelPiece.tokens : SelPiece → List Cursor
  | .id c | .tag c | .star c | .child c | .nextSibling c | .subsequentSibling c | .nesting c | .space c => [c]
  | .cls d n => [d, n]
  | .pseudo c n => [c, n]

/-- The first token that is not a comment. -/
def afterComments (cs : List Cursor) : Option Cursor := (cs.dropWhile fun c => c.token.inSet KindSet.COMMENTS).head?

/-- The names of pseudo-classes, with and without a vendor prefix, and the pseudo-elements that may be written with one colon. -/
def pseudoNames : List (List Char) := LEGACY_PSEUDO_ELEMENTS ++ (PSEUDO_CLASSES ++ (WEBKIT_PSEUDO_CLASSES ++ (MOZ_PSEUDO_CLASSES ++ (MS_PSEUDO_CLASSES ++ O_PSEUDO_CLASSES))))

/-- The tokens of the piece are of the right kind, with `after` following it: an element name or `*` is not followed by `|`, and whitespace is between two pieces. -/
def SelPiece.Fits (src : List Char) (after : List Cursor) : SelPiece → Prop
  | .id c => IsKind .hash c ∧ c.token.hashIsIdLike = true
  | .cls d n => IsDelim '.' d ∧ IsKind .ident n
  | .tag c => IsKind .ident c ∧ ∀ d ∈ afterComments after, d.token.isChar '|' = false
  | .star c => IsDelim '*' c ∧ ∀ d ∈ afterComments after, d.token.isChar '|' = false
  | .child c => IsDelim '>' c
  | .nextSibling c => IsDelim '+' c
  | .subsequentSibling c => IsDelim '~' c
  | .nesting c => IsDelim '&' c
  | .space c => IsKind .whitespace c ∧ ∃ d ∈ after.head?, d.token.inSet KindSet.TRIVIA = false ∧ d.token.inSet KindSet.LEFT_CURLY_RIGHT_PAREN_COMMA_OR_SEMICOLON = false
  | .pseudo c n => IsKind .colon c ∧ IsKind .ident n ∧ ∃ s, Named src n s ∧ s ∈ pseudoNames

/-- The tokens of a sequence of pieces. -/
def pieceTokens (ps : List SelPiece) : List Cursor := ps.flatMap SelPiece.tokens

/-- Every piece fits in its place; `rest` follows the last one. -/
def Fitting (src : List Char) : List SelPiece → List Cursor → Prop
  | [], _ => True
  | p :: ps, rest => p.Fits src (pieceTokens ps ++ rest) ∧ Fitting src ps rest

/-- What a piece becomes. -/
def SelPiece.Becomes : SelPiece → Sel → Prop
  | .id c, s => s = .id c
  | .cls d n, s => s = .cls d n
  | .tag c, s => ∃ k, s = .tag k c
  | .star c, s => s = .wildcard c
  | .child c, s => s = .combinator (.child c)
  | .nextSibling c, s => s = .combinator (.nextSibling c)
  | .subsequentSibling c, s => s = .combinator (.subsequentSibling c)
  | .nesting c, s => s = .combinator (.nesting c)
  | .space c, s => s = .combinator (.descendant c)
  | .pseudo c n, s => (∃ name, s = .legacyPseudoElement name c n) ∨ ∃ v name, s = .pseudoClass v name c n

/-- Each piece becomes one component, in order. -/
def AllBecome : List SelPiece → List Sel → Prop
  | [], ss => ss = []
  | p :: ps, ss => ∃ s ss', ss = s :: ss' ∧ p.Becomes s ∧ AllBecome ps ss'

/-- Whitespace and comments. -/
def Gap (cs : List Cursor) : Prop := ∀ c ∈ cs, c.token.inSet KindSet.TRIVIA = true

/-- Nothing follows, or, perhaps after whitespace and comments, a token of the set. -/
def Followed (set : KindSet) (rest : List Cursor) : Prop := rest = [] ∨ ∃ gap d more, rest = gap ++ d :: more ∧ Gap gap ∧ d.token.inSet set = true

/-- One selector of a list: what is before it, its pieces, what is after it, and the comma. -/
structure Group where
  before : List Cursor
  pieces : List SelPiece
  after : List Cursor
  comma : Option Cursor

def Group.tokens (g : Group) : List Cursor := g.before ++ (pieceTokens g.pieces ++ (g.after ++ g.comma.toList))

def groupTokens (gs : List Group) : List Cursor := gs.flatMap Group.tokens

/-- Whitespace and comments are only before a selector and before a comma; there is a comma between two selectors and none after the last. -/
def GroupsFit (src : List Char) : List Group → List Cursor → Prop
  | [], rest => Followed KindSet.LEFT_CURLY_RIGHT_PAREN_OR_SEMICOLON rest
  | g :: gs, rest => Gap g.before ∧ g.pieces ≠ [] ∧ (∃ c ∈ (pieceTokens g.pieces).head?, c.token.inSet KindSet.TRIVIA = false)
    ∧ Fitting src g.pieces (g.after ++ g.comma.toList ++ groupTokens gs ++ rest) ∧ Gap g.after
    ∧ (match g.comma with
      | none => gs = [] ∧ g.after = []
      | some c => gs ≠ [] ∧ IsKind .comma c)
    ∧ GroupsFit src gs rest

/-- Each selector of the list has the pieces as components, and its comma. -/
def GroupsBecome : List Group → List (List Sel × Option Cursor) → Prop
  | [], a => a = []
  | g :: gs, a => ∃ ss a', a = (ss, g.comma) :: a' ∧ AllBecome g.pieces ss ∧ GroupsBecome gs a'

end Spec

/-! ### Evaluation -/

section
variable {src : List Char}

theorem Left.here {p : Parser} {c : Cursor} {cs : List Cursor} (h : Left src p (c :: cs)) (hc : c.token.inSet p.skip = false) :
    ∃ q, p.next = .ok (c, q) ∧ Left src q cs ∧ modes q = modes p ∧ p.peekN 1 = .ok c ∧ Known src c := by
  obtain ⟨l', a, b, c1, c2⟩ := next_stream h.stream
  have e1 : firstOutside p.lexer p.skip (c :: cs) = c := by simp [firstOutside, hc]
  rw [List.dropWhile_cons_of_neg (by simp [hc])] at b
  rw [e1] at a
  refine ⟨_, a, ⟨c1.trans h.source, b, h.skip, fun d hd => h.names d (List.mem_cons_of_mem _ hd)⟩, rfl, ?_, h.names c (by simp)⟩
  have := Parser.C32_peek_n 1 p (by decide)
  simp only [Parser.nextN, a, Except.map] at this
  cases hp : p.peekN 1 with
  | error e => rw [hp] at this; cases this
  | ok x => rw [hp] at this; simpa using this.symm

theorem Left.two {p q : Parser} {c : Cursor} {cs : List Cursor} (hn : p.next = .ok (c, q)) (h : Left src q cs) (hm : modes q = modes p) :
    p.peekN 2 = .ok (firstOutside q.lexer p.skip cs) := by
  obtain ⟨l', a, _⟩ := next_stream h.stream
  have := peekN_two hn a
  rw [modes_skip hm] at this
  exact this

/-- `x` succeeds from `p`. -/
def Makes {α : Type} (src : List Char) (p : Parser) (x : Prog α) (R : α → Parser → List Cursor → Prop) : Prop :=
  ∃ a q w cs, Gives x p (.ok a) q w ∧ Left src q cs ∧ R a q cs

namespace Makes
variable {α β : Type} {p : Parser} {R : α → Parser → List Cursor → Prop} {S : β → Parser → List Cursor → Prop}

theorem pure {a : α} {cs : List Cursor} (hl : Left src p cs) (h : R a p cs) : Makes src p (Pure.pure a) R := ⟨a, p, [], cs, gives_pure.mpr ⟨rfl, rfl, rfl⟩, hl, h⟩
theorem bind {x : Prog α} {f : α → Prog β} (hx : Makes src p x R) (hf : ∀ a q cs, Left src q cs → R a q cs → Makes src q (f a) S) : Makes src p (x >>= f) S := by
  obtain ⟨a, q, w, cs, h1, h2, h3⟩ := hx
  obtain ⟨b, q2, w2, cs2, g1, g2, g3⟩ := hf a q cs h2 h3
  exact ⟨b, q2, _, cs2, gives_seq h1 g1, g2, g3⟩
theorem peekN {k : Nat} {c : Cursor} {f : Cursor → Prog β} (hc : p.peekN k = .ok c) (h : Makes src p (f c) S) : Makes src p (Prog.peekN k >>= f) S := by
  obtain ⟨b, q2, w2, cs2, g1, g2, g3⟩ := h
  have : Gives (Prog.peekN k) p (.ok c) p [] := gives_ask.mpr ⟨c, hc, rfl, rfl, rfl⟩
  exact ⟨b, q2, _, cs2, gives_seq this g1, g2, g3⟩
theorem peek {q : Parser} {c : Cursor} {f : Cursor → Prog β} (hc : p.next = .ok (c, q)) (h : Makes src p (f c) S) : Makes src p (Prog.peek >>= f) S := by
  obtain ⟨b, q2, w2, cs2, g1, g2, g3⟩ := h
  exact ⟨b, q2, _, cs2, gives_of_peek (peek_of_next hc) g1, g2, g3⟩
theorem take {q : Parser} {c : Cursor} {f : Cursor → Prog β} (hn : p.next = .ok (c, q)) (h : Makes src q (f c) S) : Makes src p (Prog.take >>= f) S := by
  obtain ⟨b, q2, w2, cs2, g1, g2, g3⟩ := h
  exact ⟨b, q2, _, cs2, gives_seq (gives_take.mpr ⟨c, hn, rfl, rfl⟩) g1, g2, g3⟩
theorem tok {test : Cursor → Prog Bool} (hi : Inspects test) {q : Parser} {c : Cursor} {f : Cursor → Prog β} (hn : p.next = .ok (c, q)) (ht : Gives (test c) p (.ok true) p [])
    (h : Makes src q (f c) S) : Makes src p (Prog.tok test >>= f) S := by
  obtain ⟨b, q2, w2, cs2, g1, g2, g3⟩ := h
  exact ⟨b, q2, _, cs2, gives_seq ((gives_tok_pure (fun h => hi h)).mpr ⟨hn, ht, rfl⟩) g1, g2, g3⟩
theorem kind {k : Kind} {q : Parser} {c : Cursor} {f : Cursor → Prog β} (hn : p.next = .ok (c, q)) (hk : IsKind k c) (h : Makes src q (f c) S) :
    Makes src p (Prog.tok (Prog.isKind k) >>= f) S := tok Inspects.kind hn (gives_pure.mpr ⟨by rw [show c.token.isKind k = true from hk], rfl, rfl⟩) h
theorem delim {ch : Char} {q : Parser} {c : Cursor} {f : Cursor → Prog β} (hn : p.next = .ok (c, q)) (hk : IsDelim ch c) (h : Makes src q (f c) S) :
    Makes src p (Prog.tok (Prog.isDelim ch) >>= f) S := tok Inspects.delim hn (gives_pure.mpr ⟨by rw [hk.1, hk.2]; rfl, rfl, rfl⟩) h
theorem setSkip {s : KindSet} {k : KindSet → Prog α} (h : Makes src { p with skip := s } (k p.skip) R) : Makes src p (Prog.setSkip s k) R := by
  obtain ⟨a, q, w, cs, h1, h2, h3⟩ := h
  exact ⟨a, q, w, cs, gives_setSkip.mpr h1, h2, h3⟩
theorem consumeTrivia {k : Prog α} {q : Parser} (hq : p.consumeTrivia = .ok q) (h : Makes src q k R) : Makes src p (Prog.consumeTrivia k) R := by
  obtain ⟨a, q2, w, cs, h1, h2, h3⟩ := h
  refine ⟨a, q2, w, cs, ?_, h2, h3⟩
  simp only [Gives, runLog, hq]
  exact h1
theorem ask {f : Parser → Except Panic α} {g : α → Prog β} {a : α} (ha : f p = .ok a) (h : Makes src p (g a) S) : Makes src p (Prog.ask f >>= g) S := by
  obtain ⟨b, q2, w2, cs2, g1, g2, g3⟩ := h
  exact ⟨b, q2, _, cs2, gives_seq (gives_ask.mpr ⟨a, ha, rfl, rfl, rfl⟩) g1, g2, g3⟩
theorem pos {b : Prop} [Decidable b] {x y : Prog α} (hb : b) (h : Makes src p x R) : Makes src p (if b then x else y) R := by rw [if_pos hb]; exact h
theorem neg {b : Prop} [Decidable b] {x y : Prog α} (hb : ¬ b) (h : Makes src p y R) : Makes src p (if b then x else y) R := by rw [if_neg hb]; exact h
theorem mono {x : Prog α} {R' : α → Parser → List Cursor → Prop} (h : Makes src p x R) (hr : ∀ a q cs, R a q cs → R' a q cs) : Makes src p x R' := by
  obtain ⟨a, q, w, cs, h1, h2, h3⟩ := h
  exact ⟨a, q, w, cs, h1, h2, hr _ _ _ h3⟩
end Makes

/-- A program that cannot end in an error. -/
def NoErr {α : Type} (x : Prog α) : Prop := ∀ ⦃p d q w⦄, ¬ Gives x p (.error d) q w

namespace NoErr
variable {α β : Type}
theorem pure {a : α} : NoErr (Pure.pure a) := fun p d q w h => by have := (gives_pure.mp h).1; cases this
theorem panic {e : Panic} : NoErr (Prog.panic e : Prog α) := fun _ _ _ _ h => gives_panic h
theorem ask {f : Parser → Except Panic α} : NoErr (Prog.ask f) := fun p d q w h => by obtain ⟨_, _, e, _⟩ := gives_ask.mp h; cases e
theorem bind {x : Prog α} {f : α → Prog β} (hx : NoErr x) (hf : ∀ a, NoErr (f a)) : NoErr (x >>= f) := by
  intro p d q w h
  rcases gives_bind.mp h with ⟨a, p1, w1, w2, _, h2, _⟩ | ⟨d', h1, _⟩
  · exact hf a h2
  · exact hx h1
theorem ite {b : Prop} [Decidable b] {x y : Prog α} (hx : NoErr x) (hy : NoErr y) : NoErr (if b then x else y) := by
  split
  · exact hx
  · exact hy
theorem isKeyword {names : List (List Char)} {c : Cursor} : NoErr (Hdx.isKeyword names c) := ite (bind ask fun _ => pure) pure
theorem buildKeyword {names : List (List Char)} {c : Cursor} : NoErr (Hdx.buildKeyword names c) := bind ask fun _ => ite pure panic
theorem buildTag {c : Cursor} : NoErr (Hdx.buildTag c) := by
  unfold Hdx.buildTag
  refine bind isKeyword fun _ => ite (bind buildKeyword fun _ => pure) (bind isKeyword fun _ => ite (bind buildKeyword fun _ => pure) (bind isKeyword fun _ =>
    ite (bind buildKeyword fun _ => pure) (bind ask fun _ => ite pure (bind isKeyword fun _ => ite (bind buildKeyword fun _ => pure) (bind isKeyword fun _ =>
    ite (bind buildKeyword fun _ => pure) pure)))))
end NoErr

theorem Makes.buildTag {p : Parser} {c : Cursor} {cs : List Cursor} (hl : Left src p cs) (hk : Known src c) (hi : c.token.isKind .ident = true) :
    Makes src p (Hdx.buildTag c) fun r q cs' => (∃ k, r = (k, c)) ∧ q = p ∧ cs' = cs := by
  obtain ⟨r, q, w, cs', h1, _⟩ := EatsIf.buildTag (n := cs.length + 1) hk hi hl (by omega)
  cases r with
  | error d => exact absurd h1 (fun h => NoErr.buildTag h)
  | ok a =>
    have : (∃ k, a = (k, c)) ∧ q = p := buildTag_succ (Q := fun a q _ => (∃ k, a = (k, c)) ∧ q = p) (fun k => ⟨⟨k, rfl⟩, rfl⟩) h1
    obtain ⟨hk, rfl⟩ := this
    exact ⟨a, q, w, cs, h1, hl, hk, rfl, rfl⟩

/-- The combinators that are a single delimiter. -/
theorem combinator_delim {p : Parser} {c : Cursor} {cs : List Cursor} (hl : Left src p (c :: cs)) (hs : p.skip = KindSet.TRIVIA) {ch : Char} (hc : IsDelim ch c)
    {k : Cursor → Combinator} (hk : (ch, k) ∈ [('>', Combinator.child), ('+', .nextSibling), ('~', .subsequentSibling), ('&', .nesting)]) :
    Makes src p combinator fun r q cs' => r = k c ∧ cs' = cs ∧ modes q = modes p := by
  obtain ⟨q, n1, l1, m1, _, _⟩ := hl.here (by rw [hs, inSet_of_kind (by decide) hc.1]; decide)
  have other : ∀ d : Char, d ≠ ch → (c.token.isKind .delim && c.token.isChar d) ≠ true := by
    intro d hd h
    have h1 : c.token.isChar d = true := by
      rw [hc.1] at h; simpa using h
    have h2 := hc.2
    unfold Token.isChar at h1 h2
    cases he : c.token.char with
    | none => rw [he] at h1; cases h1
    | some x => rw [he] at h1 h2; simp at h1 h2; exact hd (h1.symm.trans h2)
  have this : (c.token.isKind .delim && c.token.isChar ch) = true := by rw [hc.1, hc.2]; rfl
  unfold combinator
  simp only [List.mem_cons, Prod.mk.injEq, List.not_mem_nil, or_false] at hk
  rcases hk with ⟨rfl, rfl⟩ | ⟨rfl, rfl⟩ | ⟨rfl, rfl⟩ | ⟨rfl, rfl⟩
  · exact .peek n1 (.pos this (.delim n1 hc (.pure l1 ⟨rfl, rfl, m1⟩)))
  · exact .peek n1 (.neg (other _ (by decide)) (.pos this (.delim n1 hc (.pure l1 ⟨rfl, rfl, m1⟩))))
  · exact .peek n1 (.neg (other _ (by decide)) (.neg (other _ (by decide)) (.pos this (.delim n1 hc (.pure l1 ⟨rfl, rfl, m1⟩)))))
  · exact .peek n1 (.neg (other _ (by decide)) (.neg (other _ (by decide)) (.neg (other _ (by decide)) (.pos this (.delim n1 hc (.pure l1 ⟨rfl, rfl, m1⟩))))))

theorem whitespace_not_char {t : Token} (h : t.isKind .whitespace = true) (ch : Char) : t.isChar ch = false := by
  unfold Token.isChar Token.char Token.isDelimLike
  simp only [Token.isKind, beq_iff_eq] at h
  rw [h, if_neg (by decide)]
  rfl

theorem consumeTriviaLoop_exact {skip : KindSet} {l : Lexer} {cs : List Cursor} (h : Stream l cs) (tr : List Cursor) :
    ∃ l' tr', Parser.consumeTriviaLoop skip l tr = .ok (l', tr') ∧ Stream l' (cs.dropWhile fun c => c.token.inSet skip) ∧ l'.source = l.source := by
  induction h generalizing tr with
  | @nil l h =>
    have ha := Stream.advance_nil h
    refine ⟨{ source := l.source, offset := l.offset, token := Token.EOF, features := l.features }, tr, ?_, .nil h, rfl⟩
    rw [Parser.consumeTriviaLoop.eq_def]
    split
    · rename_i e he; rw [ha] at he; cases he
    · rename_i t l' he; rw [ha] at he; cases he
      rw [if_pos eof_isKind]
  | @cons l l' t cs ha hk hz h ih =>
    rw [Parser.consumeTriviaLoop.eq_def]
    split
    · rename_i e he; rw [ha] at he; cases he
    · rename_i t2 l2 he; rw [ha] at he; cases he
      rw [if_neg (by simp [hk])]
      have hke := advance_keeps ha
      split
      · rename_i hs
        obtain ⟨l2, tr2, g1, g2, g4⟩ := ih (tr ++ [⟨l.offset, t⟩])
        rw [List.dropWhile_cons_of_pos (by exact hs)]
        exact ⟨l2, tr2, g1, g2, g4.trans hke.1⟩
      · rename_i hs
        rw [List.dropWhile_cons_of_neg (by exact hs)]
        refine ⟨_, tr, rfl, ?_, hke.1⟩
        exact (Stream.cons ha hk hz h).congr hke.1 hke.2.1 rfl

theorem Left.drop {p : Parser} {cs : List Cursor} (h : Left src p cs) :
    ∃ q, p.consumeTrivia = .ok q ∧ Left src q (cs.dropWhile fun c => c.token.inSet p.skip) ∧ modes q = modes p := by
  obtain ⟨l', tr', g1, g2, g4⟩ := consumeTriviaLoop_exact (skip := p.skip) h.stream p.trivia
  refine ⟨{ p with lexer := l', trivia := tr' }, ?_, ⟨g4.trans h.source, g2, h.skip, fun c hc => h.names c ((List.dropWhile_suffix _).subset hc)⟩, rfl⟩
  unfold Parser.consumeTrivia
  rw [g1]; rfl

theorem Left.back {α : Type} {p q : Parser} {cs cs' : List Cursor} {body : Prog α} {r : Except Diag α} {w : List Cursor} (h : Left src p cs) (hg : Gives body p r q w)
    (hq : Left src q cs') : Left src (q.rewind p.checkpoint) cs := by
  obtain ⟨s1, s2⟩ := runLog_source body hg
  refine ⟨hq.source, h.stream.congr ?_ ?_ ?_, hq.skip, h.names⟩
  · simp [Parser.rewind, Lexer.rewind, s1]
  · simp [Parser.rewind, Lexer.rewind, s2]
  · simp [Parser.rewind, Lexer.rewind, Parser.checkpoint, Lexer.checkpoint]

section
variable {p : Parser} {colon n : Cursor} {cs : List Cursor} {s : List Char} (hl : Left src p (colon :: n :: cs)) (hs : p.skip = KindSet.TRIVIA) (hc : IsKind .colon colon)
  (hn : IsKind .ident n) (hname : Named src n s)
include hl hs hc hn hname

theorem pseudoClassOf_at (names : List (List Char)) : ∃ r q w, Gives (pseudoClassOf names) p r q w ∧ Left src q cs ∧ modes q = modes p
    ∧ (s ∈ names → r = .ok (s, colon, n)) ∧ (s ∉ names → ∃ d, r = .error d) := by
  obtain ⟨q1, n1, l1, m1, _, _⟩ := hl.here (by rw [hs, inSet_of_kind (by decide) hc]; decide)
  have l1' : Left src { q1 with skip := KindSet.NONE } (n :: cs) := l1.skipping (.lit (by decide))
  obtain ⟨q2, n2, l2, m2, _, k2⟩ := l1'.here (by rw [inSet_none])
  have hk1 : q1.skip = p.skip := modes_skip m1
  have g1 : Gives (tok (isKind .colon)) p (.ok colon) q1 [colon] := gives_tok.mpr ⟨colon, n1, rfl, (if_pos (show colon.token.isKind .colon = true from hc)).symm⟩
  have g2 : Gives (result (tok (isKind .ident))) { q1 with skip := KindSet.NONE } (.ok (.ok n)) q2 [n] :=
    gives_result.mpr ⟨_, gives_tok.mpr ⟨n, n2, rfl, (if_pos (show n.token.isKind .ident = true from hn)).symm⟩, rfl⟩
  have l3 : Left src { q2 with skip := q1.skip } cs := l2.skipping l1.skip
  have g3 : Gives (Prog.strLower n) { q2 with skip := q1.skip } (.ok s) { q2 with skip := q1.skip } [] :=
    gives_ask.mpr ⟨s, by show n.parseStrLower q2.lexer.source = _; rw [l2.source]; exact hname, rfl, rfl, rfl⟩
  have m3 : modes { q2 with skip := q1.skip } = modes p := by rw [modes_reset m2]; exact m1
  unfold pseudoClassOf adjacentName
  by_cases hin : s ∈ names
  · have g5 : Gives (if names.contains s = true then Pure.pure (s, n) else do { let _ ← Prog.str n; Prog.fail .unexpectedIdent n }) { q2 with skip := q1.skip } (.ok (s, n))
        { q2 with skip := q1.skip } [] := by
      rw [if_pos (by simpa using hin)]; exact gives_pure.mpr ⟨rfl, rfl, rfl⟩
    exact ⟨_, _, _, gives_seq g1 (gives_bind.mpr (.inl ⟨(s, n), _, _, _, gives_setSkip.mpr (gives_seq g2 (gives_setSkip.mpr
      (gives_seq (gives_ofResult.mpr ⟨rfl, rfl, rfl⟩) (gives_seq g3 g5)))), gives_pure.mpr ⟨rfl, rfl, rfl⟩, rfl⟩)), l3, m3, fun _ => rfl, fun h => absurd hin h⟩
  · obtain ⟨b, hb⟩ := (k2 (.inl (kind_of_isKind (by decide) hn))).1
    have g4 : Gives (Prog.str n) { q2 with skip := q1.skip } (.ok b) { q2 with skip := q1.skip } [] :=
      gives_ask.mpr ⟨b, by show n.parseStr q2.lexer.source = _; rw [l2.source]; exact hb, rfl, rfl, rfl⟩
    have g5 : Gives (if names.contains s = true then Pure.pure (s, n) else do { let _ ← Prog.str n; Prog.fail .unexpectedIdent n }) { q2 with skip := q1.skip }
        (.error ⟨.unexpectedIdent, n.span⟩) { q2 with skip := q1.skip } [] := by
      rw [if_neg (by simpa using hin)]; exact gives_seq g4 (gives_fail.mpr ⟨rfl, rfl, rfl⟩)
    exact ⟨_, _, _, gives_seq g1 (gives_bind.mpr (.inr ⟨⟨.unexpectedIdent, n.span⟩, gives_setSkip.mpr (gives_seq g2 (gives_setSkip.mpr
      (gives_seq (gives_ofResult.mpr ⟨rfl, rfl, rfl⟩) (gives_seq g3 g5)))), rfl⟩)), l3, m3, fun h => absurd h hin, fun _ => ⟨_, rfl⟩⟩

theorem tryVendors_at {otherwise : Prog (Vendor × List Char × Cursor × Cursor)} : ∀ vs : List Vendor, (∃ v ∈ vs, s ∈ pseudoClassNames v) →
    Makes src p (tryVendors (fun v => pseudoClassOf (pseudoClassNames v)) otherwise vs) fun r _ cs' => (∃ v, r = (v, s, colon, n)) ∧ cs' = cs := by
  intro vs
  induction vs generalizing p with
  | nil => rintro ⟨_, h, _⟩; cases h
  | cons v vs ih =>
    intro hv
    obtain ⟨r, q, w, g, l, m, h1, h2⟩ := pseudoClassOf_at hl hs hc hn hname (pseudoClassNames v)
    unfold tryVendors
    by_cases hin : s ∈ pseudoClassNames v
    · rw [h1 hin] at g
      have g' : Gives (result (tryParse (pseudoClassOf (pseudoClassNames v)))) p (.ok (.ok (s, colon, n))) q (w ++ []) :=
        gives_result.mpr ⟨_, gives_attempt.mpr ⟨_, q, w, [], g, .inl ⟨rfl, rfl, gives_ofResult.mpr ⟨rfl, rfl, rfl⟩⟩⟩, rfl⟩
      exact ⟨_, _, _, cs, gives_seq g' (gives_pure.mpr ⟨rfl, rfl, rfl⟩), l, ⟨v, rfl⟩, rfl⟩
    · obtain ⟨d, hd⟩ := h2 hin
      rw [hd] at g
      have g' : Gives (result (tryParse (pseudoClassOf (pseudoClassNames v)))) p (.ok (.error d)) (q.rewind p.checkpoint) [] :=
        gives_result.mpr ⟨_, gives_attempt.mpr ⟨_, q, w, [], g, .inr ⟨rfl, rfl, gives_ofResult.mpr ⟨rfl, rfl, rfl⟩⟩⟩, rfl⟩
      have hv' : ∃ v ∈ vs, s ∈ pseudoClassNames v := by
        obtain ⟨v', hm, hs'⟩ := hv
        rcases List.mem_cons.mp hm with rfl | hm
        · exact absurd hs' hin
        · exact ⟨v', hm, hs'⟩
      obtain ⟨a, q2, w2, cs2, j1, j2, j3⟩ := ih (hl.back g l) ((modes_skip m).trans hs) hv'
      exact ⟨a, q2, _, cs2, gives_seq g' j1, j2, j3⟩

theorem pseudoClass_at (h : ∃ v, s ∈ pseudoClassNames v) : Makes src p pseudoClass fun r _ cs' => (∃ v, r = (v, s, colon, n)) ∧ cs' = cs := by
  obtain ⟨r, q, w, g, l, m, h1, h2⟩ := pseudoClassOf_at hl hs hc hn hname PSEUDO_CLASSES
  unfold pseudoClass
  by_cases hin : s ∈ PSEUDO_CLASSES
  · rw [h1 hin] at g
    exact ⟨_, _, _, cs, gives_attempt.mpr ⟨_, q, w, [], g, .inl ⟨rfl, rfl, gives_pure.mpr ⟨rfl, rfl, rfl⟩⟩⟩, l, ⟨.standard, rfl⟩, rfl⟩
  · obtain ⟨d, hd⟩ := h2 hin
    rw [hd] at g
    have l' := hl.back g l
    have s' : (q.rewind p.checkpoint).skip = KindSet.TRIVIA := (modes_skip m).trans hs
    obtain ⟨c2, hc2, _⟩ := l'.peekN 1
    have hv : ∃ v ∈ [Vendor.webkit, .moz, .ms, .o], s ∈ pseudoClassNames v := by
      obtain ⟨v, hv⟩ := h
      cases v with
      | standard => exact absurd hv hin
      | webkit => exact ⟨_, by simp, hv⟩
      | moz => exact ⟨_, by simp, hv⟩
      | ms => exact ⟨_, by simp, hv⟩
      | o => exact ⟨_, by simp, hv⟩
    have key := tryVendors_at (otherwise := failReading c2) l' s' hc hn hname [.webkit, .moz, .ms, .o] hv
    obtain ⟨a, q2, w2, cs2, j1, j2, j3⟩ := Makes.peekN (f := fun c => tryVendors (fun v => pseudoClassOf (pseudoClassNames v)) (failReading c) [.webkit, .moz, .ms, .o]) hc2 key
    exact ⟨a, q2, _, cs2, gives_attempt.mpr ⟨_, q, w, w2, g, .inr ⟨rfl, rfl, j1⟩⟩, j2, j3⟩

end


theorem Makes.isKeeps {p : Parser} {f : Parser → Except Panic Bool} {b : Bool} (h : f p = .ok b) : Gives (Prog.ask f) p (.ok b) p [] := gives_ask.mpr ⟨b, h, rfl, rfl, rfl⟩

theorem isPseudoClassOf_at {p : Parser} {colon n : Cursor} {cs : List Cursor} {s : List Char} (hl : Left src p (colon :: n :: cs)) (hs : p.skip = KindSet.TRIVIA)
    (hc : IsKind .colon colon) (hn : IsKind .ident n) (hname : Named src n s) (names : List (List Char)) :
    Gives (isPseudoClassOf names colon) p (.ok (names.contains s)) p [] := by
  obtain ⟨q1, n1, l1, m1, _, _⟩ := hl.here (by rw [hs, inSet_of_kind (by decide) hc]; decide)
  have h2 := Left.two n1 l1 m1
  have e : firstOutside q1.lexer p.skip (n :: cs) = n := by
    have : n.token.inSet p.skip = false := by rw [hs, inSet_of_kind (by decide) hn]; decide
    simp [firstOutside, this]
  rw [e] at h2
  unfold isPseudoClassOf
  have g1 : Gives (Prog.peekN 2) p (.ok n) p [] := gives_ask.mpr ⟨n, h2, rfl, rfl, rfl⟩
  have g2 : Gives (Prog.strLower n) p (.ok s) p [] := gives_ask.mpr ⟨s, by show n.parseStrLower p.lexer.source = _; rw [hl.source]; exact hname, rfl, rfl, rfl⟩
  refine gives_seq (w1 := []) (w2 := []) g1 ?_
  rw [if_pos (by rw [show colon.token.isKind .colon = true from hc, show n.token.isKind .ident = true from hn]; rfl)]
  exact gives_seq (w1 := []) (w2 := []) g2 (gives_pure.mpr ⟨rfl, rfl, rfl⟩)

theorem delim_other {c : Cursor} {ch d : Char} (hc : IsDelim ch c) (hd : d ≠ ch) : ¬ c.token.isChar d = true := by
  intro h1
  have h2 := hc.2
  unfold Token.isChar at h1 h2
  cases he : c.token.char with
  | none => rw [he] at h1; cases h1
  | some x => rw [he] at h1 h2; simp at h1 h2; exact hd (h1.symm.trans h2)

/-- A token of one kind is of no other. -/
theorem IsKind.other {k k' : Kind} {c : Cursor} (h : IsKind k c) (hk : k ≠ .eof) (hk' : k' ≠ .eof) (hd : k ≠ k') : ¬ c.token.isKind k' = true := by
  intro h'
  exact hd ((kind_of_isKind hk h).symm.trans (kind_of_isKind hk' h'))

theorem inSet_whitespace (t : Token) (h : t.inSet KindSet.WHITESPACE = true) : t.inSet KindSet.TRIVIA = true := by
  have hall : ∀ n < 32, KindSet.WHITESPACE.containsBits n = true → KindSet.TRIVIA.containsBits n = true := by decide
  exact hall _ (kindBits_lt t) h

theorem Left.hereOf {p : Parser} {c : Cursor} {cs : List Cursor} {k : Kind} {s : KindSet} (h : Left src p (c :: cs)) (hk : IsKind k c) (hn : k ≠ .eof) (hs : p.skip = s)
    (hc : s.contains k = false) : ∃ q, p.next = .ok (c, q) ∧ Left src q cs ∧ modes q = modes p ∧ p.peekN 1 = .ok c ∧ Known src c :=
  h.here (by rw [hs, inSet_of_kind hn hk]; exact hc)

section
variable {p : Parser} {cs : List Cursor} {compound : Prog (List Sel)} {list : Prog (List (List Sel × Option Cursor))} {n : Nat}

theorem notPipe {q : Parser} {cs : List Cursor} (h : ∀ d ∈ afterComments cs, d.token.isChar '|' = false) : ¬ (firstOutside q.lexer KindSet.COMMENTS cs).token.isChar '|' = true := by
  unfold firstOutside
  unfold afterComments at h
  cases hd : (cs.dropWhile fun c => c.token.inSet KindSet.COMMENTS).head? with
  | none => rw [Option.getD_none]; show ¬ Token.EOF.isChar '|' = true; decide
  | some d => rw [Option.getD_some, h d hd]; decide

theorem delimPiece {c : Cursor} (lc : Left src { p with skip := KindSet.COMMENTS } (c :: cs)) {ch : Char} (h1 : IsDelim ch c)
    {k : Cursor → Combinator} (hk : (ch, k) ∈ [('>', Combinator.child), ('+', .nextSibling), ('~', .subsequentSibling), ('&', .nesting)]) (hd : '.' ≠ ch) (hd2 : '*' ≠ ch)
    {P : Sel → Prop} (hP : P (.combinator (k c))) :
    Makes src { p with skip := KindSet.COMMENTS } (do
      let c ← Prog.peekN 1
      if c.token.isKind .ident then selIdent KindSet.TRIVIA
      else if c.token.isKind .hash && c.token.hashIsIdLike then selHash KindSet.TRIVIA
      else if c.token.isKind .leftSquare then Prog.setSkip KindSet.TRIVIA fun _ => do
        let a ← attributeSelector
        Pure.pure (.attr a)
      else if c.token.isKind .delim then
        if c.token.isChar '.' then selDot KindSet.TRIVIA
        else if c.token.isChar '*' then selStar KindSet.TRIVIA
        else selDelim KindSet.TRIVIA
      else if c.token.isKind .colon then selColon compound list n KindSet.TRIVIA c
      else selOther KindSet.TRIVIA) fun s _ cs' => P s ∧ cs' = cs := by
  obtain ⟨q, n1, l1, m1, pk, _⟩ := lc.hereOf (s := KindSet.COMMENTS) h1.1 (by decide) rfl (by decide)
  have k1 : IsKind .delim c := h1.1
  refine .peekN pk (.neg (IsKind.other k1 (by decide) (by decide) (by decide)) (.neg ?_ (.neg (IsKind.other k1 (by decide) (by decide) (by decide)) (.pos k1
    (.neg (delim_other h1 hd) (.neg (delim_other h1 hd2) ?_))))))
  · rw [show c.token.isKind .hash = false from Bool.eq_false_iff.mpr (IsKind.other k1 (by decide) (by decide) (by decide))]; simp
  unfold selDelim
  refine .setSkip (.bind (combinator_delim (lc.skipping (.lit (by decide))) rfl h1 hk) fun a q cs' hl' h => ?_)
  obtain ⟨rfl, rfl, _⟩ := h
  exact .pure hl' ⟨hP, rfl⟩

theorem component_piece (pc : SelPiece) (hl : Left src p (pc.tokens ++ cs)) (hs : p.skip = KindSet.TRIVIA) (hf : pc.Fits src cs) :
    Makes src p (selectorComponent compound list n) fun s _ cs' => pc.Becomes s ∧ cs' = cs := by
  have lc : Left src { p with skip := KindSet.COMMENTS } (pc.tokens ++ cs) := hl.skipping (.lit (by decide))
  unfold selectorComponent
  refine .setSkip ?_
  rw [hs]
  cases pc with
  | id c =>
    obtain ⟨h1, h2⟩ := hf
    obtain ⟨q, n1, l1, m1, pk, _⟩ := lc.hereOf (s := KindSet.COMMENTS) h1 (by decide) rfl (by decide)
    refine .peekN pk (.neg (IsKind.other h1 (by decide) (by decide) (by decide)) (.pos (by rw [show c.token.isKind .hash = true from h1, h2]; rfl) ?_))
    unfold selHash
    exact .take n1 (.setSkip (.pos h1 (.pure (l1.skipping (.lit (by decide))) ⟨rfl, rfl⟩)))
  | cls d c =>
    obtain ⟨h1, h2⟩ := hf
    obtain ⟨q, n1, l1, m1, pk, _⟩ := lc.hereOf (s := KindSet.COMMENTS) h1.1 (by decide) rfl (by decide)
    have e2 := Left.two n1 l1 m1
    have e : firstOutside q.lexer KindSet.COMMENTS (c :: cs) = c := by
      have : c.token.inSet KindSet.COMMENTS = false := by rw [inSet_of_kind (by decide) h2]; decide
      simp [firstOutside, this]
    rw [show ({ p with skip := KindSet.COMMENTS } : Parser).skip = KindSet.COMMENTS from rfl] at e2
    replace e2 := e2.trans (congrArg Except.ok e)
    have k1 : IsKind .delim d := h1.1
    refine .peekN pk (.neg (IsKind.other k1 (by decide) (by decide) (by decide)) (.neg ?_ (.neg (IsKind.other k1 (by decide) (by decide) (by decide)) (.pos k1 (.pos h1.2 ?_)))))
    · rw [show d.token.isKind .hash = false from Bool.eq_false_iff.mpr (IsKind.other k1 (by decide) (by decide) (by decide))]; simp
    unfold selDot
    refine .peekN e2 (.setSkip (.pos h2 ?_))
    have lt : Left src { ({ p with skip := KindSet.COMMENTS } : Parser) with skip := KindSet.TRIVIA } (d :: c :: cs) := hl.skipping (.lit (by decide))
    unfold classSelector
    obtain ⟨q1, n1, l1, m1, _, _⟩ := lt.hereOf (s := KindSet.TRIVIA) h1.1 (by decide) rfl (by decide)
    obtain ⟨q2, n2, l2, m2, _, _⟩ := l1.hereOf (s := KindSet.TRIVIA) h2 (by decide) (modes_skip m1) (by decide)
    exact .delim n1 h1 (.kind n2 h2 (.pure l2 ⟨rfl, rfl⟩))
  | tag c =>
    obtain ⟨h1, h2⟩ := hf
    obtain ⟨q, n1, l1, m1, pk, k1⟩ := lc.hereOf (s := KindSet.COMMENTS) h1 (by decide) rfl (by decide)
    have e2 := Left.two n1 l1 m1
    refine .peekN pk (.pos h1 ?_)
    unfold selIdent
    refine .peekN e2 (.neg (notPipe h2) (.take n1 (.setSkip (.pos h1 ?_))))
    have l2 : Left src { q with skip := KindSet.TRIVIA } cs := l1.skipping (.lit (by decide))
    refine .bind (Makes.buildTag l2 k1 h1) fun a q cs' hl' h => ?_
    obtain ⟨⟨k, rfl⟩, rfl, rfl⟩ := h
    exact .pure hl' ⟨⟨k, rfl⟩, rfl⟩
  | star c =>
    obtain ⟨h1, h2⟩ := hf
    obtain ⟨q, n1, l1, m1, pk, _⟩ := lc.hereOf (s := KindSet.COMMENTS) h1.1 (by decide) rfl (by decide)
    have e2 := Left.two n1 l1 m1
    have k1 : IsKind .delim c := h1.1
    refine .peekN pk (.neg (IsKind.other k1 (by decide) (by decide) (by decide)) (.neg ?_ (.neg (IsKind.other k1 (by decide) (by decide) (by decide)) (.pos k1 (.neg (delim_other h1 (by decide)) (.pos h1.2 ?_))))))
    · rw [show c.token.isKind .hash = false from Bool.eq_false_iff.mpr (IsKind.other k1 (by decide) (by decide) (by decide))]; simp
    unfold selStar
    refine .peekN e2 (.setSkip (.neg (notPipe h2) ?_))
    have lt : Left src { ({ p with skip := KindSet.COMMENTS } : Parser) with skip := KindSet.TRIVIA } (c :: cs) := hl.skipping (.lit (by decide))
    obtain ⟨q1, n1, l1, m1, _, _⟩ := lt.hereOf (s := KindSet.TRIVIA) h1.1 (by decide) rfl (by decide)
    exact .take n1 (.pure l1 ⟨rfl, rfl⟩)
  | space c =>
    obtain ⟨h1, d, hd, h2, h3⟩ := hf
    obtain ⟨q, n1, l1, m1, pk, _⟩ := lc.hereOf (s := KindSet.COMMENTS) h1 (by decide) rfl (by decide)
    have no : ∀ k', k' ≠ .eof → Kind.whitespace ≠ k' → ¬ c.token.isKind k' = true := fun k' a b => IsKind.other h1 (by decide) a b
    refine .peekN pk (.neg (no _ (by decide) (by decide)) (.neg ?_ (.neg (no _ (by decide) (by decide)) (.neg (no _ (by decide) (by decide)) (.neg (no _ (by decide) (by decide)) ?_)))))
    · rw [show c.token.isKind .hash = false from Bool.eq_false_iff.mpr (no _ (by decide) (by decide))]; simp
    have nd : ∀ ch, ¬ (c.token.isKind .delim && c.token.isChar ch) = true := fun ch => by
      rw [show c.token.isKind .delim = false from Bool.eq_false_iff.mpr (no _ (by decide) (by decide))]; simp
    have l1' : Left src { q with skip := KindSet.COMMENTS } cs := l1.skipping (.lit (by decide))
    have gc : Gives combinator { p with skip := KindSet.COMMENTS } (.ok (.descendant c)) { q with skip := KindSet.COMMENTS } [c] := by
      unfold combinator
      refine gives_of_peek (peek_of_next n1) ?_
      rw [if_neg (nd _), if_neg (nd _), if_neg (nd _), if_neg (nd _)]
      refine gives_seq (w1 := []) (w2 := [c]) (a := false) (p1 := { p with skip := KindSet.COMMENTS }) ?_ ?_
      · unfold isDoubleDelim
        rw [whitespace_not_char h1]
        exact gives_pure.mpr ⟨rfl, rfl, rfl⟩
      · rw [if_neg (by decide)]
        refine gives_seq (w1 := [c]) (w2 := []) (a := c) (p1 := { q with skip := KindSet.COMMENTS }) ?_ (gives_pure.mpr ⟨rfl, rfl, rfl⟩)
        unfold Prog.whitespace
        refine gives_setSkip.mpr ?_
        refine gives_next.mpr ⟨c, q, [], n1, ?_, rfl⟩
        refine gives_setSkip.mpr ?_
        rw [if_pos (show c.token.isKind .whitespace = true from h1)]
        exact gives_pure.mpr ⟨rfl, rfl, rfl⟩
    unfold selOther
    have lw : Left src { q with skip := KindSet.WHITESPACE } cs := l1.skipping (.lit (by decide))
    obtain ⟨q2, c2, l2, m2⟩ := lw.drop
    have hdr : cs.dropWhile (fun c => c.token.inSet KindSet.WHITESPACE) = cs := by
      cases cs with
      | nil => cases hd
      | cons x xs =>
        cases hd
        have : d.token.inSet KindSet.WHITESPACE = false := Bool.eq_false_iff.mpr fun hx => by
          rw [inSet_whitespace _ hx] at h2; cases h2
        rw [List.dropWhile_cons_of_neg (by simp [this])]
    simp only at l2
    rw [hdr] at l2
    have g2 : Gives (Prog.setSkip KindSet.WHITESPACE fun _ => Prog.consumeTrivia <| Prog.setSkip KindSet.TRIVIA fun _ => do
        let c ← ofResult (.ok (Combinator.descendant c))
        Pure.pure (Sel.combinator c)) { q with skip := KindSet.COMMENTS } (.ok (.combinator (.descendant c))) { q2 with skip := KindSet.TRIVIA } [] := by
      refine gives_setSkip.mpr ?_
      simp only [Gives, runLog, c2]
      refine (show Gives (Prog.setSkip KindSet.TRIVIA fun _ => do
        let c ← ofResult (.ok (Combinator.descendant c))
        Pure.pure (Sel.combinator c)) q2 _ _ _ from gives_setSkip.mpr (gives_seq (w1 := []) (w2 := []) (gives_ofResult.mpr ⟨rfl, rfl, rfl⟩) (gives_pure.mpr ⟨rfl, rfl, rfl⟩)))
    exact ⟨_, { q2 with skip := KindSet.TRIVIA }, _, cs, gives_seq (gives_result.mpr ⟨_, gc, rfl⟩) g2, l2.skipping (.lit (by decide)), rfl, rfl⟩
  | pseudo c m =>
    obtain ⟨h1, h2, s, hname, hin⟩ := hf
    obtain ⟨q, n1, l1, m1, pk, _⟩ := lc.hereOf (s := KindSet.COMMENTS) h1 (by decide) rfl (by decide)
    have no : ∀ k', k' ≠ .eof → Kind.colon ≠ k' → ¬ c.token.isKind k' = true := fun k' a b => IsKind.other h1 (by decide) a b
    refine .peekN pk (.neg (no _ (by decide) (by decide)) (.neg ?_ (.neg (no _ (by decide) (by decide)) (.neg (no _ (by decide) (by decide)) (.pos h1 ?_)))))
    · rw [show c.token.isKind .hash = false from Bool.eq_false_iff.mpr (no _ (by decide) (by decide))]; simp
    have e2 := Left.two n1 l1 m1
    have e : firstOutside q.lexer KindSet.COMMENTS (m :: cs) = m := by
      have : m.token.inSet KindSet.COMMENTS = false := by rw [inSet_of_kind (by decide) h2]; decide
      simp [firstOutside, this]
    rw [show ({ p with skip := KindSet.COMMENTS } : Parser).skip = KindSet.COMMENTS from rfl] at e2
    replace e2 := e2.trans (congrArg Except.ok e)
    unfold selColon
    refine .peekN e2 (.neg (IsKind.other h2 (by decide) (by decide) (by decide)) (.pos h2 ?_))
    unfold selColonIdent
    refine .setSkip ?_
    have lt : Left src { ({ p with skip := KindSet.COMMENTS } : Parser) with skip := KindSet.TRIVIA } (c :: m :: cs) := hl.skipping (.lit (by decide))
    have g := isPseudoClassOf_at lt rfl h1 h2 hname LEGACY_PSEUDO_ELEMENTS
    refine .bind (R := fun b q cs' => b = LEGACY_PSEUDO_ELEMENTS.contains s ∧ q = { ({ p with skip := KindSet.COMMENTS } : Parser) with skip := KindSet.TRIVIA }) ⟨_, _, _, _, g, lt, rfl, rfl⟩ ?_
    rintro _ _ _ _ ⟨rfl, rfl⟩
    by_cases hleg : s ∈ LEGACY_PSEUDO_ELEMENTS
    · refine .pos (by simpa using hleg) ?_
      obtain ⟨r, q, w, g, l, m, h1, _⟩ := pseudoClassOf_at lt rfl h1 h2 hname LEGACY_PSEUDO_ELEMENTS
      rw [h1 hleg] at g
      exact ⟨_, _, _, cs, gives_seq g (gives_pure.mpr ⟨rfl, rfl, rfl⟩), l, .inl ⟨s, rfl⟩, rfl⟩
    · refine .neg (by simpa using hleg) ?_
      have : ∃ v, s ∈ pseudoClassNames v := by
        unfold pseudoNames at hin
        simp only [List.mem_append] at hin
        rcases hin with h | h | h | h | h | h
        · exact absurd h hleg
        · exact ⟨.standard, h⟩
        · exact ⟨.webkit, h⟩
        · exact ⟨.moz, h⟩
        · exact ⟨.ms, h⟩
        · exact ⟨.o, h⟩
      refine .bind (pseudoClass_at lt rfl h1 h2 hname this) fun a q cs' hl' h => ?_
      obtain ⟨⟨v, rfl⟩, rfl⟩ := h
      exact .pure hl' ⟨.inr ⟨v, s, rfl⟩, rfl⟩
  | child c => exact delimPiece lc hf (k := Combinator.child) (by simp) (by decide) (by decide) rfl
  | nextSibling c => exact delimPiece lc hf (k := Combinator.nextSibling) (by simp) (by decide) (by decide) rfl
  | subsequentSibling c => exact delimPiece lc hf (k := Combinator.subsequentSibling) (by simp) (by decide) (by decide) rfl
  | nesting c => exact delimPiece lc hf (k := Combinator.nesting) (by simp) (by decide) (by decide) rfl
end

/-- The first token that is not trivia. -/
theorem Left.peekPast {p : Parser} {cs : List Cursor} {set : KindSet} (h : Left src p cs) (hs : p.skip = set) {gap more : List Cursor} {d : Cursor} (he : cs = gap ++ d :: more)
    (hg : ∀ c ∈ gap, c.token.inSet set = true) (hd : d.token.inSet set = false) : ∃ q, p.next = .ok (d, q) ∧ Left src q more ∧ modes q = modes p ∧ p.peekN 1 = .ok d := by
  obtain ⟨l', a, b, c1, c2⟩ := next_stream h.stream
  have hdw : cs.dropWhile (fun c => c.token.inSet p.skip) = d :: more := by
    rw [he, hs]
    rw [List.dropWhile_append_of_pos hg, List.dropWhile_cons_of_neg (by simp [hd])]
  have e1 : firstOutside p.lexer p.skip cs = d := by unfold firstOutside; rw [hdw]; rfl
  rw [hdw] at b
  rw [e1] at a
  refine ⟨_, a, ⟨c1.trans h.source, b, h.skip, fun x hx => h.names x (by rw [he]; simp [hx])⟩, rfl, ?_⟩
  have := Parser.C32_peek_n 1 p (by decide)
  simp only [Parser.nextN, a, Except.map] at this
  cases hp : p.peekN 1 with
  | error e => rw [hp] at this; cases this
  | ok x => rw [hp] at this; simpa using this.symm

theorem atEnd_left {p : Parser} {cs : List Cursor} (h : Left src p cs) : p.atEnd = cs.isEmpty := by rw [Parser.atEnd, h.stream.at_end]

theorem Makes.atEnd {β : Type} {p : Parser} {f : Bool → Prog β} {S : β → Parser → List Cursor → Prop} (h : Makes src p (f p.atEnd) S) : Makes src p (Prog.atEnd >>= f) S := by
  obtain ⟨b, q2, w2, cs2, g1, g2, g3⟩ := h
  exact ⟨b, q2, _, cs2, gives_of_atEnd g1, g2, g3⟩

/-- A token in a set of stop tokens is not trivia. -/
theorem stop_not_trivia (t : Token) (h : t.inSet KindSet.LEFT_CURLY_RIGHT_PAREN_COMMA_OR_SEMICOLON = true) : t.inSet KindSet.TRIVIA = false := by
  have hall : ∀ n < 32, KindSet.LEFT_CURLY_RIGHT_PAREN_COMMA_OR_SEMICOLON.containsBits n = true → KindSet.TRIVIA.containsBits n = false := by decide
  exact hall _ (kindBits_lt t) h
theorem stop_less (t : Token) (h : t.inSet KindSet.LEFT_CURLY_RIGHT_PAREN_OR_SEMICOLON = true) : t.inSet KindSet.LEFT_CURLY_RIGHT_PAREN_COMMA_OR_SEMICOLON = true := by
  have hall : ∀ n < 32, KindSet.LEFT_CURLY_RIGHT_PAREN_OR_SEMICOLON.containsBits n = true → KindSet.LEFT_CURLY_RIGHT_PAREN_COMMA_OR_SEMICOLON.containsBits n = true := by decide
  exact hall _ (kindBits_lt t) h

/-- A piece does not look like the end of a selector. -/
theorem piece_peek {p : Parser} {cs : List Cursor} (pc : SelPiece) (hl : Left src p (pc.tokens ++ cs)) (hs : p.skip = KindSet.TRIVIA) (hf : pc.Fits src cs) :
    p.atEnd = false ∧ ∃ d, p.peekN 1 = .ok d ∧ d.token.inSet KindSet.LEFT_CURLY_RIGHT_PAREN_COMMA_OR_SEMICOLON = false := by
  have one : ∀ (c : Cursor) (r : List Cursor) (k : Kind), Left src p (c :: r) → IsKind k c → k ≠ .eof → KindSet.TRIVIA.contains k = false →
      KindSet.LEFT_CURLY_RIGHT_PAREN_COMMA_OR_SEMICOLON.contains k = false → p.atEnd = false ∧ ∃ d, p.peekN 1 = .ok d ∧
        d.token.inSet KindSet.LEFT_CURLY_RIGHT_PAREN_COMMA_OR_SEMICOLON = false := by
    intro c r k hl hk h1 h2 h3
    obtain ⟨q, n1, l1, m1, pk, _⟩ := hl.hereOf (s := KindSet.TRIVIA) hk h1 hs h2
    exact ⟨by rw [atEnd_left hl]; rfl, c, pk, by rw [inSet_of_kind h1 hk]; exact h3⟩
  cases pc with
  | id c => exact one c _ .hash hl hf.1 (by decide) (by decide) (by decide)
  | cls d c => exact one d _ .delim hl hf.1.1 (by decide) (by decide) (by decide)
  | tag c => exact one c _ .ident hl hf.1 (by decide) (by decide) (by decide)
  | star c => exact one c _ .delim hl hf.1.1 (by decide) (by decide) (by decide)
  | child c => exact one c _ .delim hl hf.1 (by decide) (by decide) (by decide)
  | nextSibling c => exact one c _ .delim hl hf.1 (by decide) (by decide) (by decide)
  | subsequentSibling c => exact one c _ .delim hl hf.1 (by decide) (by decide) (by decide)
  | nesting c => exact one c _ .delim hl hf.1 (by decide) (by decide) (by decide)
  | pseudo c m => exact one c _ .colon hl hf.1 (by decide) (by decide) (by decide)
  | space c =>
    obtain ⟨h1, d, hd, h2, h3⟩ := hf
    cases cs with
    | nil => cases hd
    | cons x xs =>
      cases hd
      obtain ⟨q, _, _, _, pk⟩ := hl.peekPast hs (gap := [c]) (d := d) (more := xs) rfl (by
        intro y hy
        rw [List.mem_singleton.mp hy, inSet_of_kind (k := .whitespace) (by decide) h1]; decide) h2
      exact ⟨by rw [atEnd_left hl]; rfl, d, pk, h3⟩

theorem compoundLoop_pieces {component : Prog Sel} (hsound : Sound component Sel.cursors)
    (hcomp : ∀ {p : Parser} {cs : List Cursor} (pc : SelPiece), Left src p (pc.tokens ++ cs) → p.skip = KindSet.TRIVIA → pc.Fits src cs →
      Makes src p component fun s _ cs' => pc.Becomes s ∧ cs' = cs) {rest : List Cursor} (he : Followed KindSet.LEFT_CURLY_RIGHT_PAREN_COMMA_OR_SEMICOLON rest) :
    ∀ (ps : List SelPiece) (n : Nat) (acc : List Sel) {p : Parser}, ps.length < n → Left src p (pieceTokens ps ++ rest) → p.skip = KindSet.TRIVIA → Fitting src ps rest →
    Makes src p (compoundLoop component n acc) fun a q cs' => (∃ ss, a = acc ++ ss ∧ AllBecome ps ss) ∧ cs' = rest ∧ q.skip = KindSet.TRIVIA := by
  intro ps
  induction ps with
  | nil =>
    intro n acc p hn hl hs hf
    obtain ⟨m, rfl⟩ : ∃ m, n = m + 1 := ⟨n - 1, by simp at hn; omega⟩
    unfold compoundLoop
    have hl : Left src p rest := hl
    refine .atEnd ?_
    rw [atEnd_left hl]
    rcases he with rfl | ⟨gap, d, more, he, hg, hd⟩
    · exact .pos rfl (.pure hl ⟨⟨[], by simp, rfl⟩, rfl, hs⟩)
    · refine .neg (by rw [he]; simp) ?_
      obtain ⟨q, _, _, _, pk⟩ := hl.peekPast hs he hg (stop_not_trivia _ hd)
      exact .peekN pk (.pos hd (.pure hl ⟨⟨[], by simp, rfl⟩, rfl, hs⟩))
  | cons pc ps ih =>
    intro n acc p hn hl hs hf
    obtain ⟨m, rfl⟩ : ∃ m, n = m + 1 := ⟨n - 1, by simp at hn; omega⟩
    obtain ⟨hf1, hf2⟩ := hf
    have hl' : Left src p (pc.tokens ++ (pieceTokens ps ++ rest)) := by
      have : pieceTokens (pc :: ps) ++ rest = pc.tokens ++ (pieceTokens ps ++ rest) := by simp [pieceTokens]
      rw [← this]; exact hl
    obtain ⟨e1, d, pk, hd⟩ := piece_peek pc hl' hs hf1
    unfold compoundLoop
    refine .atEnd ?_
    rw [e1]
    refine .neg (by simp) (.peekN pk (.neg (by simp [hd]) ?_))
    obtain ⟨s, q, w, cs', g, l, hb, rfl⟩ := hcomp pc hl' hs hf1
    have hq : q.skip = KindSet.TRIVIA := (modes_skip (hsound (.trivia hs) g).2).trans hs
    obtain ⟨a, q2, w2, cs2, g2, l2, ⟨ss, rfl, hb2⟩, h3, h4⟩ := ih m (acc ++ [s]) (by simp at hn; omega) l hq hf2
    exact ⟨_, q2, _, cs2, gives_seq g g2, l2, ⟨s :: ss, by simp, s, ss, rfl, hb, hb2⟩, h3, h4⟩

theorem compoundSelector_pieces {n : Nat} {ps : List SelPiece} {before rest : List Cursor} {p : Parser} (hn : ps.length < n)
    (he : Followed KindSet.LEFT_CURLY_RIGHT_PAREN_COMMA_OR_SEMICOLON rest) (hl : Left src p (before ++ (pieceTokens ps ++ rest))) (hs : p.skip = KindSet.TRIVIA) (hb : Gap before)
    (h1 : ∃ c ∈ (pieceTokens ps).head?, c.token.inSet KindSet.TRIVIA = false) (hf : Fitting src ps rest) :
    Makes src p (compoundSelector n) fun a q cs' => AllBecome ps a ∧ cs' = rest ∧ q.skip = KindSet.TRIVIA := by
  obtain ⟨m, rfl⟩ : ∃ m, n = m + 1 := ⟨n - 1, by omega⟩
  unfold compoundSelector
  obtain ⟨q, c1, l1, m1⟩ := hl.drop
  have hd : (before ++ (pieceTokens ps ++ rest)).dropWhile (fun c => c.token.inSet p.skip) = pieceTokens ps ++ rest := by
    rw [hs, List.dropWhile_append_of_pos hb]
    obtain ⟨c, hc, h1⟩ := h1
    cases hp : pieceTokens ps with
    | nil => rw [hp] at hc; cases hc
    | cons x xs => rw [hp] at hc; cases hc; rw [List.cons_append, List.dropWhile_cons_of_neg (by simp [h1])]
  rw [hd] at l1
  refine .consumeTrivia c1 ?_
  refine .mono (compoundLoop_pieces (selectorComponent_sound (compoundSelector_sound m) (selectorListLoop_sound (compoundSelector_sound m) m) m)
    (fun pc hl hs hf => component_piece pc hl hs hf) he ps (m + 1) [] hn l1 ((modes_skip m1).trans hs) hf) ?_
  rintro a q cs' ⟨⟨ss, rfl, h⟩, h2, h3⟩
  exact ⟨by simpa using h, h2, h3⟩

theorem Spec.GroupsFit.ends {gs : List Group} {rest : List Cursor} (h : GroupsFit src gs rest) (hg : gs = []) : Followed KindSet.LEFT_CURLY_RIGHT_PAREN_OR_SEMICOLON rest := by subst hg; exact h

/-- The first token of a piece does not end the list. -/
theorem fitting_first {ps : List SelPiece} {rest : List Cursor} {c : Cursor} (hf : Fitting src ps rest) (hc : c ∈ (pieceTokens ps).head?) :
    c.token.inSet KindSet.LEFT_CURLY_RIGHT_PAREN_COMMA_OR_SEMICOLON = false := by
  have one : ∀ (k : Kind), IsKind k c → k ≠ .eof → KindSet.LEFT_CURLY_RIGHT_PAREN_COMMA_OR_SEMICOLON.contains k = false →
      c.token.inSet KindSet.LEFT_CURLY_RIGHT_PAREN_COMMA_OR_SEMICOLON = false := fun k hk h1 h2 => by rw [inSet_of_kind h1 hk]; exact h2
  cases ps with
  | nil => cases hc
  | cons pc ps =>
    obtain ⟨hf, _⟩ := hf
    cases pc <;> cases hc
    · exact one .hash hf.1 (by decide) (by decide)
    · exact one .delim hf.1.1 (by decide) (by decide)
    · exact one .ident hf.1 (by decide) (by decide)
    · exact one .delim hf.1.1 (by decide) (by decide)
    · exact one .delim hf.1 (by decide) (by decide)
    · exact one .delim hf.1 (by decide) (by decide)
    · exact one .delim hf.1 (by decide) (by decide)
    · exact one .delim hf.1 (by decide) (by decide)
    · exact one .whitespace hf.1 (by decide) (by decide)
    · exact one .colon hf.1 (by decide) (by decide)

theorem selectorListLoop_groups {k : Nat} {rest : List Cursor} : ∀ (gs : List Group) (n : Nat) (acc : List (List Sel × Option Cursor)) {p : Parser}, gs.length < n →
    (∀ g ∈ gs, g.pieces.length < k) → Left src p (groupTokens gs ++ rest) → p.skip = KindSet.TRIVIA → GroupsFit src gs rest →
    Makes src p (selectorListLoop (compoundSelector k) n acc) fun a _ cs' => (∃ a', a = acc ++ a' ∧ GroupsBecome gs a') ∧ cs' = rest := by
  intro gs
  induction gs with
  | nil =>
    intro n acc p hn _ hl hs hf
    obtain ⟨m, rfl⟩ : ∃ m, n = m + 1 := ⟨n - 1, by simp at hn; omega⟩
    unfold selectorListLoop
    have hl : Left src p rest := hl
    refine .atEnd ?_
    rw [atEnd_left hl]
    rcases hf with rfl | ⟨gap, d, more, he, hg, hd⟩
    · exact .pos rfl (.pure hl ⟨⟨[], by simp, rfl⟩, rfl⟩)
    · refine .neg (by rw [he]; simp) ?_
      obtain ⟨q, _, _, _, pk⟩ := hl.peekPast hs he hg (stop_not_trivia _ (stop_less _ hd))
      exact .peekN pk (.pos hd (.pure hl ⟨⟨[], by simp, rfl⟩, rfl⟩))
  | cons g gs ih =>
    intro n acc p hn hk hl hs hf
    obtain ⟨m, rfl⟩ : ∃ m, n = m + 1 := ⟨n - 1, by simp at hn; omega⟩
    obtain ⟨h1, h2, h3, h4, h5, h6, h7⟩ := hf
    have hl' : Left src p (g.before ++ (pieceTokens g.pieces ++ (g.after ++ g.comma.toList ++ groupTokens gs ++ rest))) := by
      have : groupTokens (g :: gs) ++ rest = g.before ++ (pieceTokens g.pieces ++ (g.after ++ g.comma.toList ++ groupTokens gs ++ rest)) := by simp [groupTokens, Group.tokens]
      rw [← this]; exact hl
    obtain ⟨c, hc, hct⟩ := id h3
    have hcs := fitting_first h4 hc
    obtain ⟨xs, hxs⟩ : ∃ xs, pieceTokens g.pieces = c :: xs := by
      cases hp : pieceTokens g.pieces with
      | nil => rw [hp] at hc; cases hc
      | cons x xs => rw [hp] at hc; cases hc; exact ⟨xs, rfl⟩
    obtain ⟨_, _, _, _, pk⟩ := hl'.peekPast hs (gap := g.before) (d := c) (by rw [hxs]; rfl) h1 hct
    unfold selectorListLoop
    refine .atEnd ?_
    rw [atEnd_left hl', hxs]
    refine .neg (by simp) (.peekN pk (.neg (fun h => by rw [stop_less _ h] at hcs; cases hcs) ?_))
    -- what follows the selector
    have ends : Followed KindSet.LEFT_CURLY_RIGHT_PAREN_COMMA_OR_SEMICOLON (g.after ++ g.comma.toList ++ groupTokens gs ++ rest) := by
      cases hcm : g.comma with
      | none =>
        rw [hcm] at h6
        obtain ⟨hgs, ha⟩ := h6
        rw [ha, hgs]
        rcases h7.ends hgs with h | ⟨gap, d, more, e, hg, hd⟩
        · exact .inl (by simp [h, groupTokens])
        · exact .inr ⟨gap, d, more, by simpa [groupTokens] using e, hg, stop_less _ hd⟩
      | some cm =>
        rw [hcm] at h6
        exact .inr ⟨g.after, cm, groupTokens gs ++ rest, by simp, h5, by rw [inSet_of_kind (by decide) h6.2]; decide⟩
    obtain ⟨ss, q, w, cs', gv, l, hb, rfl, hq⟩ := compoundSelector_pieces (hk g (by simp)) ends hl' hs h1 h3 h4
    have gcomma : ∃ q2 w2, Gives (ifPeek (Prog.isKind .comma) (Prog.tok (Prog.isKind .comma))) q (.ok g.comma) q2 w2 ∧ Left src q2 (groupTokens gs ++ rest) ∧ q2.skip = KindSet.TRIVIA := by
      cases hcm : g.comma with
      | some cm =>
        rw [hcm] at h6 l
        obtain ⟨q2, n2, l2, m2, _⟩ := l.peekPast hq (gap := g.after) (d := cm) (more := groupTokens gs ++ rest) (by simp) h5 (by rw [inSet_of_kind (by decide) h6.2]; decide)
        have hck : cm.token.isKind .comma = true := h6.2
        exact ⟨q2, _, gives_ifPeek.mpr ⟨cm, true, q, [], [cm], peek_of_next n2, gives_pure.mpr ⟨by rw [hck], rfl, rfl⟩, rfl,
          .inl ⟨rfl, cm, rfl, gives_tok.mpr ⟨cm, n2, rfl, (if_pos hck).symm⟩⟩⟩, l2, (modes_skip m2).trans hq⟩
      | none =>
        rw [hcm] at h6 l
        obtain ⟨hgs, ha⟩ := h6
        have hno : ∃ d q', q.next = .ok (d, q') ∧ d.token.isKind .comma = false := by
          have e : g.after ++ (none : Option Cursor).toList ++ groupTokens gs ++ rest = rest := by rw [ha, hgs]; rfl
          rcases h7.ends hgs with h | ⟨gap, d, more, e', hg, hd⟩
          · obtain ⟨l', a, _⟩ := next_stream l.stream
            rw [e, h] at a
            exact ⟨_, _, a, by show Token.EOF.isKind .comma = false; decide⟩
          · obtain ⟨q', n', _⟩ := l.peekPast hq (by rw [e]; exact e') hg (stop_not_trivia _ (stop_less _ hd))
            refine ⟨d, q', n', Bool.eq_false_iff.mpr fun hk => ?_⟩
            rw [inSet_of_kind (k := .comma) (by decide) hk] at hd
            revert hd; decide
        obtain ⟨d, q', n', hd⟩ := hno
        refine ⟨q, _, gives_ifPeek.mpr ⟨d, false, q, [], [], peek_of_next n', gives_pure.mpr ⟨by rw [hd], rfl, rfl⟩, rfl, .inr ⟨rfl, rfl, rfl, rfl⟩⟩, ?_, hq⟩
        simpa [ha] using l
    obtain ⟨q2, w2, gc, l2, hq2⟩ := gcomma
    obtain ⟨a, q3, w3, cs3, g3, l3, ⟨a', rfl, hb3⟩, rfl⟩ := ih m (acc ++ [(ss, g.comma)]) (by simp at hn; omega) (fun x hx => hk x (List.mem_cons_of_mem _ hx)) l2 hq2 h7
    exact ⟨_, q3, _, cs3, gives_seq gv (gives_seq gc g3), l3, ⟨(ss, g.comma) :: a', by simp, ss, a', rfl, hb, hb3⟩, rfl⟩

theorem pieceTokens_length (ps : List SelPiece) : ps.length ≤ (pieceTokens ps).length := by
  induction ps with
  | nil => simp
  | cons p ps ih =>
    have : 1 ≤ p.tokens.length := by cases p <;> simp [SelPiece.tokens]
    simp [pieceTokens] at ih ⊢
    omega

theorem groupTokens_length {gs : List Group} {rest : List Cursor} (h : GroupsFit src gs rest) :
    gs.length ≤ (groupTokens gs).length ∧ ∀ g ∈ gs, g.pieces.length ≤ (groupTokens gs).length := by
  induction gs with
  | nil => simp
  | cons g gs ih =>
    obtain ⟨_, h2, _, _, _, _, h7⟩ := h
    obtain ⟨i1, i2⟩ := ih h7
    have h1 := pieceTokens_length g.pieces
    have h3 : 1 ≤ g.pieces.length := List.length_pos_iff.mpr h2
    have h4 : (groupTokens (g :: gs)).length = g.before.length + ((pieceTokens g.pieces).length + (g.after.length + g.comma.toList.length)) + (groupTokens gs).length := by
      simp [groupTokens, Group.tokens]; omega
    refine ⟨by simp only [List.length_cons]; omega, ?_⟩
    intro x hx
    rcases List.mem_cons.mp hx with rfl | hx
    · omega
    · have := i2 x hx
      omega

end

/-- Whatever the parser's position, a list of selectors built of element names, `*`, ids, classes, pseudo-classes, `>`, `+`, `~`, `&` and whitespace, with the closing
`{`, `)` or `;` or the end of the source after it, is accepted: each piece becomes one component, and what follows is left for the caller. Missing from the full C76:
attributes, namespaces, the column combinator, pseudo-elements and functional pseudo-classes, comments within a selector, and the cases of `C76_counterexample` in which
the claim is false. -/
theorem C76_accepts_partial {p : Parser} (hr : Ready p) (hs : p.skip = KindSet.TRIVIA) {gs : List Group} {rest : List Cursor}
    (ht : Stream p.lexer (groupTokens gs ++ rest)) (hf : GroupsFit p.lexer.source gs rest) :
    ∃ a p', selectorList.run p = .ok (.ok a, p') ∧ GroupsBecome gs a ∧ Stream p'.lexer rest := by
  obtain ⟨cs, hl, hlen⟩ := hr.left
  cases hl.stream.det ht
  have hb := groupTokens_length hf
  have hlen' : (groupTokens gs).length + 1 < p.fuel := by simp at hlen; omega
  obtain ⟨a, q, w, cs', g, l, ⟨a', rfl, h1⟩, rfl⟩ := selectorListLoop_groups (k := p.fuel) gs p.fuel [] (by omega) (fun g hg => by have := hb.2 g hg; omega) hl hs hf
  refine ⟨_, q, ?_, by simpa using h1, l.stream⟩
  unfold Prog.run
  rw [show selectorList.runLog p = .ok (_, q, w) from g]
  rfl

/-- The tokens of a source, if they are fewer than `n`. -/
def lexUpTo : Nat → Lexer → Option (List Cursor)
  | 0, _ => none
  | n + 1, l =>
    if l.offset = byteLen l.source then some []
    else match l.advance with
      | .ok (t, l') => if t.isKind .eof = false ∧ t.len.toNat ≠ 0 then (lexUpTo n l').map (⟨l.offset, t⟩ :: ·) else none
      | .error _ => none

theorem lexUpTo_stream : ∀ n {l : Lexer} {cs : List Cursor}, lexUpTo n l = some cs → Stream l cs := by
  intro n
  induction n with
  | zero => intro l cs h; cases h
  | succ n ih =>
    intro l cs h
    unfold lexUpTo at h
    split at h
    · cases h; exact .nil (by assumption)
    · split at h
      · rename_i t l' ha
        split at h
        · rename_i hk
          obtain ⟨cs', h1, rfl⟩ := Option.map_eq_some_iff.mp h
          exact .cons ha hk.1 hk.2 (ih h1)
        · cases h
      · cases h

instance {k : Kind} {c : Cursor} : Decidable (IsKind k c) := inferInstanceAs (Decidable (c.token.isKind k = true))
instance {src : List Char} {c : Cursor} {s : List Char} : Decidable (Named src c s) := inferInstanceAs (Decidable (c.parseStrLower src = .ok s))

def sampleSource : List Char := "a.b#c>*:hover &+d , /**/f:before{g".toList
def sampleToken (i : Nat) : Cursor := ((lexUpTo 40 (Parser.new sampleSource).lexer).getD []).getD i ⟨0, Token.EOF⟩
def sampleGroups : List Group :=
  [⟨[], [.tag (sampleToken 0), .cls (sampleToken 1) (sampleToken 2), .id (sampleToken 3), .child (sampleToken 4), .star (sampleToken 5), .pseudo (sampleToken 6) (sampleToken 7),
      .space (sampleToken 8), .nesting (sampleToken 9), .nextSibling (sampleToken 10), .tag (sampleToken 11)], [sampleToken 12], some (sampleToken 13)⟩,
    ⟨[sampleToken 14, sampleToken 15], [.tag (sampleToken 16), .pseudo (sampleToken 17) (sampleToken 18)], [], none⟩]

/-- The hypotheses are met: two selectors with all kinds of pieces, before a block. -/
example : Stream (Parser.new sampleSource).lexer (groupTokens sampleGroups ++ [sampleToken 19, sampleToken 20])
    ∧ GroupsFit sampleSource sampleGroups [sampleToken 19, sampleToken 20] := by
  refine ⟨lexUpTo_stream 40 (by decide +kernel), ?_⟩
  refine ⟨by simp [Gap], by simp, ⟨sampleToken 0, rfl, by decide +kernel⟩, ?_, ?_, ⟨by simp, by decide +kernel⟩, ?_, by simp, ⟨sampleToken 16, rfl, by decide +kernel⟩, ?_, ?_, ⟨rfl, rfl⟩, ?_⟩
  · refine ⟨⟨by decide +kernel, by decide +kernel⟩, ⟨⟨by decide +kernel, by decide +kernel⟩, by decide +kernel⟩, ⟨by decide +kernel, by decide +kernel⟩,
      ⟨by decide +kernel, by decide +kernel⟩, ⟨⟨by decide +kernel, by decide +kernel⟩, by decide +kernel⟩, ⟨by decide +kernel, by decide +kernel, c!"hover", by decide +kernel, by decide +kernel⟩,
      ⟨by decide +kernel, sampleToken 9, rfl, by decide +kernel, by decide +kernel⟩, ⟨by decide +kernel, by decide +kernel⟩, ⟨by decide +kernel, by decide +kernel⟩,
      ⟨by decide +kernel, by decide +kernel⟩, trivial⟩
  · intro c hc; rw [List.mem_singleton.mp hc]; decide +kernel
  · intro c hc
    simp at hc
    rcases hc with rfl | rfl <;> decide +kernel
  · exact ⟨⟨by decide +kernel, by decide +kernel⟩, ⟨by decide +kernel, by decide +kernel, c!"before", by decide +kernel, by decide +kernel⟩, trivial⟩
  · intro c hc; cases hc
  · exact .inr ⟨[], sampleToken 19, [sampleToken 20], rfl, by simp [Gap], by decide +kernel⟩

end Hdx

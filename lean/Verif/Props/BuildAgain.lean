/-
Property C92, continued: the text that `csskit build` writes is lexed to the tokens it was written from.
-/
import Verif.Props.Build
import Verif.Props.Separate

namespace Hdx
open Spec

theorem splitBytes_append : ∀ (pre x : List Char), splitBytes (byteLen pre) (pre ++ x) = (pre, x)
  | [], x => by cases x <;> rfl
  | c :: pre, x => by
    have hc : 0 < c.utf8Size := Char.utf8Size_pos c
    have hb : byteLen (c :: pre) = c.utf8Size + byteLen pre := by simp [byteLen]
    obtain ⟨n, hn⟩ : ∃ n, byteLen (c :: pre) = n + 1 := ⟨byteLen (c :: pre) - 1, by omega⟩
    have ih := splitBytes_append pre x
    have he : n + 1 - c.utf8Size = byteLen pre := by omega
    rw [hn, List.cons_append, splitBytes, he, ih]
    intro h; omega

/-- Where a token of the source stands, and what it was lexed from. -/
theorem cut_lexed {l : Lexer} {cs : List Cursor} {off : Nat} (h : LexedUntil l cs off) : ∀ {x : List Char}, l.Before x → Tame l.features x →
    ∀ c ∈ cs, (Piece.cut l.source c).Lexed l.features
      ∧ ∃ before, l.source = before ++ (Piece.cut l.source c).text ++ (Piece.cut l.source c).after ∧ c.offset = byteLen before := by
  induction h with
  | done => intro x _ _; nofun
  | @step l l1 t cs off ha hk h ih =>
    intro x hb ht c hc
    have hne : x ≠ [] := by
      rintro rfl
      obtain ⟨pre, p1, p2⟩ := hb
      exact hk ((C03_eof_iff_at_end ha).mpr (by rw [p2, p1]; simp))
    obtain ⟨t', l'', text, cs', a1, a2, a3, a4, a5, a6, a7⟩ := advance_tame hb ht hne
    rw [ha] at a1; cases a1
    obtain ⟨k1, k2, k3⟩ := advance_keeps ha
    rcases List.mem_cons.mp hc with rfl | hc
    · have hb' := hb
      obtain ⟨pre, p1, p2⟩ := hb
      have hcut : Piece.cut l.source ⟨l.offset, t⟩ = ⟨t, text, cs'⟩ := by
        show Piece.mk _ _ _ = _
        simp only [p2, a5]
        rw [p1, splitBytes_append, a3, splitBytes_append]
      rw [hcut]
      refine ⟨⟨a4, ?_, a5, by rw [← a3]; exact ht⟩, pre, by rw [p1, a3]; simp, p2⟩
      have hs := advance_before hb'
      rw [if_neg hne, ha] at hs
      cases hsc : scanToken l.features x with
      | error e => rw [hsc] at hs; cases hs
      | ok r =>
        rw [hsc] at hs
        simp only [Except.map, Except.ok.injEq, Prod.mk.injEq] at hs
        show FirstToken l.features (text ++ cs') t
        rw [← a3]
        exact first_of_scan hne (r := r.2) (by rw [hsc, hs.1])
    · have := ih a7 (by rw [k2]; rw [a3] at ht; exact ht.suffix) c hc
      rw [k1, k2] at this
      exact this

/-- There is one way to write a token. -/
theorem pieceOf_unique {fmt : FloatFmt} {src : List Char} {c : Cursor} {x y : List Char} (hx : PieceOf fmt src c x) (hy : PieceOf fmt src c y) : x = y := by
  by_cases hn : c.token.kind = .number
  · rw [hx.number hn, hy.number hn]
  · by_cases hd : c.token.kind = .dimension ∧ c.token.dimensionUnit ≠ .unknown
    · rw [hx.dimension hd.1 hd.2, hy.dimension hd.1 hd.2]
    · have hd' : c.token.kind = .dimension → c.token.dimensionUnit = .unknown := fun h => Classical.byContradiction fun hu => hd ⟨h, hu⟩
      obtain ⟨b1, a1, e1, o1, l1⟩ := hx.verbatim hn hd'
      obtain ⟨b2, a2, e2, o2, l2⟩ := hy.verbatim hn hd'
      have h1 := splitBytes_append b1 (x ++ a1)
      have h2 := splitBytes_append b2 (y ++ a2)
      rw [← List.append_assoc, ← e1, ← o1] at h1
      rw [← List.append_assoc, ← e2, ← o2] at h2
      have h3 : x ++ a1 = y ++ a2 := congrArg Prod.snd (h1.symm.trans h2)
      have h4 := splitBytes_append x a1
      have h5 := splitBytes_append y a2
      rw [← l1, h3] at h4
      rw [← l2] at h5
      exact congrArg Prod.fst (h4.symm.trans h5)

theorem pieces_unique {fmt : FloatFmt} {src : List Char} {cs : List Cursor} {xs : List (List Char)} (h : Pieces fmt src cs xs) {text : Cursor → List Char}
    (ht : ∀ c ∈ cs, PieceOf fmt src c (text c)) : xs = cs.map text := by
  induction h with
  | nil => rfl
  | cons h1 _ ih =>
    rw [List.map_cons, pieceOf_unique h1 (ht _ List.mem_cons_self), ih fun c hc => ht c (List.mem_cons_of_mem _ hc)]

theorem spread_cut (src : List Char) (needs : Token → Token → Bool) : ∀ cs : List Cursor,
    spread needs cs (cs.map fun c => (Piece.cut src c).text) = Piece.join needs (cs.map (Piece.cut src))
  | [] => rfl
  | [c] => by simp [spread, Piece.join]
  | c :: d :: cs => by
    have ih := spread_cut src needs (d :: cs)
    simp only [List.map_cons] at ih ⊢
    rw [spread, ih, Piece.join]
    rfl

/-- A style sheet whose tree is written from the tokens `written` of the source, all of them as they stand there, and of which no two merge (`Apart`): lexing the
text that `csskit build` writes gives the same tokens again, and one whitespace token wherever a space was put in. Missing from the full C92: that they are parsed
to the same style sheet (see `C92_counterexample`), blocks that are left open, and texts outside `Tame`. -/
theorem C92_again_partial (fmt : FloatFmt) {src : List Char} {rules : List (CssRule Val)} {tokens written : List Cursor} (hs : byteLen src < 65536) (ht : Tame {} src)
    (h : parsedSheet realValues src = .ok (some rules)) (hl : LexedUntil (Lexer.new src) tokens (byteLen src)) (hsub : ∀ c ∈ written, c ∈ tokens)
    (he : (CssRule.cursorsOf realValues rules).map strip = written.map strip) (hp : ∀ c ∈ written, PieceOf fmt src c (Piece.cut src c).text)
    (hj : Tame {} (Piece.join Token.needsSeparatorFor (written.map (Piece.cut src)))) (ha : Piece.Apart {} Token.needsSeparatorFor (written.map (Piece.cut src))) :
    ∃ out, build fmt src = .ok (some out) ∧ Returns (Lexer.new out) (Piece.tokens Token.needsSeparatorFor (written.map (Piece.cut src))) := by
  have hcut := cut_lexed hl (before_new src {}) ht
  have hnot : ∀ c ∈ CssRule.cursorsOf realValues rules, c.token.isKind .eof = false := by
    intro c hc
    have : strip c ∈ written.map strip := by rw [← he]; exact List.mem_map_of_mem hc
    obtain ⟨d, hd, e⟩ := List.mem_map.mp this
    have hk := kind_of_lexed (hcut d (hsub d hd)).1
    have et : d.token = c.token := by
      have := congrArg (·.token) e
      simpa [strip_token] using this
    rw [← et]
    refine Bool.eq_false_iff.mpr fun hb => hk ?_
    have hb : d.token.kindBits = Kind.eof.bits := by simpa [Token.isKind] using hb
    show d.token.kind = .eof
    unfold Token.kind
    rw [hb]
    decide
  have hf : taken (CssRule.cursorsOf realValues rules) = written.map strip := by
    rw [← he, taken, List.filter_eq_self.mpr fun c hc => by simp [notEof, hnot c hc]]
  obtain ⟨r, pieces, b1, b2, b3, b4⟩ := sheet_builds fmt hs ht hl hsub hf
  refine ⟨r.writer, ?_, ?_⟩
  · unfold build
    rw [h]
    show ((FmtSink.new []).appendAll fmt stringSink src (CssRule.cursorsOf realValues rules)).bind _ = _
    rw [b1]
    rfl
  · rw [b4 hnot, pieces_unique b2 hp, spread_cut]
    refine C28_whole_partial (l := Lexer.new _) ?_ hj ha (before_new _ {})
    intro p hp
    obtain ⟨c, hc, rfl⟩ := List.mem_map.mp hp
    exact (hcut c (hsub c hc)).1

/-- The same for a style sheet in which the tokens are written in the order of the source: the tokens that are lexed from the output are those of the source without
whitespace, comments, some semicolons, `<!--` and `-->`, and with a whitespace token wherever a space was put in. -/
theorem C92_again_in_order_partial (fmt : FloatFmt) {src : List Char} {rules : List (CssRule Val)} (hs : byteLen src < 65536) (ht : Tame {} src)
    (h : parsedSheet realValues src = .ok (some rules)) (hw : WholeAll keepsOrder rules = true) (ho : InOrderAll realValues rules = true)
    (hc : ∀ c ∈ CssRule.cursorsOf realValues rules, c.token.isKind .eof = false) :
    ∃ tokens shown hidden, LexedUntil (Lexer.new src) tokens (byteLen src) ∧ Dealt shown hidden tokens ∧ (∀ c ∈ hidden, Meaningless c)
      ∧ ((∀ c ∈ shown, PieceOf fmt src c (Piece.cut src c).text) → Tame {} (Piece.join Token.needsSeparatorFor (shown.map (Piece.cut src))) →
        Piece.Apart {} Token.needsSeparatorFor (shown.map (Piece.cut src)) →
        ∃ out, build fmt src = .ok (some out) ∧ Returns (Lexer.new out) (Piece.tokens Token.needsSeparatorFor (shown.map (Piece.cut src)))) := by
  obtain ⟨tokens, shown, hidden, written, a1, a2, a3, a4, a5, a6⟩ := sheet_tokens C91_values hs h hw fun _ => ho
  have e := a5 rfl
  subst e
  refine ⟨tokens, written, hidden, a1, a2, a3, fun hp hj ha => ?_⟩
  refine C92_again_partial fmt hs ht h a1 (fun c hc => a2.sublist.subset hc) ?_ hp hj ha
  rw [← a6, taken, List.filter_eq_self.mpr fun c hc' => by simp [notEof, hc c hc']]

/-! ### A simple condition that rules out `Merges` -/

/-- A token that is closed, has no backslash and is no comment; and what follows does not start with `-`, `+`, `>` or `!`. -/
def staysApart (a : Token) (x : List Char) (b : Token) (v : List Char) : Bool :=
  !x.contains '\\' && x.head? != some '/' && a.kind != .badString && a.kind != .badUrl && a.kind != .whitespace && a.kind != .function
    && (a.kind != .string || a.hasCloseQuote) && (a.kind != .url || a.urlHasClosingParen)
    && decide (classOf b ≠ .chr '-') && v.head? != some '-' && v.head? != some '+' && v.head? != some '>' && v.head? != some '!'

theorem starts_head {P : Char → Prop} {v : List Char} (h : Starts P v) : ∃ c, v.head? = some c ∧ P c := by
  obtain ⟨c, q, rfl, hc⟩ := h
  exact ⟨c, rfl, hc⟩

theorem not_merges {a b : Token} {x z v : List Char} (h : staysApart a x b v = true) : ¬ Merges {} a x z b v := by
  simp only [staysApart, Bool.and_eq_true, bne_iff_ne, Bool.or_eq_true, decide_eq_true_eq, Bool.not_eq_true', List.contains_eq_mem, decide_eq_false_iff_not] at h
  obtain ⟨⟨⟨⟨⟨⟨⟨⟨⟨⟨⟨⟨h1, h2⟩, h3⟩, h4⟩, h5⟩, h6⟩, h7⟩, h8⟩, h9⟩, h10⟩, h11⟩, h12⟩, h13⟩ := h
  intro hm
  cases hm with
  | hyphen _ h => exact h9 h
  | minusZero _ h _ => obtain ⟨c, e, rfl⟩ := starts_head h; exact h10 e
  | hexSpace _ h _ => obtain ⟨w, ds, ws, rfl, _⟩ := h; exact h1 (by simp)
  | endEscape _ _ h => obtain ⟨w, rfl⟩ := h; exact h1 (by simp)
  | arrow _ h => obtain ⟨c, e, rfl⟩ := starts_head h; exact h12 e
  | exponent _ h => obtain ⟨c, e, rfl⟩ := starts_head h; exact h11 e
  | openString h h' => rcases h7 with g | g
                       · exact g h
                       · rw [g] at h'; cases h'
  | badString h => exact h3 h
  | openUrl h h' => rcases h8 with g | g
                    · exact g h
                    · rw [g] at h'; cases h'
  | openBadUrl h _ => exact h4 h
  | urlFunction h _ _ _ => exact h6 h
  | openComment h => obtain ⟨_, rfl, _⟩ := h; exact h2 rfl
  | lineComment h => cases h
  | whitespace h _ => exact h5 h
  | slashes h => cases h
  | cdo _ h => obtain ⟨w, rfl⟩ := h; exact h13 rfl
  | backslash h _ => subst h; exact h1 (by simp)

/-- All of them are apart. -/
def stayApart (needs : Token → Token → Bool) : List Piece → Bool
  | [] => true
  | [p] => staysApart p.token p.text Token.EOF []
  | p :: q :: ps =>
    (if needs p.token q.token then staysApart p.token p.text (Token.newWhitespace .space 1#32) (' ' :: Piece.join needs (q :: ps))
      else staysApart p.token p.text q.token (Piece.join needs (q :: ps))) && stayApart needs (q :: ps)

theorem apart_of (needs : Token → Token → Bool) : ∀ {ps : List Piece}, stayApart needs ps = true → Piece.Apart {} needs ps
  | [], _ => trivial
  | [_], h => .inr (not_merges h)
  | p :: q :: ps, h => by
    simp only [stayApart, Bool.and_eq_true] at h
    refine ⟨?_, apart_of needs h.2⟩
    have h1 := h.1
    split at h1
    · rw [if_pos ‹_›]; exact .inr (not_merges h1)
    · rw [if_neg ‹_›]; exact .inr (not_merges h1)

/-- The tokens of a text, for concrete texts. -/
def lexList : Nat → Lexer → Option (List Cursor × Nat)
  | 0, _ => none
  | n + 1, l => match l.advance with
    | .ok (t, l') => if t.kind = .eof then some ([], l.offset) else (lexList n l').map fun r => (⟨l.offset, t⟩ :: r.1, r.2)
    | .error _ => none

theorem lexList_sound : ∀ (n : Nat) {l : Lexer} {cs : List Cursor} {off : Nat}, lexList n l = some (cs, off) → LexedUntil l cs off
  | 0, _, _, _, h => by cases h
  | n + 1, l, cs, off, h => by
    rw [lexList] at h
    cases ha : l.advance with
    | error e => rw [ha] at h; cases h
    | ok r =>
      obtain ⟨t, l'⟩ := r
      rw [ha] at h
      simp only at h
      split at h
      · cases h; exact .done
      · next hk =>
        obtain ⟨⟨cs', off'⟩, h1, h2⟩ := Option.map_eq_some_iff.mp h
        cases h2
        exact .step ha hk (lexList_sound n h1)

/-- The tokens of a text without whitespace and comments, for concrete texts. -/
def meaningful (src : List Char) : List Cursor :=
  ((lexList (src.length + 1) (Lexer.new src)).map (·.1)).getD [] |>.filter fun c =>
    !(c.token.kind == .comment || c.token.kind == .whitespace)

set_option maxRecDepth 100000 in
/-- The hypotheses are met by a style sheet with comments and more space than is needed, which is written as `a#b{color:red;}c,.d{}` and lexed to the tokens it was
made of. -/
example : ∃ out, build sampleFmt c!"a#b { color : red ; } /* x */ c , .d { } " = .ok (some out)
    ∧ Returns (Lexer.new out) (Piece.tokens Token.needsSeparatorFor ((meaningful c!"a#b { color : red ; } /* x */ c , .d { } ").map (Piece.cut c!"a#b { color : red ; } /* x */ c , .d { } "))) := by
  have h : (((Parser.new c!"a#b { color : red ; } /* x */ c , .d { } ").parseEntirely (cssStyleSheet realValues).run).toOption.bind (·.1.output)).any (fun rules =>
      (CssRule.cursorsOf realValues rules).map strip == (meaningful c!"a#b { color : red ; } /* x */ c , .d { } ").map strip) = true := by decide +kernel
  obtain ⟨rules, h1, h2⟩ := (Option.any_eq_true _ _).mp h
  have hl : (lexList 60 (Lexer.new c!"a#b { color : red ; } /* x */ c , .d { } ")).any (fun r => r.2 == byteLen c!"a#b { color : red ; } /* x */ c , .d { } "
      && (meaningful c!"a#b { color : red ; } /* x */ c , .d { } ").all fun c => r.1.contains c) = true := by decide +kernel
  obtain ⟨⟨tokens, off⟩, l1, l2⟩ := (Option.any_eq_true _ _).mp hl
  simp only [Bool.and_eq_true, List.all_eq_true, List.contains_eq_mem, decide_eq_true_eq, beq_iff_eq] at l2
  have hlex := lexList_sound 60 l1
  rw [l2.1] at hlex
  refine C92_again_partial sampleFmt (by decide) (tame_of_ascii (by decide) (by decide)) (run_parsedSheet h1) hlex l2.2 (by simpa using h2) ?_
    (tame_of_ascii (by decide +kernel) (by decide +kernel)) (apart_of _ (by decide +kernel))
  intro c hc
  have hk : (meaningful c!"a#b { color : red ; } /* x */ c , .d { } ").all (fun c => c.token.kind != .number && c.token.kind != .dimension) = true := by decide +kernel
  have := List.all_eq_true.mp hk c hc
  simp only [Bool.and_eq_true, bne_iff_ne] at this
  obtain ⟨g1, before, g2, g3⟩ := cut_lexed hlex (before_new _ {}) (tame_of_ascii (by decide) (by decide)) c (l2.2 c hc)
  exact ⟨fun h => absurd h this.1, fun h => absurd h this.2, fun _ _ => ⟨before, _, g2, g3, g1.len⟩⟩

set_option maxRecDepth 100000 in
example : build sampleFmt c!"a#b { color : red ; } /* x */ c , .d { } " = .ok (some c!"a#b{color:red;}c,.d{}") := by decide +kernel

end Hdx

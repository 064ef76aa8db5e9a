/-
C92: what `csskit build` writes.
-/
import Verif.Model.Build
import Verif.Spec.Build
import Verif.Lemmas.TidyValues
import Verif.Props.CssRealValues
import Verif.Props.Sink
import Verif.Props.HighlightSheet

namespace Hdx
open Spec Prog

/-! ### Lists -/

theorem perm_lift {α β : Type} {f : α → β} {m n : List β} (h : m.Perm n) : ∀ {k : List α}, k.map f = m → ∃ k' : List α, k'.Perm k ∧ k'.map f = n := by
  induction h with
  | nil => intro k e; exact ⟨k, .refl _, e⟩
  | cons x _ ih =>
    intro k e
    obtain ⟨a, k, rfl, rfl, e1⟩ := List.map_eq_cons_iff.mp e
    obtain ⟨k', h1, h2⟩ := ih e1
    exact ⟨a :: k', h1.cons a, by simp [h2]⟩
  | swap x y l =>
    intro k e
    obtain ⟨a, k, rfl, rfl, e1⟩ := List.map_eq_cons_iff.mp e
    obtain ⟨b, k, rfl, rfl, e2⟩ := List.map_eq_cons_iff.mp e1
    exact ⟨b :: a :: k, .swap _ _ _, by simp [e2]⟩
  | trans _ _ ih1 ih2 =>
    intro k e
    obtain ⟨k1, h1, e1⟩ := ih1 e
    obtain ⟨k2, h2, e2⟩ := ih2 e1
    exact ⟨k2, h2.trans h1, e2⟩

theorem dealt_of_perm {α : Type} : ∀ {k a b : List α}, k.Perm (a ++ b) → ∃ s h, Dealt s h k ∧ s.Perm a ∧ h.Perm b
  | [], a, b, hp => by
    obtain ⟨rfl, rfl⟩ := List.append_eq_nil_iff.mp hp.symm.eq_nil
    exact ⟨[], [], .nil, .refl _, .refl _⟩
  | x :: k, a, b, hp => by
    have hx : x ∈ a ++ b := hp.subset List.mem_cons_self
    rcases List.mem_append.mp hx with hx | hx
    · obtain ⟨a1, a2, rfl⟩ := List.append_of_mem hx
      have : (x :: k).Perm (x :: ((a1 ++ a2) ++ b)) := hp.trans (by
        simp only [List.append_assoc, List.cons_append]
        exact List.perm_middle)
      obtain ⟨s, h, h1, h2, h3⟩ := dealt_of_perm ((List.perm_cons _).mp this)
      exact ⟨x :: s, h, .left h1, (h2.cons x).trans List.perm_middle.symm, h3⟩
    · obtain ⟨b1, b2, rfl⟩ := List.append_of_mem hx
      have : (x :: k).Perm (x :: (a ++ (b1 ++ b2))) := hp.trans (by
        rw [← List.append_assoc, ← List.append_assoc]
        exact List.perm_middle)
      obtain ⟨s, h, h1, h2, h3⟩ := dealt_of_perm ((List.perm_cons _).mp this)
      exact ⟨s, x :: h, .right h1, h2, (h3.cons x).trans List.perm_middle.symm⟩

theorem dealt_of_sublist {α : Type} {s k : List α} (h : s.Sublist k) : ∃ r, Dealt s r k := by
  induction h with
  | slnil => exact ⟨[], .nil⟩
  | cons x _ ih => obtain ⟨r, h⟩ := ih; exact ⟨x :: r, .right h⟩
  | cons_cons x _ ih => obtain ⟨r, h⟩ := ih; exact ⟨r, .left h⟩

theorem dealt_perm {α : Type} {a b k : List α} (h : Dealt a b k) : k.Perm (a ++ b) := by
  induction h with
  | nil => exact .refl _
  | left _ ih => exact ih.cons _
  | right _ ih => exact (ih.cons _).trans List.perm_middle.symm

/-- What is dealt out of what is dealt out. -/
theorem dealt_again {α : Type} {k c d : List α} (h : Dealt k c d) : ∀ {a b : List α}, Dealt a b k → ∃ r, Dealt a r d ∧ ∀ x ∈ r, x ∈ b ∨ x ∈ c := by
  induction h with
  | nil => intro a b h; cases h; exact ⟨[], .nil, nofun⟩
  | left _ ih =>
    intro a b h
    cases h with
    | left h => obtain ⟨r, h1, h2⟩ := ih h; exact ⟨r, .left h1, h2⟩
    | right h =>
      obtain ⟨r, h1, h2⟩ := ih h
      exact ⟨_ :: r, .right h1, by
        intro x hx
        rcases List.mem_cons.mp hx with rfl | hx
        · exact .inl List.mem_cons_self
        · exact (h2 x hx).imp (List.mem_cons_of_mem _) id⟩
  | right _ ih =>
    intro a b h
    obtain ⟨r, h1, h2⟩ := ih h
    exact ⟨_ :: r, .right h1, by
      intro x hx
      rcases List.mem_cons.mp hx with rfl | hx
      · exact .inr List.mem_cons_self
      · exact (h2 x hx).imp id (List.mem_cons_of_mem _)⟩

/-! ### The end of the style sheet -/

/-- The loop over the rules of a style sheet ends at the end of the source, or where nothing but tokens to skip is left. -/
theorem styleSheetLoop_ends {ρ : Type} {rule : Prog ρ} : ∀ (n : Nat) {rules rs : List ρ} {p q : Parser} {w : List Cursor},
    Gives (styleSheetLoop rule n rules) p (.ok rs) q w → q.atEnd = true ∨ ∃ c, q.peekNext = .ok c ∧ c.token.isKind .eof = true
  | 0, _, _, _, _, _, h => by cases h
  | n + 1, rules, rs, p, q, w, h => by
    unfold styleSheetLoop at h
    obtain ⟨ws, p1, w1, w2, h1, h2, _⟩ := gives_bind_ok.mp h
    split at h2
    · exact styleSheetLoop_ends n h2
    · obtain ⟨cdc, p2, w3, w4, h3, h4, _⟩ := gives_bind_ok.mp h2
      split at h4
      · exact styleSheetLoop_ends n h4
      · obtain ⟨e, p3, w5, w6, h5, h6, _⟩ := gives_bind_ok.mp h4
        obtain ⟨e1, rfl, rfl⟩ := gives_atEnd.mp h5
        cases e1
        split at h6
        · next he =>
          obtain ⟨_, rfl, _⟩ := gives_pure.mp h6
          exact .inl he
        · obtain ⟨c, p4, w7, w8, h7, h8, _⟩ := gives_bind_ok.mp h6
          obtain ⟨c', hc, e2, rfl, rfl⟩ := gives_peek.mp h7
          cases e2
          split at h8
          · next he =>
            obtain ⟨_, rfl, _⟩ := gives_pure.mp h8
            exact .inr ⟨_, hc, he⟩
          · obtain ⟨r, p5, w9, w10, h9, h10, _⟩ := gives_bind_ok.mp h8
            exact styleSheetLoop_ends n h10

theorem lexed_at_end {l : Lexer} {rest : List Cursor} {off : Nat} (h : LexedUntil l rest off) (he : l.offset = byteLen l.source) : rest = [] := by
  cases h with
  | done => rfl
  | step ha hk _ => exact absurd ((C03_eof_iff_at_end ha).mpr he) hk

theorem rest_skipped {skip : KindSet} (l : Lexer) {c : Cursor} (h : Parser.peekNextLoop skip l = .ok c) (hc : c.token.isKind .eof = true) :
    ∀ {rest : List Cursor} {off : Nat}, LexedUntil l rest off → ∀ x ∈ rest, x.token.inSet skip = true := by
  fun_induction Parser.peekNextLoop skip l with
  | case1 => cases h
  | case2 l t l' ha he =>
    cases h
    intro rest off hr
    cases hr with
    | done => nofun
    | step ha' hk _ =>
      rw [ha] at ha'; cases ha'
      refine absurd ?_ hk
      have : t.kindBits = Kind.eof.bits := by simpa [Token.isKind] using hc
      unfold Token.kind
      rw [this]
      decide
  | case3 => cases h
  | case4 l t l' ha he hz ih =>
    intro rest off hr
    cases hr with
    | done => nofun
    | step ha' hk hr =>
      rw [ha] at ha'; cases ha'
      intro x hx
      rcases List.mem_cons.mp hx with rfl | hx
      · simp only [Bool.or_eq_true, Bool.not_eq_true', not_or, Bool.not_eq_false] at he
        exact he.2
      · exact ih h hr x hx


/-! ### The tokens of the style sheet -/

/-- Nothing but whitespace and comments is recorded as trivia. -/
theorem sheet_trivia {τ : Type} {V : Values τ} [TidyValues V] {src : List Char} {f : Features} {r : Except Diag (List (CssRule τ))} {q : Parser}
    (h : (cssStyleSheet V).run (Parser.newWithFeatures src f) = .ok (r, q)) : Sweeps q.skip ∧ ∀ c ∈ q.trivia, c.token.inSet KindSet.TRIVIA = true := by
  obtain ⟨w, hg⟩ := gives_of_run h
  obtain ⟨h1, h2⟩ := Tidy.out (x := cssStyleSheet V) (p := Parser.newWithFeatures src f) (inferInstance : Sweeps KindSet.TRIVIA) hg
  exact ⟨h1, fun c hc => (h2 c hc).resolve_left (by simp [Parser.newWithFeatures])⟩

/-- The tokens of the source of a style sheet: those the tree is written from (`written`, in the order in which it writes them; `shown` in the
order of the source), and the others, that mean nothing. -/
theorem sheet_tokens {ord : Bool} {τ : Type} {V : Values τ} [TidyValues V] {good : τ → Bool} {src : List Char} {rules : List (CssRule τ)} (hV : KeepsValues ord V good)
    (hs : byteLen src < 65536) (h : parsedSheet V src = .ok (some rules)) (hw : WholeAll good rules = true) (ho : ord = true → InOrderAll V rules = true) :
    ∃ tokens shown hidden written, LexedUntil (Lexer.new src) tokens (byteLen src) ∧ Dealt shown hidden tokens ∧ (∀ c ∈ hidden, Meaningless c)
      ∧ written.Perm shown ∧ (ord = true → written = shown) ∧ taken (CssRule.cursorsOf V rules) = written.map strip := by
  unfold parsedSheet at h
  cases hp : (Parser.new src).parseEntirely (cssStyleSheet V).run with
  | error e => rw [hp] at h; cases h
  | ok y =>
    obtain ⟨ret, l⟩ := y
    rw [hp] at h
    simp only [Except.map, Except.ok.injEq] at h
    obtain ⟨r, q, rest, h1, h2, h3, h4, _⟩ := C36_rest hs hp
    rw [h] at h4
    cases r with
    | error d => cases h4
    | ok rs =>
      cases h4
      obtain ⟨tokens, kept, dropped, a1, a2, a3, a4, a5⟩ := nothing_lost hV hs h1 hw ho
      obtain ⟨t1, t2⟩ := sheet_trivia h1
      obtain ⟨w, hg⟩ := gives_of_run h1
      have hm := (Prog.runLog_moved (cssStyleSheet V) (by simp [Parser.newWithFeatures]) (by rw [byteLen_eq] at hs; exact hs) (by simp [Fits, Parser.newWithFeatures]) hg)
      have hrest : ∀ x ∈ rest, x.token.inSet KindSet.TRIVIA = true := by
        intro x hx
        rcases styleSheetLoop_ends _ hg with he | ⟨c, hc, he⟩
        · rw [lexed_at_end h2 (by simpa [Parser.atEnd, Lexer.atEnd, byteLen_eq] using he)] at hx
          cases hx
        · exact sweeps_inSet t1 (rest_skipped _ hc he h2 x hx)
      have hlex : LexedUntil (Lexer.new src) (tokens ++ rest) (byteLen src) := a1.append hm.source hm.features rfl h2
      have hdealt : Dealt kept (q.trivia ++ rest) (tokens ++ rest) := by simpa using a2.append (Dealt.allRight rest)
      have hmean : ∀ c, c ∈ q.trivia ++ rest → Meaningless c := by
        intro c hc
        have : c.token.inSet KindSet.TRIVIA = true := (List.mem_append.mp hc).elim (t2 c) (hrest c)
        exact (TRIVIA_iff.mp this).elim .inl fun h => .inr (.inl h)
      have hdrop : ∀ {r : List Cursor}, (r.map strip).Perm dropped → ∀ c ∈ r, Meaningless c := by
        intro r hr c hc
        rcases a3 (strip c) (hr.subset (List.mem_map_of_mem hc)) with e | e | e <;> rw [strip_token] at e
        · exact .inl e
        · exact .inr (.inr (.inl e))
        · exact .inr (.inr (.inr e))
      have hmix : ∀ {s r : List Cursor}, Dealt s r kept → (r.map strip).Perm dropped → ∃ hidden, Dealt s hidden (tokens ++ rest) ∧ ∀ c ∈ hidden, Meaningless c := by
        intro s r h1 h2
        obtain ⟨hidden, b1, b2⟩ := dealt_again hdealt h1
        exact ⟨hidden, b1, fun c hc => (b2 c hc).elim (hdrop h2 c) (hmean c)⟩
      cases ord with
      | true =>
        obtain ⟨shown, s1, s2⟩ := List.sublist_map_iff.mp (a5 rfl)
        obtain ⟨r, hr⟩ := dealt_of_sublist s1
        have : (r.map strip).Perm dropped := by
          have hp := ((dealt_perm hr).map strip).symm.trans a4
          rw [List.map_append, s2] at hp
          exact (List.perm_append_left_iff _).mp hp
        obtain ⟨hidden, b1, b2⟩ := hmix hr this
        exact ⟨tokens ++ rest, shown, hidden, shown, hlex, b1, b2, .refl _, fun _ => rfl, s2⟩
      | false =>
        obtain ⟨kept', k1, k2⟩ := perm_lift a4 rfl
        obtain ⟨written, gone, rfl, k3, k4⟩ := List.map_eq_append_iff.mp k2
        obtain ⟨shown, r, c1, c2, c3⟩ := dealt_of_perm k1.symm
        obtain ⟨hidden, b1, b2⟩ := hmix c1 (by rw [← k4]; exact c3.map strip)
        exact ⟨tokens ++ rest, shown, hidden, written, hlex, b1, b2, c2.symm, nofun, k3.symm⟩

/-! ### What is written for a token -/

/-- A token of the source is written as `PieceOf` says. -/
theorem writes_piece {l l' : Lexer} {cs : List Char} {t : Token} (fmt : FloatFmt) (h : l.Before cs) (ht : Tame l.features cs) (hl : byteLen l.source < 2 ^ 32)
    (ha : l.advance = .ok (t, l')) (hk : t.kind ≠ .eof) :
    ∃ ws, (Cursor.mk l.offset t).writes fmt l.source = .ok ws ∧ PieceOf fmt l.source ⟨l.offset, t⟩ ws.flatten := by
  have hne : cs ≠ [] := by
    rintro rfl
    obtain ⟨pre, p1, p2⟩ := h
    exact hk ((C03_eof_iff_at_end ha).mpr (by rw [p2, p1]; simp))
  by_cases hn : t.kind = .number
  · exact ⟨[if t.hasSign then fmt.signed t.value else fmt.plain t.value], by simp only [Cursor.writes, hn], ⟨fun _ => by simp, fun h => by simp [hn] at h, fun h => absurd hn h⟩⟩
  · by_cases hd : t.kind = .dimension ∧ t.dimensionUnit ≠ .unknown
    · exact ⟨_, by simp only [Cursor.writes, hd.1, hd.2, if_false]; rfl, ⟨fun h => absurd h hn, fun _ _ => by simp, fun _ h => absurd (h hd.1) hd.2⟩⟩
    · have hd' : t.kind = .dimension → t.dimensionUnit = .unknown := fun h => Classical.byContradiction fun hu => hd ⟨h, hu⟩
      obtain ⟨text, rest, e1, e2, e3⟩ := C30_text_partial fmt h ht hne hl ha hn hd'
      obtain ⟨pre, p1, p2⟩ := h
      exact ⟨_, e3, ⟨fun h => absurd h hn, fun h hu => absurd (hd' h) hu, fun _ _ => ⟨pre, rest, by simp [p1, e1], p2, by simpa using e2⟩⟩⟩

theorem lexed_pieces {l : Lexer} {cs : List Cursor} {off : Nat} (fmt : FloatFmt) (h : LexedUntil l cs off) : ∀ {x : List Char}, l.Before x → Tame l.features x →
    byteLen l.source < 2 ^ 32 → ∀ c ∈ cs, ∃ ws, c.writes fmt l.source = .ok ws ∧ PieceOf fmt l.source c ws.flatten := by
  induction h with
  | done => intro x _ _ _; nofun
  | @step l l1 t cs off ha hk h ih =>
    intro x hb ht hs c hc
    rcases List.mem_cons.mp hc with rfl | hc
    · exact writes_piece fmt hb ht hs ha hk
    · have hne : x ≠ [] := by
        rintro rfl
        obtain ⟨pre, p1, p2⟩ := hb
        exact hk ((C03_eof_iff_at_end ha).mpr (by rw [p2, p1]; simp))
      obtain ⟨t', l'', text, cs', a1, a2, a3, a4, a5, a6, a7⟩ := advance_tame hb ht hne
      rw [ha] at a1; cases a1
      obtain ⟨k1, k2, k3⟩ := advance_keeps ha
      have := ih a7 (by rw [k2]; rw [a3] at ht; exact ht.suffix) (by rw [k1]; exact hs) c hc
      rw [k1] at this
      exact this

/-- The position of a bracket does not matter for how it is written. -/
theorem writes_strip (fmt : FloatFmt) (src : List Char) (c : Cursor) : (strip c).writes fmt src = c.writes fmt src := by
  unfold strip
  split
  · next h =>
    have hk : c.token.kind ∈ [Kind.leftSquare, .leftParen, .leftCurly, .rightSquare, .rightParen, .rightCurly] := by
      have hb : c.token.kindBits < 32 := by
        have : ((c.token.w0 >>> 24) &&& 0b11111#32).toNat ≤ 31 := by rw [BitVec.toNat_and]; exact Nat.and_le_right
        unfold Token.kindBits; omega
      have hall : ∀ n < 32, (PAIR_START.containsBits n || PAIR_END.containsBits n) = true →
          Kind.ofBits n ∈ [Kind.leftSquare, .leftParen, .leftCurly, .rightSquare, .rightParen, .rightCurly] := by decide
      exact hall _ hb h
    simp only [List.mem_cons, List.not_mem_nil, or_false] at hk
    rcases hk with e | e | e | e | e | e <;> simp [Cursor.writes, e]
  · rfl

theorem eof_writes (fmt : FloatFmt) (src : List Char) {c : Cursor} (h : notEof c = false) : c.writes fmt src = .ok [] := by
  have hk : c.token.kind = .eof := by
    have : c.token.kindBits = Kind.eof.bits := by simpa [notEof, Token.isKind] using h
    unfold Token.kind
    rw [this]
    decide
  simp [Cursor.writes, hk]

theorem eof_bits {c : Cursor} (h : notEof c = false) : c.token.kindBits = Kind.eof.bits := by simpa [notEof, Token.isKind] using h

/-- The end of the source needs no separator. -/
theorem needs_eof_left {a : Token} (b : Token) (h : a.kindBits = Kind.eof.bits) : a.needsSeparatorFor b = false := by
  have h0 : a.kind = .eof := by unfold Token.kind; rw [h]; decide
  have : a.char = none := by unfold Token.char Token.isDelimLike; rw [h]; rfl
  unfold Token.needsSeparatorFor
  simp [h0, this]

theorem needs_eof_right (a : Token) {b : Token} (h : b.kindBits = Kind.eof.bits) : a.needsSeparatorFor b = false := by
  have h0 : b.kind = .eof := by unfold Token.kind; rw [h]; decide
  have h1 : b.char = none := by unfold Token.char Token.isDelimLike; rw [h]; rfl
  have h2 : b.isCdc = false := by unfold Token.isCdc; rw [h]; rfl
  unfold Token.needsSeparatorFor
  simp only [h0, h1, h2]
  split <;> try rfl
  split <;> rfl

/-- What the sink writes are the pieces of the cursors, some of them followed by a space. -/
theorem spaced_joined {text : Cursor → List (List Char)} : ∀ (cs : List Cursor), (∀ c ∈ cs, notEof c = false → text c = []) →
    Spaced ((cs.filter notEof).map fun c => (text c).flatten) (joined Token.needsSeparatorFor text cs).flatten
  | [], _ => by simp [joined]; exact .nil
  | [c], h => by
    cases hc : notEof c with
    | false => simp only [List.filter, hc, joined, h c List.mem_cons_self hc]; exact .nil
    | true =>
      simp only [List.filter, hc, joined, List.map_cons, List.map_nil]
      simpa using Spaced.next (x := (text c).flatten) .nil
  | c :: d :: cs, h => by
    have ih := spaced_joined (d :: cs) fun x hx => h x (List.mem_cons_of_mem _ hx)
    rw [joined]
    cases hc : notEof c with
    | false =>
      rw [List.filter_cons_of_neg (by simp [hc]), h c List.mem_cons_self hc, needs_eof_left _ (eof_bits hc)]
      simpa using ih
    | true =>
      rw [List.filter_cons_of_pos hc, List.map_cons]
      cases c.token.needsSeparatorFor d.token with
      | false => simpa using Spaced.next (x := (text c).flatten) ih
      | true => simpa using Spaced.space (x := (text c).flatten) ih

/-- Without cursors that stand for the end of the source, there is a space exactly where one is needed. -/
theorem spread_joined {text : Cursor → List (List Char)} {fmt : FloatFmt} {src : List Char} : ∀ (cs : List Cursor),
    (joined Token.needsSeparatorFor text cs).flatten = spread Token.needsSeparatorFor cs (cs.map fun c => (text c).flatten)
  | [] => rfl
  | [c] => by simp [joined, spread]
  | c :: d :: cs => by
    have ih := spread_joined (text := text) (fmt := fmt) (src := src) (d :: cs)
    rw [joined, List.map_cons, spread]
    simp only [List.flatten_append, ih]
    split <;> simp

theorem spread_congr {needs : Token → Token → Bool} : ∀ {cs ds : List Cursor} {xs : List (List Char)}, cs.map (·.token) = ds.map (·.token) →
    spread needs cs xs = spread needs ds xs
  | [], [], _, _ => rfl
  | [], _ :: _, _, h => by cases h
  | _ :: _, [], _, h => by cases h
  | [_], [_], _, _ => by rw [spread, spread] <;> simp
  | [_], _ :: _ :: _, _, h => by simp at h
  | _ :: _ :: _, [_], _, h => by simp at h
  | c :: c' :: cs, d :: d' :: ds, [], _ => rfl
  | c :: c' :: cs, d :: d' :: ds, x :: xs, h => by
    have h' := h
    simp only [List.map_cons, List.cons.injEq] at h'
    rw [spread, spread, h'.1, h'.2.1, spread_congr (cs := c' :: cs) (ds := d' :: ds) (by simp [h'.2.1, h'.2.2])]

/-- What is written for tokens of the source. -/
theorem sheet_builds {τ : Type} {V : Values τ} (fmt : FloatFmt) {src : List Char} {rules : List (CssRule τ)} {tokens written : List Cursor} (hs : byteLen src < 65536) (ht : Tame {} src)
    (hl : LexedUntil (Lexer.new src) tokens (byteLen src)) (hsub : ∀ c ∈ written, c ∈ tokens) (he : taken (CssRule.cursorsOf V rules) = written.map strip) :
    ∃ r pieces, (FmtSink.new []).appendAll fmt stringSink src (CssRule.cursorsOf V rules) = .ok r ∧ Pieces fmt src written pieces ∧ Spaced pieces r.writer
      ∧ ((∀ c ∈ CssRule.cursorsOf V rules, c.token.isKind .eof = false) → r.writer = spread Token.needsSeparatorFor written pieces) := by
  have hp : ∀ c ∈ tokens, ∃ ws, c.writes fmt src = .ok ws ∧ PieceOf fmt src c ws.flatten :=
    lexed_pieces fmt hl (before_new src {}) ht (by have : byteLen (Lexer.new src).source = byteLen src := rfl; omega)
  generalize CssRule.cursorsOf V rules = cs at he ⊢
  let text : Cursor → List (List Char) := fun c => match c.writes fmt src with
    | .ok t => t
    | .error _ => []
  have htext : ∀ {c ws}, c.writes fmt src = .ok ws → text c = ws := by
    intro c ws h
    simp only [text, h]
  have hstrip : ∀ c, text (strip c) = text c := by
    intro c
    simp only [text, writes_strip]
  have hall : ∀ c ∈ cs, c.writes fmt src = .ok (text c) := by
    intro c hc
    cases hn : notEof c with
    | false => rw [htext (eof_writes fmt src hn)]; exact eof_writes fmt src hn
    | true =>
      have : strip c ∈ written.map strip := by rw [← he]; exact List.mem_map_of_mem (List.mem_filter.mpr ⟨hc, hn⟩)
      obtain ⟨d, hd, e⟩ := List.mem_map.mp this
      obtain ⟨ws, h1, _⟩ := hp d (hsub d hd)
      have : c.writes fmt src = .ok ws := by rw [← writes_strip, ← e, writes_strip]; exact h1
      rw [htext this]; exact this
  obtain ⟨r, h1, _, h2⟩ := C30_infallible fmt src [] text cs hall
  rw [List.nil_append] at h2
  have hpieces : (cs.filter notEof).map (fun c => (text c).flatten) = written.map fun c => (text c).flatten := by
    have := congrArg (List.map fun c => (text c).flatten) he
    simpa [taken, List.map_map, Function.comp_def, hstrip] using this
  refine ⟨r, written.map fun c => (text c).flatten, h1, ?_, ?_, fun hn => ?_⟩
  · clear he hpieces
    induction written with
    | nil => exact .nil
    | cons c cs ih =>
      obtain ⟨ws, g1, g2⟩ := hp c (hsub c List.mem_cons_self)
      exact .cons (by show PieceOf fmt src c (text c).flatten; rw [htext g1]; exact g2) (ih fun x hx => hsub x (List.mem_cons_of_mem _ hx))
  · rw [h2, ← hpieces]
    exact spaced_joined cs fun c _ hc => htext (eof_writes fmt src hc)
  · have hf : cs.filter notEof = cs := List.filter_eq_self.mpr fun c hc => by simp [notEof, hn c hc]
    rw [h2, spread_joined (fmt := fmt) (src := src), ← hpieces, hf]
    refine spread_congr ?_
    have := congrArg (List.map (·.token)) he
    simpa [taken, hf, List.map_map, Function.comp_def, strip_token] using this

/-- What `csskit build` writes for a style sheet. -/
theorem builds {ord : Bool} {good : Val → Bool} (hV : KeepsValues ord realValues good) (fmt : FloatFmt) {src : List Char} {rules : List (CssRule Val)} (hs : byteLen src < 65536) (ht : Tame {} src)
    (h : parsedSheet realValues src = .ok (some rules)) (hw : WholeAll good rules = true) (ho : ord = true → InOrderAll realValues rules = true) :
    ∃ tokens shown hidden written pieces out, LexedUntil (Lexer.new src) tokens (byteLen src) ∧ Dealt shown hidden tokens ∧ (∀ c ∈ hidden, Meaningless c)
      ∧ written.Perm shown ∧ (ord = true → written = shown) ∧ Pieces fmt src written pieces ∧ build fmt src = .ok (some out) ∧ Spaced pieces out
      ∧ ((∀ c ∈ CssRule.cursorsOf realValues rules, c.token.isKind .eof = false) → out = spread Token.needsSeparatorFor written pieces) := by
  obtain ⟨tokens, shown, hidden, written, a1, a2, a3, a4, a5, a6⟩ := sheet_tokens hV hs h hw ho
  obtain ⟨r, pieces, b1, b2, b3, b4⟩ := sheet_builds fmt hs ht a1 (fun c hc => a2.sublist.subset (a4.subset hc)) a6
  refine ⟨tokens, shown, hidden, written, pieces, r.writer, a1, a2, a3, a4, a5, b2, ?_, b3, b4⟩
  unfold build
  rw [h]
  show ((FmtSink.new []).appendAll fmt stringSink src (CssRule.cursorsOf realValues rules)).bind _ = _
  rw [b1]
  rfl

/-- `csskit build` writes every token of the source that means something exactly once, as it stands in the source (but for numbers and dimensions, that
are written from their value), and nothing else but single spaces between tokens. Only whitespace, comments, semicolons, `<!--` and `-->` are left out.
Missing from the full C92: style sheets that are not `WholeAll NoCircle` (for which tokens are lost, see `C77_circle_counterexample` and C77), and texts outside `Tame`. -/
theorem C92_build_partial (fmt : FloatFmt) {src : List Char} {rules : List (CssRule Val)} (hs : byteLen src < 65536) (ht : Tame {} src)
    (h : parsedSheet realValues src = .ok (some rules)) (hw : WholeAll NoCircle rules = true) :
    ∃ tokens shown hidden written pieces out, LexedUntil (Lexer.new src) tokens (byteLen src) ∧ Dealt shown hidden tokens ∧ (∀ c ∈ hidden, Meaningless c)
      ∧ written.Perm shown ∧ Pieces fmt src written pieces ∧ build fmt src = .ok (some out) ∧ Spaced pieces out := by
  obtain ⟨a, b, c, d, e, f, h1, h2, h3, h4, _, h5, h6, h7, _⟩ := builds C77_values fmt hs ht h hw nofun
  exact ⟨a, b, c, d, e, f, h1, h2, h3, h4, h5, h6, h7⟩

/-- If the values keep their order, and in every block the declarations come before the rules, then the tokens are written in the order of the source. If,
moreover, no block is left open, there is a space between two tokens exactly if `needs_separator_for` asks for one. -/
theorem C92_in_order_partial (fmt : FloatFmt) {src : List Char} {rules : List (CssRule Val)} (hs : byteLen src < 65536) (ht : Tame {} src)
    (h : parsedSheet realValues src = .ok (some rules)) (hw : WholeAll keepsOrder rules = true) (ho : InOrderAll realValues rules = true) :
    ∃ tokens shown hidden pieces out, LexedUntil (Lexer.new src) tokens (byteLen src) ∧ Dealt shown hidden tokens ∧ (∀ c ∈ hidden, Meaningless c)
      ∧ Pieces fmt src shown pieces ∧ build fmt src = .ok (some out) ∧ Spaced pieces out
      ∧ ((∀ c ∈ CssRule.cursorsOf realValues rules, c.token.isKind .eof = false) → out = spread Token.needsSeparatorFor shown pieces) := by
  obtain ⟨a, b, c, d, e, f, h1, h2, h3, h4, h0, h5, h6, h7, h8⟩ := builds C91_values fmt hs ht h hw fun _ => ho
  cases h0 rfl
  exact ⟨a, b, c, e, f, h1, h2, h3, h5, h6, h7, h8⟩

/-- A way to write numbers that is right for `1`, `-0` and `+0`. -/
def sampleFmt : FloatFmt := ⟨fun v => if v == 0x3f800000#32 then c!"1" else c!"0", fun v => if v == 0x80000000#32 then c!"-0" else c!"+0"⟩

set_option maxRecDepth 100000 in
/-- The hypotheses are met by a style sheet with comments, nested rules and numbers, which is built as follows. -/
example : ∃ rules, byteLen c!"/* x */ a > b , c { color : red ; ; width:1px } <!-- @media (color) { p{ } } " < 65536
    ∧ Tame {} c!"/* x */ a > b , c { color : red ; ; width:1px } <!-- @media (color) { p{ } } "
    ∧ parsedSheet realValues c!"/* x */ a > b , c { color : red ; ; width:1px } <!-- @media (color) { p{ } } " = .ok (some rules)
    ∧ WholeAll NoCircle rules = true ∧ WholeAll keepsOrder rules = true ∧ InOrderAll realValues rules = true
    ∧ (∀ c ∈ CssRule.cursorsOf realValues rules, c.token.isKind .eof = false) := by
  have h : (((Parser.new c!"/* x */ a > b , c { color : red ; ; width:1px } <!-- @media (color) { p{ } } ").parseEntirely (cssStyleSheet realValues).run).toOption.bind (·.1.output)).any (fun rules =>
      WholeAll NoCircle rules && WholeAll keepsOrder rules && InOrderAll realValues rules
        && (CssRule.cursorsOf realValues rules).all fun c => !c.token.isKind .eof) = true := by decide +kernel
  obtain ⟨rules, h1, h2⟩ := (Option.any_eq_true _ _).mp h
  simp only [Bool.and_eq_true, List.all_eq_true, Bool.not_eq_true'] at h2
  exact ⟨rules, by decide, tame_of_ascii (by decide) (by decide), run_parsedSheet h1, h2.1.1.1, h2.1.1.2, h2.1.2, h2.2⟩

set_option maxRecDepth 100000 in
example : build sampleFmt c!"/* x */ a > b , c { color : red ; ; width:1px } <!-- @media (color) { p{ } } " = .ok (some
    c!"a > b,c{color:red;width:1px}@media (color){p{}}") := by decide +kernel

set_option maxRecDepth 100000 in
/-- What is missing from the full C92, that the text that is written is read as the same style sheet. A declaration after a nested rule is moved before
it without a semicolon, so that the rule becomes a part of the value of the declaration; and no space is written before `-0`, so that it becomes a part
of the dimension before it. -/
theorem C92_counterexample :
    (build sampleFmt c!"a{b{}color:red}" = .ok (some c!"a{color:red b{}}")
      ∧ (parsedSheet realValues c!"a{b{}color:red}").toOption.map (·.map (·.map fun | .style _ _ d r _ => (d.length, r.length) | _ => (0, 0))) = some (some [(1, 1)])
      ∧ (parsedSheet realValues c!"a{color:red b{}}").toOption.map (·.map (·.map fun | .style _ _ d r _ => (d.length, r.length) | _ => (0, 0))) = some (some [(1, 0)]))
    ∧ build sampleFmt c!"a{margin:1px -0}" = .ok (some c!"a{margin:1px-0}")
    ∧ ((Lexer.new c!"1px-0").advance.map fun r => (r.1.kind, r.1.dimensionUnit, r.2.offset)) = .ok (.dimension, .unknown, 5) :=
  ⟨⟨by decide +kernel, by decide +kernel, by decide +kernel⟩, by decide +kernel, by decide +kernel⟩

/-- The trivia that go with a style sheet are whitespace and comments, whether it was parsed or not: no token with a meaning is hidden among them. -/
theorem C77_trivia {src : List Char} {f : Features} {r : Except Diag (List (CssRule Val))} {p' : Parser}
    (h : (cssStyleSheet realValues).run (Parser.newWithFeatures src f) = .ok (r, p')) :
    ∀ c ∈ p'.trivia, c.token.kind = .whitespace ∨ c.token.kind = .comment :=
  fun c hc => TRIVIA_iff.mp ((sheet_trivia h).2 c hc)

set_option maxRecDepth 100000 in
/-- For example, the space before the block and the comment in it (the other spaces are read by the loop over the block). -/
example : ((cssStyleSheet realValues).run (Parser.new c!"a { /* x */ color:red }")).map (fun r => r.2.trivia.map (·.token.kind)) =
    .ok [.whitespace, .comment] := by decide +kernel

end Hdx

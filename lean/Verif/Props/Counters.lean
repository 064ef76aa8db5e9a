/-
Property C98: the types `<counter-style>`, `symbols()` and `<image-1D>`, which no property uses yet (or not first).
-/
import Verif.Model.Counters
import Verif.Spec.Counters
import Verif.Props.CssRealValues
import Verif.Props.ValueAccepts
import Verif.Props.SheetReturns
import Verif.Lemmas.CompleteStripes

namespace Hdx
open Spec Prog

section
variable {src : List Char} {M : List Char → List Cursor → Prop}

/-! ## What is taken -/

theorem symbol_reads : Reads src symbol fun _ w => IsSymbol src w := by
  unfold symbol
  refine Reads.look .peek fun c _ => Reads.ite (fun _ => ?_) fun _ => ?_
  · refine Reads.bind (P := fun _ w => ∃ c, w = [c] ∧ IsKind .string c) (Reads.next .kind fun c hc => .pure ⟨c, rfl, hc⟩) fun v w hw => .pure ?_
    rw [List.append_nil]
    exact .inl hw
  · exact Reads.bind image_reads fun v w hw => .pure (by rw [List.append_nil]; exact .inr hw)

theorem symbolsLoop_reads : ∀ n vs, Reads src (symbolsLoop n vs) fun r w => ∃ u, w = u ++ r.2.toList ∧ Several (IsSymbol src) u ∧ ∀ k ∈ r.2, IsKind .rightParen k
  | 0, _ => .panic
  | n + 1, vs => by
    unfold symbolsLoop
    refine Reads.look (R := fun _ => True) (.ask fun _ _ _ _ => ⟨rfl, trivial⟩) fun b _ => Reads.ite (fun _ => .pure ⟨[], rfl, .none, nofun⟩) fun _ =>
      Reads.bind .optKind fun close t ⟨ht, hcl⟩ => ?_
    subst ht
    cases close with
    | some k => exact .pure ⟨[], rfl, .none, by rintro k ⟨⟩; exact hcl _ rfl⟩
    | none =>
      refine Reads.bind symbol_reads fun v w hw => (symbolsLoop_reads n _).mono fun r t ⟨u, e, hm, hk⟩ => ?_
      subst e
      exact ⟨w ++ u, by simp, .more hw hm, hk⟩

theorem symbols_reads : Reads src symbols fun _ w => IsSymbolsFunction src w := by
  unfold symbols
  refine Reads.bind namedFunction_reads fun f w ⟨hw, hk, hn⟩ => Reads.bind .optKind fun close t ⟨ht, hcl⟩ => ?_
  subst hw ht
  cases close with
  | some k => exact .pure ⟨f, none, [], some k, rfl, hk, hn, nofun, .none, by rintro k ⟨⟩; exact hcl _ rfl⟩
  | none =>
    have key : Reads src (optKeyword SYMBOLS_TYPES) fun o w => w = o.toList ∧ ∀ k ∈ o, ∃ s ∈ SYMBOLS_TYPES, IsWord src s k := by
      unfold optKeyword
      refine Reads.bind (Reads.ifPeek .keyword .keyword) fun o w hw => .pure ?_
      rcases hw with ⟨rfl, rfl⟩ | ⟨⟨k, c⟩, rfl, rfl, hk, hn, hm⟩
      · exact ⟨rfl, nofun⟩
      · exact ⟨rfl, fun c' e => by cases e; exact ⟨_, hm, hk, .inl hn⟩⟩
    refine Reads.bind key fun type u ⟨hu, ht⟩ => Reads.read fun p => Reads.bind (symbolsLoop_reads _ _) fun ⟨vs, close⟩ t ⟨v, e, hm, hcl⟩ => .pure ?_
    subst hu e
    exact ⟨f, type, v, close, by simp, hk, hn, ht, hm, hcl⟩

theorem counterStyle_reads : Reads src counterStyle fun x w => IsCounterStyle src w ∧
    (∀ v, x = .variant 0 v → ∃ c, w = [c] ∧ ∃ s ∈ PREDEFINED_COUNTERS, IsWord src s c) ∧ (∀ v, x = .variant 1 v → ∃ c, w = [c] ∧ IsKind .ident c) ∧
    (∀ v, x = .variant 2 v → IsSymbolsFunction src w) := by
  unfold counterStyle
  refine Reads.look .peek fun c _ => Reads.look (Reads.test .keyword (T := fun _ => True) fun _ _ _ _ _ _ _ => trivial) fun b _ => Reads.ite (fun _ => ?_) fun _ =>
    Reads.look .peek fun c _ => Reads.ite (fun _ => ?_) fun _ => ?_
  · refine Reads.bind .keyword fun ⟨k, c⟩ w ⟨hw, hk, hn, hm⟩ => .pure ?_
    subst hw
    exact ⟨.inl ⟨c, rfl, hk⟩, fun _ _ => ⟨c, rfl, k, hm, hk, .inl hn⟩, nofun, nofun⟩
  · refine Reads.bind (P := fun _ w => ∃ c, w = [c] ∧ IsKind .ident c) (Reads.next .kind fun c hc => .pure ⟨c, rfl, hc⟩) fun v w hw => .pure ?_
    rw [List.append_nil]
    exact ⟨.inl hw, nofun, fun _ _ => hw, nofun⟩
  · refine Reads.bind symbols_reads fun v w hw => .pure ?_
    rw [List.append_nil]
    exact ⟨.inr hw, nofun, nofun, fun _ _ => hw⟩

/-- What a counter style is made of: whatever the parser of `<counter-style>` accepts, from any position of any source, is a name or a
`symbols()`, and is called predefined only if it is one of the names. -/
theorem C98_sound {p p' : Parser} {x : Val} {w : List Cursor} (hp : p.lexer.source = src) (h : Gives counterStyle p (.ok x) p' w) :
    IsCounterStyle src w ∧ (∀ v, x = .variant 0 v → ∃ c, w = [c] ∧ ∃ s ∈ PREDEFINED_COUNTERS, IsWord src s c) ∧ (∀ v, x = .variant 1 v → ∃ c, w = [c] ∧ IsKind .ident c) ∧
    (∀ v, x = .variant 2 v → IsSymbolsFunction src w) := counterStyle_reads hp h

/-! ## Nothing is lost -/

theorem optionalClose_does : Does optionalClose fun o t => t = taken o.toList := optCursor_does .kind

theorem symbol_saves : SavesVal symbol := by
  unfold symbol
  refine Exact.look (Does.peek fun _ => rfl) fun c => Does.ite (fun _ => ?_) fun _ => ?_
  · exact Holds.seq (piece_saves .kind) fun v t hv => .pure (by simpa using hv.variant)
  · exact Holds.seq image_saves fun v t hv => .pure (by simpa using hv.variant)

theorem symbolsLoop_saves : ∀ n vs, Does (symbolsLoop n vs) fun a t => ∃ more s, a.1 = vs ++ more ∧ t = s ++ taken a.2.toList ∧ HoldsAll more s := by
  intro n
  induction n with
  | zero => intro vs; exact .panic
  | succ n ih =>
    intro vs
    unfold symbolsLoop
    refine Exact.look (Does.ask fun _ => rfl) fun e => Does.ite (fun _ => .pure ⟨[], [], by simp, by simp, .nil⟩) fun _ => Does.bind optionalClose_does fun close t ht => ?_
    subst ht
    cases close with
    | some k => exact .pure ⟨[], [], by simp, by simp, .nil⟩
    | none =>
      refine Holds.seq symbol_saves fun v t hv => (ih _).mono ?_
      rintro ⟨a, o⟩ s ⟨more, s', h1, rfl, h⟩
      exact ⟨v :: more, t ++ s', by simpa using h1, by simp, HoldsAll.cons hv h⟩

theorem symbols_saves : SavesVal symbols := by
  unfold symbols
  refine Exact.next namedFunction_does fun f => Does.bind optionalClose_does fun close t ht => ?_
  subst ht
  cases close with
  | some k =>
    exact .pure (by simpa using (HoldsAll.cons (.tok (c := f)) (HoldsAll.cons (.none) (HoldsAll.cons HoldsAll.nil.fields (HoldsAll.one (.some (.tok (c := k))))))).fields)
  | none =>
    refine Does.bind optKeyword_does fun type u hu => Does.readNow fun p => Does.bind (symbolsLoop_saves _ _) fun a t h => ?_
    subst hu
    obtain ⟨vs, close⟩ := a
    obtain ⟨more, s, h1, rfl, h⟩ := h
    simp only [List.nil_append] at h1
    subst h1
    exact .pure (by simpa using (HoldsAll.cons (.tok (c := f)) (HoldsAll.cons (.optTok (o := type)) (HoldsAll.cons h.fields (HoldsAll.one (.optTok (o := close)))))).fields)

theorem counterStyle_saves : SavesVal counterStyle := by
  unfold counterStyle
  refine Exact.look (Does.peek fun _ => rfl) fun c => Exact.look isKeyword_does fun b => Does.ite (fun _ => ?_) fun _ => ?_
  · refine Exact.next .keyword fun x => ?_
    obtain ⟨k, c⟩ := x
    exact .pure (by simpa using Holds.variant .tok)
  refine Exact.look (Does.peek fun _ => rfl) fun c => Does.ite (fun _ => ?_) fun _ => ?_
  · exact Holds.seq (piece_saves .kind) fun v t hv => .pure (by simpa using hv.variant)
  · exact Holds.seq symbols_saves fun v t hv => .pure (by simpa using hv.variant)

/-- The tree of a counter style holds the tokens it was read from: no more, no fewer (but for `<radial-size>`, C77), and if they are all written
in the order of the fields, in their order. -/
theorem C98_kept {p p' : Parser} {x : Val} {w : List Cursor} (hp : UsualSkip p.skip) (h : Gives counterStyle p (.ok x) p' w) (hc : NoCircle x = true) :
    (taken w).Perm (taken x.cursors) ∧ (Straight x = true → Increasing (taken w) → taken w = taken x.cursors) :=
  (counterStyle_saves hp h).2 x rfl hc

end

/-! ## It comes to an end -/

namespace EatsIf
variable {src : Text} {n : Nat}

theorem eatsPiece {k : Kind} (hk : k ≠ .eof) : Eats src (n + 1) (Hdx.piece (Prog.isKind k)) := by
  unfold Hdx.piece
  exact eat (tokKind hk) fun _ => pure id

theorem eatsNamed (hst : src.strict = true) {o : List Char} : Eats src (n + 1) (Hdx.namedFunction o) := by
  unfold Hdx.namedFunction
  exact tokKindSeq (by decide) fun c h hk => seq (eqNamed hk h) fun _ => ite (seq (strOf hst hk) fun _ => fail) (pure id)

theorem eatsFunction {names : List (List Char)} : Eats src (n + 1) (Hdx.functionOf names) := by
  have h : Eats src (n + 1) (Prog.tok (Hdx.isFunctionOf names)) := eatsBy (fun _ _ _ hl hk => gives_functionIn hl hk) fun c hc => by
    simp only [functionIn, Bool.and_eq_true] at hc
    exact isKind_notEof (k := .function) (by decide) hc.1
  unfold Hdx.functionOf
  exact eatR h (FineR.tokBy fun _ _ _ hl hk => gives_functionIn hl hk) fun c hc => (buildFunction hc.2).fine

theorem eatsGradient (hst : src.strict = true) (hn : n ≤ src.fuel) : Eats src (n + 1) Hdx.gradient := by
  unfold Hdx.gradient
  refine eatR eatsFunction functionR fun r hr => ?_
  obtain ⟨name, f⟩ := r
  exact ite (seq (linearGradient hst hn) fun _ => pure id) (ite (seq (linearGradient hst hn) fun _ => pure id)
    (ite (seq (radialGradient hst hn (peekNSeq fun c hk => Probes.wordOf.fine hk)) fun _ => pure id) (seq (radialGradient hst hn (Probes.wordOf.fine hr)) fun _ => pure id)))

theorem eatsImage (hst : src.strict = true) (hn : n ≤ src.fuel) : Eats src (n + 1) Hdx.image := by
  unfold Hdx.image
  refine seq peek fun c => ite (eat (eatsPiece (by decide)) fun _ => pure id) (peekSeq fun c hk => seq (Probes.gradient.fine hk) fun _ =>
    ite (eat (eatsGradient hst hn) fun _ => pure id) (eat (eatsNamed hst) fun _ => seq (sequence fun x hx => ?_) fun _ => pure id))
  simp only [List.mem_cons, List.not_mem_nil, or_false] at hx
  rcases hx with rfl | rfl <;> exact piece .kind

theorem symbol (hst : src.strict = true) (hn : n ≤ src.fuel) : Eats src (n + 1) Hdx.symbol := by
  unfold Hdx.symbol
  exact seq peek fun c => ite (eat (eatsPiece (by decide)) fun _ => pure id) (eat (eatsImage hst hn) fun _ => pure id)

theorem symbolsLoop (hst : src.strict = true) : ∀ m vs, m ≤ src.fuel → Fine src m (symbolsLoop m vs)
  | 0, _, _ => zero
  | m + 1, vs, hm => by
    unfold Hdx.symbolsLoop
    refine seq atEnd fun _ => ite (pure id) (seq optionalClose fun o => ?_)
    cases o with
    | some k => exact pure id
    | none => exact eat (symbol hst (by omega)) fun _ => symbolsLoop hst m _ (by omega)

theorem symbols (hst : src.strict = true) (hn : n ≤ src.fuel) : Fine src n symbols := by
  unfold Hdx.symbols
  refine seq (namedFunction hst).fine fun f => seq optionalClose fun o => ?_
  cases o with
  | some k => exact pure id
  | none =>
    refine seq optKeyword fun _ => read fun p hp => seq ?_ fun _ => pure id
    rw [hp]; exact (symbolsLoop hst _ _ (Nat.le_refl _)).mono hn

theorem counterStyle (hst : src.strict = true) (hn : n ≤ src.fuel) : Fine src n counterStyle := by
  unfold Hdx.counterStyle
  exact peekSeq fun c hk => seq (Probes.keyword.fine hk) fun _ => ite (seq keyword.fine fun _ => pure id) (seq peek fun _ =>
    ite (seq (piece .kind) fun _ => pure id) (seq (symbols hst hn) fun _ => pure id))

end EatsIf

/-- A counter style, from wherever the parser is: a result or a diagnostic, no panic, no endless loop. Missing from the full statement: what is missing from C85. -/
theorem C98_returns_partial {p : Parser} (h : Ready p) (hd : p.skip.contains .delim = false) (hq : QuietAll p) : ComesToEnd counterStyle p := by
  obtain ⟨cs, hl, hlen⟩ := h.strictly hd hq
  obtain ⟨r, p', _, h1, _⟩ := (EatsIf.counterStyle (src := ⟨p.lexer.source, true⟩) rfl (Nat.le_refl _)).returnsFrom hl hlen
  exact ⟨r, p', h1⟩

/-! ## All of them are taken -/

theorem run_of_yields {α : Type} {p : Parser} (hr : Ready p) (hs : p.skip = KindSet.TRIVIA) {cs : List Cursor} (ht : Stream p.lexer cs) {ts rest : List Cursor} (hcs : solid cs = ts)
    {x : Prog α} {P : α → Prop} (h : Yields p.lexer.source ts x rest P) : ∃ v p', x.run p = .ok (.ok v, p') ∧ P v ∧ ∃ cs', Stream p'.lexer cs' ∧ solid cs' = rest := by
  obtain ⟨cs', hl, hlen⟩ := hr.left
  cases hl.stream.det ht
  obtain ⟨d, q, u, h1, h2, h3⟩ := h (p := p) ⟨rfl, hs, cs, ht, hcs, hlen⟩
  obtain ⟨cs2, g1, g2, _⟩ := h2.stream
  refine ⟨d, q, ?_, h3, cs2, g1, g2⟩
  unfold Prog.run
  rw [show x.runLog p = .ok (_, q, u) from h1]
  rfl

/-- `stripes( <color-stripe># )` is taken, whole, with what follows left, and with the color and the thickness in either order. Missing: sources on which the lexer
loses its place (`Ready`), and names that are not `Clear` (escapes and such). -/
theorem C98_stripes_partial {p : Parser} {M : Meaning} (hr : Ready p) (hs : p.skip = KindSet.TRIVIA) {cs : List Cursor} (ht : Stream p.lexer cs) {f k : Cursor} {w rest : List Cursor}
    (hcs : solid cs = f :: (w ++ k :: rest)) (hf : IsKind .function f) (hn : Named p.lexer.source f c!"stripes") (hclear : ∀ c ∈ f :: w, Clear p.lexer.source c)
    (hw : IsStripes p.lexer.source M w) (himg : ∀ c ∈ w, IsKind .function c → ∀ n ∈ imageFunctions, ¬ Called p.lexer.source c n) (hk : IsKind .rightParen k) :
    ∃ v p', image1D.run p = .ok (.ok v, p') ∧ v.cursors.Perm (f :: (w ++ [k])) ∧ ∃ cs', Stream p'.lexer cs' ∧ solid cs' = rest :=
  run_of_yields hr hs ht hcs (image1D_yields hf hn (hclear f (.head _)) hw ⟨fun c hc => hclear c (.tail _ hc), himg⟩ hk)

/-- `symbols( <symbols-type>? [ <string> | <url> ]* )` is a counter style, whole, in its order, with what follows left. Missing: other images, and the same as above. -/
theorem C98_symbols_partial {p : Parser} (hr : Ready p) (hs : p.skip = KindSet.TRIVIA) {cs : List Cursor} (ht : Stream p.lexer cs) {f k : Cursor} {type : Option Cursor}
    {w rest : List Cursor} (hcs : solid cs = f :: (type.toList ++ (w ++ k :: rest))) (hf : IsKind .function f) (hn : Named p.lexer.source f c!"symbols")
    (hclear : ∀ c ∈ f :: type.toList, Clear p.lexer.source c)
    (htype : ∀ t ∈ type, IsKind .ident t ∧ ∃ s ∈ [c!"cyclic", c!"numeric", c!"alphabetic", c!"symbolic", c!"fixed"], Named p.lexer.source t s)
    (hw : ∀ c ∈ w, IsKind .string c ∨ IsKind .url c) (hk : IsKind .rightParen k) :
    ∃ v p', counterStyle.run p = .ok (.ok (.variant 2 v), p') ∧ v.cursors = f :: (type.toList ++ (w ++ [k])) ∧ ∃ cs', Stream p'.lexer cs' ∧ solid cs' = rest := by
  have h1 := symbols_yields (src := p.lexer.source) (rest := rest) hf hn (hclear f (.head _))
    (fun t ht => ⟨hclear t (by cases ht; simp), Among.words.mpr (htype t ht)⟩) hw hk
  have hfc := hclear f (.head _)
  have h2 : Yields p.lexer.source (f :: (type.toList ++ (w ++ k :: rest))) counterStyle rest fun x => ∃ v, x = .variant 2 v ∧ v.cursors = f :: (type.toList ++ (w ++ [k])) := by
    unfold counterStyle
    have hni : ¬ IsKind .ident f := by
      have := IsKind.other hf (by decide) (k' := .ident) (by decide) (by decide)
      show ¬ f.token.isKind .ident = true
      simpa using this
    refine Yields.peek (Yields.test (Exactly.words.no hfc fun ha => hni (Among.words.mp ha).1) (Yields.neg (by decide) (Yields.peek (Yields.neg hni ?_))))
    exact Yields.bind h1 fun v hv => Yields.pure ⟨v, rfl, hv⟩
  obtain ⟨x, p', g1, ⟨v, rfl, hv⟩, g2⟩ := run_of_yields hr hs ht hcs h2
  exact ⟨v, p', g1, hv, g2⟩

/-- A name is a counter style: predefined if it is one of hdx's names, and a custom one otherwise. -/
theorem C98_names_partial {p : Parser} (hr : Ready p) (hs : p.skip = KindSet.TRIVIA) {cs : List Cursor} (ht : Stream p.lexer cs) {c : Cursor} {rest : List Cursor}
    (hcs : solid cs = c :: rest) (hi : IsKind .ident c) (hc : Clear p.lexer.source c) :
    ∃ p', (∃ cs', Stream p'.lexer cs' ∧ solid cs' = rest) ∧
      ((∃ s ∈ PREDEFINED_COUNTERS, Named p.lexer.source c s) → counterStyle.run p = .ok (.ok (.variant 0 (.tok c)), p')) ∧
      ((¬ ∃ s ∈ PREDEFINED_COUNTERS, Named p.lexer.source c s) → counterStyle.run p = .ok (.ok (.variant 1 (.tok c)), p')) := by
  by_cases h : ∃ s ∈ PREDEFINED_COUNTERS, Named p.lexer.source c s
  · have ha : Among p.lexer.source (PREDEFINED_COUNTERS.map .word) c := Among.words.mpr ⟨hi, h⟩
    have h2 : Yields p.lexer.source (c :: rest) counterStyle rest fun x => x = .variant 0 (.tok c) := by
      unfold counterStyle
      refine Yields.peek (Yields.test (Exactly.words.yes hc ha) (Yields.pos rfl (Yields.bind (keyword_yields hc ha) ?_)))
      rintro ⟨_, _⟩ rfl
      exact Yields.pure rfl
    obtain ⟨x, p', g1, rfl, g2⟩ := run_of_yields hr hs ht hcs h2
    exact ⟨p', g2, fun _ => g1, fun hn => absurd h hn⟩
  · have h2 : Yields p.lexer.source (c :: rest) counterStyle rest fun x => x = .variant 1 (.tok c) := by
      unfold counterStyle
      refine Yields.peek (Yields.test (Exactly.words.no hc fun ha => h (Among.words.mp ha).2) (Yields.neg (by decide) (Yields.peek (Yields.pos hi ?_))))
      refine Yields.bind (P := fun v => v = .tok c) ?_ fun v hv => Yields.pure (by rw [hv])
      exact Yields.bind (Yields.tok (P' := fun x => x = c) (Tests.kind.congr hi) rfl) fun x hx => Yields.pure (by rw [hx])
    obtain ⟨x, p', g1, rfl, g2⟩ := run_of_yields hr hs ht hcs h2
    exact ⟨p', g2, fun hn => absurd hn h, fun _ => g1⟩

/-! ### Cases that meet the hypotheses -/

def tokenIn (s : List Char) (i : Nat) : Cursor := (solid ((lexUpTo 60 (Parser.new s).lexer).getD [])).getD i ⟨0, Token.EOF⟩

theorem clearIn {s : List Char} (hu : PlainNames s)
    (hstream : Stream (Parser.new s).lexer ((lexUpTo 60 (Parser.new s).lexer).getD [])) (hready : Ready (Parser.new s)) :
    ∀ c ∈ solid ((lexUpTo 60 (Parser.new s).lexer).getD []), Clear s c := fun c hc => by
  obtain ⟨x, hb⟩ := hready.before
  exact clear_of_stream hstream hb hready.tame hu c (List.mem_filter.mp hc).1

def sampleStripes : List Char := c!"stripes(red 2fr,/*x*/5% #0f0,blue);"

/-- The hypotheses of `C98_stripes_partial` are met. -/
example : let p := Parser.new sampleStripes
    let t := tokenIn sampleStripes
    Ready p ∧ p.skip = KindSet.TRIVIA ∧ ∃ cs, Stream p.lexer cs ∧ solid cs = t 0 :: ([t 1, t 2, t 3, t 4, t 5, t 6, t 7] ++ t 8 :: [t 9]) ∧ IsKind .function (t 0) ∧
      Named sampleStripes (t 0) c!"stripes" ∧ (∀ c ∈ [t 0, t 1, t 2, t 3, t 4, t 5, t 6, t 7], Clear sampleStripes c) ∧ IsStripes sampleStripes (fun _ _ => False) [t 1, t 2, t 3, t 4, t 5, t 6, t 7] ∧
      (∀ c ∈ [t 1, t 2, t 3, t 4, t 5, t 6, t 7], IsKind .function c → ∀ n ∈ imageFunctions, ¬ Called sampleStripes c n) ∧ IsKind .rightParen (t 8) := by
  have hplain : PlainNames sampleStripes := plainNames_of (by unfold Upper; decide) (by decide)
  have hready : Ready (Parser.new sampleStripes) := ready_new (tame_of_ascii (by decide) (by decide))
  have hstream : Stream (Parser.new sampleStripes).lexer ((lexUpTo 60 (Parser.new sampleStripes).lexer).getD []) := lexUpTo_stream 60 (by decide +kernel)
  have hclear := clearIn hplain hstream hready
  have hsolid : solid ((lexUpTo 60 (Parser.new sampleStripes).lexer).getD []) = [tokenIn sampleStripes 0, tokenIn sampleStripes 1, tokenIn sampleStripes 2, tokenIn sampleStripes 3,
    tokenIn sampleStripes 4, tokenIn sampleStripes 5, tokenIn sampleStripes 6, tokenIn sampleStripes 7, tokenIn sampleStripes 8, tokenIn sampleStripes 9] := by decide +kernel
  rw [hsolid] at hclear
  have word : ∀ (c : Cursor) (s : List Char), s ∈ wordsOf namedColors → IsWord sampleStripes (s.map asciiLower) c → opens [c] = 0 → IsClosedColor sampleStripes (fun _ _ => False) [c] :=
    fun c s hs hi ho => ⟨.inr (.one (d := oneOf namedColors) (.tail _ (.head _)) (.one (d := .ident s) (List.mem_map.mpr ⟨s, hs, rfl⟩) (.ident hi))), by rw [ho]; exact Nat.zero_le _⟩
  refine ⟨hready, rfl, _, hstream, hsolid, by decide +kernel, by decide +kernel, fun c hc => hclear c ?_, ?_, ?_, by decide +kernel⟩
  · simp only [List.mem_cons, List.not_mem_nil, or_false] at hc ⊢
    rcases hc with h | h | h | h | h | h | h | h <;> simp [h]
  · refine .more (w := [tokenIn sampleStripes 1, tokenIn sampleStripes 2]) (k := tokenIn sampleStripes 3) (v := [tokenIn sampleStripes 4, tokenIn sampleStripes 5, tokenIn sampleStripes 6, tokenIn sampleStripes 7])
      ⟨[tokenIn sampleStripes 1], some (tokenIn sampleStripes 2), word _ c!"red" (by decide +kernel) ⟨by decide +kernel, .inl (by decide +kernel)⟩ (by decide +kernel), ?_, .inl rfl⟩ (by decide +kernel)
      (.more (w := [tokenIn sampleStripes 4, tokenIn sampleStripes 5]) (k := tokenIn sampleStripes 6) (v := [tokenIn sampleStripes 7])
        ⟨[tokenIn sampleStripes 5], some (tokenIn sampleStripes 4), ⟨.inl ⟨_, rfl, by decide +kernel⟩, by decide +kernel⟩, ?_, .inr rfl⟩ (by decide +kernel)
        (.last ⟨[tokenIn sampleStripes 7], none, word _ c!"blue" (by decide +kernel) ⟨by decide +kernel, .inl (by decide +kernel)⟩ (by decide +kernel), nofun, .inl rfl⟩))
    · rintro _ ⟨⟩
      exact .inl ⟨by decide +kernel, .inr (by decide +kernel)⟩
    · rintro _ ⟨⟩
      exact .inr (.type ⟨_, rfl, .inr ⟨by decide +kernel, .inr (by decide +kernel)⟩, trivial⟩)
  · intro c hc
    simp only [List.mem_cons, List.not_mem_nil, or_false] at hc
    rcases hc with rfl | rfl | rfl | rfl | rfl | rfl | rfl <;> exact fun h => absurd h (by decide +kernel)

def sampleSymbols : List Char := c!"symbols(cyclic \"*\"/**/url(x) \"a\") b"

/-- The hypotheses of `C98_symbols_partial` are met, and so are those of the names. -/
example : let p := Parser.new sampleSymbols
    let t := tokenIn sampleSymbols
    Ready p ∧ p.skip = KindSet.TRIVIA ∧ ∃ cs, Stream p.lexer cs ∧ solid cs = t 0 :: ((some (t 1)).toList ++ ([t 2, t 3, t 4] ++ t 5 :: [t 6])) ∧ IsKind .function (t 0) ∧
      Named sampleSymbols (t 0) c!"symbols" ∧ (∀ c ∈ [t 0, t 1], Clear sampleSymbols c) ∧ IsKind .ident (t 1) ∧ Named sampleSymbols (t 1) c!"cyclic" ∧
      (∀ c ∈ [t 2, t 3, t 4], IsKind .string c ∨ IsKind .url c) ∧ IsKind .rightParen (t 5) := by
  have hplain : PlainNames sampleSymbols := plainNames_of (by unfold Upper; decide) (by decide)
  have hready : Ready (Parser.new sampleSymbols) := ready_new (tame_of_ascii (by decide) (by decide))
  have hstream : Stream (Parser.new sampleSymbols).lexer ((lexUpTo 60 (Parser.new sampleSymbols).lexer).getD []) := lexUpTo_stream 60 (by decide +kernel)
  have hclear := clearIn hplain hstream hready
  have hsolid : solid ((lexUpTo 60 (Parser.new sampleSymbols).lexer).getD []) = tokenIn sampleSymbols 0 :: ((some (tokenIn sampleSymbols 1)).toList ++ ([tokenIn sampleSymbols 2,
    tokenIn sampleSymbols 3, tokenIn sampleSymbols 4] ++ tokenIn sampleSymbols 5 :: [tokenIn sampleSymbols 6])) := by decide +kernel
  rw [hsolid] at hclear
  refine ⟨hready, rfl, _, hstream, hsolid, by decide +kernel, by decide +kernel, fun c hc => hclear c ?_, by decide +kernel, by decide +kernel, ?_, by decide +kernel⟩
  · simp only [List.mem_cons, List.not_mem_nil, or_false] at hc
    rcases hc with h | h <;> simp [h]
  · intro c hc
    simp only [List.mem_cons, List.not_mem_nil, or_false] at hc
    rcases hc with rfl | rfl | rfl
    · exact .inl (by decide +kernel)
    · exact .inr (by decide +kernel)
    · exact .inl (by decide +kernel)

/-! ## Where it differs from the standard -/

/-- Which variant of a counter style a source is. -/
def counterVariant (s : List Char) : Option Nat :=
  match counterStyle.run (Parser.new s) with
  | .ok (.ok (.variant n _), _) => some n
  | _ => none

/-- Styles that are predefined in css-counter-styles-3 and that hdx takes for names of the author's: two are misspelt in its list, two are missing. Two that do not
exist are predefined, and `symbols()` may be empty. -/
theorem C98_counterexample : counterVariant c!"disclosure-open" = some 1 ∧ counterVariant c!"disclosure-closed" = some 1 ∧ counterVariant c!"circle" = some 1 ∧
    counterVariant c!"lower-latin" = some 1 ∧ counterVariant c!"disclousure-open" = some 0 ∧ counterVariant c!"disc" = some 0 ∧ counterVariant c!"symbols()" = some 2 ∧
    counterVariant c!"symbols(5px)" = none := by
  refine ⟨?_, ?_, ?_, ?_, ?_, ?_, ?_, ?_⟩ <;> decide +kernel

end Hdx

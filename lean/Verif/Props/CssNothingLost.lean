/-
Property C77: no token of a style sheet is lost by css_ast's tree.
-/
import Verif.Props.CssSheetRules

namespace Hdx
open Spec Prog

theorem LexedUntil_offsets {l : Lexer} {cs : List Cursor} {off : Nat} (h : LexedUntil l cs off) :
    cs.Pairwise (fun a b => a.offset ≤ b.offset) ∧ ∀ c ∈ cs, l.offset ≤ c.offset := by
  induction h with
  | done => exact ⟨.nil, by simp⟩
  | @step l l1 t cs off ha hk h ih =>
    have : l.offset ≤ l1.offset := by
      unfold Lexer.advance at ha
      split at ha
      · cases ha
      · cases ha; exact Nat.le_add_right _ _
    refine ⟨List.pairwise_cons.mpr ⟨fun c hc => Nat.le_trans this (ih.2 c hc), ih.1⟩, fun c hc => ?_⟩
    rcases List.mem_cons.mp hc with rfl | hc
    · exact Nat.le_refl _
    · exact Nat.le_trans this (ih.2 c hc)

theorem Spec.Dealt.sublist {α : Type} {a b cs : List α} (h : Dealt a b cs) : a.Sublist cs := by
  induction h with
  | nil => exact .slnil
  | left _ ih => exact ih.cons_cons _
  | right _ ih => exact ih.cons _

theorem strip_placed {c : Cursor} (h : placed (strip c) = true) : strip c = c := by
  unfold strip at h ⊢
  split
  · rename_i hb
    rw [if_pos hb] at h
    simp [placed, hb] at h
  · rfl

theorem increasing_strip {cs : List Cursor} (h : cs.Pairwise (fun a b => a.offset ≤ b.offset)) : Increasing (cs.map strip) := by
  unfold Increasing
  rw [List.pairwise_map]
  refine h.imp fun hab pa pb => ?_
  rw [strip_placed pa, strip_placed pb]
  exact hab

theorem nothing_lost {ord : Bool} {τ : Type} {V : Values τ} {good : τ → Bool} {src : List Char} {f : Features} {rules : List (CssRule τ)} {p' : Parser} (hV : KeepsValues ord V good)
    (hs : byteLen src < 65536) (h : (cssStyleSheet V).run (Parser.newWithFeatures src f) = .ok (.ok rules, p')) (hw : WholeAll good rules = true)
    (ho : ord = true → InOrderAll V rules = true) :
    ∃ tokens kept dropped, LexedUntil (Lexer.newWithFeatures src f) tokens p'.offset ∧ Dealt kept p'.trivia tokens
      ∧ (∀ c ∈ dropped, Droppable c) ∧ (kept.map strip).Perm (taken (CssRule.cursorsOf V rules) ++ dropped)
      ∧ (ord = true → (taken (CssRule.cursorsOf V rules)).Sublist (kept.map strip)) := by
  unfold Prog.run at h
  cases hr : (cssStyleSheet V).runLog (Parser.newWithFeatures src f) with
  | error e => rw [hr] at h; cases h
  | ok y =>
    obtain ⟨r, q, w⟩ := y
    rw [hr] at h
    simp only [Except.map, Except.ok.injEq, Prod.mk.injEq] at h
    obtain ⟨rfl, rfl⟩ := h
    obtain ⟨tr, cs, a1, b1, c1⟩ := (Prog.runLog_moved (cssStyleSheet V) (by simp [Parser.newWithFeatures])
      (by rw [byteLen_eq] at hs; exact hs) (by simp [Fits, Parser.newWithFeatures]) hr).tokens
    simp only [Parser.newWithFeatures, List.nil_append] at a1
    have hl : Gives (styleSheetLoop (cssRule V (Parser.newWithFeatures src f).fuel false) (Parser.newWithFeatures src f).fuel [])
      (Parser.newWithFeatures src f) (.ok rules) q w := hr
    obtain ⟨more, e, hm⟩ := (cssStyleSheetLoop_saves (cssRule_saves hV _ false) _ _ (.inr (.inr rfl)) hl).2 _ rfl
    simp only [List.nil_append] at e
    subst e
    obtain ⟨dropped, hd, hp, hx⟩ := hm (wholeInAll_of hw ho)
    have hdl : Dealt (w.filter notEof) q.trivia cs := a1 ▸ c1
    exact ⟨cs, w.filter notEof, dropped, b1, hdl, hd, hp, fun e => hx e (increasing_strip ((LexedUntil_offsets b1).1.sublist hdl.sublist))⟩

/-- For every source shorter than 64 KiB, every feature set and all values of properties that keep what they parse if they are good: when css_ast
parses a style sheet and no rule in it is a `@charset` without a semicolon or has a negated condition or a value that is not good, the tokens of the consumed text are dealt, in order,
between the parser's trivia and a list `kept`; and `kept` is, but for the order and the position of brackets, what the tree writes and some
whitespace, semicolons, `<!--` and `-->`. -/
theorem C77_nothing_lost {τ : Type} {V : Values τ} {good : τ → Bool} {src : List Char} {f : Features} {rules : List (CssRule τ)} {p' : Parser} (hV : KeepsValues false V good)
    (hs : byteLen src < 65536) (h : (cssStyleSheet V).run (Parser.newWithFeatures src f) = .ok (.ok rules, p')) (hw : WholeAll good rules = true) :
    ∃ tokens kept dropped, LexedUntil (Lexer.newWithFeatures src f) tokens p'.offset ∧ Dealt kept p'.trivia tokens
      ∧ (∀ c ∈ dropped, Droppable c) ∧ (kept.map strip).Perm (taken (CssRule.cursorsOf V rules) ++ dropped) := by
  obtain ⟨a, b, c, h1, h2, h3, h4, _⟩ := nothing_lost hV hs h hw (by simp)
  exact ⟨a, b, c, h1, h2, h3, h4⟩

/-- If, moreover, the values keep the order of what they parse, and in every block the declarations come before the rules, then the tree writes
tokens of the text in their order: what it writes is `kept`, in order, without some of its whitespace, semicolons, `<!--` and `-->`. -/
theorem C91_in_order_partial {τ : Type} {V : Values τ} {good : τ → Bool} {src : List Char} {f : Features} {rules : List (CssRule τ)} {p' : Parser} (hV : KeepsValues true V good)
    (hs : byteLen src < 65536) (h : (cssStyleSheet V).run (Parser.newWithFeatures src f) = .ok (.ok rules, p')) (hw : WholeAll good rules = true)
    (ho : InOrderAll V rules = true) :
    ∃ tokens kept dropped, LexedUntil (Lexer.newWithFeatures src f) tokens p'.offset ∧ Dealt kept p'.trivia tokens
      ∧ (∀ c ∈ dropped, Droppable c) ∧ (kept.map strip).Perm (taken (CssRule.cursorsOf V rules) ++ dropped)
      ∧ (taken (CssRule.cursorsOf V rules)).Sublist (kept.map strip) := by
  obtain ⟨a, b, c, h1, h2, h3, h4, h5⟩ := nothing_lost hV hs h hw fun _ => ho
  exact ⟨a, b, c, h1, h2, h3, h4, h5 rfl⟩

/-- Values of properties for the examples: `color` and `margin` each take one ident. -/
def sampleValues : Values Cursor where
  names := [c!"color", c!"margin"]
  parser := fun _ => tok (isKind .ident)
  cursors := fun c => [c]

theorem sampleValues_keeps {ord : Bool} : KeepsValues ord sampleValues fun _ => true where
  skip := fun _ _ p r p' h hp => by
    cases hr : (tok (isKind .ident)).runLog p with
    | error e => unfold Prog.run at h; simp [sampleValues, hr, Except.map] at h
    | ok y =>
      obtain ⟨r', q, w⟩ := y
      unfold Prog.run at h; simp [sampleValues, hr, Except.map] at h
      obtain ⟨rfl, rfl⟩ := h
      exact ((Exact.kind (k := .ident)) hp hr).1.1
  modes := fun _ _ p r p' h hp => by
    cases hr : (tok (isKind .ident)).runLog p with
    | error e => unfold Prog.run at h; simp [sampleValues, hr, Except.map] at h
    | ok y =>
      obtain ⟨r', q, w⟩ := y
      unfold Prog.run at h; simp [sampleValues, hr, Except.map] at h
      obtain ⟨rfl, rfl⟩ := h
      exact ((Exact.kind (k := .ident)) hp hr).1.2
  kept := fun _ _ p v p' w h hp _ => .of_eq ((Exact.kind (k := .ident) hp h).2 v rfl)

/-- The kinds of the cursors the tree of a style sheet writes, and whether the style sheet is `WholeAll`. -/
def cssWrites (src : List Char) : Except Panic (Option (Bool × List Kind)) :=
  ((cssStyleSheet sampleValues).run (Parser.new src)).map fun r =>
    r.1.toOption.map fun rs => (WholeAll (fun _ => true) rs, (CssRule.cursorsOf sampleValues rs).map (·.token.kind))

/-- The hypotheses are met. -/
example : (KeepsValues false sampleValues fun _ => true) ∧ byteLen c!"a>b{color:red;c{x:1}}@media (grid){a{margin:auto}}" < 65536
    ∧ cssWrites c!"a>b{color:red;c{x:1}}@media (grid){a{margin:auto}}" = .ok (some (true, [.ident, .delim, .ident, .leftCurly, .ident, .colon, .ident, .semicolon, .ident, .leftCurly, .ident, .colon, .number, .rightCurly, .rightCurly, .atKeyword, .leftParen, .ident, .rightParen, .leftCurly, .ident, .leftCurly, .ident, .colon, .ident, .rightCurly, .rightCurly])) := ⟨sampleValues_keeps, by decide, by decide +kernel⟩

/-- Without a semicolon, the token after a `@charset` is lost: the `a` of `@charset "x" a{}`, which then has a rule with no selector at all. -/
theorem C77_charset_counterexample : cssWrites c!"@charset \"x\" a{}" = .ok (some (false, [.atKeyword, .whitespace, .string, .leftCurly, .rightCurly])) := by decide +kernel

/-- The feature before a `not` is lost: of `@media (grid) not (grid){}` only `@media not (grid){}` is written. -/
theorem C77_not_counterexample : cssWrites c!"@media (grid) not (grid){}"
    = .ok (some (false, [.atKeyword, .ident, .leftParen, .ident, .rightParen, .leftCurly, .rightCurly])) := by
  decide +kernel

end Hdx

/-
Property C40: conditions that combine features with `and`, `or` and `not`.
-/
import Verif.Props.Features

namespace Hdx
open Spec Prog

namespace Spec

/-- The cursor is none of the words `and`, `or`, `not`. -/
def NoConditionWord (src : List Char) (c : Cursor) : Prop :=
  c.token.kind ≠ .ident ∨ ∃ s, Word src c s ∧ s ≠ c!"and" ∧ s ≠ c!"or" ∧ s ≠ c!"not"

/-- A parser for features that never start with one of these words, for example those in parentheses. -/
def Bracketed {φ : Type} (feature : Prog φ) : Prop :=
  ∀ p c s, p.peekNext = .ok c → Word p.lexer.source c s → ∀ f p', feature.run p ≠ .ok (.ok f, p')

/-- The features of a condition. -/
def operands {φ : Type} : Condition φ → List φ
  | .is f => [f]
  | .not _ f => [f]
  | .and fs => fs.map (·.1)
  | .or fs => fs.map (·.1)

end Spec

theorem gives_of_run {α : Type} {x : Prog α} {p p' : Parser} {r : Except Diag α} (h : x.run p = .ok (r, p')) : ∃ w, Gives x p r p' w := by
  unfold Prog.run at h
  cases hr : x.runLog p with
  | error e => rw [hr] at h; cases h
  | ok y =>
    obtain ⟨r', q, w⟩ := y
    rw [hr] at h
    simp only [Except.map, Except.ok.injEq, Prod.mk.injEq] at h
    obtain ⟨rfl, rfl⟩ := h
    exact ⟨w, hr⟩

theorem gives_then {α β : Type} {x : Prog α} {f : α → Prog β} {p p1 q : Parser} {a : α} {r : Except Diag β} {w w1 w2 : List Cursor}
    (h1 : Gives x p (.ok a) p1 w1) (h2 : Gives (f a) p1 r q w2) (e : w = w1 ++ w2) : Gives (x >>= f) p r q w := e ▸ gives_seq h1 h2

theorem noConditionWord_iff {src : List Char} {c : Cursor} :
    NoConditionWord src c ↔ c.token.kind ≠ .ident ∨ ∃ s, Word src c s ∧ s ∉ CONDITION_KEYWORDS := by
  unfold NoConditionWord CONDITION_KEYWORDS
  constructor
  · rintro (h | ⟨s, h, h1, h2, h3⟩)
    · exact .inl h
    · exact .inr ⟨s, h, by simp [h1, h2, h3]⟩
  · rintro (h | ⟨s, h, h1⟩)
    · exact .inl h
    · simp only [List.mem_cons, List.not_mem_nil, or_false, not_or] at h1
      exact .inr ⟨s, h, h1.1, h1.2.2, h1.2.1⟩

theorem word_det {src : List Char} {c : Cursor} {s t : List Char} (h : Word src c s) (h' : Word src c t) : s = t := by
  have := h.2; rw [h'.2] at this; cases this; rfl

/-- The test for a word, in the negative. -/
theorem noWord_gives {p : Parser} {c : Cursor} (h : NoConditionWord p.lexer.source c) : Gives (isKeyword CONDITION_KEYWORDS c) p (.ok false) p [] := by
  refine gives_isKeyword.mpr ⟨rfl, rfl, ?_⟩
  rcases noConditionWord_iff.mp h with h | ⟨s, hw, hm⟩
  · exact .inl ⟨h, rfl⟩
  · refine .inr ⟨s, hw, ?_⟩
    have : CONDITION_KEYWORDS.contains s = false := by simpa using hm
    rw [this]

theorem word_gives {p : Parser} {c : Cursor} {s : List Char} (h : Word p.lexer.source c s) (hm : s ∈ CONDITION_KEYWORDS) :
    Gives (isKeyword CONDITION_KEYWORDS c) p (.ok true) p [] := by
  refine gives_isKeyword.mpr ⟨rfl, rfl, .inr ⟨s, h, ?_⟩⟩
  have : CONDITION_KEYWORDS.contains s = true := by simpa using hm
  rw [this]

/-- What the test for a word says. -/
theorem isKeyword_step {p p' : Parser} {c : Cursor} {b : Bool} {w : List Cursor} (h : Gives (isKeyword CONDITION_KEYWORDS c) p (.ok b) p' w) :
    p' = p ∧ w = [] ∧ ((b = true ∧ ∃ s, Word p.lexer.source c s ∧ s ∈ CONDITION_KEYWORDS) ∨ (b = false ∧ NoConditionWord p.lexer.source c)) := by
  obtain ⟨e1, e2, h⟩ := gives_isKeyword.mp h
  refine ⟨e1, e2, ?_⟩
  rcases h with ⟨hk, e⟩ | ⟨s, hw, e⟩
  · cases e; exact .inr ⟨rfl, .inl hk⟩
  · simp only [Except.ok.injEq] at e
    by_cases hm : s ∈ CONDITION_KEYWORDS
    · exact .inl ⟨by rw [e]; simpa using hm, s, hw, hm⟩
    · exact .inr ⟨by rw [e]; simpa using hm, noConditionWord_iff.mpr (.inr ⟨s, hw, hm⟩)⟩

section
variable {φ : Type} {feature : Prog φ}

/-- What the loop makes once it succeeds, for features that do not start with a word: one more feature, and no `and` follows. -/
theorem conditionLoop_step (hb : Bracketed feature) {n : Nat} {features fs : List (φ × Option Cursor)} {f : φ} {kw : Cursor} {p p' : Parser} {w : List Cursor}
    (h : Gives (conditionLoop feature n features f kw) p (.ok fs) p' w) :
    ∃ g, fs = features ++ [(f, some kw)] ++ [(g, none)] ∧ Gives feature p (.ok g) p' w ∧ ∃ c, p'.peekNext = .ok c ∧ ¬ Word p'.lexer.source c c!"and" := by
  cases n with
  | zero => exact absurd h gives_panic
  | succ n =>
    unfold conditionLoop at h
    obtain ⟨g, p1, w1, w2, rfl, h1, h2⟩ := step h
    obtain ⟨c, hc, h3⟩ := step_peek h2
    obtain ⟨b, p2, w3, w4, rfl, h4, h5⟩ := step h3
    obtain ⟨rfl, rfl, ⟨rfl, s, hw, hm⟩ | ⟨rfl, hn⟩⟩ := isKeyword_step h4
    · simp only [if_true] at h5
      obtain ⟨⟨v, k⟩, p3, w5, w6, rfl, h6, h7⟩ := step h5
      obtain ⟨rfl, rfl, s', hs', _, e⟩ := gives_buildKeyword.mp h6
      cases e
      have hv : v = s := word_det ⟨hw.1, hs'⟩ hw
      subst hv
      simp only at h7
      rcases gives_ite.mp h7 with ⟨_, h7⟩ | ⟨he, h7⟩
      · exfalso
        cases n with
        | zero => exact absurd h7 gives_panic
        | succ n =>
          unfold conditionLoop at h7
          obtain ⟨g', p4, w7, w8, rfl, h8, _⟩ := step h7
          exact hb _ _ _ hc hw _ _ (run_of_gives h8)
      · obtain ⟨e, rfl, rfl⟩ := gives_pure.mp h7
        cases e
        refine ⟨g, rfl, by simpa using h1, c, hc, fun hw' => he ?_⟩
        rw [word_det hw hw']; rfl
    · simp only [Bool.false_eq_true, if_false] at h5
      obtain ⟨e, rfl, rfl⟩ := gives_pure.mp h5
      cases e
      refine ⟨g, rfl, by simpa using h1, c, hc, fun hw => ?_⟩
      rcases hn with hk | ⟨s, hw', h1, _⟩
      · exact hk hw.1
      · exact h1 (word_det hw' hw)

/-- The loop, when no `and` follows the second feature. -/
theorem conditionLoop_ok {n : Nat} {features : List (φ × Option Cursor)} {f g : φ} {kw c : Cursor} {p p' : Parser} {w : List Cursor}
    (hf : Gives feature p (.ok g) p' w) (hc : p'.peekNext = .ok c)
    (hn : NoConditionWord p'.lexer.source c ∨ Word p'.lexer.source c c!"or" ∨ Word p'.lexer.source c c!"not") :
    Gives (conditionLoop feature (n + 1) features f kw) p (.ok (features ++ [(f, some kw)] ++ [(g, none)])) p' w := by
  unfold conditionLoop
  have key : ∀ s, Word p'.lexer.source c s → s ∈ CONDITION_KEYWORDS → s ≠ c!"and" →
      Gives (conditionLoop feature (n + 1) features f kw) p (.ok (features ++ [(f, some kw)] ++ [(g, none)])) p' w := by
    intro s hw hm hne
    unfold conditionLoop
    refine gives_then hf (gives_of_peek hc (gives_then (word_gives hw hm) (w2 := []) ?_ rfl)) (by simp)
    rw [if_pos rfl]
    refine gives_then (gives_buildKeyword.mpr ⟨rfl, rfl, s, hw.2, by simpa using hm, rfl⟩) (w2 := []) ?_ rfl
    simp only
    rw [if_neg (by simpa using hne)]
    exact gives_pure.mpr ⟨rfl, rfl, rfl⟩
  rcases hn with hn | hn | hn
  · refine gives_then hf (gives_of_peek hc (gives_then (noWord_gives hn) (w2 := []) ?_ rfl)) (by simp)
    simp only [Bool.false_eq_true, if_false]
    exact gives_pure.mpr ⟨rfl, rfl, rfl⟩
  · have := key _ hn (by decide) (by decide); unfold conditionLoop at this; exact this
  · have := key _ hn (by decide) (by decide); unfold conditionLoop at this; exact this

/-- All conditions there are, for features that do not start with a word: one feature; or two with `and` or `or` between them; or, after a feature that is
not in the result, `not` and a feature. -/
theorem condition_step (hb : Bracketed feature) {n : Nat} {cond : Condition φ} {p p' : Parser} {w : List Cursor} (h : Gives (condition feature n) p (.ok cond) p' w) :
    (∃ c, p.peekNext = .ok c ∧ NoConditionWord p.lexer.source c) ∧ ∃ f p1 w1, Gives feature p (.ok f) p1 w1 ∧ ∃ c, p1.peekNext = .ok c ∧
      ((cond = .is f ∧ p' = p1 ∧ w = w1 ∧ NoConditionWord p1.lexer.source c)
        ∨ ∃ p2 g w2, p1.next = .ok (c, p2) ∧ Gives feature p2 (.ok g) p' w2 ∧ w = w1 ++ c :: w2 ∧
          ((Word p1.lexer.source c c!"and" ∧ cond = .and [(f, some c), (g, none)] ∧ ∃ d, p'.peekNext = .ok d ∧ ¬ Word p'.lexer.source d c!"and")
            ∨ (Word p1.lexer.source c c!"or" ∧ cond = .or [(f, some c), (g, none)] ∧ ∃ d, p'.peekNext = .ok d ∧ ¬ Word p'.lexer.source d c!"and")
            ∨ (Word p1.lexer.source c c!"not" ∧ cond = .not c g))) := by
  unfold condition at h
  obtain ⟨c, hc, h1⟩ := step_peek h
  obtain ⟨b, p1, w1, w2, rfl, h2, h3⟩ := step h1
  obtain ⟨rfl, rfl, ⟨rfl, s, hw, hm⟩ | ⟨rfl, hn⟩⟩ := isKeyword_step h2
  · exfalso
    simp only [if_true] at h3
    obtain ⟨⟨v, k⟩, p2, w3, w4, rfl, h4, h5⟩ := step h3
    obtain ⟨rfl, rfl, _⟩ := gives_buildKeyword.mp h4
    simp only at h5
    rcases gives_ite.mp h5 with ⟨_, h5⟩ | ⟨_, h5⟩
    · obtain ⟨f, p3, w5, w6, rfl, h6, _⟩ := step h5
      exact hb _ _ _ hc hw _ _ (run_of_gives h6)
    · exact not_fail h5
  · simp only [Bool.false_eq_true, if_false] at h3
    refine ⟨⟨c, hc, hn⟩, ?_⟩
    obtain ⟨f, p2, w3, w4, rfl, h4, h5⟩ := step h3
    obtain ⟨o, p3, w5, w6, rfl, h6, h7⟩ := step h5
    obtain ⟨d, hd, ⟨s, rfl, hx, rfl, hw, hm⟩ | ⟨rfl, rfl, rfl, hno⟩⟩ := gives_ifKeyword.mp h6
    · refine ⟨f, p2, w3, h4, d, hd, .inr ?_⟩
      simp only at h7
      rcases gives_ite.mp h7 with ⟨he, h8⟩ | ⟨he, h8⟩
      · obtain ⟨fs, p4, w7, w8, rfl, h9, h10⟩ := step h8
        obtain ⟨e, rfl, rfl⟩ := gives_pure.mp h10
        cases e
        obtain ⟨g, rfl, hg, hlast⟩ := conditionLoop_step hb h9
        have : s = c!"and" := by simpa using he
        subst this
        exact ⟨p3, g, w7, hx, hg, by simp, .inl ⟨hw, rfl, hlast⟩⟩
      · rcases gives_ite.mp h8 with ⟨he2, h9⟩ | ⟨he2, h9⟩
        · obtain ⟨fs, p4, w7, w8, rfl, h10, h11⟩ := step h9
          obtain ⟨e, rfl, rfl⟩ := gives_pure.mp h11
          cases e
          obtain ⟨g, rfl, hg, hlast⟩ := conditionLoop_step hb h10
          have : s = c!"or" := by simpa using he2
          subst this
          exact ⟨p3, g, w7, hx, hg, by simp, .inr (.inl ⟨hw, rfl, hlast⟩)⟩
        · obtain ⟨g, p4, w7, w8, rfl, h10, h11⟩ := step h9
          obtain ⟨e, rfl, rfl⟩ := gives_pure.mp h11
          cases e
          have : s = c!"not" := by
            simp only [CONDITION_KEYWORDS, List.mem_cons, List.not_mem_nil, or_false] at hm
            rcases hm with rfl | rfl | rfl
            · exact absurd rfl he
            · rfl
            · exact absurd rfl he2
          subst this
          exact ⟨p3, g, w7, hx, h10, by simp, .inr (.inr ⟨hw, rfl⟩)⟩
    · simp only at h7
      obtain ⟨e, rfl, rfl⟩ := gives_pure.mp h7
      cases e
      exact ⟨f, _, w3, h4, d, hd, .inl ⟨rfl, rfl, by simp, noConditionWord_iff.mpr hno⟩⟩

/-! ### What works -/

/-- A single feature, with no word before or after it, is a condition. -/
theorem C40_single_partial {p p1 : Parser} {c d : Cursor} {f : φ} {n : Nat} (hc : p.peekNext = .ok c) (hn : NoConditionWord p.lexer.source c)
    (hf : feature.run p = .ok (.ok f, p1)) (hd : p1.peekNext = .ok d) (hn1 : NoConditionWord p1.lexer.source d) :
    (condition feature n).run p = .ok (.ok (.is f), p1) := by
  obtain ⟨w, hg⟩ := gives_of_run hf
  refine run_of_gives (w := w) ?_
  unfold condition
  refine gives_of_peek hc (gives_then (noWord_gives hn) (w2 := w) ?_ rfl)
  simp only [Bool.false_eq_true, if_false]
  refine gives_then hg (gives_then (gives_ifKeyword.mpr ⟨d, hd, .inr ⟨rfl, rfl, rfl, noConditionWord_iff.mp hn1⟩⟩) (w2 := []) ?_ rfl) (by simp)
  exact gives_pure.mpr ⟨rfl, rfl, rfl⟩

theorem word_source {x : Prog φ} {p p' : Parser} {r : Except Diag φ} {w : List Cursor} (h : Gives x p r p' w) : p'.lexer.source = p.lexer.source :=
  (runLog_source x h).1

/-- Two features with `and` between them, not followed by another `and`, are the condition of both. -/
theorem C40_and_partial {p p1 p2 p3 : Parser} {c kw d : Cursor} {f g : φ} {n : Nat} (hc : p.peekNext = .ok c) (hn : NoConditionWord p.lexer.source c)
    (hf : feature.run p = .ok (.ok f, p1)) (hkw : p1.next = .ok (kw, p2)) (hand : Word p1.lexer.source kw c!"and")
    (hg : feature.run p2 = .ok (.ok g, p3)) (hd : p3.peekNext = .ok d)
    (hn1 : NoConditionWord p3.lexer.source d ∨ Word p3.lexer.source d c!"or" ∨ Word p3.lexer.source d c!"not") :
    (condition feature (n + 1)).run p = .ok (.ok (.and [(f, some kw), (g, none)]), p3) := by
  obtain ⟨w1, h1⟩ := gives_of_run hf
  obtain ⟨w2, h2⟩ := gives_of_run hg
  refine run_of_gives (w := w1 ++ kw :: w2) ?_
  unfold condition
  refine gives_of_peek hc (gives_then (noWord_gives hn) (w2 := w1 ++ kw :: w2) ?_ rfl)
  simp only [Bool.false_eq_true, if_false]
  refine gives_then h1 (gives_then (w2 := w2) (gives_ifKeyword.mpr ⟨kw, peek_of_next hkw, .inl ⟨_, rfl, hkw, rfl, hand, by decide⟩⟩) ?_ rfl) (by simp)
  simp only
  rw [if_pos (by rfl)]
  exact gives_then (conditionLoop_ok h2 hd hn1) (w2 := []) (gives_pure.mpr ⟨rfl, rfl, rfl⟩) (by simp)

/-- Two features with `or` between them, not followed by `and`, are the condition of either. -/
theorem C40_or_partial {p p1 p2 p3 : Parser} {c kw d : Cursor} {f g : φ} {n : Nat} (hc : p.peekNext = .ok c) (hn : NoConditionWord p.lexer.source c)
    (hf : feature.run p = .ok (.ok f, p1)) (hkw : p1.next = .ok (kw, p2)) (hor : Word p1.lexer.source kw c!"or")
    (hg : feature.run p2 = .ok (.ok g, p3)) (hd : p3.peekNext = .ok d)
    (hn1 : NoConditionWord p3.lexer.source d ∨ Word p3.lexer.source d c!"or" ∨ Word p3.lexer.source d c!"not") :
    (condition feature (n + 1)).run p = .ok (.ok (.or [(f, some kw), (g, none)]), p3) := by
  obtain ⟨w1, h1⟩ := gives_of_run hf
  obtain ⟨w2, h2⟩ := gives_of_run hg
  refine run_of_gives (w := w1 ++ kw :: w2) ?_
  unfold condition
  refine gives_of_peek hc (gives_then (noWord_gives hn) (w2 := w1 ++ kw :: w2) ?_ rfl)
  simp only [Bool.false_eq_true, if_false]
  refine gives_then h1 (gives_then (w2 := w2) (gives_ifKeyword.mpr ⟨kw, peek_of_next hkw, .inl ⟨_, rfl, hkw, rfl, hor, by decide⟩⟩) ?_ rfl) (by simp)
  simp only
  rw [if_neg (by decide), if_pos (by rfl)]
  exact gives_then (conditionLoop_ok h2 hd hn1) (w2 := []) (gives_pure.mpr ⟨rfl, rfl, rfl⟩) (by simp)

/-- Conditions without `not` are written back as they were read. -/
theorem condition_writes {cur : φ → List Cursor} (hb : Bracketed feature) (hw : Writes feature cur) {n : Nat} {p p' : Parser} {cond : Condition φ} {w : List Cursor}
    (h : Gives (condition feature n) p (.ok cond) p' w) (hn : ∀ k f, cond ≠ .not k f) : w = cond.cursors cur := by
  obtain ⟨_, f, p1, w1, h1, c, _, ⟨rfl, rfl, rfl, _⟩ | ⟨p2, g, w2, _, h2, rfl, ⟨_, rfl, _⟩ | ⟨_, rfl, _⟩ | ⟨_, rfl⟩⟩⟩ := condition_step hb h
  · exact hw h1
  · simp [Condition.cursors, chainCursors, hw h1, hw h2]
  · simp [Condition.cursors, chainCursors, hw h1, hw h2]
  · exact absurd rfl (hn _ _)

/-- A condition that is not a negation is written back as the tokens it was read from, whatever the features are, if each of them is and none starts with a
word. Missing from the full C40: negations, which lose a feature (`C40_dropped_counterexample`). -/
theorem C40_written_partial {cur : φ → List Cursor} (hb : Bracketed feature) (hw : Writes feature cur) {n : Nat} {src : List Char} {fs : Features} {cond : Condition φ}
    {p' : Parser} (hs : byteLen src < 65536) (h : (condition feature n).run (Parser.newWithFeatures src fs) = .ok (.ok cond, p'))
    (hn : ∀ k f, cond ≠ .not k f) : WrittenBack src fs p' (cond.cursors cur) := by
  obtain ⟨w, hg⟩ := gives_of_run h
  have e := condition_writes hb hw hg hn
  obtain ⟨tr, cs, a1, b1, c1⟩ := (Prog.runLog_moved (condition feature n) (by simp [Parser.newWithFeatures])
    (by rw [byteLen_eq] at hs; exact hs) (by simp [Fits, Parser.newWithFeatures]) hg).tokens
  simp only [Parser.newWithFeatures, List.nil_append] at a1
  rw [← e]
  exact ⟨cs, b1, a1 ▸ c1⟩

/-! ### What does not -/

/-- No condition has more than two features, however long the source is. -/
theorem C40_length_counterexample (hb : Bracketed feature) {n : Nat} {p p' : Parser} {cond : Condition φ} (h : (condition feature n).run p = .ok (.ok cond, p')) :
    (operands cond).length ≤ 2 := by
  obtain ⟨w, hg⟩ := gives_of_run h
  obtain ⟨_, f, p1, w1, h1, c, _, ⟨rfl, _⟩ | ⟨p2, g, w2, _, h2, rfl, ⟨_, rfl, _⟩ | ⟨_, rfl, _⟩ | ⟨_, rfl⟩⟩⟩ := condition_step hb hg <;> simp [operands]

/-- A condition that starts with `not` is always an error. -/
theorem C40_not_counterexample (hb : Bracketed feature) {n : Nat} {p p' : Parser} {c : Cursor} {r : Except Diag (Condition φ)} (hc : p.peekNext = .ok c)
    (hw : Word p.lexer.source c c!"not") (h : (condition feature n).run p = .ok (r, p')) : ∃ d, r = .error d := by
  cases r with
  | error d => exact ⟨d, rfl⟩
  | ok cond =>
    exfalso
    obtain ⟨w, hg⟩ := gives_of_run h
    obtain ⟨⟨c', hc', hn⟩, _⟩ := condition_step hb hg
    rw [hc] at hc'
    cases hc'
    rcases hn with hk | ⟨s, hs, _, _, h3⟩
    · exact hk hw.1
    · exact h3 (word_det hs hw)

/-- Two features with `and` between them and another `and` after them are always an error, whatever follows. -/
theorem C40_chain_counterexample (hb : Bracketed feature) {n : Nat} {p p1 p2 p3 p' : Parser} {kw kw' : Cursor} {f g : φ} {op : List Char} {r : Except Diag (Condition φ)}
    (hf : feature.run p = .ok (.ok f, p1)) (hkw : p1.next = .ok (kw, p2)) (hop : Word p1.lexer.source kw op) (ho : op = c!"and" ∨ op = c!"or")
    (hg : feature.run p2 = .ok (.ok g, p3)) (hkw' : p3.peekNext = .ok kw') (hand : Word p3.lexer.source kw' c!"and")
    (h : (condition feature n).run p = .ok (r, p')) : ∃ d, r = .error d := by
  cases r with
  | error d => exact ⟨d, rfl⟩
  | ok cond =>
    exfalso
    obtain ⟨w, hw⟩ := gives_of_run h
    obtain ⟨_, f', p1', w1, h1, c, hc, hrest⟩ := condition_step hb hw
    have e1 := run_of_gives h1
    rw [hf] at e1
    cases e1
    rw [peek_of_next hkw] at hc
    cases hc
    have hm : op ∈ CONDITION_KEYWORDS := by rcases ho with rfl | rfl <;> decide
    rcases hrest with ⟨_, _, _, hn⟩ | ⟨p2', g', w2, hx, h2, _, hlast⟩
    · rcases noConditionWord_iff.mp hn with hk | ⟨s, hs, hs'⟩
      · exact hk hop.1
      · rw [word_det hs hop] at hs'; exact hs' hm
    · rw [hkw] at hx
      cases hx
      have e2 := run_of_gives h2
      rw [hg] at e2
      cases e2
      rcases hlast with ⟨_, _, d, hd, hno⟩ | ⟨_, _, d, hd, hno⟩ | ⟨hw', _⟩
      · rw [hkw'] at hd; cases hd; exact hno hand
      · rw [hkw'] at hd; cases hd; exact hno hand
      · rw [word_det hop hw'] at ho; rcases ho with ho | ho <;> exact absurd ho (by decide)

/-- After `f or g`, a second `or` and all that follows is left unread. -/
theorem C40_or_counterexample {p p1 p2 p3 : Parser} {c kw kw' : Cursor} {f g : φ} {n : Nat} (hc : p.peekNext = .ok c) (hn : NoConditionWord p.lexer.source c)
    (hf : feature.run p = .ok (.ok f, p1)) (hkw : p1.next = .ok (kw, p2)) (hor : Word p1.lexer.source kw c!"or")
    (hg : feature.run p2 = .ok (.ok g, p3)) (hd : p3.peekNext = .ok kw') (hor' : Word p3.lexer.source kw' c!"or") :
    (condition feature (n + 1)).run p = .ok (.ok (.or [(f, some kw), (g, none)]), p3) :=
  C40_or_partial hc hn hf hkw hor hg hd (.inr (.inl hor'))

/-- `f not g` is read as `not g`: the first feature is lost. -/
theorem C40_dropped_counterexample {p p1 p2 p3 : Parser} {c kw : Cursor} {f g : φ} {n : Nat} (hc : p.peekNext = .ok c) (hn : NoConditionWord p.lexer.source c)
    (hf : feature.run p = .ok (.ok f, p1)) (hkw : p1.next = .ok (kw, p2)) (hnot : Word p1.lexer.source kw c!"not")
    (hg : feature.run p2 = .ok (.ok g, p3)) : (condition feature n).run p = .ok (.ok (.not kw g), p3) := by
  obtain ⟨w1, h1⟩ := gives_of_run hf
  obtain ⟨w2, h2⟩ := gives_of_run hg
  refine run_of_gives (w := w1 ++ kw :: w2) ?_
  unfold condition
  refine gives_of_peek hc (gives_then (noWord_gives hn) (w2 := w1 ++ kw :: w2) ?_ rfl)
  simp only [Bool.false_eq_true, if_false]
  refine gives_then h1 (gives_then (w2 := w2) (gives_ifKeyword.mpr ⟨kw, peek_of_next hkw, .inl ⟨_, rfl, hkw, rfl, hnot, by decide⟩⟩) ?_ rfl) (by simp)
  simp only
  rw [if_neg (by decide), if_neg (by decide)]
  exact gives_then h2 (w2 := []) (gives_pure.mpr ⟨rfl, rfl, rfl⟩) (by simp)

end

/-! ### Features in parentheses -/

/-- A feature that starts with a bracket. -/
theorem bracketed_of_leftParen {φ : Type} {k : Cursor → Prog φ} : Bracketed (tok (isKind .leftParen) >>= k) := by
  intro p c s hc hw f p' h
  obtain ⟨w, hg⟩ := gives_of_run h
  obtain ⟨d, p1, w2, rfl, hn, hk, _⟩ := step_isKind hg
  rw [peek_of_next hn] at hc
  cases hc
  have := (isKind_iff (show Kind.leftParen ≠ .eof by decide)).mp hk
  rw [hw.1] at this
  cases this

theorem bracketed_discrete {ν : Type} {name : List Char} {value : Prog ν} : Bracketed (discreteFeature name value) := bracketed_of_leftParen
theorem bracketed_ranged {ν : Type} {names : List (List Char)} {legacy : List Char → Bool} {value : Prog ν} : Bracketed (rangedFeature names legacy value) :=
  bracketed_of_leftParen

/-- What a source is read as: the kind of condition, the number of features and the rest of the source. -/
def conditionOf (src : List Char) : Except Panic (Except DiagCode (String × List Nat × Nat)) :=
  ((condition (booleanFeature c!"grid") 100).run (Parser.new src)).map fun r => match r.1 with
    | .ok cond => .ok (match cond with
      | .is _ => "is"
      | .not _ _ => "not"
      | .and _ => "and"
      | .or _ => "or", (cond.cursors (Feature.cursors fun c => [c])).map (fun c => c.offset), r.2.offset)
    | .error d => .error d.code

/-- The theorems above, with concrete sources (`grid` is a boolean feature). -/
theorem C40_counterexample :
    conditionOf c!"(grid) and (grid) and (grid)" = .ok (.error .unexpected)
    ∧ conditionOf c!"(grid) or (grid) or (grid)" = .ok (.ok ("or", [0, 1, 5, 7, 10, 11, 15], 16))
    ∧ conditionOf c!"not (grid)" = .ok (.error .unexpected)
    ∧ conditionOf c!"(grid) not (grid)" = .ok (.ok ("not", [7, 11, 12, 16], 17)) := by
  refine ⟨?_, ?_, ?_, ?_⟩ <;> decide +kernel

/-- The hypotheses of the other theorems are met: a single feature, two with `and`, two with `or`. -/
example : conditionOf c!"(grid:1)" = .ok (.ok ("is", [0, 1, 5, 6, 7], 8))
    ∧ conditionOf c!"(grid) AND (grid)" = .ok (.ok ("and", [0, 1, 5, 7, 11, 12, 16], 17))
    ∧ conditionOf c!"(grid) or/**/ (grid)," = .ok (.ok ("or", [0, 1, 5, 7, 14, 15, 19], 20)) := by
  refine ⟨?_, ?_, ?_⟩ <;> decide +kernel

end Hdx

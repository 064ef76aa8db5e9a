/-
Property C81: the form of the value of a declaration.
-/
import Verif.Spec.ValueForms
import Verif.Lemmas.ValueModes
import Verif.Props.CssValueSound
import Verif.Props.RuleLabels

namespace Hdx
open Spec Prog

variable {src : List Char} {τ : Type} {V : Values τ}

theorem gives_same {α : Type} {x : Prog α} {p p1 p2 : Parser} {r1 r2 : Except Diag α} {w1 w2 : List Cursor} (h1 : Gives x p r1 p1 w1) (h2 : Gives x p r2 p2 w2) :
    r1 = r2 ∧ p1 = p2 ∧ w1 = w2 := by
  unfold Gives at h1 h2
  rw [h1] at h2
  simpa using h2

theorem named_same {c : Cursor} {s t : List Char} (h1 : Named src c s) (h2 : Named src c t) : s = t := by
  unfold Named at h1 h2
  rw [h1] at h2
  exact Except.ok.inj h2

/-- A test whether an ident is one of these words. -/
theorem keyword_iff {names : List (List Char)} {c : Cursor} {p p' : Parser} {b : Bool} {w : List Cursor} (h : Gives (isKeyword names c) p (.ok b) p' w) :
    b = true ↔ ∃ k, KeywordLabel p.lexer.source names (k, c) := by
  obtain ⟨h1, h2⟩ := Says.isKeyword (src := p.lexer.source) c rfl h
  constructor
  · intro hb
    obtain ⟨hk, s, hs, hm⟩ := h1 hb
    exact ⟨s, hk, hs, hm⟩
  · rintro ⟨k, hk, hs, hm⟩
    cases b with
    | true => rfl
    | false =>
      obtain ⟨s, hs', hn⟩ := h2 rfl hk
      exact absurd (named_same hs hs' ▸ hm) hn

theorem computed_iff {c : Cursor} {p p' : Parser} {b : Bool} {w : List Cursor} (h : Gives (isComputed c) p (.ok b) p' w) :
    b = true ↔ Computes p.lexer.source c := by
  unfold isComputed isFunctionOf at h
  have e : COMPUTED = computing := rfl
  rw [e] at h
  rcases gives_ite.mp h with ⟨hk, h⟩ | ⟨hk, h⟩
  · obtain ⟨s, p1, w1, w2, h1, h2, rfl⟩ := gives_bind_ok.mp h
    obtain ⟨s', hs, e, rfl, rfl⟩ := gives_strLower.mp h1
    cases e
    have := (gives_pure.mp h2).1
    cases this
    constructor
    · intro hb
      exact ⟨hk, s, by simpa using hb, hs⟩
    · rintro ⟨_, k, hm, hk⟩
      rw [named_same hs hk]
      simpa using hm
  · have := (gives_pure.mp h).1
    cases this
    exact ⟨fun h => by simp at h, fun h => absurd h.1 hk⟩

theorem valueEnds_iff {p p' : Parser} {b : Bool} {w : List Cursor} (h : Gives valueEnds p (.ok b) p' w) : p' = p ∧ w = [] ∧ (b = true ↔ MayEnd p) := by
  refine ⟨(valueEnds_says h).1, (valueEnds_says h).2.1, ?_⟩
  unfold valueEnds at h
  obtain ⟨e, p1, w1, w2, h1, h2, rfl⟩ := gives_bind_ok.mp h
  obtain ⟨he, rfl, rfl⟩ := gives_atEnd.mp h1
  cases he
  by_cases ha : p1.atEnd = true
  · rw [if_pos ha] at h2
    have := (gives_pure.mp h2).1
    cases this
    exact ⟨fun _ => .inl ha, fun _ => rfl⟩
  · rw [if_neg ha] at h2
    obtain ⟨c2, p3, w3, w4, h3, h4, rfl⟩ := gives_bind_ok.mp h2
    obtain ⟨c3, hn, e, rfl, rfl⟩ := gives_peekN.mp h3
    cases e
    obtain ⟨q, hq⟩ := next_of_peekN1 hn
    have hall : ∀ n < 32, KindSet.RIGHT_CURLY_OR_SEMICOLON.containsBits n = ((n == Kind.rightCurly.bits) || (n == Kind.semicolon.bits)) := by decide
    have hset : c2.token.inSet KindSet.RIGHT_CURLY_OR_SEMICOLON = true ↔ IsKind .rightCurly c2 ∨ IsKind .semicolon c2 := by
      unfold Token.inSet
      rw [hall _ (kindBits_lt _), Bool.or_eq_true]
      exact Iff.rfl
    have hend : MayEnd p3 ↔ IsKind .rightCurly c2 ∨ IsKind .semicolon c2 ∨ IsDelim '!' c2 := by
      constructor
      · rintro (h | h)
        · exact absurd h ha
        · exact h c2 q hq
      · intro h
        refine .inr fun c q' hc => ?_
        rw [hq] at hc
        cases hc
        exact h
    rw [hend]
    by_cases hs : c2.token.inSet KindSet.RIGHT_CURLY_OR_SEMICOLON = true
    · rw [if_pos hs] at h4
      have := (gives_pure.mp h4).1
      cases this
      refine ⟨fun _ => ?_, fun _ => rfl⟩
      rcases hset.mp hs with h | h
      · exact .inl h
      · exact .inr (.inl h)
    · rw [if_neg hs] at h4
      obtain ⟨c4, p4, w5, w6, h5, h6, rfl⟩ := gives_bind_ok.mp h4
      obtain ⟨c5, hc, e, rfl, rfl⟩ := gives_peek.mp h5
      cases e
      rw [peek_of_next hq] at hc
      cases hc
      have := (gives_pure.mp h6).1
      cases this
      rw [hset] at hs
      simp only [not_or] at hs
      simp [IsDelim, hs.1, hs.2]

theorem peekComputed {p p' : Parser} {b : StyleValue τ ⊕ Bool} {w : List Cursor} (h : Gives (do
      let c ← peek
      let computed ← isComputed c
      pure (.inr computed : StyleValue τ ⊕ Bool)) p (.ok b) p' w) :
    ∃ c q, p.next = .ok (c, q) ∧ ∃ y, b = .inr y ∧ (y = true ↔ Computes p.lexer.source c) := by
  obtain ⟨c, p1, w1, w2, h1, h2, rfl⟩ := gives_bind_ok.mp h
  obtain ⟨c', hc, e, rfl, rfl⟩ := gives_peek.mp h1
  cases e
  obtain ⟨y, p2, w3, w4, h3, h4, rfl⟩ := gives_bind_ok.mp h2
  have := (gives_pure.mp h4).1
  cases this
  rw [Parser.C32_peek_next] at hc
  cases hn : p1.next with
  | error e => rw [hn] at hc; cases hc
  | ok x =>
    rw [hn] at hc
    cases hc
    exact ⟨x.1, x.2, rfl, y, rfl, computed_iff h3⟩

/-- The part between the checkpoint and the rewind. -/
theorem typedValue_form {name c0 : Cursor} {p p1 q0 : Parser} {r : StyleValue τ ⊕ Bool} {w : List Cursor} (h0 : p.next = .ok (c0, q0))
    (h : Gives (typedValue V name) p (.ok r) p1 w) : match r with
      | .inl v => ∃ n x, v = .typed n x ∧ HasValue V name p n x p1
      | .inr y => (∀ n x q, ¬ HasValue V name p n x q) ∧ (y = true → Computes p.lexer.source c0 ∨ ComputesLater V name p) ∧
        (y = false → ¬ ComputesLater V name p) := by
  unfold typedValue at h
  obtain ⟨b, p2, w1, w2, h1, h2, rfl⟩ := gives_bind_ok.mp h
  have hk := keyword_iff h1
  obtain ⟨rfl, rfl⟩ := Inspects.keyword h1
  by_cases hb : b = true
  · rw [if_pos hb] at h2
    obtain ⟨⟨n, c⟩, p3, w3, w4, h3, h4, rfl⟩ := gives_bind_ok.mp h2
    obtain ⟨_, hn, hm⟩ := Says.buildKeyword (src := p2.lexer.source) rfl h3
    obtain ⟨rfl, rfl, _⟩ := gives_buildKeyword.mp h3
    obtain ⟨k, hki, _, _⟩ := hk.mp hb
    obtain ⟨o, p4, w5, w6, h5, h6, rfl⟩ := gives_bind_ok.mp h4
    obtain ⟨r1, h7, e⟩ := gives_result.mp h5
    cases e
    have hr := run_of_runLog h7
    have hsrc := (runLog_source _ h7).1
    have later : ∀ {c : Cursor} {q : Parser}, p4.next = .ok (c, q) → (Computes p3.lexer.source c ↔ ComputesLater V name p3) := by
      intro c q hc
      constructor
      · intro h
        exact ⟨n, hm, hki, hn, _, _, c, q, hr, hc, h⟩
      · rintro ⟨n', _, _, hn', r', p5, c', q', hr', hc', h⟩
        cases named_same hn hn'
        rw [hr] at hr'
        cases hr'
        rw [hc] at hc'
        cases hc'
        exact h
    have after : ∀ {r : StyleValue τ ⊕ Bool} {w}, (∀ n' x q, ¬ HasValue V name p3 n' x q) → Gives (do
        let c ← peek
        let computed ← isComputed c
        pure (.inr computed : StyleValue τ ⊕ Bool)) p4 (.ok r) p1 w → ∃ y, r = .inr y ∧ (∀ n' x q, ¬ HasValue V name p3 n' x q) ∧
          (y = true → Computes p3.lexer.source c0 ∨ ComputesLater V name p3) ∧ (y = false → ¬ ComputesLater V name p3) := by
      intro r w hno hg
      obtain ⟨c, q, hc, y, rfl, hy⟩ := peekComputed hg
      rw [hsrc, later hc] at hy
      exact ⟨y, rfl, hno, fun h => .inr (hy.mp h), fun h h' => by rw [hy.mpr h'] at h; cases h⟩
    cases o with
    | error d =>
      obtain ⟨y, rfl, hres⟩ := after (by
        rintro n' x q ⟨_, _, hn', hr', _⟩
        cases named_same hn hn'
        rw [hr] at hr'
        cases hr') h6
      exact hres
    | ok x =>
      obtain ⟨e, p5, w7, w8, h8, h9, rfl⟩ := gives_bind_ok.mp h6
      obtain ⟨rfl, rfl, he⟩ := valueEnds_iff h8
      by_cases hv : e = true
      · rw [if_pos hv] at h9
        obtain ⟨e1, e2, e3⟩ := gives_pure.mp h9
        cases e1
        subst e2 e3
        exact ⟨n, x, rfl, hm, hki, hn, hr, he.mp hv⟩
      · rw [if_neg hv] at h9
        obtain ⟨y, rfl, hres⟩ := after (by
          rintro n' x' q ⟨_, _, hn', hr', hend⟩
          cases named_same hn hn'
          rw [hr] at hr'
          cases hr'
          exact hv (he.mpr hend)) h9
        exact hres
  · rw [if_neg hb] at h2
    obtain ⟨c, q, hc, y, rfl, hy⟩ := peekComputed h2
    rw [h0] at hc
    cases hc
    refine ⟨?_, fun h => .inl (hy.mp h), ?_⟩
    · rintro n x q ⟨hm, hi, hn, _⟩
      exact hb (hk.mpr ⟨n, hi, hn, hm⟩)
    · rintro _ ⟨n, hm, hi, hn, _⟩
      exact hb (hk.mpr ⟨n, hi, hn, hm⟩)


/-- C81, for one value. The form of a value is decided by the name of the declaration, by the next token, and by what the grammar of the property makes of the
source. In particular a value is typed whenever the grammar of the property takes all of it (and it begins with neither a CSS-wide keyword nor `var()` nor a math
function). -/
theorem C81_value {fuel : Nat} {name c : Cursor} {p p' q : Parser} {v : StyleValue τ} (hc : p.next = .ok (c, q))
    (h : (styleValue V fuel name).run p = .ok (.ok v, p')) : FormAt V name p c p' v := by
  obtain ⟨w, h⟩ := gives_of_run h
  have raw : ∀ {k : List ComponentValue → StyleValue τ} {p : Parser} {w : List Cursor}, Gives (rawValue fuel >>= fun vs => pure (k vs)) p (.ok v) p' w → ∃ vs, v = k vs := by
    intro k p w h
    obtain ⟨vs, _, _, _, _, h, _⟩ := gives_bind_ok.mp h
    exact ⟨vs, Except.ok.inj (gives_pure.mp h).1⟩
  unfold styleValue at h
  by_cases hd : name.token.isDashedIdent = true
  · rw [if_pos hd] at h
    obtain ⟨vs, rfl⟩ := raw h
    exact hd
  · rw [if_neg hd] at h
    replace hd : name.token.isDashedIdent = false := by simpa using hd
    obtain ⟨o, p1, w1, w2, h1, h2, rfl⟩ := gives_bind_ok.mp h
    obtain ⟨c', b, p2, w3, w4, hp, ht, hrest, rfl⟩ : ∃ c' b p2 w3 w4, p.peekNext = .ok c' ∧ Gives (isKeyword WIDE_KEYWORDS c') p (.ok b) p2 w3 ∧
        Gives (if b = true then keyword WIDE_KEYWORDS >>= fun a => pure (some a) else pure none) p2 (.ok o) p1 w4 ∧ w1 = w3 ++ w4 := by
      unfold ifPeek at h1
      obtain ⟨c', p3, w5, w6, h3, h4, rfl⟩ := gives_bind_ok.mp h1
      obtain ⟨c'', hc', e, rfl, rfl⟩ := gives_peek.mp h3
      cases e
      obtain ⟨b, p4, w7, w8, h5, h6, rfl⟩ := gives_bind_ok.mp h4
      exact ⟨_, b, p4, w7, w8, hc', h5, h6, by simp⟩
    rw [peek_of_next hc] at hp
    cases hp
    have hk := keyword_iff ht
    obtain ⟨rfl, rfl⟩ := Inspects.keyword ht
    by_cases hb : b = true
    · rw [if_pos hb] at hrest
      obtain ⟨⟨k, t⟩, p3, w5, w6, h3, h4, rfl⟩ := gives_bind_ok.mp hrest
      cases Except.ok.inj (gives_pure.mp h4).1
      cases Except.ok.inj (gives_pure.mp h2).1
      have hs := Says.keyword (src := p2.lexer.source) rfl h3
      have ht : t = c := by
        unfold keyword at h3
        obtain ⟨t', p5, w7, w8, h5, h6, rfl⟩ := gives_bind_ok.mp h3
        obtain ⟨hn, _⟩ := (gives_tok_pure (fun h => Inspects.keyword h)).mp h5
        rw [hc] at hn
        cases hn
        obtain ⟨_, _, e⟩ := gives_buildKeyword.mp h6
        exact (Says.buildKeyword (src := _) rfl h6).1
      subst ht
      exact ⟨hd, hs, rfl⟩
    · rw [if_neg hb] at hrest
      obtain ⟨e1, e2, e3⟩ := gives_pure.mp hrest
      cases e1
      subst e2 e3
      have hw : ∀ k, ¬ IsWide p1.lexer.source k c := fun k h => hb (hk.mpr ⟨k, h⟩)
      dsimp only at h2
      obtain ⟨c', p2, w3, w4, h3, h4, rfl⟩ := gives_bind_ok.mp h2
      obtain ⟨_, hc', e, rfl, rfl⟩ := gives_peek.mp h3
      cases e
      rw [peek_of_next hc] at hc'
      cases hc'
      obtain ⟨b', p5, w5, w6, h5, h6, rfl⟩ := gives_bind_ok.mp h4
      have hcomp := computed_iff h5
      obtain ⟨rfl, rfl⟩ := Inspects.functionOf h5
      by_cases hb' : b' = true
      · rw [if_pos hb'] at h6
        obtain ⟨vs, rfl⟩ := raw h6
        exact ⟨hd, hw, .inl (hcomp.mp hb')⟩
      · rw [if_neg hb'] at h6
        have hnc : ¬ Computes p5.lexer.source c := fun h => hb' (hcomp.mpr h)
        obtain ⟨r1, p6, w7, w8, h7, ⟨hr, rfl, h8⟩ | ⟨hr, rfl, h8⟩⟩ := gives_attempt.mp h6
        · obtain ⟨y, p7, w9, w10, h9, h10, rfl⟩ := gives_bind_ok.mp h8
          obtain ⟨e1, e2, e3⟩ := gives_ofResult.mp h9
          subst e1 e2 e3
          cases y with
          | inr b => cases hr
          | inl v' =>
            obtain ⟨e1, e2, e3⟩ := gives_pure.mp h10
            cases e1
            subst e2 e3
            obtain ⟨n, x, rfl, hres⟩ := typedValue_form hc h7
            exact ⟨hd, hw, hnc, hres⟩
        · obtain ⟨y, p7, w9, w10, h9, h10, rfl⟩ := gives_bind_ok.mp h8
          obtain ⟨e1, e2, e3⟩ := gives_ofResult.mp h9
          subst e1
          have hf := typedValue_form hc h7
          match y with
          | .inl v => cases hr
          | .inr true =>
            obtain ⟨vs, rfl⟩ := raw (k := .computed) h10
            exact ⟨hd, hw, .inr ⟨hf.1, (hf.2.1 rfl).resolve_left hnc⟩⟩
          | .inr false =>
            obtain ⟨vs, rfl⟩ := raw (k := .unknown) h10
            exact ⟨hd, hw, hnc, hf.1, hf.2.2 rfl⟩


/-! ### Whole style sheets -/

/-- The token is neither an ident nor a function. -/
def Plain (c : Cursor) : Prop := ¬ IsKind .ident c ∧ ¬ IsKind .function c

theorem isKind_unique {k j : Kind} {c : Cursor} (h : IsKind k c) (hj : k.bits ≠ j.bits) : ¬ IsKind j c := by
  unfold IsKind Token.isKind at *
  simp only [beq_iff_eq] at *
  omega

theorem pairStart_plain {t : Token} (h : t.inSet PAIR_START = true) {s : Nat} : Plain ⟨s, t⟩ := by
  have hall : ∀ n < 32, PAIR_START.containsBits n = true → n ≠ Kind.ident.bits ∧ n ≠ Kind.function.bits := by decide
  obtain ⟨h1, h2⟩ := hall _ (kindBits_lt t) h
  exact ⟨fun h => h1 (by simpa [IsKind, Token.isKind] using h), fun h => h2 (by simpa [IsKind, Token.isKind] using h)⟩

/-- What a component value begins with: the next token, unless it is a whitespace or an opening bracket. -/
theorem componentValue_lead {n : Nat} {p p' : Parser} {v : ComponentValue} {w : List Cursor} {c : Cursor} (hc : p.peekNext = .ok c)
    (h : Gives (componentValue n) p (.ok v) p' w) : ∀ t ∈ leadOf [v], t = c ∨ Plain t := by
  cases n with
  | zero => exact absurd h gives_panic
  | succ n =>
    have hnext : ∀ {c' q}, p.next = .ok (c', q) → c' = c := fun h => by
      have := peek_of_next h
      rw [hc] at this
      exact (Except.ok.inj this).symm
    unfold componentValue at h
    obtain ⟨c', p1, w1, w2, h1, h2, rfl⟩ := gives_bind_ok.mp h
    obtain ⟨_, hc', e, rfl, rfl⟩ := gives_peek.mp h1
    cases e
    rw [hc] at hc'
    cases hc'
    obtain ⟨b, p2, w3, w4, h3, h4, rfl⟩ := gives_bind_ok.mp h2
    obtain ⟨_, _, _, rfl, rfl⟩ := gives_ask.mp h3
    rcases gives_ite.mp h4 with ⟨_, h4⟩ | ⟨_, h4⟩
    · obtain ⟨c', p5, w5, w6, h5, h6, rfl⟩ := gives_bind_ok.mp h4
      cases Except.ok.inj (gives_pure.mp h6).1
      have := Says.whitespace (src := p2.lexer.source) rfl h5
      intro t ht
      cases ht
      exact .inr ⟨isKind_unique this (by decide), isKind_unique this (by decide)⟩
    rcases gives_ite.mp h4 with ⟨_, h4⟩ | ⟨_, h4⟩
    · have h4 := gives_setState.mp h4
      obtain ⟨r, p5, w5, w6, h5, h6, rfl⟩ := gives_bind_ok.mp h4
      obtain ⟨r1, h7, e⟩ := gives_result.mp h5
      cases e
      have h6 := gives_setState.mp h6
      obtain ⟨e1, e2, e3⟩ := gives_ofResult.mp h6
      subst e1
      unfold simpleBlock at h7
      obtain ⟨start, p6, w7, w8, h8, h9, rfl⟩ := gives_bind_ok.mp h7
      obtain ⟨o, p7, w9, w10, h10, h11, rfl⟩ := gives_bind_ok.mp h9
      obtain ⟨_, hset, _⟩ := (gives_tok_pure (fun {c p r p' w} (h : Gives (inSet PAIR_START c) p r p' w) => (gives_pure.mp h).2)).mp h10
      have ho : o.token.inSet PAIR_START = true := (Except.ok.inj (gives_pure.mp hset).1).symm
      obtain ⟨vs, p8, w11, w12, h12, h13, rfl⟩ := gives_bind_ok.mp (gives_setStop.mp h11)
      obtain ⟨vs', p9, w13, w14, h14, h15, rfl⟩ := gives_bind_ok.mp (gives_setStop.mp h13)
      obtain ⟨c', p10, w15, w16, h16, h17, rfl⟩ := gives_bind_ok.mp h15
      have : ∃ vs close, v = .simpleBlock start o.token vs close := by
        rcases gives_ite.mp h17 with ⟨_, h17⟩ | ⟨_, h17⟩
        · obtain ⟨_, _, _, _, _, h18, _⟩ := gives_bind_ok.mp h17
          exact ⟨_, _, Except.ok.inj (gives_pure.mp h18).1⟩
        · exact ⟨_, _, Except.ok.inj (gives_pure.mp h17).1⟩
      obtain ⟨vs, close, rfl⟩ := this
      intro t ht
      cases ht
      exact .inr (pairStart_plain ho)
    rcases gives_ite.mp h4 with ⟨_, h4⟩ | ⟨_, h4⟩
    · unfold functionBlock at h4
      obtain ⟨name, p5, w5, w6, h5, h6, rfl⟩ := gives_bind_ok.mp h4
      obtain ⟨hn, _, _⟩ := (gives_tok_pure (fun h => Inspects.kind h)).mp h5
      obtain ⟨_, _, _, _, _, h7, _⟩ := gives_bind_ok.mp h6
      obtain ⟨_, _, _, _, _, h8, _⟩ := gives_bind_ok.mp h7
      cases Except.ok.inj (gives_pure.mp h8).1
      intro t ht
      cases ht
      exact .inl (hnext hn)
    rcases gives_ite.mp h4 with ⟨_, h4⟩ | ⟨_, h4⟩
    · obtain ⟨c', p5, w5, w6, h5, h6, rfl⟩ := gives_bind_ok.mp h4
      obtain ⟨hn, _⟩ := (gives_tok_pure (fun {c p r p' w} (h : Gives (inSet CV_TOKENS c) p r p' w) => (gives_pure.mp h).2)).mp h5
      cases Except.ok.inj (gives_pure.mp h6).1
      intro t ht
      cases ht
      exact .inl (hnext hn)
    · obtain ⟨_, _, _, _, _, h5, _⟩ := gives_bind_ok.mp h4
      cases h5

theorem leadOf_append {vs ws : List ComponentValue} (h : vs ≠ []) : leadOf (vs ++ ws) = leadOf vs := by
  cases vs with
  | nil => exact absurd rfl h
  | cons v vs => cases v <;> rfl

theorem componentValuesLoop_keeps {item : Prog ComponentValue} : ∀ n vs, Says src (componentValuesLoop item n vs) fun r => ∃ more, r = vs ++ more := by
  intro n
  induction n with
  | zero => intro vs; exact .panic
  | succ n ih =>
    intro vs
    unfold componentValuesLoop
    refine Says.then_ fun _ => Says.ite (fun _ => .pure ⟨[], by simp⟩) fun _ => Says.then_ fun _ => Says.ite (fun _ => .pure ⟨[], by simp⟩) fun _ => Says.then_ fun _ =>
      Says.ite (fun _ => Says.then_ fun v => (ih _).mono ?_) fun _ => .pure ⟨[], by simp⟩
    rintro r ⟨more, rfl⟩
    exact ⟨v :: more, by simp⟩

theorem rawValue_lead {fuel : Nat} {p p' : Parser} {vs : List ComponentValue} {w : List Cursor} {c : Cursor} (hc : p.peekNext = .ok c)
    (h : Gives (rawValue fuel) p (.ok vs) p' w) : ∀ t ∈ leadOf vs, t = c ∨ Plain t := by
  unfold rawValue at h
  have h := gives_setStop.mp (gives_setState.mp h)
  obtain ⟨r, p5, w5, w6, h5, h6, rfl⟩ := gives_bind_ok.mp h
  obtain ⟨r1, h7, e⟩ := gives_result.mp h5
  cases e
  obtain ⟨e1, e2, e3⟩ := gives_ofResult.mp (gives_setStop.mp (gives_setState.mp h6))
  subst e1
  unfold componentValues at h7
  cases fuel with
  | zero => exact absurd h7 gives_panic
  | succ n =>
    have none : ∀ {p q : Parser} {w}, Gives (pure [] : Prog (List ComponentValue)) p (.ok vs) q w → ∀ t ∈ leadOf vs, t = c ∨ Plain t := by
      intro p q w h
      cases Except.ok.inj (gives_pure.mp h).1
      simp [leadOf]
    unfold componentValuesLoop at h7
    obtain ⟨b, p1, w1, w2, h1, h2, _⟩ := gives_bind_ok.mp h7
    obtain ⟨_, rfl, _⟩ := gives_atEnd.mp h1
    rcases gives_ite.mp h2 with ⟨_, h2⟩ | ⟨_, h2⟩
    · exact none h2
    obtain ⟨b, p2, w3, w4, h3, h4, _⟩ := gives_bind_ok.mp h2
    obtain ⟨_, _, _, rfl, _⟩ := gives_ask.mp h3
    rcases gives_ite.mp h4 with ⟨_, h4⟩ | ⟨_, h4⟩
    · exact none h4
    obtain ⟨c', p3, w7, w8, h8, h9, _⟩ := gives_bind_ok.mp h4
    obtain ⟨_, _, _, rfl, _⟩ := gives_peek.mp h8
    rcases gives_ite.mp h9 with ⟨_, h9⟩ | ⟨_, h9⟩
    · obtain ⟨v, p4, w9, w10, h10, h11, _⟩ := gives_bind_ok.mp h9
      obtain ⟨more, rfl⟩ := componentValuesLoop_keeps (src := p4.lexer.source) _ _ rfl h11
      rw [leadOf_append (by simp)]
      exact componentValue_lead (by exact hc) h10
    · exact none h9

/-- The value parsers of `V` leave the modes of the parser alone. -/
def Spec.CalmValues (V : Values τ) : Prop := ∀ n ∈ V.names, ∀ p r p', (V.parser n).run p = .ok (r, p') → p'.skip = p.skip

theorem realValues_calm : CalmValues realValues := by
  intro n _ p r p' h
  obtain ⟨w, h⟩ := gives_of_run h
  have := realValues_modes n h
  simp only [modes, Prod.mk.injEq] at this
  exact this.1

theorem typedValue_skip (hV : CalmValues V) {name : Cursor} {p p1 : Parser} {r : Except Diag (StyleValue τ ⊕ Bool)} {w : List Cursor}
    (h : Gives (typedValue V name) p r p1 w) : p1.skip = p.skip := by
  have after : ∀ {p1 p2 : Parser} {r : Except Diag (StyleValue τ ⊕ Bool)} {w}, Gives (do
      let c ← peek
      let computed ← isComputed c
      pure (.inr computed : StyleValue τ ⊕ Bool)) p1 r p2 w → p2.skip = p1.skip := by
    intro p1 p2 r w h
    have : KeepsModes (do
      let c ← peek
      let computed ← isComputed c
      pure (.inr computed : StyleValue τ ⊕ Bool)) := .bind peek_modes fun _ => .bind (KeepsModes.test .functionOf _) fun _ => .pure
    exact (Prod.mk.inj (this h)).1
  unfold typedValue at h
  rcases gives_bind.mp h with ⟨b, p2, w1, w2, h1, h2, rfl⟩ | ⟨d, h1, _⟩
  · obtain ⟨rfl, rfl⟩ := Inspects.keyword h1
    rcases gives_ite.mp h2 with ⟨_, h2⟩ | ⟨_, h2⟩
    · rcases gives_bind.mp h2 with ⟨⟨n, c⟩, p3, w3, w4, h3, h4, rfl⟩ | ⟨d, h3, _⟩
      · obtain ⟨_, _, hm⟩ := Says.buildKeyword (src := p2.lexer.source) rfl h3
        obtain ⟨rfl, rfl, _⟩ := gives_buildKeyword.mp h3
        rcases gives_bind.mp h4 with ⟨o, p4, w5, w6, h5, h6, rfl⟩ | ⟨d, h5, _⟩
        · obtain ⟨r1, h7, e⟩ := gives_result.mp h5
          cases e
          have hs := hV n hm _ _ _ (run_of_runLog h7)
          cases o with
          | error d => exact (after h6).trans hs
          | ok x =>
            dsimp only at h6
            have hv : KeepsModes valueEnds := by unfold valueEnds isDelim; keeps
            rcases gives_bind.mp h6 with ⟨e, p5, w7, w8, h8, h9, rfl⟩ | ⟨d, h8, _⟩
            · have he := (Prod.mk.inj (hv h8)).1
              rcases gives_ite.mp h9 with ⟨_, h9⟩ | ⟨_, h9⟩
              · obtain ⟨_, rfl, _⟩ := gives_pure.mp h9
                exact he.trans hs
              · exact (after h9).trans (he.trans hs)
            · exact ((Prod.mk.inj (hv h8)).1).trans hs
        · obtain ⟨r1, h7, e⟩ := gives_result.mp h5
          cases e
      · have := buildKeyword_modes (names := V.names) name h3
        exact (Prod.mk.inj this).1
    · exact after h2
  · have := isKeyword_modes (names := V.names) name h1
    exact (Prod.mk.inj this).1

theorem plain_not {c : Cursor} (h : Plain c) : (∀ k, ¬ IsWide src k c) ∧ ¬ Computes src c := ⟨fun _ hw => h.1 hw.1, fun hc => h.2 hc.1⟩

theorem rewound_peek {α : Type} {x : Prog α} {p p1 : Parser} {r : Except Diag α} {w : List Cursor} (h : Gives x p r p1 w) (hs : p1.skip = p.skip) :
    (p1.rewind p.checkpoint).peekNext = p.peekNext := by
  have := rewind_lexer h
  unfold Parser.peekNext
  rw [this]
  show Parser.peekNextLoop p1.skip _ = _
  rw [hs]

/-- The tokens of a computed or unknown value are read from the place where the value begins. -/
theorem styleValue_raw (hV : CalmValues V) {fuel : Nat} {name : Cursor} {p p' : Parser} {v : StyleValue τ} {vs : List ComponentValue} {w : List Cursor}
    (h : Gives (styleValue V fuel name) p (.ok v) p' w) (hv : v = .computed vs ∨ v = .unknown vs) :
    ∃ q w', q.peekNext = p.peekNext ∧ Gives (rawValue fuel) q (.ok vs) p' w' := by
  have raw : ∀ {k : List ComponentValue → StyleValue τ} {p : Parser} {w : List Cursor}, (∀ us, v = k us → us = vs) →
      Gives (rawValue fuel >>= fun vs => pure (k vs)) p (.ok v) p' w → ∃ w', Gives (rawValue fuel) p (.ok vs) p' w' := by
    intro k p w hk h
    obtain ⟨us, _, _, _, h1, h, _⟩ := gives_bind_ok.mp h
    obtain ⟨e, rfl, _⟩ := gives_pure.mp h
    cases hk us (Except.ok.inj e)
    exact ⟨_, h1⟩
  have kc : ∀ us, v = .computed us → us = vs := by rintro us rfl; rcases hv with e | e <;> cases e; rfl
  have ku : ∀ us, v = .unknown us → us = vs := by rintro us rfl; rcases hv with e | e <;> cases e; rfl
  have kk : ∀ us, v = .custom us → us = vs := by rintro us rfl; rcases hv with e | e <;> cases e
  unfold styleValue at h
  rcases gives_ite.mp h with ⟨_, h⟩ | ⟨_, h⟩
  · obtain ⟨w', h⟩ := raw kk h
    exact ⟨p, w', rfl, h⟩
  · obtain ⟨o, p1, w1, w2, h1, h2, rfl⟩ := gives_bind_ok.mp h
    rcases Reads.ifPeek (src := p.lexer.source) .keyword .keyword rfl h1 with ⟨rfl, rfl⟩ | ⟨⟨k, c⟩, rfl, _⟩
    · have hp1 : p1.peekNext = p.peekNext := by
        unfold ifPeek at h1
        obtain ⟨c', p3, w5, w6, h3, h4, _⟩ := gives_bind_ok.mp h1
        obtain ⟨c'', hc', e, rfl, rfl⟩ := gives_peek.mp h3
        obtain ⟨b, p4, w7, w8, h5, h6, _⟩ := gives_bind_ok.mp h4
        obtain ⟨rfl, rfl⟩ := Inspects.keyword h5
        rcases gives_ite.mp h6 with ⟨_, h6⟩ | ⟨_, h6⟩
        · obtain ⟨_, _, _, _, _, h7, _⟩ := gives_bind_ok.mp h6
          cases (gives_pure.mp h7).1
        · obtain ⟨_, rfl, _⟩ := gives_pure.mp h6
          rfl
      dsimp only at h2
      obtain ⟨c, p2, w3, w4, h3, h4, rfl⟩ := gives_bind_ok.mp h2
      obtain ⟨_, _, _, rfl, rfl⟩ := gives_peek.mp h3
      obtain ⟨b, p5, w5, w6, h5, h6, rfl⟩ := gives_bind_ok.mp h4
      obtain ⟨rfl, rfl⟩ := Inspects.functionOf h5
      rcases gives_ite.mp h6 with ⟨_, h6⟩ | ⟨_, h6⟩
      · obtain ⟨w', h⟩ := raw kc h6
        exact ⟨p5, w', hp1, h⟩
      · obtain ⟨r1, p6, w7, w8, h7, ⟨hr, rfl, h8⟩ | ⟨hr, rfl, h8⟩⟩ := gives_attempt.mp h6
        · obtain ⟨y, p7, w9, w10, h9, h10, rfl⟩ := gives_bind_ok.mp h8
          obtain ⟨e1, e2, e3⟩ := gives_ofResult.mp h9
          subst e1
          subst e2
          cases y with
          | inr b => cases hr
          | inl v' =>
            cases Except.ok.inj (gives_pure.mp h10).1
            have h0 : ∃ c q, p5.next = .ok (c, q) := by
              obtain ⟨c', p8, w11, w12, h11, _, _⟩ := gives_bind_ok.mp h2
              obtain ⟨c'', hc', _, _, _⟩ := gives_peek.mp h11
              rw [Parser.C32_peek_next] at hc'
              cases hn : p5.next with
              | error e => rw [hn] at hc'; cases hc'
              | ok x => exact ⟨x.1, x.2, rfl⟩
            obtain ⟨c0, q0, h0⟩ := h0
            obtain ⟨n, x, rfl, _⟩ := typedValue_form h0 h7
            rcases hv with e | e <;> cases e
        · obtain ⟨y, p7, w9, w10, h9, h10, rfl⟩ := gives_bind_ok.mp h8
          obtain ⟨e1, e2, e3⟩ := gives_ofResult.mp h9
          subst e1
          subst e2
          have hq := (rewound_peek h7 (typedValue_skip hV h7)).trans hp1
          match y with
          | .inl v => cases hr
          | .inr true =>
            obtain ⟨w', h⟩ := raw kc h10
            exact ⟨_, w', hq, h⟩
          | .inr false =>
            obtain ⟨w', h⟩ := raw ku h10
            exact ⟨_, w', hq, h⟩
    · have := Except.ok.inj (gives_pure.mp h2).1
      subst this
      rcases hv with e | e <;> cases e

theorem styleValue_form (hV : CalmValues V) {fuel : Nat} {name colon : Cursor} {i : Option BangImportant} {p p' : Parser} {v : StyleValue τ} {w : List Cursor}
    (h : Gives (styleValue V fuel name) p (.ok v) p' w) : FormOf p.lexer.source V ⟨name, colon, v, i⟩ := by
  by_cases hd : name.token.isDashedIdent = true
  · have hg := h
    unfold styleValue at h
    rw [if_pos hd] at h
    obtain ⟨vs, _, _, _, _, h, _⟩ := gives_bind_ok.mp h
    cases Except.ok.inj (gives_pure.mp h).1
    exact hd
  · have hn : ∃ c q, p.next = .ok (c, q) := by
      unfold styleValue at h
      rw [if_neg hd] at h
      obtain ⟨o, p1, w1, w2, h1, h2, rfl⟩ := gives_bind_ok.mp h
      unfold ifPeek at h1
      obtain ⟨c', p3, w5, w6, h3, h4, _⟩ := gives_bind_ok.mp h1
      obtain ⟨c'', hc', _, _, _⟩ := gives_peek.mp h3
      rw [Parser.C32_peek_next] at hc'
      cases hn : p.next with
      | error e => rw [hn] at hc'; cases hc'
      | ok x => exact ⟨x.1, x.2, rfl⟩
    obtain ⟨c, q, hc⟩ := hn
    have hf := C81_value hc (run_of_runLog h)
    have lead : ∀ {vs}, (v = .computed vs ∨ v = .unknown vs) → ∀ t ∈ leadOf vs, t = c ∨ Plain t := by
      intro vs hv
      obtain ⟨q', w', h1, h2⟩ := styleValue_raw hV h hv
      exact rawValue_lead (h1.trans (peek_of_next hc)) h2
    cases v with
    | custom vs => exact hf
    | wide k c' => exact ⟨hf.1, hf.2.2 ▸ hf.2.1⟩
    | typed n x => exact ⟨hf.1, hf.2.2.2.1, hf.2.2.2.2.1, hf.2.2.2.2.2.1⟩
    | computed vs =>
      refine ⟨hf.1, fun t ht => ?_⟩
      rcases lead (.inl rfl) t ht with rfl | hp
      · exact hf.2.1
      · exact (plain_not hp).1
    | unknown vs =>
      refine ⟨hf.1, fun t ht => ?_⟩
      rcases lead (.inr rfl) t ht with rfl | hp
      · exact ⟨hf.2.1, hf.2.2.1⟩
      · exact plain_not hp

theorem form_each (hV : CalmValues V) {f : Features} : EachDeclaration (Reached src f) V fun d => FormOf src V d := by
  intro valid hv k p hp d p' w hg
  unfold declarationOf at hg
  obtain ⟨name, p1, w1, w2, h1, h2, rfl⟩ := gives_bind_ok.mp hg
  have hp1 := Reached.run hp h1
  obtain ⟨ok, p2, w3, w4, h3, h4, rfl⟩ := gives_bind_ok.mp h2
  obtain ⟨rfl, rfl⟩ := hv h3
  by_cases hok : (!ok) = true
  · rw [if_pos hok] at h4
    exact absurd h4 (fun h => by cases h)
  rw [if_neg hok] at h4
  obtain ⟨colon, p3, w5, w6, h5, h6, rfl⟩ := gives_bind_ok.mp h4
  have hp3 := hp1.run h5
  obtain ⟨v, p4, w7, w8, h7, h8, rfl⟩ := gives_bind_ok.mp h6
  obtain ⟨i, p5, w9, w10, h9, h10, rfl⟩ := gives_bind_ok.mp h8
  cases (gives_pure.mp h10).1
  have := styleValue_form (colon := colon) (i := i) hV h7
  rw [hp3.source] at this
  exact this

/-- C81. Of every declaration in a style sheet, however deep: a custom property has a custom value and no other property has, a wide value is a CSS-wide keyword, the
tokens of an unknown value begin with neither a CSS-wide keyword nor `var()` nor a math function, and the value of a typed one is labelled by the name of the property. -/
theorem C81_style_sheet {f : Features} {rules : List (CssRule τ)} {p' : Parser} (hV : CalmValues V) (hs : utf8Len src < 65536)
    (h : (cssStyleSheet V).run (Parser.newWithFeatures src f) = .ok (.ok rules, p')) : ∀ d ∈ declarationsOf rules, FormOf src V d := by
  obtain ⟨w, hg⟩ := gives_of_run h
  exact cssStyleSheet_each (form_each hV) (.new hs) hg

/-- C81 for the properties of css_ast. -/
theorem C81_css {f : Features} {rules : List (CssRule Val)} {p' : Parser} (hs : utf8Len src < 65536)
    (h : (cssStyleSheet realValues).run (Parser.newWithFeatures src f) = .ok (.ok rules, p')) : ∀ d ∈ declarationsOf rules, FormOf src realValues d :=
  C81_style_sheet realValues_calm hs h

/-! ### Examples -/

/-- The declarations of a style sheet: the text of the name, the form of the value with the number of its component values, and whether it is important. -/
def Spec.formsIn (src : List Char) : Option (List (List Char × List Char × Nat × Bool)) :=
  match (cssStyleSheet realValues).run (Parser.new src) with
  | .ok (.ok rules, _) => some ((declarationsOf rules).map fun d => (typedIn.text src d.name, match d.value with
    | .wide k _ => (k, 0, d.important.isSome)
    | .custom vs => (c!"custom", vs.length, d.important.isSome)
    | .computed vs => (c!"computed", vs.length, d.important.isSome)
    | .unknown vs => (c!"unknown", vs.length, d.important.isSome)
    | .typed n _ => (n, 1, d.important.isSome)))
  | _ => none

/-- All forms, in any case and with comments. -/
example : formsIn c!"a{--a:b;COLOR:/**/ InHerit !important;width:VAR(--x);width:1px!important;width:foo}" = some
    [(c!"--a", c!"custom", 1, false), (c!"COLOR", c!"inherit", 0, true), (c!"width", c!"computed", 1, false), (c!"width", c!"width", 1, true),
      (c!"width", c!"unknown", 1, false)] := by decide +kernel

/-- A selector that is not understood has effects on everything that follows: the parser no longer skips white space, and does not see the keyword. -/
theorem C81_counterexample_leak : formsIn c!"a{color: inherit}" = some [(c!"color", c!"inherit", 0, false)] ∧
    formsIn c!"a: b {} a{color: inherit}" = some [(c!"color", c!"unknown", 2, false)] := ⟨by decide +kernel, by decide +kernel⟩
/-- In CSS a CSS-wide keyword is the whole value: the second declaration is invalid. -/
theorem C81_counterexample_wide : formsIn c!"a{color:inherit red}" = some [(c!"color", c!"inherit", 0, false)] := by decide +kernel
/-- `!important` is not seen behind custom properties, unknown and computed values; it becomes part of them. -/
theorem C81_counterexample_important : formsIn c!"a{--a:b !important;color:var(--x) !important;foo:bar !important;color:red !important}" =
    some [(c!"--a", c!"custom", 4, false), (c!"color", c!"computed", 4, false), (c!"foo", c!"unknown", 4, false), (c!"color", c!"color", 1, true)] := by decide +kernel
/-- `acos()` is a math function, but not to hdx. -/
theorem C81_counterexample_acos : formsIn c!"a{rotate:acos(1);rotate:asin(1)}" = some [(c!"rotate", c!"unknown", 1, false), (c!"rotate", c!"computed", 1, false)] := by decide +kernel
/-- Whether a function in the middle makes a value computed depends on where the grammar of the property stopped. -/
theorem C81_counterexample_later : formsIn c!"a{width:1px var(--x);width:1px 1px var(--x)}" =
    some [(c!"width", c!"computed", 3, false), (c!"width", c!"unknown", 5, false)] := by decide +kernel
/-- A blank at the end of the source makes a value unknown. -/
theorem C81_counterexample_blank : formsIn c!"a{color:red" = some [(c!"color", c!"color", 1, false)] ∧
    formsIn c!"a{color:red " = some [(c!"color", c!"unknown", 1, false)] := ⟨by decide +kernel, by decide +kernel⟩

end Hdx

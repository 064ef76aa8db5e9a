/-
Where the diagnostics of the generic grammar point.
-/
import Verif.Spec.Wasm
import Verif.Props.Rules
import Verif.Model.AtRules

namespace Hdx
open Spec Prog

variable {src : List Char} {f : Features} {α β : Type}

/-- A parser somewhere in the source. -/
structure Somewhere (src : List Char) (f : Features) (p : Parser) : Prop where
  source : p.lexer.source = src
  features : p.lexer.features = f
  short : byteLen src < 65536
  errors : p.errors.length < 256
  fits : Fits p.trivia p.lexer
  reached : ∃ tokens, LexedUntil (Lexer.newWithFeatures src f) tokens p.lexer.offset

theorem Somewhere.moved {p p' : Parser} {w : List Cursor} (h : Somewhere src f p) (hm : Moved p p' w) : Somewhere src f p' := by
  obtain ⟨ts, ht⟩ := h.reached
  obtain ⟨_, cs, _, hc, _⟩ := hm.tokens
  exact ⟨hm.source.trans h.source, hm.features.trans h.features, h.short, by rw [hm.errors]; exact h.errors, hm.fits h.fits,
    ⟨_, ht.append h.source h.features rfl hc⟩⟩

theorem Somewhere.runs {x : Prog α} {p p' : Parser} {r : Except Diag α} {w : List Cursor} (h : Somewhere src f p) (hg : Gives x p r p' w) : Moved p p' w :=
  x.runLog_moved h.errors (by rw [h.source, ← byteLen_eq]; exact h.short) h.fits hg

theorem Somewhere.gives {x : Prog α} {p p' : Parser} {r : Except Diag α} {w : List Cursor} (h : Somewhere src f p) (hg : Gives x p r p' w) : Somewhere src f p' :=
  h.moved (h.runs hg)

theorem Somewhere.rewound {p p' : Parser} {w : List Cursor} (h : Somewhere src f p) (hm : Moved p p' w) :
    p'.rewind p.checkpoint = { p with skip := p'.skip, stop := p'.stop, nested := p'.nested } :=
  hm.rewind h.errors (by have := h.fits.2; have := h.short; rw [h.source, ← byteLen_eq] at *; omega)

theorem Somewhere.modes {p : Parser} (h : Somewhere src f p) (a b : KindSet) (c : Bool) : Somewhere src f { p with skip := a, stop := b, nested := c } :=
  ⟨h.source, h.features, h.short, h.errors, h.fits, h.reached⟩

theorem Somewhere.new (hs : byteLen src < 65536) : Somewhere src f (Parser.newWithFeatures src f) :=
  ⟨rfl, rfl, hs, by simp [Parser.newWithFeatures], by simp [Fits, Parser.newWithFeatures], ⟨[], .done⟩⟩

/-- The next token is one of the source. -/
theorem Somewhere.next {p p' : Parser} {c : Cursor} (h : Somewhere src f p) (hn : p.next = .ok (c, p')) : OfSource src f c := by
  by_cases he : c.token.isKind .eof = true
  · exact .inr (by rw [← h.source]; exact (next_eof_end hn he).2)
  · obtain ⟨ts, ht⟩ := h.reached
    obtain ⟨tr, cs, _, hc, hd⟩ := (Parser.next_moved hn).1.tokens
    refine .inl ⟨_, _, ht.append h.source h.features rfl hc, ?_⟩
    have : c ∈ cs := (dealt_mem hd).mp (.inl (by simp [notEof, he]))
    simp [this]
where
  dealt_mem {a b cs : List Cursor} (h : Dealt a b cs) {x : Cursor} : x ∈ a ∨ x ∈ b ↔ x ∈ cs := by
    induction h with
    | nil => simp
    | left _ ih => simp only [List.mem_cons, ← ih]; grind
    | right _ ih => simp only [List.mem_cons, ← ih]; grind

/-- What may be known of an error and the parser that is left: it points to a token of the source or its end; or it is the error for a curly bracket where
a rule is expected, and the curly bracket is what comes next; or it is the error for a custom property where
a rule is expected, and begins where a token begins. -/
def Blame (src : List Char) (f : Features) (d : Diag) (p : Parser) : Prop :=
  (d.code = .unexpected ∧ ∃ c, OfSource src f c ∧ d.span = c.span)
    ∨ (d.code = .unexpectedCloseCurly ∧ ∃ c, p.peekNext = .ok c ∧ c.token.isKind .rightCurly = true ∧ d.span = c.span)
    ∨ (d.code = .badDeclaration ∧ ∃ tokens, LexedUntil (Lexer.newWithFeatures src f) tokens d.span.start)

theorem Blame.modes {d : Diag} {p : Parser} (h : Blame src f d p) (b : KindSet) (c : Bool) : Blame src f d { p with stop := b, nested := c } := h

/-- Whatever error the program returns on a parser in the source that is not at the end (if `early`) is as `Blame` says. -/
def Blames (src : List Char) (f : Features) (early : Bool) (x : Prog α) : Prop :=
  ∀ ⦃p p' : Parser⦄ ⦃d : Diag⦄ ⦃w : List Cursor⦄, Somewhere src f p → (early = true → p.atEnd = false) → Gives x p (.error d) p' w → Blame src f d p'

namespace Blames

theorem early {x : Prog α} (h : Blames src f false x) : Blames src f true x := fun _ _ _ _ hp _ => h hp nofun

theorem ret {a : α} : Blames src f false (Prog.ret (.ok a)) := fun _ _ _ _ _ _ hg => by cases (gives_ret.mp hg).1
theorem pure {a : α} : Blames src f false (Pure.pure a : Prog α) := ret
theorem panic {e : Panic} : Blames src f false (Prog.panic e : Prog α) := fun _ _ _ _ _ _ hg => absurd hg gives_panic
theorem ask {g : Parser → Except Panic α} : Blames src f false (Prog.ask g) := fun _ _ _ _ _ _ hg => by
  obtain ⟨_, _, e, _⟩ := gives_ask.mp hg; cases e
theorem bind {x : Prog α} {k : α → Prog β} (hx : Blames src f false x) (hk : ∀ a, Blames src f false (k a)) : Blames src f false (x >>= k) := by
  intro p p' d w hp _ hg
  rcases gives_bind.mp hg with ⟨a, p1, w1, w2, h1, h2, _⟩ | ⟨d', h1, e⟩
  · exact hk a (hp.gives h1) nofun h2
  · cases e; exact hx hp nofun h1
theorem bindE {b : Bool} {x : Prog α} {k : α → Prog β} (hx : Blames src f b x) (hk : ∀ a, Blames src f false (k a)) : Blames src f b (x >>= k) := by
  intro p p' d w hp hb hg
  rcases gives_bind.mp hg with ⟨a, p1, w1, w2, h1, h2, _⟩ | ⟨d', h1, e⟩
  · exact hk a (hp.gives h1) nofun h2
  · cases e; exact hx hp hb h1
theorem askBind {b : Bool} {g : Parser → Except Panic α} {k : α → Prog β} (hk : ∀ a, Blames src f b (k a)) : Blames src f b (Prog.ask g >>= k) := by
  intro p p' d w hp hb hg
  rcases gives_bind.mp hg with ⟨a, p1, w1, w2, h1, h2, _⟩ | ⟨d', h1, e⟩
  · obtain ⟨_, _, _, rfl, _⟩ := gives_ask.mp h1
    exact hk a hp hb h2
  · obtain ⟨_, _, e', _⟩ := gives_ask.mp h1; cases e'
theorem peekBind {b : Bool} {k : Cursor → Prog β} (hk : ∀ a, Blames src f b (k a)) : Blames src f b (Prog.peek >>= k) := askBind hk
theorem result {x : Prog α} : Blames src f false (Prog.result x) := fun _ _ _ _ _ _ hg => by
  obtain ⟨_, _, e⟩ := gives_result.mp hg; cases e
theorem ite {c : Prop} [Decidable c] {b : Bool} {x y : Prog α} (hx : Blames src f b x) (hy : Blames src f b y) : Blames src f b (if c then x else y) := by
  split <;> assumption
theorem pureBind {b : Bool} {a : α} {k : α → Prog β} (h : Blames src f b (k a)) : Blames src f b (Pure.pure a >>= k) := h

theorem tok {test : Cursor → Prog Bool} (ht : ∀ c, Blames src f false (test c)) : Blames src f false (Prog.tok test) := by
  unfold Prog.tok
  refine bind ask fun c => bind (ht c) fun ok => ?_
  intro p p' d w hp _ hg
  rcases gives_bind.mp hg with ⟨c', p1, w1, w2, h1, h2, _⟩ | ⟨d', h1, e⟩
  · obtain ⟨c2, hn, e, _⟩ := gives_take.mp h1
    cases e
    split at h2
    · cases (gives_pure.mp h2).1
    · obtain ⟨e, rfl, _⟩ := gives_fail.mp h2
      cases e
      exact .inl ⟨rfl, c', hp.next hn, rfl⟩
  · obtain ⟨_, _, e', _⟩ := gives_take.mp h1
    cases e'

theorem ifPeek {test : Cursor → Prog Bool} {x : Prog α} (ht : ∀ c, Blames src f false (test c)) (hx : Blames src f false x) :
    Blames src f false (Prog.ifPeek test x) := by
  unfold Prog.ifPeek
  exact bind ask fun c => bind (ht c) fun ok => ite (bind hx fun _ => pure) pure

theorem isKind {k : Kind} (c : Cursor) : Blames src f false (Prog.isKind k c) := pure
theorem inSet {k : KindSet} (c : Cursor) : Blames src f false (Prog.inSet k c) := pure
theorem isDelim {k : Char} (c : Cursor) : Blames src f false (Prog.isDelim k c) := pure
theorem isWs (c : Cursor) : Blames src f false (Prog.isWs c) := ask

theorem whitespace : Blames src f false Prog.whitespace := by
  intro p p' d w hp _ hg
  unfold Prog.whitespace at hg
  rw [gives_setSkip] at hg
  obtain ⟨c, p1, w1, hn, h2, _⟩ := gives_next.mp hg
  rw [gives_setSkip] at h2
  have hc := (hp.modes KindSet.COMMENTS p.stop p.nested).next hn
  split at h2
  · cases (gives_pure.mp h2).1
  · obtain ⟨e, rfl, _⟩ := gives_fail.mp h2
    cases e
    exact .inl ⟨rfl, c, hc, rfl⟩

theorem setState {s : Bool} {k : Bool → Prog α} (hk : ∀ o, Blames src f false (k o)) : Blames src f false (Prog.setState s k) := by
  intro p p' d w hp _ hg
  rw [gives_setState] at hg
  exact hk _ (hp.modes p.skip p.stop s) nofun hg

/-- `let r = x; p.set_state(o); r?` -/
theorem resultState {b : Bool} {x : Prog α} {o : Bool} {k : α → Prog β} (hx : Blames src f b x) (hk : ∀ a, Blames src f false (k a)) :
    Blames src f b (Prog.result x >>= fun r => Prog.setState o fun _ => Prog.ofResult r >>= k) := by
  intro p p' d w hp hb hg
  rcases gives_bind.mp hg with ⟨r, p1, w1, w2, h1, h2, _⟩ | ⟨d', h1, e⟩
  · obtain ⟨r1, g1, e⟩ := gives_result.mp h1
    cases e
    rw [gives_setState] at h2
    rcases gives_bind.mp h2 with ⟨a, p2, w3, w4, h3, h4, _⟩ | ⟨d', h3, e⟩
    · obtain ⟨_, rfl, _⟩ := gives_ofResult.mp h3
      exact hk a ((hp.gives g1).modes _ _ _) nofun h4
    · obtain ⟨e', rfl, _⟩ := gives_ofResult.mp h3
      subst e'; cases e
      exact (hx hp hb g1).modes _ _
  · obtain ⟨_, _, e'⟩ := gives_result.mp h1; cases e'
theorem resultState' {b : Bool} {x : Prog α} {o : Bool} (hx : Blames src f b x) :
    Blames src f b (Prog.result x >>= fun r => Prog.setState o fun _ => Prog.ofResult r) := by
  intro p p' d w hp hb hg
  rcases gives_bind.mp hg with ⟨r, p1, w1, w2, h1, h2, _⟩ | ⟨d', h1, e⟩
  · obtain ⟨r1, g1, e⟩ := gives_result.mp h1
    cases e
    rw [gives_setState] at h2
    obtain ⟨e', rfl, _⟩ := gives_ofResult.mp h2
    subst e'
    exact (hx hp hb g1).modes _ _
  · obtain ⟨_, _, e'⟩ := gives_result.mp h1; cases e'
/-- `let o = p.set_stop(s); let r = x; p.set_stop(o); r?` -/
theorem setStop {s : KindSet} {x : Prog α} {k : α → Prog β} (hx : Blames src f false x) (hk : ∀ a, Blames src f false (k a)) :
    Blames src f false (Prog.setStop s fun o => Prog.result x >>= fun r => Prog.setStop o fun _ => Prog.ofResult r >>= k) := by
  intro p p' d w hp _ hg
  rw [gives_setStop] at hg
  have hp' := hp.modes p.skip s p.nested
  rcases gives_bind.mp hg with ⟨r, p1, w1, w2, h1, h2, _⟩ | ⟨d', h1, e⟩
  · obtain ⟨r1, g1, e⟩ := gives_result.mp h1
    cases e
    rw [gives_setStop] at h2
    rcases gives_bind.mp h2 with ⟨a, p2, w3, w4, h3, h4, _⟩ | ⟨d', h3, e⟩
    · obtain ⟨_, rfl, _⟩ := gives_ofResult.mp h3
      exact hk a ((hp'.gives g1).modes _ _ _) nofun h4
    · obtain ⟨e', rfl, _⟩ := gives_ofResult.mp h3
      subst e'; cases e
      exact (hx hp' nofun g1).modes _ _
  · obtain ⟨_, _, e'⟩ := gives_result.mp h1; cases e'

/-! ### Component values and declarations -/

theorem componentValuesLoop {item : Prog ComponentValue} (hi : Blames src f false item) : ∀ n vs, Blames src f false (Hdx.componentValuesLoop item n vs)
  | 0, _ => panic
  | n + 1, vs => by
    unfold Hdx.componentValuesLoop
    exact bind ask fun _ => ite pure (bind ask fun _ => ite pure (bind ask fun _ => ite (bind hi fun v => componentValuesLoop hi n _) pure))
theorem functionLoop {item : Prog ComponentValue} (hi : Blames src f false item) : ∀ n vs, Blames src f false (Hdx.functionLoop item n vs)
  | 0, _ => panic
  | n + 1, vs => by
    unfold Hdx.functionLoop
    exact bind ask fun _ => ite pure (bind ask fun _ => ite pure (bind hi fun v => functionLoop hi n _))

theorem componentValue : ∀ n, Blames src f false (Hdx.componentValue n)
  | 0 => panic
  | n + 1 => by
    have ih := componentValue n
    unfold Hdx.componentValue
    refine bind ask fun c => bind (isWs c) fun b => ite (bind whitespace fun _ => pure) (ite ?_ (ite ?_ (ite (bind (tok inSet) fun _ => pure) ?_)))
    · refine setState fun o => resultState' ?_
      unfold Hdx.simpleBlock
      refine bind ask fun s => bind (tok inSet) fun o => setStop (componentValuesLoop ih _ _) fun vs => bind ask fun c => ite (bind result fun _ => pure) pure
    · unfold Hdx.functionBlock
      exact bind (tok isKind) fun _ => bind (functionLoop ih _ _) fun _ => bind result fun _ => pure
    · intro p p' d w hp _ hg
      rcases gives_bind.mp hg with ⟨c', p1, w1, w2, h1, h2, _⟩ | ⟨d', h1, e⟩
      · obtain ⟨c2, hn, e, _⟩ := gives_take.mp h1
        cases e
        obtain ⟨e, rfl, _⟩ := gives_fail.mp h2
        cases e
        exact .inl ⟨rfl, c', hp.next hn, rfl⟩
      · obtain ⟨_, _, e', _⟩ := gives_take.mp h1
        cases e'
theorem componentValues (n : Nat) : Blames src f false (Hdx.componentValues n) := componentValuesLoop (componentValue n) _ _

theorem badDeclarationLoop {item : Prog ComponentValue} (hi : Blames src f false item) : ∀ n vs, Blames src f false (Hdx.badDeclarationLoop item n vs)
  | 0, _ => panic
  | n + 1, vs => by
    unfold Hdx.badDeclarationLoop
    refine bind ask fun _ => ite pure (bind ask fun c => ite (bind hi fun v => pure) (ite (bind ask fun _ => ite pure (bind (tok isKind) fun _ =>
      bind hi fun v => badDeclarationLoop hi n _)) (bind hi fun v => badDeclarationLoop hi n _)))

/-! ### Rules -/

/-- Nothing fails here. -/
theorem qualifiedLead_ok {p p' : Parser} {r : Except Diag Lead} {w : List Cursor} (hg : Gives qualifiedLead p r p' w) : ∃ l, r = .ok l := by
  unfold qualifiedLead at hg
  rcases gives_bind.mp hg with ⟨c, p1, w1, w2, h1, h2, _⟩ | ⟨d', h1, e⟩
  · split at h2
    · rcases gives_bind.mp h2 with ⟨c, p1, w1, w2, h1, h2, _⟩ | ⟨d', h1, e⟩
      · rcases gives_bind.mp h2 with ⟨c, p1, w1, w2, h1, h2, _⟩ | ⟨d', h1, e⟩
        · split at h2
          · rcases gives_bind.mp h2 with ⟨c, p1, w1, w2, h1, h2, _⟩ | ⟨d', h1, e⟩
            · split at h2
              · exact ⟨_, (gives_pure.mp h2).1⟩
              · exact ⟨_, (gives_pure.mp h2).1⟩
            · cases (gives_nested.mp h1).1
          · exact ⟨_, (gives_pure.mp h2).1⟩
        · obtain ⟨_, _, e, _⟩ := gives_peek.mp h1; cases e
      · obtain ⟨_, _, e⟩ := gives_result.mp h1; cases e
    · exact ⟨_, (gives_pure.mp h2).1⟩
  · obtain ⟨_, _, e, _⟩ := gives_peek.mp h1; cases e

theorem bad_fail {c : Cursor} (hc : ∃ tokens, LexedUntil (Lexer.newWithFeatures src f) tokens c.offset) : Blames src f false (Prog.fail .badDeclaration c : Prog α) := by
  intro p p' d w _ _ hg
  obtain ⟨e, rfl, _⟩ := gives_fail.mp hg
  cases e
  exact .inr (.inr ⟨rfl, hc⟩)

theorem qualifiedRule {γ : Type} {prelude : Prog α} {block : Prog β} {bad : Prog γ} (hp : Blames src f false prelude) (hb : Blames src f false block)
    (hd : Blames src f false bad) : Blames src f true (Hdx.qualifiedRule prelude block bad) := by
  intro p p' d w hk he hg
  unfold Hdx.qualifiedRule at hg
  rcases gives_bind.mp hg with ⟨e, p1, w1, w2, h1, h2, _⟩ | ⟨d', h1, e⟩
  case inr => cases (gives_atEnd.mp h1).1
  obtain ⟨e1, rfl, _⟩ := gives_atEnd.mp h1
  cases e1
  rw [he rfl, if_neg (by decide)] at h2
  rcases gives_bind.mp h2 with ⟨nested, p2, w3, w4, h3, h4, _⟩ | ⟨d', h1, e⟩
  case inr => cases (gives_nested.mp h1).1
  obtain ⟨e2, rfl, _⟩ := gives_nested.mp h3
  cases e2
  rcases gives_bind.mp h4 with ⟨c, p3, w5, w6, h5, h6, _⟩ | ⟨d', h1, e⟩
  case inr => obtain ⟨_, _, e, _⟩ := gives_peek.mp h1; cases e
  obtain ⟨_, hc, e3, rfl, _⟩ := gives_peek.mp h5
  cases e3
  split at h6
  · next hcond =>
    rcases gives_bind.mp h6 with ⟨c', p4, w7, w8, h7, h8, _⟩ | ⟨d', h1, e⟩
    · obtain ⟨_, hc', e4, e6, _⟩ := gives_ask.mp h7
      subst e6
      cases e4
      obtain ⟨e5, e7, _⟩ := gives_fail.mp h8
      subst e7
      cases e5
      have : p'.peekN 1 = .ok c := by
        have h0 := hc
        rw [Parser.C32_peek_next] at h0
        unfold Parser.next at h0
        unfold Parser.peekN
        rw [Parser.peekN_step 0 p'.skip p'.lexer p'.trivia]
        cases hn : Parser.nextLoop p'.skip p'.lexer p'.trivia with
        | error e => rw [hn] at h0; cases h0
        | ok y =>
          obtain ⟨c2, l2, t2⟩ := y
          rw [hn] at h0
          simp only [Except.map, Except.ok.injEq] at h0
          simp [h0]
      rw [this] at hc'
      cases hc'
      simp only [Bool.and_eq_true] at hcond
      exact .inr (.inl ⟨rfl, _, hc, hcond.2, rfl⟩)
    · obtain ⟨_, _, e, _⟩ := gives_ask.mp h1; cases e
  · rcases gives_bind.mp h6 with ⟨cp, p4, w7, w8, h7, h8, _⟩ | ⟨d', h1, e⟩
    case inr => obtain ⟨_, _, e, _⟩ := gives_ask.mp h1; cases e
    obtain ⟨_, ecp, ecp', rfl, _⟩ := gives_ask.mp h7
    cases ecp'
    cases ecp
    have hcp := hk.reached
    obtain ⟨lead, q, w9, w10, h9, h10⟩ := gives_attempt.mp h8
    obtain ⟨l, rfl⟩ := qualifiedLead_ok h9
    have hq : ∃ q', Somewhere src f q' ∧ Gives (Prog.ofResult (.ok l) >>= fun lead => match lead with
        | .dashedColonNested => do
          let _ ← bad
          Prog.fail .badDeclaration p4.checkpoint.cursor
        | .dashedColon => do
          let _ ← Prog.result block
          Prog.fail .badDeclaration p4.checkpoint.cursor
        | _ =>
          Prog.setStop (KindSet.new [.leftCurly]) fun old => do
            let prelude ← Prog.result prelude
            Prog.setStop old fun _ => do
              let prelude ← Prog.ofResult prelude
              let block ← block
              Pure.pure (prelude, block)) q' (.error d) p' w10 := by
      rcases h10 with ⟨_, _, h10⟩ | ⟨_, _, h10⟩
      · exact ⟨_, hk.gives h9, h10⟩
      · refine ⟨_, ?_, h10⟩
        rw [hk.rewound (hk.runs h9)]
        exact hk.modes _ _ _
    obtain ⟨q', hq', hg'⟩ := hq
    refine bind (x := Prog.ofResult (.ok l)) ret (fun l => ?_) hq' nofun hg'
    have hdefault : Blames src f false (Prog.setStop (KindSet.new [.leftCurly]) fun old => do
            let prelude ← Prog.result prelude
            Prog.setStop old fun _ => do
              let prelude ← Prog.ofResult prelude
              let block ← block
              Pure.pure (prelude, block)) := setStop hp fun _ => bind hb fun _ => pure
    cases l
    · exact hdefault
    · exact hdefault
    · exact bind hd fun _ => bad_fail hcp
    · exact bind result fun _ => bad_fail hcp

theorem isDeclaration (c : Cursor) : Blames src f false (Hdx.isDeclaration c) := by
  unfold Hdx.isDeclaration
  exact ite (bind ask fun _ => pure) pure

/-- A declaration that is only tried leaves the parser at the same place if it is not there. -/
theorem try_stays {x : Prog α} {p p' : Parser} {r : Except Diag (Option α)} {w : List Cursor} (hp : Somewhere src f p)
    (hg : Gives (Prog.ifPeek Hdx.isDeclaration (Prog.tryParse x)) p r p' w) (hr : ∀ a, r ≠ .ok (some a)) : p'.atEnd = p.atEnd := by
  unfold Prog.ifPeek at hg
  rcases gives_bind.mp hg with ⟨c, p1, w1, w2, h1, h2, _⟩ | ⟨d', h1, e⟩
  · obtain ⟨_, _, _, rfl, _⟩ := gives_peek.mp h1
    have htest : ∀ {b p2 w3}, Gives (Hdx.isDeclaration c) p1 b p2 w3 → p2 = p1 := by
      intro b p2 w3 h
      unfold Hdx.isDeclaration at h
      split at h
      · rcases gives_bind.mp h with ⟨c, p3, w1, w2, h1, h2, _⟩ | ⟨d', h1, e⟩
        · obtain ⟨_, _, _, e, _⟩ := gives_ask.mp h1
          exact (gives_pure.mp h2).2.1.trans e
        · obtain ⟨_, _, e, _⟩ := gives_ask.mp h1; cases e
      · exact (gives_pure.mp h).2.1
    rcases gives_bind.mp h2 with ⟨b, p2, w3, w4, h3, h4, _⟩ | ⟨d', h1, e⟩
    · cases htest h3
      split at h4
      · rcases gives_bind.mp h4 with ⟨a, p3, w5, w6, h5, h6, _⟩ | ⟨d', h5, e⟩
        · exact absurd (gives_pure.mp h6).1 (hr a)
        · obtain ⟨r1, q, w7, w8, h7, ⟨hk, _, h8⟩ | ⟨hk, _, h8⟩⟩ := gives_attempt.mp h5
          · obtain ⟨e', _, _⟩ := gives_ofResult.mp h8
            subst e'; cases hk
          · obtain ⟨_, e', _⟩ := gives_ofResult.mp h8
            rw [e', hp.rewound (hp.runs h7)]
            rfl
      · rw [(gives_pure.mp h4).2.1]
    · rw [htest h1]
  · obtain ⟨_, _, e, _⟩ := gives_peek.mp h1; cases e

theorem blockLoop {δ ρ : Type} {decl : Prog δ} {rule : Prog ρ} (hr : Blames src f true rule) :
    ∀ n ds rs, Blames src f false (Hdx.blockLoop Hdx.isDeclaration decl rule n ds rs)
  | 0, _, _ => panic
  | n + 1, ds, rs => by
    have ih := blockLoop (decl := decl) hr n
    unfold Hdx.blockLoop
    refine bind (ifPeek isWs whitespace) fun ws => ite (ih _ _) (bind (ifPeek isKind (tok isKind)) fun semi => ite (ih _ _) ?_)
    intro p p' d w hp _ hg
    rcases gives_bind.mp hg with ⟨e, p1, w1, w2, h1, h2, _⟩ | ⟨d', h1, e⟩
    case inr => cases (gives_atEnd.mp h1).1
    obtain ⟨e1, rfl, _⟩ := gives_atEnd.mp h1
    cases e1
    split at h2
    · cases (gives_pure.mp h2).1
    next hend =>
    rcases gives_bind.mp h2 with ⟨c, p2, w3, w4, h3, h4, _⟩ | ⟨d', h1, e⟩
    case inr => obtain ⟨_, _, e, _⟩ := gives_peek.mp h1; cases e
    obtain ⟨_, _, _, rfl, _⟩ := gives_peek.mp h3
    split at h4
    · cases (gives_pure.mp h4).1
    rw [gives_setState] at h4
    have hp' := hp.modes p2.skip p2.stop true
    have hend' : ({ p2 with nested := true } : Parser).atEnd = false := by
      show p2.atEnd = false
      simpa using hend
    generalize ({ p2 with nested := true } : Parser) = q at h4 hp' hend'
    rcases gives_bind.mp h4 with ⟨c, p3, w3, w4, h5, h6, _⟩ | ⟨d', h1, e⟩
    case inr => obtain ⟨_, _, e, _⟩ := gives_peek.mp h1; cases e
    obtain ⟨_, _, _, rfl, _⟩ := gives_peek.mp h5
    split at h6
    · exact resultState hr (fun r => ih _ _) hp' (fun _ => hend') h6
    · rcases gives_bind.mp h6 with ⟨r, p4, w5, w6, h7, h8, _⟩ | ⟨d', h1, e⟩
      case inr => obtain ⟨_, _, e⟩ := gives_result.mp h1; cases e
      obtain ⟨r1, h9, e⟩ := gives_result.mp h7
      cases e
      split at h8
      · rw [gives_setState] at h8
        exact bind (ifPeek isKind (tok isKind)) (fun semi => ih _ _) ((hp'.gives h9).modes _ _ _) nofun h8
      · next hne =>
        refine resultState hr (fun r => ih _ _) (hp'.gives h9) (fun _ => ?_) h8
        rw [try_stays hp' h9 fun a e => hne a e, hend']

theorem blockOf {δ ρ : Type} {decl : Prog δ} {rule : Prog ρ} (hr : Blames src f true rule) (n : Nat) : Blames src f false (Hdx.blockOf Hdx.isDeclaration decl rule n) := by
  unfold Hdx.blockOf
  exact bind (tok isKind) fun _ => bind (blockLoop hr _ _ _) fun _ => bind (ifPeek isKind (tok isKind)) fun _ => pure

theorem block {rule : Prog Rule} (hr : Blames src f true rule) (n : Nat) : Blames src f false (Hdx.block rule n) := by
  unfold Hdx.block
  exact bind ask fun _ => bind (blockOf hr n) fun _ => pure

theorem optionalBlock {rule : Prog Rule} (hr : Blames src f true rule) (n : Nat) : Blames src f false (Hdx.optionalBlock rule n) := by
  unfold Hdx.optionalBlock
  refine bind (ifPeek isKind (block hr n)) fun b => ?_
  cases b with
  | some b => exact pure
  | none => exact bind (ifPeek isKind (tok isKind)) fun _ => pure

theorem genericAtRule {rule : Prog Rule} (hr : Blames src f true rule) (n : Nat) : Blames src f false (Hdx.genericAtRule rule n) := by
  unfold Hdx.genericAtRule
  refine setStop ?_ fun a => bind (ifPeek isKind (tok isKind)) fun _ => ?_
  · unfold Hdx.atRule
    refine bind (tok isKind) fun at' => pureBind ?_
    simp only [Bool.not_true, Bool.false_eq_true, if_false]
    exact bind ask fun c => bind ask fun e => ite (pureBind (bind (optionalBlock hr n) fun _ => pure))
      (bind (componentValues n) fun _ => pureBind (bind (optionalBlock hr n) fun _ => pure))
  · obtain ⟨name, prelude, b⟩ := a
    cases b <;> exact pure

theorem genericQualifiedRule {rule : Prog Rule} (hr : Blames src f true rule) (n : Nat) : Blames src f true (Hdx.genericQualifiedRule rule n) := by
  unfold Hdx.genericQualifiedRule
  exact bindE (qualifiedRule (componentValues n) (block hr n) (badDeclarationLoop (componentValue n) n [])) fun _ => pure

theorem rule : ∀ n, Blames src f true (Hdx.rule n)
  | 0 => panic.early
  | n + 1 => by
    unfold Hdx.rule
    exact peekBind fun c => ite (genericAtRule (rule n) _).early (genericQualifiedRule (rule n) _)

theorem rewinding {x : Prog α} {k : Except Diag α → Prog β} (ha : ∀ a, Blames src f false (k (.ok a))) (hk : ∀ d, Blames src f true (k (.error d))) :
    Blames src f true (Prog.attempt x (fun r => r.toBool) k) := by
  intro p p' d w hp he hg
  obtain ⟨r1, q, w1, w2, h1, ⟨hr, _, h2⟩ | ⟨hr, _, h2⟩⟩ := gives_attempt.mp hg
  · cases r1 with
    | ok a => exact ha a (hp.gives h1) nofun h2
    | error d => cases hr
  · rw [hp.rewound (hp.runs h1)] at h2
    cases r1 with
    | ok a => cases hr
    | error d => exact hk d (hp.modes q.skip q.stop q.nested) (fun h => he h) h2

/-- A rule of a style sheet: whatever the parsers for the known rules say is not reported. -/
theorem cssRule {τ : Type} {V : Values τ} : ∀ n, Blames src f true (Hdx.cssRule V n false)
  | 0 => panic.early
  | n + 1 => by
    unfold Hdx.cssRule
    refine peekBind fun c => ite ?_ ?_
    · unfold Hdx.atCssRule
      have hu : Blames src f true (unknownAtRule (τ := τ) (Hdx.rule n) (n + 1)) := by
        unfold unknownAtRule
        exact (bind (genericAtRule (rule n) _) fun _ => pure).early
      refine askBind fun c => askBind fun s => ?_
      split
      · exact hu
      · exact rewinding (fun _ => pure) fun _ => hu
    · unfold Hdx.qualifiedCssRule
      refine rewinding (fun _ => pure) fun _ => ?_
      show Blames src f true (unknownQualifiedRule (τ := τ) (Hdx.rule n) (n + 1))
      unfold unknownQualifiedRule
      exact bindE (genericQualifiedRule (rule n) _) fun _ => pure

/-- The loop of a style sheet never begins a rule at the end of the source. -/
theorem styleSheetLoop {ρ : Type} {rule : Prog ρ} (hr : Blames src f true rule) : ∀ n rs, Blames src f false (Hdx.styleSheetLoop rule n rs)
  | 0, _ => panic
  | n + 1, rs => by
    have ih := styleSheetLoop hr n
    unfold Hdx.styleSheetLoop
    refine bind (ifPeek isWs whitespace) fun ws => ite (ih _) (bind (ifPeek isKind (tok isKind)) fun semi => ite (ih _) ?_)
    intro p p' d w hp _ hg
    rcases gives_bind.mp hg with ⟨e, p1, w1, w2, h1, h2, _⟩ | ⟨d', h1, e⟩
    case inr => cases (gives_atEnd.mp h1).1
    obtain ⟨e1, rfl, _⟩ := gives_atEnd.mp h1
    cases e1
    split at h2
    · cases (gives_pure.mp h2).1
    next hend =>
    refine peekBind (fun c => ite pure.early (bindE hr fun r => ih _)) hp (fun _ => by simpa using hend) h2

end Blames

end Hdx

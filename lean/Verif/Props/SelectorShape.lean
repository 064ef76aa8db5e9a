/-
C74: the commas of a selector list, C75: whitespace in selectors; and what goes wrong with both.
-/
import Verif.Props.SelectorLabels

namespace Hdx
open Spec Prog

/-! ### C74 -/

/-- A list loop that starts where it has to stop gives what it had. -/
theorem selectorListLoop_done {compound : Prog (List Sel)} {n : Nat} {acc : List (List Sel × Option Cursor)} {p : Parser}
    (h : StopsAt KindSet.LEFT_CURLY_RIGHT_PAREN_OR_SEMICOLON p) : Succ (selectorListLoop compound n acc) p fun a _ _ => a = acc := by
  cases n with
  | zero => exact .panic
  | succ n =>
    unfold selectorListLoop
    refine .bind (.ask fun b hb => .ite (fun _ => .pure rfl) fun he => .bind (.peekN fun c hc => .ite (fun _ => .pure rfl) fun hs => ?_))
    cases hb
    rcases h with h | ⟨c', hc', h⟩
    · exact absurd h he
    · rw [hc] at hc'; cases hc'; exact absurd h hs

theorem selectorListLoop_commas {compound : Prog (List Sel)}
    (hst : ∀ p, Succ compound p fun _ p' _ => StopsAt KindSet.LEFT_CURLY_RIGHT_PAREN_COMMA_OR_SEMICOLON p') : ∀ n acc p, (∀ x ∈ acc, x.2.isSome = true) →
    Succ (selectorListLoop compound n acc) p fun a _ _ => ∀ x ∈ a.dropLast, x.2.isSome = true := by
  intro n
  induction n with
  | zero => intro acc p _; exact .panic
  | succ n ih =>
    intro acc p ha
    have hdrop : ∀ x ∈ acc.dropLast, x.2.isSome = true := fun x hx => ha x (List.dropLast_subset _ hx)
    unfold selectorListLoop
    refine .bind (.ask fun b hb => .ite (fun _ => .pure hdrop) fun _ => .bind (.peekN fun c hc => .ite (fun _ => .pure hdrop) fun _ => .bind ?_))
    intro s p1 w1 g1
    refine Succ.bind (Q := fun (a : List (List Sel × Option Cursor)) _ _ => ∀ x ∈ a.dropLast, x.2.isSome = true) ?_
    intro o p2 w2 g2
    cases o with
    | some cm =>
      refine ih _ _ fun x hx => ?_
      rcases List.mem_append.mp hx with h | h
      · exact ha x h
      · cases List.mem_singleton.mp h; rfl
    | none =>
      obtain ⟨c1, b, p3, w3, w4, q1, q2, _, q3⟩ := gives_ifPeek.mp g2
      obtain ⟨hb, rfl, rfl⟩ := gives_pure.mp q2
      cases hb
      rcases q3 with ⟨_, a1, e, _⟩ | ⟨hf, _, rfl, _⟩
      · cases e
      · have stop : StopsAt KindSet.LEFT_CURLY_RIGHT_PAREN_OR_SEMICOLON p2 := by
          rcases hst _ g1 with h | ⟨c', hc', hin⟩
          · exact .inl h
          · refine .inr ⟨c', hc', ?_⟩
            have : c1 = c' := by
              obtain ⟨_, e1⟩ := next_of_peekN1 hc'
              rw [Parser.C32_peek_next, e1] at q1
              cases q1; rfl
            subst this
            refine Classical.byContradiction fun h3 => ?_
            rw [comma_of_sets hin (Bool.eq_false_iff.mpr h3)] at hf; cases hf
        refine Succ.mono (selectorListLoop_done stop) fun a _ _ e => ?_
        subst e
        rw [List.dropLast_concat]
        exact ha

/-- In a selector list that was parsed there is a comma after every selector but the last. -/
theorem C74_commas_partial {p p' : Parser} {a : List (List Sel × Option Cursor)} (h : selectorList.run p = .ok (.ok a, p')) : ∀ x ∈ a.dropLast, x.2.isSome = true := by
  unfold Prog.run at h
  cases hr : selectorList.runLog p with
  | error e => rw [hr] at h; cases h
  | ok y =>
    obtain ⟨r, q, w⟩ := y
    rw [hr] at h
    simp only [Except.map, Except.ok.injEq, Prod.mk.injEq] at h
    obtain ⟨rfl, rfl⟩ := h
    exact selectorListLoop_commas (compoundSelector_stops _) _ [] p (by simp) hr

/-- How many components each selector of the list has, and whether there is a comma after it. -/
def Spec.outline (a : List (List Sel × Option Cursor)) : List (Nat × Bool) := a.map fun x => (x.1.length, x.2.isSome)

/-- Missing from the full C74: that no selector is empty, and that there is none after the last comma. The parser accepts `,a`, `a,,b`, `a,` and `,`. -/
theorem C74_counterexample : selectorList.value outline ",a" = some [(0, true), (1, false)] ∧ selectorList.value outline "a,,b" = some [(1, true), (0, true), (1, false)]
    ∧ selectorList.value outline "a," = some [(1, true)] ∧ selectorList.value outline "," = some [(0, true)] := by decide +kernel

example : selectorList.value outline "a.b, c > d,e" = some [(2, true), (5, false), (1, false)] ∨ selectorList.value outline "a.b, c > d,e" = some [(2, true), (5, true), (1, false)] := by decide +kernel
/-! ### C75 -/

theorem consumeTriviaLoop_at {skip : KindSet} {l l' : Lexer} {tr tr' : List Cursor} (h : Parser.consumeTriviaLoop skip l tr = .ok (l', tr')) :
    ∀ {t l2}, l'.advance = .ok (t, l2) → t.isKind .eof = true ∨ t.inSet skip = false := by
  fun_induction Parser.consumeTriviaLoop skip l tr with
  | case1 l tr e he => cases h
  | case2 l tr t l1 h1 he =>
    cases h
    intro t2 l2 h2
    have := (advance_eof_again h1 he).2.2.1
    rw [h2] at this; cases this
    exact .inl he
  | case3 l tr t l1 h1 he hs hz => cases h
  | case4 l tr t l1 h1 he hs hz ih => exact ih h
  | case5 l tr t l1 h1 he hs =>
    cases h
    intro t2 l2 h2
    have hk := advance_keeps h1
    have := advance_congr h1 (m := l1.rewind ⟨l.offset, t⟩) hk.1 hk.2.1 rfl
    rw [h2] at this; cases this
    exact .inr (Bool.eq_false_iff.mpr hs)

/-- The parser stands before something that is neither whitespace nor a comment. -/
def AtToken (p : Parser) : Prop := ∀ {t l2}, p.lexer.advance = .ok (t, l2) → t.isKind .eof = true ∨ t.inSet KindSet.TRIVIA = false

theorem AtToken.next {p q : Parser} {c : Cursor} (h : AtToken p) (hs : ∀ t : Token, t.inSet p.skip = true → t.inSet KindSet.TRIVIA = true) (hn : p.next = .ok (c, q)) :
    c.token.isKind .whitespace = false := by
  unfold Parser.next at hn
  rw [Parser.nextLoop.eq_def] at hn
  split at hn
  · cases hn
  · rename_i t l1 h1
    have := h h1
    have ht : (t.isKind .eof || !t.inSet p.skip) = true := by
      rcases this with h2 | h2
      · simp [h2]
      · have : t.inSet p.skip = false := Bool.eq_false_iff.mpr fun h3 => by rw [hs t h3] at h2; cases h2
        simp [this]
    rw [if_pos ht] at hn
    simp only [Except.map, Except.ok.injEq, Prod.mk.injEq] at hn
    obtain ⟨rfl, _⟩ := hn
    refine Bool.eq_false_iff.mpr fun hw => ?_
    have hk : t.isKind .whitespace = true := hw
    rcases this with h2 | h2
    · have := (isKind_iff (by decide)).mp hk
      rw [(advance_eof h1).mp h2] at this; cases this
    · rw [inSet_of_kind (by decide) hk] at h2; exact absurd h2 (by decide)

/-- Not whitespace between two components. -/
def NotDescendant (s : Sel) : Prop := ∀ c, s ≠ .combinator (.descendant c)

theorem combinator_leading {p : Parser} (h : AtToken p) : Succ combinator p fun r _ _ => ∀ c, r ≠ .descendant c := by
  unfold combinator
  refine .bind (.peek fun c _ => .ite (fun _ => ?_) fun _ => .ite (fun _ => ?_) fun _ => .ite (fun _ => ?_) fun _ => .ite (fun _ => ?_) fun _ => ?_)
  · exact .bind fun _ _ _ _ => .pure (by nofun)
  · exact .bind fun _ _ _ _ => .pure (by nofun)
  · exact .bind fun _ _ _ _ => .pure (by nofun)
  · exact .bind fun _ _ _ _ => .pure (by nofun)
  · refine .bind (.looks Inspects.doubleDelim fun b _ => .ite (fun _ => ?_) fun _ => .bind ?_)
    · exact .bind fun _ _ _ _ => .pure (by nofun)
    · intro c p' w hg
      unfold Prog.whitespace at hg
      obtain ⟨c, p1, w1, h1, h2, rfl⟩ := gives_next.mp (gives_setSkip.mp hg)
      have := AtToken.next (p := { p with skip := KindSet.COMMENTS }) h inSet_comments h1
      rcases gives_ite.mp (gives_setSkip.mp h2) with ⟨hk, _⟩ | ⟨_, h⟩
      · rw [this] at hk; cases hk
      · exact absurd h not_fail

section
variable {src : List Char}

theorem functionalPseudoClassValue_not {list : Prog (List (List Sel × Option Cursor))} {n : Nat} {colon function : Cursor} {name : List Char} :
    Says src (functionalPseudoClassValue list n colon name function) NotDescendant := by
  unfold functionalPseudoClassValue
  refine Says.ite (fun _ => ?_) fun _ => Says.ite (fun _ => ?_) fun _ => Says.ite (fun _ => ?_) fun _ => Says.ite (fun _ => ?_) fun _ => ?_
  all_goals exact Says.then_ fun v => Says.then_ fun c => Says.pure (by nofun)

theorem selectorComponent_leading {compound : Prog (List Sel)} {list : Prog (List (List Sel × Option Cursor))} {n : Nat} {p : Parser} (h : AtToken p) :
    Succ (selectorComponent compound list n) p fun s _ _ => NotDescendant s := by
  unfold selectorComponent
  refine Succ.setSkip (Succ.bind (Succ.peekN fun c1 h1 => ?_))
  refine Succ.ite (fun hk => ?_) fun _ => Succ.ite (fun hk => ?_) fun _ => Succ.ite (fun hk => ?_) fun _ => Succ.ite (fun hk => ?_) fun _ => Succ.ite (fun hk => ?_) fun _ => ?_
  · refine Says.then_ (src := p.lexer.source) (Q := NotDescendant) (fun c2 => Says.ite (fun _ => Says.setSkip fun _ => Says.then_ fun n => Says.pure (by nofun)) fun _ =>
      Says.then_ fun c => Says.setSkip fun _ => ?_) rfl
    exact Says.ite (fun hk => Says.then_ fun t => Says.pure (by nofun)) fun _ => Says.then_ fun _ => Says.fail
  · refine Says.then_ (src := p.lexer.source) (Q := NotDescendant) (fun c => Says.setSkip fun _ => ?_) rfl
    exact Says.ite (fun hk => Says.pure (by nofun)) fun _ => Says.then_ fun _ => Says.fail
  · exact Says.setSkip (src := p.lexer.source) (P := NotDescendant) (fun _ => Says.then_ fun a => Says.pure (by nofun)) rfl
  · refine Succ.ite (fun _ => ?_) fun _ => Succ.ite (fun hst => ?_) fun _ => ?_
    · refine Says.then_ (src := p.lexer.source) (Q := NotDescendant) (fun c => Says.setSkip fun _ => Says.ite (fun _ => ?_) fun _ => Says.fail) rfl
      unfold classSelector
      exact Says.then_ fun _ => Says.then_ fun _ => Says.pure (by nofun)
    · refine Says.then_ (src := p.lexer.source) (Q := NotDescendant) (fun c => Says.setSkip fun _ => Says.ite (fun _ => ?_) fun _ => ?_) rfl
      · exact Says.then_ fun _ => Says.pure (by nofun)
      · exact Says.then_ fun _ => Says.pure (by nofun)
    · refine Succ.setSkip (Succ.bind (Succ.mono (combinator_leading (p := p) h) fun r _ _ hr => Succ.pure ?_))
      intro c e; cases e; exact hr c rfl
  · unfold selColon
    refine Says.then_ (src := p.lexer.source) (Q := NotDescendant) (fun c2 => Says.ite (fun _ => ?_) fun _ => Says.ite (fun _ => ?_) fun _ => Says.ite (fun _ => ?_) fun _ => Says.fail) rfl
    · unfold selColonColon
      refine Says.then_ fun c3 => Says.setSkip fun _ => Says.ite (fun _ => Says.then_ fun _ => Says.pure (by nofun)) fun _ => Says.ite (fun _ => ?_) fun _ => Says.fail
      unfold functionalPseudoElement
      refine Says.then_ fun _ => Says.then_ fun _ => Says.then_ fun _ => Says.ite (fun _ => ?_) fun _ => Says.ite (fun _ => ?_) fun _ => Says.ite (fun _ => ?_) fun _ => Says.fail
      all_goals exact Says.then_ fun v => Says.then_ fun c => Says.pure (by nofun)
    · unfold selColonIdent
      exact Says.setSkip fun _ => Says.then_ fun b => Says.ite (fun _ => Says.then_ fun _ => Says.pure (by nofun)) fun _ => Says.then_ fun _ => Says.pure (by nofun)
    · unfold functionalPseudoClass
      exact Says.setSkip fun _ => Says.setSkip fun _ => Says.then_ fun r => Says.then_ fun r2 => Says.setSkip fun _ => Says.then_ fun colon => Says.then_ fun name =>
        functionalPseudoClassValue_not
  · unfold selOther
    refine Succ.bind ?_
    intro r p1 w1 g1
    obtain ⟨r1, g2, e⟩ := gives_result.mp g1
    cases e
    refine Succ.setSkip (Succ.consumeTrivia fun q _ => Succ.setSkip (Succ.bind (Succ.ofResult fun c hc => Succ.pure ?_)))
    subst hc
    have := combinator_leading (p := { p with skip := KindSet.COMMENTS }) h g2
    intro c' e; cases e; exact this c' rfl
end

theorem compoundLoop_head {component : Prog Sel} {P : Sel → Prop} : ∀ n acc p, (∀ s ∈ acc.head?, P s) → (acc = [] → Succ component p fun s _ _ => P s) →
    Succ (compoundLoop component n acc) p fun a _ _ => ∀ s ∈ a.head?, P s := by
  intro n
  induction n with
  | zero => intro acc p _ _; exact .panic
  | succ n ih =>
    intro acc p ha hc
    unfold compoundLoop
    refine .bind (.ask fun b hb => .ite (fun _ => .pure ha) fun _ => .bind (.peekN fun c _ => .ite (fun _ => .pure ha) fun _ => .bind ?_))
    intro s p1 w1 g1
    refine Succ.mono (ih (acc ++ [s]) p1 ?_ (by simp)) fun _ _ _ h => h
    cases acc with
    | nil => rintro _ ⟨⟩; exact hc rfl g1
    | cons x xs => exact ha

/-- A selector does not begin with whitespace: whatever whitespace and comments are before it, its first component is not a descendant combinator. -/
theorem C75_leading_partial {n : Nat} {p p' : Parser} {a : List Sel} (hp : p.skip = KindSet.TRIVIA) (h : (compoundSelector n).run p = .ok (.ok a, p')) :
    ∀ s ∈ a.head?, ∀ c, s ≠ .combinator (.descendant c) := by
  unfold Prog.run at h
  cases hr : (compoundSelector n).runLog p with
  | error e => rw [hr] at h; cases h
  | ok y =>
    obtain ⟨r, q, w⟩ := y
    rw [hr] at h
    simp only [Except.map, Except.ok.injEq, Prod.mk.injEq] at h
    obtain ⟨rfl, rfl⟩ := h
    cases n with
    | zero => exact (Succ.panic (p := p) (Q := fun a _ _ => ∀ s ∈ a.head?, NotDescendant s)) hr
    | succ n =>
      unfold compoundSelector at hr
      refine Succ.consumeTrivia (Q := fun a _ _ => ∀ s ∈ a.head?, NotDescendant s) (fun q hq => compoundLoop_head _ [] q (by simp) fun _ => selectorComponent_leading ?_) hr
      unfold Parser.consumeTrivia at hq
      cases hl : Parser.consumeTriviaLoop p.skip p.lexer p.trivia with
      | error e => rw [hl] at hq; cases hq
      | ok y =>
        rw [hl] at hq
        simp only [Except.map, Except.ok.injEq] at hq
        subst hq
        intro t l2 h2
        have := consumeTriviaLoop_at (l' := y.1) (tr' := y.2) hl h2
        rw [hp] at this; exact this

/-- The components of the selectors of a list, as words. -/
def Spec.words (a : List (List Sel × Option Cursor)) : List (List String) := a.map fun x => x.1.map fun
  | .combinator (.descendant _) => " "
  | .combinator (.child _) => ">"
  | .combinator _ => "combinator"
  | .tag _ _ => "tag"
  | .ns _ => "namespace"
  | _ => "other"

/-- Missing from the full C75: whitespace before the end, around `>` and around a comment is read as a descendant combinator each time. So `a `, `a > b`
and `a /**/ b` are not the selectors `a`, `a>b` and `a b`; and a comment at the end of the source is an error. -/
theorem C75_counterexample : selectorList.value words "a " = some [["tag", " "]] ∧ selectorList.value words "a" = some [["tag"]]
    ∧ selectorList.value words "a > b" = some [["tag", " ", ">", " ", "tag"]] ∧ selectorList.value words "a>b" = some [["tag", ">", "tag"]]
    ∧ selectorList.value words "a /**/ b" = some [["tag", " ", " ", "tag"]] ∧ selectorList.value words "a b" = some [["tag", " ", "tag"]]
    ∧ selectorList.value words "a/**/" = none := by decide +kernel

/-! ### What is rejected or accepted against the grammar -/

/-- An element before the column combinator is taken for a namespace; an empty namespace prefix is rejected, in an element and in an attribute; the closing
parenthesis of `:lang(` and `::part(` may not be left out at the end of the source, that of `:is(` may. -/
theorem C76_counterexample : selectorList.value words "a||b" = none ∧ selectorList.value words ".a||b" = some [["other", "combinator", "tag"]]
    ∧ selectorList.value words "|b" = none ∧ selectorList.value words "*|b" = some [["namespace"]]
    ∧ selectorList.value words "[|a]" = none ∧ selectorList.value words "[*|a]" = some [["other"]]
    ∧ selectorList.value words ":lang(en" = none ∧ selectorList.value words "::part(a" = none ∧ selectorList.value words ":is(a" = some [["other"]] := by decide +kernel

end Hdx

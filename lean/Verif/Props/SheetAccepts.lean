/-
C83: style sheets of the grammar are parsed into their rules.
-/
import Verif.Spec.SheetSyntax
import Verif.Lemmas.GroupWalks

namespace Hdx
open Spec Prog

section
variable {src : List Char}

/-! ### Selectors -/

theorem afterComments_extend {a more : List Cursor} {o : Cursor} (ho : o.token.inSet KindSet.COMMENTS = false) : afterComments (a ++ o :: more) = afterComments (a ++ [o]) := by
  unfold afterComments
  induction a with
  | nil => rw [List.nil_append, List.nil_append, List.dropWhile_cons_of_neg (a := o) (by simp [ho]), List.dropWhile_cons_of_neg (a := o) (by simp [ho])]; rfl
  | cons c a ih =>
    rw [List.cons_append, List.cons_append]
    by_cases h : c.token.inSet KindSet.COMMENTS = true
    · rw [List.dropWhile_cons_of_pos (a := c) h, List.dropWhile_cons_of_pos (a := c) h, ih]
    · rw [List.dropWhile_cons_of_neg (a := c) h, List.dropWhile_cons_of_neg (a := c) h]; rfl

theorem piece_extend {pc : SelPiece} {a more : List Cursor} {o : Cursor} (ho : o.token.inSet KindSet.COMMENTS = false) (h : pc.Fits src (a ++ [o])) : pc.Fits src (a ++ o :: more) := by
  cases pc with
  | tag c => exact ⟨h.1, by rw [afterComments_extend ho]; exact h.2⟩
  | star c => exact ⟨h.1, by rw [afterComments_extend ho]; exact h.2⟩
  | space c =>
    refine ⟨h.1, ?_⟩
    obtain ⟨_, d, hd, h2⟩ := h
    refine ⟨d, ?_, h2⟩
    cases a with
    | nil => exact hd
    | cons x a => exact hd
  | _ => exact h

theorem fitting_extend {o : Cursor} (ho : o.token.inSet KindSet.COMMENTS = false) {a more : List Cursor} : ∀ {ps : List SelPiece}, Fitting src ps (a ++ [o]) → Fitting src ps (a ++ o :: more)
  | [], _ => trivial
  | p :: ps, h => ⟨by
      have := piece_extend (a := pieceTokens ps ++ a) (more := more) ho (by rw [List.append_assoc]; exact h.1)
      rw [List.append_assoc] at this
      exact this, fitting_extend ho h.2⟩

theorem groupsFit_extend {o : Cursor} (ho : o.token.inSet KindSet.COMMENTS = false) {more : List Cursor} : ∀ {gs : List Group} {a : List Cursor}, GroupsFit src gs (a ++ [o]) → GroupsFit src gs (a ++ o :: more)
  | [], a, h => by
    rcases h with h | ⟨gap, d, m, e, hg, hd⟩
    · exact absurd h (by simp)
    · refine .inr ⟨gap, d, m ++ more, ?_, hg, hd⟩
      rw [show a ++ o :: more = (a ++ [o]) ++ more by simp, e]
      simp
  | g :: gs, a, ⟨h1, h2, h3, h4, h5, h6, h7⟩ => by
    refine ⟨h1, h2, h3, ?_, h5, h6, groupsFit_extend ho h7⟩
    have := fitting_extend (a := g.after ++ g.comma.toList ++ groupTokens gs ++ a) (more := more) ho (by rw [List.append_assoc _ a]; exact h4)
    rw [List.append_assoc _ a] at this
    exact this

theorem ahead_first {cs : List Cursor} {c : Cursor} {more : List Cursor} (h : cs = c :: more) (hc : c.token.inSet KindSet.TRIVIA = false) : ahead cs = cs := by
  subst h
  exact List.dropWhile_cons_of_neg (by simp [hc])

theorem ahead_split (cs : List Cursor) : ∃ g, cs = g ++ ahead cs ∧ Gap g :=
  ⟨cs.takeWhile fun c => c.token.inSet KindSet.TRIVIA, (List.takeWhile_append_dropWhile ..).symm, fun _ hc => takeWhile_spec hc⟩

theorem selectors_steps {n : Nat} {gs : List Group} {gap rest : List Cursor} {o : Cursor} (hne : gs ≠ []) (ho : IsKind .leftCurly o) (hf : GroupsFit src gs (gap ++ [o])) :
    Steps src n (groupTokens gs ++ (gap ++ o :: rest)) (selectorListFuel n) (gap ++ o :: rest) (GroupsBecome gs) := by
  have hoc : o.token.inSet KindSet.COMMENTS = false := by rw [inSet_of_kind (k := .leftCurly) (by decide) ho]; decide
  replace hf := groupsFit_extend (more := rest) hoc hf
  obtain ⟨g, gs, rfl⟩ := List.exists_cons_of_ne_nil hne
  intro p hp hr
  obtain ⟨hs, tail, hl, ht, hfu⟩ := hp
  obtain ⟨h1, h2, h3, h4, h5, h6, h7⟩ := id hf
  have e0 : groupTokens (g :: gs) ++ (gap ++ o :: rest) = g.before ++ (pieceTokens g.pieces ++ (g.after ++ g.comma.toList ++ groupTokens gs ++ (gap ++ o :: rest))) := by
    simp [groupTokens, Group.tokens]
  obtain ⟨g', e1, hg'⟩ := ahead_split tail
  obtain ⟨c, hc, hct⟩ := id h3
  obtain ⟨xs, hxs⟩ : ∃ xs, pieceTokens g.pieces = c :: xs := by
    cases hp : pieceTokens g.pieces with
    | nil => rw [hp] at hc; cases hc
    | cons x xs => rw [hp] at hc; cases hc; exact ⟨xs, rfl⟩
  rw [ht, e0, ahead_gap h1, ahead_first (by rw [hxs]; rfl) hct] at e1
  have hf' : GroupsFit src ({ g with before := g' } :: gs) (gap ++ o :: rest) := ⟨hg', h2, h3, h4, h5, h6, h7⟩
  have hl' : Left src p (groupTokens ({ g with before := g' } :: gs) ++ (gap ++ o :: rest)) := by
    have : groupTokens ({ g with before := g' } :: gs) ++ (gap ++ o :: rest) = tail := by
      rw [e1]; simp [groupTokens, Group.tokens]
    rw [this]; exact hl
  have hb := groupTokens_length hf'
  have hroom : (groupTokens ({ g with before := g' } :: gs)).length < n := by
    have := hr _ hl'.stream
    simp at this ⊢
    omega
  obtain ⟨a, q, w, cs', gv, l, ⟨a', rfl, hbec⟩, rfl⟩ := selectorListLoop_groups (k := n) ({ g with before := g' } :: gs) n [] (by have := hb.1; omega)
    (fun x hx => by have := hb.2 x hx; omega) hl' hs hf'
  have hsame := modes_skip (selectorListLoop_sound (compoundSelector_sound n) n (.trivia hs) gv).2
  refine ⟨a, q, w, gv, ⟨hsame.trans hs, _, l, rfl, ?_⟩, hbec⟩
  have : q.fuel = p.fuel := fuel_same (l.source.trans hl.source.symm)
  rw [this]
  have := congrArg List.length e1
  simp at this ⊢
  omega

/-! ### Blocks -/

section
variable {α β γ δ ρ : Type} {n : Nat}

theorem isDeclaration_gives {p : Parser} {a b : Cursor} {ts : List Cursor} (h : On src p (a :: b :: ts)) :
    Gives (isDeclaration a) p (.ok (a.token.isKind .ident && b.token.isKind .colon)) p [] := by
  unfold isDeclaration
  by_cases ha : a.token.isKind .ident = true
  · rw [if_pos ha, ha, Bool.true_and]
    obtain ⟨q, h1, h2⟩ := h.next
    obtain ⟨r, h3, _⟩ := h2.next
    exact gives_seq (gives_peekN.mpr ⟨_, peekN_two h1 h3, rfl, rfl, rfl⟩) (gives_pure.mpr ⟨rfl, rfl, rfl⟩)
  · rw [if_neg ha, Bool.eq_false_iff.mpr ha, Bool.false_and]
    exact gives_pure.mpr ⟨rfl, rfl, rfl⟩

theorem ifDeclaration_walks {a b : Cursor} {ts ts' : List Cursor} {x : Prog α} {P : α → Prop} (ha : IsKind .ident a) (hb : IsKind .colon b)
    (h : Walks src n (a :: b :: ts) x ts' P) : Walks src n (a :: b :: ts) (ifPeek isDeclaration x) ts' fun o => ∃ v, o = some v ∧ P v := by
  intro p hp hr
  obtain ⟨v, q, w, h1, h2, h3⟩ := h hp hr
  obtain ⟨q1, hq, _⟩ := hp.next
  have ht := isDeclaration_gives hp
  rw [show a.token.isKind .ident = true from ha, show b.token.isKind .colon = true from hb] at ht
  refine ⟨some v, q, w, ?_, h2, v, rfl, h3⟩
  unfold ifPeek
  refine gives_of_peek (peek_of_next hq) ?_
  have := gives_seq (f := fun v => (Pure.pure (some v) : Prog (Option α))) h1 (gives_pure.mpr ⟨rfl, rfl, rfl⟩)
  rw [List.append_nil] at this
  exact gives_seq (w1 := []) ht this

theorem ifDeclaration_none {a b : Cursor} {ts : List Cursor} {x : Prog α} (h : IsKind .ident a → ¬ IsKind .colon b) :
    Yields src (a :: b :: ts) (ifPeek isDeclaration x) (a :: b :: ts) fun o => o = none := by
  intro p hp
  obtain ⟨q1, hq, _⟩ := hp.next
  have ht := isDeclaration_gives hp
  have e : (a.token.isKind .ident && b.token.isKind .colon) = false := by
    cases ha : a.token.isKind .ident
    · rfl
    · rw [Bool.true_and]
      exact Bool.eq_false_iff.mpr (h ha)
  rw [e] at ht
  refine ⟨none, p, [], ?_, hp, rfl⟩
  unfold ifPeek
  refine gives_of_peek (peek_of_next hq) (gives_seq (w1 := []) ht ?_)
  exact gives_pure.mpr ⟨rfl, rfl, rfl⟩

/-- The loop of a block after whitespace. -/
def blockRest (isDecl : Cursor → Prog Bool) (decl : Prog δ) (rule : Prog ρ) (loop : List (δ × Option Cursor) → List ρ → Prog (List (δ × Option Cursor) × List ρ))
    (ds : List (δ × Option Cursor)) (rs : List ρ) : Prog (List (δ × Option Cursor) × List ρ) := do
  let semi ← ifPeek (Prog.isKind .semicolon) (tok (Prog.isKind .semicolon))
  if semi.isSome then loop ds rs
  else if ← atEnd then pure (ds, rs)
  else
    let c ← peek
    if c.token.isKind .rightCurly then pure (ds, rs)
    else
      setState true fun old => do
        let c ← peek
        if c.token.isKind .atKeyword then do
          let r ← result rule
          setState old fun _ => do
            let r ← ofResult r
            loop ds (rs ++ [r])
        else do
          let d ← result (ifPeek isDecl (tryParse decl))
          match d with
          | .ok (some d) =>
            setState old fun _ => do
              let semi ← ifPeek (Prog.isKind .semicolon) (tok (Prog.isKind .semicolon))
              loop (ds ++ [(d, semi)]) rs
          | _ => do
            let r ← result rule
            setState old fun _ => do
              let r ← ofResult r
              loop ds (rs ++ [r])

theorem blockLoop_succ (isDecl : Cursor → Prog Bool) (decl : Prog δ) (rule : Prog ρ) (n : Nat) (ds : List (δ × Option Cursor)) (rs : List ρ) :
    blockLoop isDecl decl rule (n + 1) ds rs = (ifPeek isWs whitespace >>= fun ws => if ws.isSome then blockLoop isDecl decl rule n ds rs
      else blockRest isDecl decl rule (blockLoop isDecl decl rule n) ds rs) := rfl

variable {isDecl : Cursor → Prog Bool} {decl : Prog δ} {rule : Prog ρ} {loop : List (δ × Option Cursor) → List ρ → Prog (List (δ × Option Cursor) × List ρ)}
  {ds : List (δ × Option Cursor)} {rs : List ρ} {P : List (δ × Option Cursor) × List ρ → Prop}

/-- A semicolon on its own. -/
theorem block_semicolon {g cs cs' : List Cursor} {c : Cursor} (hg : Gap g) (hc : IsKind .semicolon c) (h : Steps src n cs (loop ds rs) cs' P) :
    Steps src (n + 1) (g ++ c :: cs) (blockRest isDecl decl rule loop ds rs) cs' P := by
  have hct := notTrivia_of hc (by decide) (by decide)
  refine Steps.gap hg (Steps.eat (Steps.some (Tests.kind.congr hc) hct) (by rw [solid_cons hct]; exact fun e => by simpa using congrArg List.length e) ?_)
  rintro _ rfl
  exact Steps.pos rfl h

/-- The end of the block. -/
theorem block_close {cs : List Cursor} {c : Cursor} {more : List Cursor} (e : solid cs = c :: more) (hc : IsKind .rightCurly c) :
    Steps src n cs (blockRest isDecl decl rule loop ds rs) cs fun r => r = (ds, rs) := by
  unfold blockRest
  refine Steps.ifPeek_none e (Tests.kind.congr (not_kind hc (by decide) (by decide) (by decide))) ?_
  refine Steps.neg (by simp) (Steps.atEnd e (Steps.neg (by simp) (Steps.peek e (Steps.pos hc (Steps.pure rfl)))))

/-- A rule that is not a declaration. -/
theorem block_rule {cs cs1 cs' : List Cursor} {c : Cursor} {more : List Cursor} {Q : ρ → Prop} (e : solid cs = c :: more) (h1 : c.token.isKind .semicolon = false)
    (h2 : c.token.isKind .rightCurly = false) (h3 : c.token.isKind .atKeyword = false)
    (hn : Yields src (solid cs) (ifPeek isDecl (tryParse decl)) (solid cs) fun o => o = none) (hr : Steps src (n + 1) cs rule cs1 Q) (hne : solid cs1 ≠ solid cs)
    (h : ∀ r, Q r → Steps src n cs1 (loop ds (rs ++ [r])) cs' P) : Steps src (n + 1) cs (blockRest isDecl decl rule loop ds rs) cs' P := by
  unfold blockRest
  refine Steps.ifPeek_none e (Tests.kind.congr h1) (Steps.neg (by simp) (Steps.atEnd e (Steps.neg (by simp) (Steps.peek e (Steps.neg (by simp [h2]) ?_)))))
  refine Steps.setState fun _ => Steps.peek e (Steps.neg (by simp [h3]) ?_)
  refine Steps.bind (P := fun r => r = .ok none) ((Yields.result hn).mono ?_ |>.steps List.suffix_rfl) ?_
  · rintro _ ⟨_, rfl, rfl⟩; rfl
  rintro _ rfl
  refine Steps.eat hr.result hne ?_
  rintro _ ⟨r, rfl, hq⟩
  exact Steps.setState fun _ => Steps.ofResult (h r hq)

/-- A rule that begins with an at-keyword. -/
theorem block_atRule {cs cs1 cs' : List Cursor} {c : Cursor} {more : List Cursor} {Q : ρ → Prop} (e : solid cs = c :: more) (h3 : IsKind .atKeyword c)
    (hr : Steps src (n + 1) cs rule cs1 Q) (hne : solid cs1 ≠ solid cs)
    (h : ∀ r, Q r → Steps src n cs1 (loop ds (rs ++ [r])) cs' P) : Steps src (n + 1) cs (blockRest isDecl decl rule loop ds rs) cs' P := by
  unfold blockRest
  refine Steps.ifPeek_none e (Tests.kind.congr (not_kind h3 (by decide) (by decide) (by decide))) (Steps.neg (by simp) (Steps.atEnd e (Steps.neg (by simp) (Steps.peek e
    (Steps.neg (by simp [not_kind h3 (l := .rightCurly) (by decide) (by decide) (by decide)]) ?_)))))
  refine Steps.setState fun _ => Steps.peek e (Steps.pos h3 ?_)
  refine Steps.eat hr.result hne ?_
  rintro _ ⟨r, rfl, hq⟩
  exact Steps.setState fun _ => Steps.ofResult (h r hq)

theorem decl_raw {d : DeclText} {toks : List Cursor} (ht : solid toks = d.tokens) : ∃ x y, toks = x ++ y ∧ solid x = d.name :: d.colon :: (d.value.tokens ++ importantTokens d.important) ∧ solid y = d.semicolon.toList :=
  solid_split (by rw [ht, DeclText.tokens]; simp)

/-- A semicolon, if there is one. -/
theorem semicolon_steps {y rest : List Cursor} {s : Option Cursor} (hy : solid y = s.toList) (hs : ∀ c ∈ s, IsKind .semicolon c)
    (hr : s = none → ∃ c more, solid rest = c :: more ∧ c.token.isKind .semicolon = false) :
    Steps src n (y ++ rest) (ifPeek (Prog.isKind .semicolon) (tok (Prog.isKind .semicolon))) rest fun o => o = s := by
  refine Yields.steps ?_ (List.suffix_append ..)
  rw [solid_append, hy]
  cases s with
  | none =>
    obtain ⟨c, more, e, hc⟩ := hr rfl
    show Yields src (solid rest) _ _ _
    rw [e]
    exact Yields.ifPeek_none (Tests.kind.congr hc)
  | some c =>
    refine (Yields.ifPeek_some (P := fun x => x = c) (Tests.kind.congr (hs c rfl)) (Yields.tok (Tests.kind.congr (hs c rfl)) rfl)).mono ?_
    rintro _ ⟨_, rfl, rfl⟩
    rfl

/-- A declaration. -/
theorem block_declaration {P : List (Decl (StyleValue Val) × Option Cursor) × List ρ → Prop} {loop : List (Decl (StyleValue Val) × Option Cursor) → List ρ → Prog (List (Decl (StyleValue Val) × Option Cursor) × List ρ)}
    {ds : List (Decl (StyleValue Val) × Option Cursor)} {f : Nat} (hf : n + 1 ≤ f) {d : DeclText} {toks rest cs' : List Cursor} (ht : solid toks = d.tokens) (hd : d.Fits src)
    (hr : d.semicolon = none → ∃ c more, solid rest = c :: more ∧ IsKind .rightCurly c)
    (h : ∀ x, d.Becomes x → Steps src n rest (loop (ds ++ [(x, d.semicolon)]) rs) cs' P) :
    Steps src (n + 1) (toks ++ rest) (blockRest isDeclaration (property realValues f) rule loop ds rs) cs' P := by
  obtain ⟨x, y, rfl, hx, hy⟩ := decl_raw ht
  have e : solid (x ++ y ++ rest) = d.name :: (d.colon :: (d.value.tokens ++ importantTokens d.important) ++ solid (y ++ rest)) := by
    rw [List.append_assoc, solid_append, hx]; simp
  have hyield : Walks src (n + 1) (solid (x ++ y ++ rest)) (ifPeek isDeclaration (tryParse (property realValues f))) (solid (y ++ rest)) fun o => ∃ v, o = some v ∧ d.Becomes v := by
    have hdy := decl_walks (valid := fun _ => pure true) (fuel := f) hf (rest := solid rest) Tests.pure hd hr
    have : d.tokens ++ solid rest = d.name :: d.colon :: (d.value.tokens ++ (importantTokens d.important ++ (d.semicolon.toList ++ solid rest))) := by simp [DeclText.tokens]
    rw [e, solid_append, hy]
    rw [this] at hdy
    have e2 : d.name :: (d.colon :: (d.value.tokens ++ importantTokens d.important) ++ (d.semicolon.toList ++ solid rest)) =
        d.name :: d.colon :: (d.value.tokens ++ (importantTokens d.important ++ (d.semicolon.toList ++ solid rest))) := by simp
    rw [e2]
    exact ifDeclaration_walks hd.name.1 hd.colon (Walks.attempt hdy (fun _ _ => rfl) fun b hb => Walks.pure hb)
  have hsuf : y ++ rest <:+ x ++ y ++ rest := by rw [List.append_assoc]; exact List.suffix_append ..
  unfold blockRest
  have nk := fun l (h1 : l ≠ Kind.eof) (h2 : Kind.ident ≠ l) => not_kind (l := l) hd.name.1 (by decide) h1 h2
  refine Steps.ifPeek_none e (Tests.kind.congr (nk _ (by decide) (by decide))) (Steps.neg (by simp) (Steps.atEnd e (Steps.neg (by simp) (Steps.peek e (Steps.neg (by simp [nk .rightCurly (by decide) (by decide)]) ?_)))))
  refine Steps.setState fun _ => Steps.peek e (Steps.neg (by simp [nk .atKeyword (by decide) (by decide)]) ?_)
  refine Steps.eat (hyield.result.steps hsuf) ?_ ?_
  · rw [e]
    intro h'
    have := congrArg List.length h'
    simp at this
    omega
  rintro _ ⟨_, rfl, v, rfl, hv⟩
  refine Steps.setState fun _ => Steps.bind (semicolon_steps hy hd.semicolon fun hs => ?_) ?_
  · obtain ⟨c, more, e, hc⟩ := hr hs
    exact ⟨c, more, e, not_kind hc (by decide) (by decide) (by decide)⟩
  rintro _ rfl
  exact h v hv

/-- A block. -/
theorem blockOf_steps {isDecl : Cursor → Prog Bool} {decl : Prog δ} {rule : Prog ρ} {gap body rest : List Cursor} {o close : Cursor} {P : List (δ × Option Cursor) → List ρ → Prop}
    (hg : Gap gap) (ho : IsKind .leftCurly o) (hc : IsKind .rightCurly close)
    (h : Steps src n (body ++ close :: rest) (blockLoop isDecl decl rule (n + 1) [] []) (close :: rest) fun r => P r.1 r.2) :
    Steps src (n + 1) (gap ++ o :: (body ++ close :: rest)) (blockOf isDecl decl rule (n + 1)) rest
      fun b => b.opening = o ∧ P b.declarations b.rules ∧ b.close = some close := by
  unfold blockOf
  have hot := notTrivia_of ho (by decide) (by decide)
  have hct := notTrivia_of hc (by decide) (by decide)
  have hy : Yields src (solid (gap ++ o :: (body ++ close :: rest))) (tok (Prog.isKind .leftCurly)) (solid (body ++ close :: rest)) fun c => c = o := by
    rw [solid_append, solid_gap hg, solid_cons hot]
    exact Yields.tok (Tests.kind.congr ho) rfl
  refine Steps.eat (hy.steps ⟨gap ++ [o], by simp⟩) ?_ ?_
  · rw [solid_append gap, solid_gap hg, solid_cons hot]
    intro h'
    have := congrArg List.length h'
    simp at this
  rintro _ rfl
  refine Steps.bind h ?_
  rintro ⟨ds, rs⟩ hb
  refine Steps.bind (Steps.some (Tests.kind.congr hc) hct) ?_
  rintro _ rfl
  exact Steps.pure ⟨rfl, hb, rfl⟩

/-- A rule with selectors and a block. -/
theorem qualifiedRule_steps {prelude : Prog α} {block : Prog β} {bad : Prog γ} {cs cs1 cs' : List Cursor} {c : Cursor} {more : List Cursor} {P : α → Prop} {Q : β → Prop}
    (e : solid cs = c :: more) (hd : isDashed c = false) (hk : c.token.isKind .rightCurly = false) (hp : Steps src n cs prelude cs1 P) (hb : Steps src n cs1 block cs' Q) :
    Steps src n cs (qualifiedRule prelude block bad) cs' fun x => P x.1 ∧ Q x.2 := by
  unfold qualifiedRule
  refine Steps.atEnd e (Steps.neg (by simp) (Steps.ask (fun p => ⟨_, rfl⟩) fun nested => Steps.peek e (Steps.neg (by simp [hk]) (Steps.ask (fun p => ⟨_, rfl⟩) fun _ => ?_))))
  refine Steps.attempt (cs1 := cs) (Q := fun l => l = .other) (Steps.peek e (Steps.neg (by simp [hd]) (Steps.pure rfl))) ?_ ?_
  · rintro _ rfl; rfl
  rintro _ rfl
  refine Steps.ofResult (Steps.setStop fun _ => Steps.bind hp.result ?_)
  rintro _ ⟨a, rfl, ha⟩
  exact Steps.setStop fun _ => Steps.ofResult (Steps.bind hb fun b hb => Steps.pure ⟨ha, hb⟩)

/-! ### Rules -/

/-- How a selector begins. -/
theorem selector_first {gs : List Group} {gap : List Cursor} {o : Cursor} {more : List Cursor} (hne : gs ≠ []) (hf : GroupsFit src gs (gap ++ [o])) :
    ∃ c rest, solid (groupTokens gs ++ more) = c :: rest ∧ c ∈ (solid (groupTokens gs)).head? ∧ (IsKind .hash c ∨ IsKind .delim c ∨ IsKind .ident c ∨ IsKind .colon c) := by
  obtain ⟨g, gs, rfl⟩ := List.exists_cons_of_ne_nil hne
  obtain ⟨h1, h2, ⟨c, hc, hct⟩, h4, _⟩ := hf
  have e : groupTokens (g :: gs) = g.before ++ (pieceTokens g.pieces ++ (g.after ++ g.comma.toList ++ groupTokens gs)) := by simp [groupTokens, Group.tokens]
  obtain ⟨xs, hxs⟩ : ∃ xs, pieceTokens g.pieces = c :: xs := by
    cases hp : pieceTokens g.pieces with
    | nil => rw [hp] at hc; cases hc
    | cons x xs => rw [hp] at hc; cases hc; exact ⟨xs, rfl⟩
  refine ⟨c, _, by rw [solid_append, e, solid_append, solid_gap h1, hxs, List.cons_append, solid_cons hct]; rfl, by rw [e, solid_append, solid_gap h1, hxs, List.cons_append, solid_cons hct]; rfl, ?_⟩
  cases hps : g.pieces with
  | nil => rw [hps] at hxs; cases hxs
  | cons p ps =>
    rw [hps] at h4 hxs
    have hp := h4.1
    have hx : p.tokens.head? = some c := by
      have : (pieceTokens (p :: ps)).head? = p.tokens.head? := by cases p <;> rfl
      rw [← this, hxs]; rfl
    cases p with
    | id d => cases hx; exact .inl hp.1
    | cls d n => cases hx; exact .inr (.inl hp.1.1)
    | tag d => cases hx; exact .inr (.inr (.inl hp.1))
    | star d => cases hx; exact .inr (.inl hp.1.1)
    | child d => cases hx; exact .inr (.inl hp.1)
    | nextSibling d => cases hx; exact .inr (.inl hp.1)
    | subsequentSibling d => cases hx; exact .inr (.inl hp.1)
    | nesting d => cases hx; exact .inr (.inl hp.1)
    | space d => cases hx; rw [inSet_of_kind (k := .whitespace) (by decide) hp.1] at hct; exact absurd hct (by decide)
    | pseudo d n => cases hx; exact .inr (.inr (.inr hp.1))

theorem first_kind {c : Cursor} (h : IsKind .hash c ∨ IsKind .delim c ∨ IsKind .ident c ∨ IsKind .colon c) {l : Kind} (h1 : l ≠ .eof) (h2 : l ≠ .hash ∧ l ≠ .delim ∧ l ≠ .ident ∧ l ≠ .colon) :
    c.token.isKind l = false := by
  rcases h with h | h | h | h
  · exact not_kind h (by decide) h1 (Ne.symm h2.1)
  · exact not_kind h (by decide) h1 (Ne.symm h2.2.1)
  · exact not_kind h (by decide) h1 (Ne.symm h2.2.2.1)
  · exact not_kind h (by decide) h1 (Ne.symm h2.2.2.2)

end

/-- How a rule begins. -/
theorem rule_first {r : RuleTree} {nested : Bool} (hr : r.Fits src nested) :
    ∃ c more, solid r.tokens = c :: more ∧ (IsKind .atKeyword c ∨ (IsKind .hash c ∨ IsKind .delim c ∨ IsKind .ident c ∨ IsKind .colon c) ∧ ∃ d more', more = d :: more') := by
  cases r with
  | style gs gap o body cl =>
    obtain ⟨hne, hgs, hda, hgap, ho, hbody, hcl⟩ := hr
    obtain ⟨c, ts, e1, hc1, hk1⟩ := selector_first (more := []) hne hgs
    have hot := notTrivia_of ho (by decide) (by decide)
    have e3 : solid (RuleTree.style gs gap o body cl).tokens = solid (groupTokens gs) ++ (o :: solid (body.tokens ++ [cl])) := by
      simp only [RuleTree.tokens]
      rw [solid_append, solid_append, solid_gap hgap, solid_cons hot]; rfl
    rw [e3]
    cases h : solid (groupTokens gs) with
    | nil => rw [h] at hc1; cases hc1
    | cons x xs =>
      rw [h] at hc1
      cases hc1
      cases xs with
      | nil => exact ⟨_, _, rfl, .inr ⟨hk1, _, _, rfl⟩⟩
      | cons y ys => exact ⟨_, _, rfl, .inr ⟨hk1, _, _, rfl⟩⟩
  | leaf cs l =>
    obtain ⟨e, hl, _⟩ := hr
    obtain ⟨a, r, h1, h2⟩ := leaf_called hl
    exact ⟨a, r, by rw [← h1]; exact e, .inl h2.1⟩
  | media head a q o body cl =>
    obtain ⟨e, ha, _⟩ := hr
    exact ⟨a, _, by simp only [RuleTree.tokens]; rw [solid_append, e]; rfl, .inl ha.1⟩
  | group head a g o body cl =>
    obtain ⟨e, ha, _⟩ := hr
    exact ⟨a, _, by simp only [RuleTree.tokens]; rw [solid_append, e]; rfl, .inl ha.1⟩

theorem begin_kind {c : Cursor} {p : Prop} (h : IsKind .atKeyword c ∨ (IsKind .hash c ∨ IsKind .delim c ∨ IsKind .ident c ∨ IsKind .colon c) ∧ p) {l : Kind}
    (h2 : l ≠ .atKeyword ∧ l ≠ .hash ∧ l ≠ .delim ∧ l ≠ .ident ∧ l ≠ .colon) : c.token.isKind l = false := by
  have key : ∀ k : Kind, k ≠ .eof → k ≠ l → IsKind k c → c.token.isKind l = false := fun k hk hkl h => by
    cases h' : c.token.isKind l
    · rfl
    · exact absurd (((beq_iff_eq).mp h).symm.trans (beq_iff_eq.mp h')) (by revert hkl; cases k <;> cases l <;> decide)
  rcases h with h | ⟨h | h | h | h, _⟩
  · exact key _ (by decide) (Ne.symm h2.1) h
  · exact key _ (by decide) (Ne.symm h2.2.1) h
  · exact key _ (by decide) (Ne.symm h2.2.2.1) h
  · exact key _ (by decide) (Ne.symm h2.2.2.2.1) h
  · exact key _ (by decide) (Ne.symm h2.2.2.2.2) h

theorem shorter {cs rest : List Cursor} {c : Cursor} {more : List Cursor} (e : solid cs = c :: more) : solid rest ≠ solid (cs ++ rest) := by
  rw [solid_append, e]
  intro h
  have := congrArg List.length h
  simp at this
  omega

/-! ### Lists of rules -/

/-- The loop of a list after a semicolon. -/
def listRest {ρ : Type} (item : Prog ρ) (loop : List ρ → Prog (List ρ × Option Cursor)) (items : List ρ) : Prog (List ρ × Option Cursor) := do
  if ← atEnd then pure (items, none)
  else
    let c ← peek
    if c.token.isKind .rightCurly then do
      let close ← tok (Prog.isKind .rightCurly)
      pure (items, some close)
    else do
      let r ← item
      loop (items ++ [r])

theorem ruleListLoop_succ {ρ : Type} (item : Prog ρ) (n : Nat) (items : List ρ) :
    ruleListLoop item (n + 1) items = (result (ifPeek (Prog.isKind .semicolon) (tok (Prog.isKind .semicolon))) >>= fun _ => listRest item (ruleListLoop item n) items) := rfl

theorem list_none {ρ : Type} {n : Nat} {cs cs' : List Cursor} {c : Cursor} {more : List Cursor} {x : Prog ρ} {P : ρ → Prop} (e : solid cs = c :: more) (hc : c.token.isKind .semicolon = false)
    (h : Steps src n cs x cs' P) : Steps src n cs (result (ifPeek (Prog.isKind .semicolon) (tok (Prog.isKind .semicolon))) >>= fun _ => x) cs' P := by
  refine Steps.bind (P := fun _ => True) (cs1 := cs) ?_ fun _ _ => h
  refine Steps.mono (P := fun r => ∃ a, r = .ok a ∧ True) (Steps.result (Yields.steps ?_ List.suffix_rfl)) fun _ _ => trivial
  rw [e]
  exact (Yields.ifPeek_none ((Tests.kind).congr hc)).mono fun _ _ => trivial

theorem list_semicolon {ρ : Type} {n : Nat} {g cs cs' : List Cursor} {c : Cursor} {x : Prog ρ} {P : ρ → Prop} (hg : Gap g) (hc : IsKind .semicolon c)
    (h : Steps src n cs x cs' P) : Steps src n (g ++ c :: cs) (result (ifPeek (Prog.isKind .semicolon) (tok (Prog.isKind .semicolon))) >>= fun _ => x) cs' P := by
  have hct := notTrivia_of hc (by decide) (by decide)
  refine Steps.gap hg (Steps.bind (P := fun _ => True) (cs1 := cs) ?_ fun _ _ => h)
  exact (Steps.some ((Tests.kind).congr hc) hct).result.mono fun _ _ => trivial

theorem ruleList_steps {ρ : Type} {n : Nat} {item : Prog ρ} {o close : Cursor} {body rest : List Cursor} {P : List ρ → Prop} (ho : IsKind .leftCurly o)
    (h : Steps src n body (ruleListLoop item (n + 1) []) rest fun r => ∃ xs, r = (xs, some close) ∧ P xs) :
    Steps src (n + 1) (o :: body) (ruleList item (n + 1)) rest fun b => b.opening = o ∧ P b.items ∧ b.close = some close := by
  have hot := notTrivia_of ho (by decide) (by decide)
  unfold ruleList
  refine Steps.eat (cs1 := body) (P := fun c => c = o) (Yields.steps ?_ (List.suffix_cons ..)) ?_ ?_
  · rw [solid_cons hot]
    exact Yields.tok ((Tests.kind).congr ho) rfl
  · rw [solid_cons hot]
    intro h'
    have := congrArg List.length h'
    simp at this
  rintro _ rfl
  refine Steps.bind h ?_
  rintro _ ⟨xs, rfl, hx⟩
  exact Steps.pure ⟨rfl, hx, rfl⟩

theorem steps_zero {α : Type} {cs cs' : List Cursor} {x : Prog α} {P : α → Prop} : Steps src 0 cs x cs' P := fun p hp hr => by
  obtain ⟨_, tail, hl, _⟩ := hp
  exact absurd (hr tail hl.stream) (by omega)

mutual
theorem rule_steps : ∀ (r : RuleTree) (n : Nat) (nested : Bool) (rest : List Cursor), r.Fits src nested → Steps src n (r.tokens ++ rest) (cssRule realValues n nested) rest r.Becomes
  | _, 0, _, _, _ => fun p hp hr => by
    obtain ⟨_, tail, hl, _⟩ := hp
    exact absurd (hr tail hl.stream) (by omega)
  | .style gs gap o body close, n + 1, nested, rest, ⟨hne, hgs, hda, hgap, ho, hbody, hc⟩ => by
    have e0 : (RuleTree.style gs gap o body close).tokens ++ rest = groupTokens gs ++ (gap ++ o :: (body.tokens ++ close :: rest)) := by simp [RuleTree.tokens]
    rw [e0]
    obtain ⟨c, more, e, hc1, hk⟩ := selector_first (more := gap ++ o :: (body.tokens ++ close :: rest)) hne hgs
    unfold cssRule
    refine Steps.peek e (Steps.neg (by simp [first_kind hk (l := .atKeyword) (by decide) (by decide)]) ?_)
    refine Steps.attempt (cs1 := rest) (Q := (RuleTree.style gs gap o body close).Becomes) ?_ (fun _ _ => rfl) fun b hb => Steps.pure hb
    unfold styleRule
    refine Steps.bind (cs1 := rest) (qualifiedRule_steps (P := GroupsBecome gs) (Q := fun b => b.opening = o ∧ body.Becomes b.declarations b.rules ∧ b.close = some close) e (hda c hc1)
      (first_kind hk (by decide) (by decide)) (selectors_steps hne ho hgs) ?_) ?_
    · refine blockOf_steps hgap ho hc ((block_steps body true n n (n + 1) rest close [] [] (Nat.le_refl _) (by omega) hbody hc).mono ?_)
      rintro _ ⟨ds, rs, rfl, h⟩
      simpa using h
    rintro ⟨sels, b⟩ ⟨h1, h2, h3, h4⟩
    refine Steps.pure ?_
    unfold RuleTree.Becomes
    exact ⟨_, _, _, by rw [← h2, ← h4], h1, h3⟩
  | .leaf cs l, n + 1, nested, rest, ⟨e, hl, hn⟩ => by
    obtain ⟨a, r, h1, h2⟩ := leaf_called hl
    have e' : solid (cs ++ rest) = l.tokens ++ solid rest := by rw [solid_append, e]
    have e2 : solid (cs ++ rest) = a :: (r ++ solid rest) := by rw [e', h1]; rfl
    unfold cssRule
    refine Steps.peek e2 (Steps.pos h2.1 (atCssRule_steps e2 h2 (known_leaf hn) (Walks.steps ?_ (List.suffix_append ..))))
    show Walks src (n + 1) (solid (cs ++ rest)) _ _ _
    rw [e']
    exact leaf_walks (Nat.le_refl _) hl
  | .media head a q o body close, n + 1, nested, rest, ⟨e, ha, hq, ho, hbody, hc⟩ => by
    have e0 : (RuleTree.media head a q o body close).tokens ++ rest = head ++ o :: (body.tokens ++ close :: rest) := by simp [RuleTree.tokens]
    have e2 : solid (head ++ o :: (body.tokens ++ close :: rest)) = a :: (q.cursors ++ solid (o :: (body.tokens ++ close :: rest))) := by rw [solid_append, e]; rfl
    rw [e0]
    unfold cssRule
    refine Steps.peek e2 (Steps.pos ha.1 (atCssRule_steps e2 ha (parser := mediaRule realValues (cssRule realValues n false) (n + 1)) (by cases nested <;> rfl) ?_))
    refine media_steps (R := body.Becomes) (close := close) (by omega) e ha hq ho ((blockOf_steps (gap := []) (P := body.Becomes) (fun _ h => by cases h) ho hc ?_).more (by omega))
    refine (block_steps body false n n (n + 1) rest close [] [] (Nat.le_refl _) (by omega) hbody hc).mono ?_
    rintro _ ⟨ds, rs, rfl, h⟩
    simpa using h
  | .group head a g o body close, n + 1, nested, rest, ⟨e, ha, hg, hn, ho, hbody, hc⟩ => by
    have e0 : (RuleTree.group head a g o body close).tokens ++ rest = head ++ o :: (body.tokens ++ close :: rest) := by simp [RuleTree.tokens]
    have e2 : solid (head ++ o :: (body.tokens ++ close :: rest)) = a :: (g.tokens ++ solid (o :: (body.tokens ++ close :: rest))) := by rw [solid_append, e]; rfl
    rw [e0]
    unfold cssRule
    refine Steps.peek e2 (Steps.pos ha.1 (atCssRule_steps e2 ha (known_group hn) ?_))
    refine group_steps (R := body.Becomes) (close := close) (by omega) e ha hg ho ((ruleList_steps ho ?_).more (by omega))
    refine ((list_steps body n rest close hbody hc).2 n [] (Nat.le_refl _)).mono ?_
    rintro _ ⟨rs, rfl, h⟩
    exact ⟨rs, by simp, h⟩
theorem block_steps : ∀ (b : BlockTree) (nested : Bool) (j m f : Nat) (rest : List Cursor) (close : Cursor) (ds : List (Decl (StyleValue Val) × Option Cursor)) (rs : List (CssRule Val)), j ≤ m → j ≤ f →
    b.Fits src nested → IsKind .rightCurly close →
    Steps src j (b.tokens ++ close :: rest) (blockLoop isDeclaration (property realValues f) (cssRule realValues m nested) (j + 1) ds rs) (close :: rest)
      fun r => ∃ ds' rs', r = (ds ++ ds', rs ++ rs') ∧ b.Becomes ds' rs'
  | .done gap, nested, j, m, f, rest, close, ds, rs, hj, hjf, hf, hc => by
    refine ws_loop (L := fun n => blockLoop isDeclaration (property realValues f) (cssRule realValues m nested) (n + 1) ds rs) (fun n => blockLoop_succ ..) j fun k hk => ?_
    have hct := notTrivia_of hc (by decide) (by decide)
    refine Steps.gap hf ((block_close (solid_cons hct) hc).mono ?_)
    rintro _ rfl
    exact ⟨[], [], by simp, rfl, rfl⟩
  | .semicolon gap c more, nested, j, m, f, rest, close, ds, rs, hj, hjf, ⟨hf, hs, hm⟩, hc => by
    refine ws_loop (L := fun n => blockLoop isDeclaration (property realValues f) (cssRule realValues m nested) (n + 1) ds rs) (fun n => blockLoop_succ ..) j fun k hk => ?_
    have e : (BlockTree.semicolon gap c more).tokens ++ close :: rest = gap ++ c :: (more.tokens ++ close :: rest) := by simp [BlockTree.tokens]
    rw [e]
    exact block_semicolon hf hs (block_steps more nested k m f rest close ds rs (by omega) (by omega) hm hc)
  | .declaration toks d more, nested, j, m, f, rest, close, ds, rs, hj, hjf, ⟨ht, hd, hlast, hm⟩, hc => by
    refine ws_loop (L := fun n => blockLoop isDeclaration (property realValues f) (cssRule realValues m nested) (n + 1) ds rs) (fun n => blockLoop_succ ..) j fun k hk => ?_
    have e : (BlockTree.declaration toks d more).tokens ++ close :: rest = toks ++ (more.tokens ++ close :: rest) := by simp [BlockTree.tokens]
    rw [e]
    refine block_declaration (by omega) ht hd (fun hs => ⟨close, solid rest, ?_, hc⟩) fun x hx => (block_steps more nested k m f rest close _ rs (by omega) (by omega) hm hc).mono ?_
    · rw [solid_append, hlast hs, solid_cons (notTrivia_of hc (by decide) (by decide))]; rfl
    rintro _ ⟨ds', rs', rfl, h⟩
    exact ⟨(x, d.semicolon) :: ds', rs', by simp, x, ds', rfl, hx, h⟩
  | .rule r more, nested, j, m, f, rest, close, ds, rs, hj, hjf, ⟨hn, hr, hm⟩, hc => by
    refine ws_loop (L := fun n => blockLoop isDeclaration (property realValues f) (cssRule realValues m nested) (n + 1) ds rs) (fun n => blockLoop_succ ..) j fun k hk => ?_
    have e : (BlockTree.rule r more).tokens ++ close :: rest = r.tokens ++ (more.tokens ++ close :: rest) := by simp [BlockTree.tokens]
    rw [e]
    have hstep := (rule_steps r m nested (more.tokens ++ close :: rest) hr).more (n := k + 1) (by omega)
    have hend : ∀ x, r.Becomes x → Steps src k (more.tokens ++ close :: rest) (blockLoop isDeclaration (property realValues f) (cssRule realValues m nested) (k + 1) ds (rs ++ [x])) (close :: rest)
        fun r' => ∃ ds' rs', r' = (ds ++ ds', rs ++ rs') ∧ (BlockTree.rule r more).Becomes ds' rs' := by
      intro x hx
      refine (block_steps more nested k m f rest close ds _ (by omega) (by omega) hm hc).mono ?_
      rintro _ ⟨ds', rs', rfl, h⟩
      exact ⟨ds', x :: rs', by simp, x, rs', rfl, hx, h⟩
    obtain ⟨c, ts, e1, hk1⟩ := rule_first hr
    have e4 : solid (r.tokens ++ (more.tokens ++ close :: rest)) = c :: (ts ++ solid (more.tokens ++ close :: rest)) := by rw [solid_append, e1]; rfl
    rcases hk1 with hk1 | ⟨hk1, d, ts', rfl⟩
    · exact block_atRule e4 hk1 hstep (shorter e1) hend
    · refine block_rule e4 (first_kind hk1 (by decide) (by decide)) (first_kind hk1 (by decide) (by decide)) (first_kind hk1 (by decide) (by decide)) ?_ hstep (shorter e1) hend
      rw [e4]
      exact ifDeclaration_none fun ha => hn c d ts' e1 ha
theorem list_steps : ∀ (l : ListTree) (m : Nat) (rest : List Cursor) (close : Cursor), l.Fits src → IsKind .rightCurly close →
    (l.NoSemicolon → ∀ (k : Nat) (rs : List (CssRule Val)), k + 1 ≤ m →
      Steps src (k + 1) (l.tokens ++ close :: rest) (listRest (cssRule realValues m false) (ruleListLoop (cssRule realValues m false) (k + 1)) rs) rest fun r => ∃ rs', r = (rs ++ rs', some close) ∧ l.Becomes rs') ∧
    ∀ (j : Nat) (rs : List (CssRule Val)), j ≤ m →
      Steps src j (l.tokens ++ close :: rest) (ruleListLoop (cssRule realValues m false) (j + 1) rs) rest fun r => ∃ rs', r = (rs ++ rs', some close) ∧ l.Becomes rs'
  | .done gap, m, rest, close, hf, hc => by
    have hct := notTrivia_of hc (by decide) (by decide)
    have first : ∀ (k : Nat) (rs : List (CssRule Val)), k + 1 ≤ m →
        Steps src (k + 1) (gap ++ close :: rest) (listRest (cssRule realValues m false) (ruleListLoop (cssRule realValues m false) (k + 1)) rs) rest fun r => ∃ rs', r = (rs ++ rs', some close) ∧ (ListTree.done gap).Becomes rs' := by
      intro k rs hk
      unfold listRest
      refine Steps.gap hf (Steps.atEnd (solid_cons hct) (Steps.neg (by simp) (Steps.peek (solid_cons hct) (Steps.pos hc ?_))))
      exact Steps.tok (g := []) (fun _ h => by cases h) ((Tests.kind).congr hc) hct (Steps.pure ⟨[], by simp, rfl⟩)
    refine ⟨fun _ => first, fun j rs hj => ?_⟩
    cases j with
    | zero => exact steps_zero
    | succ j =>
      rw [ruleListLoop_succ]
      refine list_none (c := close) (more := solid rest) ?_ (not_kind hc (by decide) (by decide) (by decide)) (first j rs hj)
      show solid (gap ++ close :: rest) = _
      rw [solid_append, solid_gap hf, solid_cons hct]; rfl
  | .semicolon gap c more, m, rest, close, ⟨hg, hs, hno, hm⟩, hc => by
    refine ⟨fun h => absurd h id, fun j rs hj => ?_⟩
    cases j with
    | zero => exact steps_zero
    | succ j =>
      rw [ruleListLoop_succ]
      have e : (ListTree.semicolon gap c more).tokens ++ close :: rest = gap ++ c :: (more.tokens ++ close :: rest) := by simp [ListTree.tokens]
      rw [e]
      exact list_semicolon hg hs ((list_steps more m rest close hm hc).1 hno j rs hj)
  | .rule r more, m, rest, close, ⟨hr, hm⟩, hc => by
    obtain ⟨c, ts, e1, hk1⟩ := rule_first hr
    have e : (ListTree.rule r more).tokens ++ close :: rest = r.tokens ++ (more.tokens ++ close :: rest) := by simp [ListTree.tokens]
    have e4 : solid (r.tokens ++ (more.tokens ++ close :: rest)) = c :: (ts ++ solid (more.tokens ++ close :: rest)) := by rw [solid_append, e1]; rfl
    rw [e]
    have first : ∀ (k : Nat) (rs : List (CssRule Val)), k + 1 ≤ m →
        Steps src (k + 1) (r.tokens ++ (more.tokens ++ close :: rest)) (listRest (cssRule realValues m false) (ruleListLoop (cssRule realValues m false) (k + 1)) rs) rest
          fun x => ∃ rs', x = (rs ++ rs', some close) ∧ (ListTree.rule r more).Becomes rs' := by
      intro k rs hk
      unfold listRest
      refine Steps.atEnd e4 (Steps.neg (by simp) (Steps.peek e4 (Steps.neg (by simp [begin_kind hk1 (l := .rightCurly) (by decide)]) ?_)))
      refine Steps.eat ((rule_steps r m false (more.tokens ++ close :: rest) hr).more hk) (shorter e1) fun x hx => ?_
      refine ((list_steps more m rest close hm hc).2 k _ (by omega)).mono ?_
      rintro _ ⟨rs', rfl, h⟩
      exact ⟨x :: rs', by simp, x, rs', rfl, hx, h⟩
    refine ⟨fun _ => first, fun j rs hj => ?_⟩
    cases j with
    | zero => exact steps_zero
    | succ j =>
      rw [ruleListLoop_succ]
      exact list_none e4 (begin_kind hk1 (by decide)) (first j rs hj)
end

/-! ### Style sheets -/

theorem Stands.ended {p : Parser} {cs : List Cursor} (h : Stands src p cs) (hc : solid cs = []) : ∃ c, p.peekNext = .ok c ∧ c.token = Token.EOF := by
  obtain ⟨hs, tail, hl, ht, _⟩ := h
  have e : ahead tail = [] := by
    have h1 : solid tail = [] := by rw [← solid_ahead, ht, solid_ahead, hc]
    rw [← List.append_nil tail, ahead_gap (gap_of_solid h1)]; rfl
  refine ⟨_, peekNext_stream hl.stream, ?_⟩
  unfold firstOutside
  rw [hs]
  unfold ahead at e
  rw [e]
  rfl

/-- The loop of a style sheet after whitespace. -/
def sheetRest {ρ : Type} (rule : Prog ρ) (loop : List ρ → Prog (List ρ)) (rules : List ρ) : Prog (List ρ) := do
  let cdc ← ifPeek (Prog.isKind .cdcOrCdo) (tok (Prog.isKind .cdcOrCdo))
  if cdc.isSome then loop rules
  else if ← atEnd then pure rules
  else
    let c ← peek
    if c.token.isKind .eof then pure rules
    else
      let r ← rule
      loop (rules ++ [r])

theorem styleSheetLoop_succ {ρ : Type} (rule : Prog ρ) (n : Nat) (rules : List ρ) :
    styleSheetLoop rule (n + 1) rules = (ifPeek isWs whitespace >>= fun ws => if ws.isSome then styleSheetLoop rule n rules else sheetRest rule (styleSheetLoop rule n) rules) := rfl

theorem sheet_done {ρ : Type} {n : Nat} {rule : Prog ρ} {loop : List ρ → Prog (List ρ)} {rules : List ρ} {cs : List Cursor} (hc : solid cs = []) :
    Steps src n cs (sheetRest rule loop rules) cs fun r => r = rules := by
  intro p hp _
  obtain ⟨c, h1, h2⟩ := hp.ended hc
  refine ⟨rules, p, [], ?_, hp, rfl⟩
  have ht : Gives (ifPeek (Prog.isKind .cdcOrCdo) (tok (Prog.isKind .cdcOrCdo))) p (.ok none) p [] := by
    unfold ifPeek
    refine gives_of_peek h1 (gives_seq (w1 := []) (gives_pure.mpr ⟨rfl, rfl, rfl⟩) ?_)
    rw [show c.token.isKind .cdcOrCdo = false by rw [h2]; decide]
    exact gives_pure.mpr ⟨rfl, rfl, rfl⟩
  unfold sheetRest
  refine gives_seq (w1 := []) ht (gives_seq (w1 := []) (gives_atEnd.mpr ⟨rfl, rfl, rfl⟩) ?_)
  cases p.atEnd
  · refine gives_of_peek h1 ?_
    rw [if_pos (by rw [h2]; decide)]
    exact gives_pure.mpr ⟨rfl, rfl, rfl⟩
  · exact gives_pure.mpr ⟨rfl, rfl, rfl⟩

theorem sheet_comment {ρ : Type} {n : Nat} {rule : Prog ρ} {loop : List ρ → Prog (List ρ)} {rules : List ρ} {g cs cs' : List Cursor} {c : Cursor} {P : List ρ → Prop}
    (hg : Gap g) (hc : IsKind .cdcOrCdo c) (h : Steps src n cs (loop rules) cs' P) : Steps src (n + 1) (g ++ c :: cs) (sheetRest rule loop rules) cs' P := by
  have hct := notTrivia_of hc (by decide) (by decide)
  refine Steps.gap hg (Steps.eat (Steps.some (Tests.kind.congr hc) hct) (by rw [solid_cons hct]; exact fun e => by simpa using congrArg List.length e) ?_)
  rintro _ rfl
  exact Steps.pos rfl h

theorem sheet_rule {ρ : Type} {n : Nat} {rule : Prog ρ} {loop : List ρ → Prog (List ρ)} {rules : List ρ} {cs cs1 cs' : List Cursor} {c : Cursor} {more : List Cursor} {P : List ρ → Prop} {Q : ρ → Prop}
    (e : solid cs = c :: more) (h1 : c.token.isKind .cdcOrCdo = false) (h2 : c.token.isKind .eof = false) (hr : Steps src (n + 1) cs rule cs1 Q) (hne : solid cs1 ≠ solid cs)
    (h : ∀ r, Q r → Steps src n cs1 (loop (rules ++ [r])) cs' P) : Steps src (n + 1) cs (sheetRest rule loop rules) cs' P := by
  unfold sheetRest
  exact Steps.ifPeek_none e (Tests.kind.congr h1) (Steps.neg (by simp) (Steps.atEnd e (Steps.neg (by simp) (Steps.peek e (Steps.neg (by simp [h2]) (Steps.eat hr hne h))))))

theorem sheet_steps {m : Nat} : ∀ (s : SheetTree) (j : Nat) (rs : List (CssRule Val)), j ≤ m → s.Fits src →
    Steps src j s.tokens (styleSheetLoop (cssRule realValues m false) (j + 1) rs) [] fun r => ∃ rs', r = rs ++ rs' ∧ s.Becomes rs'
  | .done gap, j, rs, hj, hf => by
    refine ws_loop (L := fun n => styleSheetLoop (cssRule realValues m false) (n + 1) rs) (fun n => styleSheetLoop_succ ..) j fun k hk => ?_
    show Steps src (k + 1) gap _ _ _
    rw [← List.append_nil gap]
    refine Steps.gap hf ((sheet_done rfl).mono ?_)
    rintro _ rfl
    exact ⟨[], by simp, rfl⟩
  | .comment gap c more, j, rs, hj, ⟨hf, hs, hm⟩ => by
    refine ws_loop (L := fun n => styleSheetLoop (cssRule realValues m false) (n + 1) rs) (fun n => styleSheetLoop_succ ..) j fun k hk => ?_
    exact sheet_comment hf hs (sheet_steps more k rs (by omega) hm)
  | .rule r more, j, rs, hj, ⟨hr, hm⟩ => by
    refine ws_loop (L := fun n => styleSheetLoop (cssRule realValues m false) (n + 1) rs) (fun n => styleSheetLoop_succ ..) j fun k hk => ?_
    obtain ⟨c, ts, e, hk1⟩ := rule_first hr
    have e' : solid (r.tokens ++ more.tokens) = c :: (ts ++ solid more.tokens) := by rw [solid_append, e]; rfl
    show Steps src (k + 1) (r.tokens ++ more.tokens) _ _ _
    refine sheet_rule e' (begin_kind hk1 (by decide)) (begin_kind hk1 (by decide)) ((rule_steps r m false more.tokens hr).more (by omega)) (shorter e) fun x hx => (sheet_steps more k _ (by omega) hm).mono ?_
    rintro _ ⟨rs', rfl, h⟩
    exact ⟨x :: rs', by simp, x, rs', rfl, hx, h⟩

/-- A style sheet of the grammar is parsed into its rules, and nothing is left. -/
theorem C83_sheet_run_partial {p : Parser} (hr : Ready p) (hs : p.skip = KindSet.TRIVIA) {s : SheetTree} (ht : Stream p.lexer s.tokens) (hf : s.Fits p.lexer.source) :
    ∃ rules p', (cssStyleSheet realValues).run p = .ok (.ok rules, p') ∧ s.Becomes rules ∧ p'.skip = KindSet.TRIVIA ∧ p'.lexer.source = p.lexer.source ∧
      ∃ rest, Stream p'.lexer rest ∧ Gap rest := by
  obtain ⟨cs, hl, hlen⟩ := hr.left
  cases hl.stream.det ht
  obtain ⟨m, hm⟩ : ∃ m, p.fuel = m + 1 := ⟨p.fuel - 1, by omega⟩
  have hst : Stands p.lexer.source p s.tokens := ⟨hs, _, hl, rfl, by omega⟩
  obtain ⟨rules, q, w, h1, h2, ⟨rs', e, h3⟩⟩ := sheet_steps (m := p.fuel) s m [] (by omega) hf hst (fun t h => by cases h.det ht; omega)
  rw [List.nil_append] at e
  subst e
  obtain ⟨hq, rest, hl', hrest, _⟩ := h2
  refine ⟨rules, q, ?_, h3, hq, hl'.source, rest, hl'.stream, ?_⟩
  · have : Gives (cssStyleSheet realValues) p (.ok rules) q w := by
      unfold cssStyleSheet
      rw [← hm] at h1
      exact h1
    unfold Prog.run
    rw [show (cssStyleSheet realValues).runLog p = .ok (_, q, w) from this]
    rfl
  · exact gap_of_solid (by rw [← solid_ahead, hrest]; rfl)

/-- A style sheet of the grammar is parsed into its rules, without errors. -/
theorem C83_sheet_partial {src : List Char} (hs : byteLen src < 65536) {f : Features} (ht : Tame f src) {s : SheetTree} (hst : Stream (Parser.newWithFeatures src f).lexer s.tokens)
    (hf : s.Fits src) : ∃ rules ret l, Parser.parseEntirely (cssStyleSheet realValues).run (Parser.newWithFeatures src f) = .ok (ret, l) ∧ ret.output = some rules ∧ ret.errors = [] ∧
      s.Becomes rules := by
  obtain ⟨rules, p', h1, h2, h3, h4, rest, h5, h6⟩ := C83_sheet_run_partial (ready_new ht) rfl hst hf
  obtain ⟨⟨ret, l⟩, h⟩ := C36_total hs ht h1
  obtain ⟨r, q, rest', g1, g2, g3, g4, g5⟩ := C36_rest hs h
  rw [h1] at g1
  cases g1
  have : rest' = rest := Stream.lexedUntil_det g2 (by rw [g3]) h5
  subst this
  rcases g5 with ⟨_, he, _⟩ | ⟨⟨c, hc, hn⟩, _⟩
  · exact ⟨rules, ret, l, h, g4, he, h2⟩
  · rw [h3, h6 c hc] at hn
    cases hn

end

/-! ### A case that meets the hypotheses, and rules that are read in another way -/

def sampleSheet : List Char := c!"a>b {background-color:#f00;;&.x{top:inherit!important }}<!--d{}"
def sampleSheetToken (i : Nat) : Cursor := ((lexUpTo 40 (Parser.new sampleSheet).lexer).getD []).getD i ⟨0, Token.EOF⟩
def sampleSheetTree : SheetTree :=
  let t := sampleSheetToken
  .rule (.style [⟨[], [.tag (t 0), .child (t 1), .tag (t 2)], [], none⟩] [t 3] (t 4)
    (.declaration [t 5, t 6, t 7, t 8] ⟨t 5, c!"background-color", t 6, .typed [t 7], none, some (t 8)⟩
      (.semicolon [] (t 9)
        (.rule (.style [⟨[], [.nesting (t 10), .cls (t 11) (t 12)], [], none⟩] [] (t 13)
          (.declaration [t 14, t 15, t 16, t 17, t 18] ⟨t 14, c!"top", t 15, .wide c!"inherit" (t 16), some ⟨t 17, t 18⟩, none⟩ (.done [t 19])) (t 20))
        (.done [])))) (t 21))
  (.comment [] (t 22)
    (.rule (.style [⟨[], [.tag (t 23)], [], none⟩] [] (t 24) (.done []) (t 25)) (.done [])))

/-- The hypotheses of C83 are met: a rule with a declaration, a stray semicolon and a nested rule, and `<!--` before another rule. -/
example : byteLen sampleSheet < 65536 ∧ Tame {} sampleSheet ∧ Stream (Parser.newWithFeatures sampleSheet {}).lexer sampleSheetTree.tokens ∧ sampleSheetTree.Fits sampleSheet := by
  have hplain : PlainNames sampleSheet := plainNames_of (by unfold Upper; decide) (by decide)
  have htame : Tame {} sampleSheet := tame_of_ascii (by decide) (by decide)
  have hready : Ready (Parser.new sampleSheet) := ready_new htame
  have hstream : Stream (Parser.new sampleSheet).lexer sampleSheetTree.tokens := lexUpTo_stream 40 (by decide +kernel)
  have hclear : ∀ c ∈ sampleSheetTree.tokens, Clear sampleSheet c := by
    obtain ⟨x, hb⟩ := hready.before
    exact clear_of_stream hstream hb hready.tame hplain
  have hc : ∀ i, sampleSheetToken i ∈ sampleSheetTree.tokens → Clear sampleSheet (sampleSheetToken i) := fun i h => hclear _ h
  have hin : sampleSheetTree.tokens = (List.range 26).map sampleSheetToken := by decide +kernel
  replace hc : ∀ i, i < 26 → Clear sampleSheet (sampleSheetToken i) := fun i h => hc i (by rw [hin]; exact List.mem_map.mpr ⟨i, List.mem_range.mpr h, rfl⟩)
  refine ⟨by decide, htame, hstream, ⟨by simp, ?_, by decide +kernel, ?_, by decide +kernel, ⟨by decide +kernel, ⟨⟨by decide +kernel, by decide +kernel, hc 5 (by decide)⟩, by decide +kernel, ?_, ?_, ?_, nofun⟩,
    ?_, ?_, by decide +kernel, ?_, ⟨by simp, ?_, by decide +kernel, ?_, by decide +kernel, ⟨by decide +kernel, ⟨⟨by decide +kernel, by decide +kernel, hc 14 (by decide)⟩, by decide +kernel, ?_, ?_, ?_, nofun⟩, ?_, ?_⟩,
    by decide +kernel⟩, ?_⟩, by decide +kernel⟩, ?_, by decide +kernel, ⟨by simp, ?_, by decide +kernel, ?_, by decide +kernel, ?_, by decide +kernel⟩, ?_⟩
  · refine ⟨by simp [Gap], by simp, ⟨sampleSheetToken 0, rfl, by decide +kernel⟩, ⟨⟨by decide +kernel, by decide +kernel⟩, ⟨by decide +kernel, by decide +kernel⟩,
      ⟨by decide +kernel, by decide +kernel⟩, trivial⟩, by simp [Gap], ⟨rfl, rfl⟩, .inr ⟨[sampleSheetToken 3], sampleSheetToken 4, [], rfl, by unfold Gap; decide +kernel, by decide +kernel⟩⟩
  · unfold Gap; decide +kernel
  · refine ⟨by decide, ⟨fun c h => by cases List.mem_singleton.mp h; exact hc 7 (by decide), by decide +kernel, ?_⟩, ⟨(c!"BackgroundColorStyleValue", c!" <color> "), by decide +kernel, by decide +kernel, ?_⟩, ?_⟩
    · intro c h hk
      cases List.mem_singleton.mp h
      exact absurd hk (by decide +kernel)
    · exact meaningAt_of (d := .type .color) (by decide) (by decide) (by decide) rfl rfl (.type (.inl ⟨_, rfl, by decide +kernel⟩))
    · intro c h hk
      cases h
      exact absurd hk (by decide +kernel)
  · intro b h; cases h
  · intro c h
    cases h
    decide +kernel
  · intro h; cases h
  · intro c h; cases h
  · intro a b more h _
    have e : solid [sampleSheetToken 10, sampleSheetToken 11, sampleSheetToken 12, sampleSheetToken 13, sampleSheetToken 14, sampleSheetToken 15, sampleSheetToken 16, sampleSheetToken 17,
      sampleSheetToken 18, sampleSheetToken 19, sampleSheetToken 20] = a :: b :: more := h
    have e2 : (solid [sampleSheetToken 10, sampleSheetToken 11, sampleSheetToken 12, sampleSheetToken 13, sampleSheetToken 14, sampleSheetToken 15, sampleSheetToken 16, sampleSheetToken 17,
      sampleSheetToken 18, sampleSheetToken 19, sampleSheetToken 20])[1]? = some (sampleSheetToken 11) := by decide +kernel
    rw [e] at e2
    cases e2
    decide +kernel
  · refine ⟨by simp [Gap], by simp, ⟨sampleSheetToken 10, rfl, by decide +kernel⟩, ⟨⟨by decide +kernel, by decide +kernel⟩, ⟨⟨by decide +kernel, by decide +kernel⟩, by decide +kernel⟩,
      trivial⟩, by simp [Gap], ⟨rfl, rfl⟩, .inr ⟨[], sampleSheetToken 13, [], rfl, by simp [Gap], by decide +kernel⟩⟩
  · intro c h; cases h
  · exact ⟨by decide +kernel, by decide +kernel, hc 16 (by decide), by decide, by decide⟩
  · intro b h
    cases h
    exact ⟨⟨by decide +kernel, by decide +kernel⟩, ⟨by decide +kernel, .inl (by decide +kernel)⟩, hc 18 (by decide)⟩
  · intro c h; cases h
  · intro _; decide +kernel
  · unfold BlockTree.Fits Gap; decide +kernel
  · intro c h; cases h
  · intro c h; cases h
  · refine ⟨by simp [Gap], by simp, ⟨sampleSheetToken 23, rfl, by decide +kernel⟩, ⟨⟨by decide +kernel, by decide +kernel⟩, trivial⟩, by simp [Gap], ⟨rfl, rfl⟩,
      .inr ⟨[], sampleSheetToken 24, [], rfl, by simp [Gap], by decide +kernel⟩⟩
  · intro c h; cases h
  · intro c h; cases h
  · intro c h; cases h

def rawSheet : List Char := c!"a{--x:{b;c} d;width:calc(1px);foo:bar!important}"
def rawSheetToken (i : Nat) : Cursor := ((lexUpTo 40 (Parser.new rawSheet).lexer).getD []).getD i ⟨0, Token.EOF⟩
def rawSheetTree : SheetTree :=
  let t := rawSheetToken
  .rule (.style [⟨[], [.tag (t 0)], [], none⟩] [] (t 1)
    (.declaration [t 2, t 3, t 4, t 5, t 6, t 7, t 8, t 9, t 10, t 11] ⟨t 2, c!"--x", t 3, .custom [t 4, t 5, t 6, t 7, t 8, t 10], none, some (t 11)⟩
      (.declaration [t 12, t 13, t 14, t 15, t 16, t 17] ⟨t 12, c!"width", t 13, .computed [t 14, t 15, t 16], none, some (t 17)⟩
        (.declaration [t 18, t 19, t 20, t 21, t 22] ⟨t 18, c!"foo", t 19, .unknown [t 20, t 21, t 22], none, none⟩ (.done [])))) (t 23)) (.done [])

/-- The hypotheses of C83 are met: a custom property, a computed value and an unknown property. -/
example : byteLen rawSheet < 65536 ∧ Tame {} rawSheet ∧ Stream (Parser.newWithFeatures rawSheet {}).lexer rawSheetTree.tokens ∧ rawSheetTree.Fits rawSheet := by
  have hplain : PlainNames rawSheet := plainNames_of (by unfold Upper; decide) (by decide)
  have htame : Tame {} rawSheet := tame_of_ascii (by decide) (by decide)
  have hready : Ready (Parser.new rawSheet) := ready_new htame
  have hstream : Stream (Parser.new rawSheet).lexer rawSheetTree.tokens := lexUpTo_stream 40 (by decide +kernel)
  have hclear : ∀ c ∈ rawSheetTree.tokens, Clear rawSheet c := by
    obtain ⟨x, hb⟩ := hready.before
    exact clear_of_stream hstream hb hready.tame hplain
  have hc : ∀ i, rawSheetToken i ∈ rawSheetTree.tokens → Clear rawSheet (rawSheetToken i) := fun i h => hclear _ h
  have hin : rawSheetTree.tokens = (List.range 24).map rawSheetToken := by decide +kernel
  replace hc : ∀ i, i < 24 → Clear rawSheet (rawSheetToken i) := fun i h => hc i (by rw [hin]; exact List.mem_map.mpr ⟨i, List.mem_range.mpr h, rfl⟩)
  have hgap : Gap [] := by unfold Gap; exact nofun
  refine ⟨by decide, htame, hstream, ⟨by simp, ?_, by decide +kernel, hgap, by decide +kernel,
    ⟨by decide +kernel, ⟨⟨by decide +kernel, by decide +kernel, hc 2 (by decide)⟩, by decide +kernel, ⟨by decide +kernel, ?_⟩, nofun, ?_, fun _ => rfl⟩, nofun,
     by decide +kernel, ⟨⟨by decide +kernel, by decide +kernel, hc 12 (by decide)⟩, by decide +kernel, ⟨by decide, ?_, rawSheetToken 14, rfl, by decide +kernel, hc 14 (by decide), c!"calc", by decide, by decide +kernel⟩,
       nofun, ?_, fun _ => rfl⟩, nofun,
     by decide +kernel, ⟨⟨by decide +kernel, by decide +kernel, hc 18 (by decide)⟩, by decide +kernel, ⟨by decide, by decide +kernel, ?_, ?_⟩, nofun, nofun, fun _ => rfl⟩, fun _ => rfl, hgap⟩,
    by decide +kernel⟩, hgap⟩
  · refine ⟨hgap, by simp, ⟨rawSheetToken 0, rfl, by decide +kernel⟩, ⟨⟨by decide +kernel, by decide +kernel⟩, trivial⟩, hgap, ⟨rfl, rfl⟩, .inr ⟨[], rawSheetToken 1, [], rfl, hgap, by decide +kernel⟩⟩
  · have k (i : Nat) (k : Kind) (h : (rawSheetToken i).token.kind = k) : (rawSheetToken i).token.kind = k := h
    refine .block (inner := [rawSheetToken 5, rawSheetToken 6, rawSheetToken 7]) (cs := [rawSheetToken 10]) ?_ ?_ (.single (by decide +kernel) (by decide +kernel) .nil)
    · rw [k 4 .leftCurly (by decide +kernel), k 8 .rightCurly (by decide +kernel)]; constructor
    · exact .single (by decide +kernel) (.single (by decide +kernel) (.single (by decide +kernel) .nil))
  · intro c h; cases h; decide +kernel
  · exact .function (inner := [rawSheetToken 15]) (cs := []) (by decide +kernel) (by decide +kernel) (.single (by decide +kernel) .nil) .nil
  · intro c h; cases h; decide +kernel
  · exact .single (by decide +kernel) (by decide +kernel) (.single (by decide +kernel) (by decide +kernel) (.single (by decide +kernel) (by decide +kernel) .nil))
  · intro c h
    cases h
    exact ⟨hc 20 (by decide), fun _ => by decide +kernel, fun h => absurd h (by decide +kernel)⟩

/-- Of the first rule, if it is a style rule: how many declarations and how many rules are in it. -/
def firstBlock (src : List Char) : Option (Nat × Nat) :=
  match (cssStyleSheet realValues).run (Parser.new src) with
  | .ok (.ok (.style _ _ ds rs _ :: _), _) => some (ds.length, rs.length)
  | _ => none

/-- A nested rule that begins with an element name and a pseudo-class is not a rule (`NoDeclaration` is needed); after `&` it is. -/
theorem C83_counterexample_nested : firstBlock c!"a{b:hover{}}" ≠ some (0, 1) ∧ firstBlock c!"a{& b:hover{}}" = some (0, 1) := by decide +kernel
/-- A rule that begins with a dashed ident and a pseudo-class is not a rule. -/
theorem C83_counterexample_dashed : firstBlock c!"--b:hover{}" = none ∧ firstBlock c!"b:hover{}" = some (0, 0) := by decide +kernel

end Hdx

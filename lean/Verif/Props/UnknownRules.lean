/-
Properties C100 (an unknown at-rule does not affect the rules around it).
-/
import Verif.Spec.UnknownRules
import Verif.Props.SheetAccepts
import Verif.Props.MediaAccepts

namespace Hdx
open Spec Prog
section
variable {src : List Char} {n : Nat} {α : Type}

theorem units_of_prelude {w : List Cursor} (h : PreludeTokens w) : Units KindSet.LEFT_CURLY_OR_SEMICOLON w := by
  induction h with
  | nil => exact .nil
  | @single c cs h1 h2 _ ih => exact .cons (u := [c]) (.single h1) rfl (by revert h1 h2; cases c.token.kind <;> decide) ih
  | @block o e inner cs h1 h0 h2 _ ih =>
    have := Units.cons (S := KindSet.LEFT_CURLY_OR_SEMICOLON) (u := o :: (inner ++ [e])) (.block h1 h2) rfl
      (by revert h0 h1; cases o.token.kind <;> cases e.token.kind <;> intro h1 h0 <;> cases h1 <;> first | decide | exact absurd rfl h0) ih
    simpa using this
  | @function f e inner cs h1 h2 h3 _ ih =>
    have := Units.cons (S := KindSet.LEFT_CURLY_OR_SEMICOLON) (u := f :: (inner ++ [e])) (.function h1 h2 h3) rfl (by rw [h1]; decide) ih
    simpa using this

theorem prelude_first {c : Cursor} {w : List Cursor} (h : PreludeTokens (c :: w)) : c.token.inSet KindSet.LEFT_CURLY_OR_SEMICOLON = false := by
  generalize e : c :: w = w' at h
  cases units_of_prelude h with
  | nil => cases e
  | @cons u ts c' hu hc hS _ =>
    obtain ⟨d, us, rfl, _, hne, _⟩ := hu.first
    cases hc
    cases e
    rw [inSet_kind hne]; exact hS

theorem On.ended {p : Parser} (h : On src p []) : ∃ c, p.peekNext = .ok c ∧ c.token = Token.EOF := by
  obtain ⟨_, hs, cs, hl, hc, _⟩ := h
  refine ⟨_, peekNext_stream hl, ?_⟩
  unfold firstOutside
  rw [hs]
  have e : cs.dropWhile (fun c => c.token.inSet KindSet.TRIVIA) = [] := by
    have := ahead_gap (cs := []) (gap_of_solid hc)
    rw [List.append_nil] at this
    exact this
  rw [e]
  rfl

/-- No semicolon is next. -/
theorem no_semicolon {p : Parser} {ts : List Cursor} (h : On src p ts) (hs : ∀ c ∈ ts.head?, ¬ IsKind .semicolon c) :
    Gives (ifPeek (Prog.isKind .semicolon) (tok (Prog.isKind .semicolon))) p (.ok none) p [] := by
  have : ∃ c, p.peekNext = .ok c ∧ c.token.isKind .semicolon = false := by
    cases ts with
    | nil =>
      obtain ⟨c, h1, h2⟩ := h.ended
      exact ⟨c, h1, by rw [h2]; decide⟩
    | cons c ts => exact ⟨c, h.peek, Bool.eq_false_iff.mpr (hs c rfl)⟩
  obtain ⟨c, h1, h2⟩ := this
  unfold ifPeek
  refine gives_of_peek h1 (gives_seq (w1 := []) (gives_pure.mpr ⟨rfl, rfl, rfl⟩) ?_)
  rw [h2]
  exact gives_pure.mpr ⟨rfl, rfl, rfl⟩

/-- What is before the semicolon. -/
def PreludeBecomes (w : List Cursor) (vs : Option (List ComponentValue)) : Prop := (vs = none ↔ w = []) ∧ ∀ x ∈ vs, ReadsAs w x

/-- The at-keyword and the prelude; `b` reads the block. -/
theorem atRule_runs {β : Type} {b : Prog β} {m : Nat} {p : Parser} {a e : Cursor} {w rest : List Cursor} (ha : IsKind .atKeyword a) (hw : PreludeTokens w)
    (he : KindSet.LEFT_CURLY_OR_SEMICOLON.contains e.token.kind = true) (hne : e.token.kind ≠ .eof) (hp : On src p (a :: (w ++ e :: rest))) (hr : Room m p) (hstop : p.stop = KindSet.LEFT_CURLY_OR_SEMICOLON) :
    ∃ vs q2, On src q2 (e :: rest) ∧ q2.stop = KindSet.LEFT_CURLY_OR_SEMICOLON ∧ Room m q2 ∧ PreludeBecomes w vs ∧ ∀ {x : β} {q : Parser} {l : List Cursor}, Gives b q2 (.ok x) q l →
      ∃ l', Gives (atRule none (componentValues m) b) p (.ok (a, vs, x)) q l' := by
  obtain ⟨q, n1, n2, n3⟩ := On.step hp
  have hin : e.token.inSet KindSet.LEFT_CURLY_OR_SEMICOLON = true := by rw [inSet_kind hne]; exact he
  have hm : Room m q := n3.room (hr.mono (Nat.le_succ m))
  have hpre : ∃ c vs q2 l, q.peekNext = .ok c ∧ (∀ {γ : Type} {k : Option (List ComponentValue) → Prog γ} {r : Except Diag γ} {q' : Parser} {w' : List Cursor}, Gives (k vs) q2 r q' w' →
      Gives (if (q.atEnd || c.token.inSet KindSet.LEFT_CURLY_OR_SEMICOLON) = true then Pure.pure none >>= k else
        componentValues m >>= fun a => Pure.pure (some a) >>= k : Prog γ) q r q' (l ++ w')) ∧ On src q2 (e :: rest) ∧ PreludeBecomes w vs ∧ q2.stop = KindSet.LEFT_CURLY_OR_SEMICOLON ∧ Room m q2 := by
    cases w with
    | nil =>
      refine ⟨e, none, q, [], On.peek n2, fun h => ?_, n2, by simp [PreludeBecomes], n3.stop.trans hstop, hm⟩
      rw [if_pos (by simp [hin])]
      exact gives_seq (gives_pure.mpr ⟨rfl, rfl, rfl⟩) h
    | cons c w =>
      obtain ⟨vs, q2, l, j1, j2, j3, j4⟩ := loop_runs (item_runs m) (S := KindSet.LEFT_CURLY_OR_SEMICOLON) he m (acc := []) (units_of_prelude hw) n2 hm hm (n3.stop.trans hstop)
      refine ⟨c, some vs, q2, l, On.peek n2, fun h => ?_, j2, by simpa [PreludeBecomes] using j4, j3, room_between n2 j1 hm⟩
      rw [On.not_end (c := c) n2, if_neg (by simp [prelude_first hw])]
      rw [List.nil_append] at j1
      exact gives_seq (f := fun a => Pure.pure (some a) >>= _) (w2 := [] ++ _) j1 (gives_seq (gives_pure.mpr ⟨rfl, rfl, rfl⟩) h)
  obtain ⟨c, vs, q2, l, k1, k2, k3, k4, k5, k6⟩ := hpre
  refine ⟨vs, q2, k3, k5, k6, k4, fun {x q3 l2} hb => ⟨[a] ++ ([] ++ (l ++ (l2 ++ []))), ?_⟩⟩
  unfold atRule
  refine gives_seq (gives_isKind_ok.mpr ⟨n1, rfl, ha⟩) (gives_seq (w1 := []) (gives_pure.mpr ⟨rfl, rfl, rfl⟩) ?_)
  refine gives_of_peek k1 (gives_of_atEnd (k2 ?_))
  exact gives_seq hb (gives_pure.mpr ⟨rfl, rfl, rfl⟩)

theorem atRule_gives {g : Prog Rule} {m : Nat} {p : Parser} {a e : Cursor} {w rest : List Cursor} (ha : IsKind .atKeyword a) (hw : PreludeTokens w) (he : IsKind .semicolon e)
    (hp : On src p (a :: (w ++ e :: rest))) (hr : Room m p) (hstop : p.stop = KindSet.LEFT_CURLY_OR_SEMICOLON) :
    ∃ vs q l, Gives (atRule none (componentValues m) (optionalBlock g m)) p (.ok (a, vs, .inr (some e))) q l ∧ On src q rest ∧ PreludeBecomes w vs := by
  have hek : e.token.kind = .semicolon := (isKind_iff (by decide)).mp he
  obtain ⟨vs, q2, k3, _, _, k4, k5⟩ := atRule_runs (b := optionalBlock g m) ha hw (by rw [hek]; decide) (by rw [hek]; decide) hp hr hstop
  obtain ⟨q4, m1, m2, m3⟩ := On.step k3
  have hb : Gives (optionalBlock g m) q2 (.ok (.inr (some e))) q4 ([] ++ ([e] ++ [])) := by
    unfold optionalBlock
    refine gives_seq (w1 := []) (a := none) (gives_ifPeek.mpr ⟨e, false, q2, [], [], k3.peek, gives_pure.mpr ⟨?_, rfl, rfl⟩, rfl, .inr ⟨rfl, rfl, rfl, rfl⟩⟩) ?_
    · rw [isKind_kind (by rw [hek]; decide), hek]; rfl
    · refine gives_seq (gives_ifPeek.mpr ⟨e, true, q2, [], [e], k3.peek, gives_pure.mpr ⟨?_, rfl, rfl⟩, rfl, .inl ⟨rfl, e, rfl, ?_⟩⟩) (gives_pure.mpr ⟨rfl, rfl, rfl⟩)
      · rw [he]
      · exact gives_isKind_ok.mpr ⟨m1, rfl, he⟩
  obtain ⟨l', h⟩ := k5 hb
  exact ⟨vs, q4, l', h, m2, k4⟩


theorem ifPeek_no {p : Parser} {c : Cursor} {ts : List Cursor} {test : Cursor → Prog Bool} {body : Prog α} (h : On src p (c :: ts)) (ht : Gives (test c) p (.ok false) p []) :
    Gives (ifPeek test body) p (.ok none) p [] := gives_ifPeek.mpr ⟨c, false, p, [], [], h.peek, ht, rfl, .inr ⟨rfl, rfl, rfl, rfl⟩⟩

theorem ifPeek_yes {p q : Parser} {c : Cursor} {ts w : List Cursor} {a : α} {test : Cursor → Prog Bool} {body : Prog α} (h : On src p (c :: ts)) (ht : Gives (test c) p (.ok true) p [])
    (hb : Gives body p (.ok a) q w) : Gives (ifPeek test body) p (.ok (some a)) q w := gives_ifPeek.mpr ⟨c, true, p, [], w, h.peek, ht, rfl, .inl ⟨rfl, a, rfl, hb⟩⟩

theorem kind_gives {p : Parser} {c : Cursor} {k : Kind} {b : Bool} (h : c.token.isKind k = b) : Gives (Prog.isKind k c) p (.ok b) p [] := by
  subst h; exact gives_pure.mpr ⟨rfl, rfl, rfl⟩

theorem declaration_runs {m : Nat} {p : Parser} {nm co s : Cursor} {v rest : List Cursor} (h1 : IsKind .ident nm) (h2 : IsKind .colon co) (hv : PreludeTokens v) (hs : IsKind .semicolon s)
    (hp : On src p (nm :: co :: (v ++ s :: rest))) (hr : Room m p) (hstop : p.stop = KindSet.LEFT_CURLY_OR_SEMICOLON) :
    ∃ vs q w, Gives (declaration m) p (.ok ⟨nm, co, vs, none⟩) q w ∧ On src q (s :: rest) ∧ q.stop = KindSet.LEFT_CURLY_OR_SEMICOLON ∧ ReadsAs v vs := by
  obtain ⟨q1, a1, a2, a3⟩ := On.step hp
  obtain ⟨q2, b1, b2, b3⟩ := On.step a2
  have hm : Room m q2 := b3.room ((a3.room (hr.mono (Nat.le_succ m))).mono (Nat.le_succ m))
  have hsk : s.token.kind = .semicolon := (isKind_iff (by decide)).mp hs
  obtain ⟨vs, q, l, j1, j2, j3, j4⟩ := loop_runs (item_runs m) (S := KindSet.LEFT_CURLY_OR_SEMICOLON) (by rw [hsk]; decide) m (acc := []) (units_of_prelude hv) b2 hm hm (b3.stop.trans (a3.stop.trans hstop))
  rw [List.nil_append] at j1
  refine ⟨vs, q, [nm] ++ ([co] ++ (l ++ ([] ++ []))), ?_, j2, j3, j4⟩
  unfold declaration
  refine gives_seq (gives_isKind_ok.mpr ⟨a1, rfl, h1⟩) (gives_seq (gives_isKind_ok.mpr ⟨b1, rfl, h2⟩) (gives_seq (p1 := q) (a := vs) j1 (gives_seq (a := none) (p1 := q) (ifPeek_no j2 ?_) (gives_pure.mpr ⟨rfl, rfl, rfl⟩))))
  unfold isBangImportant
  rw [if_neg (by simp [not_kind hs (l := .delim) (by decide) (by decide) (by decide)])]
  exact gives_pure.mpr ⟨rfl, rfl, rfl⟩

theorem items_first {i : GenericItem} (h : i.Fits) : ∃ c ts, i.tokens = c :: ts ∧ ((IsKind .semicolon c ∧ i = .semicolon c) ∨ IsKind .ident c) := by
  cases i with
  | semicolon c => exact ⟨c, [], rfl, .inl ⟨h, rfl⟩⟩
  | declaration nm co v s => exact ⟨nm, _, rfl, .inr h.1⟩

theorem genericLoop_runs {rule : Prog Rule} {f : Nat} {close : Cursor} {rest : List Cursor} (hc : IsKind .rightCurly close) :
    ∀ (m : Nat) {p : Parser} {is : List GenericItem} {acc : List (Declaration × Option Cursor)}, (∀ i ∈ is, i.Fits) → On src p (itemsTokens is ++ close :: rest) → Room m p → Room f p →
      p.stop = KindSet.LEFT_CURLY_OR_SEMICOLON →
      ∃ ds q w, Gives (blockLoop isDeclaration (declaration f) rule m acc []) p (.ok (acc ++ ds, [])) q w ∧ On src q (close :: rest) ∧ GenericBecomes is ds := by
  intro m
  induction m with
  | zero =>
    intro p X acc _ ho hr
    obtain ⟨cs, hst, _⟩ := ho.stream
    exact absurd (hr _ hst) (by omega)
  | succ m ih =>
    intro p is acc hi ho hm hf hS
    have hf' : ∀ {q : Parser}, (∀ {k}, Room (k + 1) p → Room k q) → Room f q := fun h => by
      cases f with
      | zero => obtain ⟨cs, hst, _⟩ := ho.stream; exact absurd (hf _ hst) (by omega)
      | succ f => exact (h hf).mono (Nat.le_succ _)
    rw [blockLoop_succ]
    rcases ho.ws with ⟨c, q, g1, g2, _, g4, g5⟩ | hno
    · obtain ⟨ds, q2, w2, k1, k2, k3⟩ := ih (acc := acc) hi g4 (g5.room hm) (hf' g5.room) (g5.stop.trans hS)
      obtain ⟨d, ts, e⟩ : ∃ d ts, itemsTokens is ++ close :: rest = d :: ts := by cases itemsTokens is <;> exact ⟨_, _, rfl⟩
      exact ⟨ds, q2, _, gives_seq (ifPeek_yes (e ▸ ho) (g1 _) g2) k1, k2, k3⟩
    · have hws : Gives (ifPeek isWs whitespace) p (.ok none) p [] := by
        obtain ⟨d, ts, e⟩ : ∃ d ts, itemsTokens is ++ close :: rest = d :: ts := by cases itemsTokens is <;> exact ⟨_, _, rfl⟩
        exact ifPeek_no (e ▸ ho) (hno _)
      cases is with
      | nil =>
        have ho : On src p (close :: rest) := ho
        refine ⟨[], p, [] ++ ([] ++ []), gives_seq hws ?_, ho, rfl⟩
        show Gives (blockRest _ _ _ _ _ _) _ _ _ _
        unfold blockRest
        refine gives_seq (ifPeek_no ho (kind_gives (not_kind hc (by decide) (by decide) (by decide)))) ?_
        refine gives_of_atEnd ?_
        rw [On.not_end (c := close) ho]
        refine gives_of_peek ho.peek ?_
        rw [if_pos (show close.token.isKind .rightCurly = true from hc), List.append_nil]
        exact gives_pure.mpr ⟨rfl, rfl, rfl⟩
      | cons i is =>
        have hfi := hi i (.head _)
        have hi' : ∀ i ∈ is, i.Fits := fun x h => hi x (.tail _ h)
        cases i with
        | semicolon c =>
          have ho : On src p (c :: (itemsTokens is ++ close :: rest)) := by simpa [itemsTokens, GenericItem.tokens] using ho
          obtain ⟨q, a1, a2, a3⟩ := On.step ho
          obtain ⟨ds, q2, w2, k1, k2, k3⟩ := ih (acc := acc) hi' a2 (a3.room hm) (hf' a3.room) (a3.stop.trans hS)
          refine ⟨ds, q2, [] ++ ([c] ++ w2), gives_seq hws ?_, k2, k3⟩
          show Gives (blockRest _ _ _ _ _ _) _ _ _ _
          unfold blockRest
          exact gives_seq (ifPeek_yes ho (kind_gives hfi) (gives_isKind_ok.mpr ⟨a1, rfl, hfi⟩)) k1
        | declaration nm co v s =>
          obtain ⟨h1, h2, h3, h4⟩ := hfi
          have ho : On src p (nm :: co :: (v ++ s :: (itemsTokens is ++ close :: rest))) := by simpa [itemsTokens, GenericItem.tokens] using ho
          have ho1 : On src { p with nested := true } (nm :: co :: (v ++ s :: (itemsTokens is ++ close :: rest))) := ho.congr rfl rfl
          obtain ⟨vs, q, w, d1, d2, d3, d4⟩ := declaration_runs h1 h2 h3 h4 ho1 (hf.congr rfl) hS
          obtain ⟨q3, b1, b2, b3⟩ := On.step (p := { q with nested := p.nested }) (d2.congr rfl rfl)
          have hroom : ∀ {k}, Room (k + 1) p → Room k q3 := fun hk => b3.room ((room_between ho1 d1 (hk.congr rfl)).congr rfl)
          obtain ⟨ds, q2, w2, k1, k2, k3⟩ := ih (acc := acc ++ [(⟨nm, co, vs, none⟩, some s)]) hi' b2 (hroom hm) (hf' hroom) (b3.stop.trans d3)
          refine ⟨(⟨nm, co, vs, none⟩, some s) :: ds, q2, [] ++ ([] ++ (w ++ ([s] ++ w2))), gives_seq hws ?_, k2, vs, ds, rfl, d4, k3⟩
          show Gives (blockRest _ _ _ _ _ _) _ _ _ _
          unfold blockRest
          refine gives_seq (ifPeek_no ho (kind_gives (not_kind h1 (by decide) (by decide) (by decide)))) ?_
          refine gives_of_atEnd ?_
          rw [On.not_end (c := nm) ho]
          refine gives_of_peek ho.peek ?_
          rw [if_neg (by simp [not_kind h1 (l := .rightCurly) (by decide) (by decide) (by decide)])]
          refine gives_setState.mpr (gives_of_peek ho1.peek ?_)
          rw [if_neg (by simp [not_kind h1 (l := .atKeyword) (by decide) (by decide) (by decide)])]
          refine gives_seq (gives_result.mpr ⟨_, ifPeek_yes ho1 ?_ (gives_tryParse_ok.mpr d1), rfl⟩) ?_
          · unfold isDeclaration
            rw [if_pos (show nm.token.isKind .ident = true from h1)]
            refine gives_seq (w1 := []) (gives_peekN.mpr ⟨_, On.peekN (ts := [nm]) ho1, rfl, rfl, rfl⟩) ?_
            rw [show co.token.isKind .colon = true from h2]
            exact gives_pure.mpr ⟨rfl, rfl, rfl⟩
          · refine gives_setState.mpr (gives_seq (ifPeek_yes (d2.congr rfl rfl) (kind_gives h4) (gives_isKind_ok.mpr ⟨b1, rfl, h4⟩)) ?_)
            simpa using k1

theorem atBlock_gives {g : Prog Rule} {m : Nat} {p : Parser} {a o close : Cursor} {w rest : List Cursor} {items : List GenericItem} (ha : IsKind .atKeyword a) (hw : PreludeTokens w)
    (ho : IsKind .leftCurly o) (hi : ∀ i ∈ items, i.Fits) (hc : IsKind .rightCurly close)
    (hp : On src p (a :: (w ++ o :: (itemsTokens items ++ close :: rest)))) (hr : Room m p) (hstop : p.stop = KindSet.LEFT_CURLY_OR_SEMICOLON) :
    ∃ vs start ds q l, Gives (atRule none (componentValues m) (optionalBlock g m)) p (.ok (a, vs, .inl (start, ⟨o, ds, [], some close⟩))) q l ∧ On src q rest ∧ PreludeBecomes w vs ∧
      GenericBecomes items ds := by
  have hok : o.token.kind = .leftCurly := (isKind_iff (by decide)).mp ho
  obtain ⟨vs, q2, k3, kS, kR, k4, k5⟩ := atRule_runs (b := optionalBlock g m) ha hw (by rw [hok]; decide) (by rw [hok]; decide) hp hr hstop
  obtain ⟨q3, a1, a2, a3⟩ := On.step k3
  have hm : Room m q3 := a3.room (kR.mono (Nat.le_succ m))
  obtain ⟨ds, q4, w4, b1, b2, b3⟩ := genericLoop_runs (rule := g) hc m (acc := []) hi a2 hm hm (a3.stop.trans kS)
  rw [List.nil_append] at b1
  obtain ⟨q5, c1, c2, c3⟩ := On.step b2
  have hblock : Gives (block g m) q2 (.ok (q2.offset, ⟨o, ds, [], some close⟩)) q5 ([] ++ (([o] ++ (w4 ++ ([close] ++ []))) ++ [])) := by
    unfold block blockOf
    refine gives_seq (gives_offset.mpr ⟨rfl, rfl, rfl⟩) (gives_seq (gives_seq (gives_isKind_ok.mpr ⟨a1, rfl, ho⟩) (gives_seq b1
      (gives_seq (ifPeek_yes b2 (kind_gives hc) (gives_isKind_ok.mpr ⟨c1, rfl, hc⟩)) (gives_pure.mpr ⟨rfl, rfl, rfl⟩)))) (gives_pure.mpr ⟨rfl, rfl, rfl⟩))
  obtain ⟨l', h⟩ := k5 (x := .inl (q2.offset, ⟨o, ds, [], some close⟩)) (q := q5) (l := ([] ++ (([o] ++ (w4 ++ ([close] ++ []))) ++ [])) ++ []) (by
    unfold optionalBlock
    exact gives_seq (ifPeek_yes k3 (kind_gives ho) hblock) (gives_pure.mpr ⟨rfl, rfl, rfl⟩))
  exact ⟨vs, _, ds, q5, l', h, c2, k4, b3⟩

theorem unknownBlock_walks {g : Prog Rule} {m : Nat} (hm : n ≤ m) {a o close : Cursor} {w rest : List Cursor} {items : List GenericItem} (ha : IsKind .atKeyword a) (hw : PreludeTokens w)
    (ho : IsKind .leftCurly o) (hi : ∀ i ∈ items, i.Fits) (hc : IsKind .rightCurly close) (hs : ∀ c ∈ rest.head?, ¬ IsKind .semicolon c) :
    Walks src n (a :: (w ++ o :: (itemsTokens items ++ close :: rest))) (unknownAtRule g m : Prog (CssRule Val)) rest
      fun r => ∃ vs start ds, r = .unknownAt (.atBlock a vs start o ds [] (some close)) ∧ PreludeBecomes w vs ∧ GenericBecomes items ds := by
  intro p hp hr
  obtain ⟨vs, start, ds, q, l, h1, h2, h3, h4⟩ := atBlock_gives (g := g) (p := { p with stop := KindSet.LEFT_CURLY_OR_SEMICOLON }) ha hw ho hi hc (hp.congr rfl rfl) ((hr.mono hm).congr rfl) rfl
  have h2' : On src { q with stop := p.stop } rest := h2.congr rfl rfl
  refine ⟨_, { q with stop := p.stop }, (l ++ ([] ++ ([] ++ []))) ++ [], ?_, h2', vs, start, ds, rfl, h3, h4⟩
  unfold unknownAtRule genericAtRule
  refine gives_seq (f := fun r => (Pure.pure (CssRule.unknownAt r) : Prog (CssRule Val))) (gives_setStop.mpr (gives_seq (gives_result.mpr ⟨_, h1, rfl⟩) (gives_setStop.mpr ?_))) (gives_pure.mpr ⟨rfl, rfl, rfl⟩)
  exact gives_seq (gives_ofResult.mpr ⟨rfl, rfl, rfl⟩) (gives_seq (no_semicolon h2' hs) (gives_pure.mpr ⟨rfl, rfl, rfl⟩))

theorem unknownAt_walks {g : Prog Rule} {m : Nat} (hm : n ≤ m) {a e : Cursor} {w rest : List Cursor} (ha : IsKind .atKeyword a) (hw : PreludeTokens w) (he : IsKind .semicolon e)
    (hs : ∀ c ∈ rest.head?, ¬ IsKind .semicolon c) :
    Walks src n (a :: (w ++ e :: rest)) (unknownAtRule g m : Prog (CssRule Val)) rest fun r => ∃ vs, r = .unknownAt (.atStatement a vs (some e)) ∧ PreludeBecomes w vs := by
  intro p hp hr
  obtain ⟨vs, q, l, h1, h2, h3⟩ := atRule_gives (g := g) (p := { p with stop := KindSet.LEFT_CURLY_OR_SEMICOLON }) ha hw he (hp.congr rfl rfl) ((hr.mono hm).congr rfl) rfl
  have h2' : On src { q with stop := p.stop } rest := h2.congr rfl rfl
  refine ⟨_, { q with stop := p.stop }, (l ++ ([] ++ ([] ++ []))) ++ [], ?_, h2', vs, rfl, h3⟩
  unfold unknownAtRule genericAtRule
  refine gives_seq (f := fun r => (Pure.pure (CssRule.unknownAt r) : Prog (CssRule Val))) (gives_setStop.mpr (gives_seq (gives_result.mpr ⟨_, h1, rfl⟩) (gives_setStop.mpr ?_))) (gives_pure.mpr ⟨rfl, rfl, rfl⟩)
  exact gives_seq (gives_ofResult.mpr ⟨rfl, rfl, rfl⟩) (gives_seq (no_semicolon h2' hs) (gives_pure.mpr ⟨rfl, rfl, rfl⟩))

/-- Of the other names there is no parser, or one that always fails. -/
theorem no_parser {rule : Prog (CssRule Val)} {fuel : Nat} {name : List Char} (h : name ∉ readNames) :
    knownAtRule realValues rule fuel false name = none ∨ knownAtRule realValues rule fuel false name = some todoParser := by
  simp only [readNames, List.mem_cons, List.not_mem_nil, not_or, or_false] at h
  obtain ⟨h1, h2, h3, h4, h5, h6, h7, h8, h9, h10, h11, h12⟩ := h
  unfold knownAtRule
  simp only [beq_iff_eq, h1, h2, h3, h4, h5, h6, h7, h8, h9, h10, h11, h12, if_false, Bool.false_eq_true]
  repeat' split
  all_goals first | exact .inl rfl | exact .inr rfl

theorem atCssRule_unknown {rule : Prog (CssRule Val)} {generic : Prog Rule} {fuel : Nat} {ts ts' more : List Cursor} {a : Cursor} {name : List Char} {P : CssRule Val → Prop} (e : ts = a :: more)
    (hn : Named src a name) (hk : name ∉ readNames) (hp : Walks src n ts (unknownAtRule generic fuel) ts' P) : Walks src n ts (atCssRule realValues rule generic fuel false) ts' P := by
  subst e
  unfold atCssRule
  intro p ho hr
  rcases no_parser (rule := rule) (fuel := fuel) hk with h | h
  · obtain ⟨b, q, w, g1, g2, g3⟩ := hp ho hr
    refine ⟨b, q, [] ++ ([] ++ w), gives_seq (w1 := []) (gives_peekN.mpr ⟨_, On.peekN (ts := []) ho, rfl, rfl, rfl⟩) (gives_seq (Tests.lower hn ho.source) ?_), g2, g3⟩
    rw [h]
    exact g1
  · have e : (p.rewind p.checkpoint).lexer = p.lexer := rfl
    obtain ⟨b, q, w, g1, g2, g3⟩ := hp (p := p.rewind p.checkpoint) (ho.congr e rfl) (hr.congr e)
    refine ⟨b, q, [] ++ ([] ++ w), gives_seq (w1 := []) (gives_peekN.mpr ⟨_, On.peekN (ts := []) ho, rfl, rfl, rfl⟩) (gives_seq (Tests.lower hn ho.source) ?_), g2, g3⟩
    rw [h]
    refine gives_attempt.mpr ⟨.error ⟨.other, ⟨p.offset, p.offset⟩⟩, p, [], _, ?_, .inr ⟨?_, rfl, g1⟩⟩
    · unfold todoParser
      exact gives_seq (w1 := []) (gives_offset.mpr ⟨rfl, rfl, rfl⟩) (gives_ofResult.mpr ⟨rfl, rfl, rfl⟩)
    · rfl

/-- What comes after an unknown at-rule does not begin with a semicolon. -/
theorem mixed_first : ∀ {s : MixedSheet}, s.Fits src → ∀ c ∈ (solid s.tokens).head?, ¬ IsKind .semicolon c
  | .done gap, h => by
    have h : Gap gap := h
    intro c hc
    rw [MixedSheet.tokens, solid_gap h] at hc
    cases hc
  | .comment gap d more, ⟨hg, hd, _⟩ => by
    have hdt := notTrivia_of hd (by decide) (by decide)
    intro c hc
    rw [MixedSheet.tokens, solid_append, solid_gap hg, solid_cons hdt] at hc
    cases hc
    exact fun h => absurd ((isKind_iff (by decide)).mp h) (by rw [(isKind_iff (by decide)).mp hd]; decide)
  | .rule r more, ⟨hr, _⟩ => by
    obtain ⟨d, ts, e, hk⟩ := rule_first hr
    intro c hc
    rw [MixedSheet.tokens, solid_append, e] at hc
    cases hc
    have := begin_kind hk (l := .semicolon) (by decide)
    intro h
    rw [h] at this
    cases this
  | .unknown ts a pre semi more, ⟨e, ha, _⟩ => by
    intro c hc
    rw [MixedSheet.tokens, solid_append, e] at hc
    cases hc
    exact fun h => absurd ((isKind_iff (by decide)).mp h) (by rw [(isKind_iff (by decide)).mp ha]; decide)
  | .unknownBlock ts a pre o is cl more, ⟨e, ha, _⟩ => by
    intro c hc
    rw [MixedSheet.tokens, solid_append, e] at hc
    cases hc
    exact fun h => absurd ((isKind_iff (by decide)).mp h) (by rw [(isKind_iff (by decide)).mp ha]; decide)

theorem mixed_steps {m : Nat} : ∀ (s : MixedSheet) (j : Nat) (rs : List (CssRule Val)), j ≤ m → s.Fits src →
    Steps src j s.tokens (styleSheetLoop (cssRule realValues m false) (j + 1) rs) [] fun r => ∃ rs', r = rs ++ rs' ∧ s.Becomes rs'
  | .done gap, j, rs, hj, hf => by
    refine ws_loop (L := fun n => styleSheetLoop (cssRule realValues m false) (n + 1) rs) (fun n => styleSheetLoop_succ ..) j fun k hk => ?_
    show Steps src (k + 1) gap _ _ _
    rw [← List.append_nil gap]
    refine Steps.gap hf ((sheet_done rfl).mono ?_)
    rintro _ rfl
    exact ⟨[], by simp, rfl⟩
  | .comment gap c more, j, rs, hj, ⟨hf, hs, hm⟩ => by
    refine ws_loop (L := fun n => styleSheetLoop (cssRule realValues m false) (n + 1) rs) (fun n => styleSheetLoop_succ ..) j fun k hk => ?_
    exact sheet_comment hf hs (mixed_steps more k rs (by omega) hm)
  | .rule r more, j, rs, hj, ⟨hr, hm⟩ => by
    refine ws_loop (L := fun n => styleSheetLoop (cssRule realValues m false) (n + 1) rs) (fun n => styleSheetLoop_succ ..) j fun k hk => ?_
    obtain ⟨c, ts, e, hk1⟩ := rule_first hr
    have e' : solid (r.tokens ++ more.tokens) = c :: (ts ++ solid more.tokens) := by rw [solid_append, e]; rfl
    show Steps src (k + 1) (r.tokens ++ more.tokens) _ _ _
    refine sheet_rule e' (begin_kind hk1 (by decide)) (begin_kind hk1 (by decide)) ((rule_steps r m false more.tokens hr).more (by omega)) (shorter e) fun x hx => (mixed_steps more k _ (by omega) hm).mono ?_
    rintro _ ⟨rs', rfl, h⟩
    exact ⟨x :: rs', by simp, x, rs', rfl, hx, h⟩
  | .unknown ts a pre semi more, j, rs, hj, ⟨e, ha, ⟨name, hn, hname⟩, hp, hsemi, hm⟩ => by
    refine ws_loop (L := fun n => styleSheetLoop (cssRule realValues m false) (n + 1) rs) (fun n => styleSheetLoop_succ ..) j fun k hk => ?_
    have e' : solid (ts ++ more.tokens) = a :: (pre ++ semi :: solid more.tokens) := by rw [solid_append, e]; simp
    have not : ∀ {l : Kind}, l ≠ .eof → l ≠ .atKeyword → a.token.isKind l = false := fun h1 h2 => Bool.eq_false_iff.mpr fun h =>
      h2 (((isKind_iff h1).mp h).symm.trans ((isKind_iff (by decide)).mp ha))
    have hne : a.token.kind ≠ .eof := by rw [(isKind_iff (by decide)).mp ha]; decide
    show Steps src (k + 1) (ts ++ more.tokens) _ _ _
    refine sheet_rule (cs1 := more.tokens) (Q := fun r => ∃ vs, r = .unknownAt (.atStatement a vs (some semi)) ∧ PreludeBecomes pre vs) e' (not (by decide) (by decide))
      (by rw [isKind_kind hne]; simpa using hne) ?_ (shorter e) ?_
    · obtain ⟨m, rfl⟩ : ∃ m', m = m' + 1 := ⟨m - 1, by omega⟩
      refine Walks.steps ?_ (List.suffix_append ..)
      rw [e']
      unfold cssRule
      refine Walks.peek (Walks.pos ha (atCssRule_unknown rfl hn hname (unknownAt_walks (by omega) ha hp hsemi ?_)))
      exact mixed_first hm
    · rintro x ⟨vs, rfl, h1, h2⟩
      refine (mixed_steps more k _ (by omega) hm).mono ?_
      rintro _ ⟨rs', rfl, h⟩
      exact ⟨_ :: rs', by simp, vs, rs', rfl, h1, h2, h⟩
  | .unknownBlock ts a pre o is cl more, j, rs, hj, ⟨e, ha, ⟨name, hn, hname⟩, hp, ho, hi, hcl, hm⟩ => by
    refine ws_loop (L := fun n => styleSheetLoop (cssRule realValues m false) (n + 1) rs) (fun n => styleSheetLoop_succ ..) j fun k hk => ?_
    have e' : solid (ts ++ more.tokens) = a :: (pre ++ o :: (itemsTokens is ++ cl :: solid more.tokens)) := by rw [solid_append, e]; simp
    have not : ∀ {l : Kind}, l ≠ .eof → l ≠ .atKeyword → a.token.isKind l = false := fun h1 h2 => Bool.eq_false_iff.mpr fun h =>
      h2 (((isKind_iff h1).mp h).symm.trans ((isKind_iff (by decide)).mp ha))
    have hne : a.token.kind ≠ .eof := by rw [(isKind_iff (by decide)).mp ha]; decide
    show Steps src (k + 1) (ts ++ more.tokens) _ _ _
    refine sheet_rule (cs1 := more.tokens) (Q := fun r => ∃ vs start ds, r = .unknownAt (.atBlock a vs start o ds [] (some cl)) ∧ PreludeBecomes pre vs ∧ GenericBecomes is ds) e' (not (by decide) (by decide))
      (by rw [isKind_kind hne]; simpa using hne) ?_ (shorter e) ?_
    · obtain ⟨m, rfl⟩ : ∃ m', m = m' + 1 := ⟨m - 1, by omega⟩
      refine Walks.steps ?_ (List.suffix_append ..)
      rw [e']
      unfold cssRule
      refine Walks.peek (Walks.pos ha (atCssRule_unknown rfl hn hname (unknownBlock_walks (by omega) ha hp ho hi hcl ?_)))
      exact mixed_first hm
    · rintro x ⟨vs, start, ds, rfl, ⟨h1, h2⟩, h3⟩
      refine (mixed_steps more k _ (by omega) hm).mono ?_
      rintro _ ⟨rs', rfl, h⟩
      exact ⟨_ :: rs', by simp, vs, start, ds, rs', rfl, h1, h2, h3, h⟩

/-- A style sheet of rules of the grammar and of unknown at-rules is parsed without errors: the rules of the grammar become what they are, each unknown at-rule one rule that keeps its tokens. -/
theorem C100_sheet_partial {src : List Char} (hs : byteLen src < 65536) {f : Features} (ht : Tame f src) {s : MixedSheet} (hst : Stream (Parser.newWithFeatures src f).lexer s.tokens)
    (hf : s.Fits src) : ∃ rules ret l, Parser.parseEntirely (cssStyleSheet realValues).run (Parser.newWithFeatures src f) = .ok (ret, l) ∧ ret.output = some rules ∧ ret.errors = [] ∧
      s.Becomes rules := by
  have hr := ready_new (f := f) ht
  generalize hp : Parser.newWithFeatures src f = p at *
  have hskip : p.skip = KindSet.TRIVIA := by rw [← hp]; rfl
  have hsrc : p.lexer.source = src := by rw [← hp]; rfl
  have hrun : ∃ rules p', (cssStyleSheet realValues).run p = .ok (.ok rules, p') ∧ s.Becomes rules ∧ p'.skip = KindSet.TRIVIA ∧ ∃ rest, Stream p'.lexer rest ∧ Gap rest := by
    obtain ⟨cs, hl, hlen⟩ := hr.left
    cases hl.stream.det hst
    obtain ⟨m, hm⟩ : ∃ m, p.fuel = m + 1 := ⟨p.fuel - 1, by omega⟩
    have hst' : Stands p.lexer.source p s.tokens := ⟨hskip, _, hl, rfl, by omega⟩
    obtain ⟨rules, q, w, h1, h2, ⟨rs', e, h3⟩⟩ := mixed_steps (m := p.fuel) s m [] (by omega) (by rw [hsrc]; exact hf) hst' (fun t h => by cases h.det hst; omega)
    rw [List.nil_append] at e
    subst e
    obtain ⟨hq, rest, hl', hrest, _⟩ := h2
    refine ⟨rules, q, ?_, h3, hq, rest, hl'.stream, gap_of_solid (by rw [← solid_ahead, hrest]; rfl)⟩
    have : Gives (cssStyleSheet realValues) p (.ok rules) q w := by
      unfold cssStyleSheet
      rw [← hm] at h1
      exact h1
    unfold Prog.run
    rw [show (cssStyleSheet realValues).runLog p = .ok (_, q, w) from this]
    rfl
  subst hp
  obtain ⟨rules, p', h1, h2, h3, rest, h5, h6⟩ := hrun
  obtain ⟨⟨ret, l⟩, h⟩ := C36_total hs ht h1
  obtain ⟨r, q, rest', g1, g2, g3, g4, g5⟩ := C36_rest hs h
  rw [h1] at g1
  cases g1
  have : rest' = rest := Stream.lexedUntil_det g2 (by rw [g3]) h5
  subst this
  rcases g5 with ⟨_, he, _⟩ | ⟨⟨c, hc, hn⟩, _⟩
  · exact ⟨rules, ret, l, h, g4, he, h2⟩
  · rw [h3, h6 c hc] at hn
    cases hn

/-- Not an unknown at-rule. -/
def isKnownRule : CssRule Val → Bool
  | .unknownAt _ => false
  | _ => true

/-- The rules that are not unknown at-rules. -/
def knownRules (rs : List (CssRule Val)) : List (CssRule Val) := rs.filter isKnownRule

theorem becomes_known {r : RuleTree} {x : CssRule Val} (h : r.Becomes x) : isKnownRule x = true := by
  cases r with
  | style gs gap o body cl => obtain ⟨_, _, _, rfl, _⟩ := h; rfl
  | leaf cs l =>
    cases x <;> first | rfl | skip
    cases l <;> simp [RuleTree.Becomes, LeafRule.Becomes] at h
    obtain ⟨_, h, _⟩ := h
    split at h <;> cases h
  | media hd a q o body cl => obtain ⟨_, _, rfl, _⟩ := h; rfl
  | group hd a g o body cl => obtain ⟨_, rfl, _⟩ := h; cases g <;> rfl

theorem known_becomes : ∀ {s : MixedSheet} {rs : List (CssRule Val)}, s.Becomes rs → s.known.Becomes (knownRules rs)
  | .done _, rs, h => by
    have h : rs = [] := h
    subst h; exact rfl
  | .comment _ _ more, rs, h => known_becomes (s := more) h
  | .rule r more, rs, ⟨x, rs', e, h1, h2⟩ => by
    subst e
    refine ⟨x, knownRules rs', ?_, h1, known_becomes h2⟩
    unfold knownRules
    rw [List.filter_cons_of_pos (becomes_known h1)]
  | .unknown _ _ _ _ more, rs, ⟨vs, rs', e, _, _, h2⟩ => by
    subst e
    show more.known.Becomes (List.filter isKnownRule (_ :: rs'))
    rw [List.filter_cons_of_neg (by simp [isKnownRule])]
    exact known_becomes (s := more) h2
  | .unknownBlock _ _ _ _ _ _ more, rs, ⟨vs, _, _, rs', e, _, _, _, h2⟩ => by
    subst e
    show more.known.Becomes (List.filter isKnownRule (_ :: rs'))
    rw [List.filter_cons_of_neg (by simp [isKnownRule])]
    exact known_becomes (s := more) h2

/-- The unknown at-rules do not matter: the other rules of the result are what the style sheet without them would be. -/
theorem C100_apart_partial {src : List Char} (hs : byteLen src < 65536) {f : Features} (ht : Tame f src) {s : MixedSheet} (hst : Stream (Parser.newWithFeatures src f).lexer s.tokens)
    (hf : s.Fits src) {ret : Parser.Return (List (CssRule Val))} {l : Lexer} (h : Parser.parseEntirely (cssStyleSheet realValues).run (Parser.newWithFeatures src f) = .ok (ret, l)) :
    ∃ rules, ret.output = some rules ∧ ret.errors = [] ∧ s.known.Becomes (knownRules rules) := by
  obtain ⟨rules, ret', l', h1, h2, h3, h4⟩ := C100_sheet_partial hs ht hst hf
  rw [h1] at h
  cases h
  exact ⟨rules, h2, h3, known_becomes h4⟩

end

/-! ### A case that meets the hypotheses, and what is read in another way -/

def mixedSample : List Char := c!"@import \"x\" a;b{}@foo c[;{}]/**/;d{}@e;@f g{h:i;;}"
def mixedToken (i : Nat) : Cursor := ((lexUpTo 40 (Parser.new mixedSample).lexer).getD []).getD i ⟨0, Token.EOF⟩
def mixedTree : MixedSheet :=
  let t := mixedToken
  .unknown [t 0, t 1, t 2, t 3, t 4, t 5] (t 0) [t 2, t 4] (t 5)
    (.rule (.style [⟨[], [.tag (t 6)], [], none⟩] [] (t 7) (.done []) (t 8))
      (.unknown [t 9, t 10, t 11, t 12, t 13, t 14, t 15, t 16, t 17, t 18] (t 9) [t 11, t 12, t 13, t 14, t 15, t 16] (t 18)
        (.rule (.style [⟨[], [.tag (t 19)], [], none⟩] [] (t 20) (.done []) (t 21))
          (.unknown [t 22, t 23] (t 22) [] (t 23) (.unknownBlock [t 24, t 25, t 26, t 27, t 28, t 29, t 30, t 31, t 32, t 33] (t 24) [t 26] (t 27) [.declaration (t 28) (t 29) [t 30] (t 31), .semicolon (t 32)] (t 33) (.done []))))))

/-- The hypotheses of C100 are met: `@import`, for which hdx has no parser yet, an at-rule with brackets, one with nothing and one with a block, and style rules between them. -/
example : byteLen mixedSample < 65536 ∧ Tame {} mixedSample ∧ Stream (Parser.newWithFeatures mixedSample {}).lexer mixedTree.tokens ∧ mixedTree.Fits mixedSample := by
  have htame : Tame {} mixedSample := tame_of_ascii (by decide) (by decide)
  have hstream : Stream (Parser.new mixedSample).lexer mixedTree.tokens := lexUpTo_stream 40 (by decide +kernel)
  have hgap : Gap [] := by unfold Gap; exact nofun
  have k (i : Nat) (k : Kind) (h : (mixedToken i).token.kind = k) : (mixedToken i).token.kind = k := h
  refine ⟨by decide, htame, hstream, by decide +kernel, by decide +kernel, ⟨c!"import", by decide +kernel, by decide +kernel⟩,
    .single (by decide +kernel) (by decide +kernel) (.single (by decide +kernel) (by decide +kernel) .nil), by decide +kernel,
    ⟨by simp, ⟨hgap, by simp, ⟨mixedToken 6, rfl, by decide +kernel⟩, ⟨⟨by decide +kernel, by decide +kernel⟩, trivial⟩, hgap, ⟨rfl, rfl⟩, .inr ⟨[], mixedToken 7, [], rfl, hgap, by decide +kernel⟩⟩,
      by decide +kernel, hgap, by decide +kernel, hgap, by decide +kernel⟩,
    by decide +kernel, by decide +kernel, ⟨c!"foo", by decide +kernel, by decide +kernel⟩,
    .single (by decide +kernel) (by decide +kernel) (.block (inner := [mixedToken 13, mixedToken 14, mixedToken 15]) (cs := []) ?_ (by decide +kernel)
      (.single (by decide +kernel) (.block (inner := []) (cs := []) ?_ .nil .nil)) .nil), by decide +kernel,
    ⟨by simp, ⟨hgap, by simp, ⟨mixedToken 19, rfl, by decide +kernel⟩, ⟨⟨by decide +kernel, by decide +kernel⟩, trivial⟩, hgap, ⟨rfl, rfl⟩, .inr ⟨[], mixedToken 20, [], rfl, hgap, by decide +kernel⟩⟩,
      by decide +kernel, hgap, by decide +kernel, hgap, by decide +kernel⟩,
    by decide +kernel, by decide +kernel, ⟨c!"e", by decide +kernel, by decide +kernel⟩, .nil, by decide +kernel,
    by decide +kernel, by decide +kernel, ⟨c!"f", by decide +kernel, by decide +kernel⟩, .single (by decide +kernel) (by decide +kernel) .nil, by decide +kernel, ?_, by decide +kernel, hgap⟩
  · rw [k 12 .leftSquare (by decide +kernel), k 16 .rightSquare (by decide +kernel)]; constructor
  · rw [k 14 .leftCurly (by decide +kernel), k 15 .rightCurly (by decide +kernel)]; constructor
  · intro i hi
    simp only [List.mem_cons, List.not_mem_nil, or_false] at hi
    rcases hi with rfl | rfl
    · exact ⟨by decide +kernel, by decide +kernel, .single (by decide +kernel) (by decide +kernel) .nil, by decide +kernel⟩
    · show IsKind .semicolon (mixedToken 32); decide +kernel

/-- A closing bracket without its opening bracket, or a string that is not closed on its line, in an unknown at-rule: nothing of the style sheet is read. (In CSS both are parts of the prelude,
and the rule after the semicolon is read.) -/
theorem C100_counterexample_bracket : describeSheet c!"a{}@foo x)y;b{}" = none ∧ describeSheet c!"a{}@foo x;b{}" = some [[c!"style"], [c!"unknown at-rule"], [c!"style"]] ∧
    describeSheet c!"a{}@foo \"x\ny;b{}" = none := by decide +kernel

/-- Without the semicolon the at-rule swallows the next rule, as in CSS. -/
example : describeSheet c!"@foo x\nb{}c{}" = some [[c!"unknown at-rule"], [c!"style"]] := by decide +kernel

end Hdx

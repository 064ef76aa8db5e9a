/-
Properties C86-C89: highlighting.
-/
import Verif.Lemmas.Visits
import Verif.Props.RuleLabels
import Verif.Props.Lexical1

namespace Hdx
open Spec Prog Highlighter Lsp

variable {τ : Type} {V : Values τ} {src : List Char}

/-! ### Tokens of the source -/

/-- A token and its text. -/
structure TokenAt (src : List Char) (c : Cursor) (pre text post : List Char) : Prop where
  source : src = pre ++ text ++ post
  start : c.offset = byteLen pre
  stop : c.endOffset = byteLen pre + byteLen text
  length : c.token.len.toNat = byteLen text
  nonempty : text ≠ []
  not_newline : c.token.kind ≠ .whitespace → text.head? ≠ some '\n'

theorem starts_ws {l l' : Lexer} {x : List Char} {t : Token} (hb : l.Before x) (hl : byteLen x < 2 ^ 32) (ha : l.advance = .ok (t, l')) (h : x.head? = some '\n') : t.kind = .whitespace := by
  have run : ∀ P : Char → Prop, P '\n' → ∃ ws rest, x = ws ++ rest ∧ MaximalRun P ws rest := by
    intro P hP
    have split : ∀ y : List Char, ∃ ws rest, y = ws ++ rest ∧ (∀ c ∈ ws, P c) ∧ ¬ Starts P rest := by
      intro y
      induction y with
      | nil => exact ⟨[], [], rfl, nofun, by rintro ⟨_, _, e, _⟩; cases e⟩
      | cons a y ih =>
        obtain ⟨ws, rest, rfl, h1, h2⟩ := ih
        by_cases ha : P a
        · exact ⟨a :: ws, rest, rfl, by simpa [ha] using h1, h2⟩
        · exact ⟨[], _, rfl, nofun, by rintro ⟨_, _, e, hc⟩; cases e; exact ha hc⟩
    cases x with
    | nil => cases h
    | cons a r =>
      simp only [List.head?_cons, Option.some.injEq] at h
      subst h
      obtain ⟨ws, rest, rfl, h1, h2⟩ := split r
      exact ⟨'\n' :: ws, rest, rfl, nofun, by simpa [hP] using h1, h2⟩
  cases hf : l.features.separateWhitespace with
  | false =>
    obtain ⟨ws, rest, rfl, hr⟩ := run Ws (by simp [Ws, Newline])
    obtain ⟨t', ⟨l'', h1, _⟩, h2, _⟩ := C06_collapsed hb hf hr hl
    rw [ha] at h1; cases h1
    exact h2
  | true =>
    obtain ⟨ws, rest, rfl, hr⟩ := run Newline (by simp [Newline])
    obtain ⟨t', ⟨l'', h1, _⟩, h2, _⟩ := C06_separate (.inr (.inr ⟨rfl, rfl⟩)) hb hf hr hl
    rw [ha] at h1; cases h1
    exact h2

theorem lexed_tokens {l : Lexer} {cs : List Cursor} {off : Nat} (h : LexedUntil l cs off) : ∀ {x : List Char}, l.Before x → Tame l.features x → byteLen l.source < 65536 →
    cs.Pairwise (fun a b => a.endOffset ≤ b.offset) ∧ ∀ c ∈ cs, l.offset ≤ c.offset ∧ ∃ pre text post, TokenAt l.source c pre text post := by
  induction h with
  | done => intro x _ _ _; exact ⟨.nil, nofun⟩
  | @step l l1 t cs off ha hk h ih =>
    intro x hb ht hs
    have hne : x ≠ [] := by
      rintro rfl
      obtain ⟨pre, p1, p2⟩ := hb
      exact hk ((C03_eof_iff_at_end ha).mpr (by rw [p2, p1]; simp))
    obtain ⟨t', l'', text, cs', a1, a2, a3, a4, a5, a6, a7⟩ := advance_tame hb ht hne
    rw [ha] at a1; cases a1
    obtain ⟨k1, k2, k3⟩ := advance_keeps ha
    obtain ⟨h1, h2⟩ := ih a7 (by rw [k2]; rw [a3] at ht; exact ht.suffix) (by rw [k1]; exact hs)
    obtain ⟨pre, p1, p2⟩ := hb
    have hd : l.offset ≠ DUMMY := by
      have : l.offset ≤ byteLen l.source := by rw [p1, p2]; simp only [byteLen_eq, utf8Len_append]; omega
      unfold DUMMY; omega
    have he : (Cursor.mk l.offset t).endOffset = l.offset + t.len.toNat := by unfold Cursor.endOffset; simp [hd]
    refine ⟨.cons ?_ h1, ?_⟩
    · intro b hb'
      rw [he, ← k3]
      exact (h2 b hb').1
    · intro c hc
      rcases List.mem_cons.mp hc with rfl | hc
      · refine ⟨Nat.le_refl _, pre, text, cs', ⟨by rw [p1, a3, List.append_assoc], by simpa [byteLen_eq] using p2, ?_, a5, a4, ?_⟩⟩
        · rw [he, a5, p2, byteLen_eq, byteLen_eq]
        · intro hw hn
          refine hw (starts_ws (l := l) ⟨pre, p1, p2⟩ ht.limits.total ha ?_)
          rw [a3]
          cases text with
          | nil => exact absurd rfl a4
          | cons a b => simpa using hn
      · obtain ⟨g1, g2⟩ := h2 c hc
        exact ⟨by omega, by rw [← k1]; exact g2⟩

theorem Dealt.sub {α : Type} {a b cs : List α} (h : Dealt a b cs) : List.Sublist a cs := by
  induction h with
  | nil => exact .slnil
  | left _ ih => exact .cons_cons _ ih
  | right _ ih => exact .cons _ ih

/-! ### Labels -/

/-- What a visit says about its tokens. -/
def VisitLabel (src : List Char) : Visit τ → Prop
  | .tag kind c => TagLabel src kind c
  | .pseudoClass v colon ident => ∃ name, Label src (.pseudoClass v name colon ident) ∧ Touch colon ident
  | .styleDeclaration o c => Braces o c
  | .property d => DeclLabel src d
  | .propertyRule n => IsDashedIdent n
  | .propertyRuleProperty d => DeclLabel src d
  | .other _ => True

theorem selector_labels {ss : List (List Sel × Option Cursor)} (h : SelectorsLabel src ss) : ∀ v ∈ (selectorVisits ss : List (Visit τ)), VisitLabel src v := by
  intro v hv
  rcases List.mem_cons.mp hv with rfl | hv
  · trivial
  · obtain ⟨s, hs, hv⟩ := List.mem_flatMap.mp hv
    rcases List.mem_cons.mp hv with rfl | hv
    · trivial
    · obtain ⟨x, hx, hv⟩ := List.mem_flatMap.mp hv
      have hl := (h s hs).1 x hx
      cases x <;> simp only [Sel.visits, List.mem_cons, List.not_mem_nil, or_false] at hv
      case tag k c =>
        rcases hv with rfl | rfl
        · exact hl
        · trivial
      case pseudoClass vd n co i =>
        rcases hv with rfl | hv
        · exact ⟨n, hl⟩
        · cases vd <;> simp [Vendor.classVisits] at hv <;> subst hv <;> trivial
      case pseudoElement vd _ _ _ _ =>
        rcases hv with rfl | hv
        · trivial
        · cases vd <;> simp [Vendor.elementVisits] at hv <;> subst hv <;> trivial
      all_goals first | (subst hv; trivial) | exact hv.elim

theorem property_labels {d : Decl (StyleValue τ)} (h : DeclLabel src d) : ∀ v ∈ propertyVisits d, VisitLabel src v := by
  intro v hv
  simp only [propertyVisits, List.mem_cons, List.not_mem_nil, or_false] at hv
  rcases hv with rfl | rfl
  · exact h
  · trivial
theorem declarations_labels {ds : List (Decl (StyleValue τ) × Option Cursor)} (h : CommaLabel (DeclLabel src) .semicolon ds) :
    ∀ v ∈ declarationVisits ds, VisitLabel src v := by
  intro v hv
  obtain ⟨d, hd, hv⟩ := List.mem_flatMap.mp hv
  exact property_labels (h d hd).1 v hv

theorem own_labels {r : CssRule τ} (h : RuleLabel src r) : ∀ v ∈ r.ownVisits, VisitLabel src v := by
  have skip : ∀ {s : String} {vs : List (Visit τ)}, (∀ v ∈ vs, VisitLabel src v) → ∀ v ∈ (.other s :: vs), VisitLabel src v := by
    intro s vs h v hv
    rcases List.mem_cons.mp hv with rfl | hv
    · trivial
    · exact h v hv
  have app : ∀ {as bs : List (Visit τ)}, (∀ v ∈ as, VisitLabel src v) → (∀ v ∈ bs, VisitLabel src v) → ∀ v ∈ as ++ bs, VisitLabel src v := by
    intro as bs ha hb v hv
    exact (List.mem_append.mp hv).elim (ha v) (hb v)
  have others : ∀ {α : Type} {l : List α} {s : α → String}, ∀ v ∈ (l.map fun a => (Visit.other (s a) : Visit τ)), VisitLabel src v := by
    intro α l s v hv
    obtain ⟨a, _, rfl⟩ := List.mem_map.mp hv
    trivial
  cases r with
  | container _ q _ _ _ =>
    refine skip fun v hv => ?_
    obtain ⟨c, _, hv⟩ := List.mem_flatMap.mp hv
    have one : ∀ f : ContainerFeature, ∀ v ∈ (f.visits : List (Visit τ)), VisitLabel src v := by
      intro f v hv
      cases f <;> simp only [ContainerFeature.visits, List.mem_cons, List.not_mem_nil, or_false] at hv <;> subst hv <;> trivial
    unfold ContainerCondition.visits at hv
    cases hc : c.condition with
    | none => simp [hc] at hv
    | some q =>
      simp only [hc, Option.map_some, Option.getD_some] at hv
      cases q with
      | «is» f => exact one f v hv
      | not _ f => exact one f v hv
      | and fs => obtain ⟨f, _, hv⟩ := List.mem_flatMap.mp hv; exact one _ v hv
      | or fs => obtain ⟨f, _, hv⟩ := List.mem_flatMap.mp hv; exact one _ v hv
  | fontFace _ b =>
    refine skip fun v hv => ?_
    obtain ⟨_, _, hv⟩ := List.mem_flatMap.mp hv
    simp only [List.mem_cons, List.not_mem_nil, or_false] at hv
    rcases hv with rfl | rfl <;> trivial
  | keyframes _ _ b =>
    refine skip fun v hv => ?_
    obtain ⟨k, hk, hv⟩ := List.mem_flatMap.mp hv
    exact skip (app others (declarations_labels (h.2.2.2 k hk).2.2.2)) v hv
  | layerStatement _ ns _ => exact skip others
  | layerBlock _ ns _ _ _ => exact skip others
  | page _ s b =>
    refine skip (app (app others (declarations_labels h.2.2.2.1)) fun v hv => ?_)
    obtain ⟨m, hm, hv⟩ := List.mem_flatMap.mp hv
    exact skip (declarations_labels (h.2.2.2.2 m hm).2.2) v hv
  | property _ n b =>
    intro v hv
    rcases List.mem_cons.mp hv with rfl | hv
    · exact h.2.1
    · obtain ⟨d, hd, rfl⟩ := List.mem_map.mp hv
      exact (h.2.2.2 d hd).1.1
  | supports _ q _ _ _ =>
    refine skip ?_
    have one : ∀ f : SupportsFeature τ, SupportsLabel src f → ∀ v ∈ f.visits, VisitLabel src v := by
      intro f hf
      cases f with
      | selector _ _ ss _ _ => exact selector_labels hf.2.2.2.1
      | property _ d _ => exact property_labels hf.2.1
    have hq := h.2.1
    cases q with
    | «is» f => exact one f hq
    | not _ f => exact one f hq.2
    | and fs =>
      intro v hv
      obtain ⟨f, hf, hv⟩ := List.mem_flatMap.mp hv
      exact one _ (hq f hf).1 v hv
    | or fs =>
      intro v hv
      obtain ⟨f, hf, hm⟩ := List.mem_flatMap.mp hv
      obtain ⟨a, k, rest, rfl, h1, _, h2⟩ := hq
      rcases List.mem_cons.mp hf with rfl | hf
      · exact one _ h1 v hm
      · exact one _ (h2 f hf).1 v hm
  | document moz _ _ _ _ _ =>
    cases moz with
    | true => exact skip nofun
    | false => exact skip others
  | style ss o ds _ c =>
    refine skip (app (selector_labels h.1) fun v hv => ?_)
    rcases List.mem_cons.mp hv with rfl | hv
    · exact h.2.1
    · exact declarations_labels h.2.2 v hv
  | charset _ _ _ _ => exact skip nofun
  | media _ _ _ _ _ _ => nofun
  | webkitKeyframes _ _ _ => nofun
  | unknownAt _ => exact skip nofun
  | unknown _ => exact skip nofun
  | bad _ => nofun

theorem sheet_labels {rs : List (CssRule τ)} {vs : List (Visit τ)} (h : ∀ r ∈ rulesInAll rs, RuleLabel src r) (hv : sheetVisits rs = .ok vs) : ∀ v ∈ vs, VisitLabel src v := by
  intro v hm
  let f : Visit τ → List (Visit τ) := fun v => match v with
    | .other _ => []
    | v => [v]
  have hf : ∀ s, f (.other s) = [] := fun _ => rfl
  have e := sheetVisits_own hv f hf
  by_cases ho : ∃ s, v = .other s
  · obtain ⟨s, rfl⟩ := ho; trivial
  · have h1 : v ∈ vs.flatMap f := by
      refine List.mem_flatMap.mpr ⟨v, hm, ?_⟩
      cases v <;> simp_all [f]
    rw [e] at h1
    obtain ⟨r, hr, h1⟩ := List.mem_flatMap.mp h1
    obtain ⟨v', hv', h1⟩ := List.mem_flatMap.mp h1
    have : v' = v := by
      cases v' <;> simp_all [f]
    subst this
    exact own_labels (h r (walkedAll_mem hr)) _ hv'

/-! ### All together -/

theorem notEof_of {c : Cursor} {k : Kind} (hk : k ≠ .eof) (h : IsKind k c) : notEof c = true := by
  have h1 : c.token.kindBits = k.bits := by simpa [IsKind, Token.isKind] using h
  unfold notEof Token.isKind
  rw [h1]
  revert hk
  cases k <;> decide

theorem marks_kind {v : Visit τ} (h : VisitLabel src v) : ∀ c ∈ v.marks, IsKind .ident c ∨ IsKind .colon c ∨ IsKind .leftCurly c ∨ IsKind .rightCurly c := by
  intro c hc
  cases v with
  | tag k t => simp only [Visit.marks, List.mem_singleton] at hc; subst hc; exact .inl h.1
  | pseudoClass v a b =>
    obtain ⟨n, ⟨h1, h2, _⟩, _⟩ := h
    simp only [Visit.marks, List.mem_cons, List.not_mem_nil, or_false] at hc
    rcases hc with rfl | rfl
    · exact .inr (.inl h1)
    · exact .inl h2
  | styleDeclaration o cl =>
    simp only [Visit.marks, List.mem_cons, Option.mem_toList] at hc
    rcases hc with rfl | hc
    · exact .inr (.inr (.inl h.1))
    · exact .inr (.inr (.inr (h.2 c hc)))
  | property d =>
    simp only [Visit.marks, List.mem_cons, List.not_mem_nil, or_false] at hc
    rcases hc with rfl | rfl
    · exact .inl h.1
    · exact .inr (.inl h.2.1)
  | propertyRule n => simp only [Visit.marks, List.mem_singleton] at hc; subst hc; exact .inl h.1
  | propertyRuleProperty d =>
    simp only [Visit.marks, List.mem_cons, List.not_mem_nil, or_false] at hc
    rcases hc with rfl | rfl
    · exact .inl h.1
    · exact .inr (.inl h.2.1)
  | other s => cases hc

/-- What the visits of a parsed style sheet are. -/
structure SheetFacts (src : List Char) (tokens : List Cursor) (vs : List (Visit τ)) : Prop where
  ordered : tokens.Pairwise fun a b => a.endOffset ≤ b.offset
  texts : ∀ c ∈ tokens, ∃ pre text post, TokenAt src c pre text post
  labels : ∀ v ∈ vs, VisitLabel src v
  marks : ∀ v ∈ vs, ∀ c ∈ v.marks, c ∈ tokens
  once : (marksOf vs).Nodup

theorem sheetFacts {f : Features} {rules : List (CssRule τ)} {p' : Parser} {vs : List (Visit τ)} (ht : Tame f src) (hs : byteLen src < 65536)
    (h : (cssStyleSheet V).run (Parser.newWithFeatures src f) = .ok (.ok rules, p')) (hv : sheetVisits rules = .ok vs) :
    ∃ tokens, LexedUntil (Lexer.newWithFeatures src f) tokens p'.offset ∧ SheetFacts src tokens vs := by
  obtain ⟨w, hg⟩ := gives_of_run h
  obtain ⟨tr, cs, a1, b1, c1⟩ := (Prog.runLog_moved (cssStyleSheet V) (by simp [Parser.newWithFeatures])
    (by rw [byteLen_eq] at hs; exact hs) (by simp [Fits, Parser.newWithFeatures]) hg).tokens
  obtain ⟨o1, o2⟩ := lexed_tokens b1 (before_new src f) ht hs
  have hl : ∀ v ∈ vs, VisitLabel src v := sheet_labels (C80_style_sheet h) hv
  have hm : Amongst (marksOf vs) w := by
    have := Marks.cssStyleSheet (V := V) _ hg
    rw [sheetVisits_marks hv]
    simpa using this
  have sub := Dealt.sub c1
  have ne : ∀ c ∈ marksOf vs, notEof c = true := by
    intro c hc
    obtain ⟨v, hv', hc⟩ := List.mem_flatMap.mp hc
    rcases marks_kind (hl v hv') c hc with h | h | h | h
    all_goals exact notEof_of (by decide) h
  have cnt : ∀ c, (marksOf vs).count c ≤ cs.count c := by
    intro c
    by_cases hc : c ∈ marksOf vs
    · refine Nat.le_trans (hm c) (Nat.le_trans ?_ (sub.count_le c))
      rw [List.count_filter (ne c hc)]
      exact Nat.le_refl _
    · rw [List.count_eq_zero_of_not_mem hc]; exact Nat.zero_le _
  have pos : ∀ c ∈ cs, c.offset < c.endOffset := by
    intro c hc
    obtain ⟨_, pre, text, post, g⟩ := o2 c hc
    rw [g.start, g.stop]
    have := utf8Len_pos g.nonempty
    rw [byteLen_eq text]; omega
  have nd : cs.Nodup := by
    refine List.Pairwise.imp_of_mem ?_ o1
    intro a b ha hb hab e
    subst e
    have := pos a ha
    omega
  refine ⟨cs, b1, o1, fun c hc => (o2 c hc).2, hl, ?_, ?_⟩
  · intro v hv' c hc
    have h1 : 0 < (marksOf vs).count c := List.count_pos_iff.mpr (List.mem_flatMap.mpr ⟨v, hv', hc⟩)
    exact List.count_pos_iff.mp (Nat.lt_of_lt_of_le h1 (cnt c))
  · rw [List.nodup_iff_count]
    intro c
    exact Nat.le_trans (cnt c) (List.nodup_iff_count.mp nd c)

theorem apart_of_pairwise {l : List Cursor} (h : l.Pairwise fun a b => a.endOffset ≤ b.offset) {a b : Cursor} (ha : a ∈ l) (hb : b ∈ l) (hn : a ≠ b) :
    a.endOffset ≤ b.offset ∨ b.endOffset ≤ a.offset := by
  induction h with
  | nil => cases ha
  | cons h _ ih =>
    rcases List.mem_cons.mp ha with e1 | ha <;> rcases List.mem_cons.mp hb with e2 | hb
    · exact absurd (e1.trans e2.symm) hn
    · exact .inl (e1 ▸ h _ hb)
    · exact .inr (e2 ▸ h _ ha)
    · exact ih ha hb

namespace SheetFacts

variable {tokens : List Cursor} {vs : List (Visit τ)}

theorem pos (h : SheetFacts src tokens vs) {c : Cursor} (hc : c ∈ tokens) : c.offset < c.endOffset ∧ c.endOffset = c.offset + c.token.len.toNat := by
  obtain ⟨pre, text, post, g⟩ := h.texts c hc
  rw [g.start, g.stop, g.length]
  have := utf8Len_pos g.nonempty
  rw [byteLen_eq text]; omega

/-- The tokens of what is shown at a visit. -/
theorem hull (h : SheetFacts src tokens vs) {v : Visit τ} (hv : v ∈ vs) : ∀ x ∈ v.shows, ∃ a ∈ v.marks, ∃ b ∈ v.marks, x.span = ⟨a.offset, b.endOffset⟩ ∧ (a = b ∨ a.endOffset = b.offset) := by
  intro x hx
  have hl := h.labels v hv
  have hm := h.marks v hv
  cases v with
  | tag k t => simp only [Visit.shows, List.mem_singleton] at hx; subst hx; exact ⟨t, by simp [Visit.marks], t, by simp [Visit.marks], rfl, .inl rfl⟩
  | pseudoClass v a b =>
    obtain ⟨n, _, ht⟩ := hl
    simp only [Visit.shows, List.mem_singleton] at hx
    subst hx
    refine ⟨a, by simp [Visit.marks], b, by simp [Visit.marks], rfl, .inr ?_⟩
    rw [(h.pos (hm a (by simp [Visit.marks]))).2]
    exact ht.symm
  | styleDeclaration o cl =>
    simp only [Visit.shows, List.mem_cons, List.mem_map, Option.mem_toList, braceShows] at hx
    rcases hx with rfl | ⟨c, hc, rfl⟩
    · exact ⟨o, by simp [Visit.marks], o, by simp [Visit.marks], rfl, .inl rfl⟩
    · exact ⟨c, by simp [Visit.marks, Option.mem_def.mp hc], c, by simp [Visit.marks, Option.mem_def.mp hc], rfl, .inl rfl⟩
  | property d =>
    simp only [Visit.shows, declarationShows, List.mem_cons, List.not_mem_nil, or_false] at hx
    rcases hx with rfl | rfl
    · exact ⟨d.name, by simp [Visit.marks], d.name, by simp [Visit.marks], rfl, .inl rfl⟩
    · exact ⟨d.colon, by simp [Visit.marks], d.colon, by simp [Visit.marks], rfl, .inl rfl⟩
  | propertyRule n => simp only [Visit.shows, List.mem_singleton] at hx; subst hx; exact ⟨n, by simp [Visit.marks], n, by simp [Visit.marks], rfl, .inl rfl⟩
  | propertyRuleProperty d =>
    simp only [Visit.shows, declarationShows, List.mem_cons, List.not_mem_nil, or_false] at hx
    rcases hx with rfl | rfl
    · exact ⟨d.name, by simp [Visit.marks], d.name, by simp [Visit.marks], rfl, .inl rfl⟩
    · exact ⟨d.colon, by simp [Visit.marks], d.colon, by simp [Visit.marks], rfl, .inl rfl⟩
  | other s => cases hx

/-- Parts made of different tokens are apart. -/
theorem hulls_apart (h : SheetFacts src tokens vs) {a b c d : Cursor} (ha : a ∈ tokens) (hb : b ∈ tokens) (hc : c ∈ tokens) (hd : d ∈ tokens)
    (hab : a = b ∨ a.endOffset = b.offset) (hcd : c = d ∨ c.endOffset = d.offset) (h1 : a ≠ c) (h2 : a ≠ d) (h3 : b ≠ c) (h4 : b ≠ d) :
    Apart ⟨a.offset, b.endOffset⟩ ⟨c.offset, d.endOffset⟩ := by
  have pa := (h.pos ha).1
  have pb := (h.pos hb).1
  have pc := (h.pos hc).1
  have pd := (h.pos hd).1
  have q1 := apart_of_pairwise h.ordered ha hc h1
  have q2 := apart_of_pairwise h.ordered ha hd h2
  have q3 := apart_of_pairwise h.ordered hb hc h3
  have q4 := apart_of_pairwise h.ordered hb hd h4
  unfold Apart
  simp only
  rcases hab with rfl | hab <;> rcases hcd with rfl | hcd <;> omega

theorem shows_apart (h : SheetFacts src tokens vs) : (vs.flatMap Visit.shows).Pairwise fun a b => Apart a.span b.span := by
  have once := h.once
  unfold marksOf List.Nodup at once
  rw [List.pairwise_flatMap] at once ⊢
  obtain ⟨o1, o2⟩ := once
  refine ⟨fun v hv => ?_, List.Pairwise.imp_of_mem ?_ o2⟩
  · have hm := h.marks v hv
    have hd := o1 v hv
    have two : ∀ {a b : Cursor}, a ∈ tokens → b ∈ tokens → a ≠ b → Apart ⟨a.offset, a.endOffset⟩ ⟨b.offset, b.endOffset⟩ :=
      fun ha hb hn => apart_of_pairwise h.ordered ha hb hn
    cases v with
    | tag k t => exact List.pairwise_singleton _ _
    | pseudoClass v a b => exact List.pairwise_singleton _ _
    | propertyRule n => exact List.pairwise_singleton _ _
    | other s => exact .nil
    | property d =>
      simp only [Visit.marks, List.pairwise_cons, List.mem_singleton, forall_eq] at hd
      simp only [Visit.shows, declarationShows, List.pairwise_cons, List.mem_singleton, forall_eq, List.not_mem_nil, false_implies, implies_true, List.Pairwise.nil, and_true]
      exact two (hm _ (by simp [Visit.marks])) (hm _ (by simp [Visit.marks])) hd.1
    | propertyRuleProperty d =>
      simp only [Visit.marks, List.pairwise_cons, List.mem_singleton, forall_eq] at hd
      simp only [Visit.shows, declarationShows, List.pairwise_cons, List.mem_singleton, forall_eq, List.not_mem_nil, false_implies, implies_true, List.Pairwise.nil, and_true]
      exact two (hm _ (by simp [Visit.marks])) (hm _ (by simp [Visit.marks])) hd.1
    | styleDeclaration o cl =>
      cases cl with
      | none => exact List.pairwise_singleton _ _
      | some c =>
        simp only [Visit.marks, Option.toList_some, List.pairwise_cons, List.mem_singleton, forall_eq] at hd
        simp only [Visit.shows, braceShows, Option.toList_some, List.map_cons, List.map_nil, List.pairwise_cons, List.mem_singleton, forall_eq, List.not_mem_nil, false_implies, implies_true,
          List.Pairwise.nil, and_true]
        exact two (hm _ (by simp [Visit.marks])) (hm _ (by simp [Visit.marks])) hd.1
  · intro v1 v2 m1 m2 hne x hx y hy
    obtain ⟨a, ha, b, hb, e1, t1⟩ := h.hull m1 x hx
    obtain ⟨c, hc, d, hd, e2, t2⟩ := h.hull m2 y hy
    rw [e1, e2]
    exact h.hulls_apart (h.marks _ m1 _ ha) (h.marks _ m1 _ hb) (h.marks _ m2 _ hc) (h.marks _ m2 _ hd) t1 t2 (hne a ha c hc) (hne a ha d hd) (hne b hb c hc) (hne b hb d hd)

/-- What is inserted is what is to be shown. -/
theorem inserts_show (h : SheetFacts src tokens vs) : (vs.flatMap inserts).map show' = vs.flatMap Visit.shows := by
  have n0 : namesOf MODIFIERS NO_MODIFIER = [] := by decide
  have n1 : namesOf MODIFIERS UNKNOWN = ["Unknown"] := by decide
  have n2 : namesOf MODIFIERS DEPRECATED = ["Deprecated"] := by decide
  have n3 : namesOf MODIFIERS EXPERIMENTAL = ["Experimental"] := by decide
  have n4 : namesOf MODIFIERS CUSTOM = ["Custom"] := by decide
  have decl : ∀ (n c : Cursor) (u : Bool), (declarationHighlights n c u).map show' = declarationShows n c u := by
    intro n c u
    have e1 : ∀ a b : Bool, namesOf MODIFIERS ((if a then UNKNOWN else NO_MODIFIER) ||| (if b then CUSTOM else NO_MODIFIER)) = (if a then ["Unknown"] else []) ++ (if b then ["Custom"] else []) := by decide
    simp only [declarationHighlights, declarationShows, List.map_cons, List.map_nil, show', e1, n0]
    rfl
  rw [List.map_flatMap]
  have : ∀ v ∈ vs, (inserts v).map show' = v.shows := by
    intro v hv
    have hm := h.marks v hv
    cases v with
    | tag k t =>
      simp only [inserts, Visit.shows, List.map_cons, List.map_nil, show']
      cases k <;> simp only [tagModifier, tagShows, n0, n1, n2, n3, n4] <;> rfl
    | pseudoClass v a b =>
      have e : a.span.add b.span = ⟨a.offset, b.endOffset⟩ := by
        obtain ⟨n, _, ht⟩ := h.labels _ hv
        have p1 := h.pos (hm a (by simp [Visit.marks]))
        have p2 := h.pos (hm b (by simp [Visit.marks]))
        have ht : b.offset = a.offset + a.token.len.toNat := ht
        unfold Span.add Cursor.span
        simp only [Span.mk.injEq]
        constructor
        · rw [if_pos (by omega)]
        · rw [if_neg (by omega)]
      simp only [inserts, Visit.shows, List.map_cons, List.map_nil, show', e]
      cases v <;> simp only [pseudoClassModifier, n0, n2] <;> rfl
    | styleDeclaration o cl =>
      cases cl <;> simp only [inserts, Visit.shows, List.map_cons, List.map_nil, show', Option.map_none, Option.map_some, Option.toList_none, Option.toList_some, n0] <;> rfl
    | property d =>
      have : isUnknown d.value = NotKnown d.value := by cases d.value <;> rfl
      simp only [inserts, Visit.shows, decl, this]
    | propertyRule n => simp only [inserts, Visit.shows, List.map_cons, List.map_nil, show', n4]; rfl
    | propertyRuleProperty d =>
      have : isUnknownDescriptor d.value = NotKnownDescriptor d.value := by cases d.value <;> rfl
      simp only [inserts, Visit.shows, decl, this]
    | other s => rfl
  clear h
  induction vs with
  | nil => rfl
  | cons v vs ih => simp only [List.flatMap_cons]; rw [this v (by simp), ih fun v hv => this v (by simp [hv])]

/-- What is shown is not empty. -/
theorem shows_pos (h : SheetFacts src tokens vs) : ∀ x ∈ vs.flatMap Visit.shows, x.span.start < x.span.stop ∧ x.span.stop ≤ byteLen src := by
  intro x hx
  obtain ⟨v, hv, hx⟩ := List.mem_flatMap.mp hx
  obtain ⟨a, ha, b, hb, e, t⟩ := h.hull hv x hx
  have p1 := h.pos (h.marks _ hv _ ha)
  have p2 := h.pos (h.marks _ hv _ hb)
  obtain ⟨pre, text, post, g⟩ := h.texts _ (h.marks _ hv _ hb)
  have : b.endOffset ≤ byteLen src := by
    rw [g.stop, g.source]
    simp only [byteLen_eq, utf8Len_append]; omega
  rw [e]
  simp only
  refine ⟨?_, this⟩
  rcases t with rfl | t <;> omega

theorem inserts_apart (h : SheetFacts src tokens vs) : (vs.flatMap inserts).Pairwise fun a b => Apart a.span b.span := by
  have := h.shows_apart
  rw [← h.inserts_show, List.pairwise_map] at this
  exact this

theorem entries_eq (h : SheetFacts src tokens vs) : entries vs = (vs.flatMap inserts).reverse := by
  have pos : ∀ x ∈ vs.flatMap inserts, x.span.start < x.span.stop := by
    intro x hx
    have := h.shows_pos (show' x) (by rw [← h.inserts_show]; exact List.mem_map_of_mem hx)
    exact this.1
  have ne : (vs.flatMap inserts).Pairwise fun a b => a.span ≠ b.span := by
    refine List.Pairwise.imp_of_mem ?_ h.inserts_apart
    intro a b ha hb hab e
    have := pos a ha
    unfold Apart at hab
    rw [e] at hab this
    omega
  have key : ∀ (l acc : List Highlight), (acc.reverse ++ l).Pairwise (fun a b => a.span ≠ b.span) → l.foldl Highlighter.insert acc = l.reverse ++ acc := by
    intro l
    induction l with
    | nil => intro acc _; rfl
    | cons x l ih =>
      intro acc hp
      have hf : acc.filter (fun y => y.span != x.span) = acc := by
        rw [List.filter_eq_self]
        intro y hy
        have := (List.pairwise_append.mp hp).2.2 y (by simpa using hy) x (by simp)
        simpa using this
      simp only [List.foldl_cons, Highlighter.insert, hf]
      rw [ih (x :: acc) (by simpa using hp)]
      simp
  have := key (vs.flatMap inserts) [] (by simpa using ne)
  unfold entries
  rw [this]
  simp

end SheetFacts

end Hdx

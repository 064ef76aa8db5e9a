/-
The values of properties keep the tokens they are read from.
-/
import Verif.Spec.ValueOrder
import Verif.Lemmas.Kept

namespace Hdx
open Spec Prog

/-! ### The calculus -/

theorem Does.readNow {α : Type} {k : Parser → Prog α} {P : α → List Cursor → Prop} (h : ∀ p, Does (k p) P) : Does (Prog.read k) P :=
  fun p _ _ _ hp hg => h p hp hg

/-- The tokens `t` are those the value writes, in some order; in the same order, if the value is written in the order of the source. -/
def Holds (v : Val) (t : List Cursor) : Prop :=
  NoCircle v = true → t.Perm (taken v.cursors) ∧ (Straight v = true → Increasing t → t = taken v.cursors)
/-- The same for a list of values. -/
def HoldsAll (vs : List Val) (t : List Cursor) : Prop :=
  NoCircles vs = true → t.Perm (taken (Val.cursorsOf vs)) ∧ (StraightAll vs = true → Increasing t → t = taken (Val.cursorsOf vs))

theorem Holds.tok {c : Cursor} : Holds (.tok c) (taken [c]) := fun _ => ⟨.refl _, fun _ _ => rfl⟩
theorem HoldsAll.nil : HoldsAll [] [] := fun _ => ⟨.refl _, fun _ _ => rfl⟩
theorem HoldsAll.cons {v : Val} {vs : List Val} {t u : List Cursor} (h : Holds v t) (h' : HoldsAll vs u) : HoldsAll (v :: vs) (t ++ u) := by
  intro hc
  simp only [NoCircles, Bool.and_eq_true] at hc
  simp only [Val.cursorsOf, taken_append]
  refine ⟨(h hc.1).1.append (h' hc.2).1, fun hs hi => ?_⟩
  simp only [StraightAll, Bool.and_eq_true] at hs
  rw [← (h hc.1).2 hs.1.1 hi.left, ← (h' hc.2).2 hs.1.2 hi.right]
theorem HoldsAll.one {v : Val} {t : List Cursor} (h : Holds v t) : HoldsAll [v] t := by simpa using HoldsAll.cons h .nil
theorem HoldsAll.append {vs ws : List Val} {t u : List Cursor} (h : HoldsAll vs t) (h' : HoldsAll ws u) : HoldsAll (vs ++ ws) (t ++ u) := by
  have key : ∀ vs ws, (NoCircles (vs ++ ws) = (NoCircles vs && NoCircles ws)) ∧ Val.cursorsOf (vs ++ ws) = Val.cursorsOf vs ++ Val.cursorsOf ws := by
    intro vs ws
    induction vs with
    | nil => simp [NoCircles, Val.cursorsOf]
    | cons v vs ih => simp [NoCircles, Val.cursorsOf, ih.1, ih.2, Bool.and_assoc]
  have key2 : ∀ vs ws, StraightAll (vs ++ ws) = true → StraightAll vs = true ∧ StraightAll ws = true := by
    intro vs ws
    induction vs with
    | nil => simp [StraightAll]
    | cons v vs ih =>
      intro hs
      simp only [List.cons_append, StraightAll, Bool.and_eq_true, List.all_append] at hs ⊢
      exact ⟨⟨⟨hs.1.1, (ih hs.1.2).1⟩, hs.2.1⟩, (ih hs.1.2).2⟩
  intro hc
  rw [(key vs ws).1, Bool.and_eq_true] at hc
  rw [(key vs ws).2, taken_append]
  refine ⟨(h hc.1).1.append (h' hc.2).1, fun hs hi => ?_⟩
  rw [← (h hc.1).2 (key2 _ _ hs).1 hi.left, ← (h' hc.2).2 (key2 _ _ hs).2 hi.right]
theorem HoldsAll.fields {vs : List Val} {t : List Cursor} (h : HoldsAll vs t) : Holds (.fields vs) t := h
theorem Holds.variant {i : Nat} {v : Val} {t : List Cursor} (h : Holds v t) : Holds (.variant i v) t := h
theorem Holds.none : Holds (.opt none) [] := fun _ => ⟨.refl _, fun _ _ => rfl⟩
theorem Holds.some {v : Val} {t : List Cursor} (h : Holds v t) : Holds (.opt (some v)) t := (HoldsAll.one h).fields
theorem Holds.circular {v : Val} {t : List Cursor} : Holds (.circular v) t := fun h => by simp [NoCircle] at h
/-- Tokens in another order, which is not that of the source. -/
theorem Holds.perm {v : Val} {t u : List Cursor} (h : Holds v t) (hp : u.Perm t) (hn : NoCircle v = true → Straight v = true → Increasing u → False) : Holds v u :=
  fun hc => ⟨hp.trans (h hc).1, fun hs hi => (hn hc hs hi).elim⟩

theorem not_increasing {a b u w : List Cursor} (hb : before a b = true) (ha : ∀ c ∈ a, placed c = true → c ∈ w) (hbu : ∀ c ∈ b, placed c = true → c ∈ u)
    (hi : Increasing (u ++ w)) : False := by
  simp only [before, List.any_eq_true, Bool.and_eq_true, decide_eq_true_eq] at hb
  obtain ⟨x, hx, px, y, hy, py, lt⟩ := hb
  have := (List.pairwise_append.mp hi).2.2 y (hbu y hy py) x (ha x hx px) py px
  omega
theorem before_of_earlier {a b : List Cursor} (h : earlier a b = true) (ha : ∃ c ∈ a, placed c = true) (hb : ∃ c ∈ b, placed c = true) : before a b = true := by
  simp only [earlier, anyPlaced, Bool.or_eq_true, Bool.not_eq_true', or_assoc] at h
  rcases h with h | h | h
  · obtain ⟨c, hc, hp⟩ := ha
    rw [List.any_eq_true.mpr ⟨c, hc, hp⟩] at h; cases h
  · obtain ⟨c, hc, hp⟩ := hb
    rw [List.any_eq_true.mpr ⟨c, hc, hp⟩] at h; cases h
  · exact h
theorem mem_taken {c : Cursor} {l : List Cursor} (hc : c ∈ l) (hp : placed c = true) : c ∈ taken l := by
  simp only [placed, Bool.and_eq_true, Bool.not_eq_true'] at hp
  exact List.mem_map.mpr ⟨c, List.mem_filter.mpr ⟨hc, hp.1⟩, by simp [strip, hp.2]⟩
theorem of_mem_taken {c : Cursor} {l : List Cursor} (hc : c ∈ taken l) (hp : placed c = true) : c ∈ l := by
  obtain ⟨d, hd, rfl⟩ := List.mem_map.mp hc
  unfold strip at hp ⊢
  split
  · rename_i hb
    rw [if_pos hb] at hp
    simp [placed, hb] at hp
  · exact (List.mem_filter.mp hd).1

theorem Holds.optTok {o : Option Cursor} : Holds (.opt (o.map .tok)) (taken o.toList) := by
  cases o with
  | none => exact .none
  | some c => exact .some .tok

/-- A program whose value keeps the tokens. -/
abbrev SavesVal (x : Prog Val) : Prop := Does x Holds

theorem Holds.seq {x : Prog Val} {β : Type} {f : Val → Prog β} {P : β → List Cursor → Prop} (hx : SavesVal x)
    (hf : ∀ v t, Holds v t → Does (f v) fun b u => P b (t ++ u)) : Does (x >>= f) P := Does.bind hx hf

theorem Holds.optional {x : Prog Val} {test : Cursor → Prog Bool} (ht : Inspects test) (hx : SavesVal x) : Does (ifPeek test x) fun o t => Holds (.opt o) t :=
  (Does.ifPeek ht hx).mono fun o t h => by
    rcases h with ⟨rfl, rfl⟩ | ⟨v, rfl, h⟩
    · exact .none
    · exact .some h

theorem optCursor_does {test : Cursor → Prog Bool} (ht : Inspects test) : Does (ifPeek test (tok test)) fun o t => t = taken o.toList :=
  (Does.ifPeek ht (Exact.test ht)).mono fun o t h => by
    rcases h with ⟨rfl, rfl⟩ | ⟨c, rfl, rfl⟩ <;> rfl

theorem piece_saves {test : Cursor → Prog Bool} (ht : Inspects test) : SavesVal (piece test) :=
  Exact.next (.test ht) fun c => .pure (by rw [List.append_nil]; exact .tok)
theorem optPiece_saves {test : Cursor → Prog Bool} (ht : Inspects test) : SavesVal (optPiece test) :=
  Does.bind (optCursor_does ht) fun o t e => .pure (by subst e; rw [List.append_nil]; exact .optTok)

theorem sequence_saves : ∀ {xs : List (Prog Val)}, (∀ x ∈ xs, SavesVal x) → Does (sequence xs) HoldsAll
  | [], _ => .pure .nil
  | x :: xs, h => by
    unfold sequence
    refine Does.bind (h x (by simp)) fun v t hv => Does.bind (sequence_saves fun y hy => h y (by simp [hy])) fun vs u hvs => .pure ?_
    simpa using HoldsAll.cons hv hvs

/-! ### Tests -/

theorem Inspects.ite {b : Cursor → Prop} [∀ c, Decidable (b c)] {x y : Cursor → Prog Bool} (hx : Inspects x) (hy : Inspects y) :
    Inspects fun c => if b c then x c else y c := by
  intro c p r p' w h
  rcases gives_ite.mp h with ⟨_, h⟩ | ⟨_, h⟩
  · exact hx h
  · exact hy h
theorem Inspects.bind {α : Type} {x : Cursor → Prog α} {f : Cursor → α → Prog Bool} (hx : ∀ c ⦃p p' r w⦄, Gives (x c) p r p' w → p' = p ∧ w = [])
    (hf : ∀ a, Inspects fun c => f c a) : Inspects fun c => x c >>= f c := by
  intro c p r p' w h
  rcases gives_bind.mp h with ⟨a, p1, w1, w2, h1, h2, rfl⟩ | ⟨d, h1, _⟩
  · obtain ⟨rfl, rfl⟩ := hx c h1
    exact hf a h2
  · exact hx c h1
theorem Inspects.panic {e : Cursor → Panic} : Inspects fun c => Prog.panic (e c) := fun _ _ _ _ _ h => absurd h gives_panic
theorem Inspects.eqCase {name : List Char} : Inspects fun c => Prog.eqIgnoreAsciiCase c name := .ask
theorem Inspects.alone {test : Cursor → Prog Bool} (h : Inspects test) (c : Cursor) ⦃p p' : Parser⦄ ⦃r w⦄ (hg : Gives (test c) p r p' w) : p' = p ∧ w = [] := h hg
theorem Inspects.either {a b : Cursor → Prog Bool} (ha : Inspects a) (hb : Inspects b) : Inspects (Hdx.either a b) := by
  unfold Hdx.either
  refine .bind ha.alone fun v => ?_
  exact .ite (.pureTest (g := fun _ => true)) hb
theorem Inspects.word {name : List Char} : Inspects (isWordOf name) := .ite .eqCase (.pureTest (g := fun _ => false))
theorem Inspects.named {name : List Char} : Inspects (isNamed name) := .ite .eqCase (.pureTest (g := fun _ => false))
theorem Inspects.lengthPercentage : Inspects isLengthPercentage := by
  refine .ite (.pureTest (g := fun _ => true)) (.bind (isDimensionOf_inspects _).alone fun v => ?_)
  exact .ite (.pureTest (g := fun _ => true)) (isAnyDimension_inspects _)
theorem Inspects.unit {names : List (List Char)} : Inspects (isUnitOf names) :=
  .readThen (s := Prog.strLower) (g := fun s => names.contains s) (fun _ {p r p' w} h => by
    obtain ⟨_, _, _, rfl, rfl⟩ := gives_ask.mp h; exact ⟨rfl, rfl⟩) (fun c => c.token.isKind .dimension)
theorem Inspects.time : Inspects isTime := .ite (.pureTest (g := fun _ => true)) .unit
theorem Inspects.dashed : Inspects fun c => (pure (isDashed c) : Prog Bool) := .pureTest (g := isDashed)
theorem Inspects.hue : Inspects isHue := .either .kind (.either .unit .word)
theorem Inspects.channel : Inspects isChannel := .either .kind (.either (isDimensionOf_inspects _) .word)
theorem Inspects.color : Inspects isColor := .either .kind (.either .kind .kind)
theorem Inspects.positionValue : Inspects isPositionValue := .either .lengthPercentage .keyword
theorem Inspects.linearDirection : Inspects isLinearDirection := .either .unit .word
theorem Inspects.radialSize : Inspects isRadialSize := .either .lengthPercentage .keyword
theorem Inspects.image : Inspects isImage := .either .kind (.either .functionOf .named)
theorem Inspects.thickness : Inspects isThickness := .either (isDimensionOf_inspects _) .lengthPercentage
theorem Inspects.positionArea : Inspects isPositionArea :=
  .either .keyword (.either .keyword (.either .keyword (.either .keyword (.either .keyword (.either .keyword (.either .keyword .keyword))))))
theorem Inspects.lineWidth : Inspects isLineWidth := .either isLength_inspects .keyword
theorem Inspects.opacity : Inspects isOpacityValue := by
  refine .ite (.pureTest (g := fun _ => true)) (.bind (isDimensionOf_inspects _).alone fun v => ?_)
  exact .ite (.pureTest (g := fun c => f32UpTo 100 c.token.value)) (.pureTest (g := fun _ => false))
theorem Inspects.iterationCount : Inspects isIterationCount := .either isCssFloat_inspects .word
theorem Inspects.repeatStyle : Inspects isRepeatStyle := .either .keyword .keyword

/-! ### Tokens at known places -/

theorem placed_of_kind {c : Cursor} {k : Kind} (h : c.token.isKind k = true) (hk : k ≠ .eof) (hs : PAIR_START.contains k = false) (he : PAIR_END.contains k = false) :
    placed c = true := by
  have hkk := (isKind_iff hk).mp h
  have h1 : c.token.kind ≠ .eof := by rw [hkk]; exact hk
  have h2 : c.token.isKind .eof = false := by
    cases e : c.token.isKind .eof with
    | false => rfl
    | true => exact absurd (bits_inj ((kindBits_of_kind h1).symm.trans (by simpa [Token.isKind] using e))) h1
  simp [placed, notEof, isBracket, inSet_kind h1, hkk, hs, he, h2]

/-- The test accepts tokens at known places only. -/
def PlainTest (test : Cursor → Prog Bool) : Prop := ∀ c ⦃p p' w⦄, Gives (test c) p (.ok true) p' w → placed c = true

/-- A kind of token that is neither a bracket nor the end. -/
def plainKind (k : Kind) : Bool := decide (k ≠ .eof) && !PAIR_START.contains k && !PAIR_END.contains k
theorem placed_of_plain {c : Cursor} {k : Kind} (h : c.token.isKind k = true) (hk : plainKind k = true) : placed c = true := by
  simp only [plainKind, Bool.and_eq_true, decide_eq_true_eq, Bool.not_eq_true'] at hk
  exact placed_of_kind h hk.1.1 hk.1.2 hk.2

namespace PlainTest
theorem kind {k : Kind} (hk : plainKind k = true) : PlainTest (isKind k) := fun c _ _ _ h => by
  have := (gives_pure.mp h).1
  exact placed_of_plain (Except.ok.inj this).symm hk
theorem no : PlainTest fun _ => pure false := fun c _ _ _ h => by
  have := (gives_pure.mp h).1; cases this
theorem guard {k : Kind} (hk : plainKind k = true) {x y : Cursor → Prog Bool} (hy : PlainTest y) : PlainTest fun c => if c.token.isKind k then x c else y c := fun c _ _ _ h => by
  rcases gives_ite.mp h with ⟨hc, h⟩ | ⟨_, h⟩
  · exact placed_of_plain hc hk
  · exact hy c h
theorem guardAnd {k : Kind} (hk : plainKind k = true) {b : Cursor → Bool} {x y : Cursor → Prog Bool} (hy : PlainTest y) :
    PlainTest fun c => if (c.token.isKind k && b c) = true then x c else y c := fun c _ _ _ h => by
  rcases gives_ite.mp h with ⟨hc, h⟩ | ⟨_, h⟩
  · exact placed_of_plain (Bool.and_eq_true _ _ ▸ hc).1 hk
  · exact hy c h
theorem pureAnd {k : Kind} (hk : plainKind k = true) {b : Cursor → Bool} : PlainTest fun c => pure (c.token.isKind k && b c) := fun c _ _ _ h => by
  have := (Except.ok.inj (gives_pure.mp h).1).symm
  exact placed_of_plain (Bool.and_eq_true _ _ ▸ this).1 hk
theorem orElse {x y z : Cursor → Prog Bool} (hx : PlainTest x) (hz : PlainTest z) : PlainTest fun c => x c >>= fun b => if b = true then y c else z c := fun c p p' w h => by
  rcases gives_bind.mp h with ⟨a, p1, w1, w2, h1, h2, rfl⟩ | ⟨d, h1, e⟩
  · cases a with
    | true => exact hx c h1
    | false => exact hz c h2
  · cases e
theorem either {x y : Cursor → Prog Bool} (hx : PlainTest x) (hy : PlainTest y) : PlainTest (Hdx.either x y) := orElse hx hy
theorem keyword {names : List (List Char)} : PlainTest (isKeyword names) := guard (by decide) no
theorem functionOf {names : List (List Char)} : PlainTest (isFunctionOf names) := guard (by decide) no
theorem word {name : List Char} : PlainTest (isWordOf name) := guard (by decide) no
theorem named {name : List Char} : PlainTest (isNamed name) := guard (by decide) no
theorem unit {names : List (List Char)} : PlainTest (isUnitOf names) := guard (by decide) no
theorem dimension {u : DimensionUnit} : PlainTest (isDimensionOf u) := guard (by decide) no
theorem anyDimension : ∀ us, PlainTest (isAnyDimension us)
  | [] => no
  | u :: us => orElse dimension (anyDimension us)
theorem length : PlainTest isLength := guardAnd (by decide) (anyDimension _)
theorem lengthPercentage : PlainTest isLengthPercentage := guardAnd (by decide) (orElse dimension (anyDimension _))
theorem time : PlainTest isTime := guardAnd (by decide) unit
theorem int : PlainTest isCssInt := pureAnd (by decide)
theorem float : PlainTest isCssFloat := pureAnd (by decide)
theorem dashed : PlainTest fun c => (pure (isDashed c) : Prog Bool) := pureAnd (by decide)
theorem color : PlainTest isColor := either (kind (by decide)) (either (kind (by decide)) (kind (by decide)))
theorem positionValue : PlainTest isPositionValue := either lengthPercentage keyword
theorem thickness : PlainTest isThickness := either dimension lengthPercentage
theorem lineWidth : PlainTest isLineWidth := either length keyword
theorem opacity : PlainTest isOpacityValue := guardAnd (by decide) (orElse dimension no)
end PlainTest

/-- The tokens are none, or one is at a known place. -/
def Firm (t : List Cursor) : Prop := t = [] ∨ ∃ c ∈ t, placed c = true
theorem Firm.append {t u : List Cursor} (h : Firm t) (h' : Firm u) : Firm (t ++ u) := by
  rcases h with rfl | ⟨c, hc, hp⟩
  · exact h'
  · exact .inr ⟨c, List.mem_append_left _ hc, hp⟩

/-- A program that takes no token, or one at a known place. -/
abbrev FirmVal {α : Type} (x : Prog α) : Prop := Does x fun _ t => Firm t
/-- A program that takes a token at a known place. -/
abbrev Opens {α : Type} (x : Prog α) : Prop := Does x fun _ t => ∃ c ∈ t, placed c = true

namespace FirmVal
variable {α β : Type}
theorem bind {x : Prog α} {f : α → Prog β} (hx : FirmVal x) (hf : ∀ a, FirmVal (f a)) : FirmVal (x >>= f) :=
  Does.bind hx fun a _ h => (hf a).mono fun _ _ h' => h.append h'
theorem start {x : Prog α} {f : α → Prog β} (hx : Opens x) (hu : Usual (x >>= f)) : Opens (x >>= f) := by
  intro p p' r w hp hg
  refine ⟨(hu hp hg).1, fun b e => ?_⟩
  subst e
  rcases gives_bind.mp hg with ⟨a, p1, w1, w2, h1, h2, rfl⟩ | ⟨d, _, e⟩
  · obtain ⟨c, hc, hpl⟩ := (hx hp h1).2 a rfl
    exact ⟨c, by rw [taken_append]; exact List.mem_append_left _ hc, hpl⟩
  · cases e
theorem pure {a : α} : FirmVal (Pure.pure a : Prog α) := Does.pure (.inl rfl)
theorem of {x : Prog α} (h : Does x fun _ t => t = []) : FirmVal x := h.mono fun _ _ e => .inl e
theorem starts {x : Prog α} (h : Opens x) : FirmVal x := h.mono fun _ _ e => .inr e
theorem first {x : Prog α} {f : α → Prog β} (hx : Opens x) (hu : Usual (x >>= f)) : FirmVal (x >>= f) := starts (start hx hu)
theorem ite {b : Prop} [Decidable b] {x y : Prog α} (hx : b → FirmVal x) (hy : ¬ b → FirmVal y) : FirmVal (if b then x else y) := Does.ite hx hy
theorem readNow {k : Parser → Prog α} (h : ∀ p, FirmVal (k p)) : FirmVal (Prog.read k) := Does.readNow h
theorem look {x : Prog α} {f : α → Prog β} (hx : Does x fun _ t => t = []) (hf : ∀ a, FirmVal (f a)) : FirmVal (x >>= f) := bind (of hx) hf
theorem ifPeek {test : Cursor → Prog Bool} (ht : Inspects test) {x : Prog α} (hx : FirmVal x) : FirmVal (Prog.ifPeek test x) :=
  (Does.ifPeek ht hx).mono fun o t h => by
    rcases h with ⟨_, rfl⟩ | ⟨_, _, h⟩
    · exact .inl rfl
    · exact h
theorem tok {test : Cursor → Prog Bool} (ht : Inspects test) (hp : PlainTest test) : Does (Prog.tok test) fun c t => t = taken [c] ∧ placed c = true :=
  Does.ofModes (.tok ht.modes) fun _ _ => .tok ht fun c _ _ hg _ => ⟨rfl, hp c hg⟩
theorem one {test : Cursor → Prog Bool} (ht : Inspects test) (hp : PlainTest test) : Opens (Prog.tok test) :=
  (tok ht hp).mono fun c t h => by
    obtain ⟨rfl, h⟩ := h
    exact ⟨c, mem_taken (by simp) h, h⟩
theorem keyword {names : List (List Char)} : Does (Hdx.keyword names) fun x t => t = taken [x.2] ∧ placed x.2 = true := by
  unfold Hdx.keyword
  refine Does.bind (tok .keyword .keyword) fun c t h => buildKeyword_does.mono fun x u e => ?_
  obtain ⟨e, rfl⟩ := e
  obtain ⟨rfl, h⟩ := h
  rw [e]
  exact ⟨List.append_nil _, h⟩
theorem functionOf {names : List (List Char)} : Opens (Hdx.functionOf names) := start (one .functionOf .functionOf) Exact.functionOf.usual
theorem oneKeyword {names : List (List Char)} : Opens (Hdx.keyword names) := start (one .keyword .keyword) Exact.keyword.usual
theorem maybeKeyword {names : List (List Char)} : FirmVal (Prog.ifPeek (isKeyword names) (Hdx.keyword names)) := ifPeek .keyword (starts oneKeyword)
theorem maybe {test : Cursor → Prog Bool} (ht : Inspects test) (hp : PlainTest test) : FirmVal (Prog.ifPeek test (Prog.tok test)) := ifPeek ht (starts (one ht hp))
theorem piece {test : Cursor → Prog Bool} (ht : Inspects test) (hp : PlainTest test) : FirmVal (Hdx.piece test) := bind (starts (one ht hp)) fun _ => pure
end FirmVal

/-! ### Definitions -/

/-- A type whose `Peek` looks only, and whose `Parse` keeps the tokens. -/
structure Leaf.Ok (l : Leaf) : Prop where
  test : Inspects l.test
  parser : SavesVal l.parser
  firm : FirmVal l.parser

theorem Leaf.Ok.single {test : Cursor → Prog Bool} (h : Inspects test) (hp : PlainTest test) : (Leaf.single test).Ok := ⟨h, piece_saves h, FirmVal.piece h hp⟩
theorem Leaf.Ok.keywords {names : List (List Char)} : (Leaf.keywords names).Ok :=
  ⟨.keyword, Exact.next .keyword fun x => .pure (by rw [List.append_nil]; exact .tok), FirmVal.bind (FirmVal.starts FirmVal.oneKeyword) fun _ => FirmVal.pure⟩

variable {env : List Char → Leaf}

theorem DefType.leaf_ok (he : ∀ n, (env n).Ok) (t : DefType) : (t.leaf env).Ok := by
  cases t
  case length => exact .single isLength_inspects .length
  case lengthPercentage => exact .single .lengthPercentage .lengthPercentage
  case angle => exact .single .unit .unit
  case time => exact .single .time .time
  case resolution => exact .single .unit .unit
  case integer => exact .single isCssInt_inspects .int
  case number => exact .single isCssFloat_inspects .float
  case percentage => exact .single isCssFloat_inspects .float
  case color => exact he _
  case string => exact .single .kind (.kind (by decide))
  case image => exact he _
  case image1D => exact he _
  case dashedIdent => exact .single .dashed .dashed
  case customIdent => exact .single .kind (.kind (by decide))
  case custom => exact he _

theorem DefType.steps_firm (he : ∀ n, (env n).Ok) (t : DefType) : FirmVal (t.steps env) := by
  unfold DefType.steps
  refine FirmVal.look (Does.ask fun _ => rfl) fun start => FirmVal.bind (t.leaf_ok he).firm fun v => ?_
  have err : ∀ (d : Diag) , FirmVal (ofResult (.error d) : Prog Val) := fun d => .ofResult fun _ e => by cases e
  split
  · exact FirmVal.ite (fun _ => FirmVal.look (Does.ask fun _ => rfl) fun stop => err _) fun _ => FirmVal.pure
  · exact FirmVal.ite (fun _ => FirmVal.look (Does.ask fun _ => rfl) fun stop => err _) fun _ => FirmVal.pure
  · exact .panic
  · exact FirmVal.pure
  · exact FirmVal.pure

theorem DefType.steps_saves (he : ∀ n, (env n).Ok) (t : DefType) : SavesVal (t.steps env) := by
  unfold DefType.steps
  refine Exact.look (Does.ask fun _ => rfl) fun start => Holds.seq (t.leaf_ok he).parser fun v u hv => ?_
  have done : Does (pure v : Prog Val) fun b w => Holds b (u ++ w) := .pure (by simpa using hv)
  have err : ∀ (d : Diag) , Does (ofResult (.error d) : Prog Val) fun b w => Holds b (u ++ w) := fun d => .ofResult fun _ e => by cases e
  split
  · exact Does.ite (fun _ => Exact.look (Does.ask fun _ => rfl) fun stop => err _) fun _ => done
  · exact Does.ite (fun _ => Exact.look (Does.ask fun _ => rfl) fun stop => err _) fun _ => done
  · exact .panic
  · exact done
  · exact done

mutual
theorem Def.test_inspects (he : ∀ n, (env n).Ok) : ∀ d : Def, Inspects (d.test env)
  | .type t => by
    intro c p r p' w h
    rw [Def.test] at h
    exact (t.leaf_ok he).test h
  | .ident n => by
    intro c p r p' w h
    rw [Def.test] at h
    exact Inspects.kind h
  | .function _ _ => by
    intro c p r p' w h
    rw [Def.test] at h
    exact Inspects.kind h
  | .optional d => by
    intro c p r p' w h
    rw [Def.test] at h
    exact Def.test_inspects he d h
  | .comb [] _ => by
    intro c p r p' w h
    rw [Def.test] at h
    exact absurd h gives_panic
  | .comb (d :: ds) s => by
    have h1 := Def.test_inspects he d
    have h2 := Def.testAny_inspects he (d :: ds)
    intro c p r p' w h
    cases s <;> rw [Def.test] at h
    · exact h1 h
    all_goals first | exact h2 h | (intros; contradiction)
  | .group d _ => by
    intro c p r p' w h
    rw [Def.test] at h
    exact Def.test_inspects he d h
  | .mult d _ => by
    intro c p r p' w h
    rw [Def.test] at h
    exact Def.test_inspects he d h
  | .punct _ => by
    intro c p r p' w h
    rw [Def.test] at h
    exact absurd h gives_panic
theorem Def.testAny_inspects (he : ∀ n, (env n).Ok) : ∀ ds : List Def, Inspects (Def.testAny env ds)
  | [] => by
    intro c p r p' w h
    rw [Def.testAny] at h
    exact (gives_pure.mp h).2
  | d :: ds => by
    have h1 := Def.test_inspects he d
    have h2 := Def.testAny_inspects he ds
    intro c p r p' w h
    rw [Def.testAny] at h
    exact Inspects.bind (x := d.test env) (f := fun c b => if b = true then pure true else Def.testAny env ds c) h1.alone
      (fun v => .ite (.pureTest (g := fun _ => true)) h2) h
end

theorem commaLoop_saves {item : Prog Val} (hi : SavesVal item) : ∀ n vs, Does (commaLoop item n vs) fun a t => ∃ more, a = vs ++ more ∧ HoldsAll more t := by
  intro n
  induction n with
  | zero => intro vs; exact .panic
  | succ n ih =>
    intro vs
    unfold commaLoop
    refine Holds.seq hi fun v t hv => Does.bind (optCursor_does .kind) fun o u hu => ?_
    have one : HoldsAll [.fields [v, .opt (o.map .tok)]] (t ++ u) := HoldsAll.one (HoldsAll.cons hv (.one (hu ▸ .optTok))).fields
    refine Does.ite (fun _ => .pure ?_) fun _ => (ih _).mono ?_
    · exact ⟨_, rfl, by simpa using one⟩
    · rintro a s ⟨more, rfl, h⟩
      exact ⟨_, List.append_assoc .., by simpa using one.append h⟩

theorem manyLoop_saves {test : Cursor → Prog Bool} {item : Prog Val} (ht : Inspects test) (hi : SavesVal item) : ∀ n vs,
    Does (manyLoop test item n vs) fun a t => ∃ more, a = vs ++ more ∧ HoldsAll more t := by
  intro n
  induction n with
  | zero => intro vs; exact .panic
  | succ n ih =>
    intro vs
    unfold manyLoop
    refine Exact.look (Does.peekN fun _ => rfl) fun c => Exact.look (Does.looks ht fun _ => rfl) fun b => Does.ite (fun _ => ?_) fun _ => ?_
    · refine Holds.seq hi fun v t hv => (ih _).mono ?_
      rintro a s ⟨more, rfl, h⟩
      exact ⟨_, List.append_assoc .., by simpa using HoldsAll.cons hv h⟩
    · exact .pure ⟨[], by simp, .nil⟩

/-- The values of an `||`. -/
def optsOf (vs : List (Option Val)) : List Val := vs.map Val.opt

/-- Every value has no token, or one at a known place. -/
def AllFirm (vs : List (Option Val)) : Prop := ∀ v ∈ optsOf vs, Firm (taken v.cursors)

/-- The values `ws` are the values `vs` and more, read from `t`. -/
structure Grown (vs ws : List (Option Val)) (t : List Cursor) : Prop where
  mem : ∀ v ∈ optsOf vs, v ∈ optsOf ws ∨ v.cursors = []
  firm : NoCircles (optsOf ws) = true → AllFirm vs → AllFirm ws
  circles : NoCircles (optsOf ws) = true → NoCircles (optsOf vs) = true
  all : NoCircles (optsOf ws) = true → (taken (Val.cursorsOf (optsOf vs)) ++ t).Perm (taken (Val.cursorsOf (optsOf ws)))
  straight : StraightAll (optsOf ws) = true → StraightAll (optsOf vs) = true
  order : NoCircles (optsOf ws) = true → AllFirm vs → StraightAll (optsOf ws) = true → Increasing (taken (Val.cursorsOf (optsOf vs)) ++ t) →
    taken (Val.cursorsOf (optsOf vs)) ++ t = taken (Val.cursorsOf (optsOf ws))

theorem earlier_nil (a : List Cursor) : earlier a [] = true := by simp [earlier, anyPlaced]

theorem Grown.refl {vs : List (Option Val)} : Grown vs vs [] :=
  ⟨fun _ h => .inl h, fun _ h => h, id, fun _ => by simp, id, fun _ _ _ _ => by simp⟩
theorem Grown.trans {us vs ws : List (Option Val)} {t u : List Cursor} (h : Grown us vs t) (h' : Grown vs ws u) : Grown us ws (t ++ u) where
  mem := fun v hv => (h.mem v hv).elim (h'.mem v) .inr
  firm := fun hc hf => h'.firm hc (h.firm (h'.circles hc) hf)
  circles := fun hc => h.circles (h'.circles hc)
  all := fun hc => by rw [← List.append_assoc]; exact ((h.all (h'.circles hc)).append_right u).trans (h'.all hc)
  straight := fun hs => h.straight (h'.straight hs)
  order := fun hc hf hs hi => by
    rw [← List.append_assoc] at hi ⊢
    have e := h.order (h'.circles hc) hf (h'.straight hs) hi.left
    rw [e] at hi ⊢
    exact h'.order hc (h.firm (h'.circles hc) hf) hs hi
theorem Grown.cons {o : Option Val} {vs ws : List (Option Val)} {t : List Cursor} (h : Grown vs ws t) : Grown (o :: vs) (o :: ws) t where
  mem := fun v hv => by
    simp only [optsOf, List.map_cons, List.mem_cons] at hv ⊢
    rcases hv with rfl | hv
    · exact .inl (.inl rfl)
    · exact (h.mem v hv).imp .inr id
  firm := fun hc hf v hv => by
    simp only [optsOf, List.map_cons, List.mem_cons, NoCircles, Bool.and_eq_true] at hv hc
    rcases hv with rfl | hv
    · exact hf _ (by simp [optsOf])
    · exact h.firm hc.2 (fun v hv => hf v (by simp only [optsOf, List.map_cons, List.mem_cons]; exact .inr hv)) v hv
  circles := fun hc => by
    simp only [optsOf, List.map_cons, NoCircles, Bool.and_eq_true] at hc ⊢
    exact ⟨hc.1, h.circles hc.2⟩
  all := fun hc => by
    simp only [optsOf, List.map_cons, Val.cursorsOf, NoCircles, Bool.and_eq_true, taken_append] at hc ⊢
    rw [List.append_assoc]; exact List.Perm.append_left _ (h.all hc.2)
  straight := fun hs => by
    simp only [optsOf, List.map_cons, StraightAll, Bool.and_eq_true, List.all_eq_true] at hs ⊢
    refine ⟨⟨hs.1.1, h.straight hs.1.2⟩, fun v hv => ?_⟩
    rcases h.mem v hv with hm | e
    · exact hs.2 v hm
    · rw [e]; exact earlier_nil _
  order := fun hc hf hs hi => by
    simp only [optsOf, List.map_cons, Val.cursorsOf, NoCircles, Bool.and_eq_true, taken_append, StraightAll, List.append_assoc] at hc hs hi ⊢
    have e := h.order hc.2 (fun v hv => hf v (by simp only [optsOf, List.map_cons, List.mem_cons]; exact .inr hv)) hs.1.2 hi.right
    simp only [optsOf] at e
    rw [e]
theorem mem_cursorsOf {c : Cursor} {vs : List Val} : c ∈ Val.cursorsOf vs ↔ ∃ v ∈ vs, c ∈ v.cursors := by
  induction vs with
  | nil => simp [Val.cursorsOf]
  | cons v vs ih => simp [Val.cursorsOf, ih]
theorem opt_some_cursors (v : Val) : (Val.opt (some v)).cursors = v.cursors := by simp [Val.opt, Val.cursors, Val.cursorsOf]
theorem taken_firm {l t : List Cursor} (h : Firm t) (hp : t.Perm (taken l)) : Firm (taken l) := by
  rcases h with rfl | ⟨c, hc, hpl⟩
  · exact .inl hp.symm.eq_nil
  · exact .inr ⟨c, hp.mem_iff.mp hc, hpl⟩
theorem Grown.now {v : Val} {vs : List (Option Val)} {t : List Cursor} (h : Holds v t) (hf : Firm t) : Grown (none :: vs) (some v :: vs) t where
  mem := fun w hw => by
    simp only [optsOf, List.map_cons, List.mem_cons] at hw ⊢
    rcases hw with rfl | hw
    · exact .inr rfl
    · exact .inl (.inr hw)
  firm := fun hc hv w hw => by
    simp only [optsOf, List.map_cons, List.mem_cons, NoCircles, Bool.and_eq_true] at hw hc
    rcases hw with rfl | hw
    · rw [opt_some_cursors]
      exact taken_firm hf (h (by simpa [Val.opt, NoCircle, NoCircles] using hc.1)).1
    · exact hv w (by simp only [optsOf, List.map_cons, List.mem_cons]; exact .inr hw)
  circles := fun hc => by
    simp only [optsOf, List.map_cons, NoCircles, Bool.and_eq_true] at hc ⊢
    exact ⟨rfl, hc.2⟩
  all := fun hc => by
    simp only [optsOf, List.map_cons, Val.cursorsOf, Val.cursors, Val.opt, NoCircles, NoCircle, Bool.and_eq_true, taken_append, List.append_nil, List.nil_append] at hc ⊢
    exact List.perm_append_comm.trans ((h hc.1.1).1.append_right _)
  straight := fun hs => by
    simp only [optsOf, List.map_cons, StraightAll, Bool.and_eq_true, List.all_eq_true] at hs ⊢
    exact ⟨⟨rfl, hs.1.2⟩, fun w _ => rfl⟩
  order := fun hc hv hs hi => by
    simp only [optsOf, List.map_cons, Val.cursorsOf, NoCircles, Bool.and_eq_true, taken_append, StraightAll, List.all_eq_true, opt_some_cursors] at hc hs hi ⊢
    have hvc : NoCircle v = true := by simpa [Val.opt, NoCircle, NoCircles] using hc.1
    have e0 : taken (Val.opt none).cursors = [] := rfl
    rw [e0, List.nil_append] at hi ⊢
    have e := (h hvc).2 (by simpa [Val.opt, Straight, StraightAll] using hs.1.1) hi.right
    rcases hf with rfl | ⟨c, hct, hp⟩
    · simp [← e]
    · have hnil : taken (Val.cursorsOf (vs.map Val.opt)) = [] := by
        refine Classical.byContradiction fun hne => ?_
        obtain ⟨d, hd⟩ := List.exists_mem_of_ne_nil _ hne
        obtain ⟨d', hd', rfl⟩ := List.mem_map.mp hd
        obtain ⟨w, hw, hdw⟩ := mem_cursorsOf.mp (List.mem_filter.mp hd').1
        have hw' : w ∈ optsOf (none :: vs) := by simp only [optsOf, List.map_cons, List.mem_cons]; exact .inr hw
        rcases hv w hw' with hn | ⟨x, hx, hxp⟩
        · have : strip d' ∈ taken w.cursors := List.mem_map.mpr ⟨d', List.mem_filter.mpr ⟨hdw, (List.mem_filter.mp hd').2⟩, rfl⟩
          rw [hn] at this; cases this
        · refine not_increasing (before_of_earlier (hs.2 w hw) ⟨c, of_mem_taken (e ▸ hct) hp, hp⟩ ⟨x, of_mem_taken hx hxp, hxp⟩) (fun y hy hyp => ?_) (fun y hy hyp => ?_) hi
          · rw [e]; exact mem_taken hy hyp
          · exact mem_taken (mem_cursorsOf.mpr ⟨w, hw, hy⟩) hyp
      rw [hnil, List.append_nil, List.nil_append, e]

theorem optionsRound_saves : ∀ (ls : List Leaf), (∀ l ∈ ls, l.Ok) → ∀ vs : List (Option Val),
    Does (optionsRound ls vs) fun r t => (r = none ∧ t = []) ∨ ∃ ws, r = some ws ∧ Grown vs ws t
  | [], _, vs => by unfold optionsRound; exact .pure (.inl ⟨rfl, rfl⟩)
  | l :: ls, h, [] => by unfold optionsRound; exact .pure (.inl ⟨rfl, rfl⟩)
  | l :: ls, h, some v :: vs => by
    unfold optionsRound
    refine Does.bind (optionsRound_saves ls (fun l hl => h l (by simp [hl])) vs) fun r t hr => ?_
    rcases hr with ⟨rfl, rfl⟩ | ⟨ws, rfl, hr⟩
    · exact .pure (.inl ⟨rfl, rfl⟩)
    · exact .pure (.inr ⟨_, rfl, by simpa using hr.cons⟩)
  | l :: ls, h, none :: vs => by
    have hl := h l (by simp)
    unfold optionsRound
    refine Exact.look (Does.peek fun _ => rfl) fun c => Exact.look (Does.looks hl.test fun _ => rfl) fun b => Does.ite (fun _ => ?_) fun _ => ?_
    · exact Does.bind (hl.parser.and hl.firm) fun v t hv => .pure (.inr ⟨_, rfl, by simpa using Grown.now hv.1 hv.2⟩)
    · refine Does.bind (optionsRound_saves ls (fun l hl => h l (by simp [hl])) vs) fun r t hr => ?_
      rcases hr with ⟨rfl, rfl⟩ | ⟨ws, rfl, hr⟩
      · exact .pure (.inl ⟨rfl, rfl⟩)
      · exact .pure (.inr ⟨_, rfl, by simpa using hr.cons⟩)

theorem optionsLoop_saves {ls : List Leaf} (h : ∀ l ∈ ls, l.Ok) : ∀ n vs, Does (optionsLoop ls n vs) fun ws t => Grown vs ws t := by
  intro n
  induction n with
  | zero => intro vs; exact .panic
  | succ n ih =>
    intro vs
    unfold optionsLoop
    refine Does.bind (optionsRound_saves ls h vs) fun r t hr => ?_
    rcases hr with ⟨rfl, rfl⟩ | ⟨ws, rfl, hr⟩
    · refine Does.ite (fun _ => Exact.next .any fun c => .fail) fun _ => .pure .refl
    · exact (ih ws).mono fun us u hu => hr.trans hu

theorem options_saves (he : ∀ n, (env n).Ok) (ds : List Def) : SavesVal (options env ds) := by
  unfold options
  split
  · rename_i ts _
    refine Does.bind (optionsLoop_saves (fun l hl => ?_) _ _) fun vs t h => .pure ?_
    · obtain ⟨t, _, rfl⟩ := List.mem_map.mp hl
      exact t.leaf_ok he
    · rw [List.append_nil]
      refine HoldsAll.fields fun hc => ?_
      have key : ∀ ts : List DefType, taken (Val.cursorsOf (optsOf (ts.map fun _ => none))) = [] := by
        intro ts
        induction ts with
        | nil => rfl
        | cons t ts ih => simpa [optsOf, Val.cursorsOf, Val.cursors, Val.opt] using ih
      have firm : AllFirm (ts.map fun _ => none) := by
        intro v hv
        simp only [optsOf, List.map_map, List.mem_map] at hv
        obtain ⟨_, _, rfl⟩ := hv
        exact .inl rfl
      have h2 := h.all hc
      have h3 := h.order hc firm
      rw [key, List.nil_append] at h2 h3
      exact ⟨h2, h3⟩
  · exact .panic

theorem Def.steps_saves (he : ∀ n, (env n).Ok) : ∀ d : Def, SavesVal (d.steps env)
  | .type t => by rw [Def.steps]; exact t.steps_saves he
  | .function name d => by
    have ih := Def.steps_saves he d
    rw [Def.steps]
    refine Exact.next .kind fun f => Exact.look (Does.eqCase fun _ => rfl) fun b => Does.ite (fun _ => ?_) fun _ => ?_
    · exact Exact.look (Does.str fun _ => rfl) fun _ => .fail
    · refine Holds.seq ih fun v t hv => Does.bind (optCursor_does .kind) fun o u hu => .pure ?_
      subst hu
      simpa using (HoldsAll.cons .tok (HoldsAll.cons hv (.one .optTok))).fields
  | .optional (.type t) => by
    have := t.leaf_ok he
    rw [Def.steps]
    exact Does.bind (Holds.optional this.test this.parser) fun o t h => .pure (by simpa using h)
  | .comb ds .options => by rw [Def.steps]; exact options_saves he ds
  | .group d .none => by rw [Def.steps]; exact Def.steps_saves he d
  | .mult d (.commas .none) => by
    have ih := Def.steps_saves he d
    rw [Def.steps]
    refine Does.readNow fun p => Does.bind (commaLoop_saves ih _ _) fun vs t h => .pure ?_
    obtain ⟨more, rfl, h⟩ := h
    simpa using h.fields
  | .mult d (.range .none) => by
    have ih := Def.steps_saves he d
    have ht := Def.test_inspects he d
    rw [Def.steps]
    refine Does.readNow fun p => Does.bind (manyLoop_saves ht ih _ _) fun vs t h => .pure ?_
    obtain ⟨more, rfl, h⟩ := h
    simpa using h.fields
  | .mult (.type t) (.range (.fixed n)) => by
    rw [Def.steps]
    refine Does.bind (sequence_saves fun x hx => ?_) fun vs t h => .pure (by simpa using h.fields)
    rw [(List.mem_replicate.mp hx).2]
    exact t.steps_saves he
  | .ident _ | .punct _ | .optional (.ident _) | .optional (.function _ _) | .optional (.optional _) | .optional (.comb _ _) | .optional (.group _ _)
  | .optional (.mult _ _) | .optional (.punct _) | .comb _ .ordered | .comb _ .allMustOccur | .comb _ .alternatives
  | .group _ .oneMustOccur | .group _ .oneOrMore | .group _ (.range _) | .mult _ .zeroOrMore | .mult _ .oneOrMore
  | .mult _ (.commas (.range _ _)) | .mult _ (.commas (.from _)) | .mult _ (.commas (.to _)) | .mult _ (.commas (.fixed _))
  | .mult _ (.range (.range _ _)) | .mult _ (.range (.from _)) | .mult _ (.range (.to _))
  | .mult (.ident _) (.range (.fixed _)) | .mult (.function _ _) (.range (.fixed _)) | .mult (.optional _) (.range (.fixed _))
  | .mult (.comb _ _) (.range (.fixed _)) | .mult (.group _ _) (.range (.fixed _)) | .mult (.mult _ _) (.range (.fixed _))
  | .mult (.punct _) (.range (.fixed _)) => by rw [Def.steps] <;> first | exact .panic | nofun

theorem commaLoop_firm {item : Prog Val} (hi : FirmVal item) : ∀ n vs, FirmVal (commaLoop item n vs) := by
  intro n
  induction n with
  | zero => intro vs; exact .panic
  | succ n ih =>
    intro vs
    unfold commaLoop
    exact FirmVal.bind hi fun v => FirmVal.bind (FirmVal.maybe .kind (.kind (by decide))) fun o => FirmVal.ite (fun _ => FirmVal.pure) fun _ => ih _

theorem manyLoop_firm {test : Cursor → Prog Bool} {item : Prog Val} (ht : Inspects test) (hi : FirmVal item) : ∀ n vs, FirmVal (manyLoop test item n vs) := by
  intro n
  induction n with
  | zero => intro vs; exact .panic
  | succ n ih =>
    intro vs
    unfold manyLoop
    exact FirmVal.look (Does.peekN fun _ => rfl) fun c => FirmVal.look (Does.looks ht fun _ => rfl) fun b => FirmVal.ite (fun _ => FirmVal.bind hi fun v => ih _) fun _ => FirmVal.pure

theorem optionsRound_firm : ∀ (ls : List Leaf), (∀ l ∈ ls, l.Ok) → ∀ vs : List (Option Val), FirmVal (optionsRound ls vs)
  | [], _, vs => by unfold optionsRound; exact FirmVal.pure
  | l :: ls, h, [] => by unfold optionsRound; exact FirmVal.pure
  | l :: ls, h, some v :: vs => by
    unfold optionsRound
    exact FirmVal.bind (optionsRound_firm ls (fun l hl => h l (by simp [hl])) vs) fun r => by cases r <;> exact FirmVal.pure
  | l :: ls, h, none :: vs => by
    have hl := h l (by simp)
    unfold optionsRound
    refine FirmVal.look (Does.peek fun _ => rfl) fun c => FirmVal.look (Does.looks hl.test fun _ => rfl) fun b => FirmVal.ite (fun _ => ?_) fun _ => ?_
    · exact FirmVal.bind hl.firm fun v => FirmVal.pure
    · exact FirmVal.bind (optionsRound_firm ls (fun l hl => h l (by simp [hl])) vs) fun r => by cases r <;> exact FirmVal.pure

theorem optionsLoop_firm {ls : List Leaf} (h : ∀ l ∈ ls, l.Ok) : ∀ n vs, FirmVal (optionsLoop ls n vs) := by
  intro n
  induction n with
  | zero => intro vs; exact .panic
  | succ n ih =>
    intro vs
    unfold optionsLoop
    refine FirmVal.bind (optionsRound_firm ls h vs) fun r => ?_
    split
    · exact ih _
    · exact FirmVal.ite (fun _ => Exact.next .any fun c => .fail) fun _ => FirmVal.pure

theorem options_firm (he : ∀ n, (env n).Ok) (ds : List Def) : FirmVal (options env ds) := by
  unfold options
  split
  · rename_i ts _
    refine FirmVal.bind (optionsLoop_firm (fun l hl => ?_) _ _) fun vs => FirmVal.pure
    obtain ⟨t, _, rfl⟩ := List.mem_map.mp hl
    exact t.leaf_ok he
  · exact .panic

theorem sequence_firm : ∀ {xs : List (Prog Val)}, (∀ x ∈ xs, FirmVal x) → FirmVal (sequence xs)
  | [], _ => FirmVal.pure
  | x :: xs, h => by
    unfold sequence
    exact FirmVal.bind (h x (by simp)) fun v => FirmVal.bind (sequence_firm fun y hy => h y (by simp [hy])) fun vs => FirmVal.pure

theorem Def.steps_firm (he : ∀ n, (env n).Ok) : ∀ d : Def, FirmVal (d.steps env)
  | .type t => by rw [Def.steps]; exact t.steps_firm he
  | .function name d => by
    have h := (Def.steps_saves he (.function name d)).usual
    rw [Def.steps] at h ⊢
    exact FirmVal.first (FirmVal.one .kind (.kind (by decide))) h
  | .optional (.type t) => by
    have := t.leaf_ok he
    rw [Def.steps]
    exact FirmVal.bind (FirmVal.ifPeek this.test this.firm) fun o => FirmVal.pure
  | .comb ds .options => by rw [Def.steps]; exact options_firm he ds
  | .group d .none => by rw [Def.steps]; exact Def.steps_firm he d
  | .mult d (.commas .none) => by
    have ih := Def.steps_firm he d
    rw [Def.steps]
    exact FirmVal.readNow fun p => FirmVal.bind (commaLoop_firm ih _ _) fun vs => FirmVal.pure
  | .mult d (.range .none) => by
    have ih := Def.steps_firm he d
    have ht := Def.test_inspects he d
    rw [Def.steps]
    exact FirmVal.readNow fun p => FirmVal.bind (manyLoop_firm ht ih _ _) fun vs => FirmVal.pure
  | .mult (.type t) (.range (.fixed n)) => by
    rw [Def.steps]
    refine FirmVal.bind (sequence_firm fun x hx => ?_) fun vs => FirmVal.pure
    rw [(List.mem_replicate.mp hx).2]
    exact t.steps_firm he
  | .ident _ | .punct _ | .optional (.ident _) | .optional (.function _ _) | .optional (.optional _) | .optional (.comb _ _) | .optional (.group _ _)
  | .optional (.mult _ _) | .optional (.punct _) | .comb _ .ordered | .comb _ .allMustOccur | .comb _ .alternatives
  | .group _ .oneMustOccur | .group _ .oneOrMore | .group _ (.range _) | .mult _ .zeroOrMore | .mult _ .oneOrMore
  | .mult _ (.commas (.range _ _)) | .mult _ (.commas (.from _)) | .mult _ (.commas (.to _)) | .mult _ (.commas (.fixed _))
  | .mult _ (.range (.range _ _)) | .mult _ (.range (.from _)) | .mult _ (.range (.to _))
  | .mult (.ident _) (.range (.fixed _)) | .mult (.function _ _) (.range (.fixed _)) | .mult (.optional _) (.range (.fixed _))
  | .mult (.comb _ _) (.range (.fixed _)) | .mult (.group _ _) (.range (.fixed _)) | .mult (.mult _ _) (.range (.fixed _))
  | .mult (.punct _) (.range (.fixed _)) => by rw [Def.steps] <;> first | exact .panic | nofun

theorem tryOthers_firm (he : ∀ n, (env n).Ok) : ∀ ds : List (Nat × Def), FirmVal (tryOthers env ds)
  | [] => Exact.next .any fun c => .fail
  | (i, d) :: ds => by
    unfold tryOthers
    exact FirmVal.look (Does.peekN fun _ => rfl) fun c => FirmVal.look (Does.looks (d.test_inspects he) fun _ => rfl) fun b => FirmVal.ite (fun _ => FirmVal.bind (d.steps_firm he) fun v => FirmVal.pure)
      fun _ => tryOthers_firm he ds
theorem otherAlternatives_firm (he : ∀ n, (env n).Ok) (ds : List (Nat × Def)) : FirmVal (otherAlternatives env ds) := by
  unfold otherAlternatives
  split
  · rename_i d
    exact FirmVal.bind (d.steps_firm he) fun v => FirmVal.pure
  · exact tryOthers_firm he _

theorem alternatives_firm (he : ∀ n, (env n).Ok) (ds : List Def) : FirmVal (alternatives env ds) := by
  unfold alternatives
  refine FirmVal.ite (fun _ => FirmVal.ite (fun _ => .panic) fun _ => ?_) fun _ => otherAlternatives_firm he _
  refine FirmVal.bind FirmVal.maybeKeyword fun o => ?_
  cases o with
  | some x => obtain ⟨k, c⟩ := x; exact FirmVal.pure
  | none =>
    dsimp only
    split
    · exact FirmVal.bind (FirmVal.starts (FirmVal.one .kind (.kind (by decide)))) fun c => FirmVal.pure
    · exact FirmVal.ite (fun _ => Exact.next .any fun c => Exact.look (Does.str fun _ => rfl) fun _ => .fail) fun _ => otherAlternatives_firm he _

theorem ordered_firm (he : ∀ n, (env n).Ok) (ds : List Def) : FirmVal (ordered env ds) := by
  unfold ordered
  refine FirmVal.bind (sequence_firm fun x hx => ?_) fun vs => FirmVal.pure
  obtain ⟨d, _, rfl⟩ := List.mem_map.mp hx
  exact d.steps_firm he

theorem Def.parser_firm (he : ∀ n, (env n).Ok) (d : Def) : FirmVal (d.parser env) := by
  unfold Def.parser
  split
  · rename_i t
    exact FirmVal.bind (t.steps_firm he) fun v => FirmVal.pure
  · exact alternatives_firm he _
  · exact options_firm he _
  · exact ordered_firm he _
  · exact ordered_firm he _
  · exact ordered_firm he _
  · exact .panic
  · exact FirmVal.bind (Def.steps_firm he _) fun v => FirmVal.pure
  · exact .panic

theorem tryOthers_saves (he : ∀ n, (env n).Ok) : ∀ ds : List (Nat × Def), SavesVal (tryOthers env ds)
  | [] => Exact.next .any fun c => .fail
  | (i, d) :: ds => by
    unfold tryOthers
    refine Exact.look (Does.peekN fun _ => rfl) fun c => Exact.look (Does.looks (d.test_inspects he) fun _ => rfl) fun b => Does.ite (fun _ => ?_) fun _ =>
      tryOthers_saves he ds
    exact Holds.seq (d.steps_saves he) fun v t hv => .pure (by simpa using hv.variant)
theorem otherAlternatives_saves (he : ∀ n, (env n).Ok) (ds : List (Nat × Def)) : SavesVal (otherAlternatives env ds) := by
  unfold otherAlternatives
  split
  · rename_i d
    exact Holds.seq (d.steps_saves he) fun v t hv => .pure (by simpa using hv.variant)
  · exact tryOthers_saves he _

theorem optKeyword_raw {names : List (List Char)} : Does (ifPeek (isKeyword names) (keyword names)) fun o t => t = taken (o.map (·.2)).toList :=
  (Does.ifPeek .keyword Exact.keyword).mono fun o t h => by
    rcases h with ⟨rfl, rfl⟩ | ⟨c, rfl, rfl⟩ <;> rfl

theorem alternatives_saves (he : ∀ n, (env n).Ok) (ds : List Def) : SavesVal (alternatives env ds) := by
  unfold alternatives
  refine Does.ite (fun _ => Does.ite (fun _ => .panic) fun _ => ?_) fun _ => otherAlternatives_saves he _
  refine Does.bind optKeyword_raw fun o t e => ?_
  subst e
  cases o with
  | some x => obtain ⟨k, c⟩ := x; exact .pure (by simpa using Holds.variant .tok)
  | none =>
    show Does _ fun b u => Holds b ([] ++ u)
    simp only [List.nil_append]
    split
    · exact Exact.next .kind fun c => .pure (by simpa using Holds.variant .tok)
    · exact Does.ite (fun _ => Exact.next .any fun c => Exact.look (Does.str fun _ => rfl) fun _ => .fail) fun _ => otherAlternatives_saves he _

theorem ordered_saves (he : ∀ n, (env n).Ok) (ds : List Def) : SavesVal (ordered env ds) := by
  unfold ordered
  refine Does.bind (sequence_saves fun x hx => ?_) fun vs t h => .pure (by simpa using h.fields)
  obtain ⟨d, _, rfl⟩ := List.mem_map.mp hx
  exact d.steps_saves he

theorem Def.parser_saves (he : ∀ n, (env n).Ok) (d : Def) : SavesVal (d.parser env) := by
  unfold Def.parser
  split
  · rename_i t
    exact Holds.seq (t.steps_saves he) fun v t hv => .pure (by simpa using (HoldsAll.one hv).fields)
  · exact alternatives_saves he _
  · exact options_saves he _
  · exact ordered_saves he _
  · exact ordered_saves he _
  · exact ordered_saves he _
  · exact .panic
  · exact Holds.seq (Def.steps_saves he _) fun v t hv => .pure (by simpa using (HoldsAll.one hv).fields)
  · exact .panic

theorem Def.leaf_ok (he : ∀ n, (env n).Ok) (d : Def) : (d.leaf env).Ok := ⟨d.test_inspects he, d.parser_saves he, d.parser_firm he⟩

/-! ### Hand-written types -/

theorem optKeyword_does {names : List (List Char)} : Does (optKeyword names) fun o t => t = taken o.toList :=
  Does.bind optKeyword_raw fun o t e => .pure (by simp [e])

theorem namedFunction_does {name : List Char} : Exact (namedFunction name) fun c => [c] := by
  unfold namedFunction
  exactly
  simp

/-- Closes the goal at the end of a program of single tokens. -/
macro "holds" : tactic => `(tactic| (intro _; simp [Val.cursors, Val.cursorsOf, Val.opt, taken_cons _ (_ :: _), taken_cons _ (_ ++ _), taken_append]))

/-- Every program of the list keeps its tokens. -/
def SaveAll (xs : List (Prog Val)) : Prop := ∀ x ∈ xs, SavesVal x
theorem SaveAll.nil : SaveAll [] := fun _ h => by simp at h
theorem SaveAll.cons {x : Prog Val} {xs : List (Prog Val)} (h : SavesVal x) (h' : SaveAll xs) : SaveAll (x :: xs) := fun y hy => by
  rcases List.mem_cons.mp hy with rfl | hy
  · exact h
  · exact h' y hy
theorem SaveAll.append {xs ys : List (Prog Val)} (h : SaveAll xs) (h' : SaveAll ys) : SaveAll (xs ++ ys) := fun y hy =>
  (List.mem_append.mp hy).elim (h y) (h' y)
theorem SaveAll.ite {b : Prop} [Decidable b] {xs ys : List (Prog Val)} (h : SaveAll xs) (h' : SaveAll ys) : SaveAll (if b then xs else ys) := by
  split
  · exact h
  · exact h'

theorem legacyChannels_saves {first : Cursor → Prog Bool} (h : Inspects first) : SaveAll (legacyChannels first) :=
  .cons (piece_saves h) (.cons (optPiece_saves .kind) (.cons (piece_saves .channel) (.cons (optPiece_saves .kind) (.cons (piece_saves .channel)
    (.cons (optPiece_saves .kind) (.cons (optPiece_saves .delim) (.cons (optPiece_saves .channel) .nil)))))))
theorem channels_saves {a b c : Cursor → Prog Bool} (ha : Inspects a) (hb : Inspects b) (hc : Inspects c) : SaveAll (channels a b c) :=
  .cons (piece_saves ha) (.cons (piece_saves hb) (.cons (piece_saves hc) (.cons (optPiece_saves .delim) (.cons (optPiece_saves .channel) .nil))))
theorem colorArguments_saves (name : List Char) : SaveAll (colorArguments name) :=
  .ite (.cons (piece_saves .keyword) (channels_saves .channel .channel .channel)) <| .ite (legacyChannels_saves .channel) <| .ite (legacyChannels_saves .hue) <|
    .ite (channels_saves .hue .channel .channel) <| .ite (channels_saves .channel .channel .hue) (channels_saves .channel .channel .channel)

theorem colorFunction_saves : SavesVal colorFunction := by
  unfold colorFunction
  refine Exact.next .functionOf fun x => ?_
  obtain ⟨name, f⟩ := x
  refine Does.bind (P := HoldsAll) (sequence_saves ((colorArguments_saves name).append (.cons (optPiece_saves .kind) .nil))) fun vs t h => .pure ?_
  simpa using (HoldsAll.cons .tok h).fields

theorem color_saves : SavesVal color := by
  unfold color
  refine Exact.look (Does.peek fun _ => rfl) fun c => Does.ite (fun _ => ?_) fun _ => ?_
  · exact Holds.seq (piece_saves .kind) fun v t hv => .pure (by simpa using hv.variant)
  refine Exact.look (Does.peek fun _ => rfl) fun c => Does.ite (fun _ => ?_) fun _ => ?_
  · refine Does.bind optKeyword_raw fun o t e => ?_
    subst e
    cases o with
    | some x => obtain ⟨k, c⟩ := x; exact .pure (by simpa using Holds.variant .tok)
    | none =>
      show Does _ fun b u => Holds b ([] ++ u)
      simp only [List.nil_append]
      refine Does.bind optKeyword_raw fun o t e => ?_
      subst e
      cases o with
      | some x => obtain ⟨k, c⟩ := x; exact .pure (by simpa using Holds.variant .tok)
      | none =>
        show Does _ fun b u => Holds b ([] ++ u)
        simp only [List.nil_append]
        exact Exact.next .keyword fun x => .pure (by simpa using Holds.variant .tok)
  refine Exact.look (Does.peek fun _ => rfl) fun c => Exact.look (Does.looks .functionOf fun _ => rfl) fun b => Does.ite (fun _ => ?_) fun _ => ?_
  · exact Holds.seq colorFunction_saves fun v t hv => .pure (by simpa using hv.variant)
  · exact Exact.look (Does.peekN fun _ => rfl) fun c => .fail

theorem colorFunction_starts : Opens colorFunction := FirmVal.start FirmVal.functionOf colorFunction_saves.usual

theorem color_firm : FirmVal color := by
  unfold color
  refine FirmVal.look (Does.peek fun _ => rfl) fun c => FirmVal.ite (fun _ => ?_) fun _ => ?_
  · exact FirmVal.bind (FirmVal.piece .kind (.kind (by decide))) fun v => FirmVal.pure
  refine FirmVal.look (Does.peek fun _ => rfl) fun c => FirmVal.ite (fun _ => ?_) fun _ => ?_
  · refine FirmVal.bind FirmVal.maybeKeyword fun o => ?_
    cases o with
    | some x => exact FirmVal.pure
    | none =>
      refine FirmVal.bind FirmVal.maybeKeyword fun o => ?_
      cases o with
      | some x => exact FirmVal.pure
      | none => exact FirmVal.bind (FirmVal.starts FirmVal.oneKeyword) fun x => FirmVal.pure
  refine FirmVal.look (Does.peek fun _ => rfl) fun c => FirmVal.look (Does.looks .functionOf fun _ => rfl) fun b => FirmVal.ite (fun _ => ?_) fun _ => ?_
  · exact FirmVal.bind (FirmVal.starts colorFunction_starts) fun v => FirmVal.pure
  · exact FirmVal.look (Does.peekN fun _ => rfl) fun c => .fail

theorem Exact.buildKeyword {names : List (List Char)} {c : Cursor} : Does (buildKeyword names c) fun x t => x.2 = c ∧ t = [] := buildKeyword_does

theorem positionValue_does : Does positionValue fun v t => t = taken [v.c] ∧ placed v.c = true := by
  unfold positionValue
  refine Does.bind (FirmVal.tok .positionValue .positionValue) fun c t h => Does.ite (fun _ => ?_) fun _ => .pure (by simpa using h)
  refine Does.bind buildKeyword_does fun x u e => ?_
  obtain ⟨k, c'⟩ := x
  obtain ⟨rfl, rfl⟩ := e
  exact .pure (by simpa using h)

theorem perm4 (a b c d : List Cursor) : (a ++ (b ++ (c ++ d))).Perm (c ++ (d ++ (a ++ b))) := by
  have : (a ++ b ++ (c ++ d)).Perm (c ++ d ++ (a ++ b)) := List.perm_append_comm
  simpa using this

theorem tokens_later {a b : Cursor} {u w : List Cursor} (h : earlier [a] [b] = true) (ha : placed a = true) (hb : placed b = true) (hi : Increasing (u ++ w))
    (hw : a ∈ w) (hu : b ∈ u) : False :=
  not_increasing (before_of_earlier h ⟨a, by simp, ha⟩ ⟨b, by simp, hb⟩) (by simpa using fun _ => hw) (by simpa using fun _ => hu) hi

theorem fourPosition_does (first second : PositionValue) (h1 : placed first.c = true) :
    Does (fourPosition first second) fun v t => Holds v (taken [first.c] ++ (taken [second.c] ++ t)) := by
  unfold fourPosition
  refine Does.ite (fun _ => .fail) fun _ => Does.bind positionValue_does fun third t ht => Does.ite (fun _ => ?_) fun _ => ?_
  · exact Exact.look (Does.str fun _ => rfl) fun _ => .fail
  obtain ⟨rfl, h3⟩ := ht
  refine Exact.next (.test .lengthPercentage) fun fourth => Does.ite (fun _ => Does.ite (fun _ => .pure ?_) fun _ => .fail) fun _ =>
    Does.ite (fun _ => Does.ite (fun _ => .pure ?_) fun _ => .fail) fun _ => .fail
  · exact Holds.variant (HoldsAll.cons .tok (HoldsAll.cons .tok (HoldsAll.cons .tok (by simpa using HoldsAll.one .tok)))).fields
  · refine Holds.perm (Holds.variant (HoldsAll.cons .tok (HoldsAll.cons .tok (HoldsAll.cons .tok (HoldsAll.one .tok)))).fields) ?_ fun _ hs hi => ?_
    · simpa using perm4 _ _ _ _
    · simp only [Straight, StraightAll, Bool.and_eq_true, List.all_eq_true] at hs
      exact tokens_later (hs.2 (.tok first.c) (by simp)) h3 h1 hi (by simp [mem_taken (l := [third.c]) (by simp) h3]) (mem_taken (by simp) h1)

theorem position_saves : SavesVal position := by
  unfold position
  refine Does.bind positionValue_does fun first t ht => Exact.look (Does.peek fun _ => rfl) fun c => Exact.look (Does.looks .positionValue fun _ => rfl) fun b => ?_
  obtain ⟨rfl, h1⟩ := ht
  refine Does.ite (fun _ => .pure (by simpa using Holds.variant .tok)) fun _ => ?_
  refine Does.bind positionValue_does fun second t ht => Exact.look (Does.peek fun _ => rfl) fun c => Exact.look (Does.looks .positionValue fun _ => rfl) fun b => ?_
  obtain ⟨rfl, h2⟩ := ht
  have four := fourPosition_does first second h1
  refine Does.ite (fun _ => Does.ite (fun _ => Does.ite (fun _ => .pure ?_) fun _ => four) fun _ => Does.ite (fun _ => Does.ite (fun _ => .pure ?_) fun _ => .fail)
    fun _ => four) fun _ => four
  · simpa using Holds.variant (HoldsAll.cons .tok (HoldsAll.one .tok)).fields
  · refine Holds.perm (Holds.variant (HoldsAll.cons .tok (HoldsAll.one .tok)).fields) ?_ fun _ hs hi => ?_
    · simpa using List.perm_append_comm
    · simp only [Straight, StraightAll, Bool.and_eq_true, List.all_eq_true] at hs
      exact tokens_later (hs.2 (.tok first.c) (by simp)) h2 h1 hi (by simp [mem_taken (l := [second.c]) (by simp) h2]) (mem_taken (by simp) h1)

/-- A hint before a color, and its comma. -/
theorem gradientHint_does : Does (ifPeek isLengthPercentage (do
      let hint ← tok isLengthPercentage
      let comma ← tok (isKind .comma)
      pure (hint, comma))) fun o t => HoldsAll (match o with
      | some (hint, comma) => [.variant 1 (.fields [.tok hint, .tok comma])]
      | none => []) t :=
  (Does.ifPeek .lengthPercentage (P := fun a t => t = taken [a.1] ++ taken [a.2])
    (Exact.next (.test .lengthPercentage) fun hint => Exact.next .kind fun comma => .pure (by simp))).mono fun o t h => by
    rcases h with ⟨rfl, rfl⟩ | ⟨⟨a, b⟩, rfl, rfl⟩
    · exact .nil
    · exact .one (Holds.variant (HoldsAll.cons .tok (HoldsAll.one .tok)).fields)

theorem gradientStops_saves : ∀ n allow stops, Does (gradientStops n allow stops) fun a t => ∃ more, a = stops ++ more ∧ HoldsAll more t := by
  intro n
  induction n with
  | zero => intro _ _; exact .panic
  | succ n ih =>
    intro allow stops
    unfold gradientStops
    have rest : ∀ (s : List Val) (t0 : List Cursor) (pre : List Val), s = stops ++ pre → HoldsAll pre t0 → Does (do
        let col ← color
        let hint ← ifPeek isLengthPercentage (tok isLengthPercentage)
        let comma ← ifPeek (isKind .comma) (tok (isKind .comma))
        let stops := s ++ [.variant 0 (.fields [col, .opt (hint.map .tok), .opt (comma.map .tok)])]
        if comma.isNone then pure stops else gradientStops n (allow || hint.isSome) stops) fun a t => ∃ more, a = stops ++ more ∧ HoldsAll more (t0 ++ t) := by
      intro s t0 pre e h0
      subst e
      refine Holds.seq color_saves fun v t hv => Does.bind (optCursor_does .lengthPercentage) fun hint u hu => Does.bind (optCursor_does .kind) fun comma w hw => ?_
      subst hu hw
      have one : HoldsAll (pre ++ [.variant 0 (.fields [v, .opt (hint.map .tok), .opt (comma.map .tok)])]) (t0 ++ (t ++ (taken hint.toList ++ taken comma.toList))) :=
        h0.append (HoldsAll.one (Holds.variant (HoldsAll.cons hv (HoldsAll.cons .optTok (HoldsAll.one .optTok))).fields))
      refine Does.ite (fun _ => .pure ?_) fun _ => (ih _ _).mono ?_
      · exact ⟨_, List.append_assoc .., by simpa using one⟩
      · rintro a x ⟨more, rfl, h⟩
        exact ⟨_, by simp only [List.append_assoc]; rfl, by simpa using one.append h⟩
    have hint : Does (if allow = true then ifPeek isLengthPercentage (do
        let hint ← tok isLengthPercentage
        let comma ← tok (isKind .comma)
        pure (hint, comma)) else pure none) fun o t => HoldsAll (match o with
        | some (hint, comma) => [.variant 1 (.fields [.tok hint, .tok comma])]
        | none => []) t := Does.ite (fun _ => gradientHint_does) fun _ => .pure .nil
    refine Does.bind hint fun o t h => ?_
    cases o with
    | none => exact rest _ _ _ (by simp) h
    | some x => obtain ⟨a, b⟩ := x; exact rest _ _ _ rfl h

theorem linearDirection_saves : SavesVal linearDirection := by
  unfold linearDirection
  refine Exact.look (Does.peek fun _ => rfl) fun c => Exact.look (Does.looks .unit fun _ => rfl) fun b => Does.ite (fun _ => ?_) fun _ => ?_
  · exact Holds.seq (piece_saves .unit) fun v t hv => .pure (by simpa using hv.variant)
  refine Exact.next .kind fun to => Exact.look (Does.eqCase fun _ => rfl) fun b => Does.ite (fun _ => ?_) fun _ => ?_
  · exact Exact.look (Does.str fun _ => rfl) fun _ => .fail
  · refine Does.bind (P := HoldsAll) (sequence_saves fun x hx => ?_) fun vs t h => .pure ?_
    · simp only [List.mem_cons, List.not_mem_nil, or_false] at hx
      rcases hx with rfl | rfl
      · exact piece_saves .keyword
      · exact optPiece_saves .keyword
    · simpa using Holds.variant (HoldsAll.cons .tok h).fields

theorem radialSize_saves : SavesVal radialSize := by
  unfold radialSize
  refine Does.bind optKeyword_raw fun o t e => ?_
  subst e
  cases o with
  | some x => obtain ⟨k, c⟩ := x; exact .pure (by simpa using Holds.variant .tok)
  | none =>
    show Does _ fun b u => Holds b ([] ++ u)
    simp only [List.nil_append]
    refine Exact.look (Does.peek fun _ => rfl) fun c => Does.ite (fun _ => ?_) fun _ => ?_
    · refine Exact.next (.test .lengthPercentage) fun first => Exact.look (Does.peek fun _ => rfl) fun c => Does.ite (fun _ => ?_) fun _ => ?_
      · exact Holds.seq (piece_saves isLength_inspects) fun v t hv => .pure .circular
      · exact Exact.next (.test .lengthPercentage) fun second => .pure (by simpa using Holds.variant (HoldsAll.cons .tok (HoldsAll.one .tok)).fields)
    · refine Does.bind (P := HoldsAll) (sequence_saves fun x hx => ?_) fun vs t h => .pure (by simpa using Holds.variant h.fields)
      simp only [List.mem_cons, List.not_mem_nil, or_false] at hx
      rcases hx with rfl | rfl <;> exact piece_saves .lengthPercentage

/-- An optional token of a branch. -/
theorem optIf_does {b : Bool} {test : Cursor → Prog Bool} (ht : Inspects test) :
    Does (if b = true then ifPeek test (tok test) else pure none) fun o t => t = taken o.toList :=
  Does.ite (fun _ => optCursor_does ht) fun _ => .pure rfl

theorem linearGradient_saves (f : Cursor) : Does (linearGradient f) fun v t => Holds v (taken [f] ++ t) := by
  unfold linearGradient
  refine Does.bind (Holds.optional .linearDirection linearDirection_saves) fun dir t hd => Does.bind (optIf_does .kind) fun comma u hu => ?_
  subst hu
  refine Does.readNow fun p => Does.bind (gradientStops_saves _ _ _) fun stops s hs => Does.bind (optCursor_does .kind) fun close w hw => .pure ?_
  subst hw
  obtain ⟨more, rfl, hs⟩ := hs
  simpa using (HoldsAll.cons (.tok (c := f)) (HoldsAll.cons hd (HoldsAll.cons .optTok (HoldsAll.cons hs.fields (HoldsAll.one (.optTok (o := close))))))).fields

theorem radialGradient_saves (f : Cursor) {isAt : Prog Bool} (ha : Does isAt fun _ t => t = []) :
    Does (radialGradient f isAt) fun v t => Holds v (taken [f] ++ t) := by
  unfold radialGradient
  refine Does.bind (P := fun o t => Holds (.opt o) t ∧ (o = none → t = [])) ((Does.ifPeek .radialSize radialSize_saves).mono fun o t h => ?_)
    fun size t hsz => Does.bind (optCursor_does .keyword) fun shape u hu => ?_
  · rcases h with ⟨rfl, rfl⟩ | ⟨v, rfl, h⟩
    · exact ⟨.none, fun _ => rfl⟩
    · exact ⟨.some h, fun e => by cases e⟩
  subst hu
  have size2 : Does (if (size.isNone && shape.isNone) = true then do
      let v ← radialSize
      pure (some v) else pure size) fun o x => Holds (.opt o) (t ++ x) ∧ (x = [] ∨ shape = none) := by
    refine Does.ite (fun h => ?_) fun _ => .pure (by simpa using hsz.1)
    refine Holds.seq radialSize_saves fun v x hv => .pure ?_
    cases size with
    | some s => simp at h
    | none =>
      rw [hsz.2 rfl]
      exact ⟨by simpa using hv.some, .inr (by simpa using h)⟩
  refine Does.bind size2 fun size x hx => Exact.look ha fun b => ?_
  refine Does.bind (P := fun o (t : List Cursor) => t = taken o.toList) (Does.ite (fun _ => Exact.next .kind fun c => .pure (by simp)) fun _ => .pure rfl) fun at_ u hu => ?_
  subst hu
  refine Does.bind (P := fun o t => Holds (.opt o) t) (Does.ite (fun _ => Holds.optional .positionValue position_saves) fun _ => .pure .none) fun place y hy => ?_
  refine Does.bind (optIf_does .kind) fun comma u hu => ?_
  subst hu
  refine Does.readNow fun p => Does.bind (gradientStops_saves _ _ _) fun stops s hs => Does.bind (optCursor_does .kind) fun close w hw => .pure ?_
  subst hw
  obtain ⟨more, rfl, hs⟩ := hs
  have all := (HoldsAll.cons (.tok (c := f)) (HoldsAll.cons hx.1 (HoldsAll.cons (.optTok (o := shape)) (HoldsAll.cons (.optTok (o := at_)) (HoldsAll.cons hy
    (HoldsAll.cons (.optTok (o := comma)) (HoldsAll.cons hs.fields (HoldsAll.one (.optTok (o := close)))))))))).fields
  rcases hx.2 with rfl | rfl <;> simpa using all

theorem gradient_saves : SavesVal gradient := by
  unfold gradient
  refine Exact.next .functionOf fun x => ?_
  obtain ⟨name, f⟩ := x
  refine Does.ite (fun _ => ?_) fun _ => Does.ite (fun _ => ?_) fun _ => Does.ite (fun _ => ?_) fun _ => ?_
  · exact Does.bind (linearGradient_saves f) fun v t h => .pure (by simpa using h.variant)
  · exact Does.bind (linearGradient_saves f) fun v t h => .pure (by simpa using h.variant)
  · refine Does.bind (radialGradient_saves f ?_) fun v t h => .pure (by simpa using h.variant)
    exact Exact.look (Does.peekN fun _ => rfl) fun c => Does.looks .word fun _ => rfl
  · exact Does.bind (radialGradient_saves f (Does.looks .word fun _ => rfl)) fun v t h => .pure (by simpa using h.variant)

theorem image_saves : SavesVal image := by
  unfold image
  refine Exact.look (Does.peek fun _ => rfl) fun c => Does.ite (fun _ => ?_) fun _ => ?_
  · exact Holds.seq (piece_saves .kind) fun v t hv => .pure (by simpa using hv.variant)
  refine Exact.look (Does.peek fun _ => rfl) fun c => Exact.look (Does.looks .functionOf fun _ => rfl) fun b => Does.ite (fun _ => ?_) fun _ => ?_
  · exact Holds.seq gradient_saves fun v t hv => .pure (by simpa using hv.variant)
  · refine Exact.next namedFunction_does fun f => Does.bind (sequence_saves (SaveAll.cons (piece_saves .kind) (.cons (piece_saves .kind) .nil))) fun vs t h => .pure ?_
    simpa using Holds.variant (HoldsAll.cons .tok h).fields

theorem colorStripe_saves : SavesVal colorStripe := by
  unfold colorStripe
  refine Does.bind (P := fun o t => (o = none ∧ t = []) ∨ ∃ a, o = some a ∧ Holds a t) (Does.ifPeek .color color_saves) fun first t hf => ?_
  have th : Does (optPiece isThickness) fun v u => Holds v u ∧ (u = [] ∨ ∃ c ∈ v.cursors, placed c = true ∧ c ∈ u) := by
    refine Does.bind (Does.ifPeek .thickness (FirmVal.tok .thickness .thickness)) fun o u h => .pure ?_
    rw [List.append_nil]
    rcases h with ⟨rfl, rfl⟩ | ⟨c, rfl, rfl, h⟩
    · exact ⟨.none, .inl rfl⟩
    · exact ⟨.some .tok, .inr ⟨c, by simp [Val.cursors, Val.opt, Val.cursorsOf], h, mem_taken (by simp) h⟩⟩
  refine Does.bind th fun thick u hu => ?_
  have col : Does (match first with
    | some v => pure v
    | none => color) fun v x => Holds v (t ++ x) ∧ (x = [] ∨ (t = [] ∧ Firm x)) := by
    rcases hf with ⟨rfl, rfl⟩ | ⟨a, rfl, h⟩
    · exact (color_saves.and color_firm).mono fun v x h => ⟨h.1, .inr ⟨rfl, h.2⟩⟩
    · exact .pure (by simpa using h)
  refine Does.bind col fun v x hx => Holds.seq (optPiece_saves .kind) fun comma y hy => .pure ?_
  have main := (HoldsAll.cons hx.1 (HoldsAll.cons hu.1 (HoldsAll.one hy))).fields
  rcases hx.2 with rfl | ⟨rfl, hx2⟩
  · simpa using main
  · rcases hu.2 with rfl | ⟨c, hc, hp, hcu⟩
    · simpa using main
    · rcases hx2 with rfl | ⟨d, hd, hdp⟩
      · simpa using main
      · refine Holds.perm main ?_ fun hcirc hs hi => ?_
        · simpa using List.perm_append_comm_assoc u x y
        · simp only [Straight, StraightAll, NoCircle, NoCircles, Bool.and_eq_true, List.all_eq_true] at hs hcirc
          have hv := (hx.1 hcirc.1).1
          have hu' := (hu.1 hcirc.2.1).1
          refine not_increasing (before_of_earlier (hs.2 thick (by simp)) ⟨d, of_mem_taken (hv.mem_iff.mp (by simpa using hd)) hdp, hdp⟩ ⟨c, hc, hp⟩)
            (u := u) (w := x ++ y) (fun z hz hzp => ?_) (fun z hz hzp => ?_) (by simpa using hi)
          · exact List.mem_append_left _ (by simpa using hv.mem_iff.mpr (mem_taken hz hzp))
          · exact hu'.mem_iff.mpr (mem_taken hz hzp)

theorem stripesLoop_saves : ∀ n vs, Does (stripesLoop n vs) fun a t => ∃ more s, a.1 = vs ++ more ∧ t = s ++ taken [a.2] ∧ HoldsAll more s := by
  intro n
  induction n with
  | zero => intro vs; exact .panic
  | succ n ih =>
    intro vs
    unfold stripesLoop
    refine Exact.look (Does.peek fun _ => rfl) fun c => Does.ite (fun _ => ?_) fun _ => ?_
    · exact Exact.next .kind fun c => .pure ⟨[], [], by simp, by simp, .nil⟩
    · refine Holds.seq colorStripe_saves fun v t hv => (ih _).mono ?_
      rintro ⟨a, c⟩ s ⟨more, s', h1, rfl, h⟩
      exact ⟨v :: more, t ++ s', by simpa using h1, by simp, HoldsAll.cons hv h⟩

theorem namedFunction_starts {name : List Char} : Opens (namedFunction name) := FirmVal.start (FirmVal.one .kind (.kind (by decide))) namedFunction_does.usual

theorem gradient_starts : Opens gradient := FirmVal.start FirmVal.functionOf gradient_saves.usual

theorem image_firm : FirmVal image := by
  have h := image_saves
  unfold image
  refine FirmVal.look (Does.peek fun _ => rfl) fun c => FirmVal.ite (fun _ => ?_) fun _ => ?_
  · exact FirmVal.bind (FirmVal.piece .kind (.kind (by decide))) fun v => FirmVal.pure
  refine FirmVal.look (Does.peek fun _ => rfl) fun c => FirmVal.look (Does.looks .functionOf fun _ => rfl) fun b => FirmVal.ite (fun _ => ?_) fun _ => ?_
  · exact FirmVal.bind (FirmVal.starts gradient_starts) fun v => FirmVal.pure
  · refine FirmVal.first namedFunction_starts ?_
    exact Does.bind namedFunction_does fun f _ _ => Does.bind (sequence_saves (SaveAll.cons (piece_saves .kind) (.cons (piece_saves .kind) .nil))) fun vs t h => .pure trivial

theorem image1D_saves : SavesVal image1D := by
  unfold image1D
  refine Exact.next namedFunction_does fun f => Does.readNow fun p => Does.bind (stripesLoop_saves _ _) fun a t h => ?_
  obtain ⟨vs, close⟩ := a
  obtain ⟨more, s, h1, rfl, h⟩ := h
  simp only [List.nil_append] at h1
  subst h1
  refine .pure ?_
  simpa using (HoldsAll.cons (.tok (c := f)) (HoldsAll.cons h.fields (HoldsAll.one (.tok (c := close))))).fields

theorem optPlaced_does {names : List (List Char)} : Does (optKeyword names) fun o t => t = taken o.toList ∧ ∀ c ∈ o, placed c = true :=
  Does.bind (Does.ifPeek .keyword FirmVal.keyword) fun o t h => .pure (by
    rcases h with ⟨rfl, rfl⟩ | ⟨x, rfl, rfl, h⟩
    · simp
    · simpa using h)

theorem positionPair_saves {first second : List (List Char)} {i : Nat} {flipped : Bool} {otherwise : Prog Val} (h : SavesVal otherwise) :
    SavesVal (positionPair first second i flipped otherwise) := by
  unfold positionPair
  refine Does.bind optPlaced_does fun o t e => ?_
  obtain ⟨rfl, ha⟩ := e
  cases o with
  | none => exact h
  | some a =>
    refine Does.bind optPlaced_does fun b u e => .pure ?_
    obtain ⟨rfl, hb⟩ := e
    have ha := ha a rfl
    cases flipped with
    | false => simpa using Holds.variant (HoldsAll.cons (.tok (c := a)) (HoldsAll.one (.optTok (o := b)))).fields
    | true =>
      cases b with
      | none => simpa using Holds.variant (HoldsAll.cons (.optTok (o := none)) (HoldsAll.one (.tok (c := a)))).fields
      | some b =>
        have hb := hb b rfl
        refine Holds.perm (Holds.variant (HoldsAll.cons (.optTok (o := some b)) (HoldsAll.one (.tok (c := a)))).fields) ?_ fun _ hs hi => ?_
        · simpa using List.perm_append_comm
        · simp only [Straight, StraightAll, Bool.and_eq_true, List.all_eq_true, if_pos] at hs
          have := hs.2 (.tok a) (by simp)
          simp only [Option.map, opt_some_cursors, Val.cursors] at this
          exact tokens_later this hb ha hi (by simp [mem_taken (l := [b]) (by simp) hb]) (mem_taken (by simp) ha)

theorem positionArea_saves : SavesVal positionArea :=
  positionPair_saves <| positionPair_saves <| positionPair_saves <| positionPair_saves <| positionPair_saves <| positionPair_saves <| positionPair_saves <|
    positionPair_saves <| Exact.next .any fun _ => .fail

theorem iterationCount_saves : SavesVal iterationCount := by
  unfold iterationCount
  refine Exact.look (Does.peek fun _ => rfl) fun c => Exact.look (x := if c.token.isKind .ident = true then _ else _) (Does.ite (fun _ => ?_) fun _ => .pure rfl) fun b => ?_
  · exact Exact.look (Does.peekN fun _ => rfl) fun c => Does.eqCase fun _ => rfl
  · refine Does.ite (fun _ => ?_) fun _ => ?_
    · exact Exact.next .kind fun c => .pure (by simpa using Holds.tok)
    · exact Exact.next (.test isCssFloat_inspects) fun c => Does.ite (fun _ => .fail) fun _ => .pure (by simpa using Holds.tok)

theorem repeatStyle_saves : SavesVal repeatStyle := by
  unfold repeatStyle
  refine Exact.next .kind fun c => Exact.look (Does.strLower fun _ => rfl) fun s => Does.ite (fun _ => .pure ?_) fun _ => Does.ite (fun _ => .pure ?_) fun _ => ?_
  · simpa using Holds.variant .tok
  · simpa using Holds.variant .tok
  refine Exact.look isKeyword_does fun b => Does.ite (fun _ => ?_) fun _ => Exact.look (Does.str fun _ => rfl) fun _ => .fail
  refine Does.bind optKeyword_does fun b u e => .pure ?_
  subst e
  simpa using Holds.variant (HoldsAll.cons (.tok (c := c)) (HoldsAll.one (.optTok (o := b)))).fields

theorem snap_saves {name : List Char} {names : List (List Char)} : SavesVal (snap name names) := by
  unfold snap
  refine Exact.next namedFunction_does fun f => Exact.next (.test .lengthPercentage) fun l => Does.bind (optCursor_does .kind) fun comma u hu =>
    Does.bind optKeyword_does fun key w hw => Does.bind (optCursor_does .kind) fun close x hx => .pure ?_
  subst hu hw hx
  simpa using (HoldsAll.cons (.tok (c := f)) (HoldsAll.cons (.tok (c := l)) (HoldsAll.cons (.optTok (o := comma)) (HoldsAll.cons (.optTok (o := key))
    (HoldsAll.one (.optTok (o := close))))))).fields

theorem rangeLimitLoop_saves : ∀ n vs, Does (rangeLimitLoop n vs) fun a t => ∃ more s, a.1 = vs ++ more ∧ t = s ++ taken a.2.toList ∧ HoldsAll more s := by
  intro n
  induction n with
  | zero => intro vs; exact .panic
  | succ n ih =>
    intro vs
    unfold rangeLimitLoop
    refine Exact.look (Does.ask fun _ => rfl) fun e => Does.ite (fun _ => .pure ⟨[], [], by simp, by simp, .nil⟩) fun _ => Exact.look (Does.peek fun _ => rfl) fun c =>
      Does.ite (fun _ => ?_) fun _ => ?_
    · exact Exact.next .kind fun c => .pure ⟨[], [], by simp, by simp, .nil⟩
    refine Exact.next .kind fun name => Exact.next (.test (isDimensionOf_inspects _)) fun part => Does.ite (fun _ => .fail) fun _ =>
      Does.bind (optCursor_does .kind) fun comma u hu => (ih _).mono ?_
    subst hu
    rintro ⟨a, o⟩ s ⟨more, s', h1, rfl, h⟩
    have one : Holds (.fields [.tok name, .tok part, .opt (comma.map .tok)]) (taken [name] ++ (taken [part] ++ taken comma.toList)) :=
      (HoldsAll.cons .tok (HoldsAll.cons .tok (HoldsAll.one .optTok))).fields
    exact ⟨.fields [.tok name, .tok part, .opt (comma.map .tok)] :: more, _, by simpa using h1, by simp, HoldsAll.cons one h⟩

theorem rangeLimitMix_saves : SavesVal rangeLimitMix := by
  unfold rangeLimitMix
  refine Exact.next namedFunction_does fun f => Does.readNow fun p => Does.bind (rangeLimitLoop_saves _ _) fun a t h => ?_
  obtain ⟨vs, close⟩ := a
  obtain ⟨more, s, h1, rfl, h⟩ := h
  simp only [List.nil_append] at h1
  subst h1
  exact .pure (by simpa using (HoldsAll.cons .tok (HoldsAll.cons h.fields (HoldsAll.one .optTok))).fields)

theorem calcSize_saves : SavesVal calcSize := Exact.next .kind fun _ => .panic

theorem optKeyword_firm {names : List (List Char)} : FirmVal (optKeyword names) := FirmVal.bind FirmVal.maybeKeyword fun _ => FirmVal.pure

theorem positionPair_firm {first second : List (List Char)} {i : Nat} {flipped : Bool} {otherwise : Prog Val} (h : FirmVal otherwise) :
    FirmVal (positionPair first second i flipped otherwise) := by
  unfold positionPair
  refine FirmVal.bind optKeyword_firm fun o => ?_
  cases o with
  | none => exact h
  | some a => exact FirmVal.bind optKeyword_firm fun b => FirmVal.pure

theorem positionArea_firm : FirmVal positionArea :=
  positionPair_firm <| positionPair_firm <| positionPair_firm <| positionPair_firm <| positionPair_firm <| positionPair_firm <| positionPair_firm <|
    positionPair_firm <| Exact.next .any fun _ => .fail

theorem iterationCount_firm : FirmVal iterationCount := by
  unfold iterationCount
  refine FirmVal.look (Does.peek fun _ => rfl) fun c => FirmVal.look (x := if c.token.isKind .ident = true then _ else _) (Does.ite (fun _ => ?_) fun _ => .pure rfl) fun b => ?_
  · exact Exact.look (Does.peekN fun _ => rfl) fun c => Does.eqCase fun _ => rfl
  · refine FirmVal.ite (fun _ => ?_) fun _ => ?_
    · exact FirmVal.bind (FirmVal.starts (FirmVal.one .kind (.kind (by decide)))) fun c => FirmVal.pure
    · exact FirmVal.bind (FirmVal.starts (FirmVal.one isCssFloat_inspects .float)) fun c => FirmVal.ite (fun _ => .fail) fun _ => FirmVal.pure

theorem handWritten_ok (name : List Char) : ∀ l, handWritten name = some l → l.Ok := by
  unfold handWritten
  have pick : ∀ {b : Prop} [Decidable b] {x : Leaf} {y : Option Leaf}, x.Ok → (∀ l, y = some l → l.Ok) → ∀ l, (if b then some x else y) = some l → l.Ok := by
    intro b _ x y hx hy l e
    split at e
    · cases e; exact hx
    · exact hy l e
  split
  · intro l e; cases e; exact .keywords
  · refine pick (.single .lineWidth .lineWidth) <| pick (.single .opacity .opacity) <| pick ⟨.iterationCount, iterationCount_saves, iterationCount_firm⟩ <|
      pick ⟨.repeatStyle, repeatStyle_saves, FirmVal.first (FirmVal.one .kind (.kind (by decide))) repeatStyle_saves.usual⟩ <|
      pick (.single .dashed .dashed) <| pick ⟨.positionArea, positionArea_saves, positionArea_firm⟩ <|
      pick ⟨.named, snap_saves, FirmVal.first namedFunction_starts snap_saves.usual⟩ <| pick ⟨.named, snap_saves, FirmVal.first namedFunction_starts snap_saves.usual⟩ <|
      pick ⟨.named, rangeLimitMix_saves, FirmVal.first namedFunction_starts rangeLimitMix_saves.usual⟩ <|
      pick ⟨.named, calcSize_saves, FirmVal.first (FirmVal.one .kind (.kind (by decide))) calcSize_saves.usual⟩ <| pick ⟨.color, color_saves, color_firm⟩ <|
      pick ⟨.image, image_saves, image_firm⟩ <|
      pick ⟨.named, image1D_saves, FirmVal.first namedFunction_starts image1D_saves.usual⟩ <| pick (.single .kind (.kind (by decide))) ?_
    intro l e; cases e

theorem definitionLeaf_ok : ∀ n name, (definitionLeaf n name).Ok := by
  intro n
  induction n with
  | zero => intro name; exact ⟨.panic, .panic, .panic⟩
  | succ n ih =>
    intro name
    unfold definitionLeaf
    split
    · exact handWritten_ok name _ ‹_›
    · split
      · exact Def.leaf_ok ih _
      · exact ⟨.panic, .panic, .panic⟩

theorem realValues_saves (name : List Char) : SavesVal (realValues.parser name) := by
  unfold realValues
  dsimp only
  split
  · exact (definitionLeaf_ok _ _).parser
  · exact .panic

end Hdx

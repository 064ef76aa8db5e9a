/-
C73: the pieces of a parsed selector are what they are labelled as.
-/
import Verif.Props.SelectorReturns
import Verif.Props.SelectorList

namespace Hdx
open Spec Prog

/-! ### Specification -/

namespace Spec

/-- The text of the token of `c`, with its escapes decoded and in lower case (C10, C12), is `s`. -/
def Named (src : List Char) (c : Cursor) (s : List Char) : Prop := c.parseStrLower src = .ok s
/-- The token is the single character `ch`. -/
def IsDelim (ch : Char) (c : Cursor) : Prop := c.token.isKind .delim = true ∧ c.token.isChar ch = true
/-- The token is of kind `k`. -/
def IsKind (k : Kind) (c : Cursor) : Prop := c.token.isKind k = true
/-- A closing token of kind `k`, or none. -/
def Closes (k : Kind) (o : Option Cursor) : Prop := ∀ c ∈ o, IsKind k c

/-- https://html.spec.whatwg.org/multipage/custom-elements.html#valid-custom-element-name: `PCENChar` without `-`. -/
def PCENChar (c : Char) : Prop :=
  c = '.' ∨ c = '_' ∨ ∃ r ∈ [(0x30, 0x39), (0x61, 0x7a), (0xb7, 0xb7), (0xc0, 0xd6), (0xd8, 0xf6), (0xf8, 0x37d), (0x37f, 0x1fff), (0x200c, 0x200d), (0x203f, 0x2040),
    (0x2070, 0x218f), (0x2c00, 0x2fef), (0x3001, 0xd7ff), (0xf900, 0xfdcf), (0xfdf0, 0xfffd), (0x10000, 0xeffff)], r.1 ≤ c.toNat ∧ c.toNat ≤ r.2
/-- A valid custom element name: begins with a lower-case letter, has a dash, and is not reserved. -/
def CustomName (s : List Char) : Prop :=
  ∃ c cs, s = c :: cs ∧ 0x61 ≤ c.toNat ∧ c.toNat ≤ 0x7a ∧ '-' ∈ cs ∧ (∀ d ∈ cs, d = '-' ∨ PCENChar d)
    ∧ s ∉ [c!"annotation-xml", c!"color-profile", c!"font-face", c!"font-face-src", c!"font-face-uri", c!"font-face-format", c!"font-face-name", c!"missing-glyph"]

/-- What each sort of element says of the name. -/
def TagSays (s : List Char) : TagKind → Prop
  | .html n => n = s ∧ s ∈ HTML_TAGS
  | .svg n => n = s ∧ s ∈ SVG_TAGS ∧ s ∉ HTML_TAGS
  | .mathml n => n = s ∧ s ∈ MATHML_TAGS ∧ s ∉ HTML_TAGS ∧ s ∉ SVG_TAGS
  | .customElement => CustomName s
  | .htmlNonConforming n => n = s ∧ s ∈ HTML_NON_CONFORMING_TAGS ∧ s ∉ HTML_TAGS ∧ s ∉ SVG_TAGS
  | .htmlNonStandard n => n = s ∧ s ∈ HTML_NON_STANDARD_TAGS
  | .unknown => s ∉ HTML_TAGS ∧ s ∉ SVG_TAGS ∧ s ∉ MATHML_TAGS ∧ s ∉ HTML_NON_CONFORMING_TAGS ∧ s ∉ HTML_NON_STANDARD_TAGS ∧ ¬ CustomName s

/-- An element name. -/
def TagLabel (src : List Char) (kind : TagKind) (c : Cursor) : Prop := IsKind .ident c ∧ ∃ s, Named src c s ∧ TagSays s kind

def CombinatorLabel : Combinator → Prop
  | .child c => IsDelim '>' c
  | .nextSibling c => IsDelim '+' c
  | .subsequentSibling c => IsDelim '~' c
  | .column a b => IsDelim '|' a ∧ IsDelim '|' b
  | .nesting c => IsDelim '&' c
  | .descendant c => IsKind .whitespace c

def PrefixLabel : NamespacePrefix → Prop
  | .none p => IsDelim '|' p
  | .name i p => IsKind .ident i ∧ IsDelim '|' p
  | .wildcard s p => IsDelim '*' s ∧ IsDelim '|' p

def NamespaceLabel (src : List Char) (n : Namespace) : Prop :=
  (∀ p ∈ n.pre, PrefixLabel p) ∧ match n.tag with
    | none => IsDelim '*' n.cursor
    | some k => TagLabel src k n.cursor

def OperatorLabel : AttributeOperator → Prop
  | .exact c => IsDelim '=' c
  | .spaceList a b => IsDelim '~' a ∧ IsDelim '=' b
  | .langPrefix a b => IsDelim '|' a ∧ IsDelim '=' b
  | .startsWith a b => IsDelim '^' a ∧ IsDelim '=' b
  | .endsWith a b => IsDelim '$' a ∧ IsDelim '=' b
  | .contains a b => IsDelim '*' a ∧ IsDelim '=' b

/-- `[name]`, or `[name op value]` with an optional `i` or `s`. -/
def AttributeLabel (src : List Char) (a : Attribute) : Prop :=
  IsKind .leftSquare a.opening ∧ (∀ p ∈ a.pre, PrefixLabel p) ∧ IsKind .ident a.name ∧ (∀ o ∈ a.operator, OperatorLabel o)
  ∧ (a.operator.isSome ↔ a.value.isSome) ∧ (∀ v ∈ a.value, IsKind .ident v ∨ IsKind .string v)
  ∧ (∀ m ∈ a.modifier, a.value.isSome ∧ IsKind .ident m.2 ∧ (m.1 = true ∧ (m.2.parseStr src = .ok ['s'] ∨ m.2.parseStr src = .ok ['S'])
      ∨ m.1 = false ∧ (m.2.parseStr src = .ok ['i'] ∨ m.2.parseStr src = .ok ['I'])))
  ∧ Closes .rightSquare a.close

/-- A value of `:lang()`, with the comma after it. -/
def LangLabel (v : Cursor × Option Cursor) : Prop := (IsKind .ident v.1 ∨ IsKind .string v.1) ∧ Closes .comma v.2

mutual
/-- What each sort of component says of its tokens. -/
def Label (src : List Char) : Sel → Prop
  | .id c => IsKind .hash c
  | .cls dot name => IsDelim '.' dot ∧ IsKind .ident name
  | .tag kind c => TagLabel src kind c
  | .wildcard c => IsDelim '*' c
  | .combinator c => CombinatorLabel c
  | .attr a => AttributeLabel src a
  | .pseudoClass vendor name colon ident => IsKind .colon colon ∧ IsKind .ident ident ∧ Named src ident name ∧ name ∈ pseudoClassNames vendor
  | .pseudoElement vendor name c1 c2 ident => IsKind .colon c1 ∧ IsKind .colon c2 ∧ IsKind .ident ident ∧ Named src ident name ∧ name ∈ pseudoElementNames vendor
  | .legacyPseudoElement name colon ident =>
    IsKind .colon colon ∧ IsKind .ident ident ∧ Named src ident name ∧ name ∈ [c!"after", c!"before", c!"first-letter", c!"first-line"]
  | .ns n => NamespaceLabel src n
  | .fnToken name colon function value close => IsKind .colon colon ∧ IsKind .function function ∧ Named src function name ∧ Closes .rightParen close ∧ IsKind .ident value
    ∧ (name = c!"state" ∨ name = c!"dir" ∧ (Named src value c!"rtl" ∨ Named src value c!"ltr"))
  | .fnSelectors name colon function value close => IsKind .colon colon ∧ IsKind .function function ∧ Named src function name ∧ Closes .rightParen close
    ∧ name ∈ [c!"has", c!"host", c!"host-context", c!"is", c!"not", c!"where"] ∧ ListLabel src value
  | .fnLang colon function value close => IsKind .colon colon ∧ IsKind .function function ∧ Named src function c!"lang" ∧ Closes .rightParen close
    ∧ value ≠ [] ∧ ∀ v ∈ value, LangLabel v
  | .fnNth name colon function _ close => IsKind .colon colon ∧ IsKind .function function ∧ Named src function name ∧ Closes .rightParen close
    ∧ name ∈ [c!"nth-child", c!"nth-col", c!"nth-last-child", c!"nth-last-col", c!"nth-last-of-type", c!"nth-of-type"]
  | .highlight c1 c2 function value close => IsKind .colon c1 ∧ IsKind .colon c2 ∧ IsKind .function function ∧ Named src function c!"highlight" ∧ IsKind .ident value
    ∧ Closes .rightParen close
  | .part c1 c2 function value close => IsKind .colon c1 ∧ IsKind .colon c2 ∧ IsKind .function function ∧ Named src function c!"part" ∧ (∀ v ∈ value, IsKind .ident v)
    ∧ Closes .rightParen close
  | .slotted c1 c2 function value close => IsKind .colon c1 ∧ IsKind .colon c2 ∧ IsKind .function function ∧ Named src function c!"slotted" ∧ CompoundLabel src value
    ∧ Closes .rightParen close
/-- A compound selector. -/
def CompoundLabel (src : List Char) : List Sel → Prop
  | [] => True
  | s :: ss => Label src s ∧ CompoundLabel src ss
/-- A selector list: the commas are between the selectors. -/
def ListLabel (src : List Char) : List (List Sel × Option Cursor) → Prop
  | [] => True
  | (s, comma) :: ss => CompoundLabel src s ∧ Closes .comma comma ∧ ListLabel src ss
end

end Spec

/-! ### What a program says -/

/-- Every successful run of `x` on the source `src` gives a result in `P`. -/
def Says {α : Type} (src : List Char) (x : Prog α) (P : α → Prop) : Prop :=
  ∀ ⦃p : Parser⦄, p.lexer.source = src → Succ x p fun a _ _ => P a

theorem Succ.source {α : Type} {x : Prog α} {p : Parser} : Succ x p fun _ p' _ => p'.lexer.source = p.lexer.source := fun _ _ _ h => (runLog_source x h).1

namespace Says
variable {α β : Type} {src : List Char} {P : α → Prop} {Q : β → Prop}

theorem pure {a : α} (h : P a) : Says src (Pure.pure a) P := fun _ _ => Succ.pure h
theorem fail {d : DiagCode} {c : Cursor} : Says src (Prog.fail d c : Prog α) P := fun _ _ => Succ.fail
theorem panic {e : Panic} : Says src (Prog.panic e : Prog α) P := fun _ _ => Succ.panic
theorem bind {x : Prog α} {f : α → Prog β} (hx : Says src x P) (hf : ∀ a, P a → Says src (f a) Q) : Says src (x >>= f) Q := by
  intro p hp b p' w hg
  obtain ⟨a, p1, w1, w2, h1, h2, rfl⟩ := gives_bind_ok.mp hg
  exact hf a (hx hp h1) ((runLog_source x h1).1.trans hp) h2
theorem mono {x : Prog α} {P' : α → Prop} (h : Says src x P) (hi : ∀ a, P a → P' a) : Says src x P' := fun _ hp _ _ _ hg => hi _ (h hp hg)
theorem ask {f : Parser → Except Panic α} (h : ∀ p a, p.lexer.source = src → f p = .ok a → P a) : Says src (Prog.ask f) P := fun p hp => Succ.ask fun a ha => h p a hp ha
theorem any (x : Prog α) : Says src x fun _ => True := fun _ _ _ _ _ _ => trivial
theorem ite {b : Prop} [Decidable b] {x y : Prog α} (hx : b → Says src x P) (hy : ¬ b → Says src y P) : Says src (if b then x else y) P :=
  fun _ hp => Succ.ite (fun h => hx h hp) (fun h => hy h hp)
theorem setSkip {s : KindSet} {k : KindSet → Prog α} (h : ∀ o, Says src (k o) P) : Says src (Prog.setSkip s k) P := fun p hp => Succ.setSkip (h p.skip hp)
theorem consumeTrivia {k : Prog α} (h : Says src k P) : Says src (Prog.consumeTrivia k) P := by
  intro p hp
  refine Succ.consumeTrivia fun q hq => h ?_
  rw [← hp]
  have : Gives (Prog.consumeTrivia (Pure.pure ())) p (.ok ()) q [] := by simp [Gives, Prog.runLog, hq, Pure.pure]
  exact (runLog_source _ this).1
theorem result {x : Prog α} (h : Says src x P) : Says src (Prog.result x) fun r => ∀ a, r = .ok a → P a := by
  intro p hp r p' w hg
  obtain ⟨r1, h1, e⟩ := gives_result.mp hg
  cases e
  rintro a rfl
  exact h hp h1
theorem ofResult {r : Except Diag α} (h : ∀ a, r = .ok a → P a) : Says src (Prog.ofResult r) P := fun _ _ => Succ.ofResult h
theorem take : Says src Prog.take fun _ => True := any _
theorem tok {test : Cursor → Prog Bool} (hi : Inspects test) {T : Cursor → Prop} (ht : ∀ c, Says src (test c) fun b => b = true → T c) : Says src (Prog.tok test) T := by
  intro p hp c p' w hg
  obtain ⟨hn, h3, rfl⟩ := (gives_tok_pure (fun h => hi h)).mp hg
  exact ht c hp h3 rfl
theorem ifPeek {test : Cursor → Prog Bool} {x : Prog α} (hx : Says src x P) :
    Says src (Prog.ifPeek test x) fun o => ∀ a ∈ o, P a := by
  intro p hp o p' w hg
  obtain ⟨c, b, p1, w1, w2, hc, h1, rfl, ⟨rfl, a, rfl, hb⟩ | ⟨rfl, rfl, rfl, rfl⟩⟩ := gives_ifPeek.mp hg
  · rintro a' ⟨⟩
    exact hx ((runLog_source _ h1).1.trans hp) hb
  · rintro a' ⟨⟩
theorem strLower {c : Cursor} : Says src (Prog.strLower c) fun s => Named src c s := ask fun p a hp ha => by rw [hp] at ha; exact ha
theorem str {c : Cursor} : Says src (Prog.str c) fun s => c.parseStr src = .ok s := ask fun p a hp ha => by rw [hp] at ha; exact ha
theorem kind {k : Kind} : Says src (Prog.tok (Prog.isKind k)) (IsKind k) := tok Inspects.kind fun _ => pure id
theorem delim {ch : Char} : Says src (Prog.tok (Prog.isDelim ch)) (IsDelim ch) := tok Inspects.delim fun _ => pure fun h => by
  simpa [IsDelim] using h
theorem closes {k : Kind} : Says src (Prog.ifPeek (Prog.isKind k) (Prog.tok (Prog.isKind k))) (Closes k) := ifPeek kind
theorem then_ {x : Prog α} {f : α → Prog β} (hf : ∀ a, Says src (f a) Q) : Says src (x >>= f) Q := bind (any x) fun a _ => hf a
theorem attempt {body : Prog β} {keep : Except Diag β → Bool} {k : Except Diag β → Prog α} (hb : Says src body Q)
    (hk : ∀ r, (∀ b, r = .ok b → Q b) → Says src (k r) P) : Says src (Prog.attempt body keep k) P := by
  intro p hp
  refine Succ.attempt fun r p1 w1 h1 => ?_
  have hr : ∀ b, r = .ok b → Q b := by rintro b rfl; exact hb hp h1
  have hs := (runLog_source body h1).1.trans hp
  exact ⟨fun _ => hk r hr hs, fun _ => hk r hr hs⟩
theorem tryParse {x : Prog α} (h : Says src x P) : Says src (Prog.tryParse x) P := attempt h fun _ hr => ofResult hr

theorem isKeyword {names : List (List Char)} (c : Cursor) : Says src (Hdx.isKeyword names c) fun b => (b = true → IsKind .ident c ∧ ∃ s, Named src c s ∧ s ∈ names)
    ∧ (b = false → IsKind .ident c → ∃ s, Named src c s ∧ s ∉ names) := by
  unfold Hdx.isKeyword
  refine ite (fun h => bind strLower fun s hs => pure ⟨fun hb => ⟨h, s, hs, by simpa using hb⟩, fun hb _ => ⟨s, hs, by simpa using hb⟩⟩) fun h => pure ⟨by simp, fun _ h' => absurd h' h⟩
theorem buildKeyword {names : List (List Char)} {c : Cursor} : Says src (Hdx.buildKeyword names c) fun r => r.2 = c ∧ Named src c r.1 ∧ r.1 ∈ names := by
  unfold Hdx.buildKeyword
  exact bind strLower fun s hs => ite (fun h => pure ⟨rfl, hs, by simpa using h⟩) fun _ => panic
theorem keyword {names : List (List Char)} : Says src (Hdx.keyword names) fun r => IsKind .ident r.2 ∧ Named src r.2 r.1 ∧ r.1 ∈ names := by
  unfold Hdx.keyword
  exact bind (tok Inspects.keyword fun c => (isKeyword c).mono fun b h => h.1) fun c hc => buildKeyword.mono fun r hr => hr.1 ▸ ⟨hc.1, hr.1 ▸ hr.2⟩
theorem doubleDelim {a b : Char} : Says src (Hdx.doubleDelim a b) fun r => IsDelim a r.1 ∧ IsDelim b r.2 := by
  unfold Hdx.doubleDelim
  refine bind kind fun c1 h1 => ite (fun _ => fail) fun h2 => setSkip fun o => bind (result kind) fun r hr => setSkip fun _ => bind (ofResult hr) fun c2 h3 =>
    ite (fun _ => fail) fun h4 => pure ⟨⟨h1, by simpa using h2⟩, h3, by simpa using h4⟩
theorem whitespace : Says src Prog.whitespace (IsKind .whitespace) := by
  intro p hp c p' w hg
  unfold Prog.whitespace at hg
  obtain ⟨c, p1, w1, h1, h2, rfl⟩ := gives_next.mp (gives_setSkip.mp hg)
  rcases gives_ite.mp (gives_setSkip.mp h2) with ⟨hk, h⟩ | ⟨_, h⟩
  · obtain ⟨e, rfl, rfl⟩ := gives_pure.mp h; cases e; exact hk
  · exact absurd h not_fail
end Says

/-! ### Parts -/

section
variable {src : List Char}

theorem pcenChar_iff {c : Char} : isCustomElementChar c = true ↔ PCENChar c := by
  unfold isCustomElementChar PCENChar
  simp only [Bool.or_eq_true, Bool.and_eq_true, decide_eq_true_eq, beq_iff_eq, List.mem_cons, List.not_mem_nil, or_false, exists_eq_or_imp, exists_eq_left]
  have : ∀ n m : Nat, (m ≤ n ∧ n ≤ m) ↔ n = m := by omega
  rw [this]
  simp only [or_assoc]

theorem customLoop_iff {d : Bool} {cs : List Char} : customElementLoop d cs = true ↔ (d = true ∨ '-' ∈ cs) ∧ ∀ c ∈ cs, c = '-' ∨ PCENChar c := by
  induction cs generalizing d with
  | nil => simp [customElementLoop]
  | cons c cs ih =>
    unfold customElementLoop
    by_cases h : c = '-'
    · subst h; simp [ih]
    · rw [if_neg (by simpa using h)]
      by_cases h2 : isCustomElementChar c = true
      · rw [if_pos h2, ih]
        have := pcenChar_iff.mp h2
        simp [h, this, Ne.symm h]
      · rw [if_neg h2]
        have : ¬ PCENChar c := fun hh => h2 (pcenChar_iff.mpr hh)
        simp [h, this]

theorem customName_iff {s : List Char} : isCustomElementName s = true ↔ CustomName s := by
  unfold isCustomElementName CustomName
  by_cases hr : s ∈ NOT_CUSTOM_ELEMENTS
  · rw [if_pos (by simpa using hr)]
    constructor
    · intro h; cases h
    · rintro ⟨_, _, _, _, _, _, _, h⟩; exact absurd hr h
  · rw [if_neg (by simpa using hr)]
    cases s with
    | nil => simp
    | cons c cs =>
      simp only
      split
      · rename_i h
        constructor
        · intro h; cases h
        · rintro ⟨c', cs', e, h1, h2, _⟩
          cases e
          simp only [Bool.not_eq_true', Bool.and_eq_false_iff, decide_eq_false_iff_not] at h
          omega
      · rename_i h
        rw [customLoop_iff]
        simp only [Bool.not_eq_true', Bool.not_eq_false, Bool.and_eq_true, decide_eq_true_eq] at h
        constructor
        · rintro ⟨h1, h2⟩
          exact ⟨c, cs, rfl, h.1, h.2, by simpa using h1, h2, hr⟩
        · rintro ⟨c', cs', e, _, _, h1, h2, _⟩
          cases e
          exact ⟨.inr h1, h2⟩

theorem Spec.Named.det {c : Cursor} {s t : List Char} (h : Named src c s) (h' : Named src c t) : s = t := by
  unfold Named at h h'; rw [h] at h'; cases h'; rfl

theorem buildTag_says {c : Cursor} (hc : IsKind .ident c) : Says src (buildTag c) fun r => r.2 = c ∧ TagLabel src r.1 c := by
  unfold buildTag
  refine Says.bind (Says.isKeyword c) fun b hb => Says.ite (fun h => ?_) fun h => ?_
  · exact Says.bind Says.buildKeyword fun k hk => Says.pure ⟨hk.1, hc, k.1, hk.2.1, rfl, hk.2.2⟩
  obtain ⟨s, hs, n1⟩ := hb.2 (by simpa using h) hc
  refine Says.bind (Says.isKeyword c) fun b hb => Says.ite (fun h => ?_) fun h => ?_
  · exact Says.bind Says.buildKeyword fun k hk => Says.pure ⟨hk.1, hc, k.1, hk.2.1, rfl, hk.2.2, hs.det hk.2.1 ▸ n1⟩
  obtain ⟨s', hs', n2⟩ := hb.2 (by simpa using h) hc
  cases hs.det hs'
  refine Says.bind (Says.isKeyword c) fun b hb => Says.ite (fun h => ?_) fun h => ?_
  · exact Says.bind Says.buildKeyword fun k hk => Says.pure ⟨hk.1, hc, k.1, hk.2.1, rfl, hk.2.2, hs.det hk.2.1 ▸ n1, hs.det hk.2.1 ▸ n2⟩
  obtain ⟨s', hs', n3⟩ := hb.2 (by simpa using h) hc
  cases hs.det hs'
  refine Says.bind Says.strLower fun s' hs' => ?_
  cases hs.det hs'
  refine Says.ite (fun h => Says.pure ⟨rfl, hc, s, hs, customName_iff.mp h⟩) fun h4 => ?_
  refine Says.bind (Says.isKeyword c) fun b hb => Says.ite (fun h => ?_) fun h => ?_
  · exact Says.bind Says.buildKeyword fun k hk => Says.pure ⟨hk.1, hc, k.1, hk.2.1, rfl, hk.2.2, hs.det hk.2.1 ▸ n1, hs.det hk.2.1 ▸ n2⟩
  obtain ⟨s', hs', n5⟩ := hb.2 (by simpa using h) hc
  cases hs.det hs'
  refine Says.bind (Says.isKeyword c) fun b hb => Says.ite (fun h => ?_) fun h => ?_
  · exact Says.bind Says.buildKeyword fun k hk => Says.pure ⟨hk.1, hc, k.1, hk.2.1, rfl, hk.2.2⟩
  obtain ⟨s', hs', n6⟩ := hb.2 (by simpa using h) hc
  cases hs.det hs'
  exact Says.pure ⟨rfl, hc, s, hs, n1, n2, n3, n5, n6, fun hh => h4 (customName_iff.mpr hh)⟩

theorem combinator_says : Says src combinator CombinatorLabel := by
  unfold combinator
  refine Says.then_ fun c => Says.ite (fun _ => ?_) fun _ => Says.ite (fun _ => ?_) fun _ => Says.ite (fun _ => ?_) fun _ => Says.ite (fun _ => ?_) fun _ =>
    Says.then_ fun b => Says.ite (fun _ => ?_) fun _ => ?_
  · exact Says.bind Says.delim fun c h => Says.pure h
  · exact Says.bind Says.delim fun c h => Says.pure h
  · exact Says.bind Says.delim fun c h => Says.pure h
  · exact Says.bind Says.delim fun c h => Says.pure h
  · exact Says.bind Says.doubleDelim fun c h => Says.pure h
  · exact Says.bind Says.whitespace fun c h => Says.pure h

theorem adjacentPipe_says : Says src adjacentPipe (IsDelim '|') := by
  unfold adjacentPipe
  exact Says.setSkip fun _ => Says.bind (Says.result Says.delim) fun r hr => Says.setSkip fun _ => Says.ofResult hr

theorem namespacePrefix_says : Says src namespacePrefix PrefixLabel := by
  unfold namespacePrefix
  refine Says.then_ fun c => Says.ite (fun _ => ?_) fun _ => Says.ite (fun _ => ?_) fun _ => ?_
  · exact Says.bind Says.delim fun c h => Says.pure h
  · exact Says.bind Says.delim fun c h => Says.bind adjacentPipe_says fun _ h2 => Says.pure ⟨h, h2⟩
  · exact Says.bind Says.kind fun c h => Says.bind adjacentPipe_says fun _ h2 => Says.pure ⟨h, h2⟩

/-- An element name or `*` after a namespace prefix. -/
def NsTagLabel (src : List Char) (t : Option TagKind × Cursor) : Prop := match t.1 with
  | none => IsDelim '*' t.2
  | some k => TagLabel src k t.2

theorem namespaceTag_says : Says src namespaceTag (NsTagLabel src) := by
  unfold namespaceTag
  refine Says.bind (Says.tok Inspects.nsTag (T := fun c => IsDelim '*' c ∨ IsKind .ident c) fun c => Says.pure fun h => ?_) fun c hc => Says.ite (fun h => ?_) fun h => ?_
  · simpa [IsDelim, IsKind] using h
  · exact Says.pure (by simpa [IsDelim, NsTagLabel] using h)
  · have hi : IsKind .ident c := by
      rcases hc with h' | h'
      · exact absurd h' (by simpa [IsDelim] using h)
      · exact h'
    exact Says.bind (buildTag_says hi) fun t ht => Says.pure (by show TagLabel src t.1 t.2; rw [ht.1]; exact ht.2)

theorem namespaceSelector_says : Says src namespaceSelector (NamespaceLabel src) := by
  unfold namespaceSelector
  refine Says.then_ fun c => Says.then_ fun b => Says.ite (fun _ => ?_) fun _ => Says.ite (fun _ => ?_) fun _ => ?_
  · exact Says.bind namespacePrefix_says fun p hp => Says.bind namespaceTag_says fun t ht => Says.pure ⟨by rintro _ ⟨⟩; exact hp, ht⟩
  · exact Says.bind namespacePrefix_says fun p hp => Says.bind namespaceTag_says fun t ht => Says.pure ⟨by rintro _ ⟨⟩; exact hp, ht⟩
  · refine Says.bind Says.kind fun i hi => Says.setSkip fun _ => Says.then_ fun c => Says.then_ fun e => Says.ite (fun _ => ?_) fun _ => ?_
    · exact Says.bind (Says.result Says.delim) fun r hr => Says.bind (Says.result namespaceTag_says) fun r2 hr2 => Says.setSkip fun _ =>
        Says.bind (Says.ofResult hr) fun p hp => Says.bind (Says.ofResult hr2) fun t ht => Says.pure ⟨by rintro _ ⟨⟩; exact ⟨hi, hp⟩, ht⟩
    · exact Says.bind namespaceTag_says fun t ht => Says.pure ⟨by rintro _ ⟨⟩, ht⟩

theorem attributeOperator_says : Says src attributeOperator OperatorLabel := by
  unfold attributeOperator
  refine Says.then_ fun c => Says.ite (fun _ => ?_) fun _ => Says.then_ fun b => Says.ite (fun _ => ?_) fun _ => Says.then_ fun b => Says.ite (fun _ => ?_) fun _ =>
    Says.then_ fun b => Says.ite (fun _ => ?_) fun _ => Says.then_ fun b => Says.ite (fun _ => ?_) fun _ => ?_
  · exact Says.bind Says.delim fun c h => Says.pure h
  all_goals exact Says.bind Says.doubleDelim fun c h => Says.pure h

theorem attributeModifier_says : Says src attributeModifier fun m => IsKind .ident m.2 ∧ (m.1 = true ∧ (m.2.parseStr src = .ok ['s'] ∨ m.2.parseStr src = .ok ['S'])
      ∨ m.1 = false ∧ (m.2.parseStr src = .ok ['i'] ∨ m.2.parseStr src = .ok ['I'])) := by
  unfold attributeModifier
  refine Says.bind (Says.tok Inspects.attrModifier (T := fun c => IsKind .ident c ∧ ∃ s, c.parseStr src = .ok s ∧ (s = ['i'] ∨ s = ['s'] ∨ s = ['I'] ∨ s = ['S'])) fun c => ?_)
    fun c hc => Says.bind Says.str fun s hs => Says.pure ?_
  · unfold isAttributeModifier
    refine Says.ite (fun h => Says.bind Says.str fun s hs => Says.pure fun hb => ⟨h, s, hs, ?_⟩) fun _ => Says.pure (by simp)
    simpa [or_assoc] using hb
  · obtain ⟨hk, s', hs', h⟩ := hc
    rw [hs] at hs'; cases hs'
    refine ⟨hk, ?_⟩
    rcases h with rfl | rfl | rfl | rfl
    · exact .inr ⟨rfl, .inl hs⟩
    · exact .inl ⟨rfl, .inl hs⟩
    · exact .inr ⟨rfl, .inr hs⟩
    · exact .inl ⟨rfl, .inr hs⟩

theorem attributeRest_says {opening name : Cursor} {pre : Option NamespacePrefix} (ho : IsKind .leftSquare opening) (hp : ∀ p ∈ pre, PrefixLabel p) (hn : IsKind .ident name) :
    Says src (attributeRest opening pre name) (AttributeLabel src) := by
  unfold attributeRest
  refine Says.bind (Says.ifPeek attributeOperator_says) fun o hop => ?_
  cases o with
  | none => exact Says.bind Says.closes fun c hc => Says.pure ⟨ho, hp, hn, by simp, by simp, by simp, by simp, hc⟩
  | some o =>
    refine Says.bind (Says.tok Inspects.attrValue (T := fun v => IsKind .ident v ∨ IsKind .string v) fun c => Says.pure fun h => by simpa [IsKind] using h) fun v hv =>
      Says.bind (Says.ifPeek attributeModifier_says) fun m hm => Says.bind Says.closes fun c hc => Says.pure ?_
    exact ⟨ho, hp, hn, hop, by simp, by rintro _ ⟨⟩; exact hv, fun x hx => ⟨rfl, hm x hx⟩, hc⟩

theorem attributeSelector_says : Says src attributeSelector (AttributeLabel src) := by
  unfold attributeSelector
  refine Says.bind Says.kind fun o ho => Says.then_ fun c => Says.then_ fun b => Says.ite (fun _ => ?_) fun _ => ?_
  · exact Says.bind namespacePrefix_says fun p hp => Says.bind Says.kind fun n hn => Says.setSkip fun _ => Says.setSkip fun _ =>
      attributeRest_says ho (by rintro _ ⟨⟩; exact hp) hn
  · refine Says.bind Says.kind fun n hn => ?_
    unfold attributeName
    refine Says.setSkip fun _ => Says.then_ fun c => Says.then_ fun e => Says.ite (fun _ => ?_) fun _ => Says.setSkip fun _ => attributeRest_says ho (by rintro _ ⟨⟩) hn
    exact Says.bind (Says.result Says.delim) fun r hr => Says.bind (Says.result Says.kind) fun r2 hr2 => Says.setSkip fun _ => Says.bind (Says.ofResult hr) fun p hp =>
      Says.bind (Says.ofResult hr2) fun i hi => Says.setSkip fun _ => attributeRest_says ho (by rintro _ ⟨⟩; exact ⟨hn, hp⟩) hi

theorem colonColon_says : Says src colonColon fun r => IsKind .colon r.1 ∧ IsKind .colon r.2 := by
  unfold colonColon
  exact Says.bind Says.kind fun a ha => Says.setSkip fun _ => Says.bind (Says.result Says.kind) fun r hr => Says.setSkip fun _ => Says.bind (Says.ofResult hr) fun b hb =>
    Says.pure ⟨ha, hb⟩

/-- An identifier that is one of `names`. -/
def NameIn (src : List Char) (names : List (List Char)) (r : List Char × Cursor) : Prop := IsKind .ident r.2 ∧ Named src r.2 r.1 ∧ r.1 ∈ names

theorem adjacentName_says {names : List (List Char)} : Says src (adjacentName names) (NameIn src names) := by
  unfold adjacentName
  exact Says.setSkip fun _ => Says.bind (Says.result Says.kind) fun r hr => Says.setSkip fun _ => Says.bind (Says.ofResult hr) fun i hi => Says.bind Says.strLower fun s hs =>
    Says.ite (fun h => Says.pure ⟨hi, hs, by simpa using h⟩) fun _ => Says.then_ fun _ => Says.fail

theorem pseudoClassOf_says {names : List (List Char)} : Says src (pseudoClassOf names) fun r => IsKind .colon r.2.1 ∧ NameIn src names (r.1, r.2.2) := by
  unfold pseudoClassOf
  exact Says.bind Says.kind fun c hc => Says.bind adjacentName_says fun n hn => Says.pure ⟨hc, hn⟩

theorem pseudoElementOf_says {names : List (List Char)} :
    Says src (pseudoElementOf names) fun r => (IsKind .colon r.2.1.1 ∧ IsKind .colon r.2.1.2) ∧ NameIn src names (r.1, r.2.2) := by
  unfold pseudoElementOf
  exact Says.bind colonColon_says fun c hc => Says.bind adjacentName_says fun n hn => Says.pure ⟨hc, hn⟩

theorem tryVendors_says {α : Type} {parse : Vendor → Prog α} {otherwise : Prog (Vendor × α)} {P : Vendor → α → Prop} (hp : ∀ v, Says src (parse v) (P v))
    (ho : Says src otherwise fun r => P r.1 r.2) : ∀ vs, Says src (tryVendors parse otherwise vs) fun r => P r.1 r.2
  | [] => ho
  | v :: vs => by
    unfold tryVendors
    refine Says.bind (Says.result (Says.tryParse (hp v))) fun r hr => ?_
    cases r with
    | ok a => exact Says.pure (hr a rfl)
    | error e => exact tryVendors_says hp ho vs

theorem failReading_says {α : Type} {c : Cursor} {P : α → Prop} : Says src (failReading c) P := by
  unfold failReading
  exact Says.then_ fun _ => Says.fail

theorem pseudoClass_says : Says src pseudoClass fun r => IsKind .colon r.2.2.1 ∧ NameIn src (pseudoClassNames r.1) (r.2.1, r.2.2.2) := by
  unfold pseudoClass
  refine Says.attempt pseudoClassOf_says fun r hr => ?_
  cases r with
  | ok a => exact Says.pure (hr a rfl)
  | error e =>
    refine Says.then_ fun c => ?_
    exact tryVendors_says (P := fun v (a : List Char × Cursor × Cursor) => IsKind .colon a.2.1 ∧ NameIn src (pseudoClassNames v) (a.1, a.2.2))
      (fun v => pseudoClassOf_says) failReading_says _

theorem pseudoElement_says : Says src pseudoElement fun r => (IsKind .colon r.2.2.1.1 ∧ IsKind .colon r.2.2.1.2) ∧ NameIn src (pseudoElementNames r.1) (r.2.1, r.2.2.2) := by
  unfold pseudoElement
  refine Says.attempt (Q := fun r : Except Diag (Cursor × Cursor) × Except Diag (List Char × Cursor) =>
    (∀ a, r.1 = .ok a → IsKind .colon a.1 ∧ IsKind .colon a.2) ∧ ∀ a, r.2 = .ok a → NameIn src PSEUDO_ELEMENTS a) ?_ fun r hr => ?_
  · unfold pseudoElementParts
    exact Says.setSkip fun _ => Says.bind (Says.result colonColon_says) fun a ha => Says.bind (Says.result Says.keyword) fun b hb => Says.setSkip fun _ => Says.pure ⟨ha, hb⟩
  · refine Says.bind (Says.ofResult hr) fun parts hparts => Says.bind (Says.ofResult hparts.1) fun cc hcc => ?_
    cases hp : parts.2 with
    | ok name => exact Says.pure ⟨hcc, hparts.2 _ hp⟩
    | error e =>
      refine Says.then_ fun c => ?_
      exact tryVendors_says (P := fun v (a : List Char × (Cursor × Cursor) × Cursor) => (IsKind .colon a.2.1.1 ∧ IsKind .colon a.2.1.2) ∧ NameIn src (pseudoElementNames v) (a.1, a.2.2))
        (fun v => pseudoElementOf_says) failReading_says _

theorem classSelector_says : Says src classSelector (Label src) := by
  unfold classSelector
  exact Says.bind Says.delim fun d hd => Says.bind Says.kind fun n hn => Says.pure ⟨hd, hn⟩

theorem functionOf_says {names : List (List Char)} : Says src (functionOf names) fun r => IsKind .function r.2 ∧ Named src r.2 r.1 ∧ r.1 ∈ names := by
  unfold functionOf
  refine Says.bind (Says.tok Inspects.functionOf (T := IsKind .function) fun c => ?_) fun c hc => Says.buildKeyword.mono fun r hr => ⟨hr.1 ▸ hc, hr.1 ▸ hr.2⟩
  unfold isFunctionOf
  exact Says.ite (fun h => Says.then_ fun _ => Says.pure fun _ => h) fun _ => Says.pure (by simp)

theorem langValue_says : Says src langValue LangLabel := by
  unfold langValue
  refine Says.then_ fun c => Says.ite (fun _ => ?_) fun _ => ?_
  · exact Says.bind Says.kind fun v hv => Says.bind Says.closes fun c hc => Says.pure ⟨.inl hv, hc⟩
  · exact Says.bind Says.kind fun v hv => Says.bind Says.closes fun c hc => Says.pure ⟨.inr hv, hc⟩

theorem langValues_says : ∀ n acc, (∀ v ∈ acc, LangLabel v) → Says src (langValues n acc) fun r => r ≠ [] ∧ ∀ v ∈ r, LangLabel v
  | 0, _, _ => Says.panic
  | n + 1, acc, ha => by
    unfold langValues
    refine Says.bind langValue_says fun v hv => Says.then_ fun c => ?_
    have : ∀ x ∈ acc ++ [v], LangLabel x := by
      intro x hx
      rcases List.mem_append.mp hx with h | h
      · exact ha x h
      · cases List.mem_singleton.mp h; exact hv
    exact Says.ite (fun _ => Says.pure ⟨by simp, this⟩) fun _ => langValues_says n _ this

theorem partLoop_says : ∀ n acc, (∀ v ∈ acc, IsKind .ident v) → Says src (partLoop n acc) fun r => ∀ v ∈ r, IsKind .ident v
  | 0, _, _ => Says.panic
  | n + 1, acc, ha => by
    unfold partLoop
    refine Says.then_ fun c => Says.ite (fun _ => Says.pure ha) fun _ => Says.bind Says.kind fun v hv => partLoop_says n _ ?_
    intro x hx
    rcases List.mem_append.mp hx with h | h
    · exact ha x h
    · cases List.mem_singleton.mp h; exact hv

/-- The same as `Says`, from a parser that skips whitespace and comments. -/
def SaysT {α : Type} (src : List Char) (x : Prog α) (P : α → Prop) : Prop :=
  ∀ ⦃p : Parser⦄, p.lexer.source = src → p.skip = KindSet.TRIVIA → Succ x p fun a _ _ => P a

namespace SaysT
variable {α β : Type} {P : α → Prop} {Q : β → Prop}

theorem of {x : Prog α} (h : Says src x P) : SaysT src x P := fun _ hp _ => h hp
theorem seq {x : Prog α} {f : α → Prog β} (hx : SaysT src x P) (hf : ∀ a, P a → Says src (f a) Q) : SaysT src (x >>= f) Q := by
  intro p hp hs b p' w hg
  obtain ⟨a, p1, w1, w2, h1, h2, rfl⟩ := gives_bind_ok.mp hg
  exact hf a (hx hp hs h1) ((runLog_source x h1).1.trans hp) h2
theorem bind {x : Prog α} {f : α → Prog β} (hm : ∀ ⦃p⦄, p.skip = KindSet.TRIVIA → Succ x p fun _ p' _ => modes p' = modes p) (hx : SaysT src x P)
    (hf : ∀ a, P a → SaysT src (f a) Q) : SaysT src (x >>= f) Q := by
  intro p hp hs b p' w hg
  obtain ⟨a, p1, w1, w2, h1, h2, rfl⟩ := gives_bind_ok.mp hg
  exact hf a (hx hp hs h1) ((runLog_source x h1).1.trans hp) ((modes_skip (hm hs h1)).trans hs) h2
theorem ite {b : Prop} [Decidable b] {x y : Prog α} (hx : b → SaysT src x P) (hy : ¬ b → SaysT src y P) : SaysT src (if b then x else y) P :=
  fun _ hp hs => Succ.ite (fun h => hx h hp hs) (fun h => hy h hp hs)
end SaysT

theorem optionalClose_says : Says src optionalClose (Closes .rightParen) := Says.closes

theorem functionalPseudoClassValue_says {list : Prog (List (List Sel × Option Cursor))} (hl : SaysT src list (ListLabel src)) {n : Nat} {colon function : Cursor} {name : List Char}
    (hc : IsKind .colon colon) (hf : IsKind .function function) (hn : Named src function name) (hin : name ∈ FUNCTIONAL_PSEUDO_CLASSES) :
    SaysT src (functionalPseudoClassValue list n colon name function) (Label src) := by
  unfold functionalPseudoClassValue
  refine SaysT.ite (fun h => ?_) fun n1 => SaysT.ite (fun h => ?_) fun n2 => SaysT.ite (fun h => ?_) fun n3 => SaysT.ite (fun h => ?_) fun n4 => ?_
  · refine .of (Says.bind Says.keyword fun v hv => Says.bind optionalClose_says fun c hcl => Says.pure ?_)
    unfold Label
    refine ⟨hc, hf, hn, hcl, hv.1, .inr ⟨by simpa using h, ?_⟩⟩
    have := hv.2.2
    simp only [List.mem_cons, List.not_mem_nil, or_false] at this
    rcases this with e | e
    · exact .inl (e ▸ hv.2.1)
    · exact .inr (e ▸ hv.2.1)
  · refine .of (Says.bind Says.kind fun v hv => Says.bind optionalClose_says fun c hcl => Says.pure ?_)
    unfold Label
    exact ⟨hc, hf, hn, hcl, hv, .inl (by simpa using h)⟩
  · refine .of (Says.bind (langValues_says n [] (by simp)) fun v hv => Says.bind optionalClose_says fun c hcl => Says.pure ?_)
    unfold Label
    have e : name = c!"lang" := by simpa using h
    exact ⟨hc, hf, e ▸ hn, hcl, hv⟩
  · refine SaysT.seq hl fun v hv => Says.bind optionalClose_says fun c hcl => Says.pure ?_
    unfold Label
    exact ⟨hc, hf, hn, hcl, by simpa [SELECTOR_FUNCTIONS] using h, hv⟩
  · refine .of (Says.then_ fun v => Says.bind optionalClose_says fun c hcl => Says.pure ?_)
    unfold Label
    refine ⟨hc, hf, hn, hcl, ?_⟩
    simp only [FUNCTIONAL_PSEUDO_CLASSES, List.mem_cons, List.not_mem_nil, or_false] at hin
    simp only [SELECTOR_FUNCTIONS, List.contains_eq_mem, List.mem_cons, List.not_mem_nil, or_false, decide_eq_true_eq, not_or, beq_iff_eq] at n1 n2 n3 n4
    simp only [List.mem_cons, List.not_mem_nil, or_false]
    obtain ⟨m1, m2, m3, m4, m5, m6⟩ := n4
    simp_all

theorem functionalPseudoClass_says {list : Prog (List (List Sel × Option Cursor))} (hl : SaysT src list (ListLabel src)) {n : Nat} :
    SaysT src (functionalPseudoClass list n) (Label src) := by
  intro p hp hs
  unfold functionalPseudoClass
  refine Succ.setSkip (Succ.bind ?_)
  intro r p1 w1 g1
  have h1 := Says.result (Says.kind (src := src)) (p := { p with skip := KindSet.NONE }) hp g1
  have s1 := (runLog_source _ g1).1.trans hp
  refine Succ.bind (Q := fun a _ _ => Label src a) ?_
  intro r2 p2 w2 g2
  have h2 := Says.result functionOf_says s1 g2
  have s2 := (runLog_source _ g2).1.trans s1
  refine Succ.setSkip (Succ.bind (Succ.ofResult fun colon hr => Succ.bind (Succ.ofResult fun name hr2 => ?_)))
  exact functionalPseudoClassValue_says hl (h1 _ hr) (h2 _ hr2).1 (h2 _ hr2).2.1 (h2 _ hr2).2.2 s2 hs

theorem functionalPseudoElement_says {compound : Prog (List Sel)} (hc : SaysT src compound (CompoundLabel src)) {n : Nat} :
    SaysT src (functionalPseudoElement compound n) (Label src) := by
  unfold functionalPseudoElement
  refine SaysT.bind (fun _ _ _ _ _ g => colonColon_modes g) (.of colonColon_says) fun cc hcc => ?_
  refine SaysT.bind (fun _ _ _ _ _ g => next_modes (gives_isKind_ok.mp g).1) (.of Says.kind) fun f hf => ?_
  refine SaysT.bind (fun _ _ _ _ _ g => strLower_modes f g) (.of Says.strLower) fun name hname => ?_
  refine SaysT.ite (fun h => ?_) fun _ => SaysT.ite (fun h => ?_) fun _ => SaysT.ite (fun h => ?_) fun _ => .of Says.fail
  · refine .of (Says.bind Says.kind fun v hv => Says.bind optionalClose_says fun c hcl => Says.pure ?_)
    unfold Label
    have e : name = c!"highlight" := by simpa using h
    exact ⟨hcc.1, hcc.2, hf, e ▸ hname, hv, hcl⟩
  · refine .of (Says.bind (partLoop_says n [] (by simp)) fun v hv => Says.bind optionalClose_says fun c hcl => Says.pure ?_)
    unfold Label
    have e : name = c!"part" := by simpa using h
    exact ⟨hcc.1, hcc.2, hf, e ▸ hname, hv, hcl⟩
  · refine SaysT.seq hc fun v hv => Says.bind optionalClose_says fun c hcl => Says.pure ?_
    unfold Label
    have e : name = c!"slotted" := by simpa using h
    exact ⟨hcc.1, hcc.2, hf, e ▸ hname, hv, hcl⟩

theorem selIdent_says (skip : KindSet) : Says src (selIdent skip) (Label src) := by
  have hnc : Says src namespaceSelector (fun n => Label src (.ns n)) := namespaceSelector_says.mono fun a h => by unfold Label; exact h
  unfold selIdent
  refine Says.then_ fun c2 => Says.ite (fun _ => Says.setSkip fun _ => Says.bind hnc fun n hn => Says.pure hn) fun _ => Says.then_ fun c => Says.setSkip fun _ => ?_
  refine Says.ite (fun hk => ?_) fun _ => Says.then_ fun _ => Says.fail
  refine Says.bind (buildTag_says hk) fun t ht => Says.pure ?_
  unfold Label
  rw [ht.1]; exact ht.2

theorem selectorComponent_says {compound : Prog (List Sel)} {list : Prog (List (List Sel × Option Cursor))} (hc : SaysT src compound (CompoundLabel src))
    (hl : SaysT src list (ListLabel src)) (n : Nat) : SaysT src (selectorComponent compound list n) (Label src) := by
  intro p hp hs
  unfold selectorComponent
  have hpp : ({ p with skip := KindSet.TRIVIA } : Parser) = p := by rw [← hs]
  have hnc : Says src namespaceSelector (fun n => Label src (.ns n)) := namespaceSelector_says.mono fun a h => by unfold Label; exact h
  refine Succ.setSkip (Succ.bind (Succ.peekN fun c1 h1 => ?_))
  refine Succ.ite (fun hk => ?_) fun _ => Succ.ite (fun hk => ?_) fun _ => Succ.ite (fun hk => ?_) fun _ => Succ.ite (fun hk => ?_) fun _ => Succ.ite (fun hk => ?_) fun _ => ?_
  · exact selIdent_says _ hp
  · exact Says.then_ (src := src) (Q := Label src) (fun c => Says.setSkip fun _ => Says.ite (fun h => Says.pure (by unfold Label; exact h)) fun _ => Says.then_ fun _ => Says.fail) hp
  · exact Says.setSkip (src := src) (P := Label src) (fun _ => Says.bind attributeSelector_says fun a ha => Says.pure (by unfold Label; exact ha)) hp
  · refine Succ.ite (fun _ => ?_) fun _ => Succ.ite (fun hst => ?_) fun _ => ?_
    · exact Says.then_ (src := src) (Q := Label src) (fun c => Says.setSkip fun _ => Says.ite (fun _ => classSelector_says) fun _ => Says.fail) hp
    · unfold selStar
      refine Succ.bind (Succ.peekN fun c2 h2 => Succ.setSkip (Succ.ite (fun _ => ?_) fun _ => ?_))
      · exact Says.bind (src := src) hnc (fun n hn => Says.pure (P := Label src) hn) hp
      · refine Succ.bind (Succ.take fun c p' hn => Succ.pure ?_)
        obtain ⟨q, n1⟩ := next_of_peekN1 h1
        have e1 := next_skip (s' := KindSet.TRIVIA) (fun t ht => inSet_comments t ht) n1 (by rw [inSet_of_kind (by decide) hk]; decide)
        rw [hpp] at e1
        have : p.next = .ok (c, p') := hn
        rw [e1] at this; cases this
        unfold Label
        exact ⟨hk, hst⟩
    · exact Says.setSkip (src := src) (P := Label src) (fun _ => Says.bind combinator_says fun a ha => Says.pure (by unfold Label; exact ha)) hp
  · unfold selColon
    refine Succ.bind (Succ.peekN fun c2 h2 => Succ.ite (fun _ => ?_) fun _ => Succ.ite (fun _ => ?_) fun _ => Succ.ite (fun _ => ?_) fun _ => Succ.fail)
    · unfold selColonColon
      refine Succ.bind (Succ.peekN fun c3 h3 => Succ.setSkip (Succ.ite (fun _ => ?_) fun _ => Succ.ite (fun _ => ?_) fun _ => Succ.fail))
      · exact Says.bind (src := src) (Q := Label src) pseudoElement_says (fun e he => Says.pure (by unfold Label; exact ⟨he.1.1, he.1.2, he.2⟩)) hp
      · exact functionalPseudoElement_says hc hp hs
    · refine Says.setSkip (src := src) (P := Label src) (fun _ => Says.then_ fun b => Says.ite (fun _ => ?_) fun _ => ?_) hp
      · refine Says.bind pseudoClassOf_says fun e he => Says.pure ?_
        unfold Label
        exact he
      · refine Says.bind pseudoClass_says fun e he => Says.pure ?_
        unfold Label
        exact he
    · exact Succ.setSkip (functionalPseudoClass_says hl hp hs)
  · refine Says.bind (src := src) (Q := Label src) (Says.result combinator_says) (fun r hr => Says.setSkip fun _ => Says.consumeTrivia (Says.setSkip fun _ =>
      Says.bind (Says.ofResult hr) fun c hc => Says.pure (by unfold Label; exact hc))) hp

theorem compoundLabel_append {a b : List Sel} : CompoundLabel src (a ++ b) ↔ CompoundLabel src a ∧ CompoundLabel src b := by
  induction a with
  | nil => simp [CompoundLabel]
  | cons x xs ih => simp only [List.cons_append, CompoundLabel, ih, and_assoc]
theorem listLabel_append {a b : List (List Sel × Option Cursor)} : ListLabel src (a ++ b) ↔ ListLabel src a ∧ ListLabel src b := by
  induction a with
  | nil => simp [ListLabel]
  | cons x xs ih => obtain ⟨s, c⟩ := x; simp only [List.cons_append, ListLabel, ih, and_assoc]

theorem compoundLoop_says {component : Prog Sel} (hs : Sound component Sel.cursors) (hc : SaysT src component (Label src)) : ∀ n acc, CompoundLabel src acc →
    SaysT src (compoundLoop component n acc) (CompoundLabel src)
  | 0, _, _ => .of Says.panic
  | n + 1, acc, ha => by
    unfold compoundLoop
    refine SaysT.bind (fun _ _ _ _ _ g => by obtain ⟨_, rfl, _⟩ := gives_atEnd.mp g; rfl) (.of (Says.any _)) fun e _ => SaysT.ite (fun _ => .of (Says.pure ha)) fun _ => ?_
    refine SaysT.bind (fun _ _ _ _ _ g => by obtain ⟨_, _, _, rfl, _⟩ := gives_ask.mp g; rfl) (.of (Says.any _)) fun c _ => SaysT.ite (fun _ => .of (Says.pure ha)) fun _ => ?_
    refine SaysT.bind (fun _ hp _ _ _ g => (hs (.trivia hp) g).2) hc fun s hl => compoundLoop_says hs hc n _ ?_
    exact compoundLabel_append.mpr ⟨ha, by simp [CompoundLabel, hl]⟩

theorem selectorListLoop_says {compound : Prog (List Sel)} (hs : Sound compound Sel.compoundCursors) (hc : SaysT src compound (CompoundLabel src)) : ∀ n acc, ListLabel src acc →
    SaysT src (selectorListLoop compound n acc) (ListLabel src)
  | 0, _, _ => .of Says.panic
  | n + 1, acc, ha => by
    unfold selectorListLoop
    refine SaysT.bind (fun _ _ _ _ _ g => by obtain ⟨_, rfl, _⟩ := gives_atEnd.mp g; rfl) (.of (Says.any _)) fun e _ => SaysT.ite (fun _ => .of (Says.pure ha)) fun _ => ?_
    refine SaysT.bind (fun _ _ _ _ _ g => by obtain ⟨_, _, _, rfl, _⟩ := gives_ask.mp g; rfl) (.of (Says.any _)) fun c _ => SaysT.ite (fun _ => .of (Says.pure ha)) fun _ => ?_
    refine SaysT.bind (fun _ hp _ _ _ g => (hs (.trivia hp) g).2) hc fun s hl => ?_
    refine SaysT.bind (fun _ _ _ _ _ g => KeepsModes.ifPeek (fun _ => by keeps) (by keeps) g) (.of Says.closes) fun comma hcm => selectorListLoop_says hs hc n _ ?_
    exact listLabel_append.mpr ⟨ha, by simp only [ListLabel]; exact ⟨hl, hcm, trivial⟩⟩

theorem compoundSelector_says : ∀ n, SaysT src (compoundSelector n) (CompoundLabel src)
  | 0 => .of Says.panic
  | n + 1 => by
    intro p hp hs
    have ih := compoundSelector_says n
    unfold compoundSelector
    refine Succ.consumeTrivia fun q hq => ?_
    have hsrc : q.lexer.source = src := by
      rw [← hp]
      have : Gives (Prog.consumeTrivia (Pure.pure ())) p (.ok ()) q [] := by simp [Gives, Prog.runLog, hq, Pure.pure]
      exact (runLog_source _ this).1
    exact compoundLoop_says (selectorComponent_sound (compoundSelector_sound n) (selectorListLoop_sound (compoundSelector_sound n) n) n)
      (selectorComponent_says ih (selectorListLoop_says (compoundSelector_sound n) ih n [] trivial) n) (n + 1) [] trivial hsrc ((modes_skip (consumeTrivia_modes hq)).trans hs)

/-! ### C73 -/

/-- Every piece of a selector list that was parsed is what it is labelled as, at every depth of nesting. -/
theorem C73_selector_list {p p' : Parser} {a : List (List Sel × Option Cursor)} (hp : p.skip = KindSet.TRIVIA)
    (h : selectorList.run p = .ok (.ok a, p')) : ListLabel p.lexer.source a := by
  unfold Prog.run at h
  cases hr : selectorList.runLog p with
  | error e => rw [hr] at h; cases h
  | ok y =>
    obtain ⟨r, q, w⟩ := y
    rw [hr] at h
    simp only [Except.map, Except.ok.injEq, Prod.mk.injEq] at h
    obtain ⟨rfl, rfl⟩ := h
    exact selectorListLoop_says (compoundSelector_sound _) (compoundSelector_says _) _ [] trivial rfl hp hr

end

end Hdx

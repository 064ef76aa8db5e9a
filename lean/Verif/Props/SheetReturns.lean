/-
C85: parsing a style sheet returns.
-/
import Verif.Props.CssRealValues
import Verif.Props.ComponentValues
import Verif.Lemmas.RuleStrict

namespace Hdx
open Spec

/-- Every token of the rest of the source is readable and leads to no unfinished parser of css_ast. -/
def Spec.QuietAll (p : Parser) : Prop := ∀ cs, LexedUntil p.lexer cs (byteLen p.lexer.source) → Quiet p.lexer cs

theorem Spec.Ready.strictly {p : Parser} (h : Ready p) (hd : p.skip.contains .delim = false) (hq : QuietAll p) :
    ∃ cs, Left ⟨p.lexer.source, true⟩ p cs ∧ cs.length + 1 < p.fuel :=
  h.leftIn (fun _ => hd) fun _ _ hs => hq _ hs.lexedUntil

theorem cssStyleSheet_fine {p : Parser} : Fine ⟨p.lexer.source, true⟩ p.fuel (cssStyleSheet realValues) :=
  EatsIf.cssStyleSheet (src := ⟨p.lexer.source, true⟩) rfl fun _ h => realValues_fine rfl h

/-- Parsing a style sheet, from wherever the parser is, and whatever tokens it skips: a result or a diagnostic, no panic, no endless loop. Missing from the
full C85: sources on which the lexer panics or loses its place (`Tame`), comments that are not closed, comments of one line, very long
urls (`Quiet`), and the functions and at-rules of which the parser of css_ast is unfinished (`Calm`). -/
theorem C85_returns_partial {p : Parser} (h : Ready p) (hd : p.skip.contains .delim = false) (hq : QuietAll p) : ComesToEnd (cssStyleSheet realValues) p := by
  obtain ⟨cs, hl, hlen⟩ := h.strictly hd hq
  obtain ⟨r, p', _, h1, _⟩ := cssStyleSheet_fine.returnsFrom hl hlen
  exact ⟨r, p', h1⟩

/-- A whole source, with `parse_entirely`. -/
theorem C85_source_partial {s : List Char} {f : Features} (h : Tame f s) (hq : QuietAll (Parser.newWithFeatures s f)) :
    ∃ r p', Parser.parseEntirely (cssStyleSheet realValues).run (Parser.newWithFeatures s f) = .ok (r, p') := by
  obtain ⟨cs, hl, hlen⟩ := (ready_new h).strictly (by decide : KindSet.TRIVIA.contains .delim = false) hq
  exact cssStyleSheet_fine.parseEntirelyFrom hl hlen rfl

/-- With any parser of property values that itself returns, on every source and from every state: `V` stands for it. -/
theorem C85_values_partial {τ : Type} {V : Values τ} {p : Parser} (h : Ready p) (hd : p.skip.contains .delim = false) (hq : QuietAll p)
    (hV : ∀ m ∈ V.names, Fine ⟨p.lexer.source, true⟩ p.fuel (V.parser m)) : ComesToEnd (cssStyleSheet V) p := by
  obtain ⟨cs, hl, hlen⟩ := h.strictly hd hq
  obtain ⟨r, p', _, h1, _⟩ := (EatsIf.cssStyleSheet (src := ⟨p.lexer.source, true⟩) rfl hV).returnsFrom hl hlen
  exact ⟨r, p', h1⟩

/-- A selector list, with any set of tokens skipped: the modes that selectors leave behind do no harm. -/
theorem C70_any_skip_partial {p : Parser} (h : Ready p) (hd : p.skip.contains .delim = false) (hq : QuietAll p) : ComesToEnd selectorList p := by
  obtain ⟨cs, hl, hlen⟩ := h.strictly hd hq
  obtain ⟨r, p', w, cs', h1, _⟩ := selectorListFuel_strict (src := ⟨p.lexer.source, true⟩) rfl p.fuel hl (by omega)
  refine ⟨r, p', ?_⟩
  unfold Prog.run
  rw [show selectorList.runLog p = .ok (r, p', w) from h1]
  rfl

/-! ### A source that meets the hypotheses -/

/-- The tokens of the source, at most `n` of them. -/
def tokensOf : Nat → Lexer → Option (List Cursor)
  | 0, _ => none
  | n + 1, l =>
    match l.advance with
    | .ok (t, l') => if t.kind = .eof then some [] else (tokensOf n l').map (⟨l.offset, t⟩ :: ·)
    | .error _ => none

theorem tokensOf_only : ∀ (n : Nat) (l : Lexer) (cs cs' : List Cursor), tokensOf n l = some cs → LexedUntil l cs' (byteLen l.source) → cs' = cs
  | 0, _, _, _, h, _ => by cases h
  | n + 1, l, cs, cs', h, h' => by
    unfold tokensOf at h
    generalize ho : byteLen l.source = off at h'
    cases h' with
    | done =>
      rw [Stream.advance_nil ho.symm] at h
      simp only [show Token.EOF.kind = .eof by decide, if_true] at h
      cases h; rfl
    | step ha hk h' =>
      rw [ha] at h
      simp only [hk, if_false] at h
      cases hr : tokensOf n _ with
      | none => rw [hr] at h; cases h
      | some ds =>
        rw [hr] at h; cases h
        exact congrArg _ (tokensOf_only n _ ds _ hr (by rw [(advance_keeps ha).1, ho]; exact h'))

/-- `Calm`, computed. -/
def calmly (source : List Char) (c : Cursor) : Bool :=
  (c.token.kind != .function || [c!"font-tech", c!"font-format"].all fun s => c.parseStrLower source != .ok s)
  && (c.token.kind != .atKeyword || [c!"page", c!"container"].all fun s => c.parseStrLower source != .ok s)

theorem calm_of_calmly {source : List Char} {c : Cursor} (h : calmly source c = true) : Calm c source := by
  unfold calmly at h
  simp only [List.all_cons, List.all_nil, Bool.and_true, Bool.and_eq_true, Bool.or_eq_true, bne_iff_ne, ne_eq] at h
  refine ⟨fun hk s hs hm => ?_, fun hk s hs hm => ?_⟩
  · have := h.1.resolve_left (by simp [hk])
    simp only [List.mem_cons, List.not_mem_nil, or_false] at hm
    rcases hm with rfl | rfl
    · exact this.1 hs
    · exact this.2 hs
  · have := h.2.resolve_left (by simp [hk])
    simp only [List.mem_cons, List.not_mem_nil, or_false] at hm
    rcases hm with rfl | rfl
    · exact this.1 hs
    · exact this.2 hs

/-- There is a `*/` in the text. -/
def hasClose : List Char → Bool
  | '*' :: '/' :: _ => true
  | _ :: cs => hasClose cs
  | [] => false

theorem not_noClose : ∀ (cs : List Char), hasClose cs = true → ¬ NoClose cs
  | [], h => by cases h
  | c :: cs, h => fun hn => by
    unfold hasClose at h
    split at h
    · rename_i heq; cases heq
      exact hn [] _ rfl
    · rename_i heq; cases heq
      exact not_noClose _ h fun a b e => hn (c :: a) b (by rw [e]; rfl)
    · rename_i heq; cases heq

/-- `Quiet`, computed. -/
def quietly (s : List Char) : Bool :=
  match tokensOf (s.length + 1) (Lexer.new s) with
  | none => false
  | some cs => cs.all fun c => calmly s c && (match dropBytes s c.offset with
    | some ('/' :: '*' :: body) => hasClose body
    | _ => true)

theorem dropBytes_pre (a : List Char) : ∀ pre : List Char, dropBytes (pre ++ a) (byteLen pre) = some a
  | [] => by cases a <;> rfl
  | c :: pre => by
    have := Char.utf8Size_pos c
    have hb : byteLen (c :: pre) = (byteLen pre + c.utf8Size - 1) + 1 := by rw [byteLen_eq, byteLen_eq, utf8Len_cons]; omega
    rw [hb, List.cons_append, dropBytes, if_pos (by omega), show byteLen pre + c.utf8Size - 1 + 1 - c.utf8Size = byteLen pre by omega]
    exact dropBytes_pre a pre

theorem quiet_of_quietly {s : List Char} (h : quietly s = true) (hs : byteLen s < 4094) : QuietAll (Parser.new s) := by
  intro cs hcs
  unfold quietly at h
  split at h
  · cases h
  · rename_i ds hds
    have : cs = ds := tokensOf_only _ _ _ _ hds hcs
    subst this
    have h1 : ∀ c ∈ cs, _ := List.all_eq_true.mp h
    refine ⟨rfl, shortUrls_of_short hs, fun c hc pre body e ho => ?_, fun c hc => ?_⟩
    · have := h1 c hc
      rw [Bool.and_eq_true] at this
      have h2 := this.2
      rw [show s = pre ++ '/' :: '*' :: body from e, ho, dropBytes_pre] at h2
      exact not_noClose _ h2
    · have := h1 c hc
      rw [Bool.and_eq_true] at this
      exact calm_of_calmly this.1

set_option maxRecDepth 100000 in
/-- A sheet with broken and unknown rules, leaking selectors, comments and urls meets the hypotheses. -/
example : ∃ r p', Parser.parseEntirely (cssStyleSheet realValues).run
    (Parser.new c!"@media print{a:hover>b::before{width:calc(1px);/*c*/clear:}}x|=y{}a: b{c:url(d)}@foo (e;@supports(f:g){}}]") = .ok (r, p') :=
  C85_source_partial (tame_of_ascii (by decide) (by decide)) (quiet_of_quietly (by decide +kernel) (by decide))

/-! ### What is excluded -/

set_option maxRecDepth 100000 in
/-- C85 is false: a source on which `StyleSheet::parse` panics. The rule `x|=y{}` parses, and leaves the parser skipping
nothing; when the value of `clear` is then looked for, the text of the comment at the end of the source is asked for, and
that comment is not closed. The same text after a rule that leaves the parser alone is read without a panic. -/
theorem C85_counterexample :
    ((cssStyleSheet realValues).run (Parser.new c!"x|=y{}a{clear:/*")).map (fun _ => ()) = .error .slice
    ∧ ((cssStyleSheet realValues).run (Parser.new c!"x|y{}a{clear:/*")).toOption.isSome = true := by
  decide +kernel

set_option maxRecDepth 100000 in
/-- Every name that `Calm` excludes is one on which parsing does panic (`todo!()`), or never comes to an end: the list of page selectors does not move on from a token that is none,
and the model runs out of fuel. -/
theorem C85_counterexample_unfinished :
    ((cssStyleSheet realValues).run (Parser.new c!"@page 1{}")).map (fun _ => ()) = .error .diverges
    ∧ ((cssStyleSheet realValues).run (Parser.new c!"@container f(){}")).map (fun _ => ()) = .error .todo
    ∧ ((cssStyleSheet realValues).run (Parser.new c!"@supports font-tech(a){}")).map (fun _ => ()) = .error .todo
    ∧ ((cssStyleSheet realValues).run (Parser.new c!"@supports font-format(a){}")).map (fun _ => ()) = .error .todo := by
  decide +kernel

end Hdx

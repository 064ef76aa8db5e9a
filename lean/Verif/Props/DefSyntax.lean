/-
C78: the definitions of css_ast are read as their notation prescribes.
-/
import Verif.Spec.DefSyntax

namespace Hdx
open Spec

/-! ### A checker -/

namespace DefCheck

def blank (c : Char) : Bool := c == ' ' || c == '\n' || c == '\t' || c == '∞'

def tokEnds : DefTok → List Char → Bool
  | .word _, rest => rest.head?.all fun c => !(c.isAlphanum || c == '-' || c == '_')
  | .quoted _, _ => true
  | .sym s, rest => !(s == ['|'] || s == ['&']) || rest.head? != s.head?

def stripped : List Char → List Char → Option (List Char)
  | [], s => some s
  | c :: cs, d :: s => if c == d then stripped cs s else none
  | _ :: _, [] => none

def spelled : List DefTok → List Char → Bool
  | [], s => s.all blank
  | t :: ts, s => match stripped (defTokText t) (s.dropWhile blank) with
    | some rest => tokEnds t rest && spelled ts rest
    | none => false

def number (n : Nat) (s : List Char) : Bool := !(s.takeWhile Char.isDigit).isEmpty && n == decimal (s.takeWhile Char.isDigit)

def range : DefRange → List DefTok → Option (List DefTok)
  | .fixed n, .word s :: rest => if number n s then some rest else none
  | .range a b, .word s :: .sym [','] :: .word t :: rest => if number a s && number b t then some rest else none
  | .from a, .word s :: .sym [','] :: rest => if number a s then some rest else none
  | .to b, .sym [','] :: .word t :: rest => if number b t then some rest else none
  | _, _ => none

def ranged (o c : Char) (r : DefRange) : List DefTok → Option (List DefTok)
  | .sym [x] :: ts => if x == o then
      match range r ts with
      | some (.sym [y] :: rest) => if y == c then some rest else none
      | _ => none
    else none
  | _ => none

def bracket (o c : Char) (r : DefRange) (ts : List DefTok) : Option (List DefTok) := if r = .none then some ts else ranged o c r ts

def rangeOf : DefType → DefRange
  | .length r | .lengthPercentage r | .angle r | .time r | .resolution r | .integer r | .number r | .percentage r => r
  | _ => .none

def closing : List DefTok → Option (List DefTok)
  | .sym ['>'] :: rest => some rest
  | _ => none

def type (t : DefType) : List DefTok → Option (List DefTok)
  | .sym ['<'] :: .quoted n :: ts => if t = .custom (pascal (n ++ c!"-style-value")) then closing ts else none
  | .sym ['<'] :: .word n :: ts =>
    match rangedTypes.find? (·.1 == n) with
    | some (_, make) => if t = make (rangeOf t) then (bracket '[' ']' (rangeOf t) ts).bind closing else none
    | none => match plainTypes.find? (·.1 == n) with
      | some (_, t') => if t = t' then closing ts else none
      | none => if t = .custom (pascal n) then match ts with
          | .sym ['('] :: .sym [')'] :: ts => closing ts
          | ts => closing ts
        else none
  | _ => none

def group : DefGroup → List DefTok → Option (List DefTok)
  | .none, ts => some ts
  | .oneMustOccur, .sym ['!'] :: ts => some ts
  | .oneOrMore, .sym ['#'] :: ts => some ts
  | .range r, ts => ranged '{' '}' r ts
  | _, _ => none

def sym (s : List Char) : List DefTok → Option (List DefTok)
  | .sym x :: rest => if x = s then some rest else none
  | _ => none

def word (s : List Char) : List DefTok → Option (List DefTok)
  | .word x :: rest => if x = s then some rest else none
  | _ => none

def style : DefStyle → List DefTok → Option (List DefTok)
  | .ordered, ts => some ts
  | .allMustOccur, ts => sym ['&', '&'] ts
  | .options, ts => sym ['|', '|'] ts
  | .alternatives, ts => sym ['|'] ts

mutual
/-- The rest of the tokens after those of the definition. -/
def item (l : Nat) : Def → List DefTok → Option (List DefTok)
  | .ident s, ts => word s ts
  | .punct c, ts => if c ∈ [',', '/'] then sym [c] ts else none
  | .type t, ts => type t ts
  | .function s d, ts => ((word s ts).bind (sym ['('])).bind fun ts => (item 4 d ts).bind (sym [')'])
  | .group d g, ts => (sym ['['] ts).bind fun ts => ((item 4 d ts).bind (sym [']'])).bind (group g)
  | .optional d, ts => (item 0 d ts).bind (sym ['?'])
  | .mult d .zeroOrMore, ts => (item 0 d ts).bind (sym ['*'])
  | .mult d .oneOrMore, ts => (item 0 d ts).bind (sym ['+'])
  | .mult d (.commas r), ts => if plainGroup d = false then ((item 0 d ts).bind (sym ['#'])).bind (bracket '{' '}' r) else none
  | .mult d (.range r), ts => if plainGroup d = false ∧ endsInHash d = false then (item 0 d ts).bind (ranged '{' '}' r) else none
  | .comb ds s, ts => if level s ≤ l ∧ 2 ≤ ds.length then joined s ds ts else none
def joined (s : DefStyle) : List Def → List DefTok → Option (List DefTok)
  | [], _ => none
  | d :: ds, ts => match item (level s - 1) d ts with
    | some rest => if ds.isEmpty then some rest else (style s rest).bind (joined s ds)
    | none => none
end

/-- The text is written for the definition. -/
def text (s : List Char) (d : Def) : Bool :=
  let ts := defTokens (s.length + 1) s
  spelled ts s && item 4 d ts == some []

/-! ### The checker is right -/

theorem blank_spec {c : Char} (h : blank c = true) : DefBlank c := by
  simpa [blank, DefBlank, or_assoc] using h
theorem tokEnds_spec {t : DefTok} {rest : List Char} (h : tokEnds t rest = true) : DefTokEnds t rest := by
  cases t with
  | word s =>
    intro c hc
    simp only [tokEnds, Option.all_eq_true] at h
    have := h c hc
    simpa [and_assoc] using this
  | quoted s => trivial
  | sym s =>
    intro hs
    simp only [tokEnds, Bool.or_eq_true, Bool.not_eq_true', bne_iff_ne] at h
    rcases h with h | h
    · rcases hs with rfl | rfl <;> simp at h
    · exact h
theorem stripped_spec {x s rest : List Char} (h : stripped x s = some rest) : s = x ++ rest := by
  induction x generalizing s with
  | nil => cases h; rfl
  | cons c x ih =>
    cases s with
    | nil => cases h
    | cons d s =>
      rw [stripped] at h
      split at h
      · next e => rw [ih h, beq_iff_eq.mp e]; rfl
      · cases h
theorem spelled_spec {ts : List DefTok} {s : List Char} (h : spelled ts s = true) : Spelled ts s := by
  induction ts generalizing s with
  | nil =>
    intro c hc
    exact blank_spec (List.all_eq_true.mp h c hc)
  | cons t ts ih =>
    rw [spelled] at h
    split at h
    · next rest e =>
      rw [Bool.and_eq_true] at h
      refine ⟨s.takeWhile blank, rest, ?_, fun c hc => blank_spec ?_, tokEnds_spec h.1, ih h.2⟩
      · rw [← stripped_spec e, List.takeWhile_append_dropWhile]
      · have : ∀ {l : List Char}, c ∈ l.takeWhile blank → blank c = true := by
          intro l
          induction l with
          | nil => simp
          | cons d l ih =>
            rw [List.takeWhile_cons]
            split
            · next hd => 
              rintro (_ | ⟨_, h⟩)
              · exact hd
              · exact ih h
            · simp
        exact this hc
    · cases h

theorem number_spec {n : Nat} {s : List Char} (h : number n s = true) : NumberText n s := by
  simp only [number, Bool.and_eq_true, Bool.not_eq_true', beq_iff_eq] at h
  refine ⟨s.takeWhile Char.isDigit, s.dropWhile Char.isDigit, List.takeWhile_append_dropWhile.symm, fun e => by rw [e] at h; simp at h, ?_, ?_, h.2⟩
  · intro c hc
    have : ∀ {l : List Char}, c ∈ l.takeWhile Char.isDigit → c.isDigit = true := by
      intro l
      induction l with
      | nil => simp
      | cons d l ih =>
        rw [List.takeWhile_cons]
        split
        · next hd => 
          rintro (_ | ⟨_, h⟩)
          · exact hd
          · exact ih h
        · simp
    exact this hc
  · intro c hc
    have : ∀ {l : List Char}, c ∈ (l.dropWhile Char.isDigit).head? → c.isDigit = false := by
      intro l
      induction l with
      | nil => simp
      | cons d l ih =>
        rw [List.dropWhile_cons]
        split
        · exact ih
        · next hd => rintro ⟨⟩; simpa using hd
    exact this hc

/-- What is checked is at the front. -/
def Front (P : List DefTok → Prop) (ts rest : List DefTok) : Prop := ∃ pre, ts = pre ++ rest ∧ P pre

theorem range_spec {r : DefRange} {ts rest : List DefTok} (h : range r ts = some rest) : Front (RangeText r) ts rest := by
  unfold range at h
  split at h
  · split at h
    · next hn => cases h; exact ⟨[_], rfl, .fixed (number_spec hn)⟩
    · cases h
  · split at h
    · next hn => cases h; rw [Bool.and_eq_true] at hn; exact ⟨[_, _, _], rfl, .range (number_spec hn.1) (number_spec hn.2)⟩
    · cases h
  · split at h
    · next hn => cases h; exact ⟨[_, _], rfl, .from (number_spec hn)⟩
    · cases h
  · split at h
    · next hn => cases h; exact ⟨[_, _], rfl, .to (number_spec hn)⟩
    · cases h
  · cases h

theorem ranged_spec {o c : Char} {r : DefRange} {ts rest : List DefTok} (h : ranged o c r ts = some rest) :
    ∃ us, ts = .sym [o] :: (us ++ .sym [c] :: rest) ∧ RangeText r us := by
  unfold ranged at h
  split at h
  · next x ts =>
    split at h
    · next hx =>
      cases beq_iff_eq.mp hx
      split at h
      · next y rest' hr =>
        split at h
        · next hy =>
          cases beq_iff_eq.mp hy
          cases h
          obtain ⟨us, rfl, hu⟩ := range_spec hr
          exact ⟨us, rfl, hu⟩
        · cases h
      · cases h
    · cases h
  · cases h

theorem bracket_spec {o c : Char} {r : DefRange} {ts rest : List DefTok} (h : bracket o c r ts = some rest) : Front (BracketText o c r) ts rest := by
  unfold bracket at h
  split at h
  · next e => cases h; rw [e]; exact ⟨[], rfl, .none⟩
  · obtain ⟨us, rfl, hu⟩ := ranged_spec h
    exact ⟨_, by simp, .some hu⟩

theorem closing_spec {ts rest : List DefTok} (h : closing ts = some rest) : ts = .sym ['>'] :: rest := by
  unfold closing at h
  split at h
  · cases h; rfl
  · cases h

theorem not_found {α : Type} {l : List (List Char × α)} {n : List Char} (h : l.find? (·.1 == n) = none) : n ∉ l.map (·.1) := by
  intro hm
  obtain ⟨x, hx, rfl⟩ := List.mem_map.mp hm
  have := List.find?_eq_none.mp h x hx
  simp at this

theorem type_spec {t : DefType} {ts rest : List DefTok} (h : type t ts = some rest) : ∃ us, ts = .sym ['<'] :: (us ++ .sym ['>'] :: rest) ∧ TypeText t us := by
  unfold type at h
  split at h
  · next n ts =>
    split at h
    · next e => rw [e, closing_spec h]; exact ⟨[_], rfl, .property⟩
    · cases h
  · next n ts =>
    split at h
    · next n' make hf =>
      split at h
      · next e =>
        obtain ⟨us, h1, h2⟩ := Option.bind_eq_some_iff.mp h
        obtain ⟨pre, rfl, hb⟩ := bracket_spec h1
        have hn : n' = n := by simpa using List.find?_some hf
        subst hn
        rw [closing_spec h2, e]
        exact ⟨_ :: pre, rfl, .ranged (List.mem_of_find?_eq_some hf) hb⟩
      · cases h
    · next hr =>
      split at h
      · next n' t' hf =>
        split at h
        · next e =>
          have hn : n' = n := by simpa using List.find?_some hf
          subst hn
          rw [closing_spec h, e]
          exact ⟨[_], rfl, .plain (List.mem_of_find?_eq_some hf)⟩
        · cases h
      · next hp =>
        split at h
        · next e =>
          rw [e]
          split at h
          · rw [closing_spec h]; exact ⟨[_, _, _], rfl, .function (not_found hr) (not_found hp)⟩
          · rw [closing_spec h]; exact ⟨[_], rfl, .custom (not_found hr) (not_found hp)⟩
        · cases h
  · cases h

theorem group_spec {g : DefGroup} {ts rest : List DefTok} (h : group g ts = some rest) : Front (GroupText g) ts rest := by
  unfold group at h
  split at h
  · cases h; exact ⟨[], rfl, .none⟩
  · cases h; exact ⟨[_], rfl, .must⟩
  · cases h; exact ⟨[_], rfl, .commas⟩
  · obtain ⟨us, rfl, hu⟩ := ranged_spec h
    exact ⟨_, by simp, .range hu⟩
  · cases h

theorem sym_spec {s : List Char} {ts rest : List DefTok} (h : sym s ts = some rest) : ts = .sym s :: rest := by
  unfold sym at h
  split at h
  · split at h
    · next e => cases h; rw [e]
    · cases h
  · cases h

theorem word_spec {s : List Char} {ts rest : List DefTok} (h : word s ts = some rest) : ts = .word s :: rest := by
  unfold word at h
  split at h
  · split at h
    · next e => cases h; rw [e]
    · cases h
  · cases h

theorem style_spec {s : DefStyle} {ts rest : List DefTok} (h : style s ts = some rest) : ts = styleText s ++ rest := by
  cases s <;> unfold style at h
  · cases h; rfl
  all_goals rw [sym_spec h]; rfl

mutual
theorem item_spec : ∀ (d : Def) {l : Nat} {ts rest : List DefTok}, item l d ts = some rest → Front (Written l d) ts rest
  | .ident s, l, ts, rest, h => by
    rw [item] at h
    rw [word_spec h]
    exact ⟨[_], rfl, .ident⟩
  | .punct c, l, ts, rest, h => by
    rw [item] at h
    split at h
    · next hc => rw [sym_spec h]; exact ⟨[_], rfl, .punct hc⟩
    · cases h
  | .type t, l, ts, rest, h => by
    rw [item] at h
    obtain ⟨us, rfl, hu⟩ := type_spec h
    exact ⟨_, by simp, .type hu⟩
  | .function s d, l, ts, rest, h => by
    rw [item] at h
    obtain ⟨us, h0, h⟩ := Option.bind_eq_some_iff.mp h
    obtain ⟨vs, h1, h2⟩ := Option.bind_eq_some_iff.mp h0
    obtain ⟨xs, h3, h4⟩ := Option.bind_eq_some_iff.mp h
    rw [word_spec h1, sym_spec h2]
    obtain ⟨pre, rfl, hp⟩ := item_spec d h3
    rw [sym_spec h4]
    exact ⟨_, by simp, .function hp⟩
  | .group d g, l, ts, rest, h => by
    rw [item] at h
    obtain ⟨us, h0, h⟩ := Option.bind_eq_some_iff.mp h
    obtain ⟨vs, h1, h2⟩ := Option.bind_eq_some_iff.mp h
    obtain ⟨xs, h3, h4⟩ := Option.bind_eq_some_iff.mp h1
    rw [sym_spec h0]
    obtain ⟨pre, rfl, hp⟩ := item_spec d h3
    rw [sym_spec h4]
    obtain ⟨q, rfl, hq⟩ := group_spec h2
    exact ⟨_, by simp, .group hp hq⟩
  | .optional d, l, ts, rest, h => by
    rw [item] at h
    obtain ⟨us, h1, h2⟩ := Option.bind_eq_some_iff.mp h
    obtain ⟨pre, rfl, hp⟩ := item_spec d h1
    rw [sym_spec h2]
    exact ⟨_, by simp, .optional hp⟩
  | .mult d .zeroOrMore, l, ts, rest, h => by
    rw [item] at h
    obtain ⟨us, h1, h2⟩ := Option.bind_eq_some_iff.mp h
    obtain ⟨pre, rfl, hp⟩ := item_spec d h1
    rw [sym_spec h2]
    exact ⟨_, by simp, .star hp⟩
  | .mult d .oneOrMore, l, ts, rest, h => by
    rw [item] at h
    obtain ⟨us, h1, h2⟩ := Option.bind_eq_some_iff.mp h
    obtain ⟨pre, rfl, hp⟩ := item_spec d h1
    rw [sym_spec h2]
    exact ⟨_, by simp, .plus hp⟩
  | .mult d (.commas r), l, ts, rest, h => by
    rw [item] at h
    split at h
    · next hg =>
      obtain ⟨vs, h0, h3⟩ := Option.bind_eq_some_iff.mp h
      obtain ⟨us, h1, h2⟩ := Option.bind_eq_some_iff.mp h0
      obtain ⟨pre, rfl, hp⟩ := item_spec d h1
      rw [sym_spec h2]
      obtain ⟨b, rfl, hb⟩ := bracket_spec h3
      exact ⟨_, by simp, .commas hp hg hb⟩
    · cases h
  | .mult d (.range r), l, ts, rest, h => by
    rw [item] at h
    split at h
    · next hg =>
      obtain ⟨us, h1, h2⟩ := Option.bind_eq_some_iff.mp h
      obtain ⟨pre, rfl, hp⟩ := item_spec d h1
      obtain ⟨b, rfl, hb⟩ := ranged_spec h2
      exact ⟨_, by simp, .range hp hg.1 hg.2 hb⟩
    · cases h
  | .comb ds s, l, ts, rest, h => by
    rw [item] at h
    split at h
    · next hl =>
      obtain ⟨pre, rfl, hp⟩ := joined_spec ds h
      exact ⟨_, rfl, .comb hl.1 hl.2 hp⟩
    · cases h
theorem joined_spec : ∀ (ds : List Def) {s : DefStyle} {ts rest : List DefTok}, joined s ds ts = some rest → Front (Joined s ds) ts rest
  | [], s, ts, rest, h => by rw [joined] at h; cases h
  | d :: ds, s, ts, rest, h => by
    rw [joined] at h
    split at h
    · next r hi =>
      obtain ⟨pre, rfl, hp⟩ := item_spec d hi
      split at h
      · next he => cases h; cases List.isEmpty_iff.mp he; exact ⟨_, rfl, .one hp⟩
      · obtain ⟨us, h1, h2⟩ := Option.bind_eq_some_iff.mp h
        rw [style_spec h1]
        obtain ⟨q, rfl, hq⟩ := joined_spec ds h2
        exact ⟨_, by simp, .more hp hq⟩
    · cases h
end

theorem text_spec {s : List Char} {d : Def} (h : text s d = true) : TextOf s d := by
  simp only [text, Bool.and_eq_true, beq_iff_eq] at h
  obtain ⟨pre, e, hp⟩ := item_spec d h.2
  rw [List.append_nil] at e
  exact ⟨_, spelled_spec h.1, e ▸ hp⟩

end DefCheck

/-- C78. Every definition of css_ast is read, and it is the one that its text stands for. -/
theorem C78_definitions : ∀ row ∈ DEFINITIONS, ∃ d, readDef row.2 = some d ∧ TextOf row.2 d := by
  have h : ∀ row ∈ DEFINITIONS, (readDef row.2).any (fun d => DefCheck.text row.2 d) = true := by decide +kernel
  intro row hr
  obtain ⟨d, h1, h2⟩ := (Option.any_eq_true _ _).mp (h row hr)
  exact ⟨d, h1, DefCheck.text_spec h2⟩


/-- C78, for the definitions that types are looked up by. -/
theorem C78_lookup {name : List Char} {d : Def} (h : definitionOf name = some d) : ∃ text, (name, text) ∈ DEFINITIONS ∧ TextOf text d := by
  unfold definitionOf at h
  obtain ⟨row, h1, h2⟩ := Option.bind_eq_some_iff.mp h
  obtain ⟨d', h3, h4⟩ := C78_definitions row (List.mem_of_find?_eq_some h1)
  rw [h2] at h3
  cases h3
  have : row.1 = name := by simpa using List.find?_some h1
  exact ⟨row.2, this ▸ List.mem_of_find?_eq_some h1, h4⟩

/-- All sorts of combinators and multipliers. -/
example : TextOf c!"none | [ a b? && <length [0,∞]>{1,2} ]! || f( <'x-y'># ) , c" (.comb [.ident c!"none", .comb [
      .group (.comb [.comb [.ident c!"a", .optional (.ident c!"b")] .ordered, .mult (.type (.length (.from 0))) (.range (.range 1 2))] .allMustOccur) .oneMustOccur,
      .comb [.function c!"f" (.mult (.type (.custom c!"XYStyleValue")) (.commas .none)), .punct ',', .ident c!"c"] .ordered] .options] .alternatives) :=
  DefCheck.text_spec (by decide +kernel)

/-- The reader is not right in general, although it is for the definitions there are: with three combinators that bind less and less tightly, the first takes too much. -/
theorem C78_counterexample_three : TextOf c!"a b && c | d" (.comb [.comb [.comb [.ident c!"a", .ident c!"b"] .ordered, .ident c!"c"] .allMustOccur, .ident c!"d"] .alternatives) ∧
    readDef c!"a b && c | d" = some (.comb [.comb [.ident c!"a", .comb [.ident c!"b", .ident c!"c"] .allMustOccur] .ordered, .ident c!"d"] .alternatives) :=
  ⟨DefCheck.text_spec (by decide +kernel), rfl⟩
/-- Nor if one occurs twice before one that binds less tightly: `a && [ b && c ]` excludes `b a c`. -/
theorem C78_counterexample_twice : TextOf c!"a && b && c | d" (.comb [.comb [.ident c!"a", .ident c!"b", .ident c!"c"] .allMustOccur, .ident c!"d"] .alternatives) ∧
    readDef c!"a && b && c | d" = some (.comb [.comb [.ident c!"a", .comb [.ident c!"b", .ident c!"c"] .allMustOccur] .allMustOccur, .ident c!"d"] .alternatives) :=
  ⟨DefCheck.text_spec (by decide +kernel), rfl⟩

end Hdx

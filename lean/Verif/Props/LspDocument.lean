/-
Property C46: incremental edits.
-/
import Verif.Spec.Lsp
import Verif.Props.LspTokens

namespace Hdx.Lsp
open Hdx.Lsp.Spec

/-- Texts in which the server counts lines and characters as the protocol does: only characters of the BMP, and none of the five line
breaks that only the server knows (VT, FF, NEL, LS, PS). -/
def Plain (text : List Char) : Prop :=
  ∀ c ∈ text, c.toNat < 65536 ∧ c ≠ '\x0b' ∧ c ≠ '\x0c' ∧ c ≠ '\u0085' ∧ c ≠ '\u2028' ∧ c ≠ '\u2029'

theorem lineToChar_crlf (n : Nat) (rest : List Char) : lineToChar (n + 1) ('\r' :: '\n' :: rest) = (lineToChar n rest).map (· + 2) := by
  cases n <;> rfl

theorem lineToChar_cons (n : Nat) {c : Char} {rest : List Char} (h : ¬ (c = '\r' ∧ rest.head? = some '\n')) :
    lineToChar (n + 1) (c :: rest) = if isRopeBreak c then (lineToChar n rest).map (· + 1) else (lineToChar (n + 1) rest).map (· + 1) := by
  rw [lineToChar.eq_5]
  intro rest' h1 h2
  exact h ⟨h1, by rw [h2]; rfl⟩

theorem cut_tail {c : Char} {a b : List Char} (h : Cut (c :: a) b) : Cut a b := by
  cases a with
  | nil => simp [Cut]
  | cons x a =>
    simpa [Cut, List.getLast?_cons] using h

/-- Where a position is, for the server. -/
theorem lineToChar_position (p : Position) (a b : List Char) (hg : Plain a) (hc : Cut a b) :
    p.line ≤ (positionFrom p a).line ∧ ∃ s, lineToChar ((positionFrom p a).line - p.line) (a ++ b) = some s
      ∧ s + (positionFrom p a).character = a.length + if (positionFrom p a).line = p.line then p.character else 0 := by
  have tl : ∀ {c : Char} {r : List Char}, Plain (c :: r) → Plain r := fun h x hx => h x (by simp [hx])
  fun_induction positionFrom p a with
  | case1 p => simp [lineToChar]
  | case2 p rest ih =>
    obtain ⟨h1, s, h2, h3⟩ := ih (tl (tl hg)) (cut_tail (cut_tail hc))
    simp only at h1 h2 h3
    refine ⟨by omega, s + 2, ?_, ?_⟩
    · have e : (positionFrom ⟨p.line + 1, 0⟩ rest).line - p.line = ((positionFrom ⟨p.line + 1, 0⟩ rest).line - (p.line + 1)) + 1 := by omega
      rw [e, List.cons_append, List.cons_append, lineToChar_crlf, h2]; rfl
    · rw [if_neg (by omega)]
      simp only [ite_self] at h3
      simp only [List.length_cons]; omega
  | case3 p rest ih =>
    obtain ⟨h1, s, h2, h3⟩ := ih (tl hg) (cut_tail hc)
    simp only at h1 h2 h3
    refine ⟨by omega, s + 1, ?_, ?_⟩
    · have e : (positionFrom ⟨p.line + 1, 0⟩ rest).line - p.line = ((positionFrom ⟨p.line + 1, 0⟩ rest).line - (p.line + 1)) + 1 := by omega
      rw [e, List.cons_append, lineToChar_cons _ (by simp), h2]; rfl
    · rw [if_neg (by omega)]
      simp only [ite_self] at h3
      simp only [List.length_cons]; omega
  | case4 p rest hne ih =>
    obtain ⟨h1, s, h2, h3⟩ := ih (tl hg) (cut_tail hc)
    simp only at h1 h2 h3
    refine ⟨by omega, s + 1, ?_, ?_⟩
    · have e : (positionFrom ⟨p.line + 1, 0⟩ rest).line - p.line = ((positionFrom ⟨p.line + 1, 0⟩ rest).line - (p.line + 1)) + 1 := by omega
      have hn : ¬ ('\r' = '\r' ∧ (rest ++ b).head? = some '\n') := by
        rintro ⟨_, hh⟩
        cases rest with
        | nil => exact hc ⟨rfl, hh⟩
        | cons x rest =>
          simp only [List.cons_append, List.head?_cons, Option.some.injEq] at hh
          subst hh
          exact hne rest rfl
      rw [e, List.cons_append, lineToChar_cons _ hn, h2]; rfl
    · rw [if_neg (by omega)]
      simp only [ite_self] at h3
      simp only [List.length_cons]; omega
  | case5 p c rest hn1 hn2 hn3 ih =>
    obtain ⟨h1, s, h2, h3⟩ := ih (tl hg) (cut_tail hc)
    obtain ⟨g1, g2⟩ := hg c (by simp)
    have hu : utf16Size c = 1 := by rw [utf16Size, if_pos g1]
    have hb : isRopeBreak c = false := by
      have e1 : c ≠ '\n' := fun e => hn2 e
      have e2 : c ≠ '\r' := fun e => hn3 e
      simp [isRopeBreak, e1, e2, g2]
    rw [hu] at h1 h2 h3 ⊢
    simp only at h1 h2 h3
    refine ⟨h1, ?_⟩
    by_cases hz : (positionFrom ⟨p.line, p.character + 1⟩ rest).line = p.line
    · rw [hz, Nat.sub_self] at h2 ⊢
      simp only [lineToChar, Option.some.injEq] at h2
      refine ⟨0, by simp [lineToChar], ?_⟩
      rw [if_pos rfl]
      rw [if_pos hz] at h3
      simp only [List.length_cons]; omega
    · refine ⟨s + 1, ?_, ?_⟩
      · obtain ⟨n, hn⟩ : ∃ n, (positionFrom ⟨p.line, p.character + 1⟩ rest).line - p.line = n + 1 := ⟨(positionFrom ⟨p.line, p.character + 1⟩ rest).line - p.line - 1, by omega⟩
        rw [hn] at h2 ⊢
        rw [List.cons_append, lineToChar_cons _ (by rintro ⟨e, _⟩; exact hn3 e), h2, hb]; rfl
      · rw [if_neg hz] at h3 ⊢
        simp only [List.length_cons]; omega

theorem lineToChar_at {a b : List Char} (hg : Plain a) (hc : Cut a b) :
    ∃ s, lineToChar (position a).line (a ++ b) = some s ∧ s + (position a).character = a.length := by
  obtain ⟨_, s, h2, h3⟩ := lineToChar_position ⟨0, 0⟩ a b hg hc
  exact ⟨s, by simpa [position] using h2, by simpa [position] using h3⟩

/-- One edit. -/
theorem applyChange_edited {text text' : List Char} {c : Change} (hg : c.range ≠ none → Plain text) (h : Edited text c text') : applyChange text c = text' := by
  cases h with
  | full => simp [applyChange, changeRange, tryRemove, tryInsert]
  | @range a b c new h1 h2 =>
    have hg := hg (by simp)
    obtain ⟨s, s1, s2⟩ := lineToChar_at (a := a) (b := b ++ c) (fun x hx => hg x (by simp [hx])) h1
    obtain ⟨t, t1, t2⟩ := lineToChar_at (a := a ++ b) (b := c) (fun x hx => hg x (by simp at hx ⊢; rcases hx with h | h <;> simp [h])) h2
    have e : changeRange (a ++ b ++ c) ⟨some (position a, position (a ++ b)), new⟩ = (a.length, some (a ++ b).length) := by
      rw [← List.append_assoc] at s1
      simp only [changeRange, s1, t1, s2, t2]
    simp only [applyChange, e]
    have r : tryRemove (a ++ b ++ c) a.length (some (a ++ b).length) = a ++ c := by
      unfold tryRemove
      rw [if_pos (by simp)]
      simp only [Option.getD_some, List.drop_left]
      rw [List.append_assoc, List.take_left]
    rw [r, tryInsert, if_pos (by simp), List.take_left, List.drop_left]

theorem applyChanges_edited {text text' : List Char} {cs : List Change} (h : EditedAll Plain text cs text') : cs.foldl applyChange text = text' := by
  induction h with
  | nil => rfl
  | cons h1 h2 _ ih => rw [List.foldl_cons, applyChange_edited h1 h2, ih]

/-- After any notifications, the server has the text the client has, as long as the texts that are edited by ranges are plain. Missing
from the full C46: `C46_counterexample_utf16`, `C46_counterexample_breaks`, and positions beyond the end of a line or of the text, which
the protocol allows (`C46_counterexample_line`, `C46_counterexample_end`). -/
theorem C46_partial {events : List DocEvent} {uri : String} {text : List Char} (h : ClientHas Plain events uri text)
    (files : String → Option (List Char)) : docRun events files uri = some text := by
  induction h with
  | opened => simp [docRun, List.foldl_append, docStep]
  | changed _ h2 ih =>
    rw [docRun] at ih ⊢
    rw [List.foldl_append]
    simp only [List.foldl_cons, List.foldl_nil, docStep, if_true, ih, Option.map_some, applyChanges_edited h2]
  | @other events uri text e _ h2 h3 ih =>
    rw [docRun] at ih ⊢
    rw [List.foldl_append]
    cases e with
    | didOpen u t =>
      have : uri ≠ u := by rintro rfl; exact h2 t rfl
      simp [docStep, this, ih]
    | didChange u cs =>
      have : uri ≠ u := by rintro rfl; exact h3 cs rfl
      simp [docStep, this, ih]

/-- Full-text synchronisation has no exceptions. -/
theorem C53_full (text new : List Char) : applyChange text ⟨none, new⟩ = new := applyChange_edited (by simp) .full

/-- One edit with line and character counted as the protocol does: whatever was before and after is kept. -/
theorem C46_edit_partial {a b c new : List Char} (hg : Plain (a ++ b ++ c)) (h1 : Cut a (b ++ c)) (h2 : Cut (a ++ b) c) :
    applyChange (a ++ b ++ c) ⟨some (position a, position (a ++ b)), new⟩ = a ++ new ++ c := applyChange_edited (fun _ => hg) (.range h1 h2)

/-- A document that was never opened is not created by an edit. -/
theorem C53_unopened (events : List DocEvent) (uri : String) (h : ∀ e ∈ events, ∀ t, e ≠ .didOpen uri t) : docRun events (fun _ => none) uri = none := by
  have : ∀ (events : List DocEvent) (files : String → Option (List Char)), files uri = none → (∀ e ∈ events, ∀ t, e ≠ .didOpen uri t) →
      docRun events files uri = none := by
    intro events
    induction events with
    | nil => intro files h _; exact h
    | cons e es ih =>
      intro files hf h
      refine ih (docStep files e) ?_ fun e' he' => h e' (by simp [he'])
      cases e with
      | didOpen u t =>
        have : uri ≠ u := by rintro rfl; exact h _ (by simp) t rfl
        simp [docStep, this, hf]
      | didChange u cs =>
        simp only [docStep]
        split <;> simp [hf]
  exact this events _ rfl h

/-- Edits of one document leave the others alone. -/
theorem C53_others {files : String → Option (List Char)} {e : DocEvent} {uri : String} (h1 : ∀ t, e ≠ .didOpen uri t) (h2 : ∀ cs, e ≠ .didChange uri cs) :
    docStep files e uri = files uri := by
  cases e with
  | didOpen u t =>
    have : uri ≠ u := by rintro rfl; exact h1 t rfl
    simp [docStep, this]
  | didChange u cs =>
    have : uri ≠ u := by rintro rfl; exact h2 cs rfl
    simp [docStep, this]

/-- Two edits of an open document. -/
example : docRun [.didOpen "a" c!"a{\r\nb:c}", .didOpen "b" [], .didChange "a" [⟨some (⟨1, 0⟩, ⟨1, 1⟩), c!"d"⟩, ⟨some (⟨0, 1⟩, ⟨1, 0⟩), c!"{"⟩]]
    (fun _ => none) "a" = some c!"a{d:c}" := by decide +kernel

example : ClientHas Plain [.didOpen "a" c!"a{\r\nb:c}", .didOpen "b" [], .didChange "a" [⟨some (⟨1, 0⟩, ⟨1, 1⟩), c!"d"⟩]] "a" c!"a{\r\nd:c}" := by
  have e : Edited c!"a{\r\nb:c}" ⟨some (⟨1, 0⟩, ⟨1, 1⟩), c!"d"⟩ c!"a{\r\nd:c}" :=
    .range (a := c!"a{\r\n") (b := c!"b") (c := c!":c}") (by simp [Cut]) (by simp [Cut])
  exact .changed (events := [.didOpen "a" c!"a{\r\nb:c}", .didOpen "b" []]) (.other (events := [.didOpen "a" c!"a{\r\nb:c}"]) (.opened (events := [])) (by simp) (by simp))
    (.cons (fun _ => by unfold Plain; decide +kernel) e .nil)

/-- Columns are counted in characters, not in UTF-16 code units: the edit of the letter after an emoji is made after the letter. -/
theorem C46_counterexample_utf16 : Edited c!"😀ab" ⟨some (⟨0, 2⟩, ⟨0, 3⟩), []⟩ c!"😀b"
    ∧ applyChange c!"😀ab" ⟨some (⟨0, 2⟩, ⟨0, 3⟩), []⟩ = c!"😀a" :=
  ⟨.range (a := c!"😀") (b := c!"a") (c := c!"b") (by simp [Cut]) (by simp [Cut]), by decide +kernel⟩

/-- A form feed starts a line for the server, not in the protocol. -/
theorem C46_counterexample_breaks : Edited c!"\u000c\nab" ⟨some (⟨1, 0⟩, ⟨1, 1⟩), []⟩ c!"\u000c\nb"
    ∧ applyChange c!"\u000c\nab" ⟨some (⟨1, 0⟩, ⟨1, 1⟩), []⟩ = c!"\u000cab" :=
  ⟨.range (a := c!"\u000c\n") (b := c!"a") (c := c!"b") (by simp [Cut]) (by simp [Cut]), by decide +kernel⟩

/-- The protocol reads a character beyond the end of a line as the end of that line; the server counts on into the next lines. -/
theorem C46_counterexample_line : applyChange c!"a\nbc" ⟨some (⟨0, 0⟩, ⟨0, 3⟩), []⟩ = c!"c" := by decide +kernel

/-- A range that ends beyond the end of the text is not removed, but the new text is inserted nevertheless. -/
theorem C46_counterexample_end : applyChange c!"ab" ⟨some (⟨0, 0⟩, ⟨0, 3⟩), c!"c"⟩ = c!"cab" := by decide +kernel

end Hdx.Lsp

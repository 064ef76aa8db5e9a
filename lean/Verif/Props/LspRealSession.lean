/-
Property C96, continued: a session with documents that are in order, and sessions that are not.
-/
import Verif.Model.Lsp.RealSession
import Verif.Props.LspSession
import Verif.Props.LspDocument
import Verif.Props.HighlightSheet

namespace Hdx.Lsp
open Hdx.Lsp.Spec

variable {π η : Type} {parse : List Char → Except Panic (Option π)} {highlight : List Char → π → Except Panic η}

theorem docRun_snoc (before : List DocEvent) (e : DocEvent) : docRun (before ++ [e]) (fun _ => none) = docStep (docRun before fun _ => none) e := by
  simp [docRun, List.foldl_append]

/-- The replies of a session in which every text can be parsed, and every text that is asked for gives highlights. -/
theorem session_fine (h0 : ∃ o, parse [] = .ok o) : ∀ (ms : List DocMessage) (pre : List DocEvent),
    (∀ before e after, ms = before ++ .event e :: after → ∀ text, docRun (pre ++ eventsOf before ++ [e]) (fun _ => none) (eventUri e) = some text → ∃ o, parse text = .ok o) →
    (∀ before uri after, ms = before ++ .tokens uri :: after → ∀ text, docRun (pre ++ eventsOf before) (fun _ => none) uri = some text →
      ∃ o data, parse text = .ok (some o) ∧ highlight text o = .ok data) →
    (session parse highlight (fun u => (docRun pre (fun _ => none) u).map (⟨·, .usable⟩)) ms).2 = .done ∧
      Replied (fun before uri a => (docRun before (fun _ => none) uri = none ∧ a = .noFile)
        ∨ ∃ text o data, docRun before (fun _ => none) uri = some text ∧ parse text = .ok (some o) ∧ highlight text o = .ok data ∧ a = .highlights data)
        pre ms (session parse highlight (fun u => (docRun pre (fun _ => none) u).map (⟨·, .usable⟩)) ms).1
  | [], _, _, _ => ⟨rfl, .nil⟩
  | .tokens uri :: ms, pre, hp, ht => by
    obtain ⟨i1, i2⟩ := session_fine h0 ms pre (fun before e after h => hp (.tokens uri :: before) e after (by rw [h]; rfl))
      (fun before v after h => ht (.tokens uri :: before) v after (by rw [h]; rfl))
    have hu := ht [] uri ms rfl
    simp only [eventsOf, List.append_nil] at hu
    cases hd : docRun pre (fun _ => none) uri with
    | none =>
      simp only [session, hd, Option.map_none]
      exact ⟨i1, .tokens (.inl ⟨hd, rfl⟩) i2⟩
    | some text =>
      obtain ⟨o, data, h1, h2⟩ := hu text hd
      simp only [session, hd, Option.map_some, touching, h1, h2]
      exact ⟨i1, .tokens (.inr ⟨text, o, data, hd, h1, h2, rfl⟩) i2⟩
  | .event e :: ms, pre, hp, ht => by
    have hsame : ∀ {text}, docRun (pre ++ [e]) (fun _ => none) (eventUri e) = some text → useAfter parse text = .usable := by
      intro text h
      obtain ⟨o, ho⟩ := hp [] e ms rfl text (by simpa [eventsOf] using h)
      exact use_ok parse ho
    obtain ⟨i1, i2⟩ := session_fine h0 ms (pre ++ [e]) (fun before e' after h => by
        have := hp (.event e :: before) e' after (by rw [h]; rfl)
        simpa [eventsOf] using this)
      (fun before v after h => by
        have := ht (.event e :: before) v after (by rw [h]; rfl)
        simpa [eventsOf] using this)
    suffices he : session parse highlight (fun u => (docRun pre (fun _ => none) u).map (⟨·, .usable⟩)) (.event e :: ms)
        = session parse highlight (fun u => (docRun (pre ++ [e]) (fun _ => none) u).map (⟨·, .usable⟩)) ms by
      rw [he]
      exact ⟨i1, .event i2⟩
    cases e with
    | didOpen uri text =>
      obtain ⟨o, ho⟩ := h0
      have hu := hsame (text := text) (by rw [docRun_snoc]; simp [docStep, eventUri])
      simp only [session, use_ok parse ho, touching, hu]
      congr 1
      funext v
      rw [docRun_snoc]
      by_cases hv : v = uri <;> simp [putDoc, docStep, hv]
    | didChange uri changes =>
      cases hd : docRun pre (fun _ => none) uri with
      | none =>
        simp only [session, hd, Option.map_none]
        congr 1
        funext v
        rw [docRun_snoc]
        by_cases hv : v = uri
        · subst hv; simp [docStep, hd]
        · simp [docStep, hv]
      | some text =>
        have hu := hsame (text := changes.foldl applyChange text) (by rw [docRun_snoc]; simp [docStep, eventUri, hd])
        simp only [session, hd, Option.map_some, touching, hu]
        congr 1
        funext v
        rw [docRun_snoc]
        by_cases hv : v = uri
        · subst hv; simp [putDoc, docStep, hd]
        · simp [putDoc, docStep, hv]

theorem Replied.mono {P Q : List DocEvent → String → Answer η → Prop} {pre : List DocEvent} {ms : List DocMessage} {answers : List (Answer η)} (h : Replied P pre ms answers)
    (hpq : ∀ before uri after a, ms = before ++ .tokens uri :: after → P (pre ++ eventsOf before) uri a → Q (pre ++ eventsOf before) uri a) : Replied Q pre ms answers := by
  induction h with
  | nil => exact .nil
  | @event before e ms answers _ ih =>
    refine .event (ih fun before' uri after a h hP => ?_)
    have := hpq (.event e :: before') uri after a (by rw [h]; rfl)
    simpa [eventsOf] using this (by simpa [eventsOf] using hP)
  | @tokens before uri ms a answers h1 h2 ih =>
    refine .tokens ?_ (ih fun before' v after a h hP => ?_)
    · have := hpq [] uri ms a rfl
      simpa [eventsOf] using this (by simpa [eventsOf] using h1)
    · have := hpq (.tokens uri :: before') v after a (by rw [h]; rfl)
      simpa [eventsOf] using this (by simpa [eventsOf] using hP)

end Hdx.Lsp

namespace Hdx
open Spec Prog Highlighter Lsp
open Hdx.Lsp.Spec (ClientHas eventsOf eventUri Replied)

/-- A text that the server can highlight: ASCII, not too long, a style sheet without `@media` and `@-webkit-keyframes`. -/
structure Highlightable (text : List Char) : Prop where
  ascii : ∀ c ∈ text, c.toNat < 128
  lines : ∀ a b, text = a ++ '\r' :: b → b.head? = some '\n'
  tame : Tame {} text
  short : byteLen text < 65536
  sheet : ∃ rules, parsedSheet realValues text = .ok (some rules) ∧ ∀ r ∈ walkedAll rules, Unfinished r = false

/-- The semantic tokens show the text as C90 says. -/
def ShownRight (text : List Char) (data : List (Lsp.Highlight × Nat × Nat)) : Prop :=
  ∃ rules, ∃ shown : List Shown, parsedSheet realValues text = .ok (some rules) ∧ shown.Perm ((walkedAll rules).flatMap ruleShows) ∧ shown.Pairwise (fun a b => a.span.stop ≤ b.span.start) ∧
    (withPlaces (semanticTokens data)).length = shown.length ∧ (semanticTokens data).length = shown.length ∧
    ∀ x ∈ shown.zip (withPlaces (semanticTokens data)), Understood text Lsp.Spec.position (fun text => (text.map Lsp.Spec.utf16Size).sum) x.1 x.2

theorem highlightable_data {text : List Char} (h : Highlightable text) :
    ∃ rules data, parsedSheet realValues text = .ok (some rules) ∧ sheetHighlights text rules = .ok data ∧ ShownRight text data := by
  obtain ⟨rules, h1, h2⟩ := h.sheet
  obtain ⟨data, shown, g1, g2, g3, g4, g5, g6⟩ := C90_protocol_partial h.ascii h.lines h.tame h.short h1 h2
  refine ⟨rules, data, h1, ?_, rules, shown, h1, g2, g3, g4, g5, g6⟩
  unfold highlightReply at g1
  rw [h1] at g1
  simp only at g1
  unfold sheetHighlights
  cases hv : sheetVisits rules with
  | error e => rw [hv] at g1; cases g1
  | ok vs =>
    rw [hv] at g1
    simp only at g1 ⊢
    cases hh : highlightData text (Highlighter.entries vs) with
    | error e => rw [hh] at g1; cases g1
    | ok d => rw [hh] at g1; cases g1; rfl

set_option maxRecDepth 100000 in
theorem parsed_empty : parsedSheet realValues [] = .ok (some []) := by
  have h : ((Parser.new []).parseEntirely (cssStyleSheet realValues).run).map (fun r => r.1.output.map (·.length)) = .ok (some 0) := by decide +kernel
  unfold parsedSheet
  cases hp : (Parser.new []).parseEntirely (cssStyleSheet realValues).run with
  | error e => rw [hp] at h; cases h
  | ok r =>
    rw [hp] at h
    simp only [Except.map, Except.ok.injEq] at h ⊢
    cases ho : r.1.output with
    | none => rw [ho] at h; cases h
    | some rules =>
      rw [ho] at h
      simp only [Option.map_some, Option.some.injEq] at h
      rw [List.eq_nil_of_length_eq_zero h]

/-- A whole session, whatever the threads do. If every text that the server gets can be parsed without a panic, and every request is about a document that the
client has, with a text that can be highlighted; then the session comes to an end (in at most five steps per message), every request is answered, in order, and
each answer shows, at the positions of the protocol, the text that the client had when it sent the request. Missing from the full C96: texts that cannot be
highlighted (`C96_ending` says what happens), and edits of texts that are not `Plain` (see C46). -/
theorem C96_answered_partial {ms : List DocMessage} {n : Nat} {s : Session (List (Lsp.Highlight × Nat × Nat))}
    (hp : ∀ before e after, ms = before ++ .event e :: after → ∀ text, docRun (eventsOf before ++ [e]) (fun _ => none) (eventUri e) = some text → ∃ o, parsedSheet realValues text = .ok o)
    (ht : ∀ before uri after, ms = before ++ .tokens uri :: after → ∃ text, ClientHas Lsp.Plain (eventsOf before) uri text ∧ Highlightable text)
    (h : ServerSteps n (Session.new ms) s) :
    n ≤ 5 * ms.length ∧ ((∃ s', ServerStep s s') ∨ (s.doing = .ready ∧ s.messages = []
      ∧ Replied (fun before uri a => ∃ text data, ClientHas Lsp.Plain before uri text ∧ a = .highlights data ∧ ShownRight text data) [] ms s.answers)) := by
  refine ⟨C96_terminates h, ?_⟩
  by_cases hs : ∃ s', ServerStep s s'
  · exact .inl hs
  refine .inr ?_
  obtain ⟨e1, e2⟩ := C96_ending h fun s' h' => hs ⟨s', h'⟩
  obtain ⟨f1, f2⟩ := session_fine (parse := parsedSheet realValues) (highlight := sheetHighlights) ⟨_, parsed_empty⟩ ms []
    (fun before e after h => hp before e after h)
    (fun before uri after h text hd => by
      obtain ⟨text', c1, c2⟩ := ht before uri after h
      rw [List.nil_append, C46_partial c1] at hd
      cases hd
      obtain ⟨rules, data, g1, g2, _⟩ := highlightable_data c2
      exact ⟨rules, data, g1, g2⟩)
  have e0 : (fun u => (docRun [] (fun _ => none) u).map (fun t => (⟨t, .usable⟩ : Lsp.Spec.Doc))) = fun _ => none := rfl
  rw [e0] at f1 f2
  rw [f1] at e2
  refine ⟨e2.1, e2.2, ?_⟩
  rw [e1]
  refine Lsp.Replied.mono f2 fun before uri after a hm hP => ?_
  obtain ⟨text, c1, c2⟩ := ht before uri after hm
  simp only [List.nil_append] at hP ⊢
  rw [C46_partial c1] at hP
  rcases hP with ⟨hn, _⟩ | ⟨text', rules, data, hd, h1, h2, rfl⟩
  · cases hn
  · cases hd
    obtain ⟨rules', data', g1, g2, g3⟩ := highlightable_data c2
    rw [h1] at g1
    cases g1
    rw [h2] at g2
    cases g2
    exact ⟨text, data, c1, rfl, g3⟩

set_option maxRecDepth 100000 in
/-- The hypotheses are met: a document is opened, looked at, changed and looked at again. -/
example : ∃ ms : List DocMessage, ms = [.event (.didOpen "a.css" c!"a{}"), .tokens "a.css", .event (.didChange "a.css" [⟨some (⟨0, 0⟩, ⟨0, 1⟩), c!"em,b"⟩]), .tokens "a.css"] ∧
    (∀ before e after, ms = before ++ .event e :: after → ∀ text, docRun (eventsOf before ++ [e]) (fun _ => none) (eventUri e) = some text → ∃ o, parsedSheet realValues text = .ok o) ∧
    (∀ before uri after, ms = before ++ .tokens uri :: after → ∃ text, ClientHas Lsp.Plain (eventsOf before) uri text ∧ Highlightable text) := by
  have fine : ∀ text ∈ [c!"a{}", c!"em,b{}"], Highlightable text := by
    intro text ht
    have h : ∀ text ∈ [c!"a{}", c!"em,b{}"], (((Parser.new text).parseEntirely (cssStyleSheet realValues).run).toOption.bind (·.1.output)).any (fun rules =>
        (walkedAll rules).all (fun r => !Unfinished r)) = true := by decide +kernel
    obtain ⟨rules, h1, h2⟩ := (Option.any_eq_true _ _).mp (h text ht)
    simp only [List.all_eq_true, Bool.not_eq_true'] at h2
    have ha : ∀ text ∈ [c!"a{}", c!"em,b{}"], ∀ c ∈ text, c.toNat < 128 := by decide
    have hr : ∀ text ∈ [c!"a{}", c!"em,b{}"], ∀ c ∈ text, c ≠ '\r' := by decide
    have hn : ∀ text ∈ [c!"a{}", c!"em,b{}"], byteLen text < 4096 := by decide
    refine ⟨ha text ht, fun a b e => absurd rfl (hr text ht '\r' (by rw [e]; simp)), tame_of_ascii (ha text ht) (hn text ht), ?_, rules, run_parsedSheet h1, h2⟩
    have := hn text ht
    omega
  have h1 : ClientHas Lsp.Plain [.didOpen "a.css" c!"a{}"] "a.css" c!"a{}" := .opened (events := [])
  have h2 : ClientHas Lsp.Plain [.didOpen "a.css" c!"a{}", .didChange "a.css" [⟨some (⟨0, 0⟩, ⟨0, 1⟩), c!"em,b"⟩]] "a.css" c!"em,b{}" :=
    .changed h1 (.cons (fun _ => by unfold Lsp.Plain; decide) (.range (a := []) (b := c!"a") (c := c!"{}") (new := c!"em,b") (by simp [Lsp.Spec.Cut]) (by simp [Lsp.Spec.Cut])) .nil)
  refine ⟨_, rfl, ?_, ?_⟩
  · intro before e after hm text hd
    have : text ∈ [c!"a{}", c!"em,b{}"] := by
      rcases before with _ | ⟨m0, _ | ⟨m1, _ | ⟨m2, _ | ⟨m3, before⟩⟩⟩⟩ <;> simp only [List.nil_append, List.cons_append, List.cons.injEq, DocMessage.event.injEq, reduceCtorEq, false_and, and_false] at hm
      · obtain ⟨rfl, _⟩ := hm
        rw [show eventsOf [] ++ [DocEvent.didOpen "a.css" c!"a{}"] = [.didOpen "a.css" c!"a{}"] from rfl, show eventUri (.didOpen "a.css" c!"a{}") = "a.css" from rfl, Lsp.C46_partial h1] at hd
        cases hd
        simp
      · obtain ⟨rfl, rfl, rfl, _⟩ := hm
        have e := Lsp.C46_partial h2 fun _ => none
        have hd' : some c!"em,b{}" = some text := e.symm.trans hd
        cases hd'
        simp
      · simp at hm
    obtain ⟨rules, h, _⟩ := (fine text this).sheet
    exact ⟨_, h⟩
  · intro before uri after hm
    rcases before with _ | ⟨m0, _ | ⟨m1, _ | ⟨m2, _ | ⟨m3, before⟩⟩⟩⟩ <;> simp only [List.nil_append, List.cons_append, List.cons.injEq, DocMessage.tokens.injEq, reduceCtorEq, false_and, and_false] at hm
    · obtain ⟨rfl, rfl, _⟩ := hm
      exact ⟨_, h1, fine _ (by simp)⟩
    · obtain ⟨rfl, rfl, rfl, rfl, _⟩ := hm
      exact ⟨_, h2, fine _ (by simp)⟩
    · simp at hm

/-- A kind of answer, for concrete cases. -/
def answerKind {η : Type} : Answer η → Nat
  | .highlights _ => 0
  | .empty => 1
  | .noFile => 2

set_option maxRecDepth 100000 in
/-- What is missing from the full C96, that every request is answered from the text of its document. A style sheet with an `@media` rule is answered with no
tokens at all; then any use of that document ends the session for all documents. So does the use of a document that the parser panics on. A text that gives no
style sheet, or a text that is parsed for ever, makes the server wait for ever. -/
theorem C96_counterexample :
    ((Lsp.Spec.session (parsedSheet realValues) sheetHighlights (fun _ => none) [.event (.didOpen "b" c!""), .event (.didOpen "a" c!"@media print{}"), .tokens "a", .tokens "b",
        .event (.didChange "a" [⟨none, c!"a{}"⟩]), .tokens "b"]).1.map answerKind = [1, 0]
      ∧ (Lsp.Spec.session (parsedSheet realValues) sheetHighlights (fun _ => none) [.event (.didOpen "b" c!""), .event (.didOpen "a" c!"@media print{}"), .tokens "a", .tokens "b",
        .event (.didChange "a" [⟨none, c!"a{}"⟩]), .tokens "b"]).2 = .panics)
    ∧ (Lsp.Spec.session (parsedSheet realValues) sheetHighlights (fun _ => none) [.event (.didOpen "a" c!"@container f(){}"), .tokens "a"]).2 = .panics
    ∧ (Lsp.Spec.session (parsedSheet realValues) sheetHighlights (fun _ => none) [.event (.didOpen "a" c!"x/**/|y{}"), .tokens "a"]).2 = .hangs
    ∧ (Lsp.Spec.session (parsedSheet realValues) sheetHighlights (fun _ => none) [.event (.didOpen "a" c!"@page 1{}"), .event (.didChange "a" [⟨none, c!"a{}"⟩])]).2 = .hangs :=
  ⟨⟨by decide +kernel, by decide +kernel⟩, by decide +kernel, by decide +kernel, by decide +kernel⟩

end Hdx

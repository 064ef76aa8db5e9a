/-
Property C96: what a client sees of a session, whatever the threads do.
-/
import Verif.Spec.LspSession
import Mathlib.Data.List.Dedup

namespace Hdx.Lsp
open Hdx.Lsp.Spec

variable {π η : Type} (parse : List Char → Except Panic (Option π)) (highlight : List Char → π → Except Panic η)

/-- The document that a file stands for. -/
def docOf (f : DocFile η) : Doc :=
  ⟨f.content, match f.thread with
    | .parsing t => useAfter parse t
    | .gone => .broken
    | _ => .usable⟩

/-- The documents that the files stand for. -/
def docsOf (files : String → Option (DocFile η)) : String → Option Doc := fun u => (files u).map (docOf parse)

theorem docs_put (files : String → Option (DocFile η)) (u : String) (f : DocFile η) : docsOf parse (putFile files u f) = putDoc (docsOf parse files) u (docOf parse f) := by
  funext v
  by_cases h : v = u <;> simp [docsOf, putFile, putDoc, h]

theorem put_same {docs : String → Option Doc} {u : String} {d : Doc} (h : docs u = some d) : putDoc docs u d = docs := by
  funext v
  by_cases e : v = u
  · subst e; simp [putDoc, h]
  · simp [putDoc, e]

theorem put_put (docs : String → Option Doc) (u : String) (d e : Doc) : putDoc (putDoc docs u d) u e = putDoc docs u e := by
  funext v
  by_cases h : v = u <;> simp [putDoc, h]

/-- A step of a thread that leaves the document as it is. -/
theorem docs_kept {files : String → Option (DocFile η)} {u : String} {f f' : DocFile η} (h : files u = some f) (he : docOf parse f' = docOf parse f) :
    docsOf parse (putFile files u f') = docsOf parse files := by
  rw [docs_put, he]
  exact put_same (by simp [docsOf, h])

theorem putFile_self (files : String → Option (DocFile η)) (u : String) (f : DocFile η) : putFile files u f u = some f := by simp [putFile]
theorem putFile_other (files : String → Option (DocFile η)) {u v : String} (f : DocFile η) (h : v ≠ u) : putFile files u f v = files v := by simp [putFile, h]

/-- What is still to come of the file that is asked. -/
def awaited (docs : String → Option Doc) (ms : List DocMessage) (u : String) : Option (DocFile η) → List (Answer η) × Ending
  | some ⟨_, .highlighting _⟩ => session parse highlight docs (.tokens u :: ms)
  | some ⟨_, .sending _ data⟩ => (.highlights data :: (session parse highlight docs ms).1, (session parse highlight docs ms).2)
  | some ⟨_, .gone⟩ => (.empty :: (session parse highlight docs ms).1, (session parse highlight docs ms).2)
  | _ => ([], .hangs)

/-- What is still to come after the commit of a file. -/
def afterCommit (docs : String → Option Doc) (ms : List DocMessage) (u : String) : Option Doc → List (Answer η) × Ending
  | some d => touching d.use (session parse highlight (putDoc docs u ⟨d.text, useAfter parse d.text⟩) ms)
  | none => ([], .done)

/-- What is still to come. -/
def yetToCome (s : Session η) : List (Answer η) × Ending :=
  match s.doing with
  | .ready => session parse highlight (docsOf parse s.files) s.messages
  | .committing u => afterCommit parse highlight (docsOf parse s.files) s.messages u (docsOf parse s.files u)
  | .asking u => session parse highlight (docsOf parse s.files) (.tokens u :: s.messages)
  | .waiting u => awaited parse highlight (docsOf parse s.files) s.messages u (s.files u)
  | .panicked => ([], .panics)

/-- A file is in order. -/
def FileInv (doing : Doing) (u : String) (f : DocFile η) : Prop :=
  match f.thread with
  | .parsing t => (doing ≠ .committing u → t = f.content) ∧ doing ≠ .waiting u
  | .idle t => (doing ≠ .committing u → t = f.content) ∧ useAfter parse t = .usable ∧ (doing = .waiting u → parse t = .ok none)
  | .highlighting t => t = f.content ∧ useAfter parse t = .usable ∧ doing = .waiting u
  | .sending t _ => t = f.content ∧ useAfter parse t = .usable ∧ doing = .waiting u
  | .gone => True

/-- The file that the handler deals with is there. -/
def Present (files : String → Option (DocFile η)) : Doing → Prop
  | .committing u | .asking u | .waiting u => files u ≠ none
  | _ => True

/-- The invariant. -/
structure SessionInv (all : List (Answer η) × Ending) (s : Session η) : Prop where
  answers : s.answers ++ (yetToCome parse highlight s).1 = all.1
  ending : (yetToCome parse highlight s).2 = all.2
  files : ∀ u f, s.files u = some f → FileInv parse s.doing u f
  present : Present s.files s.doing

theorem sessionInv_new (ms : List DocMessage) : SessionInv parse highlight (session parse highlight (fun _ => none) ms) (Session.new ms : Session η) where
  answers := rfl
  ending := rfl
  files := nofun
  present := trivial

theorem use_ok {t : List Char} {o : Option π} (h : parse t = .ok o) : useAfter parse t = .usable := by simp [useAfter, h]
theorem use_error {t : List Char} {e : Panic} (h : parse t = .error e) (he : e ≠ .diverges) : useAfter parse t = .broken := by simp [useAfter, h, he]
theorem use_stuck {t : List Char} (h : parse t = .error .diverges) : useAfter parse t = .stuck := by simp [useAfter, h]

variable {parse} {highlight}

/-- A file that the handler does not deal with, neither before nor after. -/
theorem FileInv.move {d d' : Doing} {v : String} {f : DocFile η} (h : FileInv parse d v f) (h1 : d ≠ .committing v) (h2 : d ≠ .waiting v) (h3 : d' ≠ .waiting v) : FileInv parse d' v f := by
  obtain ⟨content, thread⟩ := f
  cases thread with
  | parsing t => exact ⟨fun _ => h.1 h1, h3⟩
  | idle t => exact ⟨fun _ => h.1 h1, h.2.1, fun e => absurd e h3⟩
  | highlighting t => exact absurd h.2.2 h2
  | sending t r => exact absurd h.2.2 h2
  | gone => trivial

/-- All files, after one was put. -/
theorem files_put {files : String → Option (DocFile η)} {d d' : Doing} {u : String} {f : DocFile η} (h : ∀ v g, files v = some g → FileInv parse d v g)
    (hf : FileInv parse d' u f) (hd : ∀ v, v ≠ u → (d ≠ .committing v ∧ d ≠ .waiting v ∧ d' ≠ .waiting v) ∨ d' = d) :
    ∀ v g, putFile files u f v = some g → FileInv parse d' v g := by
  intro v g hg
  by_cases e : v = u
  · subst e
    rw [putFile_self] at hg
    cases hg
    exact hf
  · rw [putFile_other _ _ e] at hg
    rcases hd v e with ⟨a, b, c⟩ | rfl
    · exact (h v g hg).move a b c
    · exact h v g hg

theorem present_put {files : String → Option (DocFile η)} {d : Doing} (u : String) (f : DocFile η) (h : Present files d) : Present (putFile files u f) d := by
  have key : ∀ v, files v ≠ none → putFile files u f v ≠ none := by
    intro v hv
    unfold putFile
    split
    · exact nofun
    · exact hv
  cases d with
  | ready => trivial
  | panicked => trivial
  | committing v => exact key v h
  | asking v => exact key v h
  | waiting v => exact key v h

theorem docs_at {files : String → Option (DocFile η)} {u : String} {f : DocFile η} (h : files u = some f) : docsOf parse files u = some (docOf parse f) := by simp [docsOf, h]

theorem sessionInv_step {all : List (Answer η) × Ending} {s s' : Session η} (h : SessionInv parse highlight all s) (hs : SessionStep parse highlight s s') :
    SessionInv parse highlight all s' := by
  obtain ⟨h1, h2, h3, h4⟩ := h
  -- it is enough that what is to come is the same
  have same : ∀ {t : Session η}, t.answers = s.answers → yetToCome parse highlight t = yetToCome parse highlight s → (∀ u f, t.files u = some f → FileInv parse t.doing u f) →
      Present t.files t.doing → SessionInv parse highlight all t :=
    fun ha hy hf hp => ⟨by rw [ha, hy]; exact h1, by rw [hy]; exact h2, hf, hp⟩
  -- a step of a thread that leaves the document as it is
  have kept : ∀ {u : String} {f f' : DocFile η}, s.files u = some f → docOf parse f' = docOf parse f → FileInv parse s.doing u f' →
      (s.doing = .waiting u → awaited parse highlight (docsOf parse s.files) s.messages u (some f') = awaited parse highlight (docsOf parse s.files) s.messages u (some f)) →
      SessionInv parse highlight all ⟨s.messages, putFile s.files u f', s.doing, s.answers⟩ := by
    intro u f f' hf he hi hw
    refine same rfl ?_ (files_put h3 hi fun v _ => .inr rfl) (present_put _ _ h4)
    unfold yetToCome
    simp only [docs_kept parse hf he]
    split
    · rfl
    · rfl
    · rfl
    · next w hd =>
      by_cases e : w = u
      · subst e
        rw [putFile_self, hf]
        exact hw hd
      · rw [putFile_other _ _ e]
    · rfl
  cases hs with
  | @opened uri text ms files answers =>
    refine same rfl ?_ (files_put h3 ⟨fun h => absurd rfl h, nofun⟩ fun v _ => .inl ⟨nofun, nofun, nofun⟩) (by simp [Present, putFile_self])
    simp only [yetToCome, session, docs_put, afterCommit, put_put]
    simp [putDoc, docOf]
  | @changed uri changes ms files answers file hf =>
    refine same rfl ?_ (files_put h3 ?_ fun v _ => .inl ⟨nofun, nofun, nofun⟩) (by simp [Present, putFile_self])
    · simp only [yetToCome, session, docs_put, afterCommit, put_put, docs_at hf]
      obtain ⟨content, thread⟩ := file
      cases thread <;> simp [putDoc, docOf] <;> rfl
    · have := h3 uri file hf
      obtain ⟨content, thread⟩ := file
      cases thread with
      | parsing t => exact ⟨fun h => absurd rfl h, nofun⟩
      | idle t => exact ⟨fun h => absurd rfl h, this.2.1, nofun⟩
      | highlighting t => exact absurd this.2.2 nofun
      | sending t r => exact absurd this.2.2 nofun
      | gone => trivial
  | @unchanged uri changes ms files answers hf =>
    refine same rfl ?_ h3 trivial
    simp [yetToCome, session, docsOf, hf]
  | @asked uri ms files answers file hf =>
    refine same rfl rfl (fun v g hg => (h3 v g hg).move nofun nofun nofun) (by simp [Present, hf])
  | @unknown uri ms files answers hf =>
    have e : docsOf parse files uri = none := by simp [docsOf, hf]
    simp only [yetToCome, session, e] at h1 h2
    exact ⟨by simpa [yetToCome] using h1, h2, h3, trivial⟩
  | @committed uri ms files answers content old hf =>
    refine same rfl ?_ (files_put h3 ⟨fun _ => rfl, nofun⟩ fun v hv => .inl ⟨fun h => hv (by cases h; rfl), nofun, nofun⟩) trivial
    simp only [yetToCome, docs_put, afterCommit, docs_at hf]
    simp [docOf, touching]
  | @commitFails uri ms files answers content hf =>
    refine same rfl ?_ (fun v g hg => ?_) trivial
    · simp only [yetToCome, afterCommit, docs_at hf]
      simp [docOf, touching]
    · by_cases e : v = uri
      · subst e
        have hg : files v = some g := hg
        rw [hf] at hg
        cases hg
        trivial
      · exact (h3 v g hg).move (fun h => e (by cases h; rfl)) nofun nofun
  | @ask uri ms files answers content text hf =>
    have hi := h3 uri _ hf
    have et : text = content := hi.1 nofun
    refine same rfl ?_ (files_put h3 ⟨et, hi.2.1, rfl⟩ fun v hv => .inl ⟨nofun, nofun, fun h => hv (by cases h; rfl)⟩) (by simp [Present, putFile_self])
    simp only [yetToCome, putFile_self, awaited]
    rw [docs_kept parse hf (by simp [docOf])]
  | @askFails uri ms files answers content hf =>
    refine same rfl ?_ (fun v g hg => (h3 v g hg).move nofun nofun nofun) trivial
    simp only [yetToCome, session, docs_at hf]
    simp [docOf, touching]
  | @reply uri ms files answers content text data hf =>
    have hi := h3 uri _ hf
    have hk : docsOf parse (putFile files uri ⟨content, .idle text⟩) = docsOf parse files := docs_kept parse hf (by simp [docOf])
    simp only [yetToCome, hf, awaited] at h1 h2
    refine ⟨?_, ?_, files_put h3 ⟨fun _ => hi.1, hi.2.1, nofun⟩ fun v hv => .inl ⟨nofun, fun h => hv (by cases h; rfl), nofun⟩, trivial⟩
    · simp only [yetToCome, hk]
      simpa using h1
    · simp only [yetToCome, hk]
      exact h2
  | @replyFails uri ms files answers content hf =>
    simp only [yetToCome, hf, awaited] at h1 h2
    refine ⟨by simpa [yetToCome] using h1, h2, fun v g hg => ?_, trivial⟩
    by_cases e : v = uri
    · subst e
      have hg : files v = some g := hg
      rw [hf] at hg
      cases hg
      trivial
    · exact (h3 v g hg).move nofun (fun h => e (by cases h; rfl)) nofun
  | @parsed uri ms files doing answers content text o hf ho =>
    have hi := h3 uri _ hf
    exact kept hf (by simp [docOf, use_ok parse ho]) ⟨hi.1, use_ok parse ho, fun h => absurd h hi.2⟩ fun h => absurd h hi.2
  | @parsePanics uri ms files doing answers content text e hf he hne =>
    have hi := h3 uri _ hf
    exact kept hf (by simp [docOf, use_error parse he hne]) trivial fun h => absurd h hi.2
  | @highlighted uri ms files doing answers content text o data hf ho hd =>
    have hi := h3 uri _ hf
    obtain ⟨rfl, hp, hw⟩ := hi
    refine kept hf (by simp [docOf]) ⟨rfl, hp, hw⟩ fun _ => ?_
    simp only [awaited, session, docs_at hf]
    simp [docOf, ho, hd, touching]
  | @skipped uri ms files doing answers content text hf ho =>
    have hi := h3 uri _ hf
    obtain ⟨rfl, hp, hw⟩ := hi
    refine kept hf (by simp [docOf]) ⟨fun _ => rfl, hp, fun _ => ho⟩ fun _ => ?_
    simp only [awaited, session, docs_at hf]
    simp [docOf, ho, touching]
  | @highlightPanics uri ms files doing answers content text o e hf ho he hne =>
    have hi := h3 uri _ hf
    obtain ⟨rfl, hp, hw⟩ := hi
    simp only at hw
    subst hw
    refine same rfl ?_ (files_put h3 trivial fun v hv => .inr rfl) (by simp [Present, putFile_self])
    simp only [yetToCome, putFile_self, awaited, hf, session, docs_at hf, docs_put]
    cases e <;> first | exact absurd rfl hne | simp [docOf, ho, he, touching]

theorem sessionInv_steps {ms : List DocMessage} {n : Nat} {s : Session η} (h : SessionSteps parse highlight n (Session.new ms) s) :
    SessionInv parse highlight (session parse highlight (fun _ => none) ms) s := by
  generalize hz : (Session.new ms : Session η) = z at h
  induction h with
  | refl => subst hz; exact sessionInv_new parse highlight ms
  | tail _ h2 ih => exact sessionInv_step (ih hz) h2

/-- Whatever the threads do, at every moment: the replies sent so far are the first of those that `session` says. -/
theorem C96_replies {ms : List DocMessage} {n : Nat} {s : Session η} (h : SessionSteps parse highlight n (Session.new ms) s) :
    ∃ rest, s.answers ++ rest = (session parse highlight (fun _ => none) ms).1 := ⟨_, (sessionInv_steps h).answers⟩

/-- When no thread can do anything any more, all the replies that `session` says were sent, and it ended as `session` says. -/
theorem C96_ending {ms : List DocMessage} {n : Nat} {s : Session η} (h : SessionSteps parse highlight n (Session.new ms) s) (hs : ∀ s', ¬ SessionStep parse highlight s s') :
    s.answers = (session parse highlight (fun _ => none) ms).1 ∧ EndsWith s (session parse highlight (fun _ => none) ms).2 := by
  obtain ⟨h1, h2, h3, h4⟩ := sessionInv_steps h
  suffices hy : (yetToCome parse highlight s).1 = [] ∧ EndsWith s (yetToCome parse highlight s).2 by
    rw [hy.1, List.append_nil] at h1
    exact ⟨h1, by rw [← h2]; exact hy.2⟩
  obtain ⟨ms', files, doing, answers⟩ := s
  -- the threads that cannot go on
  have quiet : ∀ u f, files u = some f → (∃ t, f.thread = .idle t) ∨ (∃ t r, f.thread = .sending t r) ∨ f.thread = .gone ∨ (∃ t, f.thread = .parsing t ∧ useAfter parse t = .stuck)
      ∨ (∃ t o, f.thread = .highlighting t ∧ parse t = .ok (some o) ∧ highlight t o = .error .diverges) := by
    rintro u ⟨content, thread⟩ hf
    cases thread with
    | parsing t =>
      cases hp : parse t with
      | ok o => exact absurd (.parsed hf hp) (hs _)
      | error e =>
        by_cases he : e = .diverges
        · subst he
          exact .inr (.inr (.inr (.inl ⟨t, rfl, use_stuck parse hp⟩)))
        · exact absurd (.parsePanics hf hp he) (hs _)
    | idle t => exact .inl ⟨t, rfl⟩
    | highlighting t =>
      cases hp : parse t with
      | error e =>
        have := (h3 u _ hf).2.1
        unfold useAfter at this
        rw [hp] at this
        simp only at this
        split at this <;> cases this
      | ok o =>
        cases o with
        | none => exact absurd (.skipped hf hp) (hs _)
        | some o =>
          cases hh : highlight t o with
          | ok r => exact absurd (.highlighted hf hp hh) (hs _)
          | error e =>
            by_cases he : e = .diverges
            · subst he
              exact .inr (.inr (.inr (.inr ⟨t, o, rfl, hp, hh⟩)))
            · exact absurd (.highlightPanics hf hp hh he) (hs _)
    | sending t r => exact .inr (.inl ⟨t, r, rfl⟩)
    | gone => exact .inr (.inr (.inl rfl))
  cases doing with
  | panicked => exact ⟨rfl, rfl⟩
  | ready =>
    cases ms' with
    | nil => exact ⟨rfl, rfl, rfl⟩
    | cons m ms' =>
      cases m with
      | tokens uri =>
        cases hf : files uri with
        | none => exact absurd (.unknown hf) (hs _)
        | some f => exact absurd (.asked hf) (hs _)
      | event e =>
        cases e with
        | didOpen uri text => exact absurd .opened (hs _)
        | didChange uri changes =>
          cases hf : files uri with
          | none => exact absurd (.unchanged hf) (hs _)
          | some f => exact absurd (.changed hf) (hs _)
  | committing u =>
    obtain ⟨⟨content, thread⟩, hf⟩ := Option.ne_none_iff_exists'.mp (show files u ≠ none from h4)
    rcases quiet u _ hf with ⟨t, e⟩ | ⟨t, r, e⟩ | e | ⟨t, e, hu⟩ | ⟨t, o, e, _⟩ <;> cases e
    · exact absurd (.committed hf) (hs _)
    · exact absurd (h3 u _ hf).2.2 nofun
    · exact absurd (.commitFails hf) (hs _)
    · simp only [yetToCome, docs_at hf, afterCommit, docOf, hu, touching]
      exact ⟨trivial, u, .inr (.inr rfl)⟩
    · exact absurd (h3 u _ hf).2.2 nofun
  | asking u =>
    obtain ⟨⟨content, thread⟩, hf⟩ := Option.ne_none_iff_exists'.mp (show files u ≠ none from h4)
    rcases quiet u _ hf with ⟨t, e⟩ | ⟨t, r, e⟩ | e | ⟨t, e, hu⟩ | ⟨t, o, e, _⟩ <;> cases e
    · exact absurd (.ask hf) (hs _)
    · exact absurd (h3 u _ hf).2.2 nofun
    · exact absurd (.askFails hf) (hs _)
    · simp only [yetToCome, session, docs_at hf, docOf, hu, touching]
      exact ⟨trivial, u, .inr (.inl rfl)⟩
    · exact absurd (h3 u _ hf).2.2 nofun
  | waiting u =>
    obtain ⟨⟨content, thread⟩, hf⟩ := Option.ne_none_iff_exists'.mp (show files u ≠ none from h4)
    rcases quiet u _ hf with ⟨t, e⟩ | ⟨t, r, e⟩ | e | ⟨t, e, hu⟩ | ⟨t, o, e, hp, hh⟩ <;> cases e
    · simp only [yetToCome, hf, awaited]
      exact ⟨trivial, u, .inl rfl⟩
    · exact absurd (.reply hf) (hs _)
    · exact absurd (.replyFails hf) (hs _)
    · exact absurd rfl (h3 u _ hf).2
    · obtain ⟨rfl, _, _⟩ := h3 u _ hf
      simp only [yetToCome, hf, awaited, session, docs_at hf, docOf, touching, hp, hh]
      exact ⟨trivial, u, .inl rfl⟩

/-! ### The number of steps -/

/-- The document that a message is about. -/
def DocMessage.uri : DocMessage → String
  | .event (.didOpen uri _) => uri
  | .event (.didChange uri _) => uri
  | .tokens uri => uri

/-- Steps that a thread has left without a call. -/
def threadLeft : Option (DocFile η) → Nat
  | some ⟨_, .parsing _⟩ => 1
  | some ⟨_, .highlighting _⟩ => 2
  | some ⟨_, .sending _ _⟩ => 1
  | _ => 0

/-- Steps that the handler has left with the message it has taken. -/
def doingLeft : Doing → Nat
  | .committing _ => 2
  | .asking _ => 4
  | .waiting _ => 1
  | _ => 0

/-- Steps that are left. -/
def allLeft (keys : List String) (s : Session η) : Nat := 5 * s.messages.length + doingLeft s.doing + (keys.map fun k => threadLeft (s.files k)).sum

theorem sum_put {keys : List String} (hk : keys.Nodup) {u : String} (hu : u ∈ keys) (files : String → Option (DocFile η)) (f : DocFile η) :
    (keys.map fun k => threadLeft (putFile files u f k)).sum + threadLeft (files u) = (keys.map fun k => threadLeft (files k)).sum + threadLeft (some f) := by
  induction keys with
  | nil => cases hu
  | cons k keys ih =>
    obtain ⟨hk1, hk2⟩ := List.nodup_cons.mp hk
    simp only [List.map_cons, List.sum_cons]
    by_cases e : u = k
    · subst e
      have : (keys.map fun k => threadLeft (putFile files u f k)) = keys.map fun k => threadLeft (files k) := by
        refine List.map_congr_left fun v hv => ?_
        rw [putFile_other _ _ fun h : v = u => hk1 (h ▸ hv)]
      rw [this, putFile_self]
      omega
    · have := ih hk2 (by simpa [e] using hu)
      rw [putFile_other files f (Ne.symm e)]
      omega

theorem step_left {keys : List String} (hk : keys.Nodup) {s s' : Session η} (hm : ∀ m ∈ s.messages, m.uri ∈ keys) (hf : ∀ u, s.files u ≠ none → u ∈ keys)
    (h : SessionStep parse highlight s s') :
    allLeft keys s' + 1 ≤ allLeft keys s ∧ (∀ m ∈ s'.messages, m.uri ∈ keys) ∧ ∀ u, s'.files u ≠ none → u ∈ keys := by
  have put : ∀ {files : String → Option (DocFile η)} {u : String} {f : DocFile η}, u ∈ keys → (∀ u, files u ≠ none → u ∈ keys) → ∀ v, putFile files u f v ≠ none → v ∈ keys := by
    intro files u f hu hf v hv
    by_cases e : v = u
    · exact e ▸ hu
    · rw [putFile_other _ _ e] at hv
      exact hf v hv
  have known : ∀ {files : String → Option (DocFile η)} {u : String} {f : DocFile η}, (∀ u, files u ≠ none → u ∈ keys) → files u = some f → u ∈ keys :=
    fun hf h => hf _ (by rw [h]; nofun)
  have change : ∀ {files : String → Option (DocFile η)} {u : String} {f g : DocFile η} {d d' : Doing} {ms : List DocMessage} {ans ans' : List (Answer η)},
      files u = some f → u ∈ keys → doingLeft d' + threadLeft (some g) + 1 ≤ doingLeft d + threadLeft (some f) →
      allLeft keys ⟨ms, putFile files u g, d', ans'⟩ + 1 ≤ allLeft keys ⟨ms, files, d, ans⟩ := by
    intro files u f g d d' ms ans ans' h hu hle
    have := sum_put hk hu files g
    rw [h] at this
    simp only [allLeft]
    omega
  cases h with
  | @opened uri text ms files answers =>
    have hu : uri ∈ keys := hm _ List.mem_cons_self
    refine ⟨?_, fun m h => hm m (List.mem_cons_of_mem _ h), put hu hf⟩
    have := sum_put hk hu files ⟨text, .parsing []⟩
    simp only [allLeft, doingLeft, List.length_cons, threadLeft] at this ⊢
    omega
  | @changed uri changes ms files answers file hfile =>
    have hu : uri ∈ keys := hm _ List.mem_cons_self
    refine ⟨?_, fun m h => hm m (List.mem_cons_of_mem _ h), put hu hf⟩
    have := sum_put hk hu files ⟨changes.foldl applyChange file.content, file.thread⟩
    have e : threadLeft (some ⟨changes.foldl applyChange file.content, file.thread⟩) = threadLeft (files uri) := by
      rw [hfile]
      obtain ⟨content, thread⟩ := file
      cases thread <;> rfl
    simp only [allLeft, doingLeft, List.length_cons] at this ⊢
    omega
  | unchanged | asked | unknown =>
    refine ⟨?_, fun m h => hm m (List.mem_cons_of_mem _ h), hf⟩
    simp only [allLeft, doingLeft, List.length_cons]
    omega
  | commitFails | askFails | replyFails =>
    refine ⟨?_, hm, hf⟩
    simp only [allLeft, doingLeft]
    omega
  | committed hfile | ask hfile | reply hfile =>
    have hu := known hf hfile
    exact ⟨change hfile hu (by simp [doingLeft, threadLeft]), hm, put hu hf⟩
  | parsed hfile _ | parsePanics hfile _ _ | highlighted hfile _ _ | skipped hfile _ | highlightPanics hfile _ _ _ =>
    have hu := known hf hfile
    exact ⟨change hfile hu (by simp only [threadLeft]; omega), hm, put hu hf⟩

/-- There are at most five steps per message, whatever the threads do: every session comes to its end. -/
theorem C96_terminates {ms : List DocMessage} {n : Nat} {s : Session η} (h : SessionSteps parse highlight n (Session.new ms) s) : n ≤ 5 * ms.length := by
  suffices n + allLeft (ms.map DocMessage.uri).dedup s ≤ 5 * ms.length ∧ (∀ m ∈ s.messages, m.uri ∈ (ms.map DocMessage.uri).dedup) ∧
      ∀ u, s.files u ≠ none → u ∈ (ms.map DocMessage.uri).dedup by omega
  generalize hz : (Session.new ms : Session η) = z at h
  induction h with
  | refl =>
    subst hz
    refine ⟨?_, fun m hm => List.mem_dedup.mpr (List.mem_map_of_mem hm), fun u hu => absurd rfl hu⟩
    have : ∀ keys : List String, (keys.map fun _ => threadLeft (none : Option (DocFile η))).sum = 0 := by
      intro keys
      induction keys with
      | nil => rfl
      | cons k keys ih => simp only [List.map_cons, List.sum_cons, ih]; rfl
    simp only [allLeft, Session.new, doingLeft, this]
    omega
  | tail _ h2 ih =>
    obtain ⟨i1, i2, i3⟩ := ih hz
    obtain ⟨j1, j2, j3⟩ := step_left (List.nodup_dedup _) i2 i3 h2
    exact ⟨by omega, j2, j3⟩

end Hdx.Lsp

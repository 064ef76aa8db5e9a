/-
Property C97: what `csskit lsp` writes to stdout, and when it ends, for every schedule of its threads.
-/
import Verif.Model.Lsp.Threads
import Verif.Props.LspServer

namespace Hdx.Lsp

/-- The responses among some messages. -/
def responsesOf (ms : List Message) : List Message := ms.filter fun | .response _ => true | _ => false

/-- A message is a log notification. -/
def IsLog : Message → Prop
  | .notification n => n.method = "window/logMessage" ∨ n.method = "$/logTrace"
  | _ => False

/-- A message is the notification that sets the trace level. -/
def SetsTrace : Message → Prop
  | .notification n => n.method = "$/setTrace"
  | _ => False

theorem responsesOf_response {m : Message} (hm : IsResponse m) : responsesOf [m] = [m] := by
  cases m <;> first | rfl | exact hm.elim

theorem responsesOf_log {m : Message} (hm : IsLog m) : responsesOf [m] = [] := by
  cases m <;> first | rfl | exact hm.elim

theorem responsesOf_append (a b : List Message) : responsesOf (a ++ b) = responsesOf a ++ responsesOf b := List.filter_append ..

/-- What is left to be written of the replies: that of the writer, that of the handler, and those of the messages to come. -/
def writerLeft : WriterThread → List Message
  | .receiving => []
  | .writing m => responsesOf [m]
  | .failed m => responsesOf [m]

def stillToRead : ReaderThread → List Message → List Message
  | .reading, ms => ms
  | .sending m, ms => m :: ms
  | .done, ms => ms

def handlerLeft {σ : Type} (h : Handler σ) : HandlerThread σ → List Message → List Message
  | .receiving s, ms => h.replies ms s
  | .handling m s, ms => h.replies (m :: ms) s
  | .replying m s, ms => m :: h.replies ms s
  | .closed, _ => []

/-- The invariant of the executions. -/
structure ProcessInv {σ : Type} (h : Handler σ) (ms : List Message) (ends : Bool) (s₀ : σ) (p : LspProcess σ) : Prop where
  replies : h.replies ms s₀ = responsesOf p.output ++ writerLeft p.writer ++ handlerLeft h p.handler (stillToRead p.reader p.input)
  kinds : ∀ m ∈ p.output, IsResponse m ∨ IsLog m
  writing : ∀ m, p.writer = .writing m ∨ p.writer = .failed m → IsResponse m ∨ IsLog m
  replying : ∀ m s, p.handler = .replying m s → IsResponse m
  handling : ∀ m s, p.handler = .handling m s → m.isExitNotification = false
  done : p.reader = .done → p.input = [] ∧ ends = true
  ending : p.ends = ends
  over : p.exited = true → p.reader = .done
  closed : p.handler = .closed → ∃ before m after, ms = before ++ m :: after ∧ m.isExitNotification = true ∧ (∀ x ∈ before, x.isExitNotification = false) ∧
    stillToRead p.reader p.input = after
  live : p.handler ≠ .closed → ∃ before, ms = before ++ stillToRead p.reader p.input ∧ ∀ x ∈ before, x.isExitNotification = false

theorem handle_isResponse {σ : Type} (h : Handler σ) (m : Message) (s : σ) {r : Message} (hr : (h.handle m s).reply = some r) : IsResponse r := by
  revert hr
  unfold Handler.handle
  split
  · exact nofun
  · split
    · exact nofun
    · simp only
      split
      · split
        · intro hr; cases hr; exact trivial
        · intro hr; cases hr; exact (fromResult_id _ _).2
      · split
        · split <;> exact nofun
        · split
          · intro hr; cases hr; exact trivial
          · exact nofun

theorem EventLevel.isLog (e : EventLevel) (params : Json) : IsLog (.notification ⟨e.method, params⟩) := by
  cases e <;> first | exact .inl rfl | exact .inr rfl

theorem processInv_start {σ : Type} (h : Handler σ) (ms : List Message) (ends : Bool) (s : σ) : ProcessInv h ms ends s (LspProcess.start ms ends s) where
  replies := rfl
  kinds := nofun
  writing := nofun
  replying := nofun
  handling := nofun
  done := nofun
  ending := rfl
  over := nofun
  closed := nofun
  live := fun _ => ⟨[], rfl, nofun⟩

theorem processInv_step {σ : Type} {h : Handler σ} {ms : List Message} {ends : Bool} {s₀ : σ} {p q : LspProcess σ} (hp : ProcessInv h ms ends s₀ p)
    (hs : ProcessStep h p q) : ProcessInv h ms ends s₀ q := by
  cases hs with
  | read => exact ⟨hp.replies, hp.kinds, hp.writing, hp.replying, hp.handling, nofun, hp.ending, nofun, hp.closed, hp.live⟩
  | finished => exact ⟨hp.replies, hp.kinds, hp.writing, hp.replying, hp.handling, fun _ => ⟨rfl, hp.ending.symm⟩, hp.ending, nofun, hp.closed, hp.live⟩
  | exits => exact ⟨hp.replies, hp.kinds, hp.writing, hp.replying, hp.handling, hp.done, hp.ending, fun _ => rfl, hp.closed, hp.live⟩
  | takes hm =>
    refine ⟨hp.replies, hp.kinds, hp.writing, nofun, ?_, nofun, hp.ending, nofun, nofun, fun _ => ?_⟩
    · rintro m s ⟨⟩; exact hm
    · obtain ⟨before, e, hb⟩ := hp.live nofun
      refine ⟨before ++ [_], by rw [e]; simp [stillToRead]; rfl, ?_⟩
      intro x hx
      rcases List.mem_append.mp hx with hx | hx
      · exact hb x hx
      · rw [List.mem_singleton.mp hx]; exact hm
  | closes hm =>
    refine ⟨?_, hp.kinds, hp.writing, nofun, nofun, nofun, hp.ending, nofun, fun _ => ?_, fun hx => absurd rfl hx⟩
    · have := hp.replies
      simp only [handlerLeft, stillToRead, Handler.replies, Handler.serve, hm, if_true, List.filterMap_nil] at this ⊢
      exact this
    · obtain ⟨before, e, hb⟩ := hp.live nofun
      exact ⟨before, _, _, e, hm, hb, rfl⟩
  | @handled m _ _ _ s _ _ _ hr =>
    refine ⟨?_, hp.kinds, hp.writing, nofun, nofun, hp.done, hp.ending, hp.over, nofun, fun _ => hp.live nofun⟩
    have := hp.replies
    simp only [handlerLeft, Handler.replies, Handler.serve, hp.handling m s rfl, Bool.false_eq_true, if_false, List.filterMap_cons, hr] at this ⊢
    exact this
  | @answered m _ _ _ _ s _ _ _ hr =>
    refine ⟨?_, hp.kinds, hp.writing, ?_, nofun, hp.done, hp.ending, hp.over, nofun, fun _ => hp.live nofun⟩
    · have := hp.replies
      simp only [handlerLeft, Handler.replies, Handler.serve, hp.handling m s rfl, Bool.false_eq_true, if_false, List.filterMap_cons, hr] at this ⊢
      exact this
    · rintro m' s' ⟨⟩; exact handle_isResponse h m s hr
  | @replies reply _ _ _ s =>
    have hr := hp.replying reply s rfl
    refine ⟨?_, hp.kinds, ?_, nofun, nofun, hp.done, hp.ending, hp.over, nofun, fun _ => hp.live nofun⟩
    · have := hp.replies
      simp only [handlerLeft, writerLeft, responsesOf_response hr] at this ⊢
      rw [this]; simp
    · rintro m (h' | h') <;> cases h'
      exact .inl hr
  | @writes m =>
    have hk := hp.writing m (.inl rfl)
    refine ⟨?_, ?_, nofun, hp.replying, hp.handling, hp.done, hp.ending, hp.over, hp.closed, hp.live⟩
    · have := hp.replies
      simp only [writerLeft, responsesOf_append] at this ⊢
      rw [this]; simp
    · intro x hx
      rcases List.mem_append.mp hx with hx | hx
      · exact hp.kinds x hx
      · rw [List.mem_singleton.mp hx]; exact hk
  | @fails m =>
    have hk := hp.writing m (.inl rfl)
    refine ⟨hp.replies, hp.kinds, ?_, hp.replying, hp.handling, hp.done, hp.ending, hp.over, hp.closed, hp.live⟩
    rintro x (h' | h') <;> cases h'
    exact hk

theorem processInv_log {σ : Type} {h : Handler σ} {ms : List Message} {ends : Bool} {s₀ : σ} {p q : LspProcess σ} (hp : ProcessInv h ms ends s₀ p)
    (hs : LogStep p q) : ProcessInv h ms ends s₀ q := by
  cases hs with
  | log e params he =>
    have hl := EventLevel.isLog e params
    refine ⟨?_, hp.kinds, ?_, hp.replying, hp.handling, hp.done, hp.ending, hp.over, hp.closed, hp.live⟩
    · have := hp.replies
      simp only [writerLeft, responsesOf_log hl] at this ⊢
      exact this
    · rintro m (h' | h') <;> cases h'
      exact .inr hl

theorem processInv {σ : Type} {h : Handler σ} {ms : List Message} {ends : Bool} {s : σ} {n k : Nat} {p : LspProcess σ}
    (he : Execution h (LspProcess.start ms ends s) n k p) : ProcessInv h ms ends s p := by
  generalize hq : LspProcess.start ms ends s = q at he
  induction he with
  | here => rw [← hq]; exact processInv_start h ms ends s
  | step _ hs ih => exact processInv_step ih hs
  | logs _ hs ih => exact processInv_log ih hs

/-! ## What is written -/

/-- For every schedule of the threads, every point of it and every trace level: the responses written so far are a prefix of the
replies, in order; everything else that is written is a log notification. -/
theorem C97_in_order {σ : Type} (h : Handler σ) (ms : List Message) (ends : Bool) (s : σ) (n k : Nat) (p : LspProcess σ)
    (he : Execution h (LspProcess.start ms ends s) n k p) :
    responsesOf p.output <+: h.replies ms s ∧ ∀ m ∈ p.output, IsResponse m ∨ IsLog m := by
  have hp := processInv he
  exact ⟨⟨_, by rw [hp.replies, List.append_assoc]⟩, hp.kinds⟩

/-- Without `$/setTrace`, nothing but responses is written. -/
theorem C97_quiet {σ : Type} (h : Handler σ) (ms : List Message) (hms : ∀ m ∈ ms, ¬ SetsTrace m) (ends : Bool) (s : σ) (n k : Nat) (p : LspProcess σ)
    (he : Execution h (LspProcess.start ms ends s) n k p) : k = 0 ∧ p.output <+: h.replies ms s := by
  have key : k = 0 ∧ p.level = .off ∧ (∀ m ∈ p.output, IsResponse m) ∧ (∀ m, p.writer = .writing m → IsResponse m) := by
    generalize hq : LspProcess.start ms ends s = q at he
    induction he with
    | here => rw [← hq]; exact ⟨rfl, rfl, nofun, nofun⟩
    | step hx hs ih =>
      have hp := processInv (h := h) (ms := ms) (ends := ends) (s := s) (hq ▸ hx)
      obtain ⟨h1, h2, h3, h4⟩ := ih
      refine ⟨h1, ?_⟩
      cases hs with
      | @takes m _ _ s _ _ _ hm =>
        refine ⟨?_, h3, h4⟩
        obtain ⟨before, e, _⟩ := hp.live nofun
        have hin : m ∈ ms := by rw [e]; simp [stillToRead]
        have := hms m hin
        cases m with
        | notification n =>
          have hne : (n.method == "$/setTrace") = false := by simpa [SetsTrace] using this
          simpa [levelAfter, hne] using h2
        | _ => exact h2
      | replies => exact ⟨h2, h3, by rintro m ⟨⟩; exact hp.replying _ _ rfl⟩
      | @writes m =>
        refine ⟨h2, ?_, nofun⟩
        intro x hx
        rcases List.mem_append.mp hx with hx | hx
        · exact h3 x hx
        · rw [List.mem_singleton.mp hx]; exact h4 m rfl
      | fails => exact ⟨h2, h3, nofun⟩
      | _ => exact ⟨h2, h3, h4⟩
    | logs _ hs ih =>
      obtain ⟨_, h2, _, _⟩ := ih
      cases hs with
      | log e params he => have h2 : _ = TraceLevel.off := h2; subst h2; cases he
  refine ⟨key.1, ?_⟩
  have := (C97_in_order h ms ends s n k p he).1
  have e : responsesOf p.output = p.output := by
    refine List.filter_eq_self.mpr fun m hm => ?_
    have := key.2.2.1 m hm
    cases m <;> first | rfl | exact this.elim
  rwa [e] at this

/-- What the parameters of `$/setTrace` mean. -/
theorem C97_trace_values : traceLevelOf (.obj [("value", .str "off")]) = .off ∧ traceLevelOf (.obj [("value", .str "messages")]) = .warn ∧
    traceLevelOf (.obj [("value", .str "verbose")]) = .trace ∧
    ∀ s, s ≠ "messages" → s ≠ "verbose" → traceLevelOf (.obj [("value", .str s)]) = .off := by
  refine ⟨rfl, rfl, rfl, fun s h1 h2 => ?_⟩
  have e : structFields 1 ["value"] (.obj [("value", .str s)]) = .ok [some (.str s)] := rfl
  simp only [traceLevelOf, e, traceValueOfJson]
  split <;> simp_all

/-- A `$/logTrace` notification is written only after the trace value was set to `verbose`; a log notification of any kind only after
it was set to something other than `off`. -/
theorem C97_level {σ : Type} (h : Handler σ) (ms : List Message) (ends : Bool) (s : σ) (n k : Nat) (p : LspProcess σ)
    (he : Execution h (LspProcess.start ms ends s) n k p) (log : Notification) (hl : Message.notification log ∈ p.output) :
    (∃ set, Message.notification set ∈ ms ∧ set.method = "$/setTrace" ∧ traceLevelOf set.params ≠ .off) ∧
    (log.method = "$/logTrace" → ∃ set, Message.notification set ∈ ms ∧ set.method = "$/setTrace" ∧ traceLevelOf set.params = .trace) := by
  have key : (p.level ≠ .off → ∃ set, Message.notification set ∈ ms ∧ set.method = "$/setTrace" ∧ traceLevelOf set.params = p.level) ∧
      ∀ log, (Message.notification log ∈ p.output ∨ p.writer = .writing (.notification log)) →
        (∃ set, Message.notification set ∈ ms ∧ set.method = "$/setTrace" ∧ traceLevelOf set.params ≠ .off) ∧
        (log.method = "$/logTrace" → ∃ set, Message.notification set ∈ ms ∧ set.method = "$/setTrace" ∧ traceLevelOf set.params = .trace) := by
    generalize hq : LspProcess.start ms ends s = q at he
    clear hl log
    induction he with
    | here => rw [← hq]; exact ⟨fun h => absurd rfl h, by rintro log (h | h) <;> cases h⟩
    | step hx hs ih =>
      have hp := processInv (h := h) (ms := ms) (ends := ends) (s := s) (hq ▸ hx)
      obtain ⟨h1, h2⟩ := ih
      cases hs with
      | @takes m _ _ s _ l _ hm =>
        refine ⟨?_, h2⟩
        obtain ⟨before, e, _⟩ := hp.live nofun
        have hin : m ∈ ms := by rw [e]; simp [stillToRead]
        cases m with
        | notification n =>
          cases hne : n.method == "$/setTrace" with
          | true => exact fun _ => ⟨n, hin, by simpa using hne, by simp [levelAfter, hne]⟩
          | false => simpa [levelAfter, hne] using h1
        | _ => exact h1
      | replies =>
        refine ⟨h1, ?_⟩
        rintro log (hl | hl)
        · exact h2 log (.inl hl)
        · cases hl; exact (hp.replying _ _ rfl).elim
      | @writes m =>
        refine ⟨h1, ?_⟩
        rintro log (hl | hl)
        · rcases List.mem_append.mp hl with hl | hl
          · exact h2 log (.inl hl)
          · exact h2 log (.inr (by rw [List.mem_singleton.mp hl]))
        · cases hl
      | fails => exact ⟨h1, fun log hl => h2 log (hl.imp id nofun)⟩
      | _ => exact ⟨h1, h2⟩
    | logs _ hs ih =>
      obtain ⟨h1, h2⟩ := ih
      cases hs with
      | @log _ _ _ _ l _ e params he =>
        refine ⟨h1, ?_⟩
        rintro log (hl | hl)
        · exact h2 log (.inl hl)
        · cases hl
          have hne : l ≠ .off := by rintro rfl; cases he
          obtain ⟨set, a1, a2, a3⟩ := h1 hne
          refine ⟨⟨set, a1, a2, by rw [a3]; exact hne⟩, fun hm => ⟨set, a1, a2, ?_⟩⟩
          rw [a3]
          change l = .trace
          cases l <;> first | rfl | exact absurd rfl hne | (cases e <;> first | exact absurd he (by decide) | exact absurd (show "window/logMessage" = "$/logTrace" from hm) (by decide))
  exact key.2 log (.inl hl)

/-- At the end of the process, as long as stdout could be written, at most two replies are lost: that which the writer held and that
of the last message. -/
theorem C97_lost_partial {σ : Type} (h : Handler σ) (ms : List Message) (ends : Bool) (s : σ) (n k : Nat) (p : LspProcess σ)
    (he : Execution h (LspProcess.start ms ends s) n k p) (hx : p.exited = true) :
    ∃ lost, h.replies ms s = responsesOf p.output ++ lost ∧ lost.length ≤ 2 := by
  have hp := processInv he
  refine ⟨_, by rw [hp.replies, List.append_assoc], ?_⟩
  have hd := hp.over hx
  have hw : (writerLeft p.writer).length ≤ 1 := by
    cases p.writer <;> simp only [writerLeft, List.length_nil, Nat.zero_le, responsesOf] <;> exact List.length_filter_le _ [_]
  have hh : (handlerLeft h p.handler (stillToRead p.reader p.input)).length ≤ 1 := by
    rw [hd, (hp.done hd).1]
    cases hq : p.handler with
    | receiving s => simp [handlerLeft, stillToRead, Handler.replies, Handler.serve]
    | handling m s =>
      simp only [handlerLeft, stillToRead, Handler.replies, Handler.serve]
      split
      · simp
      · exact List.length_filterMap_le _ [_]
    | replying m s => simp [handlerLeft, stillToRead, Handler.replies, Handler.serve]
    | closed => simp [handlerLeft]
  rw [List.length_append]
  omega

/-! ## When nothing happens any more -/

/-- A process is at rest: no thread can take a step (the events that are logged are steps of threads, too). -/
def AtRest {σ : Type} (h : Handler σ) (p : LspProcess σ) : Prop := ∀ q, ¬ ProcessStep h p q

/-- How a process comes to rest: it is over; or the client keeps stdin open, and every message before `exit` was handled; or a message
follows `exit`; or stdout cannot be written. -/
theorem C97_rest {σ : Type} (h : Handler σ) (ms : List Message) (ends : Bool) (s : σ) (n k : Nat) (p : LspProcess σ)
    (he : Execution h (LspProcess.start ms ends s) n k p) (hr : AtRest h p) :
    (p.exited = true ∧ ends = true) ∨
    (p.exited = false ∧ ((∃ m, p.writer = .failed m) ∨
      (responsesOf p.output = h.replies ms s ∧
        (ends = false ∨ ∃ before m next after, ms = before ++ m :: next :: after ∧ m.isExitNotification = true)))) := by
  have hp := processInv he
  obtain ⟨input, ends', reader, ht, w, l, out, exited⟩ := p
  have hends : ends' = ends := hp.ending
  subst hends
  cases exited with
  | true => exact .inl ⟨rfl, (hp.done (hp.over rfl)).2⟩
  | false =>
    refine .inr ⟨rfl, ?_⟩
    cases w with
    | failed m => exact .inl ⟨m, rfl⟩
    | writing m => exact absurd ProcessStep.writes (hr _)
    | receiving =>
      refine .inr ?_
      have e := hp.replies
      simp only [writerLeft, List.append_nil] at e
      cases ht with
      | handling m s =>
        cases hm : (h.handle m s).reply with
        | none => exact absurd (ProcessStep.handled hm) (hr _)
        | some r => exact absurd (ProcessStep.answered hm) (hr _)
      | replying m s => exact absurd ProcessStep.replies (hr _)
      | receiving s =>
        cases reader with
        | done => exact absurd ProcessStep.exits (hr _)
        | sending m =>
          cases hm : m.isExitNotification with
          | true => exact absurd (ProcessStep.closes hm) (hr _)
          | false => exact absurd (ProcessStep.takes hm) (hr _)
        | reading =>
          cases input with
          | cons m ms => exact absurd ProcessStep.read (hr _)
          | nil =>
            cases ends' with
            | true => exact absurd ProcessStep.finished (hr _)
            | false => exact ⟨by rw [e]; simp [handlerLeft, stillToRead, Handler.replies, Handler.serve], .inl rfl⟩
      | closed =>
        obtain ⟨before, m, after, e1, e2, _, e4⟩ := hp.closed rfl
        have e' : h.replies ms s = responsesOf out := by rw [e]; simp [handlerLeft]
        cases reader with
        | done => exact absurd ProcessStep.exits (hr _)
        | sending x => exact ⟨e'.symm, .inr ⟨before, m, x, input, by rw [e1, ← e4]; rfl, e2⟩⟩
        | reading =>
          cases input with
          | cons m ms => exact absurd ProcessStep.read (hr _)
          | nil =>
            cases ends' with
            | true => exact absurd ProcessStep.finished (hr _)
            | false => exact ⟨e'.symm, .inl rfl⟩

/-- What is left to do. -/
def weighReader : ReaderThread → Nat
  | .reading => 1
  | .sending _ => 5
  | .done => 0

def weighHandler {σ : Type} : HandlerThread σ → Nat
  | .receiving _ => 0
  | .handling _ _ => 3
  | .replying _ _ => 2
  | .closed => 0

def weighWriter : WriterThread → Nat
  | .receiving => 0
  | .writing _ => 1
  | .failed _ => 0

def LspProcess.weigh {σ : Type} (p : LspProcess σ) : Nat :=
  5 * p.input.length + weighReader p.reader + weighHandler p.handler + weighWriter p.writer + if p.exited then 0 else 1

/-- Every schedule comes to rest: the threads take a bounded number of steps, beside one for each log notification. -/
theorem C97_terminates {σ : Type} (h : Handler σ) (ms : List Message) (ends : Bool) (s : σ) (n k : Nat) (p : LspProcess σ)
    (he : Execution h (LspProcess.start ms ends s) n k p) : n ≤ 5 * ms.length + 2 + k := by
  have key : n + p.weigh ≤ 5 * ms.length + 2 + k := by
    generalize hq : LspProcess.start ms ends s = q at he
    induction he with
    | here => rw [← hq]; simp [LspProcess.weigh, LspProcess.start, weighReader, weighHandler, weighWriter]
    | step _ hs ih =>
      cases hs <;> simp only [LspProcess.weigh, weighReader, weighHandler, weighWriter, List.length_cons, Bool.false_eq_true, if_false, if_true] at ih ⊢ <;> omega
    | logs _ hs ih =>
      cases hs
      simp only [LspProcess.weigh, weighWriter] at ih ⊢
      omega
  omega

/-! ## `exit` -/

/-- The process is over only if stdin was closed, and no message followed `exit`. -/
theorem C97_exit {σ : Type} (h : Handler σ) (ms : List Message) (ends : Bool) (s : σ) (n k : Nat) (p : LspProcess σ)
    (he : Execution h (LspProcess.start ms ends s) n k p) (hx : p.exited = true) :
    ends = true ∧ ∀ before m after, ms = before ++ m :: after → m.isExitNotification = true → after = [] := by
  have hp := processInv he
  have hd := hp.over hx
  obtain ⟨hi, hends⟩ := hp.done hd
  refine ⟨hends, ?_⟩
  rintro before m after e hm
  by_cases hc : p.handler = .closed
  · obtain ⟨before', m', after', e1, e2, e3, e4⟩ := hp.closed hc
    rw [hd, hi] at e4
    have e4 : ([] : List Message) = after' := e4
    subst e4
    rw [e1] at e
    rcases List.append_eq_append_iff.mp e with ⟨l, e5, e6⟩ | ⟨l, e5, e6⟩
    · cases l with
      | nil => simp at e6; exact e6.2
      | cons x l => simp at e6
    · cases l with
      | nil => simp at e6; exact e6.2
      | cons x l =>
        simp at e6
        have := e3 m (by rw [e5, e6.1]; simp)
        rw [this] at hm
        cases hm
  · obtain ⟨before', e1, e2⟩ := hp.live hc
    rw [hd, hi] at e1
    have := e2 m (by simp [stillToRead] at e1; rw [← e1, e]; simp)
    rw [this] at hm
    cases hm

/-- If `exit` is the last message, at most one reply is lost. -/
theorem C97_lost_exit_partial {σ : Type} (h : Handler σ) (ms : List Message) (m : Message) (hm : m.isExitNotification = true) (ends : Bool) (s : σ)
    (n k : Nat) (p : LspProcess σ) (he : Execution h (LspProcess.start (ms ++ [m]) ends s) n k p) (hx : p.exited = true) :
    ∃ lost, h.replies (ms ++ [m]) s = responsesOf p.output ++ lost ∧ lost.length ≤ 1 := by
  have hp := processInv he
  have hd := hp.over hx
  obtain ⟨hi, _⟩ := hp.done hd
  have hc : p.handler = .closed := by
    refine Classical.byContradiction fun hc => ?_
    obtain ⟨before', e1, e2⟩ := hp.live hc
    rw [hd, hi] at e1
    have := e2 m (by simp [stillToRead] at e1; rw [← e1]; simp)
    rw [this] at hm
    cases hm
  refine ⟨_, by rw [hp.replies, List.append_assoc], ?_⟩
  rw [hc]
  simp only [handlerLeft, List.append_nil]
  cases p.writer <;> simp only [writerLeft, List.length_nil, Nat.zero_le, responsesOf] <;> exact List.length_filter_le _ [_]

/-! ## Replies that are lost -/

/-- Two requests. -/
def twoRequests : List Message := [.request ⟨.number 1, "initialize", .int 5⟩, .request ⟨.number 2, "shutdown", .int 6⟩]

/-- A client that sends two requests and closes stdin may get no response at all: the process ends while the writer is writing and the
handler is waiting. -/
theorem C97_counterexample_lost :
    (∃ n p, Execution echo (LspProcess.start twoRequests true (false, ())) n 0 p ∧ p.exited = true ∧ p.output = []) ∧
    (echo.replies twoRequests (false, ())).length = 2 := by
  have x0 := Execution.here (h := echo) (LspProcess.start twoRequests true (false, ()))
  have x1 := x0.step .read
  have x2 := x1.step (.takes rfl)
  have x3 := x2.step .read
  have x4 := x3.step (.answered (reply := .response (.ok (.number 1) (.int 5))) rfl)
  have x5 := x4.step .replies
  have x6 := x5.step (.takes rfl)
  have x7 := x6.step (.answered (reply := .response (.ok (.number 2) (.int 6))) rfl)
  have x8 := x7.step .finished
  have x9 := x8.step .exits
  exact ⟨⟨_, _, x9, rfl, rfl⟩, by decide⟩

/-- A client that sends a request and `exit`, and keeps stdin open, gets its response, and the process does not end; neither does it
if a message follows `exit` (`C97_exit`). -/
theorem C97_counterexample_exit :
    ∃ n p, Execution echo (LspProcess.start [.request ⟨.number 1, "initialize", .int 5⟩, .notification ⟨"exit", .null⟩] false (false, ())) n 0 p ∧ AtRest echo p ∧
      p.exited = false ∧ p.output = [.response (.ok (.number 1) (.int 5))] := by
  have x0 := Execution.here (h := echo) (LspProcess.start [.request ⟨.number 1, "initialize", .int 5⟩, .notification ⟨"exit", .null⟩] false (false, ()))
  have x1 := x0.step .read
  have x2 := x1.step (.takes rfl)
  have x3 := x2.step (.answered (reply := .response (.ok (.number 1) (.int 5))) rfl)
  have x4 := x3.step .replies
  have x5 := x4.step .writes
  have x6 := x5.step .read
  have x7 := x6.step (.closes rfl)
  exact ⟨_, _, x7, (fun q hq => by cases hq), rfl, rfl⟩

/-- The theorems are not about nothing: an execution with a log notification between two responses, and its end. -/
example : ∃ n p, Execution echo (LspProcess.start [.request ⟨.number 1, "initialize", .int 5⟩, .notification ⟨"$/setTrace", .obj [("value", .str "verbose")]⟩] true (false, ())) n 1 p ∧
    p.exited = true ∧ p.output = [.response (.ok (.number 1) (.int 5)), .notification ⟨"$/logTrace", .int 3⟩] := by
  have x0 := Execution.here (h := echo) (LspProcess.start [.request ⟨.number 1, "initialize", .int 5⟩, .notification ⟨"$/setTrace", .obj [("value", .str "verbose")]⟩] true (false, ()))
  have x1 := x0.step .read
  have x2 := x1.step (.takes rfl)
  have x3 := x2.step (.answered (reply := .response (.ok (.number 1) (.int 5))) rfl)
  have x4 := x3.step .replies
  have x5 := x4.step .writes
  have x6 := x5.step .read
  have x7 := x6.step (.takes rfl)
  have x8 := x7.logs (.log .debug (.int 3) rfl)
  have x9 := x8.step .writes
  have x10 := x9.step .finished
  have x11 := x10.step .exits
  exact ⟨_, _, x11, rfl, rfl⟩

end Hdx.Lsp

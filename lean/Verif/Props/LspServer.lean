/-
Properties C43 (replies) and C44 (initialisation) of the language server.
-/
import Verif.Model.Lsp.Server

namespace Hdx.Lsp

/-! ## C43 Replies -/

/-- Messages that use the names of the protocol as it intends: no request has the method of a notification, no notification the
method of a request. -/
def WellNamed : Message → Prop
  | .request r => r.method ∉ notificationMethods
  | .notification n => n.method ∉ requestMethods
  | .response _ => True

instance (m : Message) : Decidable (WellNamed m) := by unfold WellNamed; split <;> infer_instance

/-- The reply is a response. -/
def IsResponse : Message → Prop
  | .response _ => True
  | _ => False

theorem fromResult_id (id : Id) (r : Except ErrorCode Json) : (Message.fromResult id r).id = some id ∧ IsResponse (Message.fromResult id r) := by
  cases r <;> exact ⟨rfl, trivial⟩

/-- Whatever the handler does, a well-named request that comes after initialisation (or is the `initialize` request) gets exactly one
reply: a response with the request's id. -/
theorem C43_request_partial {σ : Type} (h : Handler σ) (s : σ) (r : Request) (hn : WellNamed (.request r))
    (hi : h.initialized s = true ∨ r.method = "initialize") :
    ∃ m, (h.handle (.request r) s).reply = some m ∧ IsResponse m ∧ m.id = some r.id := by
  unfold Handler.handle
  have hinit : (!h.initialized s && !(Message.request r).isInitializeRequest) = false := by
    rcases hi with hi | hi
    · simp [hi]
    · simp [Message.isInitializeRequest, hi]
  split
  · rename_i h; simp [Message.isExitNotification] at h
  · split
    · rename_i hx; rw [hinit] at hx; cases hx
    · simp only
      split
      · split
        · exact ⟨_, rfl, trivial, rfl⟩
        · exact ⟨_, rfl, (fromResult_id _ _).2, (fromResult_id _ _).1⟩
      · split
        · rename_i hc
          exact absurd (List.contains_iff_mem.mp hc) hn
        · exact ⟨_, rfl, trivial, rfl⟩

/-- A well-named notification gets no reply. -/
theorem C43_notification_partial {σ : Type} (h : Handler σ) (s : σ) (n : Notification) (hn : WellNamed (.notification n)) :
    (h.handle (.notification n) s).reply = none := by
  unfold Handler.handle
  split
  · rfl
  · split
    · rfl
    · simp only
      split
      · rename_i hc
        exact absurd (List.contains_iff_mem.mp hc) hn
      · split
        · split <;> rfl
        · rfl

/-- A response gets no reply and runs nothing. -/
theorem C54_response {σ : Type} (h : Handler σ) (s : σ) (r : Response) :
    (h.handle (.response r) s).reply = none ∧ (h.handle (.response r) s).ran = none ∧ (h.handle (.response r) s).state = s := by
  have h1 : requestMethods.contains "" = false := by decide
  have h2 : notificationMethods.contains "" = false := by decide
  unfold Handler.handle
  simp only [Message.method, Option.getD_none, h1, h2, Bool.false_eq_true, if_false]
  split
  · exact ⟨rfl, rfl, rfl⟩
  · split <;> exact ⟨rfl, rfl, rfl⟩

/-- The ids of the requests among the messages before `exit`. -/
def requestIds : List Message → List Id
  | [] => []
  | .request r :: ms => r.id :: requestIds ms
  | .notification n :: ms => if n.method = "exit" then [] else requestIds ms
  | .response _ :: ms => requestIds ms

theorem handle_state {σ : Type} (h : Handler σ) (m : Message) (s : σ) :
    (h.handle m s).state = s ∨ ∃ method r, h.call method m.value s = some ((h.handle m s).state, r) := by
  unfold Handler.handle
  split
  · exact .inl rfl
  · split
    · exact .inl rfl
    · simp only
      split
      · cases hc : h.call (m.method.getD "") m.value s with
        | none => exact .inl rfl
        | some x => exact .inr ⟨_, x.2, by rw [hc]⟩
      · split
        · cases hc : h.call (m.method.getD "") m.value s with
          | none => exact .inl rfl
          | some x => exact .inr ⟨_, x.2, by rw [hc]⟩
        · split <;> exact .inl rfl

/-- Once initialised, a server whose handler stays initialised answers any history of well-named messages with exactly one response
per request before `exit`, in the order of the requests and with their ids, and sends nothing else. -/
theorem C43_history_partial {σ : Type} (h : Handler σ) (hk : ∀ method params s s' r, h.initialized s = true → h.call method params s = some (s', r) → h.initialized s' = true)
    (ms : List Message) (hn : ∀ m ∈ ms, WellNamed m) (s : σ) (hs : h.initialized s = true) :
    (h.replies ms s).map Message.id = (requestIds ms).map some ∧ ∀ m ∈ h.replies ms s, IsResponse m := by
  induction ms generalizing s with
  | nil => exact ⟨rfl, by simp [Handler.replies, Handler.serve]⟩
  | cons m ms ih =>
    have hs' : h.initialized (h.handle m s).state = true := by
      rcases handle_state h m s with e | ⟨_, _, e⟩
      · rw [e]; exact hs
      · exact hk _ _ _ _ _ hs e
    obtain ⟨ih1, ih2⟩ := ih (fun x hx => hn x (by simp [hx])) _ hs'
    have hm := hn m (by simp)
    match m with
    | .request r =>
      obtain ⟨x, e1, e2, e3⟩ := C43_request_partial h s r hm (.inl hs)
      have e : h.replies (.request r :: ms) s = x :: h.replies ms (h.handle (.request r) s).state := by
        simp [Handler.replies, Handler.serve, Message.isExitNotification, e1]
      rw [e]
      refine ⟨by simp [e3, ih1, requestIds], ?_⟩
      intro y hy
      rcases List.mem_cons.mp hy with rfl | hy
      · exact e2
      · exact ih2 y hy
    | .notification n =>
      by_cases hx : n.method = "exit"
      · have e : h.replies (.notification n :: ms) s = [] := by simp [Handler.replies, Handler.serve, Message.isExitNotification, hx]
        rw [e]
        exact ⟨by simp [requestIds, hx], by simp⟩
      · have e : h.replies (.notification n :: ms) s = h.replies ms (h.handle (.notification n) s).state := by
          simp [Handler.replies, Handler.serve, Message.isExitNotification, hx, C43_notification_partial h s n hm]
        rw [e]
        exact ⟨by simp [ih1, requestIds, hx], ih2⟩
    | .response r =>
      have e : h.replies (.response r :: ms) s = h.replies ms (h.handle (.response r) s).state := by
        simp [Handler.replies, Handler.serve, Message.isExitNotification, (C54_response h s r).1]
      rw [e]
      exact ⟨by simp [ih1, requestIds], ih2⟩

/-- A handler for the examples. -/
def echo : Handler (Bool × Unit) := service fun _ params _ => some ((), .ok params)

/-- The hypotheses are met: a request, a notification, and a request that comes after `exit`. -/
example : let ms := [Message.request ⟨.number 7, "textDocument/hover", .int 3⟩, .notification ⟨"textDocument/didOpen", .null⟩, .request ⟨.string "x", "foo", .null⟩, .notification ⟨"exit", .null⟩,
      .request ⟨.number 8, "shutdown", .null⟩]
    (∀ m ∈ ms, WellNamed m) ∧ requestIds ms = [.number 7, .string "x"] := by decide

/-- A notification with the method of a request is answered, with an id nobody used. -/
theorem C43_counterexample_notification : ((echo.handle (.notification ⟨"shutdown", .null⟩) (true, ())).reply.bind Message.id) = some (.number 0) := by decide

/-- A request with the method of a notification is never answered. -/
theorem C43_counterexample_request (id : Id) : (echo.handle (.request ⟨id, "textDocument/didOpen", .null⟩) (true, ())).reply.isNone = true := by rfl

/-! ## C44 Initialisation -/

/-- No message changes the state of the service before initialisation but the `initialize` request. -/
theorem service_before {τ : Type} {rest : String → Json → τ → Option (τ × Except ErrorCode Json)} {m : Message} {t : τ}
    (hm : m.isInitializeRequest = false) : (service rest).handle m (false, t) = ⟨(false, t), none, none⟩ := by
  unfold Handler.handle
  simp only [hm, service, Bool.not_false, Bool.and_self, if_true, ite_self]

/-- The flag after a message. -/
theorem service_flag {τ : Type} {rest : String → Json → τ → Option (τ × Except ErrorCode Json)} (m : Message) (s : Bool × τ) :
    ((service rest).handle m s).state.1 = true ↔ s.1 = true ∨ ((service rest).handle m s).ran = some "initialize" := by
  have key : ∀ method, (∀ s' r, (service rest).call method m.value s = some (s', r) → (s'.1 = true ↔ s.1 = true ∨ method = "initialize")) := by
    intro method s' r h
    simp only [service, Option.map_eq_some_iff, Prod.mk.injEq] at h
    obtain ⟨x, _, rfl, _⟩ := h
    simp only [beq_iff_eq]
    split <;> simp_all
  unfold Handler.handle
  split
  · simp
  · split
    · simp
    · simp only
      split
      · cases hc : (service rest).call (m.method.getD "") m.value s with
        | none => simp
        | some x => simpa using key _ _ _ hc
      · split
        · cases hc : (service rest).call (m.method.getD "") m.value s with
          | none => simp
          | some x => simpa using key _ _ _ hc
        · split <;> simp

theorem serve_flag {τ : Type} {rest : String → Json → τ → Option (τ × Except ErrorCode Json)} :
    ∀ (ms : List Message) (s : Bool × τ) (pre : List (Event (Bool × τ))) (e : Event (Bool × τ)) (post : List (Event (Bool × τ))),
      (service rest).serve ms s = pre ++ e :: post →
      (e.before.1 = true ↔ s.1 = true ∨ ∃ e0 ∈ pre, e0.handled.ran = some "initialize") ∧ e.handled = (service rest).handle e.message e.before
  | [], _, pre, e, post, h => by simp [Handler.serve] at h
  | m :: ms, s, pre, e, post, h => by
    simp only [Handler.serve] at h
    split at h
    · simp at h
    · cases pre with
      | nil =>
        simp only [List.nil_append, List.cons.injEq] at h
        obtain ⟨rfl, _⟩ := h
        simp
      | cons e1 pre =>
        simp only [List.cons_append, List.cons.injEq] at h
        obtain ⟨rfl, h⟩ := h
        obtain ⟨h1, h2⟩ := serve_flag ms _ pre e post h
        refine ⟨?_, h2⟩
        rw [h1, service_flag]
        simp only [List.mem_cons, exists_eq_or_imp, or_assoc]

/-- In every history of the service from its start: when a handler method runs or a reply is sent for a message that is not the
`initialize` request, then an `initialize` request has been handled before. Missing from the full C44: the error replies to the
requests that come too early (`C44_counterexample`). -/
theorem C44_before_partial {τ : Type} {rest : String → Json → τ → Option (τ × Except ErrorCode Json)} {ms : List Message} {t : τ}
    {pre post : List (Event (Bool × τ))} {e : Event (Bool × τ)} (h : (service rest).serve ms (false, t) = pre ++ e :: post)
    (he : e.handled.ran ≠ none ∨ e.handled.reply ≠ none) (hm : e.message.isInitializeRequest = false) :
    ∃ e0 ∈ pre, e0.handled.ran = some "initialize" ∧ e0.message.isInitializeRequest = true := by
  obtain ⟨h1, h2⟩ := serve_flag ms _ pre e post h
  have hb : e.before.1 = true := by
    cases hb : e.before.1
    · have : e.before = (false, e.before.2) := by rw [← hb]
      rw [this, service_before hm] at h2
      rw [h2] at he
      simp at he
    · rfl
  -- the first event that ran `initialize`
  have hex : ∀ (p : List (Event (Bool × τ))), (∃ e0 ∈ p, e0.handled.ran = some "initialize") →
      ∃ a e0 b, p = a ++ e0 :: b ∧ e0.handled.ran = some "initialize" ∧ ∀ x ∈ a, x.handled.ran ≠ some "initialize" := by
    intro p
    induction p with
    | nil => simp
    | cons x p ih =>
      intro hp
      by_cases hx : x.handled.ran = some "initialize"
      · exact ⟨[], x, p, rfl, hx, by simp⟩
      · obtain ⟨e0, h0, h0'⟩ := hp
        rcases List.mem_cons.mp h0 with rfl | h0
        · exact absurd h0' hx
        · obtain ⟨a, e1, b, rfl, e2, e3⟩ := ih ⟨e0, h0, h0'⟩
          exact ⟨x :: a, e1, b, rfl, e2, by simp [hx]; exact e3⟩
  obtain ⟨a, e0, b, rfl, r0, ha⟩ := hex pre (by simpa using h1.mp hb)
  refine ⟨e0, by simp, r0, ?_⟩
  obtain ⟨g1, g2⟩ := serve_flag ms _ a e0 (b ++ e :: post) (by rw [h]; simp)
  have hf : e0.before.1 = false := by
    cases hh : e0.before.1
    · rfl
    · have := g1.mp hh
      simp only [Bool.false_eq_true, false_or] at this
      obtain ⟨x, hx, hx'⟩ := this
      exact absurd hx' (ha x hx)
  cases hi : e0.message.isInitializeRequest
  · have : e0.before = (false, e0.before.2) := by rw [← hf]
    rw [this, service_before hi] at g2
    rw [g2] at r0; cases r0
  · rfl

/-- Once initialised, the service is initialised at every later point of every history. -/
theorem C54_stays {τ : Type} {rest : String → Json → τ → Option (τ × Except ErrorCode Json)} {ms : List Message} {s : Bool × τ}
    {pre mid post : List (Event (Bool × τ))} {e1 e2 : Event (Bool × τ)} (h : (service rest).serve ms s = pre ++ e1 :: (mid ++ e2 :: post))
    (he : (service rest).initialized e1.handled.state = true) : (service rest).initialized e2.before = true := by
  obtain ⟨a1, a2⟩ := serve_flag ms s pre e1 _ h
  obtain ⟨b1, _⟩ := serve_flag ms s (pre ++ e1 :: mid) e2 post (by rw [h]; simp)
  have he' : e1.handled.state.1 = true := he
  rw [a2, service_flag, a1, ← a2] at he'
  refine b1.mpr ?_
  rcases he' with (h | ⟨e0, h0, h0'⟩) | h
  · exact .inl h
  · exact .inr ⟨e0, by simp [h0], h0'⟩
  · exact .inr ⟨e1, by simp, h⟩

/-- A history in which a handler method runs after initialisation. -/
example : ((echo.serve [.request ⟨.number 0, "textDocument/hover", .null⟩, .request ⟨.number 1, "initialize", .null⟩, .request ⟨.number 2, "textDocument/hover", .null⟩] (false, ())).map fun e => (e.handled.ran, e.handled.reply.bind Message.id))
    = [(none, none), (some "initialize", some (.number 1)), (some "textDocument/hover", some (.number 2))] := by decide

/-- A request before initialisation gets no reply at all, neither then nor later. -/
theorem C44_counterexample : ((echo.replies [.request ⟨.number 0, "textDocument/hover", .null⟩, .request ⟨.number 1, "initialize", .null⟩] (false, ())).map Message.id)
    = [some (.number 1)] := by decide

end Hdx.Lsp

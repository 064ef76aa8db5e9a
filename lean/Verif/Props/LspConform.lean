/-
Properties C64 (messages are JSON-RPC 2.0 objects) and C65 (only well-formed messages are read).
-/
import Verif.Spec.JsonRpc
import Verif.Props.LspMessage

namespace Hdx.Lsp
open Spec

/-- The parameters of a message as they should be written: left out if there are none. -/
def Spec.paramsOf : Json → Option Json
  | .null => none
  | v => some v

/-- The members of the object that a message is written as. -/
def Spec.members (m : Message) : List (String × Json) :=
  match m.toJson with
  | .obj l => l
  | _ => []

/-- A request with structured parameters, or none, is written as a request object. -/
theorem C64_request (r : Request) (hp : r.params = .null ∨ Structured r.params) :
    RequestObject (members (.request r)) r.id.toJson r.method (paramsOf r.params) := by
  obtain ⟨id, method, params⟩ := r
  cases params <;> simp [Structured] at hp <;>
    (constructor <;> simp [members, Message.toJson, Message.fields, paramsField, Member, Absent, paramsOf, Structured])

/-- A notification with structured parameters, or none, is written as a notification object. -/
theorem C64_notification (n : Notification) (hp : n.params = .null ∨ Structured n.params) :
    NotificationObject (members (.notification n)) n.method (paramsOf n.params) := by
  obtain ⟨method, params⟩ := n
  cases params <;> simp [Structured] at hp <;>
    (constructor <;> simp [members, Message.toJson, Message.fields, paramsField, Member, Absent, paramsOf, Structured])

/-- A successful response is written with the version, its id and its result, and with `error` null. Missing from the full C64: the member `error`
should not be there at all. -/
theorem C64_result_partial (id : Id) (v : Json) : let l := members (.response (.ok id v))
    Member l "jsonrpc" (.str "2.0") ∧ Member l "id" id.toJson ∧ Member l "result" v ∧ AbsentOrNull l "error" := by
  simp [members, Message.toJson, Message.fields, Member, AbsentOrNull]

/-- A response with an error is written with the version, its id, an error object with the code, the message and the data, and with `result` null. -/
theorem C64_error_partial (id : Id) (code : ErrorCode) (message : String) (data : Json) : let l := members (.response (.err id code message data))
    Member l "jsonrpc" (.str "2.0") ∧ Member l "id" id.toJson ∧ AbsentOrNull l "result"
      ∧ ∃ e, Member l "error" (.obj e) ∧ ErrorObject e code.toI32.toInt message data := by
  refine ⟨by simp [members, Message.toJson, Message.fields, Member], by simp [members, Message.toJson, Message.fields, Member], ?_, ?_⟩
  · right; simp [members, Message.toJson, Message.fields, Member]
  · exact ⟨_, by simp [members, Message.toJson, Message.fields, Member]; rfl, by constructor <;> simp [Member]⟩

/-- No successful response is a response object as the specification has it: the member `error` is there. -/
theorem C64_counterexample (id : Id) (v : Json) : ¬ ResultObject (members (.response (.ok id v))) id.toJson v := by
  intro h
  exact h.error .null (by simp [members, Message.toJson, Message.fields])

/-- Both forms the writer has for parameters. -/
example : (Message.request ⟨.number 1, "initialize", .obj []⟩).toJson
    = .obj [("jsonrpc", .str "2.0"), ("id", .int 1), ("method", .str "initialize"), ("params", .obj [])]
    ∧ RequestObject (members (.request ⟨.number 1, "initialize", .obj []⟩)) (.int 1) "initialize" (some (.obj [])) :=
  ⟨rfl, C64_request ⟨.number 1, "initialize", .obj []⟩ (.inr trivial)⟩

/-! ### Reading -/

theorem field_some {l : List (String × Json)} {name : String} {v : Json} (h : field l name = .ok (some v)) : Member l name v := by
  unfold field at h
  unfold Member
  split at h
  · cases h
  · rename_i x hx
    simp only [Except.ok.injEq, Option.some.injEq] at h
    subst h
    have : x ∈ l.filter (fun x => x.1 == name) := by rw [hx]; simp
    have := (List.mem_filter.mp this).2
    rw [hx]
    obtain ⟨a, b⟩ := x
    simp only [beq_iff_eq] at this
    rw [this]
  · cases h

theorem field_none {l : List (String × Json)} {name : String} (h : field l name = .ok none) : Absent l name := by
  unfold field at h
  intro v hv
  split at h
  · rename_i hx
    have : (name, v) ∈ l.filter (fun x => x.1 == name) := List.mem_filter.mpr ⟨hv, by simp⟩
    rw [hx] at this; cases this
  · simp at h
  · cases h

theorem option_none {l : List (String × Json)} {α : Type} {g : Json → Option α} {name : String} {o : Option Json} (h : field l name = .ok o)
    (ho : optionOfJson g o = some none) : AbsentOrNull l name := by
  cases o with
  | none => exact .inl (field_none h)
  | some v =>
    cases v <;> simp [optionOfJson] at ho
    exact .inr (field_some h)

theorem option_some {l : List (String × Json)} {α : Type} {g : Json → Option α} {name : String} {o : Option Json} {a : α} (h : field l name = .ok o)
    (ho : optionOfJson g o = some (some a)) : ∃ v, Member l name v ∧ v ≠ .null ∧ g v = some a := by
  cases o with
  | none => simp [optionOfJson] at ho
  | some v =>
    refine ⟨v, field_some h, ?_, ?_⟩
    · rintro rfl; simp [optionOfJson] at ho
    · cases v <;> simp_all [optionOfJson]

theorem structFields_three {l : List (String × Json)} {n : Nat} {a b c : String} {x y z : Option Json}
    (h : structFields n [a, b, c] (.obj l) = .ok [x, y, z]) : field l a = .ok x ∧ field l b = .ok y ∧ field l c = .ok z := by
  simp only [structFields, List.mapM_cons, List.mapM_nil, bind, Except.bind, pure, Except.pure] at h
  cases ha : field l a <;> simp only [ha] at h
  · cases h
  cases hb : field l b <;> simp only [hb] at h
  · cases h
  cases hc : field l c <;> simp only [hc] at h
  · cases h
  simp only [Except.ok.injEq, List.cons.injEq, and_true] at h
  exact ⟨by rw [h.1], by rw [h.2.1], by rw [h.2.2]⟩

/-- An object is read as a successful response only if it has an id and a result, and no error; and as a response with an error only if it has
an id and an error with code and message, and no result. -/
theorem C65_response {l : List (String × Json)} {r : Response} (h : Response.ofJson (.obj l) = some r) : match r with
    | .ok id v => (∃ i, Member l "id" i ∧ Id.ofJson i = some id) ∧ Member l "result" v ∧ v ≠ .null ∧ AbsentOrNull l "error"
    | .err id code message data => (∃ i, Member l "id" i ∧ Id.ofJson i = some id) ∧ AbsentOrNull l "result"
      ∧ ∃ e n, Member l "error" e ∧ errOfJson e = some (n, message, data) ∧ code = ErrorCode.ofI32 n := by
  unfold Response.ofJson at h
  split at h
  case h_2 => cases h
  rename_i i res err hs
  obtain ⟨f1, f2, f3⟩ := structFields_three hs
  simp only [bind, Option.bind, pure] at h
  cases hi : Id.ofJson i with
  | none => rw [hi] at h; cases h
  | some id =>
    rw [hi] at h
    simp only at h
    cases hr : optionOfJson some res with
    | none => rw [hr] at h; cases h
    | some ro =>
      rw [hr] at h
      simp only at h
      cases he : optionOfJson errOfJson err with
      | none => rw [he] at h; cases h
      | some eo =>
        rw [he] at h
        simp only at h
        cases ro with
        | none =>
          cases eo with
          | none => cases h
          | some x =>
            obtain ⟨n, message, data⟩ := x
            simp only [Option.some.injEq] at h
            subst h
            obtain ⟨e, m, _, g⟩ := option_some f3 he
            exact ⟨⟨i, field_some f1, hi⟩, option_none f2 hr, e, n, m, g, rfl⟩
        | some v =>
          cases eo with
          | some x => cases h
          | none =>
            simp only [Option.some.injEq] at h
            subst h
            obtain ⟨v', m, nn, g⟩ := option_some f2 hr
            cases g
            exact ⟨⟨i, field_some f1, hi⟩, m, nn, option_none f3 he⟩

/-- For example, an object with both a result and an error is not a response. -/
example : (Response.ofJson (.obj [("id", .int 1), ("result", .int 2), ("error", .obj [("code", .int 3), ("message", .str "m")])])).isNone = true
    ∧ (Response.ofJson (.obj [("id", .int 1), ("error", .obj [("code", .int 3), ("message", .str "m")])])).isSome = true := by decide +kernel

/-! ### Framing -/

theorem blank_split (l : List UInt8) : ∃ b, l = b ++ l.dropWhile (fun c => c == 32 || c == 9) ∧ Blanks b := by
  refine ⟨l.takeWhile (fun c => c == 32 || c == 9), List.takeWhile_append_dropWhile.symm, ?_⟩
  intro c hc
  have := List.all_eq_true.mp (List.all_takeWhile (p := fun c : UInt8 => c == 32 || c == 9) (l := l)) c hc
  simpa using this

theorem trim_split (l : List UInt8) : ∃ b, l = trimEnd l ++ b ∧ Blanks b := by
  obtain ⟨b, h1, h2⟩ := blank_split l.reverse
  refine ⟨b.reverse, ?_, fun c hc => h2 c (by simpa using hc)⟩
  have := congrArg List.reverse h1
  simp only [List.reverse_reverse, List.reverse_append] at this
  unfold trimEnd
  exact this

theorem parseHeaders_sound : ∀ (n : Nat) (l : List UInt8) {hs : List (List UInt8 × List UInt8)} {k : Nat}, parseHeaders n l = .ok (some (hs, k)) →
    ∃ blk rest, l = blk ++ rest ∧ rest.length = k ∧ HeaderPart hs blk := by
  intro n l
  fun_induction parseHeaders n l with
  | case1 n rest =>
    intro hs k h
    simp only [Except.ok.injEq, Option.some.injEq, Prod.mk.injEq] at h
    obtain ⟨rfl, rfl⟩ := h
    exact ⟨[13, 10], rest, rfl, rfl, .done (.inl rfl)⟩
  | case2 n rest =>
    intro hs k h
    simp only [Except.ok.injEq, Option.some.injEq, Prod.mk.injEq] at h
    obtain ⟨rfl, rfl⟩ := h
    exact ⟨[10], rest, rfl, rfl, .done (.inr rfl)⟩
  | case3 => intro hs k h; cases h
  | case4 => intro hs k h; cases h
  | case5 => intro hs k h; cases h
  | case6 => intro hs k h; cases h
  | case7 =>
    rename_i n l _ _ name l1 hl1 hne l2 value rest hl2 ih
    intro hs k h
    cases hp : parseHeaders n rest with
    | error e => rw [hp] at h; cases h
    | ok o =>
      cases o with
      | none => rw [hp] at h; cases h
      | some r =>
        obtain ⟨hs', k'⟩ := r
        rw [hp] at h
        simp only [Except.map, Option.map, Except.ok.injEq, Option.some.injEq, Prod.mk.injEq] at h
        obtain ⟨rfl, rfl⟩ := h
        obtain ⟨blk, rest', e1, e2, e3⟩ := ih hp
        obtain ⟨b1, x1, x2⟩ := blank_split l1
        obtain ⟨b2, y1, y2⟩ := trim_split value
        have hl : l = name ++ (58 :: l1) := by rw [← hl1]; exact List.takeWhile_append_dropWhile.symm
        have hl2' : l2 = value ++ (13 :: 10 :: rest) := by rw [← hl2]; exact List.takeWhile_append_dropWhile.symm
        refine ⟨name ++ [58] ++ b1 ++ trimEnd value ++ b2 ++ [13, 10] ++ blk, rest', ?_, e2, .field hne ?_ x2 y2 (.inl rfl) e3⟩
        · have x1' : l1 = b1 ++ l2 := x1
          rw [hl, x1', hl2', e1]
          conv => lhs; rw [y1]
          simp
        · intro c hc
          exact List.all_eq_true.mp (List.all_takeWhile (p := isTokenByte) (l := l)) c hc
  | case8 =>
    rename_i n l _ _ name l1 hl1 hne l2 value rest hl2 ih
    intro hs k h
    cases hp : parseHeaders n rest with
    | error e => rw [hp] at h; cases h
    | ok o =>
      cases o with
      | none => rw [hp] at h; cases h
      | some r =>
        obtain ⟨hs', k'⟩ := r
        rw [hp] at h
        simp only [Except.map, Option.map, Except.ok.injEq, Option.some.injEq, Prod.mk.injEq] at h
        obtain ⟨rfl, rfl⟩ := h
        obtain ⟨blk, rest', e1, e2, e3⟩ := ih hp
        obtain ⟨b1, x1, x2⟩ := blank_split l1
        obtain ⟨b2, y1, y2⟩ := trim_split value
        have hl : l = name ++ (58 :: l1) := by rw [← hl1]; exact List.takeWhile_append_dropWhile.symm
        have hl2' : l2 = value ++ (10 :: rest) := by rw [← hl2]; exact List.takeWhile_append_dropWhile.symm
        refine ⟨name ++ [58] ++ b1 ++ trimEnd value ++ b2 ++ [10] ++ blk, rest', ?_, e2, .field hne ?_ x2 y2 (.inr rfl) e3⟩
        · have x1' : l1 = b1 ++ l2 := x1
          rw [hl, x1', hl2', e1]
          conv => lhs; rw [y1]
          simp
        · intro c hc
          exact List.all_eq_true.mp (List.all_takeWhile (p := isTokenByte) (l := l)) c hc
  | case9 => intro hs k h; cases h
  | case10 => intro hs k h; cases h

theorem readHeaders_split : ∀ (buf r : List UInt8) {b r' : List UInt8}, readHeaders buf r = .ok (some (b, r')) → buf ++ r = b ++ r' := by
  intro buf r
  fun_induction readHeaders buf r with
  | case1 => intro b r' h; cases h
  | case2 => intro b r' h; cases h
  | case3 =>
    rename_i buf r h1 h2 buf2 h3
    intro b r' h
    simp only [Except.ok.injEq, Option.some.injEq, Prod.mk.injEq] at h
    obtain ⟨rfl, rfl⟩ := h
    have : ∀ r, (splitLine r).1 ++ (splitLine r).2 = r := by intro r; fun_induction splitLine r <;> simp_all
    simp only [buf2, List.append_assoc, this]
  | case4 =>
    rename_i buf r h1 h2 buf2 h3 ih
    intro b r' h
    have := ih h
    have hs : ∀ r, (splitLine r).1 ++ (splitLine r).2 = r := by intro r; fun_induction splitLine r <;> simp_all
    rw [← this]
    simp only [buf2, List.append_assoc, hs]

/-- The last of the fields that gives a length, or what there was before. -/
inductive Spec.LengthGiven : List (List UInt8 × List UInt8) → Nat → Nat → Prop
  | nil {n : Nat} : LengthGiven [] n n
  | length {name value : List UInt8} {fields : List (List UInt8 × List UInt8)} {n m k : Nat} : IsLength name → parseUsize value = some m →
      LengthGiven fields m k → LengthGiven ((name, value) :: fields) n k
  | type {name value : List UInt8} {fields : List (List UInt8 × List UInt8)} {n k : Nat} : IsType name → LengthGiven fields n k →
      LengthGiven ((name, value) :: fields) n k

theorem contentLength_sound : ∀ (fields : List (List UInt8 × List UInt8)) (n : Nat) {k : Nat}, contentLength fields n = .ok k → LengthGiven fields n k := by
  intro fields n
  fun_induction contentLength fields n with
  | case1 n => intro k h; cases h; exact .nil
  | case2 name value rest n hn m hm ih => intro k h; exact .length hn hm (ih h)
  | case3 => intro k h; cases h
  | case4 name value rest n hn hm ih => intro k h; exact .type hm (ih h)
  | case5 => intro k h; cases h

/-- When a message is read, the stream starts with a header part whose fields are all lengths and types, the last length `n` is not zero, and after it
come `n` bytes that are the message; nothing more is consumed. In particular a message with an unknown field, without a length, or that is cut short
is not read. -/
theorem C65_frame {codec : Codec} {r rest : List UInt8} {m : Message} (h : Message.read codec r = .ok (some m, rest)) :
    ∃ head body fields, r = head ++ body ++ rest ∧ HeaderPart fields head ∧ (∀ f ∈ fields, IsLength f.1 ∨ IsType f.1)
      ∧ LengthGiven fields 0 body.length ∧ body ≠ [] ∧ (codec.parse body).bind Message.ofJson = some m := by
  unfold Message.read at h
  split at h
  · cases h
  · cases h
  rename_i buf r' hr
  split at h
  · cases h
  · cases h
  rename_i fields left hp
  split at h
  · cases h
  rename_i hleft
  split at h
  · cases h
  rename_i n hc
  split at h
  · cases h
  rename_i hn
  split at h
  · cases h
  rename_i hlen
  split at h
  · cases h
  rename_i m' hm
  simp only [Except.ok.injEq, Prod.mk.injEq, Option.some.injEq] at h
  obtain ⟨rfl, rfl⟩ := h
  obtain ⟨blk, rest', e1, e2, e3⟩ := parseHeaders_sound 2 buf hp
  have hz : left = 0 := by omega
  have : rest' = [] := List.length_eq_zero_iff.mp (e2.trans hz)
  subst this
  rw [List.append_nil] at e1
  have hb := readHeaders_split [] r hr
  simp only [List.nil_append] at hb
  have hl : (r'.take n).length = n := by rw [List.length_take]; omega
  have given := contentLength_sound fields 0 hc
  have known : ∀ {fs a b}, LengthGiven fs a b → ∀ f ∈ fs, IsLength f.1 ∨ IsType f.1 := by
    intro fs a b hg
    induction hg with
    | nil => intro f hf; cases hf
    | length h1 _ _ ih => intro f hf; rcases List.mem_cons.mp hf with rfl | hf; exact .inl h1; exact ih f hf
    | type h1 _ ih => intro f hf; rcases List.mem_cons.mp hf with rfl | hf; exact .inr h1; exact ih f hf
  refine ⟨buf, r'.take n, fields, ?_, e1 ▸ e3, known given, by rw [hl]; exact given, ?_, hm⟩
  · rw [List.append_assoc, List.take_append_drop, hb]
  · intro e; rw [e] at hl; simp at hl; omega

/-- A codec that knows one message. -/
def Spec.oneMessage : Codec := ⟨fun _ => ascii "{}".toList, fun b => if b = ascii "{}".toList then some (.obj [("method", .str "exit")]) else none⟩

/-- A stream that is read, with two fields, in any case, with LF line ends inside; and streams that are not: an unknown field, no length, cut short. -/
example : (match Message.read oneMessage (ascii "CONTENT-length:2 \nContent-Type: x\r\n\r\n{}x".toList) with
      | .ok (some (.notification n), rest) => n.method == "exit" && rest == ascii "x".toList
      | _ => false) = true
    ∧ (match Message.read oneMessage (ascii "Content-Length: 2\r\nX-Y: 1\r\n\r\n{}".toList) with | .error .invalidHeader => true | _ => false) = true
    ∧ (match Message.read oneMessage (ascii "Content-Type: 2\r\n\r\n{}".toList) with | .error .noLength => true | _ => false) = true
    ∧ (match Message.read oneMessage (ascii "Content-Length: 3\r\n\r\n{}".toList) with | .error .encode => true | _ => false) = true := by
  decide +kernel

/-- A field the protocol does not define makes the whole message unreadable, wherever it stands. -/
theorem C65_unknown_field {name value : List UInt8} {before after : List (List UInt8 × List UInt8)} {n : Nat} (h1 : ¬ IsLength name) (h2 : ¬ IsType name) :
    ∀ k, contentLength (before ++ (name, value) :: after) n ≠ .ok k := by
  intro k h
  have known : ∀ {fs a b}, LengthGiven fs a b → ∀ f ∈ fs, IsLength f.1 ∨ IsType f.1 := by
    intro fs a b hg
    induction hg with
    | nil => intro f hf; cases hf
    | length h1 _ _ ih => intro f hf; rcases List.mem_cons.mp hf with rfl | hf; exact .inl h1; exact ih f hf
    | type h1 _ ih => intro f hf; rcases List.mem_cons.mp hf with rfl | hf; exact .inr h1; exact ih f hf
  rcases known (contentLength_sound _ _ h) (name, value) (by simp) with h | h
  · exact h1 h
  · exact h2 h

end Hdx.Lsp

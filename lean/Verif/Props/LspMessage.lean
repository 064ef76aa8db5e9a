/-
Properties C41 (error codes) and C42 (messages on the wire).
-/
import Verif.Model.Lsp.Message

namespace Hdx.Lsp

/-! ## C41 Error codes -/

/-- Every number survives the way through `ErrorCode`. -/
theorem C55_number (x : Int32) : (ErrorCode.ofI32 x).toI32 = x := by
  unfold ErrorCode.ofI32
  repeat' split
  all_goals (try subst_vars; rfl)

/-- Which codes survive the way through the number: all the named ones but `LspReservedErrorEnd`, and `Unknown` for the numbers
that have no name. Missing from the full C41: `LspReservedErrorEnd` (`C41_counterexample`). -/
theorem C41_code_partial (c : ErrorCode) : ErrorCode.ofI32 c.toI32 = c ↔ c ≠ .lspReservedErrorEnd ∧
    ∀ n, c = .unknown n → n ∉ [-32700, -32600, -32601, -32602, -32603, -32099, -32002, -32001, -32000, -32899, -32801, -32800] := by
  cases c with
  | unknown n =>
    have h : (ErrorCode.unknown n).toI32 = n := rfl
    rw [h]
    unfold ErrorCode.ofI32
    constructor
    · intro h
      refine ⟨by simp, fun m hm => ?_⟩
      cases hm
      intro hmem
      simp only [List.mem_cons, List.not_mem_nil, or_false] at hmem
      rcases hmem with rfl | rfl | rfl | rfl | rfl | rfl | rfl | rfl | rfl | rfl | rfl | rfl <;> revert h <;> decide
    · rintro ⟨_, h⟩
      have h := h n rfl
      simp only [List.mem_cons, List.not_mem_nil, or_false, not_or] at h
      simp [h]
  | lspReservedErrorEnd => simp [ErrorCode.toI32, ErrorCode.ofI32]
  | _ => simp [ErrorCode.toI32, ErrorCode.ofI32]

/-- `LspReservedErrorEnd` comes back as `RequestCancelled`. -/
theorem C41_counterexample : ErrorCode.ofI32 ErrorCode.lspReservedErrorEnd.toI32 = .requestCancelled := by decide

/-! ## C42 Messages on the wire -/

/-- The messages that come back: all but responses with the result null, and errors whose code does not come back
(`C41_code_partial`). -/
def Returns : Message → Prop
  | .response (.ok _ v) => v ≠ .null
  | .response (.err _ code _ _) => ErrorCode.ofI32 code.toI32 = code
  | _ => True

theorem i32_toJson (n : Int32) : i32OfJson (.int n.toInt) = some n := by
  have h1 := n.le_toInt
  have h2 := n.toInt_lt
  rw [i32OfJson, if_pos (by omega), Int32.ofInt_toInt]

theorem id_toJson (id : Id) : Id.ofJson id.toJson = some id := by
  cases id with
  | number n => simp [Id.toJson, Id.ofJson, i32_toJson]
  | string s => simp [Id.toJson, Id.ofJson, i32OfJson, stringOfJson]

theorem toJson_ofJson {m : Message} (h : Returns m) : Message.ofJson m.toJson = some m := by
  match m, h with
  | .request ⟨id, method, params⟩, _ =>
    have : Request.ofJson (Message.request ⟨id, method, params⟩).toJson = some ⟨id, method, params⟩ := by
      cases params <;> simp [Message.toJson, Message.fields, paramsField, Request.ofJson, structFields, field, id_toJson, stringOfJson, List.mapM_cons, bind, Except.bind, pure, Except.pure]
    simp [Message.ofJson, this]
  | .notification ⟨method, params⟩, _ =>
    have h1 : Request.ofJson (Message.notification ⟨method, params⟩).toJson = none := by
      cases params <;> simp [Message.toJson, Message.fields, paramsField, Request.ofJson, structFields, field, List.mapM_cons, bind, Except.bind, pure, Except.pure]
    have h2 : Response.ofJson (Message.notification ⟨method, params⟩).toJson = none := by
      cases params <;> simp [Message.toJson, Message.fields, paramsField, Response.ofJson, structFields, field, List.mapM_cons, bind, Except.bind, pure, Except.pure]
    have h3 : Notification.ofJson (Message.notification ⟨method, params⟩).toJson = some ⟨method, params⟩ := by
      cases params <;> simp [Message.toJson, Message.fields, paramsField, Notification.ofJson, structFields, field, stringOfJson, List.mapM_cons, bind, Except.bind, pure, Except.pure]
    simp [Message.ofJson, h1, h2, h3]
  | .response (.ok id v), h =>
    have h1 : Request.ofJson (Message.response (.ok id v)).toJson = none := by
      simp [Message.toJson, Message.fields, Request.ofJson, structFields, field, List.mapM_cons, bind, Except.bind, pure, Except.pure]
    have h2 : Response.ofJson (Message.response (.ok id v)).toJson = some (.ok id v) := by
      cases v <;> first | exact absurd rfl h | simp [Message.toJson, Message.fields, Response.ofJson, structFields, field, id_toJson, optionOfJson, List.mapM_cons, bind, Except.bind, pure, Except.pure]
    simp [Message.ofJson, h1, h2]
  | .response (.err id code message data), h =>
    have h1 : Request.ofJson (Message.response (.err id code message data)).toJson = none := by
      simp [Message.toJson, Message.fields, Request.ofJson, structFields, field, List.mapM_cons, bind, Except.bind, pure, Except.pure]
    have h2 : Response.ofJson (Message.response (.err id code message data)).toJson = some (.err id code message data) := by
      have h' : ErrorCode.ofI32 code.toI32 = code := h
      simp [Message.toJson, Message.fields, Response.ofJson, structFields, field, id_toJson, optionOfJson, errOfJson, stringOfJson, i32_toJson, h', List.mapM_cons, bind, Except.bind, pure, Except.pure]
    simp [Message.ofJson, h1, h2]

theorem ofJson_iff (m : Message) : Message.ofJson m.toJson = some m ↔ Returns m := by
  refine ⟨fun h => ?_, toJson_ofJson⟩
  match m with
  | .request _ => trivial
  | .notification _ => trivial
  | .response (.ok id .null) =>
    simp [Message.ofJson, Message.toJson, Message.fields, Request.ofJson, Response.ofJson, Notification.ofJson, structFields, field, id_toJson, optionOfJson, List.mapM_cons, bind, Except.bind, pure, Except.pure] at h
  | .response (.ok id (.bool _)) => exact fun h => by cases h
  | .response (.ok id (.int _)) => exact fun h => by cases h
  | .response (.ok id (.float _)) => exact fun h => by cases h
  | .response (.ok id (.str _)) => exact fun h => by cases h
  | .response (.ok id (.arr _)) => exact fun h => by cases h
  | .response (.ok id (.obj _)) => exact fun h => by cases h
  | .response (.err id code message data) =>
    simp [Message.ofJson, Message.toJson, Message.fields, Request.ofJson, Response.ofJson, Notification.ofJson, structFields, field, id_toJson, optionOfJson, errOfJson, stringOfJson, i32_toJson, List.mapM_cons, bind, Except.bind, pure, Except.pure] at h
    exact h

theorem decimal_digit {n : Nat} {c : UInt8} (h : c ∈ decimal n) : 48 ≤ c.toNat ∧ c.toNat ≤ 57 := by
  simp only [decimal, List.mem_map] at h
  obtain ⟨d, hd, rfl⟩ := h
  have := Nat.isDigit_of_mem_toDigits (by decide) (by decide) hd
  simp only [Char.isDigit, Bool.and_eq_true, decide_eq_true_eq, ge_iff_le, UInt32.le_iff_toNat_le] at this
  have h1 : 48 ≤ d.toNat := this.1
  have h2 : d.toNat ≤ 57 := this.2
  rw [UInt8.toNat_ofNat_of_lt' (by show _ < 256; omega)]
  omega

theorem decimal_ne_nil (n : Nat) : decimal n ≠ [] := by simp [decimal, Nat.toDigits_ne_nil]

theorem parseUsize_decimal {n : Nat} (h : n < 18446744073709551616) : parseUsize (decimal n) = some n := by
  have hv : (decimal n).foldl (fun n c => n * 10 + (c.toNat - 48)) 0 = n := by
    rw [decimal, List.foldl_map]
    conv => rhs; rw [← Nat.ofDigitChars_ten_toDigits (n := n), Nat.ofDigitChars_eq_foldl]
    have : ∀ (l : List Char) (a : Nat), (∀ c ∈ l, c.isDigit = true) → l.foldl (fun n c => n * 10 + ((UInt8.ofNat c.toNat).toNat - 48)) a
        = l.foldl (fun n c => 10 * n + (c.toNat - '0'.toNat)) a := by
      intro l
      induction l with
      | nil => intros; rfl
      | cons c l ih =>
        intro a hl
        have hc := hl c (by simp)
        simp only [Char.isDigit, Bool.and_eq_true, decide_eq_true_eq, ge_iff_le, UInt32.le_iff_toNat_le] at hc
        have h2 : c.toNat ≤ 57 := hc.2
        rw [List.foldl_cons, List.foldl_cons, ih _ fun x hx => hl x (by simp [hx])]
        rw [UInt8.toNat_ofNat_of_lt' (by show _ < 256; omega), Nat.mul_comm]
        rfl
    exact this _ _ fun c hc => Nat.isDigit_of_mem_toDigits (by decide) (by decide) hc
  have hall : (decimal n).all (fun c => 48 ≤ c && c ≤ 57) = true := by
    rw [List.all_eq_true]
    intro c hc
    have := decimal_digit hc
    simp only [Bool.and_eq_true, decide_eq_true_eq, UInt8.le_iff_toNat_le]
    exact this
  have hne := decimal_ne_nil n
  unfold parseUsize
  split
  · rename_i l hl
    have := decimal_digit (n := n) (c := 43) (by rw [hl]; simp)
    simp at this
  · simp [hne, hall, hv, h]

theorem splitLine_line {l : List UInt8} (h : ∀ c ∈ l, c ≠ 10) (r : List UInt8) : splitLine (l ++ 10 :: r) = (l ++ [10], r) := by
  induction l with
  | nil => simp [splitLine]
  | cons c l ih =>
    have hc : c ≠ 10 := h c (by simp)
    have ih := ih fun x hx => h x (by simp [hx])
    rw [List.cons_append, splitLine.eq_def]
    split
    · simp_all
    · simp_all
    · rename_i heq
      cases heq
      rw [ih]; rfl

/-- The first line of what is written. -/
def lengthLine (n : Nat) : List UInt8 := ascii "Content-Length: ".toList ++ decimal n

theorem lengthLine_ascii {n : Nat} {c : UInt8} (h : c ∈ lengthLine n) : 32 ≤ c.toNat ∧ c.toNat < 127 := by
  simp only [lengthLine, List.mem_append] at h
  rcases h with h | h
  · revert h
    have : ∀ c ∈ ascii "Content-Length: ".toList, 32 ≤ c.toNat ∧ c.toNat < 127 := by decide
    exact this c
  · have := decimal_digit h; omega

theorem readHeaders_write (n : Nat) (r : List UInt8) : readHeaders [] (lengthLine n ++ [13, 10, 13, 10] ++ r)
    = .ok (some (lengthLine n ++ [13, 10, 13, 10], r)) := by
  have hno : ∀ c ∈ lengthLine n ++ [13], c ≠ 10 := by
    intro c hc he
    subst he
    rcases List.mem_append.mp hc with h | h
    · have := lengthLine_ascii h; simp at this
    · simp at h
  have hlt : ((lengthLine n ++ [13]) ++ [10]).any (· ≥ 128) = false := by
    rw [List.any_eq_false]
    intro c hc
    simp only [List.mem_append, List.mem_singleton] at hc
    simp only [ge_iff_le, decide_eq_true_eq, UInt8.le_iff_toNat_le]
    rcases hc with (h | h) | h
    · have := lengthLine_ascii h
      have : (128 : UInt8).toNat = 128 := rfl
      omega
    · subst h; decide
    · subst h; decide
  have e1 : lengthLine n ++ [13, 10, 13, 10] ++ r = (lengthLine n ++ [13]) ++ 10 :: ([13] ++ 10 :: r) := by simp
  have s1 := splitLine_line hno ([13] ++ 10 :: r)
  have s2 : splitLine ([13] ++ 10 :: r) = ([13, 10], r) := splitLine_line (l := [13]) (by decide) r
  rw [e1, readHeaders.eq_def, s1]
  have hsuf : ¬ ([13, 10, 13, 10] : List UInt8) <:+ [] ++ (lengthLine n ++ [13] ++ [10]) := by
    rintro ⟨t, ht⟩
    have : (t ++ [13, 10]) = lengthLine n := by
      have : (t ++ [13, 10]) ++ [13, 10] = lengthLine n ++ [13, 10] := by simpa using ht
      exact List.append_cancel_right this
    have := lengthLine_ascii (n := n) (c := 10) (by rw [← this]; simp)
    simp at this
  rw [if_neg (by simp), hlt, if_neg (by simp)]
  simp only
  rw [if_neg hsuf, readHeaders.eq_def, s2]
  rw [if_neg (by simp), if_neg (show ¬ ([13, 10] : List UInt8).any (fun x => decide (x ≥ 128)) = true by decide)]
  simp only
  rw [if_pos ⟨lengthLine n, by simp⟩]
  simp

theorem parseHeaders_write (n : Nat) : parseHeaders 2 (lengthLine n ++ [13, 10, 13, 10]) = .ok (some ([(ascii "Content-Length".toList, decimal n)], 0)) := by
  have hn : ∀ c ∈ ascii "Content-Length".toList, isTokenByte c = true := by decide
  have hd : ∀ c ∈ decimal n, isValueByte c = true ∧ (c == 32 || c == 9) = false := by
    intro c hc
    have h := decimal_digit hc
    have h32 : c ≠ 32 := fun e => by subst e; simp at h
    have h9 : c ≠ 9 := fun e => by subst e; simp at h
    have h127 : c ≠ 127 := fun e => by subst e; simp at h
    refine ⟨?_, by simp [h32, h9]⟩
    have : (32 : UInt8) ≤ c := by rw [UInt8.le_iff_toNat_le]; exact Nat.le_trans (by decide) h.1
    simp [isValueByte, this, h127]
  have e : lengthLine n ++ [13, 10, 13, 10] = ascii "Content-Length".toList ++ 58 :: ([32] ++ (decimal n ++ [13, 10, 13, 10])) := by
    have : ascii "Content-Length: ".toList = ascii "Content-Length".toList ++ [58, 32] := by decide
    rw [lengthLine, this, List.append_assoc, List.append_assoc]; rfl
  have t1 : (ascii "Content-Length".toList ++ 58 :: ([32] ++ (decimal n ++ [13, 10, 13, 10]))).takeWhile isTokenByte = ascii "Content-Length".toList := by
    rw [List.takeWhile_append_of_pos hn, List.takeWhile_cons_of_neg (by decide), List.append_nil]
  have t2 : (ascii "Content-Length".toList ++ 58 :: ([32] ++ (decimal n ++ [13, 10, 13, 10]))).dropWhile isTokenByte = 58 :: ([32] ++ (decimal n ++ [13, 10, 13, 10])) := by
    rw [List.dropWhile_append_of_pos hn, List.dropWhile_cons_of_neg (by decide)]
  have t3 : ([32] ++ (decimal n ++ [13, 10, 13, 10])).dropWhile (fun c => c == 32 || c == 9) = decimal n ++ [13, 10, 13, 10] := by
    rw [List.singleton_append, List.dropWhile_cons_of_pos (by decide)]
    cases hdec : decimal n with
    | nil => exact absurd hdec (decimal_ne_nil n)
    | cons c l => rw [List.cons_append, List.dropWhile_cons_of_neg (by rw [(hd c (by simp [hdec])).2]; decide)]
  have t4 : (decimal n ++ [13, 10, 13, 10]).takeWhile isValueByte = decimal n := by
    rw [List.takeWhile_append_of_pos fun c hc => (hd c hc).1, List.takeWhile_cons_of_neg (by decide), List.append_nil]
  have t5 : (decimal n ++ [13, 10, 13, 10]).dropWhile isValueByte = [13, 10, 13, 10] := by
    rw [List.dropWhile_append_of_pos fun c hc => (hd c hc).1, List.dropWhile_cons_of_neg (by decide)]
  have t6 : trimEnd (decimal n) = decimal n := by
    unfold trimEnd
    cases hdec : (decimal n).reverse with
    | nil => exact absurd (List.reverse_eq_nil_iff.mp hdec) (decimal_ne_nil n)
    | cons c l =>
      rw [List.dropWhile_cons_of_neg, ← hdec, List.reverse_reverse]
      rw [(hd c (by rw [← List.mem_reverse, hdec]; simp)).2]; decide
  rw [e]
  have hx : ∃ l, ascii "Content-Length".toList ++ 58 :: ([32] ++ (decimal n ++ [13, 10, 13, 10])) = 67 :: l := ⟨_, rfl⟩
  generalize ascii "Content-Length".toList ++ 58 :: ([32] ++ (decimal n ++ [13, 10, 13, 10])) = L at t1 t2 hx
  obtain ⟨l, rfl⟩ := hx
  rw [parseHeaders.eq_def]
  split
  · rename_i h; simp at h
  · rename_i h; simp at h
  · rename_i h _ _; simp at h
  · rename_i h1 _ _
    cases h1
    simp only [t2]
    rw [if_neg (by rw [t1]; decide)]
    simp only [t3, t4, t5, t6, t1]
    rfl

/-- Any message that `Returns`, written to a stream whatever follows it, is read back, and the stream is left right after it -
provided serde_json reads back the value it wrote, which is not empty and shorter than 2^64 bytes. Missing from the full C42: the
messages that do not `Returns` (`C42_counterexample_null`, `C42_counterexample_code`). -/
theorem C42_message_partial {codec : Codec} {m : Message} (hm : Returns m) (hc : codec.parse (codec.print m.toJson) = some m.toJson)
    (hne : codec.print m.toJson ≠ []) (hlen : (codec.print m.toJson).length < 2 ^ 64) (rest : List UInt8) :
    Message.read codec (m.write codec ++ rest) = .ok (some m, rest) := by
  have e : m.write codec ++ rest = lengthLine (codec.print m.toJson).length ++ [13, 10, 13, 10] ++ (codec.print m.toJson ++ rest) := by
    simp [Message.write, lengthLine]
  have hpos := List.length_pos_iff.mpr hne
  have hname : lowerName (ascii "Content-Length".toList) = ascii "content-length".toList := by decide
  unfold Message.read
  rw [e, readHeaders_write]
  simp only [parseHeaders_write, contentLength, hname, if_true, parseUsize_decimal hlen]
  simp only [ne_eq, not_true_eq_false, if_false]
  rw [if_neg (by omega), if_neg (by simp)]
  simp [hc, toJson_ofJson hm]

/-- Reads messages until there are no more. -/
def readAll (codec : Codec) : Nat → List UInt8 → Except ReadError (List Message)
  | 0, _ => .ok []
  | n + 1, r =>
    match Message.read codec r with
    | .error e => .error e
    | .ok (none, _) => .ok []
    | .ok (some m, r) => (readAll codec n r).map (m :: ·)

/-- Any sequence of such messages written to a stream is read back, message by message, in order and completely. -/
theorem C42_sequence_partial {codec : Codec} {ms : List Message} (h : ∀ m ∈ ms, Returns m ∧ codec.parse (codec.print m.toJson) = some m.toJson
      ∧ codec.print m.toJson ≠ [] ∧ (codec.print m.toJson).length < 2 ^ 64) {n : Nat} (hn : ms.length < n) :
    readAll codec n (ms.flatMap (Message.write codec)) = .ok ms := by
  induction ms generalizing n with
  | nil =>
    cases n with
    | zero => rfl
    | succ n =>
      have : readHeaders [] [] = .ok none := by rw [readHeaders.eq_def]; rfl
      simp [readAll, Message.read, this]
  | cons m ms ih =>
    cases n with
    | zero => simp at hn
    | succ n =>
      obtain ⟨h1, h2, h3, h4⟩ := h m (by simp)
      rw [List.flatMap_cons, readAll, C42_message_partial h1 h2 h3 h4]
      simp only
      rw [ih (fun x hx => h x (by simp [hx])) (by simpa using hn)]
      rfl

/-- The hypotheses are met, for example, by this response and a codec that can write and read it. -/
example : let m := Message.response (.err (.string "a") .methodNotFound "no" (.arr [.int 1, .null]))
    let codec : Codec := ⟨fun _ => ascii "{}".toList, fun _ => some m.toJson⟩
    Message.read codec (m.write codec ++ m.write codec) = .ok (some m, m.write codec) :=
  C42_message_partial (by unfold Returns; decide) rfl (by decide) (by decide) _

/-- A message comes back as a JSON value exactly if it `Returns`. -/
theorem C42_exact (m : Message) : Message.ofJson m.toJson = some m ↔ Returns m := ofJson_iff m

/-- A successful response without a result - what `Ok(None)` and `shutdown` give - is not accepted by the reader. -/
theorem C42_counterexample_null (id : Id) : Message.ofJson (Message.response (.ok id .null)).toJson = none := by
  simp [Message.ofJson, Message.toJson, Message.fields, Request.ofJson, Response.ofJson, Notification.ofJson, structFields, field, id_toJson, optionOfJson, List.mapM_cons, bind, Except.bind, pure, Except.pure]

/-- An error code that does not come back. -/
theorem C42_counterexample_code : ¬ Returns (.response (.err (.number 1) .lspReservedErrorEnd "" .null)) := by
  unfold Returns; decide

end Hdx.Lsp

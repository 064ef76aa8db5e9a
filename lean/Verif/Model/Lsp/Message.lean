/-
JSON-RPC messages: csskit_lsp/src/jsonrpc.

The text of JSON values is handled by serde_json, which is not part of this codebase. What is modelled here is how messages become
JSON values and back (the `Serialize` and `Deserialize` implementations, hand-written or derived), and how they are framed.
-/
import Verif.Model.Lsp.ErrorCode

namespace Hdx.Lsp

/-- serde_json's `Value`. A number that is not an integer is kept as its bits. -/
inductive Json where
  | null
  | bool (b : Bool)
  | int (n : Int)
  | float (bits : UInt64)
  | str (s : String)
  | arr (l : List Json)
  | obj (l : List (String × Json))
  deriving Repr

/-- csskit_lsp/src/jsonrpc/id.rs:13-17 `Id`. -/
inductive Id where
  | number (n : Int32)
  | string (s : String)
  deriving DecidableEq, Repr

/-- csskit_lsp/src/jsonrpc/id.rs:19-23 `Default for Id`. -/
def Id.default : Id := .number 0

/-- csskit_lsp/src/jsonrpc/request.rs:9-15 `Request`. -/
structure Request where
  id : Id
  method : String
  params : Json
  deriving Repr

/-- csskit_lsp/src/jsonrpc/notification.rs:7-12 `Notification`. -/
structure Notification where
  method : String
  params : Json
  deriving Repr

/-- csskit_lsp/src/jsonrpc/response.rs:14-22 `Response`. -/
inductive Response where
  | ok (id : Id) (result : Json)
  | err (id : Id) (code : ErrorCode) (message : String) (data : Json)
  deriving Repr

/-- csskit_lsp/src/jsonrpc/message.rs:14-23 `Message`. -/
inductive Message where
  | request (r : Request)
  | response (r : Response)
  | notification (n : Notification)
  deriving Repr

namespace Message

/-- csskit_lsp/src/jsonrpc/message.rs:26-34 `is_exit_notification`. -/
def isExitNotification : Message → Bool
  | .notification n => n.method == "exit"
  | _ => false

/-- csskit_lsp/src/jsonrpc/message.rs:36-44 `is_initialize_request`. -/
def isInitializeRequest : Message → Bool
  | .request r => r.method == "initialize"
  | _ => false

/-- csskit_lsp/src/jsonrpc/message.rs:46-52 `method`. -/
def method : Message → Option String
  | .request r => some r.method
  | .notification n => some n.method
  | .response _ => none

/-- csskit_lsp/src/jsonrpc/message.rs:54-61 `id`. -/
def id : Message → Option Id
  | .request r => some r.id
  | .notification _ => none
  | .response (.ok id _) => some id
  | .response (.err id _ _ _) => some id

/-- csskit_lsp/src/jsonrpc/message.rs:63-70 `from_value`: the value that is deserialised. -/
def value : Message → Json
  | .request r => r.params
  | .notification n => n.params
  | .response (.ok _ v) => v
  | .response (.err _ _ _ v) => v

/-- csskit_lsp/src/jsonrpc/message.rs:72-77 `from_result`. -/
def fromResult (id : Id) : Except ErrorCode Json → Message
  | .error code => .response (.err id code "" .null)
  | .ok v => .response (.ok id v)

end Message

/-! ### To JSON values -/

/-- csskit_lsp/src/jsonrpc/id.rs:12: derived `Serialize`, untagged. -/
def Id.toJson : Id → Json
  | .number n => .int n.toInt
  | .string s => .str s

/-- `#[serde(skip_serializing_if = "serde_json::Value::is_null")]` -/
def paramsField : Json → List (String × Json)
  | .null => []
  | v => [("params", v)]

/-- The fields of a message: derived `Serialize` (request.rs:9, notification.rs:7), response.rs:24-49, untagged (message.rs:14). -/
def Message.fields : Message → List (String × Json)
  | .request r => [("id", r.id.toJson), ("method", .str r.method)] ++ paramsField r.params
  | .notification n => [("method", .str n.method)] ++ paramsField n.params
  | .response (.ok id v) => [("id", id.toJson), ("result", v), ("error", .null)]
  | .response (.err id code message data) =>
    [("id", id.toJson), ("result", .null), ("error", .obj [("code", .int code.toI32.toInt), ("message", .str message), ("data", data)])]

/-- csskit_lsp/src/jsonrpc/message.rs:118-124: the value that `write` turns into text. -/
def Message.toJson (m : Message) : Json := .obj (("jsonrpc", .str "2.0") :: m.fields)

/-! ### From JSON values -/

/-- serde's derived `Deserialize` of a struct, for one field of an object: `error ()` if the field is there twice. -/
def field (l : List (String × Json)) (name : String) : Except Unit (Option Json) :=
  match l.filter (fun x => x.1 == name) with
  | [] => .ok none
  | [x] => .ok (some x.2)
  | _ => .error ()

/-- serde's derived `Deserialize` of a struct: the values of its fields (`none` for those that are missing), from an object - any order,
other fields ignored - or from an array, in the order of the fields, of which only those with a default (all but the first `needed`)
may be missing. -/
def structFields (needed : Nat) (names : List String) : Json → Except Unit (List (Option Json))
  | .obj l => names.mapM (field l)
  | .arr l => if needed ≤ l.length ∧ l.length ≤ names.length then .ok (l.map some ++ List.replicate (names.length - l.length) none) else .error ()
  | _ => .error ()

/-- Deserialises an `i32`. -/
def i32OfJson : Json → Option Int32
  | .int n => if -2147483648 ≤ n ∧ n ≤ 2147483647 then some (Int32.ofInt n) else none
  | _ => none

/-- Deserialises a `String`. -/
def stringOfJson : Json → Option String
  | .str s => some s
  | _ => none

/-- csskit_lsp/src/jsonrpc/id.rs:12: derived `Deserialize`, untagged: a number is tried first. -/
def Id.ofJson (v : Json) : Option Id := ((i32OfJson v).map Id.number).or ((stringOfJson v).map Id.string)

/-- csskit_lsp/src/jsonrpc/request.rs:9-15: derived `Deserialize`. -/
def Request.ofJson (v : Json) : Option Request :=
  match structFields 2 ["id", "method", "params"] v with
  | .ok [some id, some method, params] => do
    let id ← Id.ofJson id
    let method ← stringOfJson method
    pure ⟨id, method, params.getD .null⟩
  | _ => none

/-- csskit_lsp/src/jsonrpc/notification.rs:7-12: derived `Deserialize`. -/
def Notification.ofJson (v : Json) : Option Notification :=
  match structFields 1 ["method", "params"] v with
  | .ok [some method, params] => do
    let method ← stringOfJson method
    pure ⟨method, params.getD .null⟩
  | _ => none

/-- Deserialises an `Option`: a missing field and null are `None`. `none` is a failure. -/
def optionOfJson {α : Type} (f : Json → Option α) : Option Json → Option (Option α)
  | none => some none
  | some .null => some none
  | some v => (f v).map some

/-- csskit_lsp/src/jsonrpc/response.rs:56-62: derived `Deserialize` of `Err`. -/
def errOfJson (v : Json) : Option (Int32 × String × Json) :=
  match structFields 2 ["code", "message", "data"] v with
  | .ok [some code, some message, data] => do
    let code ← i32OfJson code
    let message ← stringOfJson message
    pure (code, message, data.getD .null)
  | _ => none

/-- csskit_lsp/src/jsonrpc/response.rs:51-86 `Deserialize for Response`. -/
def Response.ofJson (v : Json) : Option Response :=
  match structFields 3 ["id", "result", "error"] v with
  | .ok [some id, result, error] => do
    let id ← Id.ofJson id
    let result ← optionOfJson some result
    let error ← optionOfJson errOfJson error
    match result, error with
    | some _, some _ => none
    | some result, none => pure (.ok id result)
    | none, some (code, message, data) => pure (.err id (ErrorCode.ofI32 code) message data)
    | none, none => none
  | _ => none

/-- csskit_lsp/src/jsonrpc/message.rs:14-23: derived `Deserialize`, untagged: the variants are tried in order. -/
def Message.ofJson (v : Json) : Option Message :=
  ((Request.ofJson v).map Message.request).or (((Response.ofJson v).map Message.response).or ((Notification.ofJson v).map Message.notification))

/-! ### Framing -/

/-- An ASCII text as bytes. -/
def ascii (l : List Char) : List UInt8 := l.map fun c => UInt8.ofNat c.toNat

/-- How serde_json writes and reads values. -/
structure Codec where
  print : Json → List UInt8
  parse : List UInt8 → Option Json

/-- The decimal digits of a number. -/
def decimal (n : Nat) : List UInt8 := (Nat.toDigits 10 n).map fun c => UInt8.ofNat c.toNat

/-- csskit_lsp/src/jsonrpc/message.rs:117-130 `write`: what is written. -/
def Message.write (codec : Codec) (m : Message) : List UInt8 :=
  let msg := codec.print m.toJson
  ascii "Content-Length: ".toList ++ decimal msg.length ++ [13, 10, 13, 10] ++ msg

/-- csskit_lsp/src/jsonrpc/message.rs:132-143 `ParseError` (without payloads). -/
inductive ReadError where
  | noLength | headerDecodeMismatch | invalidHeader | encode | utf8 | invalidContentLength | headers | body
  deriving DecidableEq, Repr

/-- `BufRead::read_line`: a line with its newline, or what is there before the end, and the rest. -/
def splitLine : List UInt8 → List UInt8 × List UInt8
  | [] => ([], [])
  | 10 :: r => ([10], r)
  | c :: r => (c :: (splitLine r).1, (splitLine r).2)

theorem splitLine_length (r : List UInt8) : (splitLine r).1.length + (splitLine r).2.length = r.length := by
  fun_induction splitLine r <;> simp_all <;> omega

theorem splitLine_pos {r : List UInt8} (h : (splitLine r).1 ≠ []) : (splitLine r).2.length < r.length := by
  have := splitLine_length r
  have := List.length_pos_iff.mpr h
  omega

/-- csskit_lsp/src/jsonrpc/message.rs:82-92: reads the headers. `none` is the end of the stream. Simplified: `read_line` fails on a
line that is not valid UTF-8; here it fails on a line that is not ASCII. -/
def readHeaders (buf r : List UInt8) : Except ReadError (Option (List UInt8 × List UInt8)) :=
  if (splitLine r).1 = [] then .ok none
  else if (splitLine r).1.any (· ≥ 128) then .error .encode
  else
    let buf := buf ++ (splitLine r).1
    if [13, 10, 13, 10] <:+ buf then .ok (some (buf, (splitLine r).2))
    else readHeaders buf (splitLine r).2
  termination_by r.length
  decreasing_by exact splitLine_pos (by assumption)

/-- The characters httparse takes as part of a header name: RFC 9110 `token`. -/
def isTokenByte (c : UInt8) : Bool :=
  (48 ≤ c && c ≤ 57) || (65 ≤ c && c ≤ 90) || (97 ≤ c && c ≤ 122) || (ascii "!#$%&'*+-.^_`|~".toList).contains c

/-- The characters httparse takes as part of a header value. -/
def isValueByte (c : UInt8) : Bool := c == 9 || (32 ≤ c && c ≠ 127)

/-- Drops spaces and tabs at the end. -/
def trimEnd (l : List UInt8) : List UInt8 := (l.reverse.dropWhile fun c => c == 32 || c == 9).reverse

/-- httparse's `parse_headers` into an array of `n` headers, from the start of a line: the headers and the number of bytes after
them; `none` if the text ends before an empty line does. -/
def parseHeaders : Nat → List UInt8 → Except ReadError (Option (List (List UInt8 × List UInt8) × Nat))
  | _, 13 :: 10 :: rest => .ok (some ([], rest.length))
  | _, 10 :: rest => .ok (some ([], rest.length))
  | 0, _ => .error .headers
  | n + 1, l =>
    let name := l.takeWhile isTokenByte
    match l.dropWhile isTokenByte with
    | [] => .ok none
    | 58 :: l =>
      if name = [] then .error .headers
      else
        let l := l.dropWhile fun c => c == 32 || c == 9
        let value := l.takeWhile isValueByte
        match l.dropWhile isValueByte with
        | [] => .ok none
        | 13 :: 10 :: rest => (parseHeaders n rest).map (·.map fun r => ((name, trimEnd value) :: r.1, r.2))
        | 10 :: rest => (parseHeaders n rest).map (·.map fun r => ((name, trimEnd value) :: r.1, r.2))
        | _ => .error .headers
    | _ => .error .headers

/-- `eq_ignore_ascii_case` with a lower case name. -/
def lowerName (l : List UInt8) : List UInt8 := l.map fun c => if 65 ≤ c && c ≤ 90 then c + 32 else c

/-- `str::parse::<usize>`: digits with at most one plus sign before them, without overflow. -/
def parseUsize (l : List UInt8) : Option Nat :=
  let digits := match l with
    | 43 :: l => l
    | l => l
  if digits = [] then none
  else if digits.all fun c => 48 ≤ c && c ≤ 57 then
    let n := digits.foldl (fun n c => n * 10 + (c.toNat - 48)) 0
    if n < 18446744073709551616 then some n else none
  else none

/-- csskit_lsp/src/jsonrpc/message.rs:99-108: the loop over the headers. -/
def contentLength : List (List UInt8 × List UInt8) → Nat → Except ReadError Nat
  | [], n => .ok n
  | (name, value) :: rest, n =>
    if lowerName name = ascii "content-length".toList then
      match parseUsize value with
      | some n => contentLength rest n
      | none => .error .invalidContentLength
    else if lowerName name = ascii "content-type".toList then contentLength rest n
    else .error .invalidHeader

/-- csskit_lsp/src/jsonrpc/message.rs:81-115 `read`: the message, if there is one, and the rest of the stream. Simplified: the headers
that are parsed before the text ends without an empty line are not looked at (that cannot happen after `readHeaders`, whose text ends
with one). -/
def Message.read (codec : Codec) (r : List UInt8) : Except ReadError (Option Message × List UInt8) :=
  match readHeaders [] r with
  | .error e => .error e
  | .ok none => .ok (none, [])
  | .ok (some (buf, r)) =>
    match parseHeaders 2 buf with
    | .error e => .error e
    | .ok none => .error .noLength
    | .ok (some (headers, left)) =>
      if left ≠ 0 then .error .headerDecodeMismatch
      else
        match contentLength headers 0 with
        | .error e => .error e
        | .ok n =>
          if n = 0 then .error .noLength
          else if r.length < n then .error .encode
          else
            match (codec.parse (r.take n)).bind Message.ofJson with
            | none => .error .body
            | some m => .ok (some m, r.drop n)

end Hdx.Lsp

/-
Specification: JSON-RPC 2.0 objects (jsonrpc.org/specification, sections 4 and 5) and the base protocol of the Language Server
Protocol (header part and content part).
-/
import Verif.Model.Lsp.Message

namespace Hdx.Lsp.Spec

/-- The object has this member, once. -/
def Member (l : List (String × Json)) (name : String) (v : Json) : Prop := l.filter (fun x => x.1 == name) = [(name, v)]

/-- The object has no such member. -/
def Absent (l : List (String × Json)) (name : String) : Prop := ∀ v, (name, v) ∉ l

/-- A structured value. -/
def Structured : Json → Prop
  | .arr _ | .obj _ => True
  | _ => False

/-- Section 4: a request object with an id. `params` may be left out. -/
structure RequestObject (l : List (String × Json)) (id : Json) (method : String) (params : Option Json) : Prop where
  version : Member l "jsonrpc" (.str "2.0")
  method : Member l "method" (.str method)
  id : Member l "id" id
  params : match params with
    | some v => Member l "params" v ∧ Structured v
    | none => Absent l "params"

/-- Section 4.1: a notification is a request object without an id. -/
structure NotificationObject (l : List (String × Json)) (method : String) (params : Option Json) : Prop where
  version : Member l "jsonrpc" (.str "2.0")
  method : Member l "method" (.str method)
  id : Absent l "id"
  params : match params with
    | some v => Member l "params" v ∧ Structured v
    | none => Absent l "params"

/-- Section 5: a response object for a success: the member `error` must not exist. -/
structure ResultObject (l : List (String × Json)) (id result : Json) : Prop where
  version : Member l "jsonrpc" (.str "2.0")
  id : Member l "id" id
  result : Member l "result" result
  error : Absent l "error"

/-- Section 5.1: an error object. -/
structure ErrorObject (l : List (String × Json)) (code : Int) (message : String) (data : Json) : Prop where
  code : Member l "code" (.int code)
  message : Member l "message" (.str message)
  data : Member l "data" data

/-- A member that is missing or null. -/
def AbsentOrNull (l : List (String × Json)) (name : String) : Prop := Absent l name ∨ Member l name .null

/-- Spaces and tabs. -/
def Blanks (l : List UInt8) : Prop := ∀ c ∈ l, c = 32 ∨ c = 9

/-- The end of a line. -/
def LineEnd (l : List UInt8) : Prop := l = [13, 10] ∨ l = [10]

/-- A header part with these fields: one line each, and an empty line. -/
inductive HeaderPart : List (List UInt8 × List UInt8) → List UInt8 → Prop
  | done {e : List UInt8} : LineEnd e → HeaderPart [] e
  | field {name value before after e rest : List UInt8} {fields : List (List UInt8 × List UInt8)} : name ≠ [] → (∀ c ∈ name, isTokenByte c = true) →
      Blanks before → Blanks after → LineEnd e → HeaderPart fields rest →
      HeaderPart ((name, value) :: fields) (name ++ [58] ++ before ++ value ++ after ++ e ++ rest)

/-- The two fields the protocol defines. -/
def IsLength (name : List UInt8) : Prop := lowerName name = ascii "content-length".toList
def IsType (name : List UInt8) : Prop := lowerName name = ascii "content-type".toList

end Hdx.Lsp.Spec

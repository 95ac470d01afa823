import Verif.Model.Exec
import Verif.Spec.Query

/-!
# What a request should contain
-/

namespace Progenitor.Spec

open Progenitor Progenitor.Params Progenitor.Client Progenitor.Query Progenitor.Exec

/-- The text of an argument, if it is given. -/
def argText : Value → Option Str
  | .plain a => some a.display
  | .opt o => o.map Arg.display
  | _ => none

/-- The serializable content of an argument. -/
def argSer : Value → Option Ser
  | .plain a => some a.ser
  | .opt none => some .none
  | .opt (some a) => some (.some a.ser)
  | _ => none

/-- The header arguments of a call: API name and text, in signature order. -/
def headerArgs (params : List Param) (args : List Value) : List (Str × Option Str) :=
  (params.zip args).filterMap fun pv => match pv.1.kind with
    | .header _ => some (pv.1.apiName, argText pv.2)
    | _ => none

/-- The query arguments of a call: API name and value, in signature order. -/
def queryArgs (params : List Param) (args : List Value) : List (Str × Ser) :=
  (params.zip args).filterMap fun pv => match pv.1.kind with
    | .query _ => (argSer pv.2).map fun s => (pv.1.apiName, s)
    | _ => none

/-- The argument of the path parameter with API name `n`. -/
def PathArg (params : List Param) (args : List Value) (n t : Str) : Prop :=
  ∃ p v, (p, v) ∈ params.zip args ∧ p.kind = .path ∧ p.apiName = n ∧ argText v = some t

/-- The values of a header in a request. -/
def values (h : Headers) (n : Str) : List Bytes := (h.filter fun e => e.1 = n).map Prod.snd

/-- The values that a call sets explicitly for header `n` (a lower-case name): the
API version and the given header arguments. -/
def explicitValues (apiVersion : Str) (params : List Param) (args : List Value) (n : Str) : List Bytes :=
  (if n = Hdr.apiVersion then [utf8 apiVersion] else []) ++
  (headerArgs params args).filterMap fun e =>
    if lowerName e.1 = n then e.2.map utf8 else none

/-- The `Content-Type` that belongs to an operation with these parameters. -/
def bodyLabels (params : List Param) : List Str :=
  params.filterMap fun p => match p.kind with
    | .body .octetStream => some Mime.octets
    | .body .json => some Mime.json
    | .body .form => some Mime.form
    | .body (.text m) => some m
    | _ => none

/-- The headers of a websocket handshake. -/
def handshake (key : Str) : List (Str × Str) :=
  [(Hdr.connection, "Upgrade".toList), (Hdr.upgrade, "websocket".toList),
   (Hdr.wsVersion, "13".toList), (Hdr.wsKey, key)]

/-- The bytes of the body for content type `ct` and argument `v`: raw bodies as they are,
JSON by the JSON serializer, forms by `application/x-www-form-urlencoded`. -/
inductive Encodes (toJson : Ser → Except Unit Bytes) : ContentType → Value → Bytes → Prop
  | octets (b) : Encodes toJson .octetStream (.raw b) b
  | text (m b) : Encodes toJson (.text m) (.raw b) b
  | json (v s b) : argSer v = some s → toJson s = .ok b → Encodes toJson .json v b
  | form (v s ps t) : argSer v = some s → top s = .ok ps → t = appendPairs [] ps →
      Encodes toJson .form v (utf8 t)

/-- A call of the method generated for `op` gets as far as having the request `r`. -/
def Issues (cfg : Config) (op : OperationMethod) (args : List Value) (r : Request) : Prop :=
  ∃ c env, methodSigBody op = .ok c ∧ bindArgs op.params args = some env ∧ build cfg c env = .request r

end Progenitor.Spec

import Verif.Model.Client

/-!
# Messages of errors

Model of `/repo/progenitor-client/src/progenitor_client.rs:297-405`: conversions into `Error`, `Display`, `Debug`.
`Display` and `Debug` of other types are arbitrary functions.
-/

namespace Progenitor.Client

open Progenitor

/-- `dyn std::error::Error`: its `Display` and its `source()`. -/
inductive Cause where
  | last (text : Str)
  | from (text : Str) (source : Cause)

/-- `Display` of a `dyn Error`. -/
def Cause.text : Cause → Str
  | .last t => t
  | .from t _ => t

/-- `source()` of a `dyn Error`. -/
def Cause.source : Cause → Option Cause
  | .last _ => none
  | .from _ s => some s

/-- How the parts of errors are printed. -/
structure Printers (P E : Type) where
  /-- `reqwest::Error` as an error. -/
  reqwest : ReqwestError → Cause
  /-- `serde_json::Error` as an error. -/
  json : P → Cause
  /-- `{:?}` of `Bytes`. -/
  bytes : Bytes → Str
  /-- `{:?}` of `reqwest::Response`. -/
  response : HttpResponse → Str
  /-- `{}` of `StatusCode`. -/
  status : Nat → Str
  /-- `{:?}` of `HeaderMap`. -/
  headers : Headers → Str
  /-- `{:?}` of the value of an error response; `none` for `ByteStream`. -/
  value : Option (E → Str)

variable {P E : Type}

/-- progenitor_client.rs:361-385 `fmt_info`. -/
def Printers.info (p : Printers P E) (rv : ResponseValue E) : Str :=
  match p.value with
  | some f => "status: ".toList ++ p.status rv.status ++ "; headers: ".toList ++ p.headers rv.headers ++
      "; value: ".toList ++ f rv.inner
  | none => "status: ".toList ++ p.status rv.status ++ "; headers: ".toList ++ p.headers rv.headers ++
      "; value: <stream>".toList

/-- `source` as a `dyn Error` (progenitor_client.rs:397-405). -/
def Error.cause (p : Printers P E) (e : Error P E) : Option Cause :=
  match e.source with
  | some (.reqwest e) => some (p.reqwest e)
  | some (.json e) => some (p.json e)
  | none => none

/-- progenitor_client.rs:345-349: the loop, from a source on. -/
def Cause.loop : Cause → Str
  | .last t => ": ".toList ++ t
  | .from t s => ": ".toList ++ t ++ s.loop

/-- progenitor_client.rs:345-349: the loop over sources. -/
def sourceLoop : Option Cause → Str
  | none => []
  | some c => c.loop

/-- progenitor_client.rs:313-340. -/
def Error.message (p : Printers P E) : Error P E → Str
  | .invalidRequest s => "Invalid Request: ".toList ++ s
  | .communicationError e => "Communication Error: ".toList ++ (p.reqwest e).text
  | .errorResponse rv => "Error Response: ".toList ++ p.info rv
  | .invalidUpgrade e => "Invalid Response Upgrade: ".toList ++ (p.reqwest e).text
  | .responseBodyError e => "Invalid Response Body Bytes: ".toList ++ (p.reqwest e).text
  | .invalidResponsePayload b e => "Invalid Response Payload (".toList ++ p.bytes b ++ "): ".toList ++ (p.json e).text
  | .unexpectedResponse r => "Unexpected Response: ".toList ++ p.response r
  | .preHookError s => "Pre-hook Error: ".toList ++ s
  | .postHookError s => "Post-hook Error: ".toList ++ s

/-- progenitor_client.rs:308-352 `Display`: `{}` and `{:#}`. -/
def Error.display (p : Printers P E) (alternate : Bool) (e : Error P E) : Str :=
  e.message p ++ if alternate then sourceLoop ((e.cause p).bind Cause.source) else []

/-- progenitor_client.rs:387-394 `Debug`. -/
def Error.debug (p : Printers P E) (alternate : Bool) (e : Error P E) : Str := e.display p alternate

/-- progenitor_client.rs:297-301 `From<reqwest::Error>`. -/
def Error.ofReqwest (e : ReqwestError) : Error P E := .communicationError e

/-- progenitor_client.rs:303-307 `From<InvalidHeaderValue>`; the argument is its `to_string()`. -/
def Error.ofInvalidHeader (text : Str) : Error P E := .invalidRequest text

end Progenitor.Client

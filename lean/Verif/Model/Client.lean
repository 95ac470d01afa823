import Verif.Model.Basic

/-!
# The runtime support crate

Model of `/repo/progenitor-client/src/progenitor_client.rs`: `ResponseValue`,
`Error` and their accessors.
-/

namespace Progenitor.Client

open Progenitor

/-- `http::HeaderMap`: name/value pairs; names are stored in lower case; values of
the same name are in insertion order. -/
abbrev Headers := List (Str × Bytes)

/-- `HeaderMap::get`: the first value of a name. -/
def Headers.get (h : Headers) (name : Str) : Option Bytes :=
  (h.find? fun e => e.1 = name).map Prod.snd

/-- `reqwest::Error`, as far as it is observed: an identity and `status()`. -/
structure ReqwestError where
  id : Nat
  status : Option Nat
  deriving DecidableEq, Repr

/-- `reqwest::Response`: reading the body or upgrading the connection may fail. -/
structure HttpResponse where
  status : Nat
  headers : Headers
  body : Except ReqwestError Bytes
  upgrade : Except ReqwestError Nat

/-- progenitor_client.rs:55-60 `struct ResponseValue<T>`. -/
structure ResponseValue (T : Type) where
  inner : T
  status : Nat
  headers : Headers

/-- progenitor_client.rs:224-252 `enum Error<E>`.  `E` is the type of error values,
`P` that of `serde_json` errors. -/
inductive Error (P E : Type) where
  | invalidRequest (msg : Str)
  | communicationError (e : ReqwestError)
  | invalidUpgrade (e : ReqwestError)
  | errorResponse (rv : ResponseValue E)
  | responseBodyError (e : ReqwestError)
  | invalidResponsePayload (bytes : Bytes) (e : P)
  | unexpectedResponse (r : HttpResponse)
  | preHookError (msg : Str)
  | postHookError (msg : Str)

variable {P E T U : Type}

/-- progenitor_client.rs:64-76 `ResponseValue::from_response`; `decode` is
`serde_json::from_slice`. -/
def fromResponse (decode : Bytes → Except P T) (r : HttpResponse) :
    Except (Error P E) (ResponseValue T) :=
  match r.body with
  | .error e => .error (.responseBodyError e)
  | .ok full =>
    match decode full with
    | .error e => .error (.invalidResponsePayload full e)
    | .ok inner => .ok ⟨inner, r.status, r.headers⟩

/-- progenitor_client.rs:82-98 `ResponseValue::upgrade`. -/
def upgrade (r : HttpResponse) : Except (Error P E) (ResponseValue Nat) :=
  if r.status = 101 then
    match r.upgrade with
    | .error e => .error (.invalidUpgrade e)
    | .ok inner => .ok ⟨inner, r.status, r.headers⟩
  else .error (.unexpectedResponse r)

/-- progenitor_client.rs:103-111 `ResponseValue::stream`; the stream is
represented by what it yields. -/
def stream (r : HttpResponse) : ResponseValue (Except ReqwestError Bytes) :=
  ⟨r.body, r.status, r.headers⟩

/-- progenitor_client.rs:116-126 `ResponseValue::empty`. -/
def empty (r : HttpResponse) : ResponseValue Unit := ⟨(), r.status, r.headers⟩

/-- progenitor_client.rs:168-183 `ResponseValue::map` (which never returns `Err`). -/
def ResponseValue.map (rv : ResponseValue T) (f : T → U) : ResponseValue U :=
  ⟨f rv.inner, rv.status, rv.headers⟩

/-- progenitor_client.rs:256-268 `Error::status`. -/
def Error.status : Error P E → Option Nat
  | .invalidRequest _ => none
  | .preHookError _ => none
  | .postHookError _ => none
  | .communicationError e => e.status
  | .errorResponse rv => some rv.status
  | .invalidUpgrade e => e.status
  | .responseBodyError e => e.status
  | .invalidResponsePayload _ _ => none
  | .unexpectedResponse r => some r.status

/-- progenitor_client.rs:274-294 `Error::into_untyped`. -/
def Error.intoUntyped : Error P E → Error P Unit
  | .invalidRequest s => .invalidRequest s
  | .preHookError s => .preHookError s
  | .postHookError s => .postHookError s
  | .communicationError e => .communicationError e
  | .errorResponse rv => .errorResponse ⟨(), rv.status, rv.headers⟩
  | .invalidUpgrade e => .invalidUpgrade e
  | .responseBodyError e => .responseBodyError e
  | .invalidResponsePayload b e => .invalidResponsePayload b e
  | .unexpectedResponse r => .unexpectedResponse r

/-- The cause reported by `Error::source`. -/
inductive Source (P : Type) where
  | reqwest (e : ReqwestError)
  | json (e : P)

/-- progenitor_client.rs:397-405 `Error::source`. -/
def Error.source : Error P E → Option (Source P)
  | .communicationError e => some (.reqwest e)
  | .invalidUpgrade e => some (.reqwest e)
  | .responseBodyError e => some (.reqwest e)
  | .invalidResponsePayload _ e => some (.json e)
  | _ => none

/-! ## `content_length` -/

/-- `HeaderValue::to_str` succeeds: every byte is visible ASCII or a tab. -/
def visibleAscii (b : UInt8) : Bool := (32 ≤ b && b < 127) || b == 9

/-- `u64::from_str`: one digit of the accumulation loop with
`checked_mul`/`checked_add`. -/
def digitStep (acc : Nat) (b : UInt8) : Option Nat :=
  if 48 ≤ b ∧ b ≤ 57 then
    let m := acc * 10
    if m < 2 ^ 64 then
      let s := m + (b.toNat - 48)
      if s < 2 ^ 64 then some s else none
    else none
  else none

/-- `u64::from_str`: the loop. -/
def digits : Nat → Bytes → Option Nat
  | acc, [] => some acc
  | acc, b :: bs => do
    let acc' ← digitStep acc b
    digits acc' bs

/-- `u64::from_str`: empty input and a lone sign are errors, a leading `+` is
skipped (a leading `-` is an invalid digit). -/
def parseU64 (s : Bytes) : Option Nat :=
  match s with
  | [] => none
  | [43] => none
  | 43 :: ds => digits 0 ds
  | ds => digits 0 ds

/-- progenitor_client.rs:158-165 `ResponseValue::content_length`. -/
def ResponseValue.contentLength (rv : ResponseValue T) : Option Nat := do
  let v ← rv.headers.get "content-length".toList
  if v.all visibleAscii then parseU64 v else none

end Progenitor.Client

import Verif.Model.Client
import Verif.Model.Params

/-!
# Responses of an operation

Model of the response handling in `/repo/progenitor-impl/src/method.rs`:
classification of documented responses, the generated `match` on the status
code, and what its arms do.
-/

namespace Progenitor.Resp

open Progenitor Progenitor.Client

abbrev TypeId := Params.TypeId

/-- method.rs:199-204 `enum OperationResponseStatus`. -/
inductive Status where
  | code (n : Nat)
  | range (n : Nat)
  | default
  deriving DecidableEq, Repr

/-- method.rs:257-263 `enum OperationResponseKind`. -/
inductive Kind where
  | type (t : TypeId)
  | none
  | raw
  | upgrade
  deriving DecidableEq, Repr

/-- method.rs:172-180 `struct OperationResponse` (without the description). -/
structure Response where
  status : Status
  kind : Kind
  deriving DecidableEq, Repr

/-- method.rs:207-219 `to_value`. -/
def Status.toValue : Status → Res Nat
  | .code c => if c < 1000 then .ok c else .panic "assertion failed: *code < 1000".toList
  | .range r => if r < 10 then .ok (r * 100) else .panic "assertion failed: *range < 10".toList
  | .default => .ok 1000

/-- method.rs:221-229 `is_success_or_default`. -/
def Status.isSuccessOrDefault : Status → Bool
  | .default => true
  | .code c => c == 101 || (200 ≤ c && c ≤ 299)
  | .range r => r == 2

/-- method.rs:231-238 `is_error_or_default`. -/
def Status.isErrorOrDefault : Status → Bool
  | .default => true
  | .code c => 400 ≤ c && c ≤ 599
  | .range r => 4 ≤ r && r ≤ 5

/-! ## From the document to `OperationMethod::responses` -/

/-- openapiv3 `MediaType` as looked at here: is `encoding` empty, and the type of
the schema (if there is one). -/
structure Media where
  encodingEmpty : Bool
  schema : Option TypeId
  deriving DecidableEq, Repr

/-- openapiv3 `Response` after reference resolution: the content map in document order. -/
abbrev DocResponse := List (Str × Media)

/-- openapiv3 `StatusCode`. -/
inductive DocStatus where
  | code (n : Nat)
  | range (n : Nat)
  deriving DecidableEq, Repr

/-- method.rs:437-440. -/
def DocStatus.toStatus : DocStatus → Status
  | .code c => .code c
  | .range r => .range r

/-- method.rs:458-460: the first JSON media type. -/
def jsonMedia (r : DocResponse) : Option Media :=
  (r.find? fun e => e.1 = "application/json".toList ∨
    "application/json;".toList.isPrefixOf e.1).map Prod.snd

/-- method.rs:458-481: the kind of a documented response. -/
def kindOf (websocket : Bool) (r : DocResponse) : Res Kind :=
  match jsonMedia r with
  | some mt =>
    if mt.encodingEmpty then
      match mt.schema with
      | some t => .ok (.type t)
      | none => .panic "not yet implemented: media type encoding, no schema".toList
    else .panic "assertion failed: mt.encoding.is_empty()".toList
  | none =>
    if websocket then .ok .upgrade
    else if r.isEmpty then .ok .none
    else .ok .raw

/-- method.rs:484-491: does this status cover success cases? -/
def coversSuccess : Status → Bool
  | .default => true
  | .code c => 200 ≤ c && c ≤ 299
  | .range r => r == 2

/-- method.rs:445-505: `.map(..).collect::<Result<Vec<_>>>()`. -/
def convertAll (websocket : Bool) : List (Status × DocResponse) → Res (List Response)
  | [] => .ok []
  | (s, r) :: rest => do
    let k ← kindOf websocket r
    let rs ← convertAll websocket rest
    pure (⟨s, k⟩ :: rs)

/-- method.rs:421-526: `responses` of the operation: the default response first,
then the others in document order, then the synthesized ones. -/
def processResponses (websocket : Bool) (default : Option DocResponse)
    (codes : List (DocStatus × DocResponse)) : Res (List Response) := do
  let declared := default.toList.map (fun r => (Status.default, r)) ++
    codes.map (fun e => (e.1.toStatus, e.2))
  let rs ← convertAll websocket declared
  let rs := if rs.any (fun r => coversSuccess r.status) then rs else rs ++ [⟨.range 2, .raw⟩]
  pure (if websocket then rs ++ [⟨.code 101, .upgrade⟩] else rs)

/-! ## `extract_responses` -/

/-- method.rs:188-197, 245-255: `a < b` as seen by `sort()`. -/
def lessStatus (a b : Response) : Res Bool := do
  let x ← a.status.toValue
  let y ← b.status.toValue
  pure (decide (x < y))

/-- method.rs:1170-1188: drop a default response directly after the range 2XX. -/
def popDefault (items : List Response) : List Response :=
  match items.reverse with
  | ⟨.default, _⟩ :: ⟨.range 2, k⟩ :: rest => (⟨.range 2, k⟩ :: rest).reverse
  | _ => items

/-- method.rs:1158-1204 `extract_responses`.  `sort()` is stable; insertion sort
stands for it (the order by status value is a total preorder). -/
def extract (filter : Status → Bool) (responses : List Response) :
    Res (List Response × Kind) := do
  let items ← Params.sortLoop lessStatus [] (responses.filter fun r => filter r.status)
  let items := popDefault items
  match items with
  | [] => pure (items, .none)
  | r :: rest =>
    if rest.all (fun r' => r'.kind == r.kind) then pure (items, r.kind)
    else .panic "assertion failed: response_types.len() <= 1".toList

/-! ## The generated `match` -/

/-- Patterns of the generated `match`. -/
inductive Pat where
  | lit (n : Nat)
  | between (lo hi : Nat)
  | wild
  deriving DecidableEq, Repr

def Pat.matches : Pat → Nat → Bool
  | .lit n, s => s == n
  | .between lo hi, s => lo ≤ s && s ≤ hi
  | .wild, _ => true

/-- What an arm does with the response. -/
inductive Act where
  | ok (k : Kind)
  | err (k : Kind)
  | unexpected
  deriving DecidableEq, Repr

structure Arm where
  pat : Pat
  act : Act
  deriving DecidableEq, Repr

/-- method.rs:932-964: an arm for a success response. -/
def successArm (r : Response) : Arm :=
  match r.status with
  | .code c => ⟨.lit c, .ok r.kind⟩
  | .range _ => ⟨.between 200 299, .ok r.kind⟩
  | .default => ⟨.between 200 299, .ok r.kind⟩

/-- method.rs:970-1022: the arm (possibly none) for an error response. -/
def errorArm (r : Response) : Res (List Arm) :=
  let pat := match r.status with
    | .code c => Pat.lit c
    | .range n => .between (n * 100) (n * 100 + 99)
    | .default => .wild
  match r.kind with
  | .upgrade =>
    if r.status = .default then .ok []
    else .panic "not yet implemented: non-default error response handling for upgrade".toList
  | k => .ok [⟨pat, .err k⟩]

def errorArms : List Response → Res (List Arm)
  | [] => .ok []
  | r :: rs => do
    let a ← errorArm r
    let as ← errorArms rs
    pure (a ++ as)

/-- method.rs:1046-1051: the catch-all arm. -/
def catchAll (responses : List Response) : List Arm :=
  match responses.getLast? with
  | some ⟨.default, _⟩ => []
  | _ => [⟨.wild, .unexpected⟩]

/-- What `method_sig_body` derives from the responses. -/
structure Dispatch where
  arms : List Arm
  success : Kind
  error : Kind
  deriving DecidableEq, Repr

/-- method.rs:929-1051, 1111-1144: success arms, error arms, catch-all. -/
def genMatch (responses : List Response) : Res Dispatch := do
  let (sItems, sKind) ← extract Status.isSuccessOrDefault responses
  let (eItems, eKind) ← extract Status.isErrorOrDefault responses
  let eArms ← errorArms eItems
  pure ⟨sItems.map successArm ++ eArms ++ catchAll responses, sKind, eKind⟩

/-- Semantics of `match`: the first matching arm; `none` would be a
non-exhaustive match, which rustc rejects. -/
def dispatch (arms : List Arm) (s : Nat) : Option Act :=
  (arms.find? fun a => a.pat.matches s).map Arm.act

/-- method.rs:1024-1038: is `Accept: application/json` sent? -/
def acceptJson (d : Dispatch) : Bool :=
  match d.success, d.error with
  | .type _, _ => true
  | .none, .type _ => true
  | _, _ => false

/-! ## What the arms do -/

/-- The value inside a `ResponseValue` returned by a generated method. -/
inductive Inner (V : Type) where
  | value (v : V)
  | unit
  | stream (body : Except ReqwestError Bytes)
  | upgraded (conn : Nat)

variable {P V : Type}

/-- The result of a generated method. -/
abbrev Outcome (P V : Type) := Except (Error P (Inner V)) (ResponseValue (Inner V))

/-- method.rs:940-961, 986-1019, 1049: execute an arm.  `decode t` is JSON
deserialization to type `t`. -/
def perform (decode : TypeId → Bytes → Except P V) (a : Act) (r : HttpResponse) : Outcome P V :=
  match a with
  | .ok (.type t) => (fromResponse (decode t) r).map (·.map .value)
  | .ok .none => .ok ((empty r).map fun _ => .unit)
  | .ok .raw => .ok ((stream r).map .stream)
  | .ok .upgrade => (upgrade r).map (·.map .upgraded)
  | .err (.type t) =>
    match fromResponse (decode t) r with
    | .error e => .error e
    | .ok rv => .error (.errorResponse (rv.map .value))
  | .err .none => .error (.errorResponse ((empty r).map fun _ => .unit))
  | .err .raw => .error (.errorResponse ((stream r).map .stream))
  -- never generated, see `errorArm`
  | .err .upgrade => .error (.unexpectedResponse r)
  | .unexpected => .error (.unexpectedResponse r)

/-- method.rs:1109-1144: `let response = result?; match response.status() {..}`. -/
def handle (decode : TypeId → Bytes → Except P V) (d : Dispatch)
    (result : Except ReqwestError HttpResponse) : Option (Outcome P V) :=
  match result with
  | .error e => some (.error (.communicationError e))
  | .ok r => (dispatch d.arms r.status).map fun a => perform decode a r

end Progenitor.Resp

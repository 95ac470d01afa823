import Verif.Model.Regex
import Verif.Model.Operation
import Verif.Model.Names

/-!
# Mock servers

Model of `/repo/progenitor-impl/src/httpmock.rs`: the emitted `When` and `Then` wrappers, and what the expectations mean
(`httpmock`: all have to hold).
-/

namespace Progenitor.Mock

open Progenitor Progenitor.Params Progenitor.Exec Progenitor.Query

/-! ## `When` -/

/-- `serde_json`: the JSON value of a Rust value (`to_value`), and that of a text. -/
class JsonLib where
  J : Type
  value : Ser → Option J
  parse : Bytes → Option J

/-- The text is JSON for the value. -/
def SameJson [JsonLib] (s : Ser) (b : Bytes) : Prop := ∃ j, JsonLib.value s = some j ∧ JsonLib.parse b = some j

/-- An expectation on a request. -/
inductive Expect where
  /-- `path_matches` -/
  | path (re : List Regex.Item)
  /-- `query_param` -/
  | query (name value : Str)
  /-- httpmock.rs:216-224: no parameter of this name -/
  | noQuery (name : Str)
  /-- `json_body`, `json_body_obj` -/
  | json (v : Ser)
  /-- `body` -/
  | text (b : Bytes)

structure When where
  method : HttpMethod
  expects : List Expect

/-- The result of emitted code. -/
inductive Outcome where
  | noCompile
  | panicked
  /-- a regular expression outside of what is modelled -/
  | other
  | when (w : When)

/-- `regex::Regex::new(t).unwrap()`, then `path_matches`. -/
def pathMatches (t : Str) (w : When) : Outcome :=
  match Regex.parse t with
  | .regex l => .when { w with expects := w.expects ++ [.path l] }
  | .invalid => .panicked
  | .other => .other

/-- httpmock.rs:146, 256-260: `new`. -/
def whenNew (op : OperationMethod) : Outcome := pathMatches (Template.asWildcard op.path) ⟨op.method, []⟩

/-- `json_body_obj`: panics if the value has no JSON. -/
def jsonBody [JsonLib] (v : Ser) (w : When) : Outcome :=
  if (JsonLib.value v).isSome then .when { w with expects := w.expects ++ [.json v] } else .panicked

/-- httpmock.rs:150-252: the method for parameter `p`, called with `v`.  That every type of a path or query parameter has
`to_string` and that typed bodies are passed by reference is taken for granted here; see `Model/MockDoc.lean`. -/
def whenParam [JsonLib] (op : OperationMethod) (p : Param) (v : Value) (w : When) : Outcome :=
  match p.kind, v with
  | .path, .plain a =>
    match Template.rustFormat (Template.asWildcardParam op.path p.apiName) [a.display] with
    | none => .noCompile
    | some t => pathMatches t w
  | .query true, .plain a => .when { w with expects := w.expects ++ [.query p.name a.display] }
  | .query false, .opt (some a) => .when { w with expects := w.expects ++ [.query p.name a.display] }
  | .query false, .opt none => .when { w with expects := w.expects ++ [.noQuery p.name] }
  | .header _, _ => .panicked
  | .body ct, v =>
    match p.typ, ct, v with
    | .type _, _, .plain a => jsonBody a.ser w
    | .rawBody, .octetStream, .plain a => jsonBody a.ser w
    | .rawBody, .text _, .raw b => .when { w with expects := w.expects ++ [.text b] }
    | _, _, _ => .noCompile
  | _, _ => .noCompile

/-- A chain of calls. -/
def whenParams [JsonLib] (op : OperationMethod) : List (Param × Value) → When → Outcome
  | [], w => .when w
  | (p, v) :: rest, w =>
    match whenParam op p v w with
    | .when w => whenParams op rest w
    | .other => .other
    | .panicked => .panicked
    | .noCompile => .noCompile

/-- `when.operation().p1(v1).p2(v2)..` -/
def whenAll [JsonLib] (op : OperationMethod) (l : List (Param × Value)) : Outcome :=
  match whenNew op with
  | .when w => whenParams op l w
  | o => o

/-- A request as a server sees it: path as sent, decoded parameters, body. -/
structure Seen where
  method : HttpMethod
  path : Str
  query : List (Bytes × Bytes)
  body : Bytes

def Expect.Holds [JsonLib] (r : Seen) : Expect → Prop
  | .path re => Regex.IsMatch re r.path
  | .query n v => (utf8 n, utf8 v) ∈ r.query
  | .noQuery n => ∀ v, (utf8 n, v) ∉ r.query
  | .json v => SameJson v r.body
  | .text b => r.body = b

def When.Matches [JsonLib] (w : When) (r : Seen) : Prop := w.method = r.method ∧ ∀ e ∈ w.expects, e.Holds r

/-! ## `Then` -/

/-- `http::StatusCode::canonical_reason` (http 1). -/
def canonicalReason : Nat → Option String
  | 100 => some "Continue"
  | 101 => some "Switching Protocols"
  | 102 => some "Processing"
  | 200 => some "OK"
  | 201 => some "Created"
  | 202 => some "Accepted"
  | 203 => some "Non Authoritative Information"
  | 204 => some "No Content"
  | 205 => some "Reset Content"
  | 206 => some "Partial Content"
  | 207 => some "Multi-Status"
  | 208 => some "Already Reported"
  | 226 => some "IM Used"
  | 300 => some "Multiple Choices"
  | 301 => some "Moved Permanently"
  | 302 => some "Found"
  | 303 => some "See Other"
  | 304 => some "Not Modified"
  | 305 => some "Use Proxy"
  | 307 => some "Temporary Redirect"
  | 308 => some "Permanent Redirect"
  | 400 => some "Bad Request"
  | 401 => some "Unauthorized"
  | 402 => some "Payment Required"
  | 403 => some "Forbidden"
  | 404 => some "Not Found"
  | 405 => some "Method Not Allowed"
  | 406 => some "Not Acceptable"
  | 407 => some "Proxy Authentication Required"
  | 408 => some "Request Timeout"
  | 409 => some "Conflict"
  | 410 => some "Gone"
  | 411 => some "Length Required"
  | 412 => some "Precondition Failed"
  | 413 => some "Payload Too Large"
  | 414 => some "URI Too Long"
  | 415 => some "Unsupported Media Type"
  | 416 => some "Range Not Satisfiable"
  | 417 => some "Expectation Failed"
  | 418 => some "I'm a teapot"
  | 421 => some "Misdirected Request"
  | 422 => some "Unprocessable Entity"
  | 423 => some "Locked"
  | 424 => some "Failed Dependency"
  | 425 => some "Too Early"
  | 426 => some "Upgrade Required"
  | 428 => some "Precondition Required"
  | 429 => some "Too Many Requests"
  | 431 => some "Request Header Fields Too Large"
  | 451 => some "Unavailable For Legal Reasons"
  | 500 => some "Internal Server Error"
  | 501 => some "Not Implemented"
  | 502 => some "Bad Gateway"
  | 503 => some "Service Unavailable"
  | 504 => some "Gateway Timeout"
  | 505 => some "HTTP Version Not Supported"
  | 506 => some "Variant Also Negotiates"
  | 507 => some "Insufficient Storage"
  | 508 => some "Loop Detected"
  | 510 => some "Not Extended"
  | 511 => some "Network Authentication Required"
  | _ => none

/-- The status a method of `Then` sets: fixed, or an argument (with the class that is asserted). -/
inductive StatusArg where
  | fixed (n : Nat)
  | ofClass (n : Nat)
  | free
  deriving DecidableEq, Repr

/-- A method of `Then`: its name, the status, and whether it takes a body (sent as JSON). -/
structure ThenMethod where
  name : Str
  status : StatusArg
  json : Bool
  deriving DecidableEq, Repr

/-- httpmock.rs:322-329. -/
def className : Nat → Option String
  | 1 => some "informational"
  | 2 => some "success"
  | 3 => some "redirect"
  | 4 => some "client_error"
  | 5 => some "server_error"
  | _ => none

/-- httpmock.rs:277-302: whether a body is sent. -/
def takesBody : Resp.Kind → Bool
  | .type _ => true
  | .raw => true
  | .none => false
  | .upgrade => false

/-- httpmock.rs:273-351: the method for a response. -/
def thenMethod (u : Names.Unicode) (r : Resp.Response) : Res ThenMethod :=
  match r.status with
  | .code c =>
    if c < 100 ∨ 1000 ≤ c then .panic "called `Result::unwrap()` on an `Err` value: InvalidStatusCode".toList
    else match canonicalReason c with
      | none => .panic "called `Option::unwrap()` on a `None` value".toList
      | some s => .ok ⟨Names.sanitize u .snake s.toList, .fixed c, takesBody r.kind⟩
  | .range n =>
    match className n with
    | none => .panic "internal error: entered unreachable code".toList
    | some s => .ok ⟨s.toList, .ofClass n, takesBody r.kind⟩
  | .default => .ok ⟨"default_response".toList, .free, takesBody r.kind⟩

def thenMethods (u : Names.Unicode) : List Resp.Response → Res (List ThenMethod)
  | [] => .ok []
  | r :: rs => do
    let m ← thenMethod u r
    let ms ← thenMethods u rs
    pure (m :: ms)

/-- httpmock.rs:277-302: content type and body. -/
def ThenMethod.content (m : ThenMethod) (body : Bytes) : List (Str × Bytes) × Bytes :=
  if m.json then ([("content-type".toList, utf8 "application/json".toList)], body) else ([], [])

/-- httpmock.rs:304-349: the response configured by a call of a method of `Then`, with status argument `s` and JSON text `body`
(each ignored if the method has no such argument).  `none`: the assertion fails. -/
def ThenMethod.call (m : ThenMethod) (s : Nat) (body : Bytes) : Option (Nat × List (Str × Bytes) × Bytes) :=
  match m.status with
  | .fixed n => some (n, m.content body)
  | .ofClass n => if s / 100 = n then some (s, m.content body) else none
  | .free => some (s, m.content body)

/-- httpmock.rs:112-124: an expectation with its answer, `server.operation(|when, then| ..)`. -/
structure Mocked where
  when : When
  answer : Client.HttpResponse

/-- What a mock server may answer: a mock that matches (any, if there are several) or else status 404. -/
inductive Answers [JsonLib] (ms : List Mocked) (s : Seen) : Client.HttpResponse → Prop
  | hit (m) : m ∈ ms → m.when.Matches s → Answers ms s m.answer
  | miss (r) : (∀ m ∈ ms, ¬ m.when.Matches s) → r.status = 404 → Answers ms s r

/-! ## Items -/

/-- httpmock.rs:254-268: the methods of the `When` wrapper. -/
def whenMethods (op : OperationMethod) : List Str := "new".toList :: "into_inner".toList :: op.params.map Param.name

/-- httpmock.rs:353-365: the methods of the `Then` wrapper. -/
def thenMethodNames (u : Names.Unicode) (op : OperationMethod) : Res (List Str) := do
  let ms ← thenMethods u op.responses
  pure ("new".toList :: "into_inner".toList :: ms.map ThenMethod.name)

/-- httpmock.rs:130-133, 90-96: the structs of `mod operations`, for the operations with the given ids. -/
def wrapperNames (u : Names.Unicode) (ids : List Str) : List Str :=
  ids.flatMap fun id => [Names.sanitize u .pascal (id ++ "-when".toList), Names.sanitize u .pascal (id ++ "-then".toList)]

end Progenitor.Mock

import Verif.Model.Method

/-!
# The generated method body

Model of `/repo/progenitor-impl/src/method.rs:766-1152` (`method_sig_body`): the
statements that are emitted, and an interpreter for them.  Names are resolved at
run time in an environment, so that shadowing is observable; ill-typed code is
`noCompile`.
-/

namespace Progenitor.Exec

open Progenitor Progenitor.Params Progenitor.Client Progenitor.Query

/-! ## Emitted code -/

/-- method.rs:800-828: a header statement: API name, identifier, required. -/
structure HeaderStmt where
  apiName : Str
  ident : Str
  required : Bool
  deriving DecidableEq, Repr

/-- method.rs:879-925: the body call.  The argument is the identifier `body`, written
literally. -/
inductive BodyFunc where
  /-- `.header(CONTENT_TYPE, ..).body(body)` -/
  | raw (contentType : Str)
  /-- `.json(&body)` -/
  | json
  /-- `.form_urlencoded(&body)?` -/
  | form
  deriving DecidableEq, Repr

/-- The emitted body of a method. -/
structure Code where
  vars : Locals
  url : Template.UrlExpr
  headers : List HeaderStmt
  queries : List (Str × Str)
  body : Option BodyFunc
  accept : Bool
  websocket : Bool
  method : HttpMethod
  dispatch : Resp.Dispatch

/-- method.rs:864-871: API name to identifier for path parameters (a `HashMap`; a later
entry replaces an earlier one of the same name). -/
def urlRenames (params : List Param) (n : Str) : Option Str :=
  ((params.filter fun p => p.kind = .path).reverse.find? fun p => p.apiName = n).map Param.name

/-- method.rs:800-828. -/
def headerStmts (params : List Param) : List HeaderStmt :=
  params.filterMap fun p => match p.kind with
    | .header r => some ⟨p.apiName, p.name, r⟩
    | _ => none

/-- method.rs:785-798. -/
def queryStmts (params : List Param) : List (Str × Str) :=
  params.filterMap fun p => match p.kind with
    | .query _ => some (p.apiName, p.name)
    | _ => none

/-- method.rs:879-925. -/
def bodyFuncs : List Param → Res (List BodyFunc)
  | [] => .ok []
  | p :: ps => do
    let rest ← bodyFuncs ps
    match p.kind, p.typ with
    | .body .octetStream, .rawBody => pure (.raw Mime.octets :: rest)
    | .body (.text mime), .rawBody => pure (.raw mime :: rest)
    | .body .json, .type _ => pure (.json :: rest)
    | .body .form, .type _ => pure (.form :: rest)
    | .body _, _ => .panic "invalid body kind/type combination".toList
    | _, _ => pure rest

/-- method.rs:927-929: at most one body. -/
def oneBody : List BodyFunc → Res (Option BodyFunc)
  | [] => .ok none
  | [b] => .ok (some b)
  | _ => .panic "assertion failed: body_func.clone().count() <= 1".toList

/-- method.rs:766-1152 `method_sig_body`. -/
def methodSigBody (op : OperationMethod) : Res Code := do
  let url ← Template.compile op.path (urlRenames op.params)
  let bodies ← bodyFuncs op.params
  let body ← oneBody bodies
  let d ← Resp.genMatch op.responses
  pure { vars := locals (op.params.map Param.name), url, headers := headerStmts op.params,
         queries := queryStmts op.params, body, accept := Resp.acceptJson d,
         websocket := op.websocket, method := op.method, dispatch := d }

/-! ## Values and names -/

/-- A typed value: its `to_string()` and how it serializes. -/
structure Arg where
  display : Str
  ser : Ser

/-- Values of variables: a required argument, an optional argument, a raw body
(`B: Into<reqwest::Body>` or `String`), or a variable the method introduces. -/
inductive Value where
  | plain (a : Arg)
  | opt (a : Option Arg)
  | raw (b : Bytes)
  | internal

abbrev Env := List (Str × Value)

/-- The innermost binding of a name. -/
def lookup (env : Env) (x : Str) : Option Value := (env.find? fun e => e.1 = x).map Prod.snd

/-- method.rs:559-593: the type of a parameter in the signature. -/
def typed (p : Param) (v : Value) : Bool :=
  match p.typ, p.kind, v with
  | .rawBody, _, .raw _ => true
  | .rawBody, _, _ => false
  | .type _, .query false, .opt _ => true
  | .type _, .header false, .opt _ => true
  | .type _, .query false, _ => false
  | .type _, .header false, _ => false
  | .type _, _, .plain _ => true
  | .type _, _, _ => false

/-- Bind the arguments of a call; `none`: the method or the call does not compile
(a parameter name bound twice, wrong number or types of arguments). -/
def bindArgs (params : List Param) (args : List Value) : Option Env :=
  if (params.map Param.name).Nodup ∧ params.length = args.length ∧
      (params.zip args).all (fun pv => typed pv.1 pv.2) then
    some ((params.map Param.name).zip args)
  else none

/-- `x.to_string()` for a value of a `Display` type. -/
def evalDisplay (env : Env) (x : Str) : Option Str :=
  match lookup env x with
  | some (.plain a) => some a.display
  | _ => none

/-- `if let Some(value) = x { .. value.to_string() .. }`. -/
def evalOptDisplay (env : Env) (x : Str) : Option (Option Str) :=
  match lookup env x with
  | some (.opt a) => some (a.map Arg.display)
  | _ => none

/-- `&x` as a serializable value. -/
def evalSer (env : Env) (x : Str) : Option Ser :=
  match lookup env x with
  | some (.plain a) => some a.ser
  | some (.opt none) => some .none
  | some (.opt (some a)) => some (.some a.ser)
  | _ => none

/-- All or nothing. -/
def mapM? {α β} (f : α → Option β) : List α → Option (List β)
  | [] => some []
  | x :: xs => match f x, mapM? f xs with
    | some y, some ys => some (y :: ys)
    | _, _ => none

/-- The value of a header statement: `none` if the header is not sent. -/
def evalHeader (env : Env) (h : HeaderStmt) : Option (Str × Option Str) :=
  if h.required then (evalDisplay env h.ident).map fun t => (h.apiName, some t)
  else (evalOptDisplay env h.ident).map fun t => (h.apiName, t)

/-- The value of the body argument. -/
inductive BodyVal where
  | raw (contentType : Str) (b : Bytes)
  | json (v : Ser)
  | form (v : Ser)

def evalBody (env : Env) : BodyFunc → Option BodyVal
  | .raw ct => match lookup env "body".toList with
    | some (.raw b) => some (.raw ct b)
    | _ => none
  | .json => (evalSer env "body".toList).map .json
  | .form => (evalSer env "body".toList).map .form

/-- All operands of the method body, with names resolved in the scope in which they
are written. -/
structure Operands where
  url : Str
  headers : List (Str × Option Str)
  queries : List (Str × Ser)
  body : Option BodyVal

/-- template.rs:40-42: `encode_path(&x.to_string())` is written with the short name of the function, which a variable hides. -/
def encodeVisible (c : Code) (env : Env) : Bool := c.url.args.isEmpty || (lookup env "encode_path".toList).isNone

/-- The arguments of `format!`, before they are encoded. -/
def evalUrl (c : Code) (env : Env) : Option (List Str) :=
  if encodeVisible c env then mapM? (evalDisplay env) c.url.args else none

/-- method.rs:873-876, 831-839, 1086-1099.  The URL is evaluated in the scope of the parameters;
`url` and `header_map` are then in scope for the rest. -/
def operands (c : Code) (baseurl : Str) (env : Env) : Option Operands :=
  match evalUrl c env with
  | none => none
  | some urlArgs =>
    match Template.rustFormat c.url.fmt (baseurl :: urlArgs.map encodePath) with
    | none => none
    | some url =>
      let env1 := (c.vars.headerMap, Value.internal) :: (c.vars.url, .internal) :: env
      match mapM? (evalHeader env1) c.headers,
        mapM? (fun q : Str × Str => (evalSer env1 q.2).map fun v => (q.1, v)) c.queries with
      | some hs, some qs =>
        match c.body with
        | none => some ⟨url, hs, qs, none⟩
        | some b => (evalBody env1 b).map fun v => ⟨url, hs, qs, some v⟩
      | _, _ => none

/-! ## Building the request -/

/-- The things a call depends on that are not arguments: base URL, API version,
which URLs `reqwest` can parse, JSON serialization (`serde_json::to_vec`), and the
random websocket key. -/
structure Config where
  baseurl : Str
  apiVersion : Str
  validUrl : Str → Bool
  toJson : Ser → Except Unit Bytes
  wsKey : Str

/-- `reqwest::Request`.  `url` is the text given to the URL parser up to the query. -/
structure Request where
  method : HttpMethod
  url : Str
  query : Option Str
  headers : Headers
  body : Option Bytes
  deriving DecidableEq

/-- Characters allowed in header names (`http::header::name::HEADER_CHARS`). -/
def headerNameChar (c : Char) : Bool :=
  c.isAlphanum || "!#$%&'*+-.^_`|~".toList.contains c

/-- `HdrName::from_static` accepts the name. -/
def headerNameOk (n : Str) : Bool := !n.isEmpty && n.all headerNameChar

/-- Header names are stored in lower case. -/
def lowerName (n : Str) : Str := n.map Char.toLower

/-- `HeaderValue::try_from(String)` accepts the bytes: no controls but tab, no DEL. -/
def headerValueByte (b : UInt8) : Bool := (32 ≤ b.toNat && b.toNat ≠ 127) || b.toNat == 9

def headerValueOk (t : Str) : Bool := (utf8 t).all headerValueByte

/-- What evaluation of the first part of a method leads to. -/
inductive Built where
  | noCompile
  | panicked
  | invalidRequest (msg : Str)
  | communicationError
  | request (r : Request)

/-- Result of the header statements. -/
inductive HeaderResult where
  | panicked
  | invalid
  | ok (h : Headers)

/-- method.rs:807-825: the header statements in order.  The value is converted
before `append` looks at the name; `append` panics for an illegal name. -/
def runHeaders (acc : Headers) : List (Str × Option Str) → HeaderResult
  | [] => .ok acc
  | (_, none) :: rest => runHeaders acc rest
  | (n, some t) :: rest =>
    if headerValueOk t then
      if headerNameOk n then runHeaders (acc ++ [(lowerName n, utf8 t)]) rest
      else .panicked
    else .invalid

/-- method.rs:831-839: `api-version` first. -/
def buildHeaders (cfg : Config) (hs : List (Str × Option Str)) : HeaderResult :=
  if (utf8 cfg.apiVersion).all visibleAscii then
    runHeaders [(Hdr.apiVersion, utf8 cfg.apiVersion)] hs
  else .panicked

/-- `reqwest::RequestBuilder`: an error stays. -/
abbrev RB := Except Unit Request

/-- `RequestBuilder::header`: append. -/
def RB.header (rb : RB) (n v : Str) : RB := rb.map fun r => { r with headers := r.headers ++ [(n, utf8 v)] }

/-- `RequestBuilder::body`. -/
def RB.setBody (rb : RB) (b : Bytes) : RB := rb.map fun r => { r with body := some b }

/-- `RequestBuilder::json`: sets the content type if there is none. -/
def RB.json (cfg : Config) (rb : RB) (v : Ser) : RB :=
  match rb with
  | .error e => .error e
  | .ok r => match cfg.toJson v with
    | .error e => .error e
    | .ok b =>
      if r.headers.any (fun h => h.1 = Hdr.contentType) then .ok { r with body := some b }
      else .ok { r with headers := r.headers ++ [(Hdr.contentType, utf8 Mime.json)],
                        body := some b }

/-- `RequestBuilder::query`. -/
def RB.query (rb : RB) (n : Str) (v : Ser) : RB :=
  match rb with
  | .error e => .error e
  | .ok r => match addQuery (.ok r.query) n v with
    | .error e => .error e
    | .ok q => .ok { r with query := q }

def RB.queries (rb : RB) : List (Str × Ser) → RB
  | [] => rb
  | (n, v) :: rest => RB.queries (rb.query n v) rest

/-- `RequestBuilder::headers`: headers of the map replace those of the same name. -/
def RB.headers (rb : RB) (hm : Headers) : RB :=
  rb.map fun r => { r with
    headers := r.headers.filter (fun h => !hm.any fun e => e.1 = h.1) ++ hm }

/-- `Client::request(method, url)`.  Query and fragment are split off the text (the
percent-encoding applied by the URL parser to a query already present in the template is not
represented). -/
def RB.start (cfg : Config) (m : HttpMethod) (url : Str) : RB :=
  if cfg.validUrl url then
    let t := url.takeWhile (· ≠ '#')
    .ok { method := m, url := t.takeWhile (· ≠ '?'), query := (t.dropWhile (· ≠ '?')).tail?,
          headers := [], body := none }
  else .error ()

/-- progenitor_client.rs:434-445 `form_urlencoded`; `serde_urlencoded::to_string`. -/
def formBody (v : Ser) : Except Unit Bytes :=
  match top v with
  | .error e => .error e
  | .ok ps => .ok (utf8 (appendPairs [] ps))

/-- method.rs:879-925: apply the body call. -/
def applyBody (cfg : Config) (rb : RB) : Option BodyVal → Except Str RB
  | none => .ok rb
  | some (.raw ct b) => .ok ((rb.header Hdr.contentType ct).setBody b)
  | some (.json v) => .ok (rb.json cfg v)
  | some (.form v) =>
    match formBody v with
    | .error _ => .error "failed to serialize body".toList
    | .ok b => .ok ((rb.header Hdr.contentType Mime.form).setBody b)

/-- method.rs:845-860. -/
def websocketHeaders (cfg : Config) (rb : RB) : RB :=
  (((rb.header Hdr.connection "Upgrade".toList).header Hdr.upgrade "websocket".toList).header
    Hdr.wsVersion "13".toList).header Hdr.wsKey cfg.wsKey

/-- `reqwest::Client` has a method of this name. -/
def clientHas : HttpMethod → Bool
  | .options => false
  | .trace => false
  | _ => true

/-- method.rs:1086-1099 with resolved operands. -/
def buildWith (cfg : Config) (c : Code) (o : Operands) : Built :=
  match buildHeaders cfg o.headers with
  | .panicked => .panicked
  | .invalid => .invalidRequest "failed to parse header value".toList
  | .ok hm =>
    let rb := RB.start cfg c.method o.url
    let rb := if c.accept then rb.header Hdr.accept Mime.json else rb
    match applyBody cfg rb o.body with
    | .error msg => .invalidRequest msg
    | .ok rb =>
      let rb := (rb.queries o.queries).headers hm
      let rb := if c.websocket then websocketHeaders cfg rb else rb
      match rb with
      | .error _ => .communicationError
      | .ok r => .request r

/-- method.rs:1086-1099: everything up to `.build()?`. -/
def build (cfg : Config) (c : Code) (env : Env) : Built :=
  if clientHas c.method then
    match operands c cfg.baseurl env with
    | none => .noCompile
    | some o => buildWith cfg c o
  else .noCompile

/-! ## Execution -/

/-- lib.rs:60-75: which hooks are configured. -/
structure Hooks where
  pre : Bool
  preAsync : Bool
  post : Bool
  postAsync : Bool
  deriving DecidableEq, Repr

/-- What `client.execute(request).await` yields. -/
abbrev Reply := Except ReqwestError HttpResponse

/-- Observable effects of a call. -/
inductive Event where
  | preHook (r : Request)
  | preHookAsync (r : Request)
  | send (r : Request)
  | postHook (reply : Reply)
  | postHookAsync (reply : Reply)

/-- The environment of the client: hooks and server may depend on all that happened. -/
structure World where
  preAsync : List Event → Request → Except Str Request
  server : List Event → Request → Reply
  postAsync : List Event → Reply → Except Str Unit

/-- Result of a call. -/
inductive Result (P V : Type) where
  | noCompile
  | panicked
  | returned (o : Resp.Outcome P V)

variable {P V : Type}

/-- method.rs:1106-1144: after the request was sent. -/
def finish (hooks : Hooks) (w : World) (decode : TypeId → Bytes → Except P V) (d : Resp.Dispatch)
    (hist : List Event) (reply : Reply) : Result P V × List Event :=
  let hist := if hooks.post then hist ++ [.postHook reply] else hist
  let answer : Result P V := match Resp.handle decode d reply with
    | none => .noCompile
    | some o => .returned o
  if hooks.postAsync then
    let hist' := hist ++ [.postHookAsync reply]
    match w.postAsync hist reply with
    | .error e => (.returned (.error (.postHookError e)), hist')
    | .ok _ => (answer, hist')
  else (answer, hist)

/-- method.rs:1101-1144: run hooks and send a built request. -/
def perform (hooks : Hooks) (w : World) (decode : TypeId → Bytes → Except P V) (d : Resp.Dispatch)
    (hist : List Event) (r : Request) : Result P V × List Event :=
  let hist := if hooks.pre then hist ++ [.preHook r] else hist
  if hooks.preAsync then
    let hist' := hist ++ [.preHookAsync r]
    match w.preAsync hist r with
    | .error e => (.returned (.error (.preHookError e)), hist')
    | .ok r' => finish hooks w decode d (hist' ++ [.send r']) (w.server hist' r')
  else finish hooks w decode d (hist ++ [.send r]) (w.server hist r)

/-- A `reqwest` error that occurred while building the request; it has no status. -/
def builderError : ReqwestError := ⟨0, none⟩

/-- The generated method body. -/
def run (cfg : Config) (hooks : Hooks) (w : World) (decode : TypeId → Bytes → Except P V) (c : Code)
    (hist : List Event) (env : Env) : Result P V × List Event :=
  match build cfg c env with
  | .noCompile => (.noCompile, hist)
  | .panicked => (.panicked, hist)
  | .invalidRequest msg => (.returned (.error (.invalidRequest msg)), hist)
  | .communicationError => (.returned (.error (.communicationError builderError)), hist)
  | .request r => perform hooks w decode c.dispatch hist r

/-- method.rs:551-625: a call of the positional method. -/
def call (cfg : Config) (hooks : Hooks) (w : World) (decode : TypeId → Bytes → Except P V)
    (params : List Param) (c : Code) (hist : List Event) (args : List Value) : Result P V × List Event :=
  match bindArgs params args with
  | none => (.noCompile, hist)
  | some env => run cfg hooks w decode c hist env

end Progenitor.Exec

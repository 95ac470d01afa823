import Verif.Model.Response
import Verif.Model.Query

/-!
# Operations

Model of the data types of `/repo/progenitor-impl/src/method.rs`: HTTP methods,
body content types, `get_body_param`, `OperationMethod`.
-/

namespace Progenitor

open Progenitor Progenitor.Params

/-! Header names and media types that occur in the code. -/
def Hdr.accept : Str := "accept".toList
def Hdr.contentType : Str := "content-type".toList
def Hdr.apiVersion : Str := "api-version".toList
def Hdr.connection : Str := "connection".toList
def Hdr.upgrade : Str := "upgrade".toList
def Hdr.wsVersion : Str := "sec-websocket-version".toList
def Hdr.wsKey : Str := "sec-websocket-key".toList
def Mime.json : Str := "application/json".toList
def Mime.form : Str := "application/x-www-form-urlencoded".toList
def Mime.octets : Str := "application/octet-stream".toList

/-- method.rs:35-44 `enum HttpMethod`. -/
inductive HttpMethod where
  | get | put | post | delete | options | head | patch | trace
  deriving DecidableEq, Repr

/-- method.rs:46-62 `HttpMethod::from_str`. -/
def HttpMethod.parse (s : Str) : Res HttpMethod :=
  if s = "get".toList then .ok .get
  else if s = "put".toList then .ok .put
  else if s = "post".toList then .ok .post
  else if s = "delete".toList then .ok .delete
  else if s = "options".toList then .ok .options
  else if s = "head".toList then .ok .head
  else if s = "patch".toList then .ok .patch
  else if s = "trace".toList then .ok .trace
  else .err ("bad method: ".toList ++ s)

/-- method.rs:63-76 `HttpMethod::as_str`. -/
def HttpMethod.print : HttpMethod → Str
  | .get => "get".toList
  | .put => "put".toList
  | .post => "post".toList
  | .delete => "delete".toList
  | .options => "options".toList
  | .head => "head".toList
  | .patch => "patch".toList
  | .trace => "trace".toList

/-- `s.find(';').unwrap_or(s.len())`, `&s[..offset]`. -/
def beforeSemicolon (s : Str) : Str := s.takeWhile (· ≠ ';')

/-- method.rs:143-158 `BodyContentType::from_str`. -/
def Params.ContentType.parse (s : Str) : Res ContentType :=
  let b := beforeSemicolon s
  if b = Mime.octets then .ok .octetStream
  else if b = Mime.json then .ok .json
  else if b = Mime.form then .ok .form
  else if b = "text/plain".toList ∨ b = "text/x-markdown".toList then .ok (.text b)
  else .err ("unexpected content type: ".toList ++ s)

/-- method.rs:160-169 `Display for BodyContentType`. -/
def Params.ContentType.print : ContentType → Str
  | .octetStream => Mime.octets
  | .json => Mime.json
  | .form => Mime.form
  | .text m => m

/-- What `get_body_param` asks about the schema of a body: is it a plain binary
string, is it a plain string without format, and which type does typify make of it. -/
structure BodySchema where
  binaryString : Bool
  plainString : Bool
  ty : TypeId
  deriving DecidableEq, Repr

/-- openapiv3 `MediaType` of a request body. -/
structure BodyMedia where
  schema : Option BodySchema
  encodingEmpty : Bool := true
  deriving DecidableEq, Repr

/-- method.rs:2042-2128: the type of the body parameter. -/
def bodyType (c : ContentType) (m : BodyMedia) (s : BodySchema) : Res PType :=
  match c with
  | .octetStream =>
    if s.binaryString then .ok .rawBody
    else .err "invalid schema for application/octet-stream".toList
  | .text _ => if s.plainString then .ok .rawBody else .err "invalid schema".toList
  | .json => if m.encodingEmpty then .ok (.type s.ty) else .panic "media type encoding not empty".toList
  | .form => if m.encodingEmpty then .ok (.type s.ty) else .panic "media type encoding not empty".toList

/-- method.rs:2016-2140 `get_body_param`; the body is given by its content map. -/
def getBodyParam (body : Option (List (Str × BodyMedia))) : Res (Option Param) :=
  match body with
  | none => .ok none
  | some [] => .ok none
  | some [(ct, m)] =>
    match m.schema with
    | none => .err "No schema specified for request body".toList
    | some s => do
      let c ← ContentType.parse ct
      let typ ← bodyType c m s
      pure (some ⟨"body".toList, "body".toList, typ, .body c⟩)
  | some _ => .panic "more media types than expected".toList

/-- method.rs:22-33 `struct OperationMethod` (without documentation; pagination is
in `Model/Pagination.lean`). -/
structure OperationMethod where
  operationId : Str
  tags : List Str
  method : HttpMethod
  path : Template.PathTemplate
  params : List Param
  responses : List Resp.Response
  websocket : Bool

end Progenitor

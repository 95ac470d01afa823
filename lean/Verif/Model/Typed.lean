import Verif.Model.RefDoc
import Verif.Model.Schema

/-!
# Where types come from

Model of the calls of typify: `/repo/progenitor-impl/src/lib.rs:311-319` (`add_ref_types`), `method.rs:304-405` (parameters),
`2042-2128` (body) and `458-481` (responses).  Here a document has schemas, where `Model/Doc.lean` and `Model/RefDoc.lean` have
the types that typify makes of them.

typify itself is any library with these functions.  Simplification: what a call that fails leaves behind in the library is not
modelled.
-/

namespace Progenitor.Typed

open Progenitor Progenitor.Params Progenitor.Refs Progenitor.Resp Progenitor.Names Progenitor.Builder Progenitor.Exec
  Progenitor.Schema Progenitor.RefDoc

/-- `typify::TypeSpace`: `add_type_with_name(schema, Some(name))`, `add_ref_types` and `get_type(id).ok().map(|t| t.details())`. -/
structure Library (σ : Type) where
  add : σ → JSchema → Str → Res (Params.TypeId × σ)
  addRefs : σ → List (Str × JSchema) → Res σ
  info : σ → Types

/-- A method of the generator, with the type space that it changes.  `none`: it never ends. -/
def M (σ α : Type) : Type := σ → Run (α × σ)

variable {σ : Type}

def M.bind {α β : Type} (f : M σ α) (g : α → M σ β) : M σ β := fun s => do
  let x ← f s
  g x.1 x.2

instance : Monad (M σ) where
  pure a := fun s => some (.ok (a, s))
  bind := M.bind

/-- What does not look at the type space. -/
def run {α : Type} (r : Run α) : M σ α := fun s => do
  let a ← r
  pure (a, s)

def res {α : Type} (r : Res α) : M σ α := run (some r)

/-- The type space as it is now. -/
def get : M σ σ := fun s => some (.ok (s, s))

/-! ## Documents with schemas -/

/-- The location and style of a parameter. -/
inductive SKind where
  | path (simple : Bool)
  | query (form : Bool)
  | header
  | cookie
  deriving DecidableEq, Repr

/-- `Parameter`; `schema` is `none` if `content` is used instead. -/
structure SParam where
  name : Str
  kind : SKind
  required : Bool
  schema : Option OSchema

/-- `MediaType`. -/
structure SMedia where
  schema : Option OSchema
  encodingEmpty : Bool := true

/-- The content map of a body or of a response. -/
abbrev SContent := List (Str × SMedia)

/-- The sections of `Components` that are looked at. -/
structure SSections where
  parameters : List (Str × RefOr SParam)
  bodies : List (Str × RefOr SContent)
  responses : List (Str × RefOr SContent)
  schemas : List (Str × OSchema)

structure SOperation where
  tags : List Str
  pathLevel : List (RefOr SParam)
  opLevel : List (RefOr SParam)
  body : Option (RefOr SContent)
  default : Option (RefOr SContent)
  codes : List (DocStatus × RefOr SContent)
  websocket : Bool
  pagination : Option (List Str)

structure SRaw where
  id : Option Str
  op : SOperation

/-- An OpenAPI document. -/
structure SDocument where
  version : Str
  paths : List (Str × Option (List (Str × SRaw)))
  components : Option SSections

/-! ## One operation -/

section

variable (lib : Library σ) (comps : Option SSections) (n : Nat) (u : Unicode) (id : Str)

/-- `self.type_space.add_type_with_name(&schema.to_schema(), Some(sanitize(&format!("{}-{}", id, what), Case::Pascal)))?`. -/
def addType (what : Str) (s : OSchema) : M σ Params.TypeId := do
  let j ← res (conv s)
  fun st => some (lib.add st j (sanitize u .pascal (id ++ '-' :: what)))

/-- method.rs:304-405: the conversion of one parameter. -/
def convert (p : SParam) : M σ Param :=
  match p.kind with
  | .path true =>
    if p.required then
      match p.schema with
      | some s => do
        let t ← addType lib u id p.name s
        pure ⟨sanitize u .snake p.name, p.name, .type t, .path⟩
      | none => res (.err "unexpected content".toList)
    else res (.panic "assertion failed: parameter_data.required".toList)
  | .query true =>
    match p.schema with
    | some s => do
      let t ← addType lib u id p.name s
      let st ← get
      match lib.info st t with
      | some (.option inner) => pure ⟨sanitize u .snake p.name, p.name, .type inner, .query false⟩
      | some _ => pure ⟨sanitize u .snake p.name, p.name, .type t, .query p.required⟩
      | none => res (.panic "called `Result::unwrap()` on an `Err` value".toList)
    | none => res (.err "unexpected content".toList)
  | .header =>
    match p.schema with
    | some s => do
      let t ← addType lib u id p.name s
      pure ⟨sanitize u .snake p.name, p.name, .type t, .header p.required⟩
    | none => res (.err "unexpected content".toList)
  | .path false => res (.err "unsupported style of path parameter".toList)
  | .query false => res (.err "unsupported style of query parameter".toList)
  | .cookie => res (.err "cookie parameters are not supported".toList)

def convertAll : List SParam → M σ (List Param)
  | [] => pure []
  | p :: ps => do
    let q ← convert lib u id p
    let qs ← convertAll ps
    pure (q :: qs)

/-- method.rs:296-300. -/
def combined (pathLevel opLevel : List SParam) : BTree.Map SParam :=
  BTree.insertAll (BTree.insertAll [] (pathLevel.map fun p => (p.name, p))) (opLevel.map fun p => (p.name, p))

/-- `ReferenceOr<Schema>`. -/
def refOr : OSchema → RefOr OSchema
  | .ref r => .ref r
  | s => .item s

def schemaSection (c : SSections) : List (Str × RefOr OSchema) := c.schemas.map fun e => (e.1, refOr e.2)

/-- method.rs:2050-2074, 2087-2109: a string schema that says nothing but the format. -/
def bareString (format : Format StringFormat → Bool) : OSchema → Bool
  | .string d t => !d.nullable && !d.discriminator && d.default.isNone && format t.format && t.pattern.isNone &&
      t.enumeration.isEmpty && t.minLength.isNone && t.maxLength.isNone
  | _ => false

def isBinary : Format StringFormat → Bool
  | .item .binary => true
  | _ => false

def isEmpty : Format StringFormat → Bool
  | .empty => true
  | _ => false

/-- method.rs:2042-2128: the type of the body parameter. -/
def bodyType (c : ContentType) (m : SMedia) (s : OSchema) : M σ PType :=
  match c with
  | .octetStream => do
    let x ← run (resolve (comps.map schemaSection) n (refOr s))
    if bareString isBinary x then pure .rawBody else res (.err "invalid schema for application/octet-stream".toList)
  | .text _ => do
    let x ← run (resolve (comps.map schemaSection) n (refOr s))
    if bareString isEmpty x then pure .rawBody else res (.err "invalid schema".toList)
  | .json | .form =>
    if m.encodingEmpty then do
      let t ← addType lib u id "body".toList s
      pure (.type t)
    else res (.panic "media type encoding not empty".toList)

/-- method.rs:2026-2140. -/
def bodyOf : SContent → M σ (Option Param)
  | [] => pure none
  | [(ct, m)] =>
    match m.schema with
    | none => res (.err "No schema specified for request body".toList)
    | some s => do
      let c ← res (ContentType.parse ct)
      let typ ← bodyType lib comps n u id c m s
      pure (some ⟨"body".toList, "body".toList, typ, .body c⟩)
  | _ => res (.panic "more media types than expected".toList)

/-- method.rs:2016-2140 `get_body_param`. -/
def getBody : Option (RefOr SContent) → M σ (Option Param)
  | none => pure none
  | some b => do
    let content ← run (resolve (comps.map SSections.bodies) n b)
    bodyOf lib comps n u id content

/-- method.rs:458-460: the first JSON media type. -/
def jsonMedia (r : SContent) : Option SMedia :=
  (r.find? fun e => e.1 = "application/json".toList ∨ "application/json;".toList.isPrefixOf e.1).map Prod.snd

/-- method.rs:458-481. -/
def kindOf (websocket : Bool) (r : SContent) : M σ Resp.Kind :=
  match jsonMedia r with
  | some mt =>
    if mt.encodingEmpty then
      match mt.schema with
      | some s => do
        let t ← addType lib u id "response".toList s
        pure (.type t)
      | none => res (.panic "not yet implemented: media type encoding, no schema".toList)
    else res (.panic "assertion failed: mt.encoding.is_empty()".toList)
  | none =>
    if websocket then pure .upgrade
    else if r.isEmpty then pure .none
    else pure .raw

/-- method.rs:424-505. -/
def convertResponses (websocket : Bool) : List (Status × RefOr SContent) → M σ (List Response)
  | [] => pure []
  | (s, r) :: rest => do
    let x ← run (resolve (comps.map SSections.responses) n r)
    let k ← kindOf lib u id websocket x
    let rs ← convertResponses websocket rest
    pure (⟨s, k⟩ :: rs)

/-- method.rs:533-538. -/
def noConflict (d : SOperation) (pg : Option Pagination) : Res Unit :=
  if d.websocket ∧ pg.isSome then .err ("conflicting extensions in ".toList ++ id) else .ok ()

/-- method.rs:286-549 `process_operation`. -/
def process (path method : Str) (d : SOperation) : M σ Processed := do
  let pathLevel ← run (items n (comps.map SSections.parameters) d.pathLevel)
  let opLevel ← run (items n (comps.map SSections.parameters) d.opLevel)
  let params ← convertAll lib u id (BTree.values (combined pathLevel opLevel))
  let body ← getBody lib comps n u id d.body
  let tmp ← res (parseTemplate path)
  let params ← res (sortParams (Template.names tmp) (params ++ body.toList))
  let rs ← convertResponses lib comps n u id d.websocket
    (d.default.toList.map (fun r => (Status.default, r)) ++ d.codes.map (fun e => (e.1.toStatus, e.2)))
  let responses := completed d.websocket rs
  let st ← get
  let pg := paginationData (lib.info st) d.pagination params responses
  let _ ← res (noConflict id d pg)
  let m ← res (HttpMethod.parse method)
  pure ⟨{ operationId := sanitize u .snake id, tags := d.tags, method := m, path := tmp, params,
          responses, websocket := d.websocket }, pg⟩

end

/-! ## The document -/

/-- What validation looks at (lib.rs:656-702): the version, the paths and the operation ids. -/
def bareOp (o : SRaw) : Doc.RawOperation :=
  ⟨o.id, { operationId := [], tags := [], pathLevel := [], opLevel := [], body := none, default := none, codes := [],
           websocket := false, pagination := none }⟩

def bare (d : SDocument) : Doc.Document :=
  ⟨d.version, d.paths.map fun p => (p.1, p.2.map fun ops => ops.map fun e => (e.1, bareOp e.2))⟩

/-- lib.rs:322-335: the operations of the document, in order. -/
def operations (d : SDocument) : List (Str × Str × SRaw) :=
  d.paths.flatMap fun p => match p.2 with
    | none => []
    | some ops => ops.map fun e => (p.1, e.1, e.2)

section

variable (lib : Library σ) (comps : Option SSections) (n : Nat) (u : Unicode)

def processOne (o : Str × Str × SRaw) : M σ Processed :=
  match o.2.2.id with
  | some id => process lib comps n u id o.1 o.2.1 o.2.2.op
  | none => res (.panic "called `Option::unwrap()` on a `None` value".toList)

def processAll : List (Str × Str × SRaw) → M σ (List Processed)
  | [] => pure []
  | o :: os => do
    let p ← processOne lib comps n u o
    let ps ← processAll os
    pure (p :: ps)

/-- The schemas of the components. -/
def componentSchemas (d : SDocument) : List (Str × OSchema) :=
  match d.components with
  | none => []
  | some c => c.schemas

/-- lib.rs:311-319. -/
def addComponents (l : List (Str × OSchema)) : M σ Unit := do
  let js ← res (convProps l)
  fun st => do
    let st' ← lift (lib.addRefs st js)
    pure ((), st')

/-- lib.rs:309-338, cli.rs:27-52, httpmock.rs:33-58. -/
def rawMethods (d : SDocument) : M σ (List Processed) := do
  let _ ← res (Doc.validate u (bare d))
  let _ ← addComponents lib (componentSchemas d)
  processAll lib d.components n u (operations d)

/-- lib.rs:308-502 `generate_tokens`, as far as operations are concerned.  `tt` is what typify says about the types at the end. -/
def generate {B : Type} (tt : σ → TypeTable B) (i : Doc.Interface) (t : Doc.TagStyle) (d : SDocument) :
    M σ (List Processed × List Code) := do
  let ms ← rawMethods lib n u d
  let st ← get
  let cs ← res (Doc.operationCode (tt st) i t ms)
  pure (ms, cs)

end

end Progenitor.Typed

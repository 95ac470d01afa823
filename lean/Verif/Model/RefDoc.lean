import Verif.Model.Refs
import Verif.Model.Doc

/-!
# Documents with references

Model of the places where `generate_tokens` follows references to components: parameters
(`/repo/progenitor-impl/src/method.rs:296-300`, `util.rs:34-53`), responses (`method.rs:421-445`), the
request body (`2021-2024`) and its schema (`2049`, `2086`).  Schemas that become types are handed to typify as
they are (`to_schema`), so that their type is given with the use.
-/

namespace Progenitor.RefDoc

open Progenitor Progenitor.Params Progenitor.Refs Progenitor.Resp Progenitor.Names Progenitor.Builder Progenitor.Exec

/-- A computation that may also never end (`none`); see `Refs.resolve`. -/
def Run (α : Type) : Type := Option (Res α)

def Run.bind {α β : Type} : Run α → (α → Run β) → Run β
  | none, _ => none
  | some (.ok a), f => f a
  | some (.err m), _ => some (.err m)
  | some (.panic m), _ => some (.panic m)

instance : Monad Run where
  pure a := some (.ok a)
  bind := Run.bind

/-- A computation that ends. -/
def lift {α : Type} (r : Res α) : Run α := some r

/-- What `get_body_param` asks about a schema. -/
structure SchemaFacts where
  binaryString : Bool
  plainString : Bool
  deriving DecidableEq, Repr

/-- `MediaType` of a request body: its schema with the type that typify makes of it. -/
structure RefMedia where
  schema : Option (RefOr SchemaFacts × Params.TypeId)
  encodingEmpty : Bool := true

/-- `RequestBody`: the content map. -/
abbrev RefContent := List (Str × RefMedia)

/-- The sections of `Components` that are looked at. -/
structure Sections where
  parameters : List (Str × RefOr DocParam)
  bodies : List (Str × RefOr RefContent)
  responses : List (Str × RefOr DocResponse)
  schemas : List (Str × RefOr SchemaFacts)

/-- An operation. -/
structure RefOperation where
  operationId : Str
  tags : List Str
  pathLevel : List (RefOr DocParam)
  opLevel : List (RefOr DocParam)
  body : Option (RefOr RefContent)
  default : Option (RefOr DocResponse)
  codes : List (DocStatus × RefOr DocResponse)
  websocket : Bool
  pagination : Option (List Str)

variable (comps : Option Sections) (n : Nat)

/-- util.rs:35-44 `items`, all of them. -/
def items {T : Type} (cs : Components T) : List (RefOr T) → Run (List T)
  | [] => pure []
  | r :: rs => do
    let x ← resolve cs n r
    let xs ← items cs rs
    pure (x :: xs)

/-- method.rs:2042-2128: the type of the body parameter. -/
def bodyTypeRef (c : ContentType) (m : RefMedia) (s : RefOr SchemaFacts × Params.TypeId) : Run PType :=
  match c with
  | .octetStream => do
    let f ← resolve (comps.map Sections.schemas) n s.1
    lift (bodyType .octetStream ⟨none, m.encodingEmpty⟩ ⟨f.binaryString, f.plainString, s.2⟩)
  | .text t => do
    let f ← resolve (comps.map Sections.schemas) n s.1
    lift (bodyType (.text t) ⟨none, m.encodingEmpty⟩ ⟨f.binaryString, f.plainString, s.2⟩)
  | .json => lift (bodyType .json ⟨none, m.encodingEmpty⟩ ⟨false, false, s.2⟩)
  | .form => lift (bodyType .form ⟨none, m.encodingEmpty⟩ ⟨false, false, s.2⟩)

/-- method.rs:2026-2140: `get_body_param` after the reference to the body. -/
def bodyOf : RefContent → Run (Option Param)
  | [] => pure none
  | [(ct, m)] =>
    match m.schema with
    | none => lift (.err "No schema specified for request body".toList)
    | some s => do
      let c ← lift (ContentType.parse ct)
      let typ ← bodyTypeRef comps n c m s
      pure (some ⟨"body".toList, "body".toList, typ, .body c⟩)
  | _ => lift (.panic "more media types than expected".toList)

/-- method.rs:2016-2140 `get_body_param`. -/
def getBodyRef : Option (RefOr RefContent) → Run (Option Param)
  | none => pure none
  | some b => do
    let content ← resolve (comps.map Sections.bodies) n b
    bodyOf comps n content

/-- method.rs:424-505: each response is looked up and then converted. -/
def convertRefs (websocket : Bool) : List (Status × RefOr DocResponse) → Run (List Response)
  | [] => pure []
  | (s, r) :: rest => do
    let x ← resolve (comps.map Sections.responses) n r
    let k ← lift (kindOf websocket x)
    let rs ← convertRefs websocket rest
    pure (⟨s, k⟩ :: rs)

/-- method.rs:507-526: the responses that are added. -/
def completed (websocket : Bool) (rs : List Response) : List Response :=
  (if rs.any (fun r => coversSuccess r.status) then rs else rs ++ [⟨.range 2, .raw⟩]) ++
    if websocket then [⟨.code 101, .upgrade⟩] else []

/-- method.rs:421-526. -/
def responsesRef (websocket : Bool) (default : Option (RefOr DocResponse)) (codes : List (DocStatus × RefOr DocResponse)) :
    Run (List Response) := do
  let rs ← convertRefs comps n websocket
    (default.toList.map (fun r => (Status.default, r)) ++ codes.map (fun e => (e.1.toStatus, e.2)))
  pure (completed websocket rs)

/-- method.rs:533-538. -/
def noConflictRef (d : RefOperation) (pg : Option Pagination) : Res Unit :=
  if d.websocket ∧ pg.isSome then .err ("conflicting extensions in ".toList ++ d.operationId) else .ok ()

/-- method.rs:286-549 `process_operation`. -/
def processRef (san : Str → Str) (types : Types) (path method : Str) (d : RefOperation) : Run Processed := do
  let pathLevel ← items n (comps.map Sections.parameters) d.pathLevel
  let opLevel ← items n (comps.map Sections.parameters) d.opLevel
  let params ← lift (Params.convertAll san (BTree.values (combined pathLevel opLevel)))
  let body ← getBodyRef comps n d.body
  let tmp ← lift (parseTemplate path)
  let params ← lift (sortParams (Template.names tmp) (params ++ body.toList))
  let responses ← responsesRef comps n d.websocket d.default d.codes
  let pg := paginationData types d.pagination params responses
  let _ ← lift (noConflictRef d pg)
  let m ← lift (HttpMethod.parse method)
  pure ⟨{ operationId := san d.operationId, tags := d.tags, method := m, path := tmp, params,
          responses, websocket := d.websocket }, pg⟩

/-- An operation object. -/
structure RefRaw where
  id : Option Str
  op : RefOperation

/-- An OpenAPI document. -/
structure RefDocument where
  version : Str
  paths : List (Str × Option (List (Str × RefRaw)))
  components : Option Sections

/-- An operation of which only the id matters. -/
def bareOp (o : RefRaw) : Doc.RawOperation :=
  ⟨o.id, { operationId := [], tags := [], pathLevel := [], opLevel := [], body := none, default := none, codes := [],
           websocket := false, pagination := none }⟩

/-- What validation looks at (lib.rs:656-702): the version, the paths and the operation ids. -/
def bare (d : RefDocument) : Doc.Document :=
  ⟨d.version, d.paths.map fun p => (p.1, p.2.map fun ops => ops.map fun e => (e.1, bareOp e.2))⟩

/-- lib.rs:322-335: the operations of the document, in order. -/
def operations (d : RefDocument) : List (Str × Str × RefRaw) :=
  d.paths.flatMap fun p => match p.2 with
    | none => []
    | some ops => ops.map fun e => (p.1, e.1, e.2)

def processOneRef (u : Unicode) (types : Types) (o : Str × Str × RefRaw) : Run Processed :=
  match o.2.2.id with
  | some id => processRef comps n (sanitize u .snake) types o.1 o.2.1 { o.2.2.op with operationId := id }
  | none => lift (.panic "called `Option::unwrap()` on a `None` value".toList)

def processAllRef (u : Unicode) (types : Types) : List (Str × Str × RefRaw) → Run (List Processed)
  | [] => pure []
  | o :: os => do
    let p ← processOneRef comps n u types o
    let ps ← processAllRef u types os
    pure (p :: ps)

/-- lib.rs:308-502 `generate_tokens`, with at most `n` calls of `item` per reference. -/
def generateRef {B : Type} (u : Unicode) (types : Types) (tt : TypeTable B) (i : Doc.Interface) (t : Doc.TagStyle)
    (d : RefDocument) : Run (List Processed × List Code) := do
  let _ ← lift (Doc.validate u (bare d))
  let ms ← processAllRef d.components n u types (operations d)
  let cs ← lift (Doc.operationCode tt i t ms)
  pure (ms, cs)

end Progenitor.RefDoc

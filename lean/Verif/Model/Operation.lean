import Verif.Model.Exec

/-!
# From a document operation to `OperationMethod`

Model of `/repo/progenitor-impl/src/method.rs:286-549` (`process_operation`) and
`1205-1323` (`dropshot_pagination_data`).
-/

namespace Progenitor

open Progenitor Progenitor.Params

/-- `typify::TypeDetails` as far as it is looked at. -/
inductive TypeInfo where
  | struct (props : List (Str × TypeId))
  | option (t : TypeId)
  | vec (t : TypeId)
  | string
  | other
  deriving DecidableEq, Repr

/-- The type space: `get_type(id).ok()`. -/
abbrev Types := TypeId → Option TypeInfo

/-- method.rs:79-85 `struct DropshotPagination`. -/
structure Pagination where
  item : TypeId
  firstPageParams : List Str
  deriving DecidableEq, Repr

/-- method.rs:1217-1230: parameters counted as `page_token` / `limit`. -/
def isPageParam (p : Param) : Bool :=
  (p.apiName = "page_token".toList ∧ p.kind = .query false) ∨
  (p.apiName = "limit".toList ∧ p.kind = .query false)

/-- method.rs:1232-1239. -/
def queryOptional (p : Param) : Bool :=
  match p.kind with
  | .query required => !required
  | _ => true

/-- method.rs:1255-1263: the type of a typed success response. -/
def successType (r : Resp.Response) : Option TypeId :=
  match r.status, r.kind with
  | .code c, .type t => if 200 ≤ c ∧ c ≤ 299 then some t else none
  | .range 2, .type t => some t
  | _, _ => none

/-- method.rs:1252-1264. -/
def successTypes (responses : List Resp.Response) : List TypeId := responses.filterMap successType

/-- method.rs:1272-1321: the checks on the response type. -/
def pageType (types : Types) (t : TypeId) : Option TypeId :=
  match types t with
  | some (.struct props) =>
    let m := BTree.insertAll [] props
    if m.length ≠ 2 then none
    else match BTree.get "next_page".toList m with
      | none => none
      | some np => match types np with
        | some (.option o) =>
          if types o = some TypeInfo.string then
            match BTree.get "items".toList m with
            | none => none
            | some it => match types it with
              | some (.vec item) => some item
              | _ => none
          else none
        | _ => none
  | _ => none

/-- method.rs:1207-1323 `dropshot_pagination_data`; `ext` is the list `required` of the extension
`x-dropshot-pagination` (empty if malformed). -/
def paginationData (types : Types) (ext : Option (List Str)) (params : List Param)
    (responses : List Resp.Response) : Option Pagination :=
  match ext with
  | none => none
  | some required =>
    if (params.filter isPageParam).length ≠ 2 then none
    else if !params.all queryOptional then none
    else if params.any (fun p => p.typ = .rawBody) then none
    else match successTypes responses with
      | [t] => (pageType types t).map fun item => ⟨item, required⟩
      | _ => none

/-- An operation of the document with references resolved. -/
structure DocOperation where
  operationId : Str
  tags : List Str
  pathLevel : List DocParam
  opLevel : List DocParam
  body : Option (List (Str × BodyMedia))
  default : Option Resp.DocResponse
  codes : List (Resp.DocStatus × Resp.DocResponse)
  websocket : Bool
  pagination : Option (List Str)

/-- The result of `process_operation`: the method and its pagination data. -/
structure Processed where
  op : OperationMethod
  paginated : Option Pagination

/-- `template::parse(path)?`. -/
def parseTemplate (path : Str) : Res Template.PathTemplate :=
  match Template.parse path with
  | .ok t => .ok t
  | .error e => .err e

/-- method.rs:533-538. -/
def noConflict (d : DocOperation) (pg : Option Pagination) : Res Unit :=
  if d.websocket ∧ pg.isSome then .err ("conflicting extensions in ".toList ++ d.operationId) else .ok ()

/-- method.rs:286-549 `process_operation`.  `san` is `sanitize(_, Case::Snake)`. -/
def processOperation (san : Str → Str) (types : Types) (path method : Str) (d : DocOperation) :
    Res Processed := do
  let params ← convertAll san (BTree.values (combined d.pathLevel d.opLevel))
  let body ← getBodyParam d.body
  let tmp ← parseTemplate path
  let params ← sortParams (Template.names tmp) (params ++ body.toList)
  let responses ← Resp.processResponses d.websocket d.default d.codes
  let pg := paginationData types d.pagination params responses
  let _ ← noConflict d pg
  let m ← HttpMethod.parse method
  pure ⟨{ operationId := san d.operationId, tags := d.tags, method := m, path := tmp, params,
          responses, websocket := d.websocket }, pg⟩

end Progenitor

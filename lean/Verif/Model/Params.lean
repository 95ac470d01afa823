import Verif.Model.BTree
import Verif.Model.Template

/-!
# Parameters of an operation

Model of `/repo/progenitor-impl/src/util.rs` (`parameter_map`,
`unique_ident_from`) and `/repo/progenitor-impl/src/method.rs` (collection,
conversion and ordering of parameters).
-/

namespace Progenitor.Params

open Progenitor

/-- Type identifiers handed out by typify; opaque. -/
abbrev TypeId := Nat

/-- openapiv3 `Parameter` after reference resolution: the location together with
the parts of the definition that `process_operation` looks at. -/
inductive DocKind where
  /-- `simple`: the style is `PathStyle::Simple`. -/
  | path (simple : Bool)
  /-- `form`: the style is `QueryStyle::Form`; `optInner`: typify made the schema an
  `Option` of that type. -/
  | query (form : Bool) (optInner : Option TypeId)
  | header
  | cookie
  deriving DecidableEq, Repr

/-- openapiv3 `ParameterData` (name, required, whether `content` instead of
`schema` is used) and the type typify assigns to the schema. -/
structure DocParam where
  name : Str
  kind : DocKind
  required : Bool
  hasSchema : Bool := true
  ty : TypeId
  deriving DecidableEq, Repr

/-- method.rs:135-141 `enum BodyContentType`. -/
inductive ContentType where
  | octetStream
  | json
  | form
  | text (mime : Str)
  deriving DecidableEq, Repr

/-- method.rs:112-118 `enum OperationParameterKind`; the flag is "required". -/
inductive Kind where
  | path
  | query (required : Bool)
  | header (required : Bool)
  | body (ct : ContentType)
  deriving DecidableEq, Repr

/-- method.rs:95-110 `enum OperationParameterType`. -/
inductive PType where
  | type (id : TypeId)
  | rawBody
  deriving DecidableEq, Repr

/-- method.rs:87-93 `struct OperationParameter` (without the description). -/
structure Param where
  name : Str
  apiName : Str
  typ : PType
  kind : Kind
  deriving DecidableEq, Repr

/-- util.rs:45-52 `parameter_map`: a map keyed by the parameter's *name* only.
References are already resolved (see `Model/Refs.lean`). -/
def parameterMap (l : List DocParam) : BTree.Map DocParam :=
  BTree.insertAll [] (l.map fun p => (p.name, p))

/-- method.rs:296-300: the path-item parameters, then each operation parameter
inserted under its name. -/
def combined (pathLevel opLevel : List DocParam) : BTree.Map DocParam :=
  BTree.insertAll (parameterMap pathLevel) (opLevel.map fun p => (p.name, p))

/-- method.rs:304-405: the conversion of one parameter.  `san` is
`sanitize(_, Case::Snake)`; type names passed to typify are not modelled. -/
def convert (san : Str → Str) (p : DocParam) : Res Param :=
  match p.kind with
  | .path true =>
    if p.required then
      if p.hasSchema then .ok ⟨san p.name, p.name, .type p.ty, .path⟩
      else .err "unexpected content".toList
    else .panic "assertion failed: parameter_data.required".toList
  | .query true optInner =>
    if p.hasSchema then
      match optInner with
      | some inner => .ok ⟨san p.name, p.name, .type inner, .query false⟩
      | none => .ok ⟨san p.name, p.name, .type p.ty, .query p.required⟩
    else .err "unexpected content".toList
  | .header =>
    if p.hasSchema then .ok ⟨san p.name, p.name, .type p.ty, .header p.required⟩
    else .err "unexpected content".toList
  | .path false => .err "unsupported style of path parameter".toList
  | .query false _ => .err "unsupported style of query parameter".toList
  | .cookie => .err "cookie parameters are not supported".toList

/-- method.rs:304-405: `.map(..).collect::<Result<Vec<_>>>()`. -/
def convertAll (san : Str → Str) : List DocParam → Res (List Param)
  | [] => .ok []
  | p :: ps => do
    let q ← convert san p
    let qs ← convertAll san ps
    pure (q :: qs)

/-- method.rs:2241-2248: `names.iter().position(|x| x == name)`, panicking if
there is none. -/
def position (names : List Str) (n : Str) : Res Nat :=
  match names.findIdx? (· == n) with
  | some i => .ok i
  | none => .panic (n ++ " missing from path".toList)

/-- method.rs:2227-2289: the comparator of `sort_params`. -/
def cmp (names : List Str) (a b : Param) : Res Ordering :=
  match a.kind, b.kind with
  | .path, .path => do
    let i ← position names a.apiName
    let j ← position names b.apiName
    pure (compare i j)
  | .path, .query _ => .ok .lt
  | .path, .body _ => .ok .lt
  | .path, .header _ => .ok .lt
  | .query _, .body _ => .ok .lt
  | .query _, .query _ => .ok (strCmp a.apiName b.apiName)
  | .query _, .path => .ok .gt
  | .query _, .header _ => .ok .lt
  | .body _, .path => .ok .gt
  | .body _, .query _ => .ok .gt
  | .body _, .header _ => .ok .gt
  | .body _, .body _ => .panic "should only be one body".toList
  | .header _, .header _ => .ok (strCmp a.apiName b.apiName)
  | .header _, _ => .ok .gt

/-- Insertion of `x` at the end of the sorted prefix, which is given reversed
(last element first): core `insert_tail`, moving `x` left while it is less. -/
def insertTail {α} (less : α → α → Res Bool) (x : α) : List α → Res (List α)
  | [] => .ok [x]
  | y :: ys => do
    if ← less x y then
      let r ← insertTail less x ys
      pure (y :: r)
    else pure (x :: y :: ys)

/-- The loop of insertion sort; the accumulator is the reversed sorted prefix. -/
def sortLoop {α} (less : α → α → Res Bool) : List α → List α → Res (List α)
  | acc, [] => .ok acc.reverse
  | acc, x :: xs => do
    let acc' ← insertTail less x acc
    sortLoop less acc' xs

/-- method.rs:2226-2291 `sort_params`.  `slice::sort_by` is insertion sort
(`insertion_sort_shift_left`) for up to 20 elements; for longer slices and a
consistent comparator every stable sort returns the same list
(`Props.C15_any_stable_sort`). -/
def sortParams (names : List Str) (l : List Param) : Res (List Param) :=
  sortLoop (fun a b => do pure ((← cmp names a b) == .lt)) [] l

/-- method.rs:296-419: all parameters of the generated method.  `names` are the
names in the path template, `body` is the result of `get_body_param`. -/
def processParams (san : Str → Str) (names : List Str) (pathLevel opLevel : List DocParam)
    (body : Option Param) : Res (List Param) := do
  let params ← convertAll san (BTree.values (combined pathLevel opLevel))
  sortParams names (params ++ body.toList)

/-! ## Fresh identifiers -/

/-- util.rs:120-130: the loop of `unique_ident_from` as a big-step relation:
`Search ids name r` means that the loop started with `name` returns `r`. -/
inductive Search (ids : List Str) : Str → Str → Prop
  | stop (name) : name ∉ ids → Search ids name name
  | next (name r) : name ∈ ids → Search ids ('_' :: name) r → Search ids name r

/-- The same loop, with a bound on the number of iterations. -/
def uniqueIdentFuel (ids : List Str) : Nat → Str → Option Str
  | 0, _ => none
  | n + 1, name => if name ∈ ids then uniqueIdentFuel ids n ('_' :: name) else some name

/-- util.rs:116-131 `unique_ident_from`: the loop with a bound that is always
enough (`Props.C16_search`). -/
def uniqueIdent (name : Str) (ids : List Str) : Str :=
  (uniqueIdentFuel ids (ids.length + 1) name).getD name

/-- The local variables of the generated method body. -/
structure Locals where
  url : Str
  request : Str
  response : Str
  result : Str
  /-- method.rs:809, 832: written literally, not made unique. -/
  headerMap : Str
  deriving DecidableEq, Repr

/-- method.rs:772-783: `url_ident`, `request_ident`, `response_ident`,
`result_ident`; method.rs:832 `header_map`. -/
def locals (paramNames : List Str) : Locals where
  url := uniqueIdent "url".toList paramNames
  request := uniqueIdent "request".toList paramNames
  response := uniqueIdent "response".toList paramNames
  result := uniqueIdent "result".toList paramNames
  headerMap := "header_map".toList

/-- All local variables introduced in the scope of the parameters. -/
def Locals.all (l : Locals) : List Str := [l.url, l.request, l.response, l.result, l.headerMap]

end Progenitor.Params

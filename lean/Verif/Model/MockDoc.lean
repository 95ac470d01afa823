import Verif.Model.Mock
import Verif.Model.Doc

/-!
# Mocks for a document

Model of `/repo/progenitor-impl/src/httpmock.rs:32-127` (`Generator::httpmock`) and of what it takes for the emitted code to compile.
The path of the client crate is taken to be one that `syn` parses.
-/

namespace Progenitor.Mock

open Progenitor Progenitor.Params Progenitor.Doc

/-! ## Generation -/

/-- httpmock.rs:158-173: the type of the argument. -/
def whenArg (p : Param) : Res Unit :=
  match p.typ, p.kind with
  | .type _, _ => .ok ()
  | .rawBody, .body .octetStream => .ok ()
  | .rawBody, .body (.text _) => .ok ()
  | .rawBody, _ => .panic "internal error: entered unreachable code".toList

def whenArgs : List Param → Res Unit
  | [] => .ok ()
  | p :: ps => do
    let _ ← whenArg p
    whenArgs ps

/-- httpmock.rs:129-374 `httpmock_method`: the functions of `Then`. -/
def mockMethod (u : Names.Unicode) (op : OperationMethod) : Res (List ThenMethod) := do
  let _ ← whenArgs op.params
  thenMethods u op.responses

/-- httpmock.rs:60-63. -/
def mockAll (u : Names.Unicode) : List Processed → Res (List (List ThenMethod))
  | [] => .ok []
  | p :: ps => do
    let m ← mockMethod u p.op
    let ms ← mockAll u ps
    pure (m :: ms)

/-- httpmock.rs:32-127 `httpmock`. -/
def httpmock (u : Names.Unicode) (types : Types) (d : Document) : Res (List Processed × List (List ThenMethod)) := do
  let ms ← rawMethods u types d
  let ts ← mockAll u ms
  pure (ms, ts)

/-! ## Compiling -/

/-- typify's `parameter_ident`: a value is passed as a reference to it, as `&str`, or as it is (numbers, booleans, `()`, enums without
data, options). -/
inductive Passing where
  | ref
  | str
  | value
  deriving DecidableEq, Repr

/-- What is asked of types: how values are passed, and whether they have `to_string`. -/
structure MockTypes where
  passing : TypeId → Passing
  display : TypeId → Bool

/-- httpmock.rs:176-251: the body of the function for a parameter.  `json_body_obj` of httpmock takes a reference to a value of known
size; the value that is formatted does not matter. -/
def whenCompiles (mt : MockTypes) (op : OperationMethod) (p : Param) : Bool :=
  match p.typ, p.kind with
  | .type t, .path => mt.display t && (Template.rustFormat (Template.asWildcardParam op.path p.apiName) [[]]).isSome
  | .type t, .query _ => mt.display t
  | .type _, .header _ => true
  | .type t, .body _ => decide (mt.passing t = .ref)
  | .rawBody, _ => true

/-- httpmock.rs:277-302. -/
def thenCompiles (mt : MockTypes) (r : Resp.Response) : Bool :=
  match r.kind with
  | .type t => decide (mt.passing t = .ref)
  | _ => true

/-- httpmock.rs:254-268, 353-365: the wrappers of an operation. -/
def wrappersCompile (mt : MockTypes) (op : OperationMethod) (ts : List ThenMethod) : Bool :=
  decide (whenMethods op).Nodup && decide ("new".toList :: "into_inner".toList :: ts.map ThenMethod.name).Nodup &&
    op.params.all (whenCompiles mt op) && op.responses.all (thenCompiles mt)

/-- httpmock.rs:80-125: the structs of `operations`, and the methods of `MockServerExt`. -/
def mockNames (u : Names.Unicode) (ms : List Processed) : Bool :=
  decide (wrapperNames u (ms.map fun p => p.op.operationId)).Nodup && decide (ms.map fun p => p.op.operationId).Nodup

end Progenitor.Mock

import Verif.Model.Doc

/-!
# The generator as an object

Model of what `/repo/progenitor-impl/src/lib.rs:50-56` (`struct Generator`) remembers from one call to the next, apart from
types: `uses_futures` and `uses_websockets`.  The methods `generate_tokens` (lib.rs:308-502), `cli` (cli.rs:26-57) and
`httpmock` (httpmock.rs:32-63) take `&mut self`; a call that fails leaves behind what it has set before.  The types that a
call finds are given with the call.
-/

namespace Progenitor.Generator

open Progenitor Progenitor.Names Progenitor.Builder Progenitor.Exec Progenitor.Doc Progenitor.Params

/-- lib.rs:54-55. -/
structure Flags where
  futures : Bool
  websockets : Bool
  deriving DecidableEq, Repr

/-- lib.rs:246-254 `Default`, 295-305 `new`. -/
def Flags.new : Flags := ⟨false, false⟩

/-- A method that takes `&mut self`. -/
def Gen (α : Type) := Flags → Flags × Res α

namespace Gen

def lift {α : Type} (r : Res α) : Gen α := fun f => (f, r)

/-- `if b { self.flag = true; }` -/
def setIf (b : Bool) (g : Flags → Flags) : Gen Unit := fun f => (if b then g f else f, .ok ())

def bind {α β : Type} (x : Gen α) (k : α → Gen β) : Gen β := fun f =>
  match x f with
  | (f', .ok a) => k a f'
  | (f', .err m) => (f', .err m)
  | (f', .panic m) => (f', .panic m)

instance : Monad Gen where
  pure a := fun f => (f, .ok a)
  bind := bind

end Gen

def setFutures (f : Flags) : Flags := { f with futures := true }

def setWebsockets (f : Flags) : Flags := { f with websockets := true }

/-- method.rs:286-549 `process_operation`; the flag is set at 407-410, after the parameters of the document. -/
def processOperation (san : Str → Str) (types : Types) (path method : Str) (d : DocOperation) : Gen Processed := do
  let params ← Gen.lift (convertAll san (BTree.values (combined d.pathLevel d.opLevel)))
  let _ ← Gen.setIf d.websocket setWebsockets
  let body ← Gen.lift (getBodyParam d.body)
  let tmp ← Gen.lift (parseTemplate path)
  let params ← Gen.lift (sortParams (Template.names tmp) (params ++ body.toList))
  let responses ← Gen.lift (Resp.processResponses d.websocket d.default d.codes)
  let pg := paginationData types d.pagination params responses
  let _ ← Gen.lift (noConflict d pg)
  let m ← Gen.lift (HttpMethod.parse method)
  pure ⟨{ operationId := san d.operationId, tags := d.tags, method := m, path := tmp, params,
          responses, websocket := d.websocket }, pg⟩

def processOne (u : Unicode) (types : Types) : Str × Str × RawOperation → Gen Processed
  | (path, m, o) => match o.id with
    | some id => processOperation (sanitize u .snake) types path m { o.op with operationId := id }
    | none => Gen.lift (.panic "called `Option::unwrap()` on a `None` value".toList)

/-- lib.rs:322-338: `collect` stops at the first failure. -/
def processAll (u : Unicode) (types : Types) : List (Str × Str × RawOperation) → Gen (List Processed)
  | [] => pure []
  | o :: os => do
    let p ← processOne u types o
    let ps ← processAll u types os
    pure (p :: ps)

/-- lib.rs:309-338, cli.rs:27-52, httpmock.rs:33-58. -/
def rawMethods (u : Unicode) (types : Types) (d : Document) : Gen (List Processed) := do
  let _ ← Gen.lift (validate u d)
  processAll u types (operations d)

variable {B : Type}

/-- method.rs:551-766 `positional_method`; the flag is set at 627-629, after `method_sig_body`. -/
def positionalAll : List Processed → Gen (List Code)
  | [] => pure []
  | p :: ps => do
    let c ← Gen.lift (methodSigBody p.op)
    let _ ← Gen.setIf p.paginated.isSome setFutures
    let cs ← positionalAll ps
    pure (c :: cs)

/-- method.rs:1400-1860 `builder_struct`; the flag is set at 1679-1681, after everything that can fail. -/
def builderAll (tt : TypeTable B) : List Processed → Gen (List Code)
  | [] => pure []
  | p :: ps => do
    let c ← Gen.lift (builderStruct tt p.op)
    let _ ← Gen.setIf p.paginated.isSome setFutures
    let cs ← builderAll tt ps
    pure (c :: cs)

/-- lib.rs:340-361. -/
def operationCode (tt : TypeTable B) (i : Interface) (t : TagStyle) (ms : List Processed) : Gen (List Code) :=
  match i, t with
  | .positional, .merged => positionalAll ms
  | .positional, .separate =>
    Gen.lift (.panic "not implemented: positional arguments with separate tags are currently unsupported".toList)
  | .builder, _ => builderAll tt ms

/-- What a generator is asked for. -/
inductive Target where
  | client
  | cli
  | mock
  deriving DecidableEq, Repr

/-- A call of `generate_tokens`, `cli` or `httpmock`. -/
structure Request (B : Type) where
  target : Target
  types : Types
  table : TypeTable B
  document : Document

/-- One call.  `cli` and `httpmock` do not set flags after the operations are processed (cli.rs:54-, httpmock.rs:60-). -/
def call (u : Unicode) (i : Interface) (t : TagStyle) (q : Request B) : Gen (List Processed) := do
  let ms ← rawMethods u q.types q.document
  match q.target with
  | .client => do
    let _ ← operationCode q.table i t ms
    pure ms
  | .cli => pure ms
  | .mock => pure ms

/-- Calls one after the other; what each gives, and the flags at the end. -/
def calls (u : Unicode) (i : Interface) (t : TagStyle) : List (Request B) → Flags → Flags × List (Res (List Processed))
  | [], f => (f, [])
  | q :: qs, f =>
    let (f', r) := call u i t q f
    let (f'', rs) := calls u i t qs f'
    (f'', r :: rs)

end Progenitor.Generator

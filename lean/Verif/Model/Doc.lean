import Verif.Model.Names
import Verif.Model.Builder

/-!
# Documents

Model of `/repo/progenitor-impl/src/lib.rs:656-702` (validation) and `308-360` (`generate_tokens`:
order of operations, dispatch on the interface style), `method.rs:1863-2001`
(`builder_helper`, `builder_tags`), and the names of the items that are emitted.
Schema conversion and typify are not part of it: the type of each
parameter is given with the document.
-/

namespace Progenitor.Doc

open Progenitor Progenitor.Names Progenitor.Builder Progenitor.Exec

/-- An operation object; `operationId` is optional in a document. -/
structure RawOperation where
  id : Option Str
  op : DocOperation

/-- An OpenAPI document.  A path item is a reference (`none`) or lists the operations in the order of
`PathItem::iter`, with their methods. -/
structure Document where
  version : Str
  paths : List (Str × Option (List (Str × RawOperation)))

/-! ## Validation -/

/-- `str::trim`. -/
def trim (u : Unicode) (s : Str) : Str := ((s.dropWhile u.white).reverse.dropWhile u.white).reverse

/-- lib.rs:656-666 `validate_openapi_spec_version`. -/
def validateVersion (u : Unicode) (v : Str) : Res Unit :=
  if "3.0.".toList.isPrefixOf (trim u v) then .ok () else .err ("invalid version: ".toList ++ v)

/-- lib.rs:682-697: the operations of a path item; `ids` is the set of ids seen. -/
def validateOps (path : Str) : List Str → List (Str × RawOperation) → Res (List Str)
  | ids, [] => .ok ids
  | ids, (_, o) :: rest => match o.id with
    | some id =>
      if id ∈ ids then .err ("duplicate operation ID: ".toList ++ id) else validateOps path (id :: ids) rest
    | none => .err ("path ".toList ++ path ++ " is missing operation ID".toList)

/-- lib.rs:673-699. -/
def validatePaths : List Str → List (Str × Option (List (Str × RawOperation))) → Res (List Str)
  | ids, [] => .ok ids
  | ids, (path, item) :: rest => match item with
    | none => .err ("path ".toList ++ path ++ " uses reference, unsupported".toList)
    | some ops => do
      let ids ← validateOps path ids ops
      validatePaths ids rest

/-- lib.rs:669-702 `validate_openapi`. -/
def validate (u : Unicode) (d : Document) : Res Unit := do
  let _ ← validateVersion u d.version
  let _ ← validatePaths [] d.paths
  pure ()

/-! ## Operations -/

/-- lib.rs:322-335: the operations of the document, in order. -/
def operations (d : Document) : List (Str × Str × RawOperation) :=
  d.paths.flatMap fun (path, item) => match item with
    | none => []
    | some ops => ops.map fun (m, o) => (path, m, o)

def processOne (u : Unicode) (types : Types) : Str × Str × RawOperation → Res Processed
  | (path, m, o) => match o.id with
    | some id => processOperation (sanitize u .snake) types path m { o.op with operationId := id }
    | none => .panic "called `Option::unwrap()` on a `None` value".toList

def processAll (u : Unicode) (types : Types) : List (Str × Str × RawOperation) → Res (List Processed)
  | [] => .ok []
  | o :: os => do
    let p ← processOne u types o
    let ps ← processAll u types os
    pure (p :: ps)

/-- lib.rs:309-338. -/
def rawMethods (u : Unicode) (types : Types) (d : Document) : Res (List Processed) := do
  let _ ← validate u d
  processAll u types (operations d)

/-! ## Interface styles -/

inductive Interface where
  | positional
  | builder
  deriving DecidableEq, Repr

inductive TagStyle where
  | merged
  | separate
  deriving DecidableEq, Repr

variable {B : Type}

def positionalAll : List Processed → Res (List Code)
  | [] => .ok []
  | p :: ps => do
    let c ← methodSigBody p.op
    let cs ← positionalAll ps
    pure (c :: cs)

def builderAll (tt : TypeTable B) : List Processed → Res (List Code)
  | [] => .ok []
  | p :: ps => do
    let c ← builderStruct tt p.op
    let cs ← builderAll tt ps
    pure (c :: cs)

/-- lib.rs:340-361: the code of the operations. -/
def operationCode (tt : TypeTable B) (i : Interface) (t : TagStyle) (ms : List Processed) : Res (List Code) :=
  match i, t with
  | .positional, .merged => positionalAll ms
  | .positional, .separate =>
    .panic "not implemented: positional arguments with separate tags are currently unsupported".toList
  | .builder, _ => builderAll tt ms

/-- lib.rs:308-502 `generate_tokens`, as far as operations are concerned. -/
def generate (u : Unicode) (types : Types) (tt : TypeTable B) (i : Interface) (t : TagStyle) (d : Document) :
    Res (List Processed × List Code) := do
  let ms ← rawMethods u types d
  let cs ← operationCode tt i t ms
  pure (ms, cs)

/-! ## Names of emitted items -/

/-- lib.rs:432-491: methods of the emitted `impl Client`. -/
def clientOwn (inner : Bool) : List Str :=
  ["new", "new_with_client", "baseurl", "client", "api_version"].map String.toList ++
    if inner then ["inner".toList] else []

/-- method.rs:594-753: methods for one operation in the positional style. -/
def positionalNames (p : Processed) : List Str :=
  p.op.operationId :: if p.paginated.isSome then [p.op.operationId ++ "_stream".toList] else []

/-- method.rs:1406: the struct for one operation in the builder style. -/
def structName (u : Unicode) (p : Processed) : Str := sanitize u .pascal p.op.operationId

/-- lib.rs:550-559: imports of `mod builder` in the type namespace. -/
def builderImports : List Str :=
  ["types", "ByteStream", "Error", "RequestBuilderExt", "ResponseValue"].map String.toList

/-! ## Tags -/

/-- `BTreeMap::entry(k).or_insert_with(Vec::new).push(v)`. -/
def pushAt {V : Type} (k : Str) (v : V) (m : BTree.Map (List V)) : BTree.Map (List V) :=
  BTree.insert k ((BTree.get k m).getD [] ++ [v]) m

/-- method.rs:1919-1952: methods without tags, and methods by tag. -/
def builderTags : List Processed → List Processed × BTree.Map (List Processed) → List Processed × BTree.Map (List Processed)
  | [], acc => acc
  | m :: ms, (base, ext) =>
    if m.op.tags = [] then builderTags ms (base ++ [m], ext)
    else builderTags ms (base, m.op.tags.foldl (fun ext tag => pushAt tag m ext) ext)

/-- method.rs:1971: the trait for a tag. -/
def traitName (u : Unicode) (tag : Str) : Str := "Client".toList ++ sanitize u .pascal tag ++ "Ext".toList

/-- Names of the standard prelude that the code of one builder struct mentions unqualified in type position: method.rs:1421-1448
(`Result`, `String`, `Option`), 1582 (`From`), 1646 (`Result`), 1716 (`Unpin`). -/
def builderUses (tt : TypeTable B) (p : Processed) : List Str :=
  ["Result".toList] ++
  (if p.op.params = [] then [] else ["String".toList]) ++
  (if p.op.params.any (fun q => !isRequired q.kind) then ["Option".toList] else []) ++
  (if p.op.params.any (fun q => match q.typ with
      | .type t => (tt.builder t).isSome
      | .rawBody => false) then ["From".toList] else []) ++
  (if p.paginated.isSome then ["Unpin".toList] else [])

/-- `mod builder`: structs differ from each other and from the imports, and none hides a name that is needed. -/
def builderModOk (u : Unicode) (tt : TypeTable B) (ms : List Processed) : Bool :=
  decide ((builderImports ++ ms.map (structName u)).Nodup) &&
  ms.all fun p => ms.all fun q => !(builderUses tt q).contains (structName u p)

/-- The names of items that are emitted together are distinct: methods of `impl Client`, structs of
`mod builder`, extension traits, methods of each trait. -/
def namesOk (u : Unicode) (tt : TypeTable B) (inner : Bool) (i : Interface) (t : TagStyle) (ms : List Processed) : Bool :=
  match i, t with
  | .positional, _ => decide ((clientOwn inner ++ ms.flatMap positionalNames).Nodup)
  | .builder, .merged =>
    decide ((clientOwn inner ++ ms.map fun p => p.op.operationId).Nodup) && builderModOk u tt ms
  | .builder, .separate =>
    decide ((clientOwn inner ++ (builderTags ms ([], [])).1.map fun p => p.op.operationId).Nodup) &&
    builderModOk u tt ms &&
    decide (((builderTags ms ([], [])).2.map fun e => traitName u e.1).Nodup) &&
    (builderTags ms ([], [])).2.all fun e => decide ((e.2.map fun p => p.op.operationId).Nodup)

/-- What `client.name()` means in code that imports everything from `prelude` (lib.rs:608-616): methods of `impl Client` come
first, then a method of exactly one trait.  `client` is a variable of type `Client`, in the 2021 edition: before all of these come
the methods of traits of the standard prelude that take `self` itself and that every type has, `into` and `try_into`; among traits
there are those that `Client` has because it can be copied (lib.rs:427), `Clone` and `ToOwned`. -/
inductive Callee where
  | standard
  | own
  | inherent (p : Processed)
  | trait (tag : Str) (p : Processed)
  | ambiguous
  | missing

def resolveTrait (name : Str) (ext : BTree.Map (List Processed)) : Callee :=
  match ext.filterMap fun e => (e.2.find? fun p => p.op.operationId = name).map fun p => (e.1, p) with
  | [] => .missing
  | [(tag, p)] => .trait tag p
  | _ => .ambiguous

/-- Methods of `Into` and `TryInto`. -/
def standardValue : List Str := ["into".toList, "try_into".toList]

/-- Methods of `Clone` and `ToOwned` that take `&self`, as the methods of the emitted traits do. -/
def standardRef : List Str := ["clone".toList, "clone_into".toList, "to_owned".toList]

def resolve (inner : Bool) (name : Str) (tags : List Processed × BTree.Map (List Processed)) : Callee :=
  if name ∈ standardValue then .standard
  else if name ∈ clientOwn inner then .own
  else match tags.1.find? fun p => p.op.operationId = name with
    | some p => .inherent p
    | none =>
      if name ∈ standardRef then
        match resolveTrait name tags.2 with
        | .missing => .standard
        | _ => .ambiguous
      else resolveTrait name tags.2

/-! ## Features used -/

/-- method.rs:627-629, 1677-1681. -/
def usesFutures (ms : List Processed) : Bool := ms.any fun p => p.paginated.isSome

/-- method.rs:407-410. -/
def usesWebsockets (ms : List Processed) : Bool := ms.any fun p => p.op.websocket

/-! ## Dependencies of a generated crate -/

/-- What `dependencies` looks at: cargo-progenitor's `--include-client`, the version of this crate, and features of the type space
and the generator. -/
structure Features where
  includeClient : Bool
  clientVersion : Str
  regress : Bool
  uuid : Bool
  chrono : Bool
  futures : Bool
  websockets : Bool
  serdeJson : Bool

/-- `name = "version"`. -/
def depLine (name version : String) : Str := (name ++ " = \"" ++ version ++ "\"").toList

/-- A line with a table of options. -/
def depTable (name rest : String) : Str := (name ++ " = { " ++ rest ++ " }").toList

def when (b : Bool) (l : List Str) : List Str := if b then l else []

/-- cargo-progenitor/src/main.rs:242-297, before sorting. -/
def depLines (f : Features) : List Str :=
  [depLine "bytes" "1.9", depLine "futures-core" "0.3",
   depTable "reqwest" "version = \"0.12\", default-features=false, features = [\"json\", \"stream\"]",
   depTable "serde" "version = \"1.0\", features = [\"derive\"]",
   depLine "serde_urlencoded" "0.7"] ++
  (if f.includeClient then [depLine "percent-encoding" "2.3"]
   else ["progenitor-client = \"".toList ++ f.clientVersion ++ "\"".toList]) ++
  when f.regress [depLine "regress" "0.10"] ++
  when f.uuid [depTable "uuid" "version = \"1.0\", features = [\"serde\", \"v4\"]"] ++
  when f.chrono [depTable "chrono" "version = \"0.4\", default-features=false, features = [\"serde\"]"] ++
  when f.futures [depLine "futures" "0.3"] ++
  when f.websockets [depLine "base64" "0.22", depLine "rand" "0.8"] ++
  when (f.serdeJson || f.includeClient) [depLine "serde_json" "1.0"]

def insertLine (x : Str) : List Str → List Str
  | [] => [x]
  | y :: ys => if strCmp x y = .gt then y :: insertLine x ys else x :: y :: ys

/-- `sort_unstable` (equal elements are the same text, so that any sorting algorithm gives the same result). -/
def sortLines : List Str → List Str
  | [] => []
  | x :: xs => insertLine x (sortLines xs)

/-- main.rs:242-299 `dependencies`. -/
def dependencies (f : Features) : List Str := sortLines (depLines f)

end Progenitor.Doc

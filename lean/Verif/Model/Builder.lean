import Verif.Model.Operation

/-!
# The builder interface

Model of `/repo/progenitor-impl/src/method.rs:1400-1861` (`builder_struct`): the emitted
struct, its setters, `send`.  A value that the caller passes is represented by the result of its
`try_into()`.
-/

namespace Progenitor.Builder

open Progenitor Progenitor.Params Progenitor.Client Progenitor.Exec

variable {B : Type}

/-- A builder type made by typify for a struct type: `Default`, `From<T>`, and `TryFrom` back. -/
structure TypeBuilder (B : Type) where
  default : B
  ofValue : Arg → B
  finish : B → Except Str Arg

/-- `ty.builder()` and `ty.name()`. -/
structure TypeTable (B : Type) where
  builder : TypeId → Option (TypeBuilder B)
  name : TypeId → Str

/-- method.rs:1421-1448: the type of a field is `Result<_, String>`. -/
inductive Field (B : Type) where
  | req (v : Except Str Arg)
  | opt (v : Except Str (Option Arg))
  | raw (v : Except Str Bytes)
  | nested (v : Except Str B)

/-- method.rs:120-133 `is_required`. -/
def isRequired : Kind → Bool
  | .query r => r
  | .header r => r
  | _ => true

def isBody : Kind → Bool
  | .body _ => true
  | _ => false

/-- method.rs:1470, 1478. -/
def notInitialized (n : Str) : Str := n ++ " was not initialized".toList

/-- method.rs:1454-1483 `param_values`. -/
def initField (tt : TypeTable B) (p : Param) : Field B :=
  match p.typ with
  | .rawBody => .raw (.error (notInitialized p.name))
  | .type t =>
    match isBody p.kind, tt.builder t with
    | true, some tb => .nested (.ok tb.default)
    | _, _ =>
      if isRequired p.kind then .req (.error (notInitialized p.name)) else .opt (.ok none)

/-- What a caller passes to a setter: a value, by the result of `try_into` (the error by its
`Display` text), or a function for `body_map`. -/
inductive Input (B : Type) where
  | value (conv : Except Str Arg)
  | raw (conv : Except Str Bytes)
  | map (f : B → B)

/-- method.rs:1530-1534, 1550-1554, 1603-1604, 1618-1619: "conversion to `T` for p failed". -/
def conversionFailed (ty n : Str) : Str :=
  "conversion to `".toList ++ ty ++ "` for ".toList ++ n ++ " failed".toList

def rawTypeName : Kind → Str
  | .body (.text _) => "String".toList
  | _ => "reqwest::Body".toList

/-- method.rs:1510-1638 `param_impls`: the setter of `p` (and `body_map`) on the field of `p`; `none`:
the call does not compile. -/
def setField (tt : TypeTable B) (p : Param) : Field B → Input B → Option (Field B)
  | .req _, .value conv => match p.typ with
    | .type t => some (.req (conv.mapError fun _ => conversionFailed (tt.name t) p.name))
    | .rawBody => none
  | .opt _, .value conv => match p.typ with
    | .type t => some (.opt ((conv.map some).mapError fun _ => conversionFailed (tt.name t) p.name))
    | .rawBody => none
  | .raw _, .raw conv =>
    some (.raw (conv.mapError fun _ => conversionFailed (rawTypeName p.kind) p.name))
  | .nested _, .value conv => match p.typ with
    | .type t => match tt.builder t with
      | some tb => some (.nested ((conv.map tb.ofValue).mapError fun e =>
          conversionFailed (tt.name t) p.name ++ ": ".toList ++ e))
      | none => none
    | .rawBody => none
  | .nested v, .map f => some (.nested (v.map f))
  | _, _ => none

/-- method.rs:1488-1506, 1657-1670 `param_finalize`. -/
def finalize (tt : TypeTable B) (p : Param) : Field B → Except Str Value
  | .req v => v.map .plain
  | .opt v => v.map .opt
  | .raw v => v.map .raw
  | .nested v => match p.typ with
    | .type t => match tt.builder t with
      | some tb => match v with
        | .ok b => (tb.finish b).map .plain
        | .error e => .error e
      | none => .error []
    | .rawBody => .error []

/-- The fields of the struct, in parameter order. -/
abbrev State (B : Type) := List (Param × Field B)

/-- method.rs:1847-1852 `new`. -/
def new (tt : TypeTable B) (params : List Param) : State B := params.map fun p => (p, initField tt p)

/-- A setter call: the parameter it is for, and the input. -/
abbrev Call (B : Type) := Str × Input B

/-- A call of one setter. -/
def setOne (tt : TypeTable B) (c : Call B) : State B → Option (State B)
  | [] => none
  | (p, f) :: rest =>
    if p.name = c.1 then (setField tt p f c.2).map fun f' => (p, f') :: rest
    else (setOne tt c rest).map fun rest' => (p, f) :: rest'

/-- A chain of setter calls. -/
def setAll (tt : TypeTable B) : State B → List (Call B) → Option (State B)
  | s, [] => some s
  | s, c :: cs => match setOne tt c s with
    | none => none
    | some s' => setAll tt s' cs

/-- method.rs:1657-1673: destructure, finalize in order, stop at the first error. -/
def finalizeAll (tt : TypeTable B) : State B → Except Str Env
  | [] => .ok []
  | (p, f) :: rest => match finalize tt p f with
    | .error e => .error e
    | .ok v => match finalizeAll tt rest with
      | .error e => .error e
      | .ok env => .ok ((p.name, v) :: env)

/-- method.rs:1510-1638: generation panics for parameters other than the body whose type has a
builder. -/
def genParam (tt : TypeTable B) (p : Param) : Res Unit :=
  match p.typ with
  | .type t => match tt.builder t with
    | some _ =>
      if isRequired p.kind then
        if p.name = "body".toList then .ok () else .panic "assertion failed: param.name == \"body\"".toList
      else .panic "internal error: entered unreachable code".toList
    | none => .ok ()
  | .rawBody => match p.kind with
    | .body .octetStream => .ok ()
    | .body (.text _) => .ok ()
    | _ => .panic "internal error: entered unreachable code".toList

def genParams (tt : TypeTable B) : List Param → Res Unit
  | [] => .ok ()
  | p :: ps => do
    let _ ← genParam tt p
    genParams tt ps

/-- The setters of one parameter. -/
def setterNames (tt : TypeTable B) (p : Param) : List Str :=
  match initField tt p with
  | .nested _ => [p.name, "body_map".toList]
  | _ => [p.name]

/-- Names of the methods of the emitted `impl` (method.rs:1843-1860).  `stream` also calls `clone` (method.rs:1718, 1746), which is
the method of the derived `Clone` unless there is a setter with that name. -/
def methodNames (tt : TypeTable B) (params : List Param) (paginated : Bool) : List Str :=
  "new".toList :: (params.flatMap (setterNames tt)) ++
    "send".toList :: (if paginated then ["stream".toList, "clone".toList] else [])

/-- A type with a builder belongs to a body: elsewhere `body_map` has the wrong type. -/
def builderPlaced (tt : TypeTable B) (p : Param) : Bool :=
  match p.typ with
  | .type t => isBody p.kind || (tt.builder t).isNone
  | .rawBody => true

/-- The emitted struct and `impl` have distinct field and method names, and every type with a
builder belongs to a body.  (The field `client` is made distinct from the others.) -/
def structOk (tt : TypeTable B) (params : List Param) (paginated : Bool) : Bool :=
  decide ((methodNames tt params paginated).Nodup) && params.all (builderPlaced tt)

/-- method.rs:1400-1861 `builder_struct`: the code of `send` is that of the positional method. -/
def builderStruct (tt : TypeTable B) (op : OperationMethod) : Res Code := do
  let _ ← genParams tt op.params
  methodSigBody op

variable {P V : Type}

/-- `send` (method.rs:1646-1675) in a given state of the builder. -/
def send (cfg : Config) (hooks : Hooks) (w : World) (decode : TypeId → Bytes → Except P V)
    (tt : TypeTable B) (c : Code) (hist : List Event) (s : State B) : Result P V × List Event :=
  match finalizeAll tt s with
  | .error m => (.returned (.error (.invalidRequest m)), hist)
  | .ok env => run cfg hooks w decode c hist env

/-- `client.op().a(..).b(..).send().await`. -/
def callBuilder (cfg : Config) (hooks : Hooks) (w : World) (decode : TypeId → Bytes → Except P V)
    (tt : TypeTable B) (params : List Param) (paginated : Bool) (c : Code) (hist : List Event)
    (calls : List (Call B)) : Result P V × List Event :=
  if structOk tt params paginated then
    match setAll tt (new tt params) calls with
    | none => (.noCompile, hist)
    | some s => send cfg hooks w decode tt c hist s
  else (.noCompile, hist)

end Progenitor.Builder

import Verif.Model.Settings
import Verif.Model.Exec

/-!
# The generated `Client`

Model of `/repo/progenitor-impl/src/lib.rs:361-494` (struct, constructors, accessors), and of what methods take from the client
(`/repo/progenitor-impl/src/method.rs:831-839, 1053-1083, 1086-1103`, `/repo/progenitor-impl/src/template.rs:48-50`).
-/

namespace Progenitor.ClientStruct

open Progenitor Progenitor.Exec Progenitor.Settings

variable {S V R I : Type}

/-- `reqwest::ClientBuilder`, as far as it is used: timeouts in seconds. -/
structure ClientBuilder where
  connectTimeout : Option Nat := none
  timeout : Option Nat := none
  deriving DecidableEq, Repr

/-- lib.rs:427-433 `struct Client`.  `R` is `reqwest::Client`; the field `inner` exists iff there is an inner type `I`. -/
structure Client (R I : Type) where
  baseurl : Str
  client : R
  inner : Option I

/-- What is generated for the client: the version of the document, and whether there is an inner type. -/
structure Decl where
  version : Str
  hasInner : Bool
  deriving DecidableEq, Repr

/-- lib.rs:361-394, 407. -/
def declOf (g : Generation S V) (version : Str) : Decl := ⟨version, g.innerType.isSome⟩

/-- The arguments of a constructor type check: an inner value is given iff there is an inner type. -/
def Decl.takes (d : Decl) (inner : Option I) : Bool := inner.isSome == d.hasInner

/-- lib.rs:465-475 `new_with_client`; `none`: does not compile. -/
def Decl.newWithClient (d : Decl) (baseurl : Str) (client : R) (inner : Option I) : Option (Client R I) :=
  if d.takes inner then some ⟨baseurl, client, inner⟩ else none

/-- lib.rs:445-454: the builder, depending on the target. -/
def builderFor (wasm : Bool) : ClientBuilder :=
  if wasm then {} else { connectTimeout := some 15, timeout := some 15 }

/-- lib.rs:441-457 `new`; `build` is `ClientBuilder::build`. -/
def Decl.new (d : Decl) (wasm : Bool) (build : ClientBuilder → Option R) (baseurl : Str) (inner : Option I) :
    Option (Res (Client R I)) :=
  if d.takes inner then
    match build (builderFor wasm) with
    | none => some (.panic "called `Result::unwrap()` on an `Err` value".toList)
    | some client => (d.newWithClient baseurl client inner).map .ok
  else none

/-- lib.rs:478-480 `baseurl()`. -/
def Client.getBaseurl (c : Client R I) : Str := c.baseurl

/-- lib.rs:483-485 `client()`. -/
def Client.getClient (c : Client R I) : R := c.client

/-- lib.rs:491-493 `api_version()`. -/
def Decl.apiVersion (d : Decl) (_c : Client R I) : Str := d.version

/-- lib.rs:365-371 `inner()`, iff there is an inner type. -/
def Decl.inner (d : Decl) (c : Client R I) : Option I := if d.hasInner then c.inner else none

/-- Things outside of the client: the hooks, which get the inner value if there is one, what `reqwest` clients do with requests,
and what a method needs besides the client. -/
structure Surroundings (R I : Type) where
  preAsync : Option I → List Event → Request → Except Str Request
  postAsync : Option I → List Event → Reply → Except Str Unit
  execute : R → List Event → Request → Reply
  validUrl : Str → Bool
  toJson : Query.Ser → Except Unit Bytes
  wsKey : Str

/-- method.rs:1053-1056: the first argument of hooks. -/
def Decl.hookArg (d : Decl) (c : Client R I) : Option I := if d.hasInner then c.inner else none

/-- What a method sees: template.rs:48-50 (`client.baseurl`), method.rs:831-839 (`api_version()`), 1091 and 1103 (`client.client`). -/
def Decl.config (d : Decl) (s : Surroundings R I) (c : Client R I) : Config :=
  { baseurl := c.baseurl, apiVersion := d.apiVersion c, validUrl := s.validUrl, toJson := s.toJson, wsKey := s.wsKey }

def Decl.world (d : Decl) (s : Surroundings R I) (c : Client R I) : World :=
  { preAsync := s.preAsync (d.hookArg c), server := s.execute c.client, postAsync := s.postAsync (d.hookArg c) }

/-- A call of a positional method of the client. -/
def callMethod {P U : Type} (g : Generation S V) (version : Str) (s : Surroundings R I) (c : Client R I)
    (decode : Params.TypeId → Bytes → Except P U) (params : List Params.Param) (code : Code) (hist : List Event) (args : List Value) :
    Result P U × List Event :=
  call ((declOf g version).config s c) (hooksOf g) ((declOf g version).world s c) decode params code hist args

end Progenitor.ClientStruct

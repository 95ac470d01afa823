import Verif.Model.Stream
import Verif.Model.Names

/-!
# The command line interface

Model of `/repo/progenitor-impl/src/cli.rs`: the emitted commands (flags of `clap`), what is done with the flags given, and what is
reported.  `clap` is represented by its rules for required arguments, by what `get_one` returns, and by the demand that the names of
arguments differ.  Help texts are in `Model/CliHelp.lean`; words and the override functions of `CliConfig` are in `Model/Argv.lean`.
-/

namespace Progenitor.Cli

open Progenitor Progenitor.Params Progenitor.Client Progenitor.Exec Progenitor.Builder Progenitor.Stream

variable (u : Names.Unicode)

/-! ## Flags -/

/-- Words joined by `-`. -/
def joinDashes : List Str → Str
  | [] => []
  | [w] => w
  | w :: ws => w ++ '-' :: joinDashes ws

/-- heck 0.5 `to_kebab_case`. -/
def toKebab (s : Str) : Str := joinDashes ((Names.words u s).map (Names.lowercase u))

/-- `typify::TypeStructPropInfo` (without the description). -/
structure PropInfo where
  name : Str
  required : Bool
  type : TypeId
  deriving DecidableEq, Repr

/-- What is asked of types: the properties of a struct (`none`: another type); the type in an `Option`; whether it has `FromStr`;
whether `clap::value_parser!` is defined for it; whether it is `NonZeroU32` (then, the number). -/
structure CliTypes where
  props : TypeId → Option (List PropInfo)
  inner : TypeId → Option TypeId
  fromStr : TypeId → Bool
  parser : TypeId → Bool
  nonZeroU32 : TypeId → Option (Arg → Nat)

/-- cli.rs:608-612. -/
inductive Volition where
  | optional
  | required
  | requiredIfNoBody
  deriving DecidableEq, Repr

/-- cli.rs:413-421, 577-589: what is done with the value: `request.f(value)`, or `request.body_map(|body| body.f(value))`. -/
inductive Consumer where
  | param (setter : Str)
  | prop (setter : Str)
  deriving DecidableEq, Repr

/-- cli.rs:686-693. -/
structure Flag where
  type : TypeId
  volition : Volition
  consumer : Consumer
  deriving DecidableEq, Repr

/-- cli.rs:695-701. -/
inductive BodyArg where
  | none
  | required
  | optional
  deriving DecidableEq, Repr

/-- cli.rs:703-707. -/
structure Args where
  flags : BTree.Map Flag
  body : BodyArg
  deriving DecidableEq, Repr

/-- cli.rs:370-382: not a body, and not the token of a paginated operation. -/
def hasFlag (pg : Option Pagination) (p : Param) : Bool :=
  !isBody p.kind && !(pg.isSome && p.name = "page_token".toList)

/-- cli.rs:370-377. -/
def innatelyRequired : Kind → Bool
  | .path => true
  | .query r => r
  | .header r => r
  | .body _ => false

/-- cli.rs:364-367, 384-391. -/
def paramVolition (pg : Option Pagination) (p : Param) : Volition :=
  let firstPage := match pg with
    | some d => d.firstPageParams.contains p.apiName
    | none => false
  if innatelyRequired p.kind || firstPage then .required else .optional

/-- cli.rs:369-424: one parameter. -/
def paramArg (pg : Option Pagination) (p : Param) (args : Args) : Res Args :=
  if hasFlag pg p then
    match p.typ with
    | .rawBody => .panic "internal error: entered unreachable code: query and path parameters must be typed".toList
    | .type t =>
      let n := toKebab u p.name
      if (BTree.get n args.flags).isSome then .panic "assertion failed: !args.has_arg(&arg_name)".toList
      else .ok { args with
        flags := BTree.insert n ⟨t, paramVolition pg p, .param (Names.sanitize u .snake p.name)⟩ args.flags }
  else .ok args

/-- cli.rs:369-424. -/
def paramArgs (pg : Option Pagination) : List Param → Args → Res Args
  | [], args => .ok args
  | p :: ps, args => do
    let args ← paramArg u pg p args
    paramArgs pg ps args

/-- cli.rs:426-437 `maybe_body_type_id`. -/
def bodyType (params : List Param) : Option TypeId :=
  match params.find? fun p => isBody p.kind with
  | none => none
  | some p => match p.typ with
    | .rawBody => none
    | .type t => some t

/-- cli.rs:527-593 `cli_method_body_arg` (its assertion on `body` holds: `body_present` was called before). -/
def propArg (ct : CliTypes) (args : Args) (i : PropInfo) : Args :=
  let t := (ct.inner i.type).getD i.type
  let n := toKebab u i.name
  let f : Flag := ⟨t, if i.required then .requiredIfNoBody else .optional, .prop (Names.sanitize u .snake i.name)⟩
  if ct.fromStr t && (BTree.get n args.flags).isNone then { args with flags := BTree.insert n f args.flags }
  else if i.required then { args with body := .required }
  else args

/-- cli.rs:439-457. -/
def bodyArgs (ct : CliTypes) (t : TypeId) (args : Args) : Args :=
  let args := { args with body := .optional }
  match ct.props t with
  | some ps => ps.foldl (propArg u ct) args
  | none => { args with body := .required }

/-- cli.rs:361-457. -/
def cliArgs (ct : CliTypes) (pg : Option Pagination) (params : List Param) : Res Args := do
  let args ← paramArgs u pg params ⟨[], .none⟩
  pure (match bodyType params with
    | none => args
    | some t => bodyArgs u ct t args)

/-- cli.rs:459-495: the names of the arguments of the command. -/
def flagNames (args : Args) : List Str :=
  args.flags.map Prod.fst ++
    if args.body = .none then [] else ["json-body".toList, "json-body-template".toList]

/-! ## The request -/

/-- A command line as parsed by clap: the values of flags; the file given with `--json-body`, by the result of reading and decoding
it (`none`: that fails). -/
structure Line where
  get : Str → Option Arg
  json : Option (Option Arg)

/-- cli.rs:669-675: is the flag there if it has to be? -/
def flagAccepts (l : Line) (e : Str × Flag) : Bool :=
  match e.2.volition with
  | .optional => true
  | .required => (l.get e.1).isSome
  | .requiredIfNoBody => (l.get e.1).isSome || l.json.isSome

/-- cli.rs:462-480. -/
def jsonAccepts (l : Line) : BodyArg → Bool
  | .none => l.json.isNone
  | .required => l.json.isSome
  | .optional => true

/-- clap accepts the command line: all that is required is there. -/
def accepts (args : Args) (l : Line) : Bool := args.flags.all (flagAccepts l) && jsonAccepts l args.body

variable {B : Type}

/-- cli.rs:413-421, 577-589; `set f a` is the setter `f` of the builder of the body type, called with `a`. -/
def consume (set : Str → Arg → B → B) (f : Flag) (a : Arg) : Call B :=
  match f.consumer with
  | .param s => (s, .value (.ok a))
  | .prop s => ("body".toList, .map (set s a))

/-- cli.rs:497, 517-520: flags in the order of the map. -/
def flagCalls (set : Str → Arg → B → B) (args : Args) (l : Line) : List (Call B) :=
  args.flags.filterMap fun e => (l.get e.1).map (consume set e.2)

/-- cli.rs:499-515, 521: then the file; `none`: an `unwrap` fails. -/
def lineCalls (set : Str → Arg → B → B) (args : Args) (l : Line) : Option (List (Call B)) :=
  match args.body, l.json with
  | .none, _ => some (flagCalls set args l)
  | _, none => some (flagCalls set args l)
  | _, some none => none
  | _, some (some a) => some (flagCalls set args l ++ [("body".toList, .value (.ok a))])

/-- The setter exists: of a typed parameter, or (`body_map`) of a body with a builder. -/
def consumerOk (tt : TypeTable B) (params : List Param) : Consumer → Bool
  | .param s => params.any fun p => p.name = s && p.typ ≠ .rawBody
  | .prop _ => params.any fun p => p.name = "body".toList && match initField tt p with
    | .nested _ => true
    | _ => false

/-- The emitted functions compile: the setters exist, and types can be parsed. -/
def cliCompiles (ct : CliTypes) (tt : TypeTable B) (params : List Param) (args : Args) : Bool :=
  args.flags.all fun e => consumerOk tt params e.2.consumer && ct.parser e.2.type

/-! ## Output -/

/-- cli.rs:203-206, 268-297: kinds of responses; raw and upgraded ones are not supported for paginated operations. -/
def cliKinds (pg : Option Pagination) (responses : List Resp.Response) : Res (Resp.Kind × Resp.Kind) := do
  let (_, s) ← Resp.extract Resp.Status.isSuccessOrDefault responses
  let (_, e) ← Resp.extract Resp.Status.isErrorOrDefault responses
  if pg.isSome ∧ (s = .raw ∨ s = .upgrade) then .panic "not yet implemented".toList
  else pure (s, e)

/-- cli.rs:170-359 `cli_method`: flags and kinds of responses. -/
def cliMethod (ct : CliTypes) (pg : Option Pagination) (op : OperationMethod) : Res (Args × Resp.Kind × Resp.Kind) := do
  let args ← cliArgs u ct pg op.params
  let kinds ← cliKinds pg op.responses
  pure (args, kinds)

variable {P V : Type}

/-- Calls of `CliConfig` for an operation that is not paginated. -/
inductive Report (P V : Type) where
  | successItem (rv : ResponseValue (Resp.Inner V))
  | successNoItem (rv : ResponseValue (Resp.Inner V))
  | error (e : Error P (Resp.Inner V))

/-- The result of an emitted `execute_..` function: the reports, and whether it returns an error. -/
inductive Outcome (P V : Type) where
  | noCompile
  | panicked
  | done (reports : List (Report P V)) (failed : Bool)

/-- cli.rs:211-264. -/
def output (success error : Resp.Kind) : Resp.Outcome P V → Outcome P V
  | .ok rv => match success with
    | .type _ => .done [.successItem rv] false
    | .none => .done [.successNoItem rv] false
    | _ => .panicked
  | .error e => match error with
    | .type _ => .done [.error e] true
    | .none => .done [.error e] true
    | _ => .panicked

/-- cli.rs:258-265, 326-338: the function for an operation that is not paginated. -/
def execute (cfg : Config) (hooks : Hooks) (w : World) (decode : TypeId → Bytes → Except P V) (ct : CliTypes) (tt : TypeTable B)
    (set : Str → Arg → B → B) (params : List Param) (c : Code) (m : Args × Resp.Kind × Resp.Kind) (hist : List Event) (l : Line) :
    Outcome P V × List Event :=
  if cliCompiles ct tt params m.1 then
    match lineCalls set m.1 l with
    | none => (.panicked, hist)
    | some calls => match callBuilder cfg hooks w decode tt params false c hist calls with
      | (.noCompile, h) => (.noCompile, h)
      | (.panicked, h) => (.panicked, h)
      | (.returned o, h) => (output m.2.1 m.2.2 o, h)
  else (.noCompile, hist)

/-! ## Lists -/

variable {Q R E I σ : Type}

/-- `futures::stream::Take::poll_next`: what remains, and the stream. -/
def takeStep {X : Type} (step : σ → Step Q R X σ) : Nat × σ → Step Q R X (Nat × σ)
  | (0, s) => .done (0, s)
  | (n + 1, s) => match step s with
    | .emit x s' => .emit x (n, s')
    | .done s' => .done (0, s')
    | .tau s' => .tau (n + 1, s')
    | .ask q k => .ask q fun r => (n + 1, k r)

/-- Calls of `CliConfig` for a paginated operation. -/
inductive ListReport (E I : Type) where
  | start
  | item (i : I)
  | endSuccess
  | endError (e : E)
  deriving DecidableEq

/-- Before `list_start`; in the loop; returned (with an error, if any); panicked. -/
inductive ListState (E σ : Type) where
  | init (s : σ)
  | loop (s : σ)
  | over (r : Option E)
  | panicked

/-- cli.rs:278-296: errors of typed operations and of those without content are reported. -/
def reportable : Resp.Kind → Bool
  | .type _ => true
  | .none => true
  | _ => false

/-- cli.rs:297-322, for the stream `take(..)` in state `σ`; `rep`: the branch for errors is not `todo!()`. -/
def listStep (rep : Bool) (step : σ → Step Q R (Except E I) σ) : ListState E σ → Step Q R (ListReport E I) (ListState E σ)
  | .init s => .emit .start (.loop s)
  | .loop s => match step s with
    | .emit (.error e) _ => if rep then .emit (.endError e) (.over (some e)) else .tau .panicked
    | .done _ => .emit .endSuccess (.over none)
    | .emit (.ok i) s' => .emit (.item i) (.loop s')
    | .tau s' => .tau (.loop s')
    | .ask q k => .ask q fun r => .loop (k r)
  | .over r => .done (.over r)
  | .panicked => .done .panicked

/-- The function for a paginated operation whose stream starts in state `s`; `n` is the limit. -/
def listInit (n : Nat) (s : σ) : ListState E (Nat × σ) := .init (n, s)

def cliStep (rep : Bool) (step : σ → Step Q R (Except E I) σ) :
    ListState E (Nat × σ) → Step Q R (ListReport E I) (ListState E (Nat × σ)) :=
  listStep rep (takeStep step)

/-- cli.rs:306-308: `get_one::<NonZeroU32>("limit")`, or `usize::MAX` (`max`); `none`: panic, since the flag has another type. -/
def listLimit (max : Nat) (ct : CliTypes) (args : Args) (l : Line) : Option Nat :=
  match l.get "limit".toList with
  | none => some max
  | some a => match BTree.get "limit".toList args.flags with
    | none => none
    | some f => (ct.nonZeroU32 f.type).map fun toNat => toNat a

/-! ## Items -/

/-- cli.rs:188, 200: the functions defined, by operation id. -/
def definedFns (ids : List Str) : List Str := ids.map ("cli_".toList ++ ·) ++ ids.map ("execute_".toList ++ ·)

/-- cli.rs:63-70, 97-119: the functions called by `get_command` and `execute`. -/
def calledFns (ids : List Str) : List Str :=
  (ids.map fun id => "cli_".toList ++ Names.sanitize u .snake id) ++ ids.map fun id => "execute_".toList ++ Names.sanitize u .snake id

/-- cli.rs:72-75, 150-153: the variants of `CliCommand`. -/
def variants (ids : List Str) : List Str := ids.map (Names.sanitize u .pascal)

/-- cli.rs:89-123: the functions of `Cli`. -/
def cliOwn : List Str := ["new".toList, "get_command".toList, "execute".toList]

/-- cli.rs:125-148: the functions of `CliConfig`. -/
def configFns (ids : List Str) : List Str :=
  ["success_item", "success_no_item", "error", "list_start", "list_item", "list_end_success", "list_end_error"].map String.toList ++
    ids.map ("execute_".toList ++ ·)

/-- The emitted code refers to functions that exist, and names do not clash. -/
def itemsOk (ids : List Str) : Bool :=
  (calledFns u ids).all (definedFns ids).contains && decide (cliOwn ++ definedFns ids).Nodup && decide (configFns ids).Nodup &&
    decide (variants u ids).Nodup

end Progenitor.Cli

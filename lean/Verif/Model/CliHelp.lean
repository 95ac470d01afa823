import Verif.Model.Cli
import Verif.Model.DocText

/-!
# The texts of commands

Model of `/repo/progenitor-impl/src/cli.rs:170-198` (`about`, `long_about`) and of the texts of flags (`cli.rs:361-457, 527-593,
614-684`).  The code that makes the flags is that of `Model/Cli.lean`; here each flag also has its `help`.
-/

namespace Progenitor.Cli

open Progenitor Progenitor.Params Progenitor.DocText

variable (u : Names.Unicode)

/-- cli.rs:614-684 `clap_arg`: a flag and its help. -/
structure HelpFlag where
  flag : Flag
  help : Option Str
  deriving DecidableEq, Repr

/-- cli.rs:703-707. -/
structure HelpArgs where
  flags : BTree.Map HelpFlag
  body : BodyArg
  deriving DecidableEq, Repr

/-- The flags without help. -/
def HelpArgs.bare (a : HelpArgs) : Args := ⟨a.flags.map fun e => (e.1, e.2.flag), a.body⟩

/-- What is asked of types, with the descriptions of properties (`typify::TypeStructPropInfo`). -/
structure HelpTypes where
  types : CliTypes
  props : TypeId → Option (List (PropInfo × Option Str))

/-- The same without descriptions. -/
def HelpTypes.bare (ht : HelpTypes) : CliTypes := { ht.types with props := fun t => (ht.props t).map (·.map Prod.fst) }

/-- cli.rs:369-424: one parameter. -/
def paramHelp (pg : Option Pagination) (p : Param × Option Str) (args : HelpArgs) : Res HelpArgs :=
  if hasFlag pg p.1 then
    match p.1.typ with
    | .rawBody => .panic "internal error: entered unreachable code: query and path parameters must be typed".toList
    | .type t =>
      let n := toKebab u p.1.name
      if (BTree.get n args.flags).isSome then .panic "assertion failed: !args.has_arg(&arg_name)".toList
      else .ok { args with
        flags := BTree.insert n ⟨⟨t, paramVolition pg p.1, .param (Names.sanitize u .snake p.1.name)⟩, p.2⟩ args.flags }
  else .ok args

/-- cli.rs:369-424. -/
def paramHelps (pg : Option Pagination) : List (Param × Option Str) → HelpArgs → Res HelpArgs
  | [], args => .ok args
  | p :: ps, args => do
    let args ← paramHelp u pg p args
    paramHelps pg ps args

/-- cli.rs:527-593 `cli_method_body_arg`. -/
def propHelp (ct : CliTypes) (args : HelpArgs) (i : PropInfo × Option Str) : HelpArgs :=
  let t := (ct.inner i.1.type).getD i.1.type
  let n := toKebab u i.1.name
  let f : Flag := ⟨t, if i.1.required then .requiredIfNoBody else .optional, .prop (Names.sanitize u .snake i.1.name)⟩
  if ct.fromStr t && (BTree.get n args.flags).isNone then { args with flags := BTree.insert n ⟨f, i.2⟩ args.flags }
  else if i.1.required then { args with body := .required }
  else args

/-- cli.rs:439-457. -/
def bodyHelps (ht : HelpTypes) (t : TypeId) (args : HelpArgs) : HelpArgs :=
  let args := { args with body := .optional }
  match ht.props t with
  | some ps => ps.foldl (propHelp u ht.types) args
  | none => { args with body := .required }

/-- cli.rs:361-457. -/
def cliHelps (ht : HelpTypes) (pg : Option Pagination) (params : List (Param × Option Str)) : Res HelpArgs := do
  let args ← paramHelps u pg params ⟨[], .none⟩
  pure (match bodyType (params.map Prod.fst) with
    | none => args
    | some t => bodyHelps u ht t args)

/-- The command of an operation. -/
structure Command where
  args : HelpArgs
  about : Option Str
  longAbout : Option Str

/-- cli.rs:170-198 `cli_method`: the command. -/
def cliCommand (ht : HelpTypes) (pg : Option Pagination) (t : MethodTexts) : Res Command := do
  let args ← cliHelps u ht pg t.params
  pure ⟨args, t.summary, t.description⟩

/-- cli.rs:468-486: the flags for files, and their help. -/
def fileHelps (args : HelpArgs) : List (Str × Option Str) :=
  if args.body = .none then []
  else [("json-body".toList, some "Path to a file that contains the full json body.".toList),
    ("json-body-template".toList, some "XXX".toList)]

/-- The flags of a command with their help. -/
def Command.helps (c : Command) : List (Str × Option Str) :=
  c.args.flags.map (fun e => (e.1, e.2.help)) ++ fileHelps c.args

/-- What clap shows above the flags: for `--help` the long text if there is one; for `-h` the short one. -/
def Command.shown (c : Command) (long : Bool) : Option Str := if long then c.longAbout.or c.about else c.about

end Progenitor.Cli

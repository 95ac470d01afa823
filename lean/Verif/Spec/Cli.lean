import Verif.Model.Cli
import Verif.Spec.Stream
import Verif.Spec.Builder

/-!
# Specification of the command line interface
-/

namespace Progenitor.Spec

open Progenitor Progenitor.Params Progenitor.Exec Progenitor.Builder Progenitor.Stream Progenitor.Cli

/-! ## Lists -/

variable {Q R E I : Type}

/-- The reports of a list command: `list_start`, items, and the end if it has been reached. -/
def listReports (is : List I) (stop : Option (Option E)) : List (ListReport E I) :=
  .start :: is.map .item ++ match stop with
    | none => []
    | some none => [.endSuccess]
    | some (some e) => [.endError e]

/-- The return value: none yet; success; or the error. -/
def listResult {σ : Type} : ListState E σ → Option (Option E)
  | .over r => some r
  | _ => none

/-! ## Flags -/

/-- Parameters with a flag: all but bodies, and the token of paginated operations. -/
def Flagged (pg : Option Pagination) (p : Param) : Prop :=
  (∀ ct, p.kind ≠ .body ct) ∧ ¬ (pg ≠ none ∧ p.name = "page_token".toList)

/-- Parameters that are required: by kind, or for the first page. -/
def Needed (pg : Option Pagination) (p : Param) : Prop :=
  p.kind = .path ∨ p.kind = .query true ∨ p.kind = .header true ∨ ∃ d, pg = some d ∧ p.apiName ∈ d.firstPageParams

/-- `e` is the flag of parameter `p`: named after it, of its type, for its setter, and required exactly if the parameter is. -/
structure FlagOf (u : Names.Unicode) (pg : Option Pagination) (p : Param) (e : Str × Flag) : Prop where
  name : e.1 = toKebab u p.name
  type : p.typ = .type e.2.type
  setter : e.2.consumer = .param (Names.sanitize u .snake p.name)
  required : e.2.volition = .required ↔ Needed pg p
  optional : e.2.volition = .optional ↔ ¬ Needed pg p

/-- `e` is the flag of body property `i`: named after it, of its type (that in the `Option`, if it is one), for its setter, and
required, in absence of a file, exactly if the property is. -/
structure PropFlag (u : Names.Unicode) (ct : CliTypes) (i : PropInfo) (e : Str × Flag) : Prop where
  name : e.1 = toKebab u i.name
  type : e.2.type = match ct.inner i.type with | some t => t | none => i.type
  setter : e.2.consumer = .prop (Names.sanitize u .snake i.name)
  required : e.2.volition = .requiredIfNoBody ↔ i.required = true
  optional : e.2.volition = .optional ↔ i.required = false

/-- The flag is for a parameter. -/
def forParam (e : Str × Flag) : Bool :=
  match e.2.consumer with
  | .param _ => true
  | .prop _ => false

/-- `v` is the value of parameter `p` for a command line. -/
def LineValue (u : Names.Unicode) (l : Line) (p : Param) (v : Value) : Prop :=
  (Optional p ∧ v = .opt (l.get (toKebab u p.name))) ∨ (¬ Optional p ∧ ∃ a, l.get (toKebab u p.name) = some a ∧ v = .plain a)

/-- The setters of body properties whose flags are given, with their values, in the order of flags. -/
def givenProps (args : Args) (l : Line) : List (Str × Arg) :=
  args.flags.flatMap fun e => match e.2.consumer, l.get e.1 with
    | .prop s, some a => [(s, a)]
    | _, _ => []

/-- `v` is the value of the body: the file if there is one; otherwise, for types with a builder, what it makes of the properties given. -/
def LineBody {B : Type} (tt : TypeTable B) (set : Str → Arg → B → B) (args : Args) (l : Line) (p : Param) (a : Arg) : Prop :=
  match l.json with
  | some f => f = some a
  | none => ∃ tb, HasBuilder tt p tb ∧ tb.finish ((givenProps args l).foldl (fun b x => set x.1 x.2 b) tb.default) = .ok a

/-- `v` is the argument for `p` of the request made for a command line. -/
def LineArg {B : Type} (u : Names.Unicode) (tt : TypeTable B) (set : Str → Arg → B → B) (pg : Option Pagination) (args : Args) (l : Line)
    (p : Param) (v : Value) : Prop :=
  (Flagged pg p ∧ LineValue u l p v) ∨ ((∃ ct, p.kind = .body ct) ∧ ∃ a, LineBody tt set args l p a ∧ v = .plain a) ∨
    (pg ≠ none ∧ p.name = "page_token".toList ∧ Optional p ∧ v = .opt none)

end Progenitor.Spec

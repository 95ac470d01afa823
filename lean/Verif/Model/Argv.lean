import Verif.Model.Cli

/-!
# Command lines as text

The words after the name of a command, as `clap` 4 reads them for the arguments that
`/repo/progenitor-impl/src/cli.rs` defines (cli.rs:459-495, 614-684), the values made of them, the override functions of `CliConfig`
(cli.rs:326-353), and the emitted `execute_..` function run on such a command line.

`clap` is represented by its documented rules for arguments `Arg::new(n).long(n)` that are set once: `--n v`, `--n=v`, a lone `--`;
no abbreviations; nothing else.  `--help` and `-h`, which print a text and end the program, are among what is not accepted.
-/

namespace Progenitor.Cli

open Progenitor Progenitor.Params Progenitor.Client Progenitor.Exec Progenitor.Builder

/-- What comes of reading a command line: matches; an error (or the help text) is printed; a parser panics. -/
inductive Clap (α : Type) where
  | ok (a : α)
  | rejected
  | panicked

def Clap.bind {α β : Type} : Clap α → (α → Clap β) → Clap β
  | .ok a, f => f a
  | .rejected, _ => .rejected
  | .panicked, _ => .panicked

/-- What the command line is read with: the names of the variants of types that are enums of simple variants only
(cli.rs:634-645; `to_string` of each), their `try_from`, the parsers `clap` has for other types, files, and `serde_json::from_str`. -/
structure Parsers where
  simple : TypeId → Option (List Str)
  tryFrom : TypeId → Str → Option Arg
  value : TypeId → Str → Option Arg
  files : Str → Option Str
  fromJson : TypeId → Str → Option Arg

/-- cli.rs:634-668: the parser of an argument. -/
def Parsers.parse (ps : Parsers) (t : TypeId) (s : Str) : Clap Arg :=
  match ps.simple t with
  | some names =>
    if s ∈ names then
      match ps.tryFrom t s with
      | some a => .ok a
      | none => .panicked
    else .rejected
  | none =>
    match ps.value t s with
    | some a => .ok a
    | none => .rejected

/-- The arguments of a command: one with a parsed value; `--json-body`; `--json-body-template`. -/
inductive ArgKind where
  | typed (t : TypeId)
  | path
  | switch
  deriving DecidableEq

/-- cli.rs:459-495: the arguments defined. -/
def argKind (args : Args) (n : Str) : Option ArgKind :=
  match BTree.get n args.flags with
  | some f => some (.typed f.type)
  | none =>
    if args.body = .none then none
    else if n = "json-body".toList then some .path
    else if n = "json-body-template".toList then some .switch
    else none

/-- An argument that was given. -/
inductive Given where
  | value (a : Arg)
  | path (p : Str)
  | switch

/-- The value `s` for an argument; `clap`'s parser of paths wants one that is not empty; switches take none. -/
def givenValue (ps : Parsers) (k : ArgKind) (s : Str) : Clap Given :=
  match k with
  | .typed t => (ps.parse t s).bind fun a => .ok (.value a)
  | .path => if s = [] then .rejected else .ok (.path s)
  | .switch => .rejected

/-- `s` up to the first `=`, and what follows it. -/
def splitEq : Str → Str × Option Str
  | [] => ([], none)
  | c :: s => if c = '=' then ([], some s) else (c :: (splitEq s).1, (splitEq s).2)

/-- `--n`, `--n=v` (but not `--`). -/
def longArg : Str → Option (Str × Option Str)
  | '-' :: '-' :: c :: s => some (splitEq (c :: s))
  | _ => none

/-- Begins with `-`, and is not `-`: not taken for a value. -/
def hyphenated : Str → Bool
  | '-' :: _ :: _ => true
  | _ => false

def Clap.cons (n : Str) (g : Clap Given) (rest : Clap (List (Str × Given))) : Clap (List (Str × Given)) :=
  g.bind fun x => rest.bind fun l => .ok ((n, x) :: l)

/-- Reads the words of a command line; `seen` are the arguments already given. -/
def readWords (ps : Parsers) (args : Args) : List Str → List Str → Clap (List (Str × Given))
  | _, [] => .ok []
  | seen, w :: ws =>
    match longArg w with
    | none => if w = "--".toList ∧ ws = [] then .ok [] else .rejected
    | some (n, attached) =>
      match argKind args n with
      | none => .rejected
      | some k =>
        if n ∈ seen then .rejected
        else match attached with
          | some v => .cons n (givenValue ps k v) (readWords ps args (n :: seen) ws)
          | none =>
            if k = .switch then .cons n (.ok .switch) (readWords ps args (n :: seen) ws)
            else match ws with
              | [] => .rejected
              | v :: ws' =>
                if hyphenated v then .rejected
                else .cons n (givenValue ps k v) (readWords ps args (n :: seen) ws')

/-- `get_one` for the flag `n`. -/
def givenGet : List (Str × Given) → Str → Option Arg
  | [], _ => none
  | (m, .value a) :: l, n => if m = n then some a else givenGet l n
  | (_, _) :: l, n => givenGet l n

/-- `get_one::<PathBuf>("json-body")`. -/
def givenPath : List (Str × Given) → Option Str
  | [] => none
  | (_, .path p) :: _ => some p
  | (_, _) :: l => givenPath l

/-- cli.rs:499-515: the file is read and decoded as a value of the type of the body (`none`: one of the two fails). -/
def readBody (ps : Parsers) (body : Option TypeId) (p : Str) : Option Arg :=
  match body with
  | none => none
  | some t => (ps.files p).bind (ps.fromJson t)

/-- What the emitted code gets from the matches. -/
def lineOf (ps : Parsers) (body : Option TypeId) (l : List (Str × Given)) : Line :=
  ⟨givenGet l, (givenPath l).map (readBody ps body)⟩

/-- `try_get_matches_from`: the words are read, and all that is required is there. -/
def matchesOf (ps : Parsers) (args : Args) (body : Option TypeId) (words : List Str) : Clap Line :=
  (readWords ps args [] words).bind fun l =>
    if accepts args (lineOf ps body l) then .ok (lineOf ps body l) else .rejected

/-- `clap` (debug builds) wants the names of arguments to differ, also from that of the argument it adds. -/
def clapNames (args : Args) : List Str := flagNames args ++ ["help".toList]

variable {B P V : Type}

/-- An override function of `CliConfig`: it may fail, and may change the request. -/
abbrev Override (B : Type) := Line → State B → Option (State B)

/-- cli.rs:340-353: what is there unless a user defines something else. -/
def noOverride : Override B := fun _ s => some s

/-- cli.rs:258-265, 326-338: the function of an operation that is not paginated, with an override. -/
def executeWith (over : Override B) (cfg : Config) (hooks : Hooks) (w : World) (decode : TypeId → Bytes → Except P V) (ct : CliTypes)
    (tt : TypeTable B) (set : Str → Arg → B → B) (params : List Param) (c : Code) (m : Args × Resp.Kind × Resp.Kind)
    (hist : List Event) (l : Line) : Outcome P V × List Event :=
  if cliCompiles ct tt params m.1 && structOk tt params false then
    match lineCalls set m.1 l with
    | none => (.panicked, hist)
    | some calls => match setAll tt (new tt params) calls with
      | none => (.noCompile, hist)
      | some s => match over l s with
        | none => (.done [] true, hist)
        | some s' => match send cfg hooks w decode tt c hist s' with
          | (.noCompile, h) => (.noCompile, h)
          | (.panicked, h) => (.panicked, h)
          | (.returned o, h) => (output m.2.1 m.2.2 o, h)
  else (.noCompile, hist)

/-- A command given as text: what it comes to, and all that was sent. -/
def runWords (ps : Parsers) (over : Override B) (cfg : Config) (hooks : Hooks) (w : World) (decode : TypeId → Bytes → Except P V)
    (ct : CliTypes) (tt : TypeTable B) (set : Str → Arg → B → B) (params : List Param) (c : Code) (m : Args × Resp.Kind × Resp.Kind)
    (hist : List Event) (words : List Str) : Clap (Outcome P V) × List Event :=
  match matchesOf ps m.1 (bodyType params) words with
  | .rejected => (.rejected, hist)
  | .panicked => (.panicked, hist)
  | .ok l => (.ok (executeWith over cfg hooks w decode ct tt set params c m hist l).1,
      (executeWith over cfg hooks w decode ct tt set params c m hist l).2)

end Progenitor.Cli

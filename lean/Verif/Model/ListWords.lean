import Verif.Model.Argv
import Verif.Model.Stream

/-!
# List commands given as text

The emitted `execute_..` function of a paginated operation (`/repo/progenitor-impl/src/cli.rs:266-338`), run on the words of a
command line: the request is built from the matches, the override function is called, and the stream of the request is reported.
-/

namespace Progenitor.Cli

open Progenitor Progenitor.Params Progenitor.Client Progenitor.Exec Progenitor.Builder Progenitor.Stream

/-- Where a list command is: it has not ended; it returned, with the error of a call if there is one; it returned the error of the
override function; it panicked; there is no such program. -/
inductive ListEnd (E : Type) where
  | running
  | returned (e : Option E)
  | refused
  | panicked
  | noCompile

def endOf {E σ : Type} : ListState E σ → ListEnd E
  | .over e => .returned e
  | .panicked => .panicked
  | _ => .running

variable {B P V I : Type}

/-- The actions, where it is, and all that was sent. -/
abbrev ListRun (B P V I : Type) :=
  List (Act (State B) (Answer (Error P (Resp.Inner V)) I) (ListReport (Error P (Resp.Inner V)) I)) × ListEnd (Error P (Resp.Inner V)) × List Event

/-- cli.rs:297-322: the stream of request `s`, at most `n` elements of it, for `k` steps. -/
def reportList (cfg : Config) (hooks : Hooks) (w : World) (decode : TypeId → Bytes → Except P V) (pageOf : V → Page I)
    (tt : TypeTable B) (c : Code) (rep : Bool) (n k : Nat) (hist : List Event) (s : State B) : Option (ListRun B P V I) :=
  (runFor (cliStep rep bldStep) (answerOf pageOf fun h q => send cfg hooks w decode tt c h q) k (listInit n (bldInit s)) hist).map
    fun r => (r.1, endOf r.2.1, r.2.2)

/-- cli.rs:266-338: the function of a paginated operation, for `k` steps (`none`: a call does not return).  The override function is
called before `list_start`; the limit is taken from the matches after it. -/
def executeList (over : Override B) (cfg : Config) (hooks : Hooks) (w : World) (decode : TypeId → Bytes → Except P V)
    (pageOf : V → Page I) (max : Nat) (ct : CliTypes) (tt : TypeTable B) (types : Types) (set : Str → Arg → B → B) (params : List Param)
    (c : Code) (m : Args × Resp.Kind × Resp.Kind) (k : Nat) (hist : List Event) (l : Line) : Option (ListRun B P V I) :=
  if cliCompiles ct tt params m.1 && (structOk tt params true && builderStreamOk types params) then
    match lineCalls set m.1 l with
    | none => some ([], .panicked, hist)
    | some calls => match setAll tt (new tt params) calls with
      | none => some ([], .noCompile, hist)
      | some s => match over l s with
        | none => some ([], .refused, hist)
        | some s' => match listLimit max ct m.1 l with
          | none => some ([.emitted .start], .panicked, hist)
          | some n => reportList cfg hooks w decode pageOf tt c (reportable m.2.2) n k hist s'
  else some ([], .noCompile, hist)

/-- A list command given as text. -/
def runList (ps : Parsers) (over : Override B) (cfg : Config) (hooks : Hooks) (w : World) (decode : TypeId → Bytes → Except P V)
    (pageOf : V → Page I) (max : Nat) (ct : CliTypes) (tt : TypeTable B) (types : Types) (set : Str → Arg → B → B) (params : List Param)
    (c : Code) (m : Args × Resp.Kind × Resp.Kind) (k : Nat) (hist : List Event) (words : List Str) : Clap (Option (ListRun B P V I)) :=
  (matchesOf ps m.1 (bodyType params) words).bind fun l =>
    .ok (executeList over cfg hooks w decode pageOf max ct tt types set params c m k hist l)

end Progenitor.Cli

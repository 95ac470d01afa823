import Verif.Model.Stream
import Verif.Spec.Exec

/-!
# Specification of paginated streams

Following tokens from page to page, as functions of the answers received so far.
-/

namespace Progenitor.Spec

open Progenitor Progenitor.Params Progenitor.Exec Progenitor.Stream

variable {Q R X E I : Type}

/-- The answers received in an execution, in order. -/
def answers (tr : List (Act Q R X)) : List R :=
  tr.filterMap fun a => match a with
    | .asked _ r => some r
    | _ => none

/-- The calls made in an execution, in order. -/
def calls (tr : List (Act Q R X)) : List Q :=
  tr.filterMap fun a => match a with
    | .asked q _ => some q
    | _ => none

/-- The elements obtained in an execution, in order. -/
def yields (tr : List (Act Q R X)) : List X :=
  tr.filterMap fun a => match a with
    | .emitted x => some x
    | _ => none

/-- What the answers amount to: the items of the pages, and the errors. -/
def elements (rs : List (Answer E I)) : List (Except E I) :=
  rs.flatMap fun r => match r with
    | .ok page => page.items.map .ok
    | .error e => [.error e]

/-- The call that comes after the given answers: the first page; then the page of the token of the
preceding page; none after a page without token or an error. -/
def nextCall (first : Q) (later : Str → Q) (rs : List (Answer E I)) : Option Q :=
  match rs.getLast? with
  | none => some first
  | some (.ok page) => page.next.map later
  | some (.error _) => none

/-- `v` is the argument given for `p` in `op_stream(args)`, which has all parameters but the token. -/
def Given (params : List Param) (args : List Value) (p : Param) (v : Value) : Prop :=
  (p, v) ∈ (params.filter fun p => p.name ≠ "page_token".toList).zip args

/-- The arguments for the first page: no token, the rest as given. -/
def FirstPage (params : List Param) (args : List Value) (p : Param) (v : Value) : Prop :=
  if p.apiName = "page_token".toList then v = .opt none else Given params args p v

/-- The arguments for token `t`: the token, no other query argument but the limit, the rest as given. -/
def LaterPage (params : List Param) (args : List Value) (t : Str) (p : Param) (v : Value) : Prop :=
  if p.apiName = "page_token".toList then v = .opt (some ⟨t, .str t⟩)
  else if p.apiName ≠ "limit".toList ∧ ∃ r, p.kind = .query r then v = .opt none
  else Given params args p v

/-- The value for the page of token `t`, where `v` is the value for the first page. -/
def laterValue (t : Str) (p : Param) (v : Value) : Value :=
  if p.apiName = "page_token".toList then .opt (some ⟨t, .str t⟩)
  else if p.apiName ≠ "limit".toList ∧ ∃ r, p.kind = .query r then .opt none
  else v

/-- Executions without the arguments of calls. -/
def observable (tr : List (Act Q R X)) : List (Act Unit R X) :=
  tr.map fun
    | .asked _ r => .asked () r
    | .emitted x => .emitted x
    | .ended => .ended

end Progenitor.Spec

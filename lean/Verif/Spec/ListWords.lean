import Verif.Spec.Stream
import Verif.Spec.Cli
import Verif.Model.ListWords

/-!
# Specification of list commands
-/

namespace Progenitor.Spec

open Progenitor Progenitor.Stream Progenitor.Cli

variable {Q E I H : Type}

/-- The answers to calls made one after the other, following tokens: `first`, then `later t` for the token `t` of the page before.
`h` is the history before the first call, then that after the last one. -/
inductive Followed (answer : H → Q → Option (Answer E I × H)) (first : Q) (later : Str → Q) (h : H) : List (Answer E I) → H → Prop
  | none : Followed answer first later h [] h
  | next (rs : List (Answer E I)) (h1 h2 : H) (q : Q) (r : Answer E I) : Followed answer first later h rs h1 →
      nextCall first later rs = some q → answer h1 q = some (r, h2) → Followed answer first later h (rs ++ [r]) h2

/-- What a list command with limit `n` has reported, when the answers so far are `rs`: nothing at first; then `list_start` and items,
which are the first elements of the pages; in the end the first `n` elements, or all if there are fewer, and whether there was an
error among them. -/
def ListSays (n : Nat) (first : Q) (later : Str → Q) (rs : List (Answer E I)) (reports : List (ListReport E I)) : ListEnd E → Prop
  | .running => reports = [] ∨ ∃ is rest, reports = listReports is none ∧ (elements rs).take n = is.map .ok ++ rest
  | .returned none => ∃ is, reports = listReports is (some none) ∧ (elements rs).take n = is.map .ok ∧
      (is.length = n ∨ nextCall first later rs = none)
  | .returned (some e) => ∃ is, reports = listReports is (some (some e)) ∧ (elements rs).take n = is.map .ok ++ [.error e]
  | _ => False

/-- `n` is the limit of a command line: the value of the flag, which is a `NonZeroU32`, or `max`. -/
def LimitOf (ct : CliTypes) (params : List Params.Param) (max : Nat) (line : Line) (n : Nat) : Prop :=
  match line.get "limit".toList with
  | none => n = max
  | some a => ∃ p ∈ params, ∃ t f, p.apiName = "limit".toList ∧ p.typ = .type t ∧ ct.nonZeroU32 t = some f ∧ n = f a

end Progenitor.Spec

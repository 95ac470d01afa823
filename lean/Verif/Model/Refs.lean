import Verif.Model.Basic

/-!
# References to components

Model of `/repo/progenitor-impl/src/util.rs:11-33` (`ReferenceOr::item`).  The function is recursive without a
bound; it is modelled with a number of calls after which it is given up (`none`).
-/

namespace Progenitor.Refs

open Progenitor

variable {T : Type}

/-- `openapiv3::ReferenceOr`. -/
inductive RefOr (T : Type) where
  | item (x : T)
  | ref (reference : Str)
  deriving DecidableEq, Repr

/-- The part after the last `/`; `none` without `/`. -/
def afterSlash : Str → Option Str
  | [] => none
  | c :: cs => match afterSlash cs with
    | some k => some k
    | none => if c = '/' then some cs else none

/-- `T::get_components(components)`; `none`: the document has no components. -/
abbrev Components (T : Type) := Option (List (Str × RefOr T))

/-- `IndexMap::get`. -/
def lookup (k : Str) : List (Str × RefOr T) → Option (RefOr T)
  | [] => none
  | e :: es => if e.1 = k then some e.2 else lookup k es

/-- util.rs:24-26: the component that a reference names. -/
def target (comps : Components T) (r : Str) : Res (RefOr T) :=
  match afterSlash r with
  | none => .panic "called `Option::unwrap()` on a `None` value".toList
  | some k => match comps with
    | none => .panic "called `Option::unwrap()` on a `None` value".toList
    | some m => match lookup k m with
      | none => .panic ("key ".toList ++ k ++ " is missing".toList)
      | some x => .ok x

/-- util.rs:18-33 `item` with at most `n` calls. -/
def resolve (comps : Components T) : Nat → RefOr T → Option (Res T)
  | 0, _ => none
  | _ + 1, .item x => some (.ok x)
  | n + 1, .ref r => match target comps r with
    | .ok x => resolve comps n x
    | .err m => some (.err m)
    | .panic m => some (.panic m)

end Progenitor.Refs

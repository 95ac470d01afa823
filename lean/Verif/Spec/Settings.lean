import Verif.Model.Settings
import Verif.Spec.Misc

/-!
# Specification: settings
-/

namespace Progenitor.Spec

open Progenitor Progenitor.Doc Progenitor.Macro Progenitor.Settings

variable {S V Tok X : Type}

/-- What the last call of a kind says. -/
def lastOf {C : Type} (f : C → Option X) (l : List C) : Option X := (l.filterMap f).getLast?

/-! What a call says about each setting. -/

def saysInterface : Setter S V → Option Interface
  | .interface x => some x
  | _ => none

def saysTag : Setter S V → Option TagStyle
  | .tag x => some x
  | _ => none

def saysInnerType : Setter S V → Option Str
  | .innerType x => some x
  | _ => none

def saysPreHook : Setter S V → Option Str
  | .preHook x => some x
  | _ => none

def saysPreHookAsync : Setter S V → Option Str
  | .preHookAsync x => some x
  | _ => none

def saysPostHook : Setter S V → Option Str
  | .postHook x => some x
  | _ => none

def saysPostHookAsync : Setter S V → Option Str
  | .postHookAsync x => some x
  | _ => none

def saysDerive : Setter S V → Option Str
  | .derive x => some x
  | _ => none

def saysMapType : Setter S V → Option Str
  | .mapType x => some x
  | _ => none

def saysUnknownCrates : Setter S V → Option Policy
  | .unknownCrates x => some x
  | _ => none

def saysCrate (k : Str) : Setter S V → Option (CrateSpec V)
  | .crate n x => if n = k then some x else none
  | _ => none

def saysPatch (k : Str) : Setter S V → Option TypePatch
  | .patch n x => if n = k then some x else none
  | _ => none

def saysReplacement (k : Str) : Setter S V → Option Target
  | .replacement n x => if n = k then some x else none
  | _ => none

def saysConversion : Setter S V → Option (S × Target)
  | .conversion s x => some (s, x)
  | _ => none

/-- Settings of generator and type space are what a sequence of calls says: the last call decides, for maps by key; derives and conversions
accumulate. -/
structure Follows (l : List (Setter S V)) (g : Generation S V) (t : Typify S V) : Prop where
  interface : g.interface = (lastOf saysInterface l).getD .positional
  tag : g.tag = (lastOf saysTag l).getD .merged
  innerType : g.innerType = lastOf saysInnerType l
  preHook : g.preHook = lastOf saysPreHook l
  preHookAsync : g.preHookAsync = lastOf saysPreHookAsync l
  postHook : g.postHook = lastOf saysPostHook l
  postHookAsync : g.postHookAsync = lastOf saysPostHookAsync l
  typeMod : t.typeMod = some "types".toList
  structBuilder : t.structBuilder = true ↔ g.interface = .builder
  derives : t.derives = l.filterMap saysDerive
  mapType : t.mapType = lastOf saysMapType l
  unknownCrates : t.unknownCrates = (lastOf saysUnknownCrates l).getD .generate
  crates : ∀ k, t.crates k = lastOf (saysCrate k) l
  patch : ∀ k, t.patch k = lastOf (saysPatch k) l
  replace : ∀ k, t.replace k = lastOf (saysReplacement k) l
  convert : t.convert = l.filterMap saysConversion

/-- The value of an option: what is written, or else the default. -/
inductive Chosen (es : List (Str × Tok)) (key : String) (parse : Tok → Option X) (default : X) : X → Prop
  | given (t x) : (key.toList, t) ∈ es → parse t = some x → Chosen es key parse default x
  | absent : (∀ t, (key.toList, t) ∉ es) → Chosen es key parse default default

/-- The value of an option without default. -/
def ChosenIf (es : List (Str × Tok)) (key : String) (parse : Tok → Option X) (x : Option X) : Prop :=
  Chosen es key (fun t => (parse t).map some) none x

/-- The last entry for a key. -/
def entry (l : List (Str × X)) (k : Str) : Option X := lastOf (fun e => if e.1 = k then some e.2 else none) l

/-- The type with its traits, as written. -/
def SameTarget (w : Str × List ImplTrait) (t : Target) : Prop := t.1 = w.1 ∧ ∀ i, i ∈ t.2 ↔ Implied w.2 i

/-- An entry of the `crates` table is about crate `k`: version, and the name under which it is used if another. -/
inductive CrateFor : Str × MacroCrateSpec V → Str → CrateSpec V → Prop
  | plain (n v) : CrateFor (n, ⟨none, v⟩) n ⟨v, none⟩
  | renamed (n o v) : CrateFor (n, ⟨some o, v⟩) o ⟨v, some n⟩

/-- Path and settings are what is written in `generate_api!(..)`. -/
structure Asked (P : Parsers Tok S V) (es : List (Str × Tok)) (spec : Str) (g : Generation S V) (t : Typify S V) : Prop where
  spec : ∃ tok, ("spec".toList, tok) ∈ es ∧ P.lit tok = some spec
  interface : Chosen es "interface" P.interface .positional g.interface
  tags : Chosen es "tags" P.tags .merged g.tag
  innerType : ChosenIf es "inner_type" P.type g.innerType
  preHook : ChosenIf es "pre_hook" P.hook g.preHook
  preHookAsync : ChosenIf es "pre_hook_async" P.hook g.preHookAsync
  postHook : ChosenIf es "post_hook" P.hook g.postHook
  postHookAsync : ChosenIf es "post_hook_async" P.hook g.postHookAsync
  typeMod : t.typeMod = some "types".toList
  structBuilder : t.structBuilder = true ↔ g.interface = .builder
  mapType : ChosenIf es "map_type" P.type t.mapType
  derives : Chosen es "derives" P.paths [] t.derives
  unknownCrates : Chosen es "unknown_crates" P.policy .generate t.unknownCrates
  crates : ∃ l, Chosen es "crates" P.crates [] l ∧
    (∀ k c, t.crates k = some c → ∃ n s, entry l n = some s ∧ CrateFor (n, s) k c) ∧
    (∀ n s k c, entry l n = some s → CrateFor (n, s) k c → ∃ c', t.crates k = some c')
  patch : ∃ l, Chosen es "patch" P.patch [] l ∧ ∀ k, t.patch k = (entry l k).map fun p => ⟨p.rename, p.derives⟩
  replace : ∃ l, Chosen es "replace" P.replace [] l ∧ ∀ k,
    (t.replace k = none ↔ entry l k = none) ∧ ∀ w x, entry l k = some w → t.replace k = some x → SameTarget w x
  convert : ∃ l, Chosen es "convert" P.convert [] l ∧ t.convert.map (fun e => (e.1, e.2.1)) = l.map (fun e => (e.1, e.2.1)) ∧
    ∀ e ∈ l.zip t.convert, SameTarget e.1.2 e.2.2

/-- The options that exist, with the condition on their values. -/
def options (P : Parsers Tok S V) : List (String × (Tok → Bool)) :=
  [("spec", fun t => (P.lit t).isSome), ("interface", fun t => (P.interface t).isSome), ("tags", fun t => (P.tags t).isSome),
   ("inner_type", fun t => (P.type t).isSome), ("pre_hook", fun t => (P.hook t).isSome), ("pre_hook_async", fun t => (P.hook t).isSome),
   ("post_hook", fun t => (P.hook t).isSome), ("post_hook_async", fun t => (P.hook t).isSome), ("map_type", fun t => (P.type t).isSome),
   ("derives", fun t => (P.paths t).isSome), ("unknown_crates", fun t => (P.policy t).isSome), ("crates", fun t => (P.crates t).isSome),
   ("patch", fun t => (P.patch t).isSome), ("replace", fun t => (P.replace t).isSome), ("convert", fun t => (P.convert t).isSome)]

/-- The invocation makes sense: there is a document, no option is given twice or with a value that cannot be read. -/
structure Sensible (P : Parsers Tok S V) (strict : Bool) (es : List (Str × Tok)) : Prop where
  spec : ∃ t, ("spec".toList, t) ∈ es
  once : ∀ o ∈ options P, (es.filter fun e => e.1 = o.1.toList).length ≤ 1
  readable : ∀ o ∈ options P, ∀ t, (o.1.toList, t) ∈ es → o.2 t = true
  known : strict = true → ∀ e ∈ es, ∃ o ∈ options P, e.1 = o.1.toList

/-- No two entries of the `crates` table are about the same crate. -/
def DistinctCrates (P : Parsers Tok S V) (es : List (Str × Tok)) : Prop :=
  ∀ l, Chosen es "crates" P.crates [] l → ∀ n s n' s' k c c', entry l n = some s → entry l n' = some s' →
    CrateFor (n, s) k c → CrateFor (n', s') k c' → n = n'

end Progenitor.Spec

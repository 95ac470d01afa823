import Verif.Spec.Url
import Verif.Model.Query

/-!
# What a query string means

The only thing taken from the model is the serde data type `Ser`.
-/

namespace Progenitor.Spec

open Progenitor.Query (Ser)

/-- `v` is a scalar with text `t`. -/
inductive Scalar : Ser → List Char → Prop
  | true : Scalar (.bool true) "true".toList
  | false : Scalar (.bool false) "false".toList
  | nat (n : Nat) : Scalar (.int n) (Nat.repr n).toList
  | neg (n : Nat) : Scalar (.int (Int.negSucc n)) ('-' :: (Nat.repr (n + 1)).toList)
  | float (t) : Scalar (.float t) t
  | char (c) : Scalar (.char c) [c]
  | str (s) : Scalar (.str s) s
  | unitVariant (e v) : Scalar (.unitVariant e v) v
  | some (v t) : Scalar v t → Scalar (.some v) t

/-- `v` is absent (`None`) or a scalar, possibly wrapped in newtypes; the second
component is its text if present. Elements of arrays and fields of objects are
of this kind. -/
inductive Item : Ser → Option (List Char) → Prop
  | scalar (v t) : Scalar v t → Item v (Option.some t)
  | none : Item .none Option.none
  | some (v t) : Item v t → Item (.some v) t
  | newtype (n v t) : Item v t → Item (.newtypeStruct n v) t

/-- `k` is a key of a map, with text `t`: a scalar, possibly wrapped in newtypes. -/
inductive Key : Ser → List Char → Prop
  | true : Key (.bool true) "true".toList
  | false : Key (.bool false) "false".toList
  | nat (n : Nat) : Key (.int n) (Nat.repr n).toList
  | neg (n : Nat) : Key (.int (Int.negSucc n)) ('-' :: (Nat.repr (n + 1)).toList)
  | float (t) : Key (.float t) t
  | char (c) : Key (.char c) [c]
  | str (s) : Key (.str s) s
  | unitVariant (e v) : Key (.unitVariant e v) v
  | newtype (n v t) : Key v t → Key (.newtypeStruct n v) t

/-- Element-wise relation. -/
inductive Forall₂ {α β : Type} (R : α → β → Prop) : List α → List β → Prop
  | nil : Forall₂ R [] []
  | cons {a b l m} : R a b → Forall₂ R l m → Forall₂ R (a :: l) (b :: m)

/-- What the argument `v` of query parameter `name` stands for in the query (style `form`, exploded): scalars and arrays give pairs
with the name of the parameter, objects those of their fields; what is absent gives none; wrappers do not matter. -/
inductive Means (name : List Char) : Ser → List (List Char × List Char) → Prop
  | item (v t) : Item v t → Means name v (t.toList.map fun x => (name, x))
  | seq (vs ts) : Forall₂ Item vs ts → Means name (.seq vs) (ts.filterMap fun t => t.map fun x => (name, x))
  | tuple (vs ts) : Forall₂ Item vs ts → Means name (.tuple vs) (ts.filterMap fun t => t.map fun x => (name, x))
  | struct (n fs) (ts : List (List Char × Option (List Char))) : Forall₂ (fun f t => f.1 = t.1 ∧ Item f.2 t.2) fs ts →
      Means name (.struct n fs) (ts.filterMap fun t => t.2.map fun x => (t.1, x))
  | map (kvs) (ts : List (List Char × Option (List Char))) : Forall₂ (fun f t => Key f.1 t.1 ∧ Item f.2 t.2) kvs ts →
      Means name (.map kvs) (ts.filterMap fun t => t.2.map fun x => (t.1, x))
  | variant (e var v t) : Item v t → Means name (.newtypeVariant e var v) (t.toList.map fun x => (var, x))
  | some (v ps) : Means name v ps → Means name (.some v) ps
  | newtype (n v ps) : Means name v ps → Means name (.newtypeStruct n v) ps

/-- Values that cannot be sent from inside a newtype: those whose pairs would need the name of the parameter, and variants. -/
inductive Buried : Ser → Prop
  | scalar (v t) : Scalar v t → Buried v
  | seq (vs v t) : v ∈ vs → Item v (Option.some t) → Buried (.seq vs)
  | tuple (vs v t) : v ∈ vs → Item v (Option.some t) → Buried (.tuple vs)
  | variant (e var v) : Buried (.newtypeVariant e var v)
  | some (v) : Buried v → Buried (.some v)
  | newtype (n v) : Buried v → Buried (.newtypeStruct n v)

/-- Values that cannot be sent. -/
inductive Unsent : Ser → Prop
  | tuple (vs v t) : v ∈ vs → Item v (Option.some t) → Unsent (.tuple vs)
  | newtype (n v) : Buried v → Unsent (.newtypeStruct n v)
  | some (v) : Unsent v → Unsent (.some v)

/-- `application/x-www-form-urlencoded` parsing of one name or value. -/
def formDecodePart (s : List Char) : List UInt8 :=
  percentDecode (s.map fun c => if c = '+' then ' ' else c)

/-- `application/x-www-form-urlencoded` parsing (WHATWG URL, section 5.1). -/
def formDecode (q : List Char) : List (List UInt8 × List UInt8) :=
  ((splitAt (· == '&') q).filter (fun s => !s.isEmpty)).map fun s =>
    (formDecodePart (s.takeWhile (· ≠ '=')), formDecodePart ((s.dropWhile (· ≠ '=')).drop 1))

end Progenitor.Spec

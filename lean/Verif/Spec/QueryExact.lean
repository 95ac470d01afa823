import Verif.Spec.Query

/-!
# What can stand in an array or object that is sent in a query
-/

namespace Progenitor.Spec

open Progenitor.Query (Ser)

/-- `v` is one text or absent, possibly wrapped in newtypes. Arrays, objects and variants with content are neither. -/
inductive OneText : Ser → Option (List Char) → Prop
  | scalar (v t) : Scalar v t → OneText v (Option.some t)
  | bytes (s) : OneText (.bytes (Option.some s)) (Option.some s)
  | unitStruct (n) : OneText (.unitStruct n) (Option.some n)
  | none : OneText .none Option.none
  | some (v t) : OneText v t → OneText (.some v) t
  | newtype (n v t) : OneText v t → OneText (.newtypeStruct n v) t

/-- `k` can be the key of an entry, with text `t`. -/
inductive KeyLabel : Ser → List Char → Prop
  | key (k t) : Key k t → KeyLabel k t
  | bytes (s) : KeyLabel (.bytes (Option.some s)) s
  | unitStruct (n) : KeyLabel (.unitStruct n) n
  | newtype (n v t) : KeyLabel v t → KeyLabel (.newtypeStruct n v) t

/-- A unit struct is in the fields of `v`: it is `null` in JSON, but its name in a form. -/
inductive HasUnit : Ser → Prop
  | here (n) : HasUnit (.unitStruct n)
  | some (v) : HasUnit v → HasUnit (.some v)
  | newtype (n v) : HasUnit v → HasUnit (.newtypeStruct n v)
  | field (n) (fs : List (List Char × Ser)) (f) : f ∈ fs → HasUnit f.2 → HasUnit (.struct n fs)
  | entry (kvs : List (Ser × Ser)) (e) : e ∈ kvs → HasUnit e.2 → HasUnit (.map kvs)

/-- `v`, an element of a list of pairs, stands for these pairs. -/
inductive EntryOf : Ser → List (List Char × List Char) → Prop
  | pair (k v key t) : KeyLabel k key → OneText v t → EntryOf (.tuple [k, v]) (t.toList.map fun x => (key, x))
  | none : EntryOf .none []
  | some (v ps) : EntryOf v ps → EntryOf (.some v) ps
  | newtype (n v ps) : EntryOf v ps → EntryOf (.newtypeStruct n v) ps

/-- `v` is a form with these pairs: an object, a list of pairs, or nothing. -/
inductive FormOf : Ser → List (List Char × List Char) → Prop
  | unit : FormOf .unit []
  | unitStruct (n) : FormOf (.unitStruct n) []
  | none : FormOf .none []
  | some (v ps) : FormOf v ps → FormOf (.some v) ps
  | newtype (n v ps) : FormOf v ps → FormOf (.newtypeStruct n v) ps
  | seq (vs pss) : Forall₂ EntryOf vs pss → FormOf (.seq vs) pss.flatten
  | tuple (vs pss) : Forall₂ EntryOf vs pss → FormOf (.tuple vs) pss.flatten
  | struct (n fs) (ts : List (List Char × Option (List Char))) : Forall₂ (fun f t => f.1 = t.1 ∧ OneText f.2 t.2) fs ts →
      FormOf (.struct n fs) (ts.flatMap fun t => t.2.toList.map fun x => (t.1, x))
  | map (kvs) (ts : List (List Char × Option (List Char))) : Forall₂ (fun f t => KeyLabel f.1 t.1 ∧ OneText f.2 t.2) kvs ts →
      FormOf (.map kvs) (ts.flatMap fun t => t.2.toList.map fun x => (t.1, x))

/-- The pairs that the argument `v` of query parameter `name` is sent as: scalars and arrays under the name of the parameter, variants with
content under that of the variant, all else as a form. -/
inductive QueryOf (name : List Char) : Ser → List (List Char × List Char) → Prop
  | scalar (v t) : Scalar v t → QueryOf name v [(name, t)]
  | seq (vs ts) : Forall₂ OneText vs ts → QueryOf name (.seq vs) (ts.flatMap fun t => t.toList.map fun x => (name, x))
  | variant (e var v t) : OneText v t → QueryOf name (.newtypeVariant e var v) (t.toList.map fun x => (var, x))
  | some (v ps) : QueryOf name v ps → QueryOf name (.some v) ps
  | form (v ps) : (∀ vs, v ≠ .seq vs) → (∀ w, v ≠ .some w) → FormOf v ps → QueryOf name v ps

end Progenitor.Spec

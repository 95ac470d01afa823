import Verif.Model.Basic

/-!
# `BTreeMap<String, _>`

Rust's standard library map with string keys, as used by
`/repo/progenitor-impl/src/util.rs:45-52` and
`/repo/progenitor-impl/src/method.rs:296-306`: a list of entries in strictly
increasing key order.
-/

namespace Progenitor

/-- `<str as Ord>::cmp`: lexicographic.  Rust compares UTF-8 bytes, which is the
same order as comparing code points. -/
def strCmp : Str → Str → Ordering
  | [], [] => .eq
  | [], _ :: _ => .lt
  | _ :: _, [] => .gt
  | a :: as, b :: bs =>
    if a.toNat < b.toNat then .lt
    else if b.toNat < a.toNat then .gt
    else strCmp as bs

namespace BTree

/-- The entries of a `BTreeMap<String, V>` in iteration order. -/
abbrev Map (V : Type _) := List (Str × V)

/-- `BTreeMap::insert`: replaces the value of an existing key. -/
def insert {V} (k : Str) (v : V) : Map V → Map V
  | [] => [(k, v)]
  | (k', v') :: m =>
    match strCmp k k' with
    | .lt => (k, v) :: (k', v') :: m
    | .eq => (k, v) :: m
    | .gt => (k', v') :: insert k v m

/-- Repeated `insert`, left to right (also `collect::<BTreeMap<_, _>>()`). -/
def insertAll {V} (m : Map V) (l : List (Str × V)) : Map V :=
  l.foldl (fun m kv => insert kv.1 kv.2 m) m

/-- `BTreeMap::get`. -/
def get {V} (k : Str) (m : Map V) : Option V := (m.find? fun e => e.1 = k).map Prod.snd

/-- `BTreeMap::values`. -/
def values {V} (m : Map V) : List V := m.map Prod.snd

end BTree

end Progenitor

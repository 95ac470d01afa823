import Verif.Model.Names
import Verif.Model.BTree

/-!
# Settings of `generate_api!`

Model of `/repo/progenitor-macro/src/token_utils.rs:23-47` (trait lists) and
`/repo/progenitor-macro/src/lib.rs:226-291, 322-331` (crate specifications), with
`/repo/progenitor-impl/src/lib.rs:203-217` (`with_crate`).  Tokenisation (syn, serde_tokenstream) is
not part of it.
-/

namespace Progenitor.Macro

open Progenitor Progenitor.Names

/-! ## Trait lists -/

/-- typify `TypeImpl`; `other` stands for any further variant. -/
inductive TypeImpl where
  | fromStr
  | display
  | default
  | other (n : Nat)
  deriving DecidableEq, Repr

/-- token_utils.rs:84-88 `ImplTrait`: `?` or nothing, and the trait if it is known. -/
structure ImplTrait where
  maybe : Bool
  name : Option TypeImpl
  deriving DecidableEq, Repr

/-- `HashSet` of traits as a list; order is of no importance. -/
def addImpl (t : TypeImpl) (s : List TypeImpl) : List TypeImpl := if t ∈ s then s else t :: s

def removeImpl (t : TypeImpl) (s : List TypeImpl) : List TypeImpl := s.filter (· ≠ t)

/-- token_utils.rs:31-44. -/
def applyImpl (s : List TypeImpl) (i : ImplTrait) : List TypeImpl :=
  match i.name with
  | none => s
  | some t => if i.maybe then removeImpl t s else addImpl t s

/-- token_utils.rs:23-47 `into_name_and_impls`: the traits. -/
def impls (l : List ImplTrait) : List TypeImpl := l.foldl applyImpl [.fromStr, .display]

/-! ## Crates -/

variable {V : Type}

/-- lib.rs:287-291 `is_crate`. -/
def isCrate (u : Unicode) (s : Str) : Bool := s.all fun c => u.alnum c || c = '_' || c = '-'

/-- lib.rs:226-229 `MacroCrateSpec`. -/
structure MacroCrateSpec (V : Type) where
  original : Option Str
  version : V
  deriving DecidableEq, Repr

/-- `&ss[..ii]`, `&ss[ii + 1..]` for the first `@`. -/
def splitAt : Str → Option (Str × Str)
  | [] => none
  | c :: cs => if c = '@' then some ([], cs) else (splitAt cs).map fun (a, b) => (c :: a, b)

/-- lib.rs:231-263: deserialization of a crate specification; `parse` is `CrateVers::parse`. -/
def parseSpec (u : Unicode) (parse : Str → Option V) (s : Str) : Option (MacroCrateSpec V) :=
  match splitAt s with
  | some (orig, rest) =>
    if isCrate u orig then (parse rest).map fun v => ⟨some orig, v⟩ else none
  | none => (parse s).map fun v => ⟨none, v⟩

/-- progenitor-impl lib.rs:81-85 `CrateSpec`. -/
structure CrateSpec (V : Type) where
  version : V
  rename : Option Str
  deriving DecidableEq, Repr

/-- The key and value of `with_crate` for one entry of the `crates` table: lib.rs:322-331. -/
def crateEntry (e : Str × MacroCrateSpec V) : Str × CrateSpec V :=
  match e.2.original with
  | some orig => (orig, ⟨e.2.version, some e.1⟩)
  | none => (e.1, ⟨e.2.version, none⟩)

/-- lib.rs:322-331: the entries are inserted in the iteration order of a `HashMap`, which is any order. -/
def crates (order : List (Str × MacroCrateSpec V)) : BTree.Map (CrateSpec V) :=
  BTree.insertAll [] (order.map crateEntry)

end Progenitor.Macro

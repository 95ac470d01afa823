import Verif.Model.Schema

/-!
# Specification: annotations of schemas

Titles, descriptions, defaults and the like, and extensions such as `x-rust-type`; and which part of a converted schema
is at the place of a part of a schema.
-/

namespace Progenitor.Spec

open Progenitor Progenitor.Schema

/-- From a schema to one of its parts. -/
inductive SchemaStep where
  | property (name : Str)
  | additional
  | items
  | oneOf (i : Nat)
  | allOf (i : Nat)
  | anyOf (i : Nat)
  | not

inductive OStep : OSchema → SchemaStep → OSchema → Prop
  | property {d k ps a n s} : (n, s) ∈ ps → OStep (.object d k ps a) (.property n) s
  | additional {d k ps s} : OStep (.object d k ps (some (.schema s))) .additional s
  | items {d k s} : OStep (.array d k (some s)) .items s
  | oneOf {d l i s} : l[i]? = some s → OStep (.oneOf d l) (.oneOf i) s
  | allOf {d l i s} : l[i]? = some s → OStep (.allOf d l) (.allOf i) s
  | anyOf {d l i s} : l[i]? = some s → OStep (.anyOf d l) (.anyOf i) s
  | not {d s} : OStep (.not d s) .not s
  | anyProperty {d k ps a i os as ys nt n s} : (n, s) ∈ ps → OStep (.any d k ps a i os as ys nt) (.property n) s
  | anyAdditional {d k ps i os as ys nt s} : OStep (.any d k ps (some (.schema s)) i os as ys nt) .additional s
  | anyItems {d k ps a os as ys nt s} : OStep (.any d k ps a (some s) os as ys nt) .items s
  | anyOneOf {d k ps a i os as ys nt j s} : os[j]? = some s → OStep (.any d k ps a i os as ys nt) (.oneOf j) s
  | anyAllOf {d k ps a i os as ys nt j s} : as[j]? = some s → OStep (.any d k ps a i os as ys nt) (.allOf j) s
  | anyAnyOf {d k ps a i os as ys nt j s} : ys[j]? = some s → OStep (.any d k ps a i os as ys nt) (.anyOf j) s
  | anyNot {d k ps a i os as ys s} : OStep (.any d k ps a i os as ys (some s)) .not s

inductive JStep : JSchema → SchemaStep → JSchema → Prop
  | property {n ty f e nu st ar o su k j} : (k, j) ∈ o.properties → JStep (.obj n ty f e nu st ar (some o) su) (.property k) j
  | additional {n ty f e nu st ar o su j} : o.additional = some j → JStep (.obj n ty f e nu st ar (some o) su) .additional j
  | items {n ty f e nu st a ob su j} : a.items = some j → JStep (.obj n ty f e nu st (some a) ob su) .items j
  | oneOf {n ty f e nu st ar ob u l i j} : u.oneOf = some l → l[i]? = some j →
      JStep (.obj n ty f e nu st ar ob (some u)) (.oneOf i) j
  | allOf {n ty f e nu st ar ob u l i j} : u.allOf = some l → l[i]? = some j →
      JStep (.obj n ty f e nu st ar ob (some u)) (.allOf i) j
  | anyOf {n ty f e nu st ar ob u l i j} : u.anyOf = some l → l[i]? = some j →
      JStep (.obj n ty f e nu st ar ob (some u)) (.anyOf i) j
  | not {n ty f e nu st ar ob u j} : u.not = some j → JStep (.obj n ty f e nu st ar ob (some u)) .not j

/-- What a schema says besides its kind; a reference says nothing. -/
def dataOf : OSchema → Option Data
  | .ref _ => none
  | .string d _ | .number d _ | .integer d _ | .boolean d _ | .object d _ _ _ | .array d _ _ | .oneOf d _ | .allOf d _ | .anyOf d _
  | .not d _ | .any d _ _ _ _ _ _ _ _ => some d

/-- `s` is nullable, and `j` is: null, or `i`, which has no annotations. -/
def Wrapped (s : OSchema) (j i : JSchema) : Prop :=
  ∃ d n ty f e nu st ar ob su, dataOf s = some d ∧ d.nullable = true ∧ i = .obj {} ty f e nu st ar ob su ∧
    j = .obj n none none none none none none none
      (some ⟨none, none, some [.obj {} (some (.single .null)) none none none none none none none, i], none⟩)

/-- The part of the converted schema `j` that has the keywords of `s`. -/
def CoreOf (s : OSchema) (j i : JSchema) : Prop := Wrapped s j i ∨ (i = j ∧ ∀ i', ¬ Wrapped s j i')

/-- In schema `s` and the schema `j` that it is converted to, `s'` and `j'` are at the same place. -/
inductive SamePlace (s : OSchema) (j : JSchema) : OSchema → JSchema → Prop
  | here : SamePlace s j s j
  | step {s1 j1 i st s2 j2} : SamePlace s j s1 j1 → CoreOf s1 j1 i → OStep s1 st s2 → JStep i st j2 → SamePlace s j s2 j2

/-- Parts of parts. -/
inductive PartBy {S : Type} (step : S → SchemaStep → S → Prop) (s : S) : S → Prop
  | here : PartBy step s s
  | step {s1 st s2} : PartBy step s s1 → step s1 st s2 → PartBy step s s2

/-- The annotations `n` are those of `d`. -/
structure SameNotes (d : Data) (n : Notes) : Prop where
  title : (n.metadata.bind fun m => m.title) = d.title
  description : (n.metadata.bind fun m => m.description) = d.description
  default : (n.metadata.bind fun m => m.default) = d.default
  deprecated : (∃ m, n.metadata = some m ∧ m.deprecated = true) ↔ d.deprecated = true
  readOnly : (∃ m, n.metadata = some m ∧ m.readOnly = true) ↔ d.readOnly = true
  writeOnly : (∃ m, n.metadata = some m ∧ m.writeOnly = true) ↔ d.writeOnly = true
  examples : ((n.metadata.map fun m => m.examples).getD []) = d.example'.toList
  extensions : (d.extensions.map Prod.fst).Nodup → ∀ e, e ∈ n.extensions ↔ e ∈ d.extensions

/-- A schema without annotations. -/
def Unannotated : JSchema → Prop
  | .obj n .. => n = {}
  | _ => True

/-- `j` is annotated as `s` is. -/
def Annotated (s : OSchema) (j : JSchema) : Prop :=
  match s, j with
  | .ref r, .ref r' => r' = r
  | .ref _, _ => False
  | s, .obj n .. => ∀ d, dataOf s = some d → SameNotes d n
  | _, _ => False

/-- The properties of an object. -/
def propsOf : OSchema → List (Str × OSchema)
  | .object _ _ ps _ => ps
  | .any _ _ ps _ _ _ _ _ _ => ps
  | _ => []

/-- Names of properties differ: they are keys of a map. -/
def DistinctNames (s : OSchema) : Prop := ∀ s', PartBy OStep s s' → ((propsOf s').map Prod.fst).Nodup

end Progenitor.Spec

import Verif.Model.Schema

/-!
# Specification: schemas without their annotations
-/

namespace Progenitor.Spec

open Progenitor Progenitor.Schema

mutual

/-- The schema without titles, descriptions, defaults and the like, and without extensions. -/
def oPlain : OSchema → OSchema
  | .ref r => .ref r
  | .string d t => .string { nullable := d.nullable } t
  | .number d t => .number { nullable := d.nullable } t
  | .integer d t => .integer { nullable := d.nullable } t
  | .boolean d e => .boolean { nullable := d.nullable } e
  | .object d k ps a => .object { nullable := d.nullable } k (oPlainProps ps) (oPlainAdditional a)
  | .array d k i => .array { nullable := d.nullable } k (oPlainOpt i)
  | .oneOf d l => .oneOf { nullable := d.nullable } (oPlainList l)
  | .allOf d l => .allOf { nullable := d.nullable } (oPlainList l)
  | .anyOf d l => .anyOf { nullable := d.nullable } (oPlainList l)
  | .not d s => .not { nullable := d.nullable } (oPlain s)
  | .any d k ps a i os as ys nt => .any { nullable := d.nullable } k (oPlainProps ps) (oPlainAdditional a) (oPlainOpt i) (oPlainList os)
      (oPlainList as) (oPlainList ys) (oPlainOpt nt)

def oPlainList : List OSchema → List OSchema
  | [] => []
  | s :: l => oPlain s :: oPlainList l

def oPlainProps : List (Str × OSchema) → List (Str × OSchema)
  | [] => []
  | (k, s) :: l => (k, oPlain s) :: oPlainProps l

def oPlainOpt : Option OSchema → Option OSchema
  | none => none
  | some s => some (oPlain s)

def oPlainAdditional : Option (Additional OSchema) → Option (Additional OSchema)
  | none => none
  | some (.any b) => some (.any b)
  | some (.schema s) => some (.schema (oPlain s))

end

mutual

/-- The same for JSON schemas. -/
def jPlain : JSchema → JSchema
  | .bool b => .bool b
  | .ref r => .ref r
  | .obj _ ty format enum number string array object subs =>
    .obj {} ty format enum number string (jPlainArr array) (jPlainObj object) (jPlainSub subs)

def jPlainArr : Option (ArrV JSchema) → Option (ArrV JSchema)
  | none => none
  | some ⟨items, max, min, unique⟩ => some ⟨jPlainOpt items, max, min, unique⟩

def jPlainObj : Option (ObjV JSchema) → Option (ObjV JSchema)
  | none => none
  | some ⟨max, min, required, ps, a⟩ => some ⟨max, min, required, jPlainProps ps, jPlainOpt a⟩

def jPlainSub : Option (SubV JSchema) → Option (SubV JSchema)
  | none => none
  | some ⟨as, ys, os, nt⟩ => some ⟨jPlainListOpt as, jPlainListOpt ys, jPlainListOpt os, jPlainOpt nt⟩

def jPlainListOpt : Option (List JSchema) → Option (List JSchema)
  | none => none
  | some l => some (jPlainList l)

def jPlainList : List JSchema → List JSchema
  | [] => []
  | s :: l => jPlain s :: jPlainList l

def jPlainProps : List (Str × JSchema) → List (Str × JSchema)
  | [] => []
  | (k, s) :: l => (k, jPlain s) :: jPlainProps l

def jPlainOpt : Option JSchema → Option JSchema
  | none => none
  | some s => some (jPlain s)

end

end Progenitor.Spec

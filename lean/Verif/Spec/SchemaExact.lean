import Verif.Spec.Schema

/-!
# Specification: what conversion takes schemas to mean

The values that an OpenAPI schema has after conversion, said in terms of the OpenAPI schema.  It differs from `OValid` in four
ways: lengths and counts are taken modulo 2^32, limits of integers are rounded to doubles, a nullable combination accepts `null`
only if it does not do so without being nullable, and a nullable schema without type that has keywords for objects, arrays,
numbers or strings accepts only `null`, objects (if it has a keyword for objects) and arrays (if it has another).
-/

namespace Progenitor.Spec

open Progenitor Progenitor.Schema

/-- Limits of lengths and counts. -/
def counted (n : Option Nat) : Option Nat := n.map (· % 2 ^ 32)

def countedKeywords (k : AnyKeywords) : AnyKeywords :=
  { k with minLength := counted k.minLength, maxLength := counted k.maxLength, minItems := counted k.minItems,
           maxItems := counted k.maxItems, minProperties := counted k.minProperties, maxProperties := counted k.maxProperties }

/-- `null` or the schema, but not both. -/
def NullOr (p : Pred) (v : Json) : Prop := (v = .null ∧ ¬ p .null) ∨ (v ≠ .null ∧ p v)

section
variable {S A : Type} (k : AnyKeywords) (properties : List (Str × S)) (additional : Option A) (items : Option S)

def ForObjects : Prop :=
  properties ≠ [] ∨ k.required ≠ [] ∨ additional ≠ none ∨ k.minProperties ≠ none ∨ k.maxProperties ≠ none

/-- Keywords for arrays, numbers or strings. -/
def ForOthers : Prop :=
  (items ≠ none ∨ k.minItems ≠ none ∨ k.maxItems ≠ none ∨ k.uniqueItems ≠ none) ∨
  (k.multipleOf ≠ none ∨ k.minimum ≠ none ∨ k.maximum ≠ none) ∨ k.pattern ≠ none ∨ k.minLength ≠ none ∨ k.maxLength ≠ none

/-- A nullable schema without type whose keywords are `ok`. -/
def UntypedNullable (oneOf allOf anyOf : List S) (not : Option S) (ok : Pred) (v : Json) : Prop :=
  let plain := NoKeywords k properties additional items oneOf allOf anyOf not ∧ (k.enumeration = [] ∨ k.enumeration = [.null])
  let combined := OnlySubschemas k properties additional items oneOf allOf anyOf not
  (plain ∧ ok v) ∨ (¬ plain ∧ combined ∧ NullOr ok v) ∨
  (¬ plain ∧ ¬ combined ∧ ok v ∧ (v = .null ∨ (ForObjects k properties additional ∧ HasType .object v) ∨
    (ForOthers k items ∧ HasType .array v)))

end

mutual

/-- The values that an OpenAPI schema has after conversion. -/
def EValid (ι : Interp) : OSchema → Pred
  | .ref r => ι.ref r
  | .string d t => fun v => TypeOk .string d.nullable v ∧ IfGiven (formatText stringFormat t.format) (ι.format · v) ∧
      EnumOk (t.enumeration.map (valueOf .str)) v ∧ StrOk ι (counted t.minLength) (counted t.maxLength) t.pattern v
  | .number d t => fun v => TypeOk .number d.nullable v ∧ IfGiven (formatText numberFormat t.format) (ι.format · v) ∧
      EnumOk (t.enumeration.map (valueOf .num)) v ∧
      NumOk t.multipleOf t.minimum t.exclusiveMinimum t.maximum t.exclusiveMaximum v
  | .integer d t => fun v => TypeOk .integer d.nullable v ∧ IfGiven (formatText integerFormat t.format) (ι.format · v) ∧
      EnumOk (t.enumeration.map (valueOf fun i : Int => .num i)) v ∧
      ∃ multipleOf minimum maximum, OptRel RoundedTo t.multipleOf multipleOf ∧ OptRel RoundedTo t.minimum minimum ∧
        OptRel RoundedTo t.maximum maximum ∧
        NumOk (multipleOf.map fun i : Int => (i : Rat)) (minimum.map fun i : Int => (i : Rat)) t.exclusiveMinimum
          (maximum.map fun i : Int => (i : Rat)) t.exclusiveMaximum v
  | .boolean d e => fun v => TypeOk .boolean d.nullable v ∧ EnumOk (e.map (valueOf .bool)) v
  | .object d k ps a =>
    let ps := EProps ι ps
    let a := EAdditional ι a
    fun v => TypeOk .object d.nullable v ∧ ObjOk ps k.required a (counted k.minProperties) (counted k.maxProperties) v
  | .array d k i =>
    let i := EOpt ι i
    fun v => TypeOk .array d.nullable v ∧ ArrOk i (counted k.minItems) (counted k.maxItems) k.uniqueItems v
  | .oneOf d l =>
    let l := EList ι l
    if d.nullable then NullOr (OneOf l) else OneOf l
  | .allOf d l =>
    let l := EList ι l
    if d.nullable then NullOr (AllOf l) else AllOf l
  | .anyOf d l =>
    let l := EList ι l
    if d.nullable then NullOr (AnyOf l) else AnyOf l
  | .not d s =>
    let p := EValid ι s
    if d.nullable then NullOr (fun v => ¬ p v) else fun v => ¬ p v
  | .any d k ps a i os as ys nt =>
    let ok := AnyOk ι (countedKeywords k) (EProps ι ps) (EAdditional ι a) (EOpt ι i) (EList ι os) (EList ι as) (EList ι ys) (EOpt ι nt)
    match k.typ with
    | none => if d.nullable then UntypedNullable k ps a i os as ys nt ok else ok
    | some s => fun v => (∃ t, typeNamed s = some t ∧ TypeOk t d.nullable v) ∧ ok v

def EList (ι : Interp) : List OSchema → List Pred
  | [] => []
  | s :: l => EValid ι s :: EList ι l

def EProps (ι : Interp) : List (Str × OSchema) → List (Str × Pred)
  | [] => []
  | (k, s) :: l => (k, EValid ι s) :: EProps ι l

def EOpt (ι : Interp) : Option OSchema → Option Pred
  | none => none
  | some s => some (EValid ι s)

def EAdditional (ι : Interp) : Option (Additional OSchema) → Option Pred
  | none => none
  | some (.any b) => some fun _ => b = true
  | some (.schema s) => some (EValid ι s)

end

mutual

/-- No object has two properties of the same name (in the documents they are maps). -/
def Maps : OSchema → Prop
  | .ref _ | .string _ _ | .number _ _ | .integer _ _ | .boolean _ _ => True
  | .object _ _ ps a => (ps.map Prod.fst).Nodup ∧ MapsProps ps ∧ MapsAdditional a
  | .array _ _ i => MapsOpt i
  | .oneOf _ l | .allOf _ l | .anyOf _ l => MapsList l
  | .not _ s => Maps s
  | .any _ _ ps a i os as ys nt => (ps.map Prod.fst).Nodup ∧ MapsProps ps ∧ MapsAdditional a ∧ MapsOpt i ∧ MapsList os ∧ MapsList as ∧
      MapsList ys ∧ MapsOpt nt

def MapsList : List OSchema → Prop
  | [] => True
  | s :: l => Maps s ∧ MapsList l

def MapsProps : List (Str × OSchema) → Prop
  | [] => True
  | (_, s) :: l => Maps s ∧ MapsProps l

def MapsOpt : Option OSchema → Prop
  | none => True
  | some s => Maps s

def MapsAdditional : Option (Additional OSchema) → Prop
  | none => True
  | some (.any _) => True
  | some (.schema s) => Maps s

end

end Progenitor.Spec

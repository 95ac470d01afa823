import Verif.Model.BTree

/-!
# Conversion of schemas

Model of `/repo/progenitor-impl/src/to_schema.rs`.  The input is an `openapiv3` 2.0 schema as parsed, the
output a `schemars` 0.8 schema; only fields that the conversion reads or sets are present, and `discriminator` (whether there is
one), which it drops.  `externalDocs`, which it drops too, is left out.

`f64` numbers are the rational numbers they stand for; not-a-number and infinities (which YAML can
express, JSON not) are left out.
-/

namespace Progenitor.Schema

open Progenitor

/-- JSON values.  Objects list their members in ascending order of names, so that equal values are equal terms. -/
inductive Json where
  | null
  | bool (b : Bool)
  | num (q : Rat)
  | str (s : Str)
  | arr (l : List Json)
  | obj (fields : List (Str × Json))

/-! ## `openapiv3` -/

/-- `VariantOrUnknownOrEmpty`. -/
inductive Format (T : Type) where
  | item (t : T)
  | unknown (s : Str)
  | empty

inductive StringFormat where
  | date
  | dateTime
  | password
  | byte
  | binary

inductive NumberFormat where
  | float
  | double

inductive IntegerFormat where
  | int32
  | int64

structure StringType where
  format : Format StringFormat
  pattern : Option Str
  enumeration : List (Option Str)
  minLength : Option Nat
  maxLength : Option Nat

structure NumberType where
  format : Format NumberFormat
  multipleOf : Option Rat
  exclusiveMinimum : Bool
  exclusiveMaximum : Bool
  minimum : Option Rat
  maximum : Option Rat
  enumeration : List (Option Rat)

structure IntegerType where
  format : Format IntegerFormat
  multipleOf : Option Int
  exclusiveMinimum : Bool
  exclusiveMaximum : Bool
  minimum : Option Int
  maximum : Option Int
  enumeration : List (Option Int)

/-- `ObjectType` without its schemas. -/
structure ObjectLimits where
  required : List Str
  minProperties : Option Nat
  maxProperties : Option Nat

/-- `ArrayType` without its schema. -/
structure ArrayLimits where
  minItems : Option Nat
  maxItems : Option Nat
  uniqueItems : Bool

/-- `AnySchema` without its schemas. -/
structure AnyKeywords where
  typ : Option Str
  pattern : Option Str
  multipleOf : Option Rat
  exclusiveMinimum : Option Bool
  exclusiveMaximum : Option Bool
  minimum : Option Rat
  maximum : Option Rat
  required : List Str
  minProperties : Option Nat
  maxProperties : Option Nat
  minItems : Option Nat
  maxItems : Option Nat
  uniqueItems : Option Bool
  enumeration : List Json
  format : Option Str
  minLength : Option Nat
  maxLength : Option Nat

/-- `AdditionalProperties`. -/
inductive Additional (S : Type) where
  | any (b : Bool)
  | schema (s : S)

/-- `SchemaData`: what does not depend on the kind of the schema. -/
structure Data where
  nullable : Bool
  title : Option Str := none
  description : Option Str := none
  default : Option Json := none
  deprecated : Bool := false
  readOnly : Bool := false
  writeOnly : Bool := false
  example' : Option Json := none
  extensions : List (Str × Json) := []
  discriminator : Bool := false

/-- No more than `nullable`. -/
instance : Coe Bool Data := ⟨fun b => { nullable := b }⟩

/-- `ReferenceOr<Schema>`: a reference, or data and the kind of the schema. -/
inductive OSchema where
  | ref (r : Str)
  | string (d : Data) (t : StringType)
  | number (d : Data) (t : NumberType)
  | integer (d : Data) (t : IntegerType)
  | boolean (d : Data) (enumeration : List (Option Bool))
  | object (d : Data) (k : ObjectLimits) (properties : List (Str × OSchema))
      (additional : Option (Additional OSchema))
  | array (d : Data) (k : ArrayLimits) (items : Option OSchema)
  | oneOf (d : Data) (l : List OSchema)
  | allOf (d : Data) (l : List OSchema)
  | anyOf (d : Data) (l : List OSchema)
  | not (d : Data) (s : OSchema)
  | any (d : Data) (k : AnyKeywords) (properties : List (Str × OSchema))
      (additional : Option (Additional OSchema)) (items : Option OSchema)
      (oneOf allOf anyOf : List OSchema) (not : Option OSchema)

/-! ## `schemars` -/

inductive InstanceType where
  | null
  | boolean
  | object
  | array
  | number
  | string
  | integer
  deriving DecidableEq, Repr

inductive SingleOrVec where
  | single (t : InstanceType)
  | vec (l : List InstanceType)
  deriving DecidableEq, Repr

structure NumV where
  multipleOf : Option Rat
  maximum : Option Rat
  exclusiveMaximum : Option Rat
  minimum : Option Rat
  exclusiveMinimum : Option Rat
  deriving DecidableEq

structure StrV where
  maxLength : Option Nat
  minLength : Option Nat
  pattern : Option Str
  deriving DecidableEq

structure ArrV (S : Type) where
  items : Option S
  maxItems : Option Nat
  minItems : Option Nat
  uniqueItems : Option Bool

structure ObjV (S : Type) where
  maxProperties : Option Nat
  minProperties : Option Nat
  required : List Str
  properties : List (Str × S)
  additional : Option S

structure SubV (S : Type) where
  allOf : Option (List S)
  anyOf : Option (List S)
  oneOf : Option (List S)
  not : Option S

structure Metadata where
  title : Option Str
  description : Option Str
  default : Option Json
  deprecated : Bool
  readOnly : Bool
  writeOnly : Bool
  examples : List Json

/-- Fields `metadata` and `extensions` of `SchemaObject`. -/
structure Notes where
  metadata : Option Metadata := none
  extensions : List (Str × Json) := []

inductive JSchema where
  | bool (b : Bool)
  | ref (r : Str)
  | obj (notes : Notes) (ty : Option SingleOrVec) (format : Option Str) (enum : Option (List Json)) (number : Option NumV)
      (string : Option StrV) (array : Option (ArrV JSchema)) (object : Option (ObjV JSchema))
      (subs : Option (SubV JSchema))

/-- `SchemaObject`, before it becomes a `Schema`. -/
structure SchemaObject where
  notes : Notes := {}
  ty : Option SingleOrVec := none
  format : Option Str := none
  enum : Option (List Json) := none
  number : Option NumV := none
  string : Option StrV := none
  array : Option (ArrV JSchema) := none
  object : Option (ObjV JSchema) := none
  subs : Option (SubV JSchema) := none

def SchemaObject.into (o : SchemaObject) : JSchema :=
  .obj o.notes o.ty o.format o.enum o.number o.string o.array o.object o.subs

/-! ## Numbers -/

/-- `n as u32` for a `usize`. -/
def asU32 (n : Nat) : Nat := n % 2 ^ 32

/-- Round to 53 significant bits, ties to even. -/
def roundNat (n : Nat) : Nat :=
  if n < 2 ^ 53 then n
  else
    let e := n.log2 - 52
    let q := n / 2 ^ e
    let r := n % 2 ^ e
    let q' := if 2 * r < 2 ^ e then q else if 2 * r > 2 ^ e then q + 1 else if q % 2 = 0 then q else q + 1
    q' * 2 ^ e

/-- `v as f64` for an `i64`. -/
def asF64 (v : Int) : Rat := ((if v < 0 then -(roundNat v.natAbs : Int) else (roundNat v.natAbs : Int) : Int) : Rat)

/-! ## Conversion -/

/-- to_schema.rs:637-648. -/
def StringFormat.text : StringFormat → Str
  | .date => "date".toList
  | .dateTime => "date-time".toList
  | .password => "password".toList
  | .byte => "byte".toList
  | .binary => "binary".toList

/-- to_schema.rs:650-658. -/
def NumberFormat.text : NumberFormat → Str
  | .float => "float".toList
  | .double => "double".toList

/-- to_schema.rs:660-668. -/
def IntegerFormat.text : IntegerFormat → Str
  | .int32 => "int32".toList
  | .int64 => "int64".toList

/-- to_schema.rs:624-635. -/
def convFormat {T : Type} (text : T → Str) : Format T → Option Str
  | .item t => some (text t)
  | .unknown s => some s
  | .empty => none

/-- to_schema.rs:670-702: an enumerated value. -/
def convValue {T : Type} (f : T → Json) : Option T → Json
  | some x => f x
  | none => .null

/-- to_schema.rs:37-48. -/
def convEnum {T : Type} (f : T → Json) (l : List (Option T)) : Option (List Json) :=
  if l.isEmpty then none else some (l.map (convValue f))

/-- to_schema.rs:704-713. -/
def instanceType (t : InstanceType) (nullable : Bool) : Option SingleOrVec :=
  if nullable then some (.vec [t, .null]) else some (.single t)

/-- to_schema.rs:800-815 `reduce`, given whether the value is the default. -/
def reduce {T : Type} (isDefault : T → Bool) (x : T) : Option T := if isDefault x then none else some x

def NumV.isDefault (n : NumV) : Bool :=
  n.multipleOf.isNone && n.maximum.isNone && n.exclusiveMaximum.isNone && n.minimum.isNone && n.exclusiveMinimum.isNone

def StrV.isDefault (s : StrV) : Bool := s.maxLength.isNone && s.minLength.isNone && s.pattern.isNone

def ArrV.isDefault {S : Type} (a : ArrV S) : Bool :=
  a.items.isNone && a.maxItems.isNone && a.minItems.isNone && a.uniqueItems.isNone

def ObjV.isDefault {S : Type} (o : ObjV S) : Bool :=
  o.maxProperties.isNone && o.minProperties.isNone && o.required.isEmpty && o.properties.isEmpty && o.additional.isNone

def Metadata.isDefault (m : Metadata) : Bool :=
  m.title.isNone && m.description.isNone && m.default.isNone && !m.deprecated && !m.readOnly && !m.writeOnly && m.examples.isEmpty

/-- to_schema.rs:94-121. -/
def Data.notes (d : Data) : Notes where
  metadata := reduce Metadata.isDefault
    { title := d.title, description := d.description, default := d.default, deprecated := d.deprecated, readOnly := d.readOnly,
      writeOnly := d.writeOnly, examples := d.example'.toList }
  extensions := BTree.insertAll [] d.extensions

/-- to_schema.rs:715-745 `oneof_nullable_wrapper`. -/
def nullableWrapper (o : SchemaObject) (nullable : Bool) : SchemaObject :=
  if nullable then
    { notes := o.notes
      subs := some { oneOf := some [{ ty := some (.single .null) : SchemaObject }.into, { o with notes := {} }.into], allOf := none,
                     anyOf := none, not := none } }
  else o

/-- to_schema.rs:124-143. -/
def convString (d : Data) (t : StringType) : SchemaObject where
  notes := d.notes
  ty := instanceType .string d.nullable
  format := convFormat StringFormat.text t.format
  enum := convEnum .str t.enumeration
  string := reduce StrV.isDefault
    { maxLength := t.maxLength.map asU32, minLength := t.minLength.map asU32, pattern := t.pattern }

/-- to_schema.rs:144-177. -/
def convNumber (d : Data) (t : NumberType) : SchemaObject where
  notes := d.notes
  ty := instanceType .number d.nullable
  format := convFormat NumberFormat.text t.format
  enum := convEnum .num t.enumeration
  number := reduce NumV.isDefault
    { multipleOf := t.multipleOf
      maximum := if t.exclusiveMaximum then none else t.maximum
      exclusiveMaximum := if t.exclusiveMaximum then t.maximum else none
      minimum := if t.exclusiveMinimum then none else t.minimum
      exclusiveMinimum := if t.exclusiveMinimum then t.minimum else none }

/-- to_schema.rs:179-214. -/
def convInteger (d : Data) (t : IntegerType) : SchemaObject where
  notes := d.notes
  ty := instanceType .integer d.nullable
  format := convFormat IntegerFormat.text t.format
  enum := convEnum (fun i : Int => .num i) t.enumeration
  number := reduce NumV.isDefault
    { multipleOf := t.multipleOf.map asF64
      maximum := if t.exclusiveMaximum then none else t.maximum.map asF64
      exclusiveMaximum := if t.exclusiveMaximum then t.maximum.map asF64 else none
      minimum := if t.exclusiveMinimum then none else t.minimum.map asF64
      exclusiveMinimum := if t.exclusiveMinimum then t.minimum.map asF64 else none }

/-- to_schema.rs:262-270. -/
def convBoolean (d : Data) (enumeration : List (Option Bool)) : SchemaObject where
  notes := d.notes
  ty := instanceType .boolean d.nullable
  enum := convEnum .bool enumeration

/-- to_schema.rs:216-237. -/
def convObject (d : Data) (k : ObjectLimits) (properties : List (Str × JSchema)) (additional : Option JSchema) :
    SchemaObject where
  notes := d.notes
  ty := instanceType .object d.nullable
  object := reduce ObjV.isDefault
    { maxProperties := k.maxProperties.map asU32, minProperties := k.minProperties.map asU32, required := k.required,
      properties := BTree.insertAll [] properties, additional }

/-- to_schema.rs:239-260. -/
def convArray (d : Data) (k : ArrayLimits) (items : Option JSchema) : SchemaObject where
  notes := d.notes
  ty := instanceType .array d.nullable
  array := reduce ArrV.isDefault
    { items, maxItems := k.maxItems.map asU32, minItems := k.minItems.map asU32,
      uniqueItems := if k.uniqueItems then some true else none }

/-- to_schema.rs:463-486: lower and upper limits. -/
def limit (what : String) (value : Option Rat) (exclusive : Option Bool) : Res (Option Rat × Option Rat) :=
  match value, exclusive with
  | none, some true => .panic ("not yet implemented: exclusive_" ++ what ++ " set without " ++ what).toList
  | none, _ => .ok (none, none)
  | some v, some true => .ok (none, some v)
  | some v, _ => .ok (some v, none)

/-- to_schema.rs:534-560. -/
def typeOfName (s : Str) : Res InstanceType :=
  if s = "boolean".toList then .ok .boolean
  else if s = "object".toList then .ok .object
  else if s = "array".toList then .ok .array
  else if s = "number".toList then .ok .number
  else if s = "string".toList then .ok .string
  else if s = "integer".toList then .ok .integer
  else .panic ("not yet implemented: invalid type: ".toList ++ s)

/-- to_schema.rs:568-596: types for a nullable schema without type, given what is set. -/
def inferTypes (object array number string : Bool) : Option SingleOrVec :=
  match (if object then [InstanceType.object] else []) ++ (if array then [InstanceType.array] else []) ++
      (if number then [InstanceType.array] else []) ++ (if string then [InstanceType.array] else []) ++ [InstanceType.null] with
  | [] => none
  | [t] => some (.single t)
  | l => some (.vec l)

/-- to_schema.rs:534-597. -/
def anyType (typ : Option Str) (nullable : Bool) (o : SchemaObject) : Res (Option SingleOrVec) :=
  match typ with
  | some s => do
    let t ← typeOfName s
    pure (instanceType t nullable)
  | none =>
    if nullable then .ok (inferTypes o.object.isSome o.array.isSome o.number.isSome o.string.isSome) else .ok none

/-- Keywords of `AnySchema` other than `enumeration` and the lists are absent: to_schema.rs:326-350. -/
def AnyKeywords.bare (k : AnyKeywords) : Bool :=
  k.typ.isNone && k.pattern.isNone && k.multipleOf.isNone && k.exclusiveMinimum.isNone && k.exclusiveMaximum.isNone &&
  k.minimum.isNone && k.maximum.isNone && k.required.isEmpty && k.minProperties.isNone && k.maxProperties.isNone &&
  k.minItems.isNone && k.maxItems.isNone && k.uniqueItems.isNone && k.format.isNone && k.minLength.isNone &&
  k.maxLength.isNone

/-- `Some` of a list that is not empty. -/
def someList {T : Type} (l : List T) : Option (List T) := if l.isEmpty then none else some l

/-- to_schema.rs:434-531: everything but the type. -/
def anyObject (d : Data) (k : AnyKeywords) (properties : List (Str × JSchema)) (additional items : Option JSchema)
    (oneOf allOf anyOf : List JSchema) (not : Option JSchema) (low high : Option Rat × Option Rat) : SchemaObject where
  notes := d.notes
  format := k.format
  enum := someList k.enumeration
  string :=
    if k.pattern.isSome || k.minLength.isSome || k.maxLength.isSome then
      some { pattern := k.pattern, minLength := k.minLength.map asU32, maxLength := k.maxLength.map asU32 }
    else none
  number :=
    if k.multipleOf.isSome || k.minimum.isSome || k.maximum.isSome then
      some { multipleOf := k.multipleOf, minimum := low.1, exclusiveMinimum := low.2, maximum := high.1,
             exclusiveMaximum := high.2 }
    else none
  object :=
    if !properties.isEmpty || !k.required.isEmpty || additional.isSome || k.minProperties.isSome || k.maxProperties.isSome then
      some { properties := BTree.insertAll [] properties, required := k.required, additional,
             minProperties := k.minProperties.map asU32, maxProperties := k.maxProperties.map asU32 }
    else none
  array :=
    if items.isSome || k.minItems.isSome || k.maxItems.isSome || k.uniqueItems.isSome then
      some { items, minItems := k.minItems.map asU32, maxItems := k.maxItems.map asU32, uniqueItems := k.uniqueItems }
    else none
  subs :=
    if !oneOf.isEmpty || !allOf.isEmpty || !anyOf.isEmpty || not.isSome then
      some { oneOf := someList oneOf, allOf := someList allOf, anyOf := someList anyOf, not }
    else none

/-- to_schema.rs:326-618 for `SchemaKind::Any`, given the converted schemas in it.  Simplification: these are converted first; if
several parts are not supported, the message of the panic may be that of another part. -/
def convAny (d : Data) (k : AnyKeywords) (properties : List (Str × JSchema)) (additional items : Option JSchema)
    (oneOf allOf anyOf : List JSchema) (not : Option JSchema) : Res SchemaObject :=
  let nothing := k.bare && properties.isEmpty && additional.isNone && items.isNone && oneOf.isEmpty && allOf.isEmpty &&
    anyOf.isEmpty && not.isNone
  match nothing, k.enumeration with
  | true, [] => .ok { notes := d.notes }
  | true, [.null] => .ok { notes := d.notes, ty := some (.single .null) }
  | _, _ => do
    let low ← limit "minimum" k.minimum k.exclusiveMinimum
    let high ← limit "maximum" k.maximum k.exclusiveMaximum
    let so := anyObject d k properties additional items oneOf allOf anyOf not low high
    let ty ← anyType k.typ d.nullable so
    if ty = some (.single .null) ∧ so.subs.isSome then pure (nullableWrapper so d.nullable)
    else pure { so with ty }

def subOne (d : Data) (l : List JSchema) : SchemaObject :=
  { notes := d.notes, subs := some { oneOf := some l, allOf := none, anyOf := none, not := none } }

def subAll (d : Data) (l : List JSchema) : SchemaObject :=
  { notes := d.notes, subs := some { oneOf := none, allOf := some l, anyOf := none, not := none } }

def subAny (d : Data) (l : List JSchema) : SchemaObject :=
  { notes := d.notes, subs := some { oneOf := none, allOf := none, anyOf := some l, not := none } }

def subNot (d : Data) (s : JSchema) : SchemaObject :=
  { notes := d.notes, subs := some { oneOf := none, allOf := none, anyOf := none, not := some s } }

mutual

/-- to_schema.rs:50-622. -/
def conv : OSchema → Res JSchema
  | .ref r => .ok (.ref r)
  | .string d t => .ok (convString d t).into
  | .number d t => .ok (convNumber d t).into
  | .integer d t => .ok (convInteger d t).into
  | .boolean d e => .ok (convBoolean d e).into
  | .object d k ps a => do
    let ps ← convProps ps
    let a ← convAdditional a
    pure (convObject d k ps a).into
  | .array d k i => do
    let i ← convOpt i
    pure (convArray d k i).into
  | .oneOf d l => do
    let l ← convList l
    pure (nullableWrapper (subOne d l) d.nullable).into
  | .allOf d l => do
    let l ← convList l
    pure (nullableWrapper (subAll d l) d.nullable).into
  | .anyOf d l => do
    let l ← convList l
    pure (nullableWrapper (subAny d l) d.nullable).into
  | .not d s => do
    let s ← conv s
    pure (nullableWrapper (subNot d s) d.nullable).into
  | .any d k ps a i os as ys nt => do
    let ps ← convProps ps
    let a ← convAdditional a
    let i ← convOpt i
    let os ← convList os
    let as ← convList as
    let ys ← convList ys
    let nt ← convOpt nt
    let o ← convAny d k ps a i os as ys nt
    pure o.into

/-- to_schema.rs:28-48. -/
def convList : List OSchema → Res (List JSchema)
  | [] => .ok []
  | s :: l => do
    let s ← conv s
    let l ← convList l
    pure (s :: l)

/-- to_schema.rs:765-771. -/
def convProps : List (Str × OSchema) → Res (List (Str × JSchema))
  | [] => .ok []
  | (k, s) :: l => do
    let s ← conv s
    let l ← convProps l
    pure ((k, s) :: l)

/-- to_schema.rs:782-789. -/
def convOpt : Option OSchema → Res (Option JSchema)
  | none => .ok none
  | some s => do
    let s ← conv s
    pure (some s)

/-- to_schema.rs:791-798. -/
def convAdditional : Option (Additional OSchema) → Res (Option JSchema)
  | none => .ok none
  | some (.any b) => .ok (some (.bool b))
  | some (.schema s) => do
    let s ← conv s
    pure (some s)

end

end Progenitor.Schema

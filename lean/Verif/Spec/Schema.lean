import Verif.Model.Schema

/-!
# Specification: validity of JSON values

What OpenAPI 3.0 schemas and JSON schemas (draft 7) mean.  Regular expressions, formats and references are
interpreted by parameters; formats and regular expressions are the same on both sides.

`nullable` adds `null` to the type of a schema with a type; the other keywords still apply (OpenAPI 3.0.3).  Without a type it
allows `null`, unless an enumeration excludes it (OpenAPI 3.0.0: "Allows sending a null value for the defined schema").
-/

namespace Progenitor.Spec

open Progenitor Progenitor.Schema

abbrev Pred := Json → Prop

/-- Meaning of regular expressions, formats and references. -/
structure Interp where
  pattern : Str → Str → Prop
  format : Str → Json → Prop
  ref : Str → Json → Prop

/-! ## Keywords -/

def HasType : InstanceType → Json → Prop
  | .null, v => v = .null
  | .boolean, v => ∃ b, v = .bool b
  | .object, v => ∃ fs, v = .obj fs
  | .array, v => ∃ l, v = .arr l
  | .number, v => ∃ q, v = .num q
  | .string, v => ∃ s, v = .str s
  | .integer, v => ∃ i : Int, v = .num i

/-- A keyword that may be absent. -/
def IfGiven {α : Type} (x : Option α) (p : α → Prop) : Prop := ∀ a, x = some a → p a

/-- `minLength`, `maxLength`, `pattern`: strings only. -/
def StrOk (ι : Interp) (min max : Option Nat) (pattern : Option Str) (v : Json) : Prop :=
  ∀ s, v = .str s → IfGiven min (· ≤ s.length) ∧ IfGiven max (s.length ≤ ·) ∧ IfGiven pattern (ι.pattern · s)

def MultipleOf (m q : Rat) : Prop := ∃ k : Int, q = m * k

/-- `minItems`, `maxItems`, `uniqueItems`, `items`: arrays only. -/
def ArrOk (items : Option Pred) (min max : Option Nat) (unique : Bool) (v : Json) : Prop :=
  ∀ l, v = .arr l → IfGiven items (fun p => ∀ x ∈ l, p x) ∧ IfGiven min (· ≤ l.length) ∧ IfGiven max (l.length ≤ ·) ∧
    (unique = true → l.Nodup)

/-- `minProperties`, `maxProperties`, `required`, `properties`, `additionalProperties`: objects only. -/
def ObjOk (props : List (Str × Pred)) (required : List Str) (additional : Option Pred) (min max : Option Nat) (v : Json) : Prop :=
  ∀ fs, v = .obj fs →
    (∀ k ∈ required, ∃ x, (k, x) ∈ fs) ∧
    (∀ k p x, (k, p) ∈ props → (k, x) ∈ fs → p x) ∧
    IfGiven additional (fun p => ∀ k x, (k, x) ∈ fs → k ∉ props.map Prod.fst → p x) ∧
    IfGiven min (· ≤ fs.length) ∧ IfGiven max (fs.length ≤ ·)

def AllOf (ps : List Pred) (v : Json) : Prop := ∀ p ∈ ps, p v
def AnyOf (ps : List Pred) (v : Json) : Prop := ∃ p ∈ ps, p v
/-- Exactly one. -/
def OneOf (ps : List Pred) (v : Json) : Prop := ∃ pre p post, ps = pre ++ p :: post ∧ p v ∧ ∀ q ∈ pre ++ post, ¬ q v

/-- An enumeration; no values: it is absent. -/
def EnumOk (l : List Json) (v : Json) : Prop := l = [] ∨ v ∈ l

/-! ## OpenAPI -/

/-- `minimum` etc. of OpenAPI 3.0: exclusiveness is a flag. -/
def NumOk (multiple min : Option Rat) (exMin : Bool) (max : Option Rat) (exMax : Bool) (v : Json) : Prop :=
  ∀ q, v = .num q → IfGiven multiple (MultipleOf · q) ∧
    IfGiven min (fun m => if exMin then m < q else m ≤ q) ∧ IfGiven max (fun m => if exMax then q < m else q ≤ m)

/-- The names of formats in documents. -/
def formatText {T : Type} (text : T → String) : Format T → Option Str
  | .item t => some (text t).toList
  | .unknown s => some s
  | .empty => none

def stringFormat : StringFormat → String
  | .date => "date"
  | .dateTime => "date-time"
  | .password => "password"
  | .byte => "byte"
  | .binary => "binary"

def numberFormat : NumberFormat → String
  | .float => "float"
  | .double => "double"

def integerFormat : IntegerFormat → String
  | .int32 => "int32"
  | .int64 => "int64"

/-- The type, or `null` if nullable. -/
def TypeOk (t : InstanceType) (nullable : Bool) (v : Json) : Prop := HasType t v ∨ (nullable = true ∧ v = .null)

/-- An enumerated value in a document. -/
def valueOf {T : Type} (f : T → Json) (x : Option T) : Json := x.elim .null f

/-- The type that a name stands for. -/
def typeNamed (s : Str) : Option InstanceType :=
  [("boolean", .boolean), ("object", .object), ("array", .array), ("number", .number), ("string", .string),
   ("integer", .integer)].findSome? fun (n, t) => if n.toList = s then some t else none

/-- All keywords of a schema of kind `Any` except the type. -/
def AnyOk (ι : Interp) (k : AnyKeywords) (props : List (Str × Pred)) (additional items : Option Pred)
    (oneOf allOf anyOf : List Pred) (not : Option Pred) (v : Json) : Prop :=
  IfGiven k.format (ι.format · v) ∧ EnumOk k.enumeration v ∧ StrOk ι k.minLength k.maxLength k.pattern v ∧
  NumOk k.multipleOf k.minimum (k.exclusiveMinimum.getD false) k.maximum (k.exclusiveMaximum.getD false) v ∧
  ObjOk props k.required additional k.minProperties k.maxProperties v ∧
  ArrOk items k.minItems k.maxItems (k.uniqueItems.getD false) v ∧
  (oneOf ≠ [] → OneOf oneOf v) ∧ (allOf ≠ [] → AllOf allOf v) ∧ (anyOf ≠ [] → AnyOf anyOf v) ∧ IfGiven not (fun p => ¬ p v)

mutual

/-- The values that are valid for an OpenAPI schema. -/
def OValid (ι : Interp) : OSchema → Pred
  | .ref r => ι.ref r
  | .string d t => fun v => TypeOk .string d.nullable v ∧ IfGiven (formatText stringFormat t.format) (ι.format · v) ∧
      EnumOk (t.enumeration.map (valueOf .str)) v ∧ StrOk ι t.minLength t.maxLength t.pattern v
  | .number d t => fun v => TypeOk .number d.nullable v ∧ IfGiven (formatText numberFormat t.format) (ι.format · v) ∧
      EnumOk (t.enumeration.map (valueOf .num)) v ∧
      NumOk t.multipleOf t.minimum t.exclusiveMinimum t.maximum t.exclusiveMaximum v
  | .integer d t => fun v => TypeOk .integer d.nullable v ∧ IfGiven (formatText integerFormat t.format) (ι.format · v) ∧
      EnumOk (t.enumeration.map (valueOf fun i : Int => .num i)) v ∧
      NumOk (t.multipleOf.map fun i : Int => (i : Rat)) (t.minimum.map fun i : Int => (i : Rat)) t.exclusiveMinimum
        (t.maximum.map fun i : Int => (i : Rat)) t.exclusiveMaximum v
  | .boolean d e => fun v => TypeOk .boolean d.nullable v ∧ EnumOk (e.map (valueOf .bool)) v
  | .object d k ps a =>
    let ps := OProps ι ps
    let a := OAdditional ι a
    fun v => TypeOk .object d.nullable v ∧ ObjOk ps k.required a k.minProperties k.maxProperties v
  | .array d k i =>
    let i := OOpt ι i
    fun v => TypeOk .array d.nullable v ∧ ArrOk i k.minItems k.maxItems k.uniqueItems v
  | .oneOf d l =>
    let l := OList ι l
    fun v => (d.nullable = true ∧ v = .null) ∨ OneOf l v
  | .allOf d l =>
    let l := OList ι l
    fun v => (d.nullable = true ∧ v = .null) ∨ AllOf l v
  | .anyOf d l =>
    let l := OList ι l
    fun v => (d.nullable = true ∧ v = .null) ∨ AnyOf l v
  | .not d s =>
    let p := OValid ι s
    fun v => (d.nullable = true ∧ v = .null) ∨ ¬ p v
  | .any d k ps a i os as ys nt =>
    let ok := AnyOk ι k (OProps ι ps) (OAdditional ι a) (OOpt ι i) (OList ι os) (OList ι as) (OList ι ys) (OOpt ι nt)
    match k.typ with
    | none => fun v => (d.nullable = true ∧ v = .null ∧ EnumOk k.enumeration .null) ∨ ok v
    | some s => fun v => (∃ t, typeNamed s = some t ∧ TypeOk t d.nullable v) ∧ ok v

def OList (ι : Interp) : List OSchema → List Pred
  | [] => []
  | s :: l => OValid ι s :: OList ι l

def OProps (ι : Interp) : List (Str × OSchema) → List (Str × Pred)
  | [] => []
  | (k, s) :: l => (k, OValid ι s) :: OProps ι l

def OOpt (ι : Interp) : Option OSchema → Option Pred
  | none => none
  | some s => some (OValid ι s)

def OAdditional (ι : Interp) : Option (Additional OSchema) → Option Pred
  | none => none
  | some (.any b) => some fun _ => b = true
  | some (.schema s) => some (OValid ι s)

end

/-! ## JSON schema -/

/-- Numeric keywords of JSON schema. -/
def JNumOk (n : NumV) (v : Json) : Prop :=
  ∀ q, v = .num q → IfGiven n.multipleOf (MultipleOf · q) ∧ IfGiven n.minimum (· ≤ q) ∧ IfGiven n.exclusiveMinimum (· < q) ∧
    IfGiven n.maximum (q ≤ ·) ∧ IfGiven n.exclusiveMaximum (q < ·)

def JTypeOk : SingleOrVec → Json → Prop
  | .single t, v => HasType t v
  | .vec l, v => ∃ t ∈ l, HasType t v

mutual

/-- The values that are valid for a JSON schema. -/
def JValid (ι : Interp) : JSchema → Pred
  | .bool b => fun _ => b = true
  | .ref r => ι.ref r
  | .obj _ ty format enum number string array object subs =>
    let array := JArr ι array
    let object := JObj ι object
    let subs := JSub ι subs
    fun v => IfGiven ty (JTypeOk · v) ∧ IfGiven format (ι.format · v) ∧ IfGiven enum (v ∈ ·) ∧ IfGiven number (JNumOk · v) ∧
      IfGiven string (fun s => StrOk ι s.minLength s.maxLength s.pattern v) ∧ array v ∧ object v ∧ subs v

def JArr (ι : Interp) : Option (ArrV JSchema) → Pred
  | none => fun _ => True
  | some ⟨items, max, min, unique⟩ =>
    let items := JOpt ι items
    fun v => ArrOk items min max (unique.getD false) v

def JObj (ι : Interp) : Option (ObjV JSchema) → Pred
  | none => fun _ => True
  | some ⟨max, min, required, ps, a⟩ =>
    let ps := JProps ι ps
    let a := JOpt ι a
    fun v => ObjOk ps required a min max v

def JSub (ι : Interp) : Option (SubV JSchema) → Pred
  | none => fun _ => True
  | some ⟨as, ys, os, nt⟩ =>
    let as := JListOpt ι as
    let ys := JListOpt ι ys
    let os := JListOpt ι os
    let nt := JOpt ι nt
    fun v => IfGiven as (AllOf · v) ∧ IfGiven ys (AnyOf · v) ∧ IfGiven os (OneOf · v) ∧ IfGiven nt (fun p => ¬ p v)

def JListOpt (ι : Interp) : Option (List JSchema) → Option (List Pred)
  | none => none
  | some l => some (JList ι l)

def JList (ι : Interp) : List JSchema → List Pred
  | [] => []
  | s :: l => JValid ι s :: JList ι l

def JProps (ι : Interp) : List (Str × JSchema) → List (Str × Pred)
  | [] => []
  | (k, s) :: l => (k, JValid ι s) :: JProps ι l

def JOpt (ι : Interp) : Option JSchema → Option Pred
  | none => none
  | some s => some (JValid ι s)

end

/-! ## Conditions -/

/-- The limit can be expressed by 32 bits. -/
def Fits (n : Option Nat) : Prop := IfGiven n (· < 2 ^ 32)

/-- Integers of type `f64`: 53 significant bits. -/
def IsDouble (i : Int) : Prop := ∃ m e : Nat, i.natAbs = m * 2 ^ e ∧ m < 2 ^ 53

def FitsInt (i : Option Int) : Prop := IfGiven i IsDouble

/-- Both absent, or both present and related. -/
def OptRel {α : Type} (r : α → α → Prop) : Option α → Option α → Prop
  | none, none => True
  | some a, some b => r a b
  | _, _ => False

/-- What the integer `i` is rounded to: no double is nearer, and of two that are as near it is the even one (a multiple of twice the
distance between them). -/
structure RoundedTo (i r : Int) : Prop where
  double : IsDouble r
  nearest : ∀ x, IsDouble x → (r - i).natAbs ≤ (x - i).natAbs
  even : ∀ x, IsDouble x → (x - i).natAbs = (r - i).natAbs → x ≠ r → ∃ k : Int, r = 2 * k * (x - r).natAbs

/-- A schema of kind `Any` whose only keywords are combinations of schemas, enumeration and format. -/
structure OnlySubschemas {S A : Type} (k : AnyKeywords) (properties : List (Str × S)) (additional : Option A)
    (items : Option S) (oneOf allOf anyOf : List S) (not : Option S) : Prop where
  string : k.pattern = none ∧ k.minLength = none ∧ k.maxLength = none
  number : k.multipleOf = none ∧ k.minimum = none ∧ k.maximum = none
  object : properties = [] ∧ k.required = [] ∧ additional = none ∧ k.minProperties = none ∧ k.maxProperties = none
  array : items = none ∧ k.minItems = none ∧ k.maxItems = none ∧ k.uniqueItems = none
  subs : oneOf ≠ [] ∨ allOf ≠ [] ∨ anyOf ≠ [] ∨ not ≠ none

/-- A schema of kind `Any` without keywords other than an enumeration. -/
structure NoKeywords {S A : Type} (k : AnyKeywords) (properties : List (Str × S)) (additional : Option A)
    (items : Option S) (oneOf allOf anyOf : List S) (not : Option S) : Prop where
  string : k.pattern = none ∧ k.minLength = none ∧ k.maxLength = none
  number : k.multipleOf = none ∧ k.minimum = none ∧ k.maximum = none ∧ k.exclusiveMinimum = none ∧ k.exclusiveMaximum = none
  object : properties = [] ∧ k.required = [] ∧ additional = none ∧ k.minProperties = none ∧ k.maxProperties = none
  array : items = none ∧ k.minItems = none ∧ k.maxItems = none ∧ k.uniqueItems = none
  subs : oneOf = [] ∧ allOf = [] ∧ anyOf = [] ∧ not = none
  format : k.format = none

mutual

/-- Limits are in range, property names differ (they are keys of a map), and where a schema without type is nullable, it consists
of combined schemas that do not accept `null` by themselves. -/
def Faithful (ι : Interp) : OSchema → Prop
  | .ref _ => True
  | .string _ t => Fits t.minLength ∧ Fits t.maxLength
  | .number _ _ => True
  | .integer _ t => FitsInt t.multipleOf ∧ FitsInt t.minimum ∧ FitsInt t.maximum
  | .boolean _ _ => True
  | .object _ k ps a => Fits k.minProperties ∧ Fits k.maxProperties ∧ (ps.map Prod.fst).Nodup ∧ FaithfulProps ι ps ∧
      FaithfulAdditional ι a
  | .array _ k i => Fits k.minItems ∧ Fits k.maxItems ∧ FaithfulOpt ι i
  | .oneOf d l => FaithfulList ι l ∧ (d.nullable = true → ¬ OneOf (OList ι l) .null)
  | .allOf d l => FaithfulList ι l ∧ (d.nullable = true → ¬ AllOf (OList ι l) .null)
  | .anyOf d l => FaithfulList ι l ∧ (d.nullable = true → ¬ AnyOf (OList ι l) .null)
  | .not d s => Faithful ι s ∧ (d.nullable = true → OValid ι s .null)
  | .any d k ps a i os as ys nt =>
    (Fits k.minProperties ∧ Fits k.maxProperties ∧ Fits k.minItems ∧ Fits k.maxItems ∧ Fits k.minLength ∧ Fits k.maxLength) ∧
    (ps.map Prod.fst).Nodup ∧
    (FaithfulProps ι ps ∧ FaithfulAdditional ι a ∧ FaithfulOpt ι i ∧ FaithfulList ι os ∧ FaithfulList ι as ∧
      FaithfulList ι ys ∧ FaithfulOpt ι nt) ∧
    (d.nullable = true → k.typ = none →
      (NoKeywords k ps a i os as ys nt ∧ (k.enumeration = [] ∨ k.enumeration = [.null])) ∨
      (OnlySubschemas k ps a i os as ys nt ∧ EnumOk k.enumeration .null ∧
        ¬ AnyOk ι k (OProps ι ps) (OAdditional ι a) (OOpt ι i) (OList ι os) (OList ι as) (OList ι ys) (OOpt ι nt) .null))

def FaithfulList (ι : Interp) : List OSchema → Prop
  | [] => True
  | s :: l => Faithful ι s ∧ FaithfulList ι l

def FaithfulProps (ι : Interp) : List (Str × OSchema) → Prop
  | [] => True
  | (_, s) :: l => Faithful ι s ∧ FaithfulProps ι l

def FaithfulOpt (ι : Interp) : Option OSchema → Prop
  | none => True
  | some s => Faithful ι s

def FaithfulAdditional (ι : Interp) : Option (Additional OSchema) → Prop
  | none => True
  | some (.any _) => True
  | some (.schema s) => Faithful ι s

end

/-- Conversion is implemented for a schema of kind `Any`: known type, no exclusive limit without the limit. -/
def AnySupported (k : AnyKeywords) : Prop :=
  (∀ s, k.typ = some s → ∃ t, typeNamed s = some t) ∧
  (k.exclusiveMinimum = some true → k.minimum ≠ none) ∧ (k.exclusiveMaximum = some true → k.maximum ≠ none)

mutual

/-- Conversion is implemented for all parts. -/
def Supported : OSchema → Prop
  | .ref _ => True
  | .string _ _ => True
  | .number _ _ => True
  | .integer _ _ => True
  | .boolean _ _ => True
  | .object _ _ ps a => SupportedProps ps ∧ SupportedAdditional a
  | .array _ _ i => SupportedOpt i
  | .oneOf _ l => SupportedList l
  | .allOf _ l => SupportedList l
  | .anyOf _ l => SupportedList l
  | .not _ s => Supported s
  | .any _ k ps a i os as ys nt => SupportedProps ps ∧ SupportedAdditional a ∧ SupportedOpt i ∧ SupportedList os ∧
      SupportedList as ∧ SupportedList ys ∧ SupportedOpt nt ∧ AnySupported k

def SupportedList : List OSchema → Prop
  | [] => True
  | s :: l => Supported s ∧ SupportedList l

def SupportedProps : List (Str × OSchema) → Prop
  | [] => True
  | (_, s) :: l => Supported s ∧ SupportedProps l

def SupportedOpt : Option OSchema → Prop
  | none => True
  | some s => Supported s

def SupportedAdditional : Option (Additional OSchema) → Prop
  | none => True
  | some (.any _) => True
  | some (.schema s) => Supported s

end

/-- The schema with another value of `nullable`; a reference has none. -/
def setNullable (n : Bool) : OSchema → OSchema
  | .ref r => .ref r
  | .string d t => .string { d with nullable := n } t
  | .number d t => .number { d with nullable := n } t
  | .integer d t => .integer { d with nullable := n } t
  | .boolean d e => .boolean { d with nullable := n } e
  | .object d k ps a => .object { d with nullable := n } k ps a
  | .array d k i => .array { d with nullable := n } k i
  | .oneOf d l => .oneOf { d with nullable := n } l
  | .allOf d l => .allOf { d with nullable := n } l
  | .anyOf d l => .anyOf { d with nullable := n } l
  | .not d s => .not { d with nullable := n } s
  | .any d k ps a i os as ys nt => .any { d with nullable := n } k ps a i os as ys nt

/-- A schema that has a type, no enumeration, and (except in properties and items) no combination of schemas. -/
def Typed : OSchema → Prop
  | .string _ t => t.enumeration = []
  | .number _ t => t.enumeration = []
  | .integer _ t => t.enumeration = []
  | .boolean _ e => e = []
  | .object .. => True
  | .array .. => True
  | .any _ k _ _ _ os as ys nt => k.typ ≠ none ∧ k.enumeration = [] ∧ os = [] ∧ as = [] ∧ ys = [] ∧ nt = none
  | _ => False

/-- A combination of schemas, without other keywords. -/
def Combined : OSchema → Prop
  | .oneOf .. => True
  | .allOf .. => True
  | .anyOf .. => True
  | .not .. => True
  | .any _ k ps a i os as ys nt => k.typ = none ∧ k.enumeration = [] ∧ OnlySubschemas k ps a i os as ys nt
  | _ => False

/-- The references of a document are interpreted by its components. -/
def Resolves {S : Type} (valid : Interp → S → Pred) (ι : Interp) (components : List (Str × S)) : Prop :=
  ∀ k s, (k, s) ∈ components → ∀ v, ι.ref ("#/components/schemas/".toList ++ k) v ↔ valid ι s v

end Progenitor.Spec

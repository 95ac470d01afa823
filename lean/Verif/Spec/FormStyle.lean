import Verif.Spec.TypedReply

/-!
# Specification: parameters as values of the schemas of the document

What JSON value an argument is (the data model of serde as JSON), and how OpenAPI writes JSON values as parameters: style `form`,
exploded, in queries; style `simple` in paths and headers.
-/

namespace Progenitor.Spec

open Progenitor Progenitor.Params Progenitor.Refs Progenitor.Schema Progenitor.Typed Progenitor.Exec Progenitor.Query

/-! ## Numbers -/

/-- A text of decimal digits and its value. -/
inductive Digits : Str → Nat → Prop
  | one (d) : d < 10 → Digits [Nat.digitChar d] d
  | more (s n d) : Digits s n → d < 10 → Digits (s ++ [Nat.digitChar d]) (10 * n + d)

/-- Digits, perhaps with a fraction. -/
inductive Mantissa : Str → Rat → Prop
  | whole (s n) : Digits s n → Mantissa s (n : Rat)
  | point (s n f m) : Digits s n → Digits f m → Mantissa (s ++ '.' :: f) ((n : Rat) + (m : Rat) / 10 ^ f.length)

/-- A number without sign, perhaps with an exponent. -/
inductive Unsigned : Str → Rat → Prop
  | plain (s q) : Mantissa s q → Unsigned s q
  | up (s q e k) : Mantissa s q → Digits e k → Unsigned (s ++ 'e' :: e) (q * 10 ^ k)
  | down (s q e k) : Mantissa s q → Digits e k → Unsigned (s ++ 'e' :: '-' :: e) (q / 10 ^ k)

/-- A number in decimal notation. -/
inductive Numeral : Str → Rat → Prop
  | pos (s q) : Unsigned s q → Numeral s q
  | neg (s q) : Unsigned s q → Numeral ('-' :: s) (-q)

/-! ## Arguments as JSON -/

/-- The JSON value of what is given to a serializer. -/
inductive JsonOf : Ser → Json → Prop
  | bool (b) : JsonOf (.bool b) (.bool b)
  | int (i : Int) : JsonOf (.int i) (.num i)
  | float (t q) : Numeral t q → JsonOf (.float t) (.num q)
  | char (c) : JsonOf (.char c) (.str [c])
  | str (s) : JsonOf (.str s) (.str s)
  | none : JsonOf .none .null
  | some (v j) : JsonOf v j → JsonOf (.some v) j
  | unit : JsonOf .unit .null
  | unitStruct (n) : JsonOf (.unitStruct n) .null
  | unitVariant (e v) : JsonOf (.unitVariant e v) (.str v)
  | newtypeStruct (n v j) : JsonOf v j → JsonOf (.newtypeStruct n v) j
  | newtypeVariant (e n v j) : JsonOf v j → JsonOf (.newtypeVariant e n v) (.obj [(n, j)])
  | seq (vs js) : Forall₂ JsonOf vs js → JsonOf (.seq vs) (.arr js)
  | tuple (vs js) : Forall₂ JsonOf vs js → JsonOf (.tuple vs) (.arr js)
  | tupleStruct (n vs js) : Forall₂ JsonOf vs js → JsonOf (.tupleStruct n vs) (.arr js)
  | tupleVariant (e n vs js) : Forall₂ JsonOf vs js → JsonOf (.tupleVariant e n vs) (.obj [(n, .arr js)])
  | map (kvs : List (Ser × Ser)) (fs : List (Str × Json)) : Forall₂ Key (kvs.map Prod.fst) (fs.map Prod.fst) →
      Forall₂ JsonOf (kvs.map Prod.snd) (fs.map Prod.snd) → JsonOf (.map kvs) (.obj fs)
  | struct (n) (vs : List (Str × Ser)) (fs : List (Str × Json)) : vs.map Prod.fst = fs.map Prod.fst →
      Forall₂ JsonOf (vs.map Prod.snd) (fs.map Prod.snd) → JsonOf (.struct n vs) (.obj fs)
  | structVariant (e n) (vs : List (Str × Ser)) (fs : List (Str × Json)) : vs.map Prod.fst = fs.map Prod.fst →
      Forall₂ JsonOf (vs.map Prod.snd) (fs.map Prod.snd) → JsonOf (.structVariant e n vs) (.obj [(n, .obj fs)])

/-! ## JSON values as parameters -/

/-- The text of a primitive value; also how it is written in style `simple`. -/
inductive Primitive : Json → Str → Prop
  | true : Primitive (.bool true) "true".toList
  | false : Primitive (.bool false) "false".toList
  | num (q t) : Numeral t q → Primitive (.num q) t
  | str (s) : Primitive (.str s) s

/-- An element of an array or a field of an object; `null` is left out. -/
inductive Member : Json → Option Str → Prop
  | null : Member .null Option.none
  | value (j t) : Primitive j t → Member j (Option.some t)

/-- How a value is written in a query: style `form`, exploded. -/
inductive FormStyle (name : Str) : Json → List (Str × Str) → Prop
  | null : FormStyle name .null []
  | primitive (j t) : Primitive j t → FormStyle name j [(name, t)]
  | array (js ts) : Forall₂ Member js ts → FormStyle name (.arr js) (ts.filterMap fun t => t.map fun x => (name, x))
  | object (fs) (ts : List (Str × Option Str)) : Forall₂ (fun f t => f.1 = t.1 ∧ Member f.2 t.2) fs ts →
      FormStyle name (.obj fs) (ts.filterMap fun t => t.2.map fun x => (t.1, x))

/-! ## Arguments and what is read for them -/

/-- The value that is given, if one is. -/
def givenArg : Value → Option Arg
  | .plain a => some a
  | .opt o => o
  | _ => none

/-- The arguments are values of their types; in paths and headers they are displayed as the texts of primitive values. -/
def ValuesTyped (accepts : Params.TypeId → Json → Prop) (ps : List Param) (args : List Value) : Prop :=
  ∀ p v, (p, v) ∈ ps.zip args → ∀ t, p.typ = .type t → ∀ a, givenArg v = some a → ∃ j, JsonOf a.ser j ∧ accepts t j ∧
    (p.kind = .path ∨ (∃ b, p.kind = .header b) → Primitive j a.display)

/-- What is optional is absent or what is inside. -/
def RightOptions {σ : Type} (lib : Library σ) (accepts : σ → Params.TypeId → Json → Prop) : Prop :=
  ∀ s t inner, lib.info s t = some (.option inner) → ∀ v, accepts s inner v → accepts s t v

/-- `SameParam` for parameters with schemas. -/
def SSame (p q : SParam) : Prop := p.name = q.name ∧ skindLocation p.kind = skindLocation q.kind

/-- `Effective` for parameters with schemas. -/
def SEffective (pathLevel opLevel : List SParam) (p : SParam) : Prop :=
  p ∈ opLevel ∨ (p ∈ pathLevel ∧ ∀ q ∈ opLevel, ¬ SSame p q)

/-- What a server reads for the parameter. -/
def sreads (keys : Str → List Str) (auth : Str) (base : List Str) (l : List Seg) (r : Request) (p : SParam) : List (Bytes × Bytes) :=
  match p.kind with
  | .path _ => (readPath l (tailSegments auth base r) p.name).map fun x => (utf8 p.name, x)
  | .query _ => readQuery r (keys p.name)
  | .header => (readHeader r p.name).map fun x => (utf8 p.name, x)
  | .cookie => []

/-- What is read is the value, as the parameter is written in its location. -/
def WrittenAs (l : List Seg) (p : SParam) (j : Json) (got : List (Bytes × Bytes)) : Prop :=
  match p.kind with
  | .path _ => ∃ t, Primitive j t ∧ got = (l.filter (Seg.holds p.name)).map fun _ => (utf8 p.name, utf8 t)
  | .query _ => ∃ ps, FormStyle p.name j ps ∧ got = ps.map fun e => (utf8 e.1, utf8 e.2)
  | .header => ∃ t, Primitive j t ∧ got = [(utf8 p.name, utf8 t)]
  | .cookie => False

/-- What is read for parameter `p` when the arguments of the call are `as`: if its argument is not given, nothing; else the JSON value
of the argument, written as in the location of the parameter, and that value is `good`. -/
def ArrivesAs (good : Json → Prop) (l : List Seg) (p : SParam) (as : List (Param × Value)) (got : List (Bytes × Bytes)) : Prop :=
  ∃ a v, (a, v) ∈ as ∧ a.apiName = p.name ∧ location a.kind = skindLocation p.kind ∧
    (givenArg v = none ∧ got = [] ∨ ∃ x j, givenArg v = some x ∧ JsonOf x.ser j ∧ good j ∧ WrittenAs l p j got)

/-- The body of the request is a form with the JSON value of the argument, and that value is `good`. -/
def FormBody (good : Json → Prop) (x : Ser) (r : Request) : Prop :=
  ∃ j t ps, JsonOf x j ∧ good j ∧ FormStyle [] j ps ∧ r.body = some (utf8 t) ∧ formDecode t = ps.map fun e => (utf8 e.1, utf8 e.2)

end Progenitor.Spec

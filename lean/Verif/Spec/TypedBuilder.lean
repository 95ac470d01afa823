import Verif.Spec.TypedLine

/-!
# Specification: builders and the schemas of the document
-/

namespace Progenitor.Spec

open Progenitor Progenitor.Params Progenitor.Refs Progenitor.Schema Progenitor.Typed Progenitor.Exec Progenitor.Query
  Progenitor.Builder

/-- What setters are given and what the builders of types make are values of the types; those of parameters in paths and headers are
displayed as the texts of primitive values. -/
structure SettersTyped {B : Type} (tt : TypeTable B) (accepts : Params.TypeId → Json → Prop) (params : List Param) (calls : List (Call B)) :
    Prop where
  values : ∀ p ∈ params, ∀ t a, p.typ = .type t → (p.name, Input.value (.ok a)) ∈ calls → ∃ j, JsonOf a.ser j ∧ accepts t j
  shown : ∀ p ∈ params, (p.kind = .path ∨ ∃ b, p.kind = .header b) → ∀ a j, (p.name, Input.value (.ok a)) ∈ calls → JsonOf a.ser j →
    Primitive j a.display
  built : ∀ p ∈ params, ∀ tb t b a, HasBuilder tt p tb → p.typ = .type t → tb.finish b = .ok a → ∃ j, JsonOf a.ser j ∧ accepts t j

/-- What is read for parameter `p` after the setter calls `calls`: nothing if its setter is not called; else the JSON value of what it was
given last, written as in the location of the parameter, and that value is `good`. -/
def SetterArrives {B : Type} (good : Json → Prop) (setter : Str) (calls : List (Call B)) (segs : List Seg) (p : SParam)
    (got : List (Bytes × Bytes)) : Prop :=
  ((∀ x, (setter, x) ∉ calls) ∧ got = []) ∨
  ∃ pre x j post, calls = pre ++ (setter, .value (.ok x)) :: post ∧ (∀ y, (setter, y) ∉ post) ∧ JsonOf x.ser j ∧ good j ∧
    WrittenAs segs p j got

end Progenitor.Spec

import Verif.Spec.FormStyle
import Verif.Spec.Argv
import Verif.Spec.Builder

/-!
# Specification: command lines and the schemas of the document
-/

namespace Progenitor.Spec

open Progenitor Progenitor.Params Progenitor.Refs Progenitor.Schema Progenitor.Typed Progenitor.Exec Progenitor.Query Progenitor.Cli
  Progenitor.Builder

/-- What is read from the texts of a command line, from files and by the builders of types are values of the types; those of parameters in
paths and headers are displayed as the texts of primitive values. -/
structure ReadersTyped {B : Type} (ps : Parsers) (tt : TypeTable B) (accepts : Params.TypeId → Json → Prop) (params : List Param) : Prop where
  words : ∀ t s a, Parses ps t s a → ∃ j, JsonOf a.ser j ∧ accepts t j
  shown : ∀ p ∈ params, (p.kind = .path ∨ ∃ b, p.kind = .header b) → ∀ t s a j, p.typ = .type t → Parses ps t s a → JsonOf a.ser j →
    Primitive j a.display
  files : ∀ t s a, ps.fromJson t s = some a → ∃ j, JsonOf a.ser j ∧ accepts t j
  built : ∀ p ∈ params, ∀ tb t b a, HasBuilder tt p tb → p.typ = .type t → tb.finish b = .ok a → ∃ j, JsonOf a.ser j ∧ accepts t j

/-- Serialization writes the JSON value. -/
def WritesJson (parse : Bytes → Option Json) (toJson : Ser → Except Unit Bytes) : Prop :=
  ∀ x j b, JsonOf x j → toJson x = .ok b → parse b = some j

/-- What is read for parameter `p` when `l` are the arguments on the command line: nothing if its flag is not among them; else the JSON
value that the text given with the flag stands for, written as in the location of the parameter, and that value is `good`. -/
def FlagArrives (good : Json → Prop) (ps : Parsers) (flag : Str) (l : List (Str × Option Str)) (segs : List Seg) (p : SParam)
    (got : List (Bytes × Bytes)) : Prop :=
  ((∀ s, (flag, some s) ∉ l) ∧ got = []) ∨
  ∃ t s x j, (flag, some s) ∈ l ∧ Parses ps t s x ∧ JsonOf x.ser j ∧ good j ∧ WrittenAs segs p j got

end Progenitor.Spec

import Verif.Spec.Typed
import Verif.Spec.SchemaExact
import Verif.Spec.Reply
import Verif.Spec.Wire

/-!
# Specification: replies and bodies, and the schemas of the document
-/

namespace Progenitor.Spec

open Progenitor Progenitor.Params Progenitor.Refs Progenitor.Resp Progenitor.Names Progenitor.Schema Progenitor.Typed Progenitor.Exec
  Progenitor.Query Progenitor.Client

/-- The operations of a document, with their paths and methods. -/
def schemaRoutes (d : SDocument) : List (Str × Str × SRaw) :=
  d.paths.flatMap fun p => (p.2.getD []).map fun e => (p.1, e.1, e.2)

/-- The response that the document describes for status `s`: that of the code, of the range, or else the default one. -/
inductive DescribedReply (op : SOperation) (s : Nat) : RefOr SContent → Prop
  | listed (e) : e ∈ op.codes → Covers e.1.toStatus s → DescribedReply op s e.2
  | default (r) : op.default = some r → (∀ e ∈ op.codes, ¬ Covers e.1.toStatus s) → DescribedReply op s r

/-- The response has JSON, and `s` is the schema of its first JSON media type. -/
def JsonSchemaOf (comps : Option SSections) (r : RefOr SContent) (s : OSchema) : Prop :=
  ∃ pre m mt post, LeadsTo comps SSections.responses r (pre ++ (m, mt) :: post) ∧ (∀ e ∈ pre, ¬ IsJson e.1) ∧ IsJson m ∧
    mt.schema = some s

/-- Deserialization reads the texts of the JSON values that the type has. -/
def ReadsTypes {P V : Type} (accepts : Params.TypeId → Json → Prop) (parse : Bytes → Option Json)
    (decode : Params.TypeId → Bytes → Except P V) : Prop :=
  ∀ t b, (∃ v, decode t b = .ok v) ↔ ∃ j, parse b = some j ∧ accepts t j

/-- The bytes are JSON that is valid for the schema. -/
def ValidBody (ι : Interp) (parse : Bytes → Option Json) (s : OSchema) (b : Bytes) : Prop := ∃ j, parse b = some j ∧ OValid ι s j

/-- The bytes are JSON that the schema has after conversion. -/
def AcceptedBody (ι : Interp) (parse : Bytes → Option Json) (s : OSchema) (b : Bytes) : Prop := ∃ j, parse b = some j ∧ EValid ι s j

/-- What the caller gets for the bytes `b` with a described status: if the text is `good`, the value that is read, as a success or
as an error response; if not, the error that has the bytes. -/
def ReplyFollows {P V : Type} (good : Prop) (decode : Params.TypeId → Bytes → Except P V) (answer : HttpResponse) (b : Bytes)
    (res : Result P V) : Prop :=
  (IsSuccess answer.status → (good → ∃ t v, decode t b = .ok v ∧ res = .returned (.ok ⟨.value v, answer.status, answer.headers⟩)) ∧
    (¬ good → ∃ p, res = .returned (.error (.invalidResponsePayload b p)))) ∧
  (IsFailure answer.status →
    (good → ∃ t v, decode t b = .ok v ∧ res = .returned (.error (.errorResponse ⟨.value v, answer.status, answer.headers⟩))) ∧
    (¬ good → ∃ p, res = .returned (.error (.invalidResponsePayload b p))))

/-- Serialization writes arguments as JSON values that their types have. -/
def WritesTypes (accepts : Params.TypeId → Json → Prop) (parse : Bytes → Option Json) (toJson : Ser → Except Unit Bytes)
    (ps : List Param) (args : List Value) : Prop :=
  ∀ p v, (p, v) ∈ ps.zip args → ∀ t, p.typ = .type t → ∀ x b, argSer v = some x → toJson x = .ok b →
    ∃ j, parse b = some j ∧ accepts t j

end Progenitor.Spec

import Verif.Spec.TypedReply

/-!
# Specification: answers that keep to the document
-/

namespace Progenitor.Spec

open Progenitor Progenitor.Params Progenitor.Refs Progenitor.Resp Progenitor.Schema Progenitor.Typed Progenitor.Exec Progenitor.Query
  Progenitor.Client

/-- The answer keeps to the document: a response is described for its status and, if that has JSON, the body is as the schema says.
What a body `b` has to be for schema `s` is `good s b`. -/
def KeepsDocument (good : OSchema → Bytes → Prop) (comps : Option SSections) (op : SOperation) (answer : HttpResponse) : Prop :=
  ∃ reply, DescribedReply op answer.status reply ∧ ∀ s, JsonSchemaOf comps reply s → ∃ b, answer.body = .ok b ∧ good s b

/-- The document does not say what a success is: there is no default response, and none is listed for a success status. -/
def SaysNoSuccess (op : SOperation) : Prop := op.default = none ∧ ∀ n, IsSuccess n → ∀ e ∈ op.codes, ¬ Covers e.1.toStatus n

/-- The caller gets the answer: as a success if the status is one, as an error response if it is an error status. -/
def HandedOver {P V : Type} (answer : HttpResponse) (res : Result P V) : Prop :=
  ∃ v, (IsSuccess answer.status ∧ res = .returned (.ok ⟨v, answer.status, answer.headers⟩)) ∨
    (IsFailure answer.status ∧ res = .returned (.error (.errorResponse ⟨v, answer.status, answer.headers⟩)))

/-- The caller gets an error that says what is wrong with the answer: it is not described, its body cannot be read, or its body is
not as the schema says. -/
inductive Surprised {P V : Type} (op : SOperation) (answer : HttpResponse) : Result P V → Prop
  | unexpected : (∀ reply, ¬ DescribedReply op answer.status reply) → Surprised op answer (.returned (.error (.unexpectedResponse answer)))
  | unreadable (reply e) : DescribedReply op answer.status reply → answer.body = .error e →
      Surprised op answer (.returned (.error (.responseBodyError e)))
  | invalid (reply b p) : DescribedReply op answer.status reply → answer.body = .ok b →
      Surprised op answer (.returned (.error (.invalidResponsePayload b p)))

end Progenitor.Spec

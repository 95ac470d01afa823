import Verif.Spec.Accepted
import Verif.Spec.Compiles

/-!
# Specification: what is reported as an error

An operation that is not supported makes the generator fail in one of two ways: it returns an error, or it panics.
-/

namespace Progenitor.Spec

open Progenitor Progenitor.Params

/-- The parameter is one of those that are reported: a cookie, one in an unsupported style, or one without a schema.  (A path parameter
that is not required is a panic.) -/
def ParamError (p : DocParam) : Prop :=
  match p.kind with
  | .path simple => simple = false ∨ (p.required = true ∧ p.hasSchema = false)
  | .query form _ => form = false ∨ p.hasSchema = false
  | .header => p.hasSchema = false
  | .cookie => True

/-- The body is one of those that are reported: it has no schema, an unknown media type, or bytes or text are not described as strings.
(Several media types and encodings are panics.) -/
def BodyError (body : Option (List (Str × BodyMedia))) : Prop :=
  ∃ ct m, body = some [(ct, m)] ∧ (m.schema = none ∨ ∃ s base, m.schema = some s ∧ MediaBase ct base ∧
    (base ∉ ["application/octet-stream", "application/json", "application/x-www-form-urlencoded", "text/plain", "text/x-markdown"].map
        String.toList ∨
     (base = "application/octet-stream".toList ∧ s.binaryString = false) ∨
     ((base = "text/plain".toList ∨ base = "text/x-markdown".toList) ∧ s.plainString = false)))

/-- The first deficiency of the operation is one of those that are reported.  Parameters come first, by name; then the body, the path,
and the responses. -/
inductive OperationError (types : Types) (path method : Str) (d : DocOperation) : Prop
  | param (p) : Counts d p → ParamError p → (∀ q, Counts d q → LexLe q.name p.name → q.name ≠ p.name → ParamSupported q) →
      OperationError types path method d
  | body : (∀ p, Counts d p → ParamSupported p) → BodyError d.body → OperationError types path method d
  | path : (∀ p, Counts d p → ParamSupported p) → BodySupported d.body → ¬ LaxPath path → OperationError types path method d
  | last : (∀ p, Counts d p → ParamSupported p) → BodySupported d.body → LaxPath path →
      (∀ p q, Counts d p → Counts d q → docLocation p.kind = .path → docLocation q.kind = .path → p ≠ q → p.name ∈ braceGroups path) →
      (∀ x, d.default = some x → ∃ k, Carries d.websocket x k) → (∀ e ∈ d.codes, ∃ k, Carries d.websocket e.2 k) →
      (method ∉ MethodNames ∨ (d.websocket = true ∧ Paged types d)) → OperationError types path method d

/-- The operation gets past the first pass over the document, which ends before the code of any method is made. -/
structure PassesFirst (types : Types) (path method : Str) (d : DocOperation) : Prop where
  params : ∀ p, Counts d p → ParamSupported p
  body : BodySupported d.body
  syntactic : LaxPath path
  used : ∀ p q, Counts d p → Counts d q → docLocation p.kind = .path → docLocation q.kind = .path → p ≠ q → p.name ∈ braceGroups path
  default : ∀ x, d.default = some x → ∃ k, Carries d.websocket x k
  codes : ∀ e ∈ d.codes, ∃ k, Carries d.websocket e.2 k
  known : method ∈ MethodNames
  pages : d.websocket = true → ¬ Paged types d

end Progenitor.Spec

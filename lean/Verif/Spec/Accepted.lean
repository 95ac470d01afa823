import Verif.Spec.Doc
import Verif.Spec.Response
import Verif.Spec.Params
import Verif.Spec.Template
import Verif.Model.Builder

/-!
# Specification: the documents a client is generated for

What has to be avoided in a document, operation by operation.
-/

namespace Progenitor.Spec

open Progenitor Progenitor.Params Progenitor.Resp

/-- `p` is the last parameter of its name in the list. -/
def LastNamed (l : List DocParam) (p : DocParam) : Prop :=
  ∃ pre post, l = pre ++ p :: post ∧ ∀ q ∈ post, q.name ≠ p.name

/-- The parameters that are looked at: names decide, locations do not.  A parameter of the operation hides those of the path item
with the same name, and the last one of a name counts. -/
def Counts (d : DocOperation) (p : DocParam) : Prop :=
  LastNamed d.opLevel p ∨ (LastNamed d.pathLevel p ∧ ∀ q ∈ d.opLevel, q.name ≠ p.name)

/-- The parameter is described by a schema and put in the request in a supported way. -/
def ParamSupported (p : DocParam) : Prop :=
  p.hasSchema = true ∧ match p.kind with
    | .path simple => simple = true ∧ p.required = true
    | .query form _ => form = true
    | .header => True
    | .cookie => False

/-- `s` is what the media type says before its parameters. -/
def MediaBase (ct s : Str) : Prop := ';' ∉ s ∧ (ct = s ∨ ∃ x, ct = s ++ ';' :: x)

/-- There is no body, or one of a single supported media type with a fitting schema. -/
def BodySupported (body : Option (List (Str × BodyMedia))) : Prop :=
  body = none ∨ body = some [] ∨ ∃ ct m s base, body = some [(ct, m)] ∧ m.schema = some s ∧ MediaBase ct base ∧
    ((base = "application/octet-stream".toList ∧ s.binaryString = true) ∨
     ((base = "text/plain".toList ∨ base = "text/x-markdown".toList) ∧ s.plainString = true) ∨
     ((base = "application/json".toList ∨ base = "application/x-www-form-urlencoded".toList) ∧ m.encodingEmpty = true))

/-- The names in the path are those of path parameters; if there are several path parameters, all of them are in the path. -/
structure PathSupported (path : Str) (d : DocOperation) : Prop where
  syntactic : LaxPath path
  declared : ∀ n ∈ braceGroups path, ∃ p, Counts d p ∧ p.name = n ∧ docLocation p.kind = .path
  used : ∀ p q, Counts d p → Counts d q → docLocation p.kind = .path → docLocation q.kind = .path → p ≠ q →
    p.name ∈ braceGroups path

/-- The documented responses, and those that are added: bytes for any 2xx status if the document has no response for one, and the
connection of a websocket. -/
inductive Listed (d : DocOperation) : Status → Resp.Kind → Prop
  | default (x k) : d.default = some x → Carries d.websocket x k → Listed d .default k
  | code (e k) : e ∈ d.codes → Carries d.websocket e.2 k → Listed d e.1.toStatus k
  | noSuccess : d.default = none → (∀ e ∈ d.codes, ∀ s, 200 ≤ s → s < 300 → ¬ Covers e.1.toStatus s) → Listed d (.range 2) .raw
  | websocket : d.websocket = true → Listed d (.code 101) .upgrade

/-- The default response is not looked at for success statuses: 2XX is documented, no status from 201 to 299 is, and 200 is not
documented after 2XX. -/
def DefaultHidden (codes : List (DocStatus × DocResponse)) : Prop :=
  (∀ e ∈ codes, ∀ c, e.1 = .code c → ¬ (200 < c ∧ c < 300)) ∧
  ∃ pre x post, codes = pre ++ (.range 2, x) :: post ∧ ∀ e ∈ post, e.1 ≠ .code 200

/-- A response with this status is one of the successes. -/
def AsSuccess (d : DocOperation) : Status → Prop
  | .code c => c = 101 ∨ (200 ≤ c ∧ c < 300)
  | .range r => r = 2
  | .default => ¬ DefaultHidden d.codes

/-- A response with this status is one of the errors. -/
def AsError : Status → Prop
  | .code c => 400 ≤ c ∧ c < 600
  | .range r => r = 4 ∨ r = 5
  | .default => True

/-- Every documented response has a body that is understood, the successes have the same kind of body, the errors too. -/
structure ResponsesSupported (d : DocOperation) : Prop where
  default : ∀ x, d.default = some x → ∃ k, Carries d.websocket x k
  codes : ∀ e ∈ d.codes, ∃ k, Carries d.websocket e.2 k
  successes : ∀ s k s' k', Listed d s k → Listed d s' k' → AsSuccess d s → AsSuccess d s' → k = k'
  errors : ∀ s k s' k', Listed d s k → Listed d s' k' → AsError s → AsError s' → k = k'
  noUpgrade : ∀ s, Listed d s .upgrade → AsError s → s = .default

/-- The methods of HTTP that a path item can have. -/
def MethodNames : List Str :=
  ["get", "put", "post", "delete", "options", "head", "patch", "trace"].map String.toList

/-- A client can be generated for the operation. -/
structure OperationSupported (path method : Str) (d : DocOperation) : Prop where
  params : ∀ p, Counts d p → ParamSupported p
  body : BodySupported d.body
  path : PathSupported path d
  responses : ResponsesSupported d
  method : method ∈ MethodNames

/-- The type of the argument for the parameter: that inside of `Option` for query parameters. -/
def argType (p : DocParam) : Params.TypeId :=
  match p.kind with
  | .query _ (some t) => t
  | _ => p.ty

/-- The argument for the parameter has to be given. -/
def ArgRequired (p : DocParam) : Prop :=
  match p.kind with
  | .query _ (some _) => False
  | _ => p.required = true

/-- A builder can be generated for the operation: only types of bodies are structs, or those of required parameters whose name becomes
`body`. -/
def BuilderSupported {B : Type} (u : Names.Unicode) (tt : Builder.TypeTable B) (d : DocOperation) : Prop :=
  ∀ p, Counts d p → ∀ b, tt.builder (argType p) = some b →
    ArgRequired p ∧ Names.sanitize u .snake p.name = "body".toList

end Progenitor.Spec

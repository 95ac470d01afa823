import Verif.Spec.Accepted

/-!
# Specification: the documents whose client compiles

What has to be avoided in a document beyond what the generator rejects.
-/

namespace Progenitor.Spec

open Progenitor Progenitor.Params Progenitor.Names Progenitor.Doc

/-- The method for the operation compiles.  `san` makes Rust names. -/
structure MethodSound (san : Str → Str) (route method : Str) (d : DocOperation) : Prop where
  /-- No brace outside of parameters: the path becomes a format string. -/
  path : WellFormedPath route
  /-- `reqwest::Client` has no functions for these methods. -/
  method : method ≠ "options".toList ∧ method ≠ "trace".toList
  /-- Different parameters have different names in Rust. -/
  distinct : ∀ p q, Counts d p → Counts d q → san p.name = san q.name → p.name = q.name
  /-- The argument for the body is called `body`. -/
  body : ∀ e, d.body = some [e] → ∀ p, Counts d p → san p.name ≠ "body".toList
  /-- `header_map` is a local variable; only the URL is evaluated before it. -/
  headerMap : ∀ p, Counts d p → docLocation p.kind ≠ .path → san p.name ≠ "header_map".toList
  /-- `encode_path` is the function that arguments in the path are passed to. -/
  encode : braceGroups route ≠ [] → ∀ p, Counts d p → san p.name ≠ "encode_path".toList

/-- The body is a struct that is encoded as JSON or as a form. -/
def BodyStruct {B : Type} (tt : Builder.TypeTable B) (d : DocOperation) : Prop :=
  ∃ ct m s base b, d.body = some [(ct, m)] ∧ m.schema = some s ∧ MediaBase ct base ∧
    (base = "application/json".toList ∨ base = "application/x-www-form-urlencoded".toList) ∧ tt.builder s.ty = some b

/-- The builder for the operation compiles: no setter has the name of another function of the builder, and no parameter is a
struct. -/
structure BuilderSound {B : Type} (san : Str → Str) (tt : Builder.TypeTable B) (paged : Prop) (d : DocOperation) : Prop where
  new : ∀ p, Counts d p → san p.name ≠ "new".toList
  send : ∀ p, Counts d p → san p.name ≠ "send".toList
  stream : paged → ∀ p, Counts d p → san p.name ≠ "stream".toList
  /-- The stream makes copies of the builder. -/
  clone : paged → ∀ p, Counts d p → san p.name ≠ "clone".toList
  map : BodyStruct tt d → ∀ p, Counts d p → san p.name ≠ "body_map".toList
  plain : ∀ p, Counts d p → tt.builder (argType p) = none

/-- The token for the next page is a string. -/
def TokenSound (types : Types) (d : DocOperation) : Prop :=
  ∀ p, Counts d p → p.name = "page_token".toList → types (argType p) = some .string

/-- No parameter that is needed for later pages has the name of a local variable of the stream. -/
def CaptureSound (san : Str → Str) (d : DocOperation) : Prop :=
  ∀ p, Counts d p → docLocation p.kind ≠ .query →
    san p.name ≠ "state".toList ∧ san p.name ≠ "first".toList ∧ san p.name ≠ "page".toList

/-! ## Pages -/

/-- A page: exactly `next_page`, an optional string, and `items`, an array. -/
def PageType (types : Types) (t : Params.TypeId) : Prop :=
  ∃ props np o it item, types t = some (.struct props) ∧
    props.Perm [("next_page".toList, np), ("items".toList, it)] ∧
    types np = some (.option o) ∧ types o = some .string ∧ types it = some (.vec item)

/-- A documented success with a JSON body of type `t`. -/
def TypedOk (d : DocOperation) (e : Resp.DocStatus × Resp.DocResponse) (t : Params.TypeId) : Prop :=
  Carries d.websocket e.2 (.type t) ∧ ((∃ c, e.1 = .code c ∧ 200 ≤ c ∧ c ≤ 299) ∨ e.1 = .range 2)

/-- The operation provides a list in pages. -/
structure Paged (types : Types) (d : DocOperation) : Prop where
  extension : d.pagination ≠ none
  token : ∃ p, Counts d p ∧ p.name = "page_token".toList ∧ docLocation p.kind = .query
  limit : ∃ p, Counts d p ∧ p.name = "limit".toList ∧ docLocation p.kind = .query
  optional : ∀ p, Counts d p → docLocation p.kind = .query → ¬ ArgRequired p
  body : ∀ ct m, d.body = some [(ct, m)] → ∃ base, MediaBase ct base ∧
    (base = "application/json".toList ∨ base = "application/x-www-form-urlencoded".toList)
  page : ∃ t pre e post, PageType types t ∧ d.codes = pre ++ e :: post ∧ TypedOk d e t ∧
    ∀ e' ∈ pre ++ post, ∀ t', ¬ TypedOk d e' t'

/-! ## Names -/

/-- The method for an operation. -/
def methodName (u : Unicode) (o : RawOperation) : Str := sanitize u .snake (o.id.getD [])

/-- The struct for an operation. -/
def builderName (u : Unicode) (o : RawOperation) : Str := sanitize u .pascal (methodName u o)

/-- Other functions of the client; `inner` is for clients with inner state. -/
def ClientName (inner : Bool) (s : Str) : Prop :=
  (∃ x ∈ ["new", "new_with_client", "baseurl", "client", "api_version"], s = x.toList) ∨ (inner = true ∧ s = "inner".toList)

/-- No two functions of the client have the same name. -/
structure PositionalNames (u : Unicode) (types : Types) (inner : Bool) (d : Document) : Prop where
  own : ∀ o ∈ opsOf d, ¬ ClientName inner (methodName u o)
  distinct : ∀ o ∈ opsOf d, ∀ o' ∈ opsOf d, methodName u o = methodName u o' → o.id = o'.id
  stream : ∀ o ∈ opsOf d, ∀ o' ∈ opsOf d, Paged types o.op → methodName u o' ≠ methodName u o ++ "_stream".toList

/-- Names from the standard library in the code of a builder. -/
inductive Mentions {B : Type} (types : Types) (tt : Builder.TypeTable B) (d : DocOperation) : String → Prop
  | result : Mentions types tt d "Result"
  | param (p) : Counts d p → Mentions types tt d "String"
  | body (e) : d.body = some [e] → Mentions types tt d "String"
  | optional (p) : Counts d p → ¬ ArgRequired p → Mentions types tt d "Option"
  | struct : BodyStruct tt d → Mentions types tt d "From"
  | page : Paged types d → Mentions types tt d "Unpin"

/-- Names do not clash in the builder style. -/
structure BuilderNames {B : Type} (u : Unicode) (types : Types) (tt : Builder.TypeTable B) (inner : Bool) (t : TagStyle) (d : Document) :
    Prop where
  /-- Operations with tags may be in traits. -/
  own : ∀ o ∈ opsOf d, t = .merged ∨ o.op.tags = [] → ¬ ClientName inner (methodName u o)
  distinct : ∀ o ∈ opsOf d, ∀ o' ∈ opsOf d, builderName u o = builderName u o' → o.id = o'.id
  imports : ∀ o ∈ opsOf d, ∀ x ∈ ["types", "ByteStream", "Error", "RequestBuilderExt", "ResponseValue"], builderName u o ≠ x.toList
  hidden : ∀ o ∈ opsOf d, ∀ o' ∈ opsOf d, ∀ x, Mentions types tt o'.op x → builderName u o ≠ x.toList
  /-- A trait does not have the same method twice. -/
  tags : t = .separate → ∀ o ∈ opsOf d, o.op.tags.Nodup
  traits : t = .separate → ∀ o ∈ opsOf d, ∀ o' ∈ opsOf d, ∀ a ∈ o.op.tags, ∀ b ∈ o'.op.tags,
    sanitize u .pascal a = sanitize u .pascal b → a = b

end Progenitor.Spec

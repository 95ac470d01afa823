import Verif.Model.Typed
import Verif.Spec.Accepted
import Verif.Spec.Misc
import Verif.Spec.Query
import Verif.Spec.Schema

/-!
# Specification: the types that a document asks for

Independent of how typify makes types of schemas.
-/

namespace Progenitor.Spec

open Progenitor Progenitor.Params Progenitor.Refs Progenitor.Resp Progenitor.Names Progenitor.Schema Progenitor.Typed

/-- A JSON schema and the name proposed for its type, and the type. -/
abbrev AskedType := (JSchema × Str) × Params.TypeId

/-- The library is asked for these types, one after the other. -/
inductive Calls {σ : Type} (lib : Library σ) : σ → List AskedType → σ → Prop
  | nil (s) : Calls lib s [] s
  | cons {s j h t s' l s''} : lib.add s j h = .ok (t, s') → Calls lib s' l s'' → Calls lib s (((j, h), t) :: l) s''

/-- All that was known about types still holds. -/
def Knows (a b : Types) : Prop := ∀ t i, a t = some i → b t = some i

/-- The types that a type mentions. -/
def mentions : TypeInfo → List Params.TypeId
  | .struct props => props.map Prod.snd
  | .option t => [t]
  | .vec t => [t]
  | .string => []
  | .other => []

/-- A library of types: types do not change once they are there, and a type that is there mentions only types that are there. -/
structure LawfulTypes {σ : Type} (lib : Library σ) : Prop where
  grows : ∀ s j h t s', lib.add s j h = .ok (t, s') → Knows (lib.info s) (lib.info s')
  there : ∀ s j h t s', lib.add s j h = .ok (t, s') → lib.info s' t ≠ none
  closed : ∀ s t i, lib.info s t = some i → ∀ x ∈ mentions i, lib.info s x ≠ none

section

variable (comps : Option SSections) (u : Unicode) (types : Types) (id : Str)

/-- Following references to a section of the components leads to `x`. -/
def LeadsTo {T : Type} (section' : SSections → List (Str × RefOr T)) (a : RefOr T) (x : T) : Prop :=
  match comps with
  | none => a = .item x
  | some c => Denotes (section' c) a x

/-- The library is asked for the type of the schema `s`, under the name for `what` of the operation. -/
def Wants (what : Str) (s : OSchema) (q : JSchema × Str) : Prop :=
  conv s = .ok q.1 ∧ q.2 = sanitize u .pascal (id ++ "-".toList ++ what)

/-- Where a parameter is. -/
def skindLocation : SKind → Location
  | .path _ => .path
  | .query _ => .query
  | .header => .header
  | .cookie => .cookie

inductive SameKind : SKind → DocKind → Prop
  | path (b) : SameKind (.path b) (.path b)
  | query (b o) : SameKind (.query b) (.query b o)
  | header : SameKind .header .header
  | cookie : SameKind .cookie .cookie

/-- The same parameter, up to its type. -/
def SameButType (p : SParam) (q : DocParam) : Prop :=
  q.name = p.name ∧ SameKind p.kind q.kind ∧ q.required = p.required ∧ q.hasSchema = p.schema.isSome

/-- The parameter has the type `t`; a query parameter with an optional type is known to have one. -/
def GivenType (q : DocParam) (t : Params.TypeId) : Prop :=
  q.ty = t ∧ ∀ b o, q.kind = .query b o → ∀ inner, o = some inner ↔ types t = some (.option inner)

/-- `p`, after `pre` and before `post`, is the last parameter of its name. -/
def LastAt (l pre : List SParam) (p : SParam) (post : List SParam) : Prop :=
  l = pre ++ p :: post ∧ ∀ q ∈ post, q.name ≠ p.name

/-- Parameters: for each one that counts, in the order of their names, a type is asked for, and the parameter gets it. -/
def ParamsTyped (l : List SParam) (l' : List DocParam) (asked : List AskedType) : Prop :=
  ∃ ps : List SParam, ps.Pairwise (fun p q => strCmp p.name q.name = .lt) ∧
    (∀ p, p ∈ ps ↔ ∃ pre post, LastAt l pre p post) ∧
    Forall₂ (fun p a => ∃ s, p.schema = some s ∧ Wants u id p.name s a.1 ∧
      ∀ pre post, LastAt l pre p post → ∃ q, l'[pre.length]? = some q ∧ GivenType types q a.2) ps asked

/-- The schema of a string of which only the format is given. -/
def OnlyFormat (f : Format StringFormat) (s : OSchema) : Prop :=
  ∃ d t, s = .string d t ∧ d.nullable = false ∧ d.discriminator = false ∧ d.default = none ∧
    t = ⟨f, none, [], none, none⟩

/-- The request body. -/
inductive BodyTyped : Option (RefOr SContent) → Option (List (Str × BodyMedia)) → List AskedType → Prop
  | none : BodyTyped none none []
  | empty {r} : LeadsTo comps SSections.bodies r [] → BodyTyped (some r) (some []) []
  | octets {r ct m s x p t} : LeadsTo comps SSections.bodies r [(ct, m)] → m.schema = some s →
      MediaBase ct "application/octet-stream".toList → LeadsTo comps schemaSection (refOr s) x → OnlyFormat (.item .binary) x →
      BodyTyped (some r) (some [(ct, ⟨some ⟨true, p, t⟩, m.encodingEmpty⟩)]) []
  | text {r ct m s x b t base} : LeadsTo comps SSections.bodies r [(ct, m)] → m.schema = some s → MediaBase ct base →
      base = "text/plain".toList ∨ base = "text/x-markdown".toList →
      LeadsTo comps schemaSection (refOr s) x → OnlyFormat .empty x →
      BodyTyped (some r) (some [(ct, ⟨some ⟨b, true, t⟩, m.encodingEmpty⟩)]) []
  | typed {r ct m s b p t q base} : LeadsTo comps SSections.bodies r [(ct, m)] → m.schema = some s → MediaBase ct base →
      base = "application/json".toList ∨ base = "application/x-www-form-urlencoded".toList → Wants u id "body".toList s q →
      BodyTyped (some r) (some [(ct, ⟨some ⟨b, p, t⟩, m.encodingEmpty⟩)]) [(q, t)]

/-- The same media type, up to the type of its schema. -/
def SameMedia (e : Str × SMedia) (f : Str × Media) : Prop :=
  f.1 = e.1 ∧ f.2.encodingEmpty = e.2.encodingEmpty ∧ f.2.schema.isSome = e.2.schema.isSome

/-- A response: a type is asked for if one of the media types is JSON, for the first such. -/
inductive ResponseTyped : RefOr SContent → DocResponse → List AskedType → Prop
  | json {r pre pre' m mt post post' s q t} : LeadsTo comps SSections.responses r (pre ++ (m, mt) :: post) →
      (∀ e ∈ pre, ¬ IsJson e.1) → IsJson m → mt.schema = some s → Wants u id "response".toList s q →
      Forall₂ SameMedia pre pre' → Forall₂ SameMedia post post' →
      ResponseTyped r (pre' ++ (m, ⟨mt.encodingEmpty, some t⟩) :: post') [(q, t)]
  | other {r c c'} : LeadsTo comps SSections.responses r c → (∀ e ∈ c, ¬ IsJson e.1) → Forall₂ SameMedia c c' →
      ResponseTyped r c' []

/-- Responses, one after the other. -/
inductive ResponsesTyped : List (RefOr SContent) → List DocResponse → List AskedType → Prop
  | nil : ResponsesTyped [] [] []
  | cons {r r' l rs rs' l'} : ResponseTyped comps u id r r' l → ResponsesTyped rs rs' l' →
      ResponsesTyped (r :: rs) (r' :: rs') (l ++ l')

/-- The operation `d'` is `d` with the types that are asked for: first those of parameters, then that of the body, then those of
responses. -/
def OperationTyped (d : SOperation) (d' : DocOperation) (asked : List AskedType) : Prop :=
  d'.tags = d.tags ∧ d'.websocket = d.websocket ∧ d'.pagination = d.pagination ∧
  ∃ pl ol l₁ l₂ l₃, asked = l₁ ++ l₂ ++ l₃ ∧
    Forall₂ (LeadsTo comps SSections.parameters) d.pathLevel pl ∧ Forall₂ (LeadsTo comps SSections.parameters) d.opLevel ol ∧
    Forall₂ SameButType pl d'.pathLevel ∧ Forall₂ SameButType ol d'.opLevel ∧
    ParamsTyped u types id (pl ++ ol) (d'.pathLevel ++ d'.opLevel) l₁ ∧
    BodyTyped comps u id d.body d'.body l₂ ∧
    d'.codes.map Prod.fst = d.codes.map Prod.fst ∧ d'.default.isSome = d.default.isSome ∧
    ResponsesTyped comps u id (d.default.toList ++ d.codes.map Prod.snd) (d'.default.toList ++ d'.codes.map Prod.snd) l₃

/-- Operations of a path. -/
inductive OpsTyped : List (Str × SRaw) → List (Str × Doc.RawOperation) → List AskedType → Prop
  | nil : OpsTyped [] [] []
  | cons {m id op op' l rest rest' l'} : OperationTyped comps u types id op op' l → OpsTyped rest rest' l' →
      OpsTyped ((m, ⟨some id, op⟩) :: rest) ((m, ⟨some id, op'⟩) :: rest') (l ++ l')

/-- Paths of a document. -/
inductive PathsTyped : List (Str × Option (List (Str × SRaw))) → List (Str × Option (List (Str × Doc.RawOperation))) →
    List AskedType → Prop
  | nil : PathsTyped [] [] []
  | cons {path ops ops' l rest rest' l'} : OpsTyped comps u types ops ops' l → PathsTyped rest rest' l' →
      PathsTyped ((path, some ops) :: rest) ((path, some ops') :: rest') (l ++ l')

end

/-- The schemas of the components, converted. -/
def ConvertedComponents (d : SDocument) (js : List (Str × JSchema)) : Prop :=
  Forall₂ (fun e f => f.1 = e.1 ∧ conv e.2 = .ok f.2) ((d.components.map SSections.schemas).getD []) js

/-- The document `d'` is `d` with the types that are asked for. -/
def DocumentTyped (u : Unicode) (types : Types) (d : SDocument) (d' : Doc.Document) (asked : List AskedType) : Prop :=
  d'.version = d.version ∧ PathsTyped d.components u types d.paths d'.paths asked

/-- The type is optional. -/
def isOptional (types : Types) (t : Params.TypeId) : Bool :=
  match types t with
  | some (.option _) => true
  | _ => false

/-- The type of the argument for a parameter of type `t`. -/
def argumentType (types : Types) (k : SKind) (t : Params.TypeId) : Params.TypeId :=
  match k, types t with
  | .query _, some (.option inner) => inner
  | _, _ => t

/-- The values of a type are those that are valid for the JSON schema it was made for, and this does not change. -/
structure RightTypes {σ : Type} (lib : Library σ) (ι : Interp) (accepts : σ → Params.TypeId → Json → Prop) : Prop where
  lawful : LawfulTypes lib
  right : ∀ s j h t s', lib.add s j h = .ok (t, s') → ∀ v, accepts s' t v ↔ JValid ι j v
  stable : ∀ s j h t s', lib.add s j h = .ok (t, s') → ∀ x v, lib.info s x ≠ none → (accepts s' x v ↔ accepts s x v)

end Progenitor.Spec

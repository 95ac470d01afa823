import Verif.Spec.Url
import Verif.Spec.Misc
import Verif.Spec.Query
import Verif.Spec.Doc
import Verif.Model.RefDoc
import Verif.Model.Encode

/-!
# What a reference means

RFC 6901 (JSON pointer as URI fragment), OpenAPI 3.0.3 "Reference Object".
-/

namespace Progenitor.Spec

open Progenitor Progenitor.Refs Progenitor.RefDoc Progenitor.Resp Progenitor.Doc

/-- RFC 6901 §4: the token stands for the key: `~1` is `/` and `~0` is `~`. -/
inductive Token : Str → Str → Prop
  | nil : Token [] []
  | char {c t k} : c ≠ '~' → c ≠ '/' → Token t k → Token (c :: t) (c :: k)
  | tilde {t k} : Token t k → Token ('~' :: '0' :: t) ('~' :: k)
  | slash {t k} : Token t k → Token ('~' :: '1' :: t) ('/' :: k)

/-- RFC 6901 §3: a pointer is a sequence of tokens, each after a `/`. -/
inductive Pointer : Str → List Str → Prop
  | nil : Pointer [] []
  | cons {t k p ks} : Token t k → Pointer p ks → Pointer ('/' :: (t ++ p)) (k :: ks)

/-- The reference names component `k` of a section of this document: after `#` a percent-encoded pointer
(RFC 6901 §6). -/
def NamesComponent (section_ r k : Str) : Prop :=
  ∃ f p, r = '#' :: f ∧ percentDecode f = utf8 p ∧ Pointer p ["components".toList, section_, k]

/-- What an item or reference stands for, in a document with these components. -/
inductive StandsFor {T : Type} (section_ : Str) (m : List (Str × RefOr T)) : RefOr T → T → Prop
  | item (x) : StandsFor section_ m (.item x) x
  | ref {r k a x} : NamesComponent section_ r k → Defined m k a → StandsFor section_ m a x → StandsFor section_ m (.ref r) x

/-- The components of a document; without `components` there are none. -/
def sectionsOf (c : Option Sections) : Sections := c.getD ⟨[], [], [], []⟩

/-- The media type with what its schema stands for. -/
def MediaStands (c : Option Sections) (m : RefMedia) (m' : BodyMedia) : Prop :=
  m'.encodingEmpty = m.encodingEmpty ∧
  match m.schema, m'.schema with
  | none, none => True
  | some s, some s' => s'.ty = s.2 ∧ StandsFor "schemas".toList (sectionsOf c).schemas s.1 ⟨s'.binaryString, s'.plainString⟩
  | _, _ => False

/-- The optional thing with what it stands for. -/
inductive Option₂ {α β : Type} (R : α → β → Prop) : Option α → Option β → Prop
  | none : Option₂ R .none .none
  | some {a b} : R a b → Option₂ R (.some a) (.some b)

/-- The request body with what it stands for. -/
def BodyStands (c : Option Sections) (b : RefOr RefContent) (b' : List (Str × BodyMedia)) : Prop :=
  ∃ x, StandsFor "requestBodies".toList (sectionsOf c).bodies b x ∧
    Forall₂ (fun (e : Str × RefMedia) (e' : Str × BodyMedia) => e'.1 = e.1 ∧ MediaStands c e.2 e'.2) x b'

/-- The operation with every reference replaced by what it stands for. -/
structure OpStands (c : Option Sections) (d : RefOperation) (d' : DocOperation) : Prop where
  operationId : d'.operationId = d.operationId
  tags : d'.tags = d.tags
  websocket : d'.websocket = d.websocket
  pagination : d'.pagination = d.pagination
  pathLevel : Forall₂ (StandsFor "parameters".toList (sectionsOf c).parameters) d.pathLevel d'.pathLevel
  opLevel : Forall₂ (StandsFor "parameters".toList (sectionsOf c).parameters) d.opLevel d'.opLevel
  body : Option₂ (BodyStands c) d.body d'.body
  default : Option₂ (StandsFor "responses".toList (sectionsOf c).responses) d.default d'.default
  codes : Forall₂ (fun (e : DocStatus × RefOr DocResponse) (e' : DocStatus × DocResponse) =>
    e'.1 = e.1 ∧ StandsFor "responses".toList (sectionsOf c).responses e.2 e'.2) d.codes d'.codes

/-- The document with every reference replaced by what it stands for. -/
def DocStands (d : RefDocument) (d' : Document) : Prop :=
  d'.version = d.version ∧
  Forall₂ (fun (p : Str × Option (List (Str × RefRaw))) (p' : Str × Option (List (Str × RawOperation))) => p'.1 = p.1 ∧
    Option₂ (Forall₂ fun (e : Str × RefRaw) (e' : Str × RawOperation) => e'.1 = e.1 ∧ e'.2.id = e.2.id ∧
      OpStands d.components e.2.op e'.2.op) p.2 p'.2) d.paths d'.paths

/-- Written without escapes. -/
def Unescaped (r : Str) : Prop := '%' ∉ r ∧ '~' ∉ r

/-- The reference itself, if it is one. -/
def refOf {T : Type} : RefOr T → List Str
  | .item _ => []
  | .ref r => [r]

/-- The references in the content of a body. -/
def contentRefs (x : RefContent) : List Str := x.flatMap fun e => e.2.schema.toList.flatMap fun s => refOf s.1

/-- The references in a body. -/
def bodyRefs : RefOr RefContent → List Str
  | .item x => contentRefs x
  | .ref r => [r]

/-- The references in an operation. -/
def opRefs (d : RefOperation) : List Str :=
  d.pathLevel.flatMap refOf ++ d.opLevel.flatMap refOf ++ d.body.toList.flatMap bodyRefs ++
    d.default.toList.flatMap refOf ++ d.codes.flatMap fun e => refOf e.2

/-- The references in the components. -/
def sectionRefs (c : Sections) : List Str :=
  c.parameters.flatMap (fun e => refOf e.2) ++ c.bodies.flatMap (fun e => bodyRefs e.2) ++
    c.responses.flatMap (fun e => refOf e.2) ++ c.schemas.flatMap fun e => refOf e.2

/-- The references of a document. -/
def docRefs (d : RefDocument) : List Str :=
  sectionRefs (sectionsOf d.components) ++ (RefDoc.operations d).flatMap fun o => opRefs o.2.2.op

/-- The references to schemas in a body. -/
def bodySchemas : RefOr RefContent → List Str
  | .item x => contentRefs x
  | .ref _ => []

/-- Every reference to a parameter, body or response names a component of its kind, and every schema of a body stands for something
(that is for typify, which makes types of them). -/
structure OwnSections (d : RefDocument) : Prop where
  parameters : ∀ r ∈ (sectionsOf d.components).parameters.flatMap (fun e => refOf e.2) ++
    (RefDoc.operations d).flatMap (fun o => o.2.2.op.pathLevel.flatMap refOf ++ o.2.2.op.opLevel.flatMap refOf),
    ∃ k, NamesComponent "parameters".toList r k
  bodies : ∀ r ∈ (sectionsOf d.components).bodies.flatMap (fun e => refOf e.2) ++
    (RefDoc.operations d).flatMap (fun o => o.2.2.op.body.toList.flatMap refOf),
    ∃ k, NamesComponent "requestBodies".toList r k
  responses : ∀ r ∈ (sectionsOf d.components).responses.flatMap (fun e => refOf e.2) ++
    (RefDoc.operations d).flatMap (fun o => o.2.2.op.default.toList.flatMap refOf ++ o.2.2.op.codes.flatMap fun e => refOf e.2),
    ∃ k, NamesComponent "responses".toList r k
  schemas : ∀ r ∈ (sectionsOf d.components).bodies.flatMap (fun e => bodySchemas e.2) ++
    (RefDoc.operations d).flatMap (fun o => o.2.2.op.body.toList.flatMap bodySchemas),
    ∃ f, StandsFor "schemas".toList (sectionsOf d.components).schemas (.ref r) f

end Progenitor.Spec

import Verif.Spec.Wire
import Verif.Spec.Doc

/-!
# Which operations of a document a server takes a request for
-/

namespace Progenitor.Spec

open Progenitor Progenitor.Params Progenitor.Exec

/-- A segment of a template, filled in with these arguments. -/
inductive Filled (as : List (Param × Value)) : Seg → Bytes → Prop
  | lit (t) : Filled as (.lit t) (percentDecode t)
  | arg (n pre post p v t) : (p, v) ∈ as → p.kind = .path → p.apiName = n → argText v = some t →
      Filled as (.par n pre post) (percentDecode pre ++ utf8 t ++ percentDecode post)

/-- A segment of a template that, with these arguments, is taken for a segment of another template:
filled in, it fits. -/
def TakenFor (as : List (Param × Value)) (s s' : Seg) : Prop := ∃ x, Filled as s x ∧ SegFits s' x

/-- The operations of a document that, with these arguments, an operation can be taken for. -/
def Spelled (as : List (Param × Value)) (l : List Seg) (o o' : Str × Str × Doc.RawOperation) : Prop :=
  o'.2.1 = o.2.1 ∧ ∃ l', o'.1 = segsText l' ∧ SegsOk l' ∧ Forall₂ (TakenFor as) l l'

/-- Two segments of templates that can be filled in to be equal: the same literals, a literal that fits the other segment,
or parameters such that of the texts before them one starts with the other and of the texts after them one ends with the other. -/
def SegMeets : Seg → Seg → Prop
  | .lit t, s => SegFits s (percentDecode t)
  | s, .lit t => SegFits s (percentDecode t)
  | .par _ pre post, .par _ pre' post' => (percentDecode pre <+: percentDecode pre' ∨ percentDecode pre' <+: percentDecode pre) ∧
      (percentDecode post <:+ percentDecode post' ∨ percentDecode post' <:+ percentDecode post)

/-- A server takes a request with this method and these segments for operation `o`. -/
def Serves (method : Str) (segs : List Bytes) (o : Str × Str × Doc.RawOperation) : Prop :=
  o.2.1 = method ∧ ∃ l, o.1 = segsText l ∧ SegsOk l ∧ Routed l segs

/-- No two operations of a list can be meant by the same request. -/
def Unambiguous (os : List (Str × Str × Doc.RawOperation)) : Prop :=
  os.Pairwise fun o o' => ∀ method segs, ¬ (Serves method segs o ∧ Serves method segs o')

/-- The template has no parameters. -/
def Concrete (l : List Seg) : Prop := ∀ s ∈ l, ∃ t, s = .lit t

/-- Among the operations that a request can be taken for, OpenAPI prefers those without parameters
in the path. -/
def Preferred (os : List (Str × Str × Doc.RawOperation)) (method : Str) (segs : List Bytes) (o : Str × Str × Doc.RawOperation) : Prop :=
  o ∈ os ∧ Serves method segs o ∧
    ((∃ o' ∈ os, Serves method segs o' ∧ ∃ l, o'.1 = segsText l ∧ SegsOk l ∧ Concrete l) → ∃ l, o.1 = segsText l ∧ SegsOk l ∧ Concrete l)

end Progenitor.Spec

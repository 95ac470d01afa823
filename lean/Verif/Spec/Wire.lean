import Verif.Spec.Exec
import Verif.Spec.Params

/-!
# What a server that implements the document reads from a request
-/

namespace Progenitor.Spec

open Progenitor Progenitor.Params Progenitor.Query Progenitor.Exec

/-- The pairs of the query that belong to a parameter which occurs there under the keys `ks`. -/
def readQuery (r : Request) (ks : List Str) : List (Bytes × Bytes) :=
  (formDecode (r.query.getD [])).filter fun e => e.1 ∈ ks.map utf8

/-- The values of header parameter `n`; names are compared without regard to case. -/
def readHeader (r : Request) (n : Str) : List Bytes := values r.headers (lowerName n)

/-- The segment has parameter `n`. -/
def Seg.holds (n : Str) : Seg → Bool
  | .lit _ => false
  | .par m _ _ => m == n

/-- What is between the text before and the text after a parameter. -/
def between (pre post : Str) (x : Bytes) : Bytes :=
  (x.drop (percentDecode pre).length).take (x.length - ((percentDecode pre).length + (percentDecode post).length))

/-- The value of the parameter of a segment. -/
def Seg.value : Seg → Bytes → Bytes
  | .lit _, x => x
  | .par _ pre post, x => between pre post x

/-- The values of path parameter `n`, given the decoded segments that follow the base path: those
at the positions of `{n}` in the template. -/
def readPath (l : List Seg) (segs : List Bytes) (n : Str) : List Bytes :=
  ((l.zip segs).filter fun e => e.1.holds n).map fun e => e.1.value e.2

/-- A segment that fits a segment of a template: the same literal, or anything between the text
before and the text after the parameter. -/
def SegFits : Seg → Bytes → Prop
  | .lit t, x => x = percentDecode t
  | .par _ pre post, x => ∃ y, x = percentDecode pre ++ y ++ percentDecode post

/-- A server that serves template `l` accepts these segments: as many as there are in the
template, each fitting it. -/
def Routed (l : List Seg) (segs : List Bytes) : Prop := Forall₂ SegFits l segs

/-- The decoded path segments of the request, without those of the base URL. -/
def tailSegments (auth : Str) (base : List Str) (r : Request) : List Bytes :=
  ((parseUrlTail (r.url.drop auth.length)).segments.map percentDecode).drop base.length

/-- What a server reads for a parameter of the document, wherever it is: values with the names under which they are found.
`keys` are the keys of query parameters: only its name for a scalar or an array, those of its fields for an object. -/
def reads (keys : Str → List Str) (auth : Str) (base : List Str) (l : List Seg) (r : Request) (p : DocParam) : List (Bytes × Bytes) :=
  match p.kind with
  | .path _ => (readPath l (tailSegments auth base r) p.name).map fun x => (utf8 p.name, x)
  | .query _ _ => readQuery r (keys p.name)
  | .header => (readHeader r p.name).map fun x => (utf8 p.name, x)
  | .cookie => []

/-- What it should read when the argument is `v`: a header or query parameter that is absent is not
sent, a path parameter occurs wherever the template mentions it. -/
inductive Expected (l : List Seg) (p : DocParam) (v : Value) : List (Bytes × Bytes) → Prop
  | path (k t) : p.kind = .path k → argText v = some t →
      Expected l p v ((l.filter (Seg.holds p.name)).map fun _ => (utf8 p.name, utf8 t))
  | query (k m s ps) : p.kind = .query k m → argSer v = some s → Means p.name s ps →
      Expected l p v (ps.map fun e => (utf8 e.1, utf8 e.2))
  | header : p.kind = .header → Expected l p v ((argText v).toList.map fun t => (utf8 p.name, utf8 t))

/-- A server that implements an operation with template `l` and these parameters accepts the
request for it, and reads for every parameter what the argument says; `as` are the arguments of
the method with their values. -/
structure Received (keys : Str → List Str) (l : List Seg) (method : Str) (pathLevel opLevel : List DocParam) (as : List (Param × Value))
    (auth : Str) (base : List Str) (r : Request) : Prop where
  sameMethod : r.method.print = method
  underBase : ((parseUrlTail (r.url.drop auth.length)).segments.map percentDecode).take base.length = base.map percentDecode
  routed : Routed l (tailSegments auth base r)
  received : ∀ p, Effective pathLevel opLevel p → ∃ a v, (a, v) ∈ as ∧ Describes p a ∧
    (∀ a' v', (a', v') ∈ as → Describes p a' → a' = a ∧ v' = v) ∧ Expected l p v (reads keys auth base l r p)

/-- An asynchronous hook before the request, if there is one, fails or leaves the request as it is. -/
def Keeps (hooks : Hooks) (w : World) : Prop := hooks.preAsync = true → ∀ hist r r', w.preAsync hist r = .ok r' → r' = r

/-- Asynchronous hooks, if there are any, only look on. -/
def LooksOn (hooks : Hooks) (w : World) : Prop :=
  (hooks.preAsync = true → ∀ hist r, w.preAsync hist r = .ok r) ∧
  (hooks.postAsync = true → ∀ hist reply, w.postAsync hist reply = .ok ())

/-- What happens before request `r` is sent. -/
def beforeSend (hooks : Hooks) (r : Request) : List Event :=
  (if hooks.pre then [.preHook r] else []) ++ if hooks.preAsync then [.preHookAsync r] else []

end Progenitor.Spec

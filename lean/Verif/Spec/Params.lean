import Verif.Model.Params

/-!
# Specification: parameters of an operation

The OpenAPI rule for combining path-item and operation parameters (section
"Operation Object", `parameters`), and the documented order of arguments.
-/

namespace Progenitor.Spec

open Progenitor Progenitor.Params

/-- Location of a parameter (`in`). -/
inductive Location | path | query | header | cookie | body
  deriving DecidableEq, Repr

def docLocation : DocKind → Location
  | .path _ => .path
  | .query _ _ => .query
  | .header => .header
  | .cookie => .cookie

def location : Kind → Location
  | .path => .path
  | .query _ => .query
  | .header _ => .header
  | .body _ => .body

/-- OpenAPI: "A unique parameter is defined by a combination of a name and
location". -/
def SameParam (p q : DocParam) : Prop := p.name = q.name ∧ docLocation p.kind = docLocation q.kind

/-- OpenAPI: the parameters of an operation are its own ones and those of the
path item that are not overridden. -/
def Effective (pathLevel opLevel : List DocParam) (p : DocParam) : Prop :=
  p ∈ opLevel ∨ (p ∈ pathLevel ∧ ∀ q ∈ opLevel, ¬ SameParam p q)

/-- OpenAPI: "The list MUST NOT include duplicated parameters". -/
def NoDuplicates (l : List DocParam) : Prop := l.Pairwise fun p q => ¬ SameParam p q

/-- No name is used in two locations. -/
def NamesUnambiguous (l : List DocParam) : Prop :=
  ∀ p ∈ l, ∀ q ∈ l, p.name = q.name → docLocation p.kind = docLocation q.kind

/-- `a` occurs in `names`, and `b` does not occur before the first `a`. -/
def FirstBefore (names : List Str) (a b : Str) : Prop :=
  ∃ pre post, names = pre ++ a :: post ∧ b ∉ pre ∧ a ∉ pre

/-- Lexicographic order by code points (`≤`). -/
inductive LexLe : Str → Str → Prop
  | nil (b) : LexLe [] b
  | lt (a b : Char) (as bs) : a.toNat < b.toNat → LexLe (a :: as) (b :: bs)
  | eq (a : Char) (as bs) : LexLe as bs → LexLe (a :: as) (a :: bs)

/-- The documented order of arguments: path parameters by position in the path,
then query parameters alphabetically, then headers alphabetically, then the body. -/
inductive Before (names : List Str) : Param → Param → Prop
  | pathPath (p q) : location p.kind = .path → location q.kind = .path →
      FirstBefore names p.apiName q.apiName → Before names p q
  | pathOther (p q) : location p.kind = .path → location q.kind ≠ .path → Before names p q
  | queryQuery (p q) : location p.kind = .query → location q.kind = .query →
      LexLe p.apiName q.apiName → Before names p q
  | queryHeader (p q) : location p.kind = .query → location q.kind = .header → Before names p q
  | queryBody (p q) : location p.kind = .query → location q.kind = .body → Before names p q
  | headerHeader (p q) : location p.kind = .header → location q.kind = .header →
      LexLe p.apiName q.apiName → Before names p q
  | headerBody (p q) : location p.kind = .header → location q.kind = .body → Before names p q

/-- What the definition `p` of the document says about the argument `a`: same
API name, same location, and required exactly as documented (a path parameter
always is; a query parameter with a nullable type never is). -/
def Describes (p : DocParam) (a : Param) : Prop :=
  a.apiName = p.name ∧ location a.kind = docLocation p.kind ∧
  match p.kind, a.kind with
  | .path _, .path => True
  | .query _ none, .query r => r = p.required ∧ a.typ = .type p.ty
  | .query _ (some t), .query r => r = false ∧ a.typ = .type t
  | .header, .header r => r = p.required ∧ a.typ = .type p.ty
  | _, _ => False

/-- Stable sorting: `out` is a reordering of `l` in which nothing is followed by
something smaller and elements that are not ordered keep their relative order.
`less` is the comparison the sort is given. -/
structure StableSorted {α} (less : α → α → Bool) (l out : List α) : Prop where
  perm : out.Perm l
  sorted : out.Pairwise fun a b => less b a = false
  stable : ∀ a b, less a b = false → less b a = false → [a, b].Sublist l → [a, b].Sublist out

end Progenitor.Spec

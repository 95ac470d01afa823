import Verif.Spec.Wire
import Verif.Spec.QueryExact

/-!
# Calls that say the same in some places
-/

namespace Progenitor.Spec

open Progenitor Progenitor.Params Progenitor.Client Progenitor.Query Progenitor.Exec

/-- Two calls say the same in the arguments for the parameters in question, as far as `f` sees. -/
def SameFor {α : Type} (K : Param → Prop) (f : Value → α) (params : List Param) (args args' : List Value) : Prop :=
  ∀ p v v', (p, v) ∈ params.zip args → (p, v') ∈ params.zip args' → K p → f v = f v'

def InPath (p : Param) : Prop := p.kind = .path
def InQuery (p : Param) : Prop := ∃ r, p.kind = .query r
def InHeader (p : Param) : Prop := ∃ r, p.kind = .header r
def InBody (p : Param) : Prop := ∃ ct, p.kind = .body ct

/-- Neither the base URL nor the path of the operation has a question mark. -/
def NoQueryInUrl (cfg : Config) (op : OperationMethod) : Prop :=
  '?' ∉ cfg.baseurl ∧ ∀ t, Template.Component.const t ∈ op.path → '?' ∉ t

/-- The pairs in the query string of a request. -/
def queryOfRequest (r : Request) : List (Bytes × Bytes) := formDecode (r.query.getD [])

/-- The pairs of one query argument: none if there is no value, otherwise those its value is sent as. -/
def ArgPairs (name : Str) (v : Option Ser) (l : List (Bytes × Bytes)) : Prop :=
  match v with
  | none => l = []
  | some s => ∃ ps, QueryOf name s ps ∧ l = ps.map fun e => (utf8 e.1, utf8 e.2)

end Progenitor.Spec

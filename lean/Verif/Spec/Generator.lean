import Verif.Model.Generator
import Verif.Spec.Doc

/-!
# When a generator should say that it uses something
-/

namespace Progenitor.Spec

open Progenitor Progenitor.Names Progenitor.Builder Progenitor.Exec Progenitor.Doc Progenitor.Params Progenitor.Generator

/-- The parameters of the document are understood. -/
def ParamsUnderstood (u : Unicode) (d : DocOperation) : Prop :=
  ∃ ps, convertAll (sanitize u .snake) (BTree.values (combined d.pathLevel d.opLevel)) = .ok ps

/-- A call for the document gets to an operation with a channel: what comes before is understood, and so are its parameters. -/
def MeetsChannel (u : Unicode) (types : Types) (d : Document) : Prop :=
  validate u d = .ok () ∧ ∃ pre path m o post, operations d = pre ++ (path, m, o) :: post ∧
    (∀ x ∈ pre, ∃ p, Doc.processOne u types x = .ok p) ∧ o.op.websocket = true ∧ ParamsUnderstood u o.op

/-- The code of one operation can be written. -/
def Written {B : Type} (tt : TypeTable B) (i : Interface) (p : Processed) : Prop :=
  match i with
  | .positional => ∃ c, methodSigBody p.op = .ok c
  | .builder => ∃ c, builderStruct tt p.op = .ok c

/-- A call for a client gets to writing the code of an operation with pages. -/
def WritesPages {B : Type} (u : Unicode) (i : Interface) (t : TagStyle) (q : Generator.Request B) : Prop :=
  q.target = .client ∧ ¬ (i = .positional ∧ t = .separate) ∧ ∃ ms pre p post, Doc.rawMethods u q.types q.document = .ok ms ∧
    ms = pre ++ p :: post ∧ (∀ x ∈ pre, Written q.table i x) ∧ Written q.table i p ∧ p.paginated ≠ none

end Progenitor.Spec

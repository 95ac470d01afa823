import Verif.Spec.Evolve
import Verif.Spec.CliDoc

/-!
# Documents that grow, for users of the command line
-/

namespace Progenitor.Spec

open Progenitor Progenitor.Params Progenitor.Names Progenitor.Cli

/-- No new parameter takes a flag that was there for the body: `--json-body`, `--json-body-template`, or that of a property. -/
def FlagsFree (u : Unicode) (types : Types) (ct : CliTypes) (old : Str → Bool) (d : DocOperation) : Prop :=
  ∀ p, DocFlag u types d p → old p.name = false → ∀ t, TypedBody d t →
    flagName u p ≠ "json-body".toList ∧ flagName u p ≠ "json-body-template".toList ∧
    ∀ ps, ct.props t = some ps → ∀ i ∈ ps, ct.fromStr (propType ct i) = true → toKebab u i.name ≠ flagName u p

/-- No new parameter is needed for the first page. -/
def FirstPageOld (old : Str → Bool) (d : DocOperation) : Prop := ∀ names, d.pagination = some names → ∀ n ∈ names, old n = true

end Progenitor.Spec

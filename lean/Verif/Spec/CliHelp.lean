import Verif.Model.CliHelp
import Verif.Spec.Cli
import Verif.Spec.DocText

/-!
# Specification: the texts of commands
-/

namespace Progenitor.Spec

open Progenitor Progenitor.Params Progenitor.Cli Progenitor.DocText

/-- The values of the property can be read from a word. -/
def OneWord (ct : CliTypes) (i : PropInfo) : Prop :=
  ct.fromStr (match ct.inner i.type with | some t => t | none => i.type) = true

/-- The body is a struct with the properties `props`. -/
def BodyProps (ht : HelpTypes) (params : List Param) (props : List (PropInfo × Option Str)) : Prop :=
  ∃ pre p post t, params = pre ++ p :: post ∧ (∀ q ∈ pre, ∀ c, q.kind ≠ .body c) ∧ (∃ c, p.kind = .body c) ∧ p.typ = .type t ∧
    ht.props t = some props

/-- The flag `name` is about something that the document describes with `text`: a parameter; or else a property of the body,
the first one of that name that can be a flag. -/
inductive FlagAbout (u : Names.Unicode) (ht : HelpTypes) (pg : Option Pagination) (params : List (Param × Option Str)) (name : Str)
    (text : Option Str) : Prop
  | param (p) : (p, text) ∈ params → Flagged pg p → name = toKebab u p.name → FlagAbout u ht pg params name text
  | prop (pre i post) : BodyProps ht (params.map Prod.fst) (pre ++ (i, text) :: post) → OneWord ht.types i → name = toKebab u i.name →
      (∀ x ∈ params, Flagged pg x.1 → toKebab u x.1.name ≠ name) → (∀ j ∈ pre, OneWord ht.types j.1 → toKebab u j.1.name ≠ name) →
      FlagAbout u ht pg params name text

/-- The description that the document has for the parameter `apiName`: that of the operation if it has one of that name,
otherwise that of the path item. -/
def DescribedAs (t : Texts) (apiName : Str) (text : Option Str) : Prop :=
  ∃ p, LastText t.opLevel apiName (p, text) ∨ (∀ q ∈ t.opLevel, q.1.name ≠ apiName) ∧ LastText t.pathLevel apiName (p, text)

end Progenitor.Spec

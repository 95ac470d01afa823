import Verif.Spec.MockDoc
import Verif.Model.CliDoc

/-!
# Specification: the documents for which there is a command line
-/

namespace Progenitor.Spec

open Progenitor Progenitor.Params Progenitor.Names Progenitor.Doc Progenitor.Resp Progenitor.Cli

/-- The parameter has a flag: the token for the next page has none. -/
def DocFlag (u : Unicode) (types : Types) (d : DocOperation) (p : DocParam) : Prop :=
  Counts d p ∧ ¬ (Paged types d ∧ sanitize u .snake p.name = "page_token".toList)

/-- The flag for a parameter. -/
def flagName (u : Unicode) (p : DocParam) : Str := toKebab u (sanitize u .snake p.name)

/-- Different parameters have different flags. -/
def FlagsDiffer (u : Unicode) (types : Types) (d : DocOperation) : Prop :=
  ∀ p q, DocFlag u types d p → DocFlag u types d q → flagName u p = flagName u q → p.name = q.name

/-- There is one kind of success and one kind of error. -/
structure OneKind (d : DocOperation) : Prop where
  successes : ∀ s k s' k', Listed d s k → Listed d s' k' → AsSuccess d s → AsSuccess d s' → k = k'
  errors : ∀ s k s' k', Listed d s k → Listed d s' k' → AsError s → AsError s' → k = k'

/-- The body is of type `t`, encoded as JSON or as a form. -/
def TypedBody (d : DocOperation) (t : Params.TypeId) : Prop :=
  ∃ ct m s base, d.body = some [(ct, m)] ∧ m.schema = some s ∧ MediaBase ct base ∧
    (base = "application/json".toList ∨ base = "application/x-www-form-urlencoded".toList) ∧ s.ty = t

/-- The type of the values of a property: that inside of `Option`. -/
def propType (ct : CliTypes) (i : PropInfo) : Params.TypeId :=
  match ct.inner i.type with
  | some t => t
  | none => i.type

/-- The property of the body has a flag: its values can be given as text, and no parameter and no such property before it takes the
flag. -/
def DocPropFlag (u : Unicode) (types : Types) (ct : CliTypes) (d : DocOperation) (i : PropInfo) : Prop :=
  ∃ t pre post, TypedBody d t ∧ ct.props t = some (pre ++ i :: post) ∧ ct.fromStr (propType ct i) = true ∧
    (∀ p, DocFlag u types d p → flagName u p ≠ toKebab u i.name) ∧
    ∀ j ∈ pre, ct.fromStr (propType ct j) = true → toKebab u j.name ≠ toKebab u i.name

/-- The flags of a command, with the types of their values. -/
inductive CommandFlag (u : Unicode) (types : Types) (ct : CliTypes) (d : DocOperation) : Str → Params.TypeId → Prop
  | param (p) : DocFlag u types d p → CommandFlag u types ct d (flagName u p) (argType p)
  | prop (i) : DocPropFlag u types ct d i → CommandFlag u types ct d (toKebab u i.name) (propType ct i)

/-- The functions for a command compile. -/
structure CommandSound {B : Type} (u : Unicode) (types : Types) (ct : CliTypes) (tt : Builder.TypeTable B) (d : DocOperation) : Prop where
  /-- Values have parsers. -/
  parsers : ∀ n t, CommandFlag u types ct d n t → ct.parser t = true
  /-- The name of the setter is sanitized once more. -/
  setters : ∀ p, DocFlag u types d p → (∃ q, Counts d q ∧ sanitize u .snake q.name = sanitize u .snake (sanitize u .snake p.name)) ∨
    ((∃ t, TypedBody d t) ∧ sanitize u .snake (sanitize u .snake p.name) = "body".toList)
  /-- Bodies with flags for properties are structs. -/
  body : ∀ i, DocPropFlag u types ct d i → BodyStruct tt d

/-- `clap` accepts the names of arguments. -/
structure ArgumentsSound (u : Unicode) (types : Types) (ct : CliTypes) (d : DocOperation) : Prop where
  help : ∀ n t, CommandFlag u types ct d n t → n ≠ "help".toList
  body : ∀ n t, CommandFlag u types ct d n t → (∃ t', TypedBody d t') → n ≠ "json-body".toList ∧ n ≠ "json-body-template".toList

/-- Each command has its own function, and the method of the client for it can be called. -/
structure CliNames (u : Unicode) (inner : Bool) (t : TagStyle) (d : Document) : Prop where
  /-- The name of the function is sanitized once more. -/
  dispatch : ∀ o ∈ opsOf d, ∃ o' ∈ opsOf d, methodName u o' = sanitize u .snake (methodName u o)
  distinct : ∀ o ∈ opsOf d, ∀ o' ∈ opsOf d, builderName u o = builderName u o' → o.id = o'.id
  own : ∀ o ∈ opsOf d, ¬ ClientName inner (methodName u o)
  /-- `Into` and `TryInto` come first. -/
  standard : ∀ o ∈ opsOf d, methodName u o ≠ "into".toList ∧ methodName u o ≠ "try_into".toList
  /-- With traits for tags, there is at most one tag. -/
  tags : t = .separate → ∀ o ∈ opsOf d, ∀ a ∈ o.op.tags, ∀ b ∈ o.op.tags, a = b
  /-- `Clone` and `ToOwned` are traits, too. -/
  traits : t = .separate → ∀ o ∈ opsOf d, o.op.tags ≠ [] →
    methodName u o ≠ "clone".toList ∧ methodName u o ≠ "clone_into".toList ∧ methodName u o ≠ "to_owned".toList

end Progenitor.Spec

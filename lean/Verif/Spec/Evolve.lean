import Verif.Spec.Compiles

/-!
# Documents that grow
-/

namespace Progenitor.Spec

open Progenitor Progenitor.Params Progenitor.Exec

/-- A parameter that callers need not give. -/
def Omissible (p : Param) : Prop := (p.kind = .query false ∨ p.kind = .header false) ∧ ∃ t, p.typ = .type t

/-- The same operation with further parameters, which callers need not give; `old` is for names in the document. -/
structure Grown (old : Str → Bool) (d d' : DocOperation) : Prop where
  same : d = { d' with pathLevel := d'.pathLevel.filter fun p => old p.name, opLevel := d'.opLevel.filter fun p => old p.name }
  optional : ∀ p, Counts d' p → old p.name = false → 
    (docLocation p.kind = .query ∨ docLocation p.kind = .header) ∧ (p.required = false ∨ ∃ f t, p.kind = .query f (some t))

/-- Neither the base URL nor the path ends in a query without anything in it. -/
def NoBareQuery (cfg : Config) (url : Template.UrlExpr) : Prop :=
  ∀ (args : List Str) s, Template.rustFormat url.fmt (cfg.baseurl :: args.map encodePath) = some s → ((s.takeWhile (· ≠ '#')).dropWhile (· ≠ '?')) ≠ ['?']

/-- The arguments for a method with further parameters: `None` for those. -/
inductive ArgsGrown (old : Str → Bool) : List Param → List Value → List Value → Prop
  | nil : ArgsGrown old [] [] []
  | keep {p ps v args args'} : (old p.apiName = true ∨ location p.kind = .body) → ArgsGrown old ps args args' →
      ArgsGrown old (p :: ps) (v :: args) (v :: args')
  | none {p ps args args'} : old p.apiName = false → location p.kind ≠ .body → ArgsGrown old ps args args' →
      ArgsGrown old (p :: ps) args (.opt .none :: args')

/-- A document with some of the operations of another one, in any order. -/
structure Part (d d' : Doc.Document) : Prop where
  version : d.version = d'.version
  operations : ∃ more, (routes d ++ more).Perm (routes d')
  references : ∀ p ∈ d.paths, p.2 = none → ∃ p' ∈ d'.paths, p'.2 = none

end Progenitor.Spec

import Verif.Spec.Compiles
import Verif.Model.MockDoc

/-!
# Specification: the documents for which there are mocks
-/

namespace Progenitor.Spec

open Progenitor Progenitor.Params Progenitor.Names Progenitor.Doc Progenitor.Resp

/-- An operation all of whose parts are understood. -/
structure Understood (types : Types) (route verb : Str) (d : DocOperation) : Prop where
  params : ∀ p, Counts d p → ParamSupported p
  body : BodySupported d.body
  path : LaxPath route
  used : ∀ p q, Counts d p → Counts d q → docLocation p.kind = .path → docLocation q.kind = .path → p ≠ q →
    p.name ∈ braceGroups route
  default : ∀ x, d.default = some x → ∃ k, Carries d.websocket x k
  codes : ∀ e ∈ d.codes, ∃ k, Carries d.websocket e.2 k
  method : verb ∈ MethodNames
  /-- A websocket does not provide a list. -/
  websocket : d.websocket = true → ¬ Paged types d

/-- Status codes that have a name in HTTP. -/
def NamedCode (c : Nat) : Prop :=
  (100 ≤ c ∧ c ≤ 102) ∨ (200 ≤ c ∧ c ≤ 208) ∨ c = 226 ∨ (300 ≤ c ∧ c ≤ 305) ∨ c = 307 ∨ c = 308 ∨ (400 ≤ c ∧ c ≤ 418) ∨
  (421 ≤ c ∧ c ≤ 426) ∨ c = 428 ∨ c = 429 ∨ c = 431 ∨ c = 451 ∨ (500 ≤ c ∧ c ≤ 508) ∨ c = 510 ∨ c = 511

/-- Documented codes have names, and classes are those of HTTP. -/
def StatusesNamed (d : DocOperation) : Prop :=
  ∀ e ∈ d.codes, match e.1 with
    | .code c => NamedCode c
    | .range n => 1 ≤ n ∧ n ≤ 5

/-- The mock of the operation compiles. -/
structure MockSound (san : Str → Str) (mt : Mock.MockTypes) (route : Str) (d : DocOperation) : Prop where
  /-- The path becomes a format string with one argument, for each parameter. -/
  path : ∀ p, Counts d p → docLocation p.kind = .path → WellFormedPath route ∧ (braceGroups route).count p.name = 1
  display : ∀ p, Counts d p → docLocation p.kind = .path ∨ docLocation p.kind = .query → mt.display (argType p) = true
  distinct : ∀ p q, Counts d p → Counts d q → san p.name = san q.name → p.name = q.name
  body : ∀ e, d.body = some [e] → ∀ p, Counts d p → san p.name ≠ "body".toList
  own : ∀ p, Counts d p → san p.name ≠ "new".toList ∧ san p.name ≠ "into_inner".toList
  /-- Bodies are passed by reference. -/
  bodyType : ∀ ct m s base, d.body = some [(ct, m)] → m.schema = some s → MediaBase ct base →
    (base = "application/json".toList ∨ base = "application/x-www-form-urlencoded".toList) → mt.passing s.ty = .ref
  answers : ∀ s t, Listed d s (.type t) → mt.passing t = .ref
  /-- Each status once. -/
  once : (d.codes.map Prod.fst).Nodup
  upgrade : d.websocket = true → ∀ e ∈ d.codes, e.1 ≠ .code 101

/-- The struct for the expectations of an operation. -/
def whenName (u : Unicode) (o : RawOperation) : Str := sanitize u .pascal (methodName u o ++ "-when".toList)

/-- Different operations have different wrappers. -/
def WrapperNames (u : Unicode) (d : Document) : Prop :=
  ∀ o ∈ opsOf d, ∀ o' ∈ opsOf d, whenName u o = whenName u o' → o.id = o'.id

end Progenitor.Spec

import Verif.Model.Response

/-!
# Specification: which documented response applies to a status code

OpenAPI "Responses Object": a response is documented for a code, for a range of
codes (`4XX`), or as the default for everything not covered individually.
-/

namespace Progenitor.Spec

open Progenitor Progenitor.Resp Progenitor.Client

/-- The documented status covers the code `s`, the default response aside. -/
def Covers : Status → Nat → Prop
  | .code c, s => s = c
  | .range r, s => 100 * r ≤ s ∧ s < 100 * (r + 1)
  | .default, _ => False

/-- `r` documents the success status `s`: a 2xx status it covers, or 101
Switching Protocols listed by its code. -/
def DocumentsSuccess (r : Response) (s : Nat) : Prop :=
  Covers r.status s ∧ ((200 ≤ s ∧ s < 300) ∨ r.status = .code 101)

/-- `r` documents the error status `s`: a 4xx or 5xx status it covers. -/
def DocumentsError (r : Response) (s : Nat) : Prop :=
  Covers r.status s ∧ 400 ≤ s ∧ s < 600

/-- What a generated method has to do with status `s`, given the documented
responses `rs`: success statuses covered explicitly or by the default are
successes, error statuses covered explicitly are errors, all else is an error of
the default kind, or unexpected if there is no (typed) default. -/
inductive Classified (rs : List Response) (s : Nat) : Act → Prop
  | success (r) : r ∈ rs → DocumentsSuccess r s → Classified rs s (.ok r.kind)
  | successByDefault (d) : d ∈ rs → d.status = .default → 200 ≤ s → s < 300 →
      (∀ r ∈ rs, ¬ DocumentsSuccess r s) → Classified rs s (.ok d.kind)
  | error (r) : r ∈ rs → DocumentsError r s → Classified rs s (.err r.kind)
  | errorByDefault (d) : d ∈ rs → d.status = .default → ¬ (200 ≤ s ∧ s < 300) →
      (∀ r ∈ rs, ¬ DocumentsSuccess r s ∧ ¬ DocumentsError r s) → d.kind ≠ .upgrade →
      Classified rs s (.err d.kind)
  | unexpected : (∀ r ∈ rs, ¬ DocumentsSuccess r s ∧ ¬ DocumentsError r s) →
      (∀ d ∈ rs, d.status = .default → ¬ (200 ≤ s ∧ s < 300) ∧ d.kind = .upgrade) →
      Classified rs s .unexpected

/-- A media type for JSON, with or without parameters. -/
def IsJson (m : List Char) : Prop := m = "application/json".toList ∨ ∃ rest, m = "application/json;".toList ++ rest

/-- What the body of a documented response is for the generated method: a value of the type documented for the first JSON media type,
a connection, nothing, or bytes. -/
inductive Carries (websocket : Bool) : DocResponse → Kind → Prop
  | json (pre m mt post t) : (∀ e ∈ pre, ¬ IsJson e.1) → IsJson m → mt.encodingEmpty = true → mt.schema = some t →
      Carries websocket (pre ++ (m, mt) :: post) (.type t)
  | upgrade (r) : websocket = true → (∀ e ∈ r, ¬ IsJson e.1) → Carries websocket r .upgrade
  | none : websocket = false → Carries websocket [] .none
  | raw (r) : websocket = false → r ≠ [] → (∀ e ∈ r, ¬ IsJson e.1) → Carries websocket r .raw

/-- Value of a decimal numeral. -/
def numeral : List UInt8 → Nat
  | ds => ds.foldl (fun a d => 10 * a + (d.toNat - 48)) 0

/-- A nonempty string of decimal digits. -/
def IsNumeral (ds : List UInt8) : Prop := ds ≠ [] ∧ ∀ d ∈ ds, 48 ≤ d ∧ d ≤ 57

end Progenitor.Spec

import Verif.Spec.Response

/-!
# Specification: what a reply with a given status is for the caller

In terms of the responses of the document alone.
-/

namespace Progenitor.Spec

open Progenitor Progenitor.Resp Progenitor.Client

/-- Success and error statuses. -/
def IsSuccess (s : Nat) : Prop := 200 ≤ s ∧ s < 300
def IsFailure (s : Nat) : Prop := 400 ≤ s ∧ s < 600

/-- No response is listed for the status. -/
def NotListed (codes : List (DocStatus × DocResponse)) (s : Nat) : Prop := ∀ e ∈ codes, ¬ Covers e.1.toStatus s

/-- Nothing says what 101 Switching Protocols means. -/
def NoSwitch (ws : Bool) (codes : List (DocStatus × DocResponse)) : Prop := ws = false ∧ ∀ e ∈ codes, e.1 ≠ .code 101

/-- What a reply with status `s` is taken for, given whether the operation is a websocket, the default response and
the listed ones. Statuses other than 101, 2xx, 4xx and 5xx go to the default response even if they are listed. -/
inductive Treats (ws : Bool) (df : Option DocResponse) (codes : List (DocStatus × DocResponse)) (s : Nat) : Act → Prop
  | success (e k) : e ∈ codes → Covers e.1.toStatus s → IsSuccess s → Carries ws e.2 k → Treats ws df codes s (.ok k)
  | successDefault (x k) : df = some x → IsSuccess s → NotListed codes s → Carries ws x k → Treats ws df codes s (.ok k)
  | successOther : df = none → IsSuccess s → (∀ s', IsSuccess s' → NotListed codes s') → Treats ws df codes s (.ok .raw)
  | switch (e k) : e ∈ codes → e.1 = .code 101 → s = 101 → Carries ws e.2 k → Treats ws df codes s (.ok k)
  | upgrade : ws = true → s = 101 → Treats ws df codes s (.ok .upgrade)
  | failure (e k) : e ∈ codes → Covers e.1.toStatus s → IsFailure s → Carries ws e.2 k → Treats ws df codes s (.err k)
  | other (x k) : df = some x → ¬ IsSuccess s → (s = 101 → NoSwitch ws codes) → (IsFailure s → NotListed codes s) →
      Carries ws x k → k ≠ .upgrade → Treats ws df codes s (.err k)
  | unexpected : (∀ x, df = some x → ¬ IsSuccess s ∧ Carries ws x .upgrade) →
      (IsSuccess s → NotListed codes s ∧ ∃ s', IsSuccess s' ∧ ¬ NotListed codes s') → (s = 101 → NoSwitch ws codes) →
      (IsFailure s → NotListed codes s) → Treats ws df codes s .unexpected

end Progenitor.Spec

import Verif.Model.Builder

/-!
# Specification: what a chain of setter calls means for one parameter
-/

namespace Progenitor.Spec

open Progenitor Progenitor.Params Progenitor.Exec Progenitor.Builder

variable {B : Type}

/-- The inputs given to one parameter, in order. -/
def inputsFor (calls : List (Call B)) (n : Str) : List (Input B) :=
  (calls.filter fun c => c.1 = n).map Prod.snd

/-- The state of a nested body builder after some inputs: the last `body(..)` decides, later
`body_map(..)` calls are applied to it, a failed conversion stays. -/
inductive Nested (tb : TypeBuilder B) (err : Str → Str) : List (Input B) → Except Str B → Prop
  | start : Nested tb err [] (.ok tb.default)
  | body (pre a) : Nested tb err (pre ++ [.value (.ok a)]) (.ok (tb.ofValue a))
  | failed (pre e) : Nested tb err (pre ++ [.value (.error e)]) (.error (err e))
  | mapped (pre f b) : Nested tb err pre (.ok b) → Nested tb err (pre ++ [.map f]) (.ok (f b))
  | mappedError (pre f m) : Nested tb err pre (.error m) → Nested tb err (pre ++ [.map f]) (.error m)

/-- The type of the parameter has a builder and the parameter is the body. -/
def HasBuilder (tt : TypeTable B) (p : Param) (tb : TypeBuilder B) : Prop :=
  ∃ t ct, p.typ = .type t ∧ p.kind = .body ct ∧ tt.builder t = some tb

/-- An ordinary typed parameter. -/
def Ordinary (tt : TypeTable B) (p : Param) (ty : Str) : Prop :=
  ∃ t, p.typ = .type t ∧ tt.name t = ty ∧ ∀ tb, ¬ HasBuilder tt p tb

/-- Optional parameters. -/
def Optional (p : Param) : Prop := p.kind = .query false ∨ p.kind = .header false

/-- The text "conversion to `T` for p failed". -/
def failedText (ty n : Str) : Str := "conversion to `".toList ++ ty ++ "` for ".toList ++ n ++ " failed".toList

/-- What the inputs given to parameter `p` amount to: a value, or the reason why there is none. -/
inductive Outcome (tt : TypeTable B) (p : Param) : List (Input B) → Except Str Value → Prop
  | missing (ty) : Ordinary tt p ty → ¬ Optional p →
      Outcome tt p [] (.error (p.name ++ " was not initialized".toList))
  | missingRaw : p.typ = .rawBody → Outcome tt p [] (.error (p.name ++ " was not initialized".toList))
  | absent (ty) : Ordinary tt p ty → Optional p → Outcome tt p [] (.ok (.opt none))
  | given (ty pre a) : Ordinary tt p ty → ¬ Optional p →
      Outcome tt p (pre ++ [.value (.ok a)]) (.ok (.plain a))
  | givenOptional (ty pre a) : Ordinary tt p ty → Optional p →
      Outcome tt p (pre ++ [.value (.ok a)]) (.ok (.opt (some a)))
  | failed (ty pre e) : Ordinary tt p ty →
      Outcome tt p (pre ++ [.value (.error e)]) (.error (failedText ty p.name))
  | givenRaw (pre b) : p.typ = .rawBody → Outcome tt p (pre ++ [.raw (.ok b)]) (.ok (.raw b))
  | failedText (pre e m) : p.typ = .rawBody → p.kind = .body (.text m) →
      Outcome tt p (pre ++ [.raw (.error e)]) (.error (failedText "String".toList p.name))
  | failedRaw (pre e) : p.typ = .rawBody → (∀ m, p.kind ≠ .body (.text m)) →
      Outcome tt p (pre ++ [.raw (.error e)]) (.error (failedText "reqwest::Body".toList p.name))
  | built (t tb ins b a) : p.typ = .type t → HasBuilder tt p tb →
      Nested tb (fun e => failedText (tt.name t) p.name ++ ": ".toList ++ e) ins (.ok b) → tb.finish b = .ok a →
      Outcome tt p ins (.ok (.plain a))
  | incomplete (t tb ins b e) : p.typ = .type t → HasBuilder tt p tb →
      Nested tb (fun e => failedText (tt.name t) p.name ++ ": ".toList ++ e) ins (.ok b) → tb.finish b = .error e →
      Outcome tt p ins (.error e)
  | failedNested (t tb ins m) : p.typ = .type t → HasBuilder tt p tb →
      Nested tb (fun e => failedText (tt.name t) p.name ++ ": ".toList ++ e) ins (.error m) →
      Outcome tt p ins (.error m)

/-- A setter call is well-typed: it is for a parameter, and with an input of the right sort. -/
def CallOk (tt : TypeTable B) (params : List Param) (c : Call B) : Prop :=
  ∃ p ∈ params, p.name = c.1 ∧ match c.2 with
    | .value _ => ∃ t, p.typ = .type t
    | .raw _ => p.typ = .rawBody
    | .map _ => ∃ tb, HasBuilder tt p tb

end Progenitor.Spec

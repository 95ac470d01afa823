import Verif.Model.ErrorText

/-!
# What messages of errors should say
-/

namespace Progenitor.Spec

open Progenitor Progenitor.Client

/-- The chain of causes: `Causes c l` holds if `l` are the messages of `c`, of its source, of the source of that, … -/
inductive Causes : Cause → List Str → Prop
  | last (t) : Causes (.last t) [t]
  | from (t c l) : Causes c l → Causes (.from t c) (t :: l)

/-- The kinds of errors that a user tells apart. -/
inductive ErrorClass where
  | invalidRequest | communication | upgrade | documented | body | payload | unexpected | preHook | postHook
  deriving DecidableEq

def classOf {P E : Type} : Error P E → ErrorClass
  | .invalidRequest _ => .invalidRequest
  | .communicationError _ => .communication
  | .invalidUpgrade _ => .upgrade
  | .errorResponse _ => .documented
  | .responseBodyError _ => .body
  | .invalidResponsePayload _ _ => .payload
  | .unexpectedResponse _ => .unexpected
  | .preHookError _ => .preHook
  | .postHookError _ => .postHook

/-- The documented way of giving the messages of a chain of causes: separated by colons. -/
def joined : List Str → Str
  | [] => []
  | [t] => t
  | t :: u :: l => t ++ ": ".toList ++ joined (u :: l)

end Progenitor.Spec

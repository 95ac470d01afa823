import Verif.Spec.ListWords

/-!
# Specification: a list that a server provides in pages
-/

namespace Progenitor.Spec

open Progenitor Progenitor.Params Progenitor.Exec Progenitor.Stream

variable {E I : Type}

/-- Following tokens from `t` on, where `pg t` is the answer for token `t` (`none`: the first page), the answers are `as`: a page
without token or an error is the last one. -/
inductive Chain (pg : Option Str → Answer E I) : Option Str → List (Answer E I) → Prop
  | stop (t) : Chain pg t []
  | last (t) : (∀ page, pg t = .ok page → page.next = none) → Chain pg t [pg t]
  | more (t page t' as) : pg t = .ok page → page.next = some t' → Chain pg (some t') as → Chain pg t (pg t :: as)

/-- The answers are all there are: the last one is an error or a page without token. -/
def Whole (as : List (Answer E I)) : Prop := ∃ pre a, as = pre ++ [a] ∧ ∀ page, a = .ok page → page.next = none

/-- The values of the parameters for the page of a token, where those for the first page are `vs`. -/
def pageValues (params : List Param) (vs : List Value) : Option Str → List Value
  | none => vs
  | some t => List.zipWith (laterValue t) params vs

end Progenitor.Spec

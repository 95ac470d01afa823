import Verif.Spec.FormStyle
import Verif.Spec.Paging

/-!
# Specification: pages and the schemas of the document
-/

namespace Progenitor.Spec

open Progenitor Progenitor.Params Progenitor.Refs Progenitor.Schema Progenitor.Typed Progenitor.Exec Progenitor.Query Progenitor.Stream

/-- A token is none, for the first page, or one that came with an earlier page. -/
def TokenOf {E I : Type} (rs : List (Answer E I)) : Option Str → Prop
  | none => True
  | some t => ∃ page, .ok page ∈ rs ∧ page.next = some t

/-- The tokens that came with pages are values of the type of the parameter for tokens. -/
def TokensTyped {E I : Type} (accepts : Params.TypeId → Json → Prop) (params : List Param) (rs : List (Answer E I)) : Prop :=
  ∀ p ∈ params, p.apiName = "page_token".toList → ∀ ty, p.typ = .type ty → ∀ t, TokenOf rs (some t) → accepts ty (.str t)

/-- What is read for parameter `p` from the request for the page of a token, where `as` are the arguments for the first page: for the
first page what the arguments say; for others the token, no other query parameter but the limit, and what the arguments say for the limit
and parameters elsewhere.  What is read is `good`. -/
def PageArrives (good : Json → Prop) (l : List Seg) (p : SParam) (as : List (Param × Value)) (got : List (Bytes × Bytes)) :
    Option Str → Prop
  | none => ArrivesAs good l p as got
  | some t =>
    (p.name = "page_token".toList → good (.str t) ∧ WrittenAs l p (.str t) got) ∧
    (p.name ≠ "page_token".toList → p.name ≠ "limit".toList → skindLocation p.kind = .query → got = []) ∧
    (p.name ≠ "page_token".toList → p.name = "limit".toList ∨ skindLocation p.kind ≠ .query → ArrivesAs good l p as got)

/-- The requests of the events from `hist` to `hist'`, where `rs` are the answers so far: each is for a token that came before, and what is
read from it for each parameter is right for the token and for the schema of the parameter. -/
def PagesArrive {E I : Type} (ι : Interp) (keys : Str → List Str) (auth : Str) (base : List Str) (segs : List Seg) (pl ol : List SParam)
    (params : List Param) (vs : List Value) (rs : List (Answer E I)) (hist hist' : List Event) : Prop :=
  ∃ evs, hist' = hist ++ evs ∧ ∀ r, .send r ∈ evs → ∃ tok, TokenOf rs tok ∧ ∀ p, SEffective pl ol p → ∃ s, p.schema = some s ∧
    (Maps s → PageArrives (EValid ι s) segs p (params.zip vs) (sreads keys auth base segs r p) tok) ∧
    (Faithful ι s → PageArrives (OValid ι s) segs p (params.zip vs) (sreads keys auth base segs r p) tok)

end Progenitor.Spec

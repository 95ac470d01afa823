import Verif.Spec.Paging

/-!
# Lists set up page by page
-/

namespace Progenitor.Spec

open Progenitor Progenitor.Stream

/-- Pages that follow each other by their tokens, to the last one; each is provided for its token (none for the first). -/
inductive PageChain {I : Type} (provided : Option Str → Page I → Prop) : Option Str → List (Page I) → Prop
  | last (t page) : provided t page → page.next = none → PageChain provided t [page]
  | more (t page t' pages) : provided t page → page.next = some t' → PageChain provided (some t') pages →
      PageChain provided t (page :: pages)

end Progenitor.Spec

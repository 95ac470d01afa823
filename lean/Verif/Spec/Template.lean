/-!
# What a path template is, independently of the parser
-/

namespace Progenitor.Spec

/-- Part of a well-formed path after its leading slash: ordinary characters and
`{name}` groups, where names contain no brace and no slash. -/
inductive PathTail : List Char → Prop
  | nil : PathTail []
  | char (c : Char) (r : List Char) : c ≠ '{' → c ≠ '}' → PathTail r → PathTail (c :: r)
  | param (n r : List Char) : (∀ c ∈ n, c ≠ '{' ∧ c ≠ '}' ∧ c ≠ '/') → PathTail r →
      PathTail ('{' :: n ++ '}' :: r)

/-- The path syntax a user expects. -/
def WellFormedPath (t : List Char) : Prop := ∃ r, t = '/' :: r ∧ PathTail r

/-- The path syntax actually accepted: one stray `}` may directly follow a
parameter. -/
inductive LaxTail : List Char → Prop
  | nil : LaxTail []
  | char (c : Char) (r : List Char) : c ≠ '{' → c ≠ '}' → LaxTail r → LaxTail (c :: r)
  | param (n r : List Char) : (∀ c ∈ n, c ≠ '{' ∧ c ≠ '}' ∧ c ≠ '/') → LaxTail r →
      LaxTail ('{' :: n ++ '}' :: r)
  | stray (n r : List Char) : (∀ c ∈ n, c ≠ '{' ∧ c ≠ '}' ∧ c ≠ '/') → LaxTail r →
      LaxTail ('{' :: n ++ '}' :: '}' :: r)

def LaxPath (t : List Char) : Prop := ∃ r, t = '/' :: r ∧ LaxTail r

/-- Replace every run of slashes by one slash. -/
def collapse : List Char → List Char
  | [] => []
  | [c] => [c]
  | c :: d :: r => if c = '/' ∧ d = '/' then collapse (d :: r) else c :: collapse (d :: r)

/-- The `{...}` groups of a path, in order. -/
def braceGroups : List Char → List (List Char)
  | [] => []
  | c :: r =>
    if c = '{' then r.takeWhile (· ≠ '}') :: braceGroups r
    else braceGroups r

/-- Replace the `{...}` groups of a path by `f name`. -/
def substGroups (f : List Char → List Char) : List Char → List Char
  | [] => []
  | c :: r =>
    if c = '{' then
      f (r.takeWhile (· ≠ '}')) ++ substGroups f ((r.dropWhile (· ≠ '}')).drop 1)
    else c :: substGroups f r
  termination_by l => l.length
  decreasing_by
    all_goals simp
    have := (List.dropWhile_sublist (p := fun c => decide (c ≠ '}')) (l := r)).length_le
    simp at this; omega

/-- `}}` does not occur in the text. -/
def NoDoubleClose (t : List Char) : Prop := ¬ ∃ a b, t = a ++ '}' :: '}' :: b

end Progenitor.Spec

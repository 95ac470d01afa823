import Verif.Spec.Names

/-!
# The words of a name

How the words of names are told apart and what names are made of them, in terms of positions in the text.
-/

namespace Progenitor.Spec

open Progenitor

section
variable (an up low : Char → Bool)

/-- The capital letter `c` between `pre` and `post` begins a word: the last letter with a case before it, without a separator in
between, is a small letter, or it is a capital letter and a small letter follows. -/
def Hump (pre : Str) (c : Char) (post : Str) : Prop :=
  up c = true ∧ ∃ a x m, pre = a ++ x :: m ∧ an x = true ∧ (∀ d ∈ m, an d = true ∧ up d = false ∧ low d = false) ∧
    (low x = true ∨ up x = true ∧ ∃ d r, post = d :: r ∧ low d = true)

/-- `ws` are the words of the text `s` that follows `pre`: separators (characters other than letters and digits) are left out;
words go on up to the next separator or hump. -/
inductive WordsAt : Str → Str → List Str → Prop
  | nil (pre) : WordsAt pre [] []
  | sep (pre c s ws) : an c = false → WordsAt (pre ++ [c]) s ws → WordsAt pre (c :: s) ws
  | word (pre c cs s ws) : (∀ d ∈ c :: cs, an d = true) → (∀ a x b, cs = a ++ x :: b → ¬ Hump an up low (pre ++ c :: a) x (b ++ s)) →
      (∀ x b, s = x :: b → an x = false ∨ Hump an up low (pre ++ c :: cs) x b) → WordsAt (pre ++ c :: cs) s ws →
      WordsAt pre (c :: cs ++ s) ((c :: cs) :: ws)

end

/-- The words of an ASCII text. -/
def WordsOf (s : Str) (ws : List Str) : Prop := WordsAt Char.isAlphanum Char.isUpper Char.isLower [] s ws

/-- A word in small letters. -/
def small (w : Str) : Str := w.map Char.toLower

/-- A word with a capital. -/
def capital : Str → Str
  | [] => []
  | c :: cs => c.toUpper :: small cs

/-- Words with underscores in between. -/
def underscored (ws : List Str) : Str := List.intercalate ['_'] ws

/-- A text of letters, digits and underscores made an identifier. -/
def legal (s : Str) : Str :=
  if s.head?.any Char.isDigit then '_' :: s else if s ∈ reserved.map String.toList then s ++ ['_'] else s

/-- The words used in names; apostrophes are ignored, and there is a word for names without any. -/
inductive NameWords : Str → List Str → Prop
  | plus : NameWords "+1".toList ["plus1".toList]
  | minus : NameWords "-1".toList ["minus1".toList]
  | none (s) : WordsOf (s.filter (· ≠ '\'')) [] → NameWords s ["x".toList]
  | some (s ws) : s ≠ "+1".toList → s ≠ "-1".toList → WordsOf (s.filter (· ≠ '\'')) ws → ws ≠ [] → NameWords s ws

end Progenitor.Spec

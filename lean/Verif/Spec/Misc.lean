import Verif.Model.Macro
import Verif.Model.Refs
import Verif.Model.Space

/-!
# Specification: macro settings, references, spacing
-/

namespace Progenitor.Spec

open Progenitor Progenitor.Names Progenitor.Macro Progenitor.Refs

/-- The last mention of the trait is without `?`, or it is not mentioned and implied anyway. -/
def Implied (l : List ImplTrait) (t : TypeImpl) : Prop :=
  (∃ pre i post, l = pre ++ i :: post ∧ i.name = some t ∧ i.maybe = false ∧ ∀ j ∈ post, j.name ≠ some t) ∨
  ((∀ j ∈ l, j.name ≠ some t) ∧ (t = .fromStr ∨ t = .display))

/-- Letters, digits, `_` and `-`. -/
def CrateName (u : Unicode) (s : Str) : Prop := ∀ c ∈ s, u.alnum c = true ∨ c = '_' ∨ c = '-'

/-- What a crate specification means. -/
inductive CrateMeaning {V : Type} (u : Unicode) (parse : Str → Option V) : Str → Option Str → V → Prop
  | plain {s v} : '@' ∉ s → parse s = some v → CrateMeaning u parse s none v
  | original {orig rest v} : CrateName u orig → parse rest = some v →
      CrateMeaning u parse (orig ++ '@' :: rest) (some orig) v

/-- `k` is what follows the last `/` of `r`. -/
def KeyOf (r k : Str) : Prop := ∃ pre, r = pre ++ '/' :: k ∧ '/' ∉ k

/-- The first entry of the components with a name. -/
def Defined {T : Type} (m : List (Str × RefOr T)) (k : Str) (x : RefOr T) : Prop :=
  ∃ pre post, m = pre ++ (k, x) :: post ∧ ∀ e ∈ pre, e.1 ≠ k

/-- One reference step. -/
def Refers {T : Type} (m : List (Str × RefOr T)) (a b : RefOr T) : Prop :=
  ∃ r k, a = .ref r ∧ KeyOf r k ∧ Defined m k b

/-- Following references leads to `x`. -/
inductive Denotes {T : Type} (m : List (Str × RefOr T)) : RefOr T → T → Prop
  | item (x) : Denotes m (.item x) x
  | step {a b x} : Refers m a b → Denotes m b x → Denotes m a x

/-- Zero or more reference steps. -/
inductive Leads {T : Type} (m : List (Str × RefOr T)) : RefOr T → RefOr T → Prop
  | refl (a) : Leads m a a
  | step {a b c} : Refers m a b → Leads m b c → Leads m a c

/-- Following references leads to one that names no component. -/
def Dangling {T : Type} (m : List (Str × RefOr T)) (a : RefOr T) : Prop :=
  ∃ b, Leads m a b ∧ (∃ r, b = .ref r) ∧ ∀ c, ¬ Refers m b c

/-- Following references leads into a cycle. -/
def Cyclic {T : Type} (m : List (Str × RefOr T)) (a : RefOr T) : Prop :=
  ∃ b c, Leads m a b ∧ Refers m b c ∧ Leads m c b

/-- The text `t` is `s` with newlines inserted. -/
inductive OnlyNewlines : Str → Str → Prop
  | nil : OnlyNewlines [] []
  | keep {s t} (c : Char) : OnlyNewlines s t → OnlyNewlines (c :: s) (c :: t)
  | insert {s t} : OnlyNewlines s t → OnlyNewlines s ('\n' :: t)

/-- More precisely: at ends of lines that end in `}`. -/
inductive Spaced : Str → Str → Prop
  | nil : Spaced [] []
  | keep {s t} (c : Char) : Spaced s t → Spaced (c :: s) (c :: t)
  | gap {s t} : Spaced s t → Spaced ('}' :: '\n' :: s) ('}' :: '\n' :: '\n' :: t)

end Progenitor.Spec

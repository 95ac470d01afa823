import Verif.Props.Schema

/-!
# C46: nullable schemas with enumerations
-/

namespace Progenitor.Props

open Progenitor Progenitor.Params Progenitor.Schema Progenitor.Spec

variable {ι : Interp}

/-- A schema that has a type and (except in properties and items) no combination of schemas. -/
def TypedEnum : OSchema → Prop
  | .string .. => True
  | .number .. => True
  | .integer .. => True
  | .boolean .. => True
  | .object .. => True
  | .array .. => True
  | .any _ k _ _ _ os as ys nt => k.typ ≠ none ∧ os = [] ∧ as = [] ∧ ys = [] ∧ nt = none
  | _ => False

/-- There is no enumeration, or null is listed in it. -/
def NullListed : OSchema → Prop
  | .string _ t => t.enumeration = [] ∨ none ∈ t.enumeration
  | .number _ t => t.enumeration = [] ∨ none ∈ t.enumeration
  | .integer _ t => t.enumeration = [] ∨ none ∈ t.enumeration
  | .boolean _ e => e = [] ∨ none ∈ e
  | .any _ k .. => k.enumeration = [] ∨ .null ∈ k.enumeration
  | _ => True

/-- Keywords other than type, format, enumeration and combinations accept null. -/
theorem rest_null_iff (hn : ∀ f, ι.format f .null) {o : SchemaObject} (hs : o.subs = none) :
    JValid ι { o with ty := none }.into .null ↔ IfGiven o.enum (.null ∈ ·) := by
  rw [jvalid_into]
  simp only [hs, ifGiven_none, JSub, true_and, and_true]
  constructor
  · exact fun h => h.2.1
  · exact fun h => ⟨given_null hn, h, given_null fun _ _ h => (by cases h), given_null fun _ _ h => (by cases h), jarr_null _, jobj_null _⟩

theorem enum_null {T : Type} {f : T → Json} (hf : ∀ x, f x ≠ .null) (l : List (Option T)) :
    IfGiven (convEnum f l) (Json.null ∈ ·) ↔ l = [] ∨ none ∈ l := by
  cases l with
  | nil => simp [convEnum, ifGiven_none]
  | cons x l =>
    simp only [convEnum, List.isEmpty_cons, Bool.false_eq_true, if_false, ifGiven_some, reduceCtorEq, false_or, List.mem_map]
    constructor
    · rintro ⟨y, hy, he⟩
      cases y with
      | none => exact hy
      | some y => exact absurd he (hf y)
    · exact fun h => ⟨none, h, rfl⟩

theorem type_nullable_iff {o : SchemaObject} {t : InstanceType} (ht : t ≠ .null) (v : Json) :
    JValid ι { o with ty := instanceType t true }.into v ↔
      (v = .null ∧ JValid ι { o with ty := none }.into .null) ∨ (v ≠ .null ∧ JValid ι { o with ty := instanceType t false }.into v) := by
  simp only [jvalid_into, ifGiven_none, true_and]
  rw [type_ok, type_ok]
  unfold TypeOk
  have hnull : ¬ HasType t .null := by cases t <;> simp_all [HasType]
  by_cases hv : v = .null
  · subst hv
    simp [hnull]
  · simp [hv]

/-- C46: for a schema with a type, `nullable` adds null if there is no enumeration or null is listed, and nothing else. -/
theorem C46_typed_iff (hn : ∀ f, ι.format f .null) {s : OSchema} (ht : TypedEnum s) {j1 j0 : JSchema}
    (h1 : conv (setNullable true s) = .ok j1) (h0 : conv (setNullable false s) = .ok j0) (v : Json) :
    JValid ι j1 v ↔ (v = .null ∧ NullListed s) ∨ (v ≠ .null ∧ JValid ι j0 v) := by
  cases s with
  | string n t =>
    cases h1; cases h0
    refine (type_nullable_iff (o := convString { n with nullable := true } t) (t := .string) (by decide) v).trans ?_
    rw [rest_null_iff hn rfl]
    exact or_congr (and_congr Iff.rfl (enum_null (by simp) _)) Iff.rfl
  | number n t =>
    cases h1; cases h0
    refine (type_nullable_iff (o := convNumber { n with nullable := true } t) (t := .number) (by decide) v).trans ?_
    rw [rest_null_iff hn rfl]
    exact or_congr (and_congr Iff.rfl (enum_null (by simp) _)) Iff.rfl
  | integer n t =>
    cases h1; cases h0
    refine (type_nullable_iff (o := convInteger { n with nullable := true } t) (t := .integer) (by decide) v).trans ?_
    rw [rest_null_iff hn rfl]
    exact or_congr (and_congr Iff.rfl (enum_null (by simp) _)) Iff.rfl
  | boolean n e =>
    cases h1; cases h0
    refine (type_nullable_iff (o := convBoolean { n with nullable := true } e) (t := .boolean) (by decide) v).trans ?_
    rw [rest_null_iff hn rfl]
    exact or_congr (and_congr Iff.rfl (enum_null (by simp) _)) Iff.rfl
  | object n k ps a =>
    simp only [setNullable, conv] at h1 h0
    obtain ⟨ps1, hp1, h1⟩ := bind_ok_inv h1
    obtain ⟨a1, ha1, h1⟩ := bind_ok_inv h1
    rw [hp1, Res.bind_ok, ha1] at h0
    cases h1; cases h0
    refine (type_nullable_iff (o := convObject { n with nullable := true } k ps1 a1) (t := .object) (by decide) v).trans ?_
    rw [rest_null_iff hn rfl]
    exact or_congr (and_congr Iff.rfl ⟨fun _ => trivial, fun _ => by simp [convObject, ifGiven_none]⟩) Iff.rfl
  | array n k i =>
    simp only [setNullable, conv] at h1 h0
    obtain ⟨i1, hi1, h1⟩ := bind_ok_inv h1
    rw [hi1] at h0
    cases h1; cases h0
    refine (type_nullable_iff (o := convArray { n with nullable := true } k i1) (t := .array) (by decide) v).trans ?_
    rw [rest_null_iff hn rfl]
    exact or_congr (and_congr Iff.rfl ⟨fun _ => trivial, fun _ => by simp [convArray, ifGiven_none]⟩) Iff.rfl
  | any n k ps a i os as ys nt =>
    simp only [setNullable, conv] at h1 h0
    obtain ⟨ht, rfl, rfl, rfl, rfl⟩ := ht
    obtain ⟨ps1, hps, h1⟩ := bind_ok_inv h1
    obtain ⟨a1, ha, h1⟩ := bind_ok_inv h1
    obtain ⟨i1, hi, h1⟩ := bind_ok_inv h1
    simp only [hps, ha, hi, Res.bind_ok, convList, convOpt] at h1 h0
    obtain ⟨o1, g1, h1'⟩ := bind_ok_inv h1
    obtain ⟨o0, g0, h0'⟩ := bind_ok_inv h0
    cases h1'; cases h0'
    obtain ⟨w, hw⟩ := Option.ne_none_iff_exists'.mp ht
    obtain ⟨t, low, high, e1, e2, e3, rfl⟩ := any_typed hw g1
    obtain ⟨t', low', high', f1, f2, f3, rfl⟩ := any_typed hw g0
    cases e1.symm.trans f1
    cases e2.symm.trans f2
    cases e3.symm.trans f3
    have hnt : t ≠ .null := by
      rintro rfl
      unfold typeOfName at f1
      repeat' split at f1
      all_goals cases f1
    refine (type_nullable_iff (o := anyObject { n with nullable := true } k ps1 a1 i1 [] [] [] none low high) hnt v).trans ?_
    rw [rest_null_iff hn rfl]
    refine or_congr (and_congr Iff.rfl ?_) Iff.rfl
    simp only [NullListed, anyObject, someList]
    cases k.enumeration <;> simp [ifGiven_none, ifGiven_some]
  | ref r => exact ht.elim
  | oneOf n l => exact ht.elim
  | allOf n l => exact ht.elim
  | anyOf n l => exact ht.elim
  | not n l => exact ht.elim

/- Nullable strings with an enumeration accept null exactly if it is listed. -/
example (hn : ∀ f, ι.format f .null) (n : Data) : ∃ j j', conv (.string { n with nullable := true } { plainString with enumeration := [some "a".toList] }) = .ok j ∧
    conv (.string { n with nullable := true } { plainString with enumeration := [some "a".toList, none] }) = .ok j' ∧
    ¬ JValid ι j .null ∧ JValid ι j' .null := by
  refine ⟨_, _, rfl, rfl, ?_, ?_⟩
  · rw [C46_typed_iff hn (s := .string n { plainString with enumeration := [some "a".toList] }) trivial rfl rfl]
    simp [NullListed]
  · rw [C46_typed_iff hn (s := .string n { plainString with enumeration := [some "a".toList, none] }) trivial rfl rfl]
    simp [NullListed]

end Progenitor.Props

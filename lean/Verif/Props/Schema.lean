import Verif.Spec.Schema
import Verif.Spec.Query
import Verif.Lemmas.BTree
import Verif.Lemmas.Params

/-!
# Theorems about schema conversion
-/

namespace Progenitor.Props

open Progenitor Progenitor.Params Progenitor.Schema Progenitor.Spec

variable {ι : Interp}

/-! ## Limits -/

theorem asU32_fits {n : Nat} (h : n < 2 ^ 32) : asU32 n = n := Nat.mod_eq_of_lt h

theorem map_asU32 {n : Option Nat} (h : Fits n) : n.map asU32 = n := by
  cases n with
  | none => rfl
  | some n => rw [Option.map_some, asU32_fits (h n rfl)]

/-- Distance. -/
def gap (a b : Nat) : Nat := (a - b) + (b - a)

def IsDoubleN (n : Nat) : Prop := ∃ m e : Nat, n = m * 2 ^ e ∧ m < 2 ^ 53

theorem log2_bounds {n : Nat} (h : 2 ^ 53 ≤ n) : ∃ e, n.log2 = e + 52 ∧ 2 ^ 52 * 2 ^ e ≤ n ∧ n < 2 ^ 53 * 2 ^ e := by
  have hn : n ≠ 0 := by intro h0; subst h0; simp at h
  have h1 : 2 ^ n.log2 ≤ n := Nat.log2_self_le hn
  have h2 : n < 2 ^ (n.log2 + 1) := Nat.lt_log2_self
  have h3 : 53 ≤ n.log2 := (Nat.le_log2 hn).mpr h
  refine ⟨n.log2 - 52, by omega, ?_, ?_⟩
  · rw [← Nat.pow_add]; rw [show 52 + (n.log2 - 52) = n.log2 by omega]; exact h1
  · rw [← Nat.pow_add]; rw [show 53 + (n.log2 - 52) = n.log2 + 1 by omega]; exact h2

/-- Nothing between two neighbours. -/
theorem double_grid {q e x : Nat} (hq : 2 ^ 52 ≤ q) (hx : IsDoubleN x) : x ≤ q * 2 ^ e ∨ (q + 1) * 2 ^ e ≤ x := by
  obtain ⟨m, f, rfl, hm⟩ := hx
  by_cases hf : e ≤ f
  · obtain ⟨k, rfl⟩ : ∃ k, f = e + k := ⟨f - e, by omega⟩
    have : m * 2 ^ (e + k) = (m * 2 ^ k) * 2 ^ e := by rw [Nat.pow_add]; ac_rfl
    rw [this]
    rcases Nat.lt_or_ge q (m * 2 ^ k) with h | h
    · exact .inr (Nat.mul_le_mul_right _ h)
    · exact .inl (Nat.mul_le_mul_right _ h)
  · left
    obtain ⟨k, rfl⟩ : ∃ k, e = f + k + 1 := ⟨e - f - 1, by omega⟩
    calc m * 2 ^ f ≤ 2 ^ 53 * 2 ^ f := Nat.mul_le_mul_right _ (by omega)
      _ = 2 ^ 52 * 2 ^ (f + 1) := by rw [Nat.pow_succ 2 f, Nat.pow_succ 2 52]; ac_rfl
      _ ≤ q * 2 ^ (f + k + 1) := Nat.mul_le_mul hq (Nat.pow_le_pow_right (by decide) (by omega))

/-- Rounded: a double, no double is nearer, and of two that are as near it is the one that is even. -/
theorem roundNat_nearest (n : Nat) : IsDoubleN (roundNat n) ∧ ∀ x, IsDoubleN x → gap (roundNat n) n ≤ gap x n ∧
    (gap x n = gap (roundNat n) n → x ≠ roundNat n → ∃ k, roundNat n = 2 * k * gap x (roundNat n)) := by
  by_cases hs : n < 2 ^ 53
  · have : roundNat n = n := by unfold roundNat; rw [if_pos hs]
    rw [this]
    refine ⟨⟨n, 0, by simp, hs⟩, fun x _ => ⟨by simp [gap], fun h hne => ?_⟩⟩
    unfold gap at h; omega
  · obtain ⟨e, h1, h2, h3⟩ := log2_bounds (Nat.le_of_not_lt hs)
    have hd : roundNat n = (if 2 * (n % 2 ^ e) < 2 ^ e then n / 2 ^ e else if 2 * (n % 2 ^ e) > 2 ^ e then n / 2 ^ e + 1
        else if (n / 2 ^ e) % 2 = 0 then n / 2 ^ e else n / 2 ^ e + 1) * 2 ^ e := by
      unfold roundNat
      rw [if_neg hs, h1]
      rfl
    have hp : 0 < 2 ^ e := Nat.pow_pos (by decide)
    have hq1 : 2 ^ 52 ≤ n / 2 ^ e := (Nat.le_div_iff_mul_le hp).mpr h2
    have hq2 : n / 2 ^ e < 2 ^ 53 := (Nat.div_lt_iff_lt_mul hp).mpr h3
    have hn : n = n / 2 ^ e * 2 ^ e + n % 2 ^ e := by rw [Nat.mul_comm]; exact (Nat.div_add_mod n (2 ^ e)).symm
    have hr : n % 2 ^ e < 2 ^ e := Nat.mod_lt _ hp
    have hgrid : ∀ x, IsDoubleN x → x ≤ n / 2 ^ e * 2 ^ e ∨ n / 2 ^ e * 2 ^ e + 2 ^ e ≤ x := by
      intro x hx
      have := double_grid (e := e) hq1 hx
      rwa [Nat.add_mul, Nat.one_mul] at this
    rw [hd]
    generalize hqd : n / 2 ^ e = q at *
    generalize hrd : n % 2 ^ e = r at *
    have hdbl : ∀ q', q' ≤ 2 ^ 53 → IsDoubleN (q' * 2 ^ e) := by
      intro q' h
      rcases Nat.lt_or_ge q' (2 ^ 53) with h' | h'
      · exact ⟨q', e, rfl, h'⟩
      · have : q' = 2 ^ 53 := by omega
        subst this
        exact ⟨2 ^ 52, e + 1, by rw [Nat.pow_succ 2 e, Nat.pow_succ 2 52]; ac_rfl, by decide⟩
    generalize hpd : 2 ^ e = p at *
    generalize hqp : q * p = s at *
    have hs1 : (q + 1) * p = s + p := by rw [Nat.add_mul, Nat.one_mul, hqp]
    have heven : ∀ m, m % 2 = 0 → ∃ k, m * p = 2 * k * p := fun m hm => ⟨m / 2, by congr 1; omega⟩
    split
    · refine ⟨hdbl q (by omega), fun x hx => ?_⟩
      rw [hqp]
      unfold gap
      rcases hgrid x hx with h | h
      · exact ⟨by omega, fun h' hne => by omega⟩
      · exact ⟨by omega, fun h' hne => by omega⟩
    · split
      · refine ⟨hdbl (q + 1) (by omega), fun x hx => ?_⟩
        rw [hs1]
        unfold gap
        rcases hgrid x hx with h | h
        · exact ⟨by omega, fun h' hne => by omega⟩
        · exact ⟨by omega, fun h' hne => by omega⟩
      · split
        · rename_i hev
          refine ⟨hdbl q (by omega), fun x hx => ?_⟩
          obtain ⟨k, hk⟩ := heven q hev
          rw [hqp] at hk ⊢
          have : gap x n = gap s n → x ≠ s → gap x s = p := by
            unfold gap
            rcases hgrid x hx with h | h <;> intros <;> omega
          refine ⟨?_, fun h' hne => ⟨k, by rw [this h' hne]; exact hk⟩⟩
          unfold gap
          rcases hgrid x hx with h | h <;> omega
        · rename_i hev
          refine ⟨hdbl (q + 1) (by omega), fun x hx => ?_⟩
          obtain ⟨k, hk⟩ := heven (q + 1) (by omega)
          rw [hs1] at hk ⊢
          have : gap x n = gap (s + p) n → x ≠ s + p → gap x (s + p) = p := by
            unfold gap
            rcases hgrid x hx with h | h <;> intros <;> omega
          refine ⟨?_, fun h' hne => ⟨k, by rw [this h' hne]; exact hk⟩⟩
          unfold gap
          rcases hgrid x hx with h | h <;> omega

theorem isDouble_natAbs {i : Int} : IsDouble i ↔ IsDoubleN i.natAbs := Iff.rfl

theorem roundNat_zero : roundNat 0 = 0 := rfl

theorem asF64_rounded (i : Int) : ∃ r : Int, asF64 i = (r : Rat) ∧ RoundedTo i r := by
  obtain ⟨h1, h2⟩ := roundNat_nearest i.natAbs
  generalize hg : roundNat i.natAbs = g at h1 h2
  have h0 : i = 0 → g = 0 := by rintro rfl; rw [← hg]; rfl
  refine ⟨if i < 0 then -(g : Int) else g, ?_, ?_, fun x hx => ?_, fun x hx he hne => ?_⟩
  · unfold asF64; rw [hg]
  · rw [isDouble_natAbs]
    have : (if i < 0 then -(g : Int) else g).natAbs = g := by split <;> omega
    rw [this]; exact h1
  · have := (h2 x.natAbs hx).1
    unfold gap at this
    split <;> omega
  · obtain ⟨h3, h4⟩ := h2 x.natAbs hx
    have hx0 : x.natAbs ≠ g ∨ ¬ ((x < 0 ∧ i < 0) ∨ (0 ≤ x ∧ 0 ≤ i)) := by
      by_cases hi : i < 0
      · rw [if_pos hi] at hne; omega
      · rw [if_neg hi] at hne; omega
    by_cases hsame : (x ≤ 0 ∧ i < 0) ∨ (0 ≤ x ∧ 0 ≤ i)
    · have hxg : x.natAbs ≠ g := by
        by_cases hi : i < 0
        · rw [if_pos hi] at hne; omega
        · rw [if_neg hi] at hne; omega
      obtain ⟨k, hk⟩ := h4 (by unfold gap; by_cases hi : i < 0 <;> simp only [hi, if_true, if_false] at he <;> omega) hxg
      by_cases hi : i < 0
      · rw [if_pos hi]
        refine ⟨-(k : Int), ?_⟩
        have hgap : (x - -(g : Int)).natAbs = gap x.natAbs g := by unfold gap; omega
        rw [hgap]
        have : (g : Int) = 2 * (k : Int) * (gap x.natAbs g : Int) := by exact_mod_cast hk
        rw [Int.mul_neg, Int.neg_mul, ← this]
      · rw [if_neg hi]
        refine ⟨(k : Int), ?_⟩
        have hgap : (x - (g : Int)).natAbs = gap x.natAbs g := by unfold gap; omega
        rw [hgap]
        exact_mod_cast hk
    · exfalso
      clear h4
      unfold gap at h3
      by_cases hi : i < 0
      · rw [if_pos hi] at he; omega
      · rw [if_neg hi] at he; omega

theorem asF64_fits {i : Int} (h : IsDouble i) : asF64 i = (i : Rat) := by
  obtain ⟨r, h1, h2⟩ := asF64_rounded i
  have := h2.nearest i h
  have : r = i := by omega
  rw [h1, this]

theorem asF64_exact (i : Int) : asF64 i = (i : Rat) ↔ IsDouble i := by
  refine ⟨fun h => ?_, asF64_fits⟩
  obtain ⟨r, h1, h2⟩ := asF64_rounded i
  rw [h1, Rat.intCast_inj] at h
  exact h ▸ h2.double

theorem small_double {i : Int} (h : i.natAbs ≤ 2 ^ 53) : IsDouble i := by
  rcases Nat.lt_or_ge i.natAbs (2 ^ 53) with h' | h'
  · exact ⟨i.natAbs, 0, by simp, h'⟩
  · exact ⟨2 ^ 52, 1, by omega, by decide⟩

theorem map_asF64 {i : Option Int} (h : FitsInt i) : i.map asF64 = i.map fun i : Int => (i : Rat) := by
  cases i with
  | none => rfl
  | some i => rw [Option.map_some, Option.map_some, asF64_fits (h i rfl)]

/-! ## Keywords -/

theorem ifGiven_none {α : Type} {p : α → Prop} : IfGiven none p ↔ True := ⟨fun _ => trivial, fun _ _ h => nomatch h⟩

theorem ifGiven_some {α : Type} {a : α} {p : α → Prop} : IfGiven (some a) p ↔ p a :=
  ⟨fun h => h a rfl, fun h b hb => by cases hb; exact h⟩

theorem format_eq {T : Type} {text : T → Str} {text' : T → String} (h : ∀ t, text t = (text' t).toList) (f : Format T) :
    convFormat text f = formatText text' f := by
  cases f with
  | item t => simp [convFormat, formatText, h]
  | unknown s => rfl
  | empty => rfl

theorem enum_ok {T : Type} (f : T → Json) (l : List (Option T)) (v : Json) :
    IfGiven (convEnum f l) (v ∈ ·) ↔ EnumOk (l.map (valueOf f)) v := by
  have hv : convValue f = valueOf f := by
    funext x
    cases x <;> rfl
  unfold convEnum EnumOk
  cases l with
  | nil => simp [ifGiven_none]
  | cons a l => simp [ifGiven_some, hv]

theorem someEnum_ok (l : List Json) (v : Json) : IfGiven (someList l) (v ∈ ·) ↔ EnumOk l v := by
  unfold someList EnumOk
  cases l with
  | nil => simp [ifGiven_none]
  | cons a l => simp [ifGiven_some]

theorem type_ok (t : InstanceType) (n : Bool) (v : Json) : IfGiven (instanceType t n) (JTypeOk · v) ↔ TypeOk t n v := by
  unfold instanceType TypeOk
  cases n
  · simp [ifGiven_some, JTypeOk]
  · simp [ifGiven_some, JTypeOk, HasType]

theorem reduce_ok {T : Type} {isDefault : T → Bool} {x : T} {p : T → Prop} (h : isDefault x = true → p x) :
    IfGiven (reduce isDefault x) p ↔ p x := by
  unfold reduce
  split
  · rename_i hd; simp [ifGiven_none, h hd]
  · exact ifGiven_some

theorem strOk_none (v : Json) : StrOk ι none none none v := fun _ _ => ⟨ifGiven_none.mpr trivial, ifGiven_none.mpr trivial, ifGiven_none.mpr trivial⟩

theorem jnum_none (v : Json) : JNumOk ⟨none, none, none, none, none⟩ v := fun _ _ =>
  ⟨ifGiven_none.mpr trivial, ifGiven_none.mpr trivial, ifGiven_none.mpr trivial, ifGiven_none.mpr trivial, ifGiven_none.mpr trivial⟩

theorem arrOk_none (v : Json) : ArrOk none none none false v := fun _ _ =>
  ⟨ifGiven_none.mpr trivial, ifGiven_none.mpr trivial, ifGiven_none.mpr trivial, fun h => nomatch h⟩

theorem objOk_none (v : Json) : ObjOk [] [] none none none v := fun _ _ =>
  ⟨by simp, by simp, ifGiven_none.mpr trivial, ifGiven_none.mpr trivial, ifGiven_none.mpr trivial⟩

/-- Limits of JSON schema for limits of OpenAPI. -/
theorem num_ok (m lo hi : Option Rat) (exLo exHi : Bool) (v : Json) :
    JNumOk ⟨m, if exHi then none else hi, if exHi then hi else none, if exLo then none else lo, if exLo then lo else none⟩ v ↔
      NumOk m lo exLo hi exHi v := by
  unfold JNumOk NumOk
  refine forall_congr' fun q => imp_congr_right fun _ => and_congr_right fun _ => ?_
  cases exLo <;> cases exHi <;> simp [ifGiven_none]

theorem NumV.default_eq {n : NumV} (h : n.isDefault = true) : n = ⟨none, none, none, none, none⟩ := by
  obtain ⟨a, b, c, d, e⟩ := n
  simp only [NumV.isDefault, Bool.and_eq_true, Option.isNone_iff_eq_none] at h
  obtain ⟨⟨⟨⟨rfl, rfl⟩, rfl⟩, rfl⟩, rfl⟩ := h
  rfl

theorem StrV.default_eq {n : StrV} (h : n.isDefault = true) : n = ⟨none, none, none⟩ := by
  obtain ⟨a, b, c⟩ := n
  simp only [StrV.isDefault, Bool.and_eq_true, Option.isNone_iff_eq_none] at h
  obtain ⟨⟨rfl, rfl⟩, rfl⟩ := h
  rfl

theorem ArrV.default_eq {n : ArrV JSchema} (h : n.isDefault = true) : n = ⟨none, none, none, none⟩ := by
  obtain ⟨a, b, c, d⟩ := n
  simp only [ArrV.isDefault, Bool.and_eq_true, Option.isNone_iff_eq_none] at h
  obtain ⟨⟨⟨rfl, rfl⟩, rfl⟩, rfl⟩ := h
  rfl

theorem ObjV.default_eq {n : ObjV JSchema} (h : n.isDefault = true) : n = ⟨none, none, [], [], none⟩ := by
  obtain ⟨a, b, c, d, e⟩ := n
  simp only [ObjV.isDefault, Bool.and_eq_true, Option.isNone_iff_eq_none, List.isEmpty_iff] at h
  obtain ⟨⟨⟨⟨rfl, rfl⟩, rfl⟩, rfl⟩, rfl⟩ := h
  rfl

theorem jarr_reduce (a : ArrV JSchema) (v : Json) : JArr ι (reduce ArrV.isDefault a) v ↔ JArr ι (some a) v := by
  unfold reduce
  split
  · rename_i h
    rw [ArrV.default_eq h]
    simp only [JArr, JOpt]
    exact ⟨fun _ => arrOk_none v, fun _ => trivial⟩
  · rfl

theorem jobj_reduce (a : ObjV JSchema) (v : Json) : JObj ι (reduce ObjV.isDefault a) v ↔ JObj ι (some a) v := by
  unfold reduce
  split
  · rename_i h
    rw [ObjV.default_eq h]
    simp only [JObj, JOpt, JProps]
    exact ⟨fun _ => objOk_none v, fun _ => trivial⟩
  · rfl

theorem objOk_mem {ps ps' : List (Str × Pred)} (h : ∀ e, e ∈ ps ↔ e ∈ ps') (r : List Str) (a : Option Pred) (lo hi : Option Nat) (v : Json) :
    ObjOk ps r a lo hi v ↔ ObjOk ps' r a lo hi v := by
  have hk : ∀ k, k ∈ ps.map Prod.fst ↔ k ∈ ps'.map Prod.fst := by
    intro k
    simp only [List.mem_map]
    exact exists_congr fun e => and_congr_left fun _ => h e
  unfold ObjOk
  simp only [h, hk]

theorem jprops_map (ps : List (Str × JSchema)) : JProps ι ps = ps.map fun e => (e.1, JValid ι e.2) := by
  induction ps with
  | nil => rfl
  | cons e ps ih => obtain ⟨k, s⟩ := e; simp [JProps, ih]

theorem jlist_map (l : List JSchema) : JList ι l = l.map (JValid ι) := by
  induction l with
  | nil => rfl
  | cons s l ih => simp [JList, ih]

theorem olist_map (l : List OSchema) : OList ι l = l.map (OValid ι) := by
  induction l with
  | nil => rfl
  | cons s l ih => simp [OList, ih]

theorem jprops_sorted {ps : List (Str × JSchema)} (hn : (ps.map Prod.fst).Nodup) (e : Str × Pred) :
    e ∈ JProps ι (BTree.insertAll [] ps) ↔ e ∈ JProps ι ps := by
  rw [jprops_map, jprops_map, List.mem_map, List.mem_map]
  refine exists_congr fun x => and_congr_left fun _ => ?_
  rw [(BTree.insertAll_perm (m := []) hn (by simp)).mem_iff]
  simp

/-! ## Nullable combinations -/

theorem jvalid_into (o : SchemaObject) (v : Json) : JValid ι o.into v ↔
    IfGiven o.ty (JTypeOk · v) ∧ IfGiven o.format (ι.format · v) ∧ IfGiven o.enum (v ∈ ·) ∧ IfGiven o.number (JNumOk · v) ∧
      IfGiven o.string (fun s => StrOk ι s.minLength s.maxLength s.pattern v) ∧ JArr ι o.array v ∧ JObj ι o.object v ∧
      JSub ι o.subs v := by
  unfold SchemaObject.into
  simp only [JValid]

theorem jsub_one (d : Data) (l : List JSchema) (v : Json) : JValid ι (subOne d l).into v ↔ OneOf (JList ι l) v := by
  rw [jvalid_into]
  simp only [subOne, ifGiven_none, JArr, JObj, JSub, JListOpt, JOpt, ifGiven_some, true_and, and_true]

theorem jsub_all (d : Data) (l : List JSchema) (v : Json) : JValid ι (subAll d l).into v ↔ AllOf (JList ι l) v := by
  rw [jvalid_into]
  simp only [subAll, ifGiven_none, JArr, JObj, JSub, JListOpt, JOpt, ifGiven_some, true_and, and_true]

theorem jsub_any (d : Data) (l : List JSchema) (v : Json) : JValid ι (subAny d l).into v ↔ AnyOf (JList ι l) v := by
  rw [jvalid_into]
  simp only [subAny, ifGiven_none, JArr, JObj, JSub, JListOpt, JOpt, ifGiven_some, true_and, and_true]

theorem jsub_not (d : Data) (s : JSchema) (v : Json) : JValid ι (subNot d s).into v ↔ ¬ JValid ι s v := by
  rw [jvalid_into]
  simp only [subNot, ifGiven_none, JArr, JObj, JSub, JListOpt, JOpt, ifGiven_some, true_and]

theorem oneOf_two (p q : Pred) (v : Json) : OneOf [p, q] v ↔ (p v ∧ ¬ q v) ∨ (¬ p v ∧ q v) := by
  constructor
  · rintro ⟨pre, x, post, h, hx, hn⟩
    match pre, h with
    | [], h => cases h; exact .inl ⟨hx, hn q (by simp)⟩
    | [_], h => cases h; exact .inr ⟨hn p (by simp), hx⟩
    | _ :: _ :: pre, h => simp at h
  · rintro (⟨h1, h2⟩ | ⟨h1, h2⟩)
    · exact ⟨[], p, [q], rfl, h1, by simpa using h2⟩
    · exact ⟨[p], q, [], rfl, h2, by simpa using h1⟩

/-- What the wrapper for nullable schemas does: `null` is accepted iff the schema rejects it. -/
theorem wrapper_ok (o : SchemaObject) (v : Json) :
    JValid ι (nullableWrapper o true).into v ↔ (v = .null ∧ ¬ JValid ι o.into .null) ∨ (v ≠ .null ∧ JValid ι o.into v) := by
  unfold nullableWrapper
  rw [if_pos rfl, jvalid_into]
  simp only [ifGiven_none, JArr, JObj, JSub, JListOpt, JOpt, JList, ifGiven_some, true_and, and_true]
  rw [oneOf_two, jvalid_into]
  simp only [ifGiven_none, ifGiven_some, JTypeOk, HasType, JArr, JObj, JSub, and_true]
  constructor
  · rintro (⟨rfl, h⟩ | h)
    · exact .inl ⟨rfl, h⟩
    · exact .inr h
  · rintro (⟨rfl, h⟩ | h)
    · exact .inl ⟨rfl, h⟩
    · exact .inr h

theorem wrapper_false (o : SchemaObject) : nullableWrapper o false = o := rfl

/-- With a schema that rejects `null`, the wrapper adds `null`. -/
theorem wrapper_nullable {o : SchemaObject} {n : Bool} {p : Pred} (hp : ∀ v, JValid ι o.into v ↔ p v) (hn : n = true → ¬ p .null) :
    JValid ι (nullableWrapper o n).into = fun v => (n = true ∧ v = .null) ∨ p v := by
  funext v
  apply propext
  cases n
  · rw [wrapper_false, hp]; simp
  · rw [wrapper_ok, hp, hp]
    have := hn rfl
    constructor
    · rintro (⟨rfl, -⟩ | ⟨-, h⟩)
      · exact .inl ⟨rfl, rfl⟩
      · exact .inr h
    · rintro (⟨-, rfl⟩ | h)
      · exact .inl ⟨rfl, this⟩
      · refine .inr ⟨?_, h⟩
        rintro rfl
        exact this h

/-! ## Schemas of kind `Any` -/

theorem limit_ok {what : String} {m : Option Rat} {ex : Option Bool} {r : Option Rat × Option Rat} (h : limit what m ex = .ok r) :
    r = (if ex.getD false then none else m, if ex.getD false then m else none) := by
  cases m <;> rcases ex with _ | _ | _ <;> cases h <;> rfl

theorem ite_given {T : Type} {c : Bool} {x : T} {p : T → Prop} (h : c = false → p x) :
    IfGiven (if c = true then some x else none) p ↔ p x := by
  cases c
  · simp [ifGiven_none, h rfl]
  · simp [ifGiven_some]

theorem someList_given {ps : List JSchema} {p : List Pred → Prop} :
    IfGiven (JListOpt ι (someList ps)) p ↔ (JList ι ps ≠ [] → p (JList ι ps)) := by
  unfold someList
  cases ps with
  | nil => simp [JListOpt, ifGiven_none, JList]
  | cons s l => simp [JListOpt, ifGiven_some, JList]

theorem anyObject_ok {k : AnyKeywords} {ps : List (Str × JSchema)} {a i : Option JSchema} {os as ys : List JSchema}
    {nt : Option JSchema} {low high : Option Rat × Option Rat}
    (hfits : Fits k.minProperties ∧ Fits k.maxProperties ∧ Fits k.minItems ∧ Fits k.maxItems ∧ Fits k.minLength ∧ Fits k.maxLength)
    (hn : (ps.map Prod.fst).Nodup) {w w' : String} (hl : limit w k.minimum k.exclusiveMinimum = .ok low)
    (hh : limit w' k.maximum k.exclusiveMaximum = .ok high) (ty : Option SingleOrVec) (v : Json) :
    JValid ι { anyObject d k ps a i os as ys nt low high with ty }.into v ↔
      IfGiven ty (JTypeOk · v) ∧
      AnyOk ι k (JProps ι ps) (JOpt ι a) (JOpt ι i) (JList ι os) (JList ι as) (JList ι ys) (JOpt ι nt) v := by
  obtain ⟨f1, f2, f3, f4, f5, f6⟩ := hfits
  rw [jvalid_into]
  unfold AnyOk
  simp only [anyObject]
  refine and_congr_right fun _ => and_congr_right fun _ => and_congr (someEnum_ok _ _) ?_
  rw [limit_ok hl, limit_ok hh]
  have hnum : IfGiven (if (k.multipleOf.isSome || k.minimum.isSome || k.maximum.isSome) = true then
      some (⟨k.multipleOf, if k.exclusiveMaximum.getD false then none else k.maximum,
        if k.exclusiveMaximum.getD false then k.maximum else none,
        if k.exclusiveMinimum.getD false then none else k.minimum,
        if k.exclusiveMinimum.getD false then k.minimum else none⟩ : NumV) else none) (JNumOk · v) ↔
      NumOk k.multipleOf k.minimum (k.exclusiveMinimum.getD false) k.maximum (k.exclusiveMaximum.getD false) v := by
    rw [ite_given]
    · exact num_ok ..
    · intro hc
      simp only [Bool.or_eq_false_iff, Option.isSome_eq_false_iff, Option.isNone_iff_eq_none] at hc
      obtain ⟨⟨h1, h2⟩, h3⟩ := hc
      rw [h1, h2, h3]
      simp only [ite_self]
      exact jnum_none v
  have hstr : IfGiven (if (k.pattern.isSome || k.minLength.isSome || k.maxLength.isSome) = true then
      some (⟨k.maxLength.map asU32, k.minLength.map asU32, k.pattern⟩ : StrV) else none)
      (fun s => StrOk ι s.minLength s.maxLength s.pattern v) ↔ StrOk ι k.minLength k.maxLength k.pattern v := by
    rw [map_asU32 f5, map_asU32 f6, ite_given]
    intro hc
    simp only [Bool.or_eq_false_iff, Option.isSome_eq_false_iff, Option.isNone_iff_eq_none] at hc
    obtain ⟨⟨h1, h2⟩, h3⟩ := hc
    rw [h1, h2, h3]
    exact strOk_none v
  have harr : JArr ι (if (i.isSome || k.minItems.isSome || k.maxItems.isSome || k.uniqueItems.isSome) = true then
      some (⟨i, k.maxItems.map asU32, k.minItems.map asU32, k.uniqueItems⟩ : ArrV JSchema) else none) v ↔
      ArrOk (JOpt ι i) k.minItems k.maxItems (k.uniqueItems.getD false) v := by
    rw [map_asU32 f3, map_asU32 f4]
    split
    · simp only [JArr]
    · rename_i hc
      simp only [Bool.not_eq_true, Bool.or_eq_false_iff, Option.isSome_eq_false_iff, Option.isNone_iff_eq_none] at hc
      obtain ⟨⟨⟨h1, h2⟩, h3⟩, h4⟩ := hc
      rw [h1, h2, h3, h4]
      exact ⟨fun _ => arrOk_none v, fun _ => by simp only [JArr]⟩
  have hobj : JObj ι (if (!ps.isEmpty || !k.required.isEmpty || a.isSome || k.minProperties.isSome || k.maxProperties.isSome) = true then
      some (⟨k.maxProperties.map asU32, k.minProperties.map asU32, k.required, BTree.insertAll [] ps, a⟩ : ObjV JSchema) else none) v ↔
      ObjOk (JProps ι ps) k.required (JOpt ι a) k.minProperties k.maxProperties v := by
    rw [map_asU32 f1, map_asU32 f2]
    split
    · simp only [JObj]
      exact objOk_mem (jprops_sorted hn) ..
    · rename_i hc
      simp only [Bool.not_eq_true, Bool.or_eq_false_iff, Option.isSome_eq_false_iff, Option.isNone_iff_eq_none,
        Bool.not_eq_false', List.isEmpty_iff] at hc
      obtain ⟨⟨⟨⟨h1, h2⟩, h3⟩, h4⟩, h5⟩ := hc
      rw [h1, h2, h3, h4, h5]
      exact ⟨fun _ => objOk_none v, fun _ => by simp only [JObj]⟩
  have hsub : JSub ι (if (!os.isEmpty || !as.isEmpty || !ys.isEmpty || nt.isSome) = true then
      some (⟨someList as, someList ys, someList os, nt⟩ : SubV JSchema) else none) v ↔
      (JList ι os ≠ [] → OneOf (JList ι os) v) ∧ (JList ι as ≠ [] → AllOf (JList ι as) v) ∧
      (JList ι ys ≠ [] → AnyOf (JList ι ys) v) ∧ IfGiven (JOpt ι nt) (fun p => ¬ p v) := by
    split
    · simp only [JSub, someList_given]
      constructor
      · rintro ⟨h1, h2, h3, h4⟩; exact ⟨h3, h1, h2, h4⟩
      · rintro ⟨h1, h2, h3, h4⟩; exact ⟨h2, h3, h1, h4⟩
    · rename_i hc
      simp only [Bool.not_eq_true, Bool.or_eq_false_iff, Option.isSome_eq_false_iff, Option.isNone_iff_eq_none,
        Bool.not_eq_false', List.isEmpty_iff] at hc
      obtain ⟨⟨⟨h1, h2⟩, h3⟩, h4⟩ := hc
      rw [h1, h2, h3, h4]
      simp [JSub, JList, JOpt, ifGiven_none]
  rw [hnum, hstr, harr, hobj, hsub]
  constructor
  · rintro ⟨h1, h2, h3, h4, h5⟩; exact ⟨h2, h1, h4, h3, h5⟩
  · rintro ⟨h1, h2, h3, h4, h5⟩; exact ⟨h2, h1, h4, h3, h5⟩

/-- The meaning of a schema of kind `Any` in terms of its keywords. -/
def anySem (n : Bool) (k : AnyKeywords) (ok : Pred) : Pred :=
  match k.typ with
  | none => fun v => (n = true ∧ v = .null ∧ EnumOk k.enumeration .null) ∨ ok v
  | some s => fun v => (∃ t, typeNamed s = some t ∧ TypeOk t n v) ∧ ok v

theorem typeOfName_ok {s : Str} {t : InstanceType} : typeOfName s = .ok t ↔ typeNamed s = some t := by
  unfold typeOfName typeNamed
  simp only [List.findSome?_cons, List.findSome?_nil]
  have e : ∀ x : String, (x.toList = s) = (s = x.toList) := fun x => propext eq_comm
  simp only [e]
  by_cases h1 : s = "boolean".toList
  · simp [h1]
  by_cases h2 : s = "object".toList
  · simp only [if_neg h1, if_pos h2]; simp
  by_cases h3 : s = "array".toList
  · simp only [if_neg h1, if_neg h2, if_pos h3]; simp
  by_cases h4 : s = "number".toList
  · simp only [if_neg h1, if_neg h2, if_neg h3, if_pos h4]; simp
  by_cases h5 : s = "string".toList
  · simp only [if_neg h1, if_neg h2, if_neg h3, if_neg h4, if_pos h5]; simp
  by_cases h6 : s = "integer".toList
  · simp only [if_neg h1, if_neg h2, if_neg h3, if_neg h4, if_neg h5, if_pos h6]; simp
  simp only [if_neg h1, if_neg h2, if_neg h3, if_neg h4, if_neg h5, if_neg h6]
  simp

theorem typeNamed_not_null {s : Str} : typeNamed s ≠ some .null := by
  intro h
  unfold typeNamed at h
  obtain ⟨⟨n, t⟩, he, h⟩ := List.exists_of_findSome?_eq_some h
  simp only at h
  split at h
  · injection h with h
    simp only [List.mem_cons, List.not_mem_nil, or_false, Prod.mk.injEq] at he
    rcases he with ⟨-, rfl⟩ | ⟨-, rfl⟩ | ⟨-, rfl⟩ | ⟨-, rfl⟩ | ⟨-, rfl⟩ | ⟨-, rfl⟩ <;> cases h
  · cases h

section
variable {k : AnyKeywords} {ps : List (Str × JSchema)} {a i : Option JSchema} {os as ys : List JSchema} {nt : Option JSchema}

theorem nothing_iff :
    (k.bare && ps.isEmpty && a.isNone && i.isNone && os.isEmpty && as.isEmpty && ys.isEmpty && nt.isNone) = true ↔
      k.typ = none ∧ NoKeywords k ps a i os as ys nt := by
  simp only [AnyKeywords.bare, Bool.and_eq_true, Option.isNone_iff_eq_none, List.isEmpty_iff]
  constructor
  · rintro ⟨⟨⟨⟨⟨⟨⟨⟨⟨⟨⟨⟨⟨⟨⟨⟨⟨⟨⟨⟨⟨⟨h1, h2⟩, h3⟩, h4⟩, h5⟩, h6⟩, h7⟩, h8⟩, h9⟩, h10⟩, h11⟩, h12⟩, h13⟩, h14⟩, h15⟩, h16⟩, h17⟩, h18⟩, h19⟩, h20⟩, h21⟩, h22⟩, h23⟩
    exact ⟨h1, ⟨h2, h15, h16⟩, ⟨h3, h6, h7, h4, h5⟩, ⟨h17, h8, h18, h9, h10⟩, ⟨h19, h11, h12, h13⟩, ⟨h20, h21, h22, h23⟩, h14⟩
  · rintro ⟨h1, ⟨h2, h15, h16⟩, ⟨h3, h6, h7, h4, h5⟩, ⟨h17, h8, h18, h9, h10⟩, ⟨h19, h11, h12, h13⟩, ⟨h20, h21, h22, h23⟩, h14⟩
    exact ⟨⟨⟨⟨⟨⟨⟨⟨⟨⟨⟨⟨⟨⟨⟨⟨⟨⟨⟨⟨⟨⟨h1, h2⟩, h3⟩, h4⟩, h5⟩, h6⟩, h7⟩, h8⟩, h9⟩, h10⟩, h11⟩, h12⟩, h13⟩, h14⟩, h15⟩, h16⟩, h17⟩, h18⟩, h19⟩, h20⟩, h21⟩, h22⟩, h23⟩

/-- Without keywords only the enumeration matters. -/
theorem anyOk_nothing (h : NoKeywords k ps a i os as ys nt) (v : Json) :
    AnyOk ι k (JProps ι ps) (JOpt ι a) (JOpt ι i) (JList ι os) (JList ι as) (JList ι ys) (JOpt ι nt) v ↔ EnumOk k.enumeration v := by
  obtain ⟨⟨a1, a2, a3⟩, ⟨b1, b2, b3, b4, b5⟩, ⟨c1, c2, c3, c4, c5⟩, ⟨d1, d2, d3, d4⟩, ⟨e1, e2, e3, e4⟩, f⟩ := h
  unfold AnyOk
  rw [a1, a2, a3, b1, b2, b3, b4, b5, c1, c2, c3, c4, c5, d1, d2, d3, d4, e1, e2, e3, e4, f]
  simp only [JProps, JOpt, JList, ifGiven_none, ne_eq, not_true_eq_false, false_implies, and_true, true_and]
  constructor
  · exact fun h => h.1
  · refine fun h => ⟨h, strOk_none v, ?_, objOk_none v, arrOk_none v⟩
    exact fun q _ => ⟨ifGiven_none.mpr trivial, ifGiven_none.mpr trivial, ifGiven_none.mpr trivial⟩

theorem convAny_ok {d : Data} {o : SchemaObject}
    (hfits : Fits k.minProperties ∧ Fits k.maxProperties ∧ Fits k.minItems ∧ Fits k.maxItems ∧ Fits k.minLength ∧ Fits k.maxLength)
    (hn : (ps.map Prod.fst).Nodup)
    (hnull : d.nullable = true → k.typ = none →
      (NoKeywords k ps a i os as ys nt ∧ (k.enumeration = [] ∨ k.enumeration = [.null])) ∨
      (OnlySubschemas k ps a i os as ys nt ∧ EnumOk k.enumeration .null ∧
        ¬ AnyOk ι k (JProps ι ps) (JOpt ι a) (JOpt ι i) (JList ι os) (JList ι as) (JList ι ys) (JOpt ι nt) .null))
    (h : convAny d k ps a i os as ys nt = .ok o) :
    JValid ι o.into =
      anySem d.nullable k (AnyOk ι k (JProps ι ps) (JOpt ι a) (JOpt ι i) (JList ι os) (JList ι as) (JList ι ys) (JOpt ι nt)) := by
  unfold convAny at h
  simp only at h
  split at h
  · rename_i h1 h2
    obtain ⟨ht, hk⟩ := nothing_iff.mp h1
    cases h
    funext v
    apply propext
    unfold anySem
    rw [ht]
    simp only [anyOk_nothing hk, h2]
    rw [jvalid_into]
    simp [ifGiven_none, JArr, JObj, JSub, EnumOk]
  · rename_i h1 h2
    obtain ⟨ht, hk⟩ := nothing_iff.mp h1
    cases h
    funext v
    apply propext
    unfold anySem
    rw [ht]
    simp only [anyOk_nothing hk, h2]
    rw [jvalid_into]
    simp only [ifGiven_none, ifGiven_some, JTypeOk, HasType, JArr, JObj, JSub, EnumOk]
    constructor
    · rintro ⟨rfl, -⟩; exact .inr (.inr (by simp))
    · rintro (⟨-, rfl, -⟩ | h)
      · simp
      · simpa using h
  · rename_i h1 h2
    obtain ⟨low, hl, h⟩ := bind_ok_inv h
    obtain ⟨high, hh, h⟩ := bind_ok_inv h
    obtain ⟨ty, hty, h⟩ := bind_ok_inv h
    have key := fun ty v => anyObject_ok (ι := ι) (d := d) (k := k) (ps := ps) (a := a) (i := i) (os := os) (as := as) (ys := ys) (nt := nt)
      hfits hn hl hh ty v
    generalize hok : AnyOk ι k (JProps ι ps) (JOpt ι a) (JOpt ι i) (JList ι os) (JList ι as) (JList ι ys) (JOpt ι nt) = ok at *
    unfold anySem
    cases ht : k.typ with
    | some s =>
      rw [ht] at hty
      obtain ⟨t, hs, hty⟩ := bind_ok_inv hty
      cases hty
      have hs' := typeOfName_ok.mp hs
      rw [if_neg] at h
      · cases h
        funext v
        apply propext
        rw [key, type_ok]
        constructor
        · rintro ⟨h3, h4⟩; exact ⟨⟨t, hs', h3⟩, h4⟩
        · rintro ⟨⟨t', h3, h4⟩, h5⟩
          rw [hs'] at h3
          cases h3
          exact ⟨h4, h5⟩
      · rintro ⟨h3, -⟩
        unfold instanceType at h3
        split at h3
        · cases h3
        · cases h3
          exact typeNamed_not_null hs'
    | none =>
      rw [ht] at hty
      cases hnd : d.nullable with
      | false =>
        rw [hnd] at hty
        cases hty
        rw [if_neg (by simp)] at h
        cases h
        funext v
        apply propext
        rw [key]
        simp [ifGiven_none]
      | true =>
        rw [hnd] at hty
        cases hty
        rcases hnull hnd ht with ⟨h3, h4⟩ | ⟨⟨⟨a1, a2, a3⟩, ⟨b1, b2, b3⟩, ⟨c1, c2, c3, c4, c5⟩, ⟨d1, d2, d3, d4⟩, hs⟩, h4, h5⟩
        · have := nothing_iff.mpr ⟨ht, h3⟩
          rcases h4 with h4 | h4
          · exact absurd h4 (fun h4 => h1 this h4)
          · exact absurd h4 (fun h4 => h2 this h4)
        · have e1 : (anyObject d k ps a i os as ys nt low high).object = none := by
            simp only [anyObject, c1, c2, c3, c4, c5]; rfl
          have e2 : (anyObject d k ps a i os as ys nt low high).array = none := by
            simp only [anyObject, d1, d2, d3, d4]; rfl
          have e3 : (anyObject d k ps a i os as ys nt low high).number = none := by
            simp only [anyObject, b1, b2, b3]; rfl
          have e4 : (anyObject d k ps a i os as ys nt low high).string = none := by
            simp only [anyObject, a1, a2, a3]; rfl
          have e5 : (anyObject d k ps a i os as ys nt low high).subs.isSome = true := by
            simp only [anyObject]
            rw [if_pos]
            · rfl
            · simp only [Bool.or_eq_true, Bool.not_eq_true', List.isEmpty_eq_false_iff, Option.isSome_iff_ne_none]
              grind
          rw [if_pos ⟨by rw [e1, e2, e3, e4]; rfl, e5⟩] at h
          cases h
          rw [hnd, wrapper_nullable (p := ok) (fun v => ?_) (fun _ => h5)]
          · funext v
            apply propext
            constructor
            · rintro (⟨-, h⟩ | h)
              · exact .inl ⟨rfl, h, h4⟩
              · exact .inr h
            · rintro (⟨-, h, -⟩ | h)
              · exact .inl ⟨rfl, h⟩
              · exact .inr h
          · have := key none v
            simp only [ifGiven_none, true_and] at this
            exact this

end

/-! ## C45 -/

theorem jlist_nil {l : List JSchema} {l' : List OSchema} (h : JList ι l = OList ι l') : l = [] ↔ l' = [] := by
  rw [jlist_map, olist_map] at h
  constructor
  · rintro rfl; exact List.map_eq_nil_iff.mp h.symm
  · rintro rfl; exact List.map_eq_nil_iff.mp h

theorem jprops_keys {l : List (Str × JSchema)} {l' : List (Str × OSchema)} (h : JProps ι l = OProps ι l') :
    l.map Prod.fst = l'.map Prod.fst := by
  have h1 : ∀ l : List (Str × JSchema), (JProps ι l).map Prod.fst = l.map Prod.fst := by
    intro l
    rw [jprops_map, List.map_map]
    rfl
  have h2 : ∀ l : List (Str × OSchema), (OProps ι l).map Prod.fst = l.map Prod.fst := by
    intro l
    induction l with
    | nil => rfl
    | cons e l ih => obtain ⟨k, s⟩ := e; simp [OProps, ih]
  rw [← h1, h, h2]

theorem jopt_none {x : Option JSchema} {x' : Option OSchema} (h : JOpt ι x = OOpt ι x') : x = none ↔ x' = none := by
  cases x <;> cases x' <;> simp_all [JOpt, OOpt]

theorem jadd_none {x : Option JSchema} {x' : Option (Additional OSchema)} (h : JOpt ι x = OAdditional ι x') : x = none ↔ x' = none := by
  rcases x with _ | x <;> rcases x' with _ | _ | _ <;> simp_all [JOpt, OAdditional]

theorem props_nil {l : List (Str × JSchema)} {l' : List (Str × OSchema)} (h : JProps ι l = OProps ι l') : l = [] ↔ l' = [] := by
  have := jprops_keys h
  constructor
  · rintro rfl; exact List.map_eq_nil_iff.mp this.symm
  · rintro rfl; exact List.map_eq_nil_iff.mp this

mutual

theorem conv_valid : ∀ (s : OSchema) (j : JSchema), Faithful ι s → conv s = .ok j → JValid ι j = OValid ι s
  | .ref r, j, _, h => by
    cases h
    simp only [JValid, OValid]
  | .string n t, j, hf, h => by
    cases h
    simp only [Faithful] at hf
    simp only [OValid]
    funext v
    apply propext
    rw [jvalid_into]
    simp only [convString, ifGiven_none, JArr, JObj, JSub, and_true, true_and]
    rw [type_ok, enum_ok, format_eq (text' := stringFormat) (fun t => by cases t <;> rfl), map_asU32 hf.1, map_asU32 hf.2, reduce_ok]
    intro hd
    rw [StrV.default_eq hd]
    exact strOk_none v
  | .number n t, j, hf, h => by
    cases h
    simp only [OValid]
    funext v
    apply propext
    rw [jvalid_into]
    simp only [convNumber, ifGiven_none, JArr, JObj, JSub, and_true]
    rw [type_ok, enum_ok, format_eq (text' := numberFormat) (fun t => by cases t <;> rfl), reduce_ok, num_ok]
    intro hd
    rw [NumV.default_eq hd]
    exact jnum_none v
  | .integer n t, j, hf, h => by
    cases h
    simp only [Faithful] at hf
    simp only [OValid]
    funext v
    apply propext
    rw [jvalid_into]
    simp only [convInteger, ifGiven_none, JArr, JObj, JSub, and_true]
    rw [type_ok, enum_ok, format_eq (text' := integerFormat) (fun t => by cases t <;> rfl), map_asF64 hf.1, map_asF64 hf.2.1,
      map_asF64 hf.2.2, reduce_ok, num_ok]
    intro hd
    rw [NumV.default_eq hd]
    exact jnum_none v
  | .boolean n e, j, _, h => by
    cases h
    simp only [OValid]
    funext v
    apply propext
    rw [jvalid_into]
    simp only [convBoolean, ifGiven_none, JArr, JObj, JSub, and_true, true_and]
    rw [type_ok, enum_ok]
  | .object n k ps a, j, hf, h => by
    simp only [conv] at h
    simp only [Faithful] at hf
    obtain ⟨f1, f2, f3, f4, f5⟩ := hf
    obtain ⟨js, h1, h⟩ := bind_ok_inv h
    obtain ⟨ja, h2, h⟩ := bind_ok_inv h
    cases h
    have e1 := conv_props ps js f4 h1
    have e2 := conv_additional a ja f5 h2
    simp only [OValid]
    funext v
    apply propext
    rw [jvalid_into]
    simp only [convObject, ifGiven_none, JArr, JSub, and_true, true_and]
    rw [type_ok, jobj_reduce, map_asU32 f1, map_asU32 f2]
    simp only [JObj]
    rw [objOk_mem (jprops_sorted (by rw [jprops_keys e1]; exact f3)), e1, e2]
  | .array n k i, j, hf, h => by
    simp only [conv] at h
    simp only [Faithful] at hf
    obtain ⟨f1, f2, f3⟩ := hf
    obtain ⟨ji, h1, h⟩ := bind_ok_inv h
    cases h
    have e1 := conv_opt i ji f3 h1
    simp only [OValid]
    funext v
    apply propext
    rw [jvalid_into]
    simp only [convArray, ifGiven_none, JObj, JSub, and_true, true_and]
    rw [type_ok, jarr_reduce, map_asU32 f1, map_asU32 f2]
    simp only [JArr]
    rw [e1]
    have : (if k.uniqueItems = true then some true else none).getD false = k.uniqueItems := by cases k.uniqueItems <;> rfl
    rw [this]
  | .oneOf n l, j, hf, h => by
    simp only [conv] at h
    simp only [Faithful] at hf
    obtain ⟨js, h1, h⟩ := bind_ok_inv h
    cases h
    have e1 := conv_list l js hf.1 h1
    simp only [OValid]
    rw [← e1] at hf ⊢
    exact wrapper_nullable (jsub_one n js) hf.2
  | .allOf n l, j, hf, h => by
    simp only [conv] at h
    simp only [Faithful] at hf
    obtain ⟨js, h1, h⟩ := bind_ok_inv h
    cases h
    have e1 := conv_list l js hf.1 h1
    simp only [OValid]
    rw [← e1] at hf ⊢
    exact wrapper_nullable (jsub_all n js) hf.2
  | .anyOf n l, j, hf, h => by
    simp only [conv] at h
    simp only [Faithful] at hf
    obtain ⟨js, h1, h⟩ := bind_ok_inv h
    cases h
    have e1 := conv_list l js hf.1 h1
    simp only [OValid]
    rw [← e1] at hf ⊢
    exact wrapper_nullable (jsub_any n js) hf.2
  | .not n s, j, hf, h => by
    simp only [conv] at h
    simp only [Faithful] at hf
    obtain ⟨js, h1, h⟩ := bind_ok_inv h
    cases h
    have e1 := conv_valid s js hf.1 h1
    simp only [OValid]
    rw [← e1] at hf ⊢
    exact wrapper_nullable (jsub_not n js) (fun hn hc => hc (hf.2 hn))
  | .any n k ps a i os as ys nt, j, hf, h => by
    simp only [conv] at h
    simp only [Faithful] at hf
    obtain ⟨hfits, hnd, ⟨f1, f2, f3, f4, f5, f6, f7⟩, hnull⟩ := hf
    obtain ⟨jps, h1, h⟩ := bind_ok_inv h
    obtain ⟨ja, h2, h⟩ := bind_ok_inv h
    obtain ⟨ji, h3, h⟩ := bind_ok_inv h
    obtain ⟨jos, h4, h⟩ := bind_ok_inv h
    obtain ⟨jas, h5, h⟩ := bind_ok_inv h
    obtain ⟨jys, h6, h⟩ := bind_ok_inv h
    obtain ⟨jnt, h7, h⟩ := bind_ok_inv h
    obtain ⟨o, h8, h⟩ := bind_ok_inv h
    cases h
    have e1 := conv_props ps jps f1 h1
    have e2 := conv_additional a ja f2 h2
    have e3 := conv_opt i ji f3 h3
    have e4 := conv_list os jos f4 h4
    have e5 := conv_list as jas f5 h5
    have e6 := conv_list ys jys f6 h6
    have e7 := conv_opt nt jnt f7 h7
    have hr : JValid ι o.into =
      anySem n.nullable k (AnyOk ι k (JProps ι jps) (JOpt ι ja) (JOpt ι ji) (JList ι jos) (JList ι jas) (JList ι jys) (JOpt ι jnt)) := by
      refine convAny_ok hfits (by rw [jprops_keys e1]; exact hnd) ?_ h8
      intro hn ht
      rw [e1, e2, e3, e4, e5, e6, e7]
      rcases hnull hn ht with ⟨⟨a1, b1, ⟨c1, c2, c3, c4⟩, ⟨d1, d2⟩, ⟨g1, g2, g3, g4⟩, g5⟩, hr⟩ | ⟨⟨a1, b1, ⟨c1, c2, c3, c4⟩, ⟨d1, d2⟩, g1⟩, hr⟩
      · exact .inl ⟨⟨a1, b1, ⟨(props_nil e1).mpr c1, c2, (jadd_none e2).mpr c3, c4⟩, ⟨(jopt_none e3).mpr d1, d2⟩,
          ⟨(jlist_nil e4).mpr g1, (jlist_nil e5).mpr g2, (jlist_nil e6).mpr g3, (jopt_none e7).mpr g4⟩, g5⟩, hr⟩
      · refine .inr ⟨⟨a1, b1, ⟨(props_nil e1).mpr c1, c2, (jadd_none e2).mpr c3, c4⟩, ⟨(jopt_none e3).mpr d1, d2⟩, ?_⟩, hr⟩
        rw [Ne, Ne, Ne, Ne, jlist_nil e4, jlist_nil e5, jlist_nil e6, jopt_none e7]
        exact g1
    rw [hr, e1, e2, e3, e4, e5, e6, e7]
    simp only [OValid]
    unfold anySem
    rfl

theorem conv_list : ∀ (l : List OSchema) (js : List JSchema), FaithfulList ι l → convList l = .ok js → JList ι js = OList ι l
  | [], js, _, h => by
    cases h
    simp only [JList, OList]
  | s :: l, js, hf, h => by
    simp only [convList] at h
    simp only [FaithfulList] at hf
    obtain ⟨j, h1, h⟩ := bind_ok_inv h
    obtain ⟨js', h2, h⟩ := bind_ok_inv h
    cases h
    simp only [JList, OList]
    rw [conv_valid s j hf.1 h1, conv_list l js' hf.2 h2]

theorem conv_props : ∀ (l : List (Str × OSchema)) (js : List (Str × JSchema)), FaithfulProps ι l → convProps l = .ok js →
    JProps ι js = OProps ι l
  | [], js, _, h => by
    cases h
    simp only [JProps, OProps]
  | (k, s) :: l, js, hf, h => by
    simp only [convProps] at h
    simp only [FaithfulProps] at hf
    obtain ⟨j, h1, h⟩ := bind_ok_inv h
    obtain ⟨js', h2, h⟩ := bind_ok_inv h
    cases h
    simp only [JProps, OProps]
    rw [conv_valid s j hf.1 h1, conv_props l js' hf.2 h2]

theorem conv_opt : ∀ (x : Option OSchema) (j : Option JSchema), FaithfulOpt ι x → convOpt x = .ok j → JOpt ι j = OOpt ι x
  | none, j, _, h => by
    cases h
    simp only [JOpt, OOpt]
  | some s, j, hf, h => by
    simp only [convOpt] at h
    simp only [FaithfulOpt] at hf
    obtain ⟨j, h1, h⟩ := bind_ok_inv h
    cases h
    simp only [JOpt, OOpt]
    rw [conv_valid s j hf h1]

theorem conv_additional : ∀ (x : Option (Additional OSchema)) (j : Option JSchema), FaithfulAdditional ι x →
    convAdditional x = .ok j → JOpt ι j = OAdditional ι x
  | none, j, _, h => by
    cases h
    simp only [JOpt, OAdditional]
  | some (.any b), j, _, h => by
    cases h
    simp only [JOpt, OAdditional, JValid]
  | some (.schema s), j, hf, h => by
    simp only [convAdditional] at h
    simp only [FaithfulAdditional] at hf
    obtain ⟨j, h1, h⟩ := bind_ok_inv h
    cases h
    simp only [JOpt, OAdditional]
    rw [conv_valid s j hf h1]

end

/-- C45: a value is valid for the converted schema iff it is valid for the OpenAPI schema. -/
theorem C45_valid_partial {s : OSchema} {j : JSchema} (hf : Faithful ι s) (h : conv s = .ok j) (v : Json) :
    JValid ι j v ↔ OValid ι s v := by rw [conv_valid s j hf h]

theorem props_mem {l : List (Str × OSchema)} {js : List (Str × JSchema)} (h : convProps l = .ok js) :
    Forall₂ (fun (a : Str × OSchema) (b : Str × JSchema) => a.1 = b.1 ∧ conv a.2 = .ok b.2) l js := by
  induction l generalizing js with
  | nil => cases h; exact .nil
  | cons e l ih =>
    obtain ⟨k, s⟩ := e
    simp only [convProps] at h
    obtain ⟨j, h1, h⟩ := bind_ok_inv h
    obtain ⟨js', h2, h⟩ := bind_ok_inv h
    cases h
    exact .cons ⟨rfl, h1⟩ (ih h2)

/-- C45: so an interpretation of references fits the components of the document iff it fits the converted components. -/
theorem C45_components_partial {components : List (Str × OSchema)} {js : List (Str × JSchema)}
    (hf : ∀ k s, (k, s) ∈ components → Faithful ι s) (h : convProps components = .ok js) :
    Resolves JValid ι js ↔ Resolves OValid ι components := by
  have hm := props_mem h
  clear h
  induction hm with
  | nil => exact ⟨fun _ _ _ h => (by cases h), fun _ _ _ h => (by cases h)⟩
  | @cons a b l m hab _ ih =>
    obtain ⟨k, s⟩ := a
    obtain ⟨k', j⟩ := b
    obtain ⟨rfl, hc⟩ := hab
    have e := conv_valid s j (hf k s (by simp)) hc
    have ih' := ih fun k s hks => hf k s (by simp [hks])
    constructor
    · intro hr k1 s1 h1 v
      rcases List.mem_cons.mp h1 with h1 | h1
      · cases h1
        rw [hr k j (by simp), e]
      · exact ih'.mp (fun k2 s2 h2 => hr k2 s2 (by simp [h2])) k1 s1 h1 v
    · intro hr k1 s1 h1 v
      rcases List.mem_cons.mp h1 with h1 | h1
      · cases h1
        rw [hr k s (by simp), e]
      · exact ih'.mpr (fun k2 s2 h2 => hr k2 s2 (by simp [h2])) k1 s1 h1 v

/-! Which schemas are converted -/

theorem isOk_bind {α β : Type} (x : Res α) (f : α → Res β) (q : Prop) (h : ∀ a, x = .ok a → ((∃ b, f a = .ok b) ↔ q)) :
    (∃ b, (x >>= f) = .ok b) ↔ (∃ a, x = .ok a) ∧ q := by
  constructor
  · rintro ⟨b, hb⟩
    obtain ⟨a, ha, hb⟩ := bind_ok_inv hb
    exact ⟨⟨a, ha⟩, (h a ha).mp ⟨b, hb⟩⟩
  · rintro ⟨⟨a, ha⟩, hq⟩
    obtain ⟨b, hb⟩ := (h a ha).mpr hq
    exact ⟨b, by rw [ha]; exact hb⟩

theorem pure_isOk {α : Type} (a : α) : (∃ b, (pure a : Res α) = .ok b) ↔ True := ⟨fun _ => trivial, fun _ => ⟨a, rfl⟩⟩

theorem limit_isOk (w : String) (m : Option Rat) (ex : Option Bool) :
    (∃ r, limit w m ex = .ok r) ↔ (ex = some true → m ≠ none) := by
  cases m <;> rcases ex with _ | _ | _ <;> simp [limit]

theorem anyType_isOk (typ : Option Str) (n : Bool) (o : SchemaObject) :
    (∃ t, anyType typ n o = .ok t) ↔ ∀ s, typ = some s → ∃ t, typeNamed s = some t := by
  cases typ with
  | none =>
    refine ⟨fun _ s hs => (by cases hs), fun _ => ?_⟩
    unfold anyType
    cases n <;> exact ⟨_, rfl⟩
  | some s =>
    unfold anyType
    simp only
    rw [isOk_bind _ _ True (fun a _ => pure_isOk _)]
    simp only [typeOfName_ok, and_true, Option.some.injEq]
    exact ⟨fun h s' hs => (by subst hs; exact h), fun h => h s rfl⟩

theorem convAny_isOk (n : Data) (k : AnyKeywords) (ps : List (Str × JSchema)) (a i : Option JSchema) (os as ys : List JSchema)
    (nt : Option JSchema) : (∃ o, convAny n k ps a i os as ys nt = .ok o) ↔ AnySupported k := by
  have bare : (k.bare && ps.isEmpty && a.isNone && i.isNone && os.isEmpty && as.isEmpty && ys.isEmpty && nt.isNone) = true →
      AnySupported k := by
    intro h
    obtain ⟨h1, h2⟩ := nothing_iff.mp h
    refine ⟨fun s hs => ?_, fun h => ?_, fun h => ?_⟩
    · rw [h1] at hs; cases hs
    · rw [h2.number.2.2.2.1] at h; cases h
    · rw [h2.number.2.2.2.2] at h; cases h
  unfold convAny
  simp only
  split
  · rename_i h1 _
    exact ⟨fun _ => bare h1, fun _ => ⟨_, rfl⟩⟩
  · rename_i h1 _
    exact ⟨fun _ => bare h1, fun _ => ⟨_, rfl⟩⟩
  · rw [isOk_bind _ _ ((k.exclusiveMaximum = some true → k.maximum ≠ none) ∧ ∀ s, k.typ = some s → ∃ t, typeNamed s = some t)]
    · rw [limit_isOk]
      unfold AnySupported
      exact ⟨fun ⟨h1, h2, h3⟩ => ⟨h3, h1, h2⟩, fun ⟨h1, h2, h3⟩ => ⟨h2, h3, h1⟩⟩
    · intro low _
      rw [isOk_bind _ _ (∀ s, k.typ = some s → ∃ t, typeNamed s = some t), limit_isOk]
      intro high _
      rw [isOk_bind _ _ True, anyType_isOk, and_true]
      intro t _
      split <;> exact pure_isOk _

mutual

theorem conv_isOk : ∀ s : OSchema, (∃ j, conv s = .ok j) ↔ Supported s
  | .ref r => by simp only [conv, Supported]; exact ⟨fun _ => trivial, fun _ => ⟨_, rfl⟩⟩
  | .string n t => by simp only [conv, Supported]; exact ⟨fun _ => trivial, fun _ => ⟨_, rfl⟩⟩
  | .number n t => by simp only [conv, Supported]; exact ⟨fun _ => trivial, fun _ => ⟨_, rfl⟩⟩
  | .integer n t => by simp only [conv, Supported]; exact ⟨fun _ => trivial, fun _ => ⟨_, rfl⟩⟩
  | .boolean n e => by simp only [conv, Supported]; exact ⟨fun _ => trivial, fun _ => ⟨_, rfl⟩⟩
  | .object n k ps a => by
    simp only [conv, Supported]
    rw [isOk_bind _ _ (SupportedAdditional a), props_isOk]
    intro _ _
    rw [isOk_bind _ _ True (fun _ _ => pure_isOk _), additional_isOk, and_true]
  | .array n k i => by
    simp only [conv, Supported]
    rw [isOk_bind _ _ True (fun _ _ => pure_isOk _), opt_isOk, and_true]
  | .oneOf n l => by
    simp only [conv, Supported]
    rw [isOk_bind _ _ True (fun _ _ => pure_isOk _), list_isOk, and_true]
  | .allOf n l => by
    simp only [conv, Supported]
    rw [isOk_bind _ _ True (fun _ _ => pure_isOk _), list_isOk, and_true]
  | .anyOf n l => by
    simp only [conv, Supported]
    rw [isOk_bind _ _ True (fun _ _ => pure_isOk _), list_isOk, and_true]
  | .not n s => by
    simp only [conv, Supported]
    rw [isOk_bind _ _ True (fun _ _ => pure_isOk _), conv_isOk s, and_true]
  | .any n k ps a i os as ys nt => by
    simp only [conv, Supported]
    rw [isOk_bind _ _ (SupportedAdditional a ∧ SupportedOpt i ∧ SupportedList os ∧ SupportedList as ∧ SupportedList ys ∧
      SupportedOpt nt ∧ AnySupported k), props_isOk]
    intro _ _
    rw [isOk_bind _ _ (SupportedOpt i ∧ SupportedList os ∧ SupportedList as ∧ SupportedList ys ∧
      SupportedOpt nt ∧ AnySupported k), additional_isOk]
    intro _ _
    rw [isOk_bind _ _ (SupportedList os ∧ SupportedList as ∧ SupportedList ys ∧ SupportedOpt nt ∧ AnySupported k), opt_isOk]
    intro _ _
    rw [isOk_bind _ _ (SupportedList as ∧ SupportedList ys ∧ SupportedOpt nt ∧ AnySupported k), list_isOk]
    intro _ _
    rw [isOk_bind _ _ (SupportedList ys ∧ SupportedOpt nt ∧ AnySupported k), list_isOk]
    intro _ _
    rw [isOk_bind _ _ (SupportedOpt nt ∧ AnySupported k), list_isOk]
    intro _ _
    rw [isOk_bind _ _ (AnySupported k), opt_isOk]
    intro _ _
    rw [isOk_bind _ _ True (fun _ _ => pure_isOk _), convAny_isOk, and_true]

theorem list_isOk : ∀ l : List OSchema, (∃ j, convList l = .ok j) ↔ SupportedList l
  | [] => by simp only [convList, SupportedList]; exact ⟨fun _ => trivial, fun _ => ⟨_, rfl⟩⟩
  | s :: l => by
    simp only [convList, SupportedList]
    rw [isOk_bind _ _ (SupportedList l), conv_isOk s]
    intro _ _
    rw [isOk_bind _ _ True (fun _ _ => pure_isOk _), list_isOk l, and_true]

theorem props_isOk : ∀ l : List (Str × OSchema), (∃ j, convProps l = .ok j) ↔ SupportedProps l
  | [] => by simp only [convProps, SupportedProps]; exact ⟨fun _ => trivial, fun _ => ⟨_, rfl⟩⟩
  | (k, s) :: l => by
    simp only [convProps, SupportedProps]
    rw [isOk_bind _ _ (SupportedProps l), conv_isOk s]
    intro _ _
    rw [isOk_bind _ _ True (fun _ _ => pure_isOk _), props_isOk l, and_true]

theorem opt_isOk : ∀ x : Option OSchema, (∃ j, convOpt x = .ok j) ↔ SupportedOpt x
  | none => by simp only [convOpt, SupportedOpt]; exact ⟨fun _ => trivial, fun _ => ⟨_, rfl⟩⟩
  | some s => by
    simp only [convOpt, SupportedOpt]
    rw [isOk_bind _ _ True (fun _ _ => pure_isOk _), conv_isOk s, and_true]

theorem additional_isOk : ∀ x : Option (Additional OSchema), (∃ j, convAdditional x = .ok j) ↔ SupportedAdditional x
  | none => by simp only [convAdditional, SupportedAdditional]; exact ⟨fun _ => trivial, fun _ => ⟨_, rfl⟩⟩
  | some (.any b) => by simp only [convAdditional, SupportedAdditional]; exact ⟨fun _ => trivial, fun _ => ⟨_, rfl⟩⟩
  | some (.schema s) => by
    simp only [convAdditional, SupportedAdditional]
    rw [isOk_bind _ _ True (fun _ _ => pure_isOk _), conv_isOk s, and_true]

end

/-- C45: conversion panics exactly if some schema without a known kind has an unknown type, or an exclusive limit without the limit. -/
theorem C45_converts_iff (s : OSchema) : (∃ j, conv s = .ok j) ↔ Supported s := conv_isOk s

/-! ## Examples -/

/-- No keyword. -/
def noKeywords : AnyKeywords where
  typ := none
  pattern := none
  multipleOf := none
  exclusiveMinimum := none
  exclusiveMaximum := none
  minimum := none
  maximum := none
  required := []
  minProperties := none
  maxProperties := none
  minItems := none
  maxItems := none
  uniqueItems := none
  enumeration := []
  format := none
  minLength := none
  maxLength := none

def plainString : StringType := { format := .empty, pattern := none, enumeration := [], minLength := none, maxLength := none }

def plainInteger : IntegerType where
  format := .empty
  multipleOf := none
  exclusiveMinimum := false
  exclusiveMaximum := false
  minimum := none
  maximum := none
  enumeration := []

/-- A nullable object with a nullable property, a nullable choice and a map. -/
def exFaithful : OSchema :=
  .object true { required := ["a".toList], minProperties := some 1, maxProperties := some 10 }
    [("a".toList, .string true { plainString with maxLength := some 5 }),
     ("b".toList, .oneOf true [.integer false { plainInteger with format := .item .int32, minimum := some 0, exclusiveMinimum := true }, .boolean false [some true]]),
     ("c".toList, .any false { noKeywords with minimum := some 3 } [] none none [] [] [] none)]
    (some (.schema (.array false { minItems := none, maxItems := some 3, uniqueItems := true } (some (.string false plainString)))))

theorem fits_none : Fits none := fun _ h => nomatch h

theorem fitsInt_none : FitsInt none := fun _ h => nomatch h

example : Faithful ι exFaithful ∧ Supported exFaithful := by
  constructor
  · simp [exFaithful, Faithful, FaithfulProps, FaithfulList, FaithfulAdditional, FaithfulOpt, Fits, FitsInt, plainString, plainInteger,
      noKeywords, ifGiven_none, ifGiven_some, small_double (i := 0) (by decide)]
    simp [OneOf, OList, OValid, TypeOk, HasType, List.cons_eq_append_iff]
    grind
  · simp [exFaithful, Supported, SupportedProps, SupportedList, SupportedAdditional, SupportedOpt, AnySupported, noKeywords]

/-- C45: null is valid for `allOf: [{type: string, nullable: true}]`, `nullable: true`, but not after conversion. -/
theorem C45_combined_fails : ∃ (s : OSchema) (j : JSchema), conv s = .ok j ∧ OValid ι s .null ∧ ¬ JValid ι j .null := by
  refine ⟨.allOf true [.string true plainString], _, rfl, ?_, ?_⟩
  · simp [OValid]
  · rw [wrapper_ok, jsub_all]
    simp [JList, AllOf, jvalid_into, convString, instanceType, plainString, convFormat, convEnum, reduce, StrV.isDefault,
      ifGiven_none, ifGiven_some, JTypeOk, HasType, JArr, JObj, JSub]

/-- C45: 5 is valid for `minimum: 3`, `nullable: true`, but not after conversion: only arrays and null are. -/
theorem C45_untyped_fails : ∃ (s : OSchema) (j : JSchema), conv s = .ok j ∧ OValid ι s (.num 5) ∧ ¬ JValid ι j (.num 5) := by
  refine ⟨.any true { noKeywords with minimum := some 3 } [] none none [] [] [] none, _, rfl, ?_, ?_⟩
  · have h : (3 : Rat) ≤ 5 := by decide +kernel
    simp [OValid, noKeywords, AnyOk, ifGiven_none, ifGiven_some, EnumOk, StrOk, NumOk, ObjOk, ArrOk, OOpt, OAdditional, OList, h]
  · rw [jvalid_into]
    simp [anyObject, noKeywords, inferTypes, ifGiven_some, JTypeOk, HasType]

/-- C45: `"a"` is valid for `enum: ["a", null]`, `nullable: true`, but not after conversion: only null is. -/
theorem C45_enum_fails : ∃ (s : OSchema) (j : JSchema), conv s = .ok j ∧ OValid ι s (.str "a".toList) ∧
    ¬ JValid ι j (.str "a".toList) := by
  refine ⟨.any true { noKeywords with enumeration := [.str "a".toList, .null] } [] none none [] [] [] none, _, rfl, ?_, ?_⟩
  · simp [OValid, noKeywords, AnyOk, ifGiven_none, ifGiven_some, EnumOk, StrOk, NumOk, ObjOk, ArrOk, OOpt, OAdditional, OList]
  · rw [jvalid_into]
    simp [anyObject, noKeywords, inferTypes, ifGiven_some, JTypeOk, HasType]

/-! Conversion never reports an error; it panics -/

def NoErr {α : Type} (x : Res α) : Prop := ∀ m, x ≠ .err m

theorem noErr_bind {α β : Type} {x : Res α} {f : α → Res β} (hx : NoErr x) (hf : ∀ a, NoErr (f a)) : NoErr (x >>= f) := by
  cases x with
  | ok a => exact hf a
  | err m => exact absurd rfl (hx m)
  | panic m => intro m' h; cases h

theorem noErr_ok {α : Type} (a : α) : NoErr (.ok a : Res α) := fun _ h => by cases h

theorem noErr_panic {α : Type} (m : Str) : NoErr (.panic m : Res α) := fun _ h => by cases h

theorem limit_noErr (w : String) (m : Option Rat) (ex : Option Bool) : NoErr (limit w m ex) := by
  cases m <;> rcases ex with _ | _ | _ <;> intro m h <;> cases h

theorem anyType_noErr (t : Option Str) (n : Bool) (o : SchemaObject) : NoErr (anyType t n o) := by
  unfold anyType
  cases t with
  | none => cases n <;> exact noErr_ok _
  | some t =>
    refine noErr_bind ?_ fun _ => noErr_ok _
    unfold typeOfName
    repeat' split
    all_goals first | exact noErr_ok _ | exact noErr_panic _

theorem convAny_noErr (n : Data) (k : AnyKeywords) (ps : List (Str × JSchema)) (a i : Option JSchema) (os as ys : List JSchema)
    (nt : Option JSchema) : NoErr (convAny n k ps a i os as ys nt) := by
  unfold convAny
  simp only
  split
  · exact noErr_ok _
  · exact noErr_ok _
  · refine noErr_bind (limit_noErr _ _ _) fun _ => noErr_bind (limit_noErr _ _ _) fun _ => noErr_bind (anyType_noErr _ _ _) fun _ => ?_
    split <;> exact noErr_ok _

mutual

theorem conv_noErr : ∀ s : OSchema, NoErr (conv s)
  | .ref _ | .string _ _ | .number _ _ | .integer _ _ | .boolean _ _ => by simp only [conv]; exact noErr_ok _
  | .object n k ps a => by
    simp only [conv]
    exact noErr_bind (props_noErr ps) fun _ => noErr_bind (additional_noErr a) fun _ => noErr_ok _
  | .array n k i => by simp only [conv]; exact noErr_bind (opt_noErr i) fun _ => noErr_ok _
  | .oneOf n l => by simp only [conv]; exact noErr_bind (list_noErr l) fun _ => noErr_ok _
  | .allOf n l => by simp only [conv]; exact noErr_bind (list_noErr l) fun _ => noErr_ok _
  | .anyOf n l => by simp only [conv]; exact noErr_bind (list_noErr l) fun _ => noErr_ok _
  | .not n s => by simp only [conv]; exact noErr_bind (conv_noErr s) fun _ => noErr_ok _
  | .any n k ps a i os as ys nt => by
    simp only [conv]
    exact noErr_bind (props_noErr ps) fun _ => noErr_bind (additional_noErr a) fun _ => noErr_bind (opt_noErr i) fun _ =>
      noErr_bind (list_noErr os) fun _ => noErr_bind (list_noErr as) fun _ => noErr_bind (list_noErr ys) fun _ =>
      noErr_bind (opt_noErr nt) fun _ => noErr_bind (convAny_noErr _ _ _ _ _ _ _ _ _) fun _ => noErr_ok _

theorem list_noErr : ∀ l : List OSchema, NoErr (convList l)
  | [] => by simp only [convList]; exact noErr_ok _
  | s :: l => by simp only [convList]; exact noErr_bind (conv_noErr s) fun _ => noErr_bind (list_noErr l) fun _ => noErr_ok _

theorem props_noErr : ∀ l : List (Str × OSchema), NoErr (convProps l)
  | [] => by simp only [convProps]; exact noErr_ok _
  | (k, s) :: l => by
    simp only [convProps]; exact noErr_bind (conv_noErr s) fun _ => noErr_bind (props_noErr l) fun _ => noErr_ok _

theorem opt_noErr : ∀ x : Option OSchema, NoErr (convOpt x)
  | none => by simp only [convOpt]; exact noErr_ok _
  | some s => by simp only [convOpt]; exact noErr_bind (conv_noErr s) fun _ => noErr_ok _

theorem additional_noErr : ∀ x : Option (Additional OSchema), NoErr (convAdditional x)
  | none => by simp only [convAdditional]; exact noErr_ok _
  | some (.any b) => by simp only [convAdditional]; exact noErr_ok _
  | some (.schema s) => by simp only [convAdditional]; exact noErr_bind (conv_noErr s) fun _ => noErr_ok _

end

/-- C45: conversion panics iff a schema is not supported. -/
theorem C45_panics_iff (s : OSchema) : (conv s).isPanic = true ↔ ¬ Supported s := by
  rw [← C45_converts_iff]
  have h := conv_noErr s
  revert h
  cases conv s with
  | ok a => simp [Res.isPanic]
  | err m => intro h; exact absurd rfl (h m)
  | panic m => simp [Res.isPanic]

/-- `exclusiveMinimum: true` without `minimum`; an unknown type. -/
example : ¬ Supported (.any false { noKeywords with exclusiveMinimum := some true } [] none none [] [] [] none) ∧
    ¬ Supported (.any false { noKeywords with typ := some "file".toList } [] none none [] [] [] none) := by
  constructor <;> simp [Supported, AnySupported, noKeywords, typeNamed]

/-! ## Nullable schemas -/

theorem type_nullable {o : SchemaObject} {t : InstanceType} (ho : JValid ι { o with ty := none }.into .null) (v : Json) :
    JValid ι { o with ty := instanceType t true }.into v ↔
      v = .null ∨ JValid ι { o with ty := instanceType t false }.into v := by
  simp only [jvalid_into, ifGiven_none, true_and] at ho ⊢
  rw [type_ok, type_ok]
  unfold TypeOk
  constructor
  · rintro ⟨h | ⟨-, h⟩, hr⟩
    · exact .inr ⟨.inl h, hr⟩
    · exact .inl h
  · rintro (rfl | ⟨h | ⟨h, -⟩, hr⟩)
    · exact ⟨.inr ⟨rfl, rfl⟩, ho⟩
    · exact ⟨.inl h, hr⟩
    · cases h

theorem given_null {α : Type} {x : Option α} {p : α → Prop} (h : ∀ a, p a) : IfGiven x p := fun a _ => h a

theorem jarr_null (a : Option (ArrV JSchema)) : JArr ι a .null := by
  rcases a with _ | ⟨_, _, _, _⟩ <;> simp [JArr, ArrOk]

theorem jobj_null (a : Option (ObjV JSchema)) : JObj ι a .null := by
  rcases a with _ | ⟨_, _, _, _⟩ <;> simp [JObj, ObjOk]

/-- Keywords other than type, format, enumeration and combinations accept null. -/
theorem rest_null (hn : ∀ f, ι.format f .null) {o : SchemaObject} (he : o.enum = none) (hs : o.subs = none) :
    JValid ι { o with ty := none }.into .null := by
  rw [jvalid_into]
  simp only [he, hs, ifGiven_none, JSub, true_and, and_true]
  exact ⟨given_null hn, given_null fun _ _ h => (by cases h), given_null fun _ _ h => (by cases h), jarr_null _, jobj_null _⟩

theorem any_typed {d : Data} {k : AnyKeywords} {ps : List (Str × JSchema)} {a i : Option JSchema} {os as ys : List JSchema}
    {nt : Option JSchema} {s : Str} {o : SchemaObject} (hs : k.typ = some s) (h : convAny d k ps a i os as ys nt = .ok o) :
    ∃ t low high, typeOfName s = .ok t ∧ limit "minimum" k.minimum k.exclusiveMinimum = .ok low ∧
      limit "maximum" k.maximum k.exclusiveMaximum = .ok high ∧
      o = { anyObject d k ps a i os as ys nt low high with ty := instanceType t d.nullable } := by
  unfold convAny at h
  simp only at h
  split at h
  · rename_i h1 _
    rw [(nothing_iff.mp h1).1] at hs; cases hs
  · rename_i h1 _
    rw [(nothing_iff.mp h1).1] at hs; cases hs
  · obtain ⟨low, hl, h⟩ := bind_ok_inv h
    obtain ⟨high, hh, h⟩ := bind_ok_inv h
    obtain ⟨ty, hty, h⟩ := bind_ok_inv h
    rw [hs] at hty
    obtain ⟨t, ht, hty⟩ := bind_ok_inv hty
    cases hty
    rw [if_neg] at h
    · cases h
      exact ⟨t, low, high, ht, hl, hh, rfl⟩
    · rintro ⟨h3, -⟩
      unfold instanceType at h3
      split at h3
      · cases h3
      · cases h3
        exact typeNamed_not_null (typeOfName_ok.mp ht)

theorem any_combined {d : Data} {k : AnyKeywords} {ps : List (Str × JSchema)} {a i : Option JSchema} {os as ys : List JSchema}
    {nt : Option JSchema} {o : SchemaObject} (hs : k.typ = none) (ho : OnlySubschemas k ps a i os as ys nt)
    (h : convAny d k ps a i os as ys nt = .ok o) :
    o = nullableWrapper (anyObject d k ps a i os as ys nt (none, none) (none, none)) d.nullable := by
  unfold convAny at h
  simp only at h
  obtain ⟨⟨a1, a2, a3⟩, ⟨b1, b2, b3⟩, ⟨c1, c2, c3, c4, c5⟩, ⟨d1, d2, d3, d4⟩, hsub⟩ := ho
  split at h
  · rename_i h1 _
    have := (nothing_iff.mp h1).2.subs
    grind
  · rename_i h1 _
    have := (nothing_iff.mp h1).2.subs
    grind
  · obtain ⟨low, hl, h⟩ := bind_ok_inv h
    obtain ⟨high, hh, h⟩ := bind_ok_inv h
    obtain ⟨ty, hty, h⟩ := bind_ok_inv h
    have el := limit_ok hl
    have eh := limit_ok hh
    rw [b2] at el
    rw [b3] at eh
    have el : low = (none, none) := by rw [el]; simp
    have eh : high = (none, none) := by rw [eh]; simp
    subst el eh
    rw [hs] at hty
    cases hnd : d.nullable with
    | false =>
      rw [hnd] at hty
      cases hty
      rw [if_neg (by simp)] at h
      cases h
      rfl
    | true =>
      rw [hnd] at hty
      cases hty
      have e1 : (anyObject d k ps a i os as ys nt (none, none) (none, none)).object = none := by
        simp only [anyObject, c1, c2, c3, c4, c5]; rfl
      have e2 : (anyObject d k ps a i os as ys nt (none, none) (none, none)).array = none := by
        simp only [anyObject, d1, d2, d3, d4]; rfl
      have e3 : (anyObject d k ps a i os as ys nt (none, none) (none, none)).number = none := by
        simp only [anyObject, b1, b2, b3]; rfl
      have e4 : (anyObject d k ps a i os as ys nt (none, none) (none, none)).string = none := by
        simp only [anyObject, a1, a2, a3]; rfl
      have e5 : (anyObject d k ps a i os as ys nt (none, none) (none, none)).subs.isSome = true := by
        simp only [anyObject]
        rw [if_pos]
        · rfl
        · simp only [Bool.or_eq_true, Bool.not_eq_true', List.isEmpty_eq_false_iff, Option.isSome_iff_ne_none]
          grind
      rw [if_pos ⟨by rw [e1, e2, e3, e4]; rfl, e5⟩, hnd] at h
      cases h
      rfl

theorem convList_nil {l : List OSchema} {js : List JSchema} (h : convList l = .ok js) (hl : l ≠ []) : js ≠ [] := by
  cases l with
  | nil => exact absurd rfl hl
  | cons s l =>
    simp only [convList] at h
    obtain ⟨_, -, h⟩ := bind_ok_inv h
    obtain ⟨_, -, h⟩ := bind_ok_inv h
    cases h
    simp

theorem convOpt_none {x : Option OSchema} {j : Option JSchema} (h : convOpt x = .ok j) (hl : x ≠ none) : j ≠ none := by
  cases x with
  | none => exact absurd rfl hl
  | some s =>
    simp only [convOpt] at h
    obtain ⟨_, -, h⟩ := bind_ok_inv h
    cases h
    simp

/-- C46: for a schema with a type and without enumeration, `nullable` adds null and nothing else. -/
theorem C46_typed (hn : ∀ f, ι.format f .null) {s : OSchema} (ht : Typed s) {j1 j0 : JSchema}
    (h1 : conv (setNullable true s) = .ok j1) (h0 : conv (setNullable false s) = .ok j0) (v : Json) :
    JValid ι j1 v ↔ v = .null ∨ JValid ι j0 v := by
  cases s with
  | string n t =>
    cases h1; cases h0
    exact type_nullable (o := convString { n with nullable := true } t) (rest_null hn (by simp only [Typed] at ht; simp [convString, convEnum, ht]) rfl) v
  | number n t =>
    cases h1; cases h0
    exact type_nullable (o := convNumber { n with nullable := true } t) (rest_null hn (by simp only [Typed] at ht; simp [convNumber, convEnum, ht]) rfl) v
  | integer n t =>
    cases h1; cases h0
    exact type_nullable (o := convInteger { n with nullable := true } t) (rest_null hn (by simp only [Typed] at ht; simp [convInteger, convEnum, ht]) rfl) v
  | boolean n e =>
    cases h1; cases h0
    exact type_nullable (o := convBoolean { n with nullable := true } e) (rest_null hn (by simp only [Typed] at ht; simp [convBoolean, convEnum, ht]) rfl) v
  | object n k ps a =>
    simp only [setNullable, conv] at h1 h0
    obtain ⟨ps1, hp1, h1⟩ := bind_ok_inv h1
    obtain ⟨a1, ha1, h1⟩ := bind_ok_inv h1
    rw [hp1, Res.bind_ok, ha1] at h0
    cases h1; cases h0
    exact type_nullable (o := convObject { n with nullable := true } k ps1 a1) (rest_null hn rfl rfl) v
  | array n k i =>
    simp only [setNullable, conv] at h1 h0
    obtain ⟨i1, hi1, h1⟩ := bind_ok_inv h1
    rw [hi1] at h0
    cases h1; cases h0
    exact type_nullable (o := convArray { n with nullable := true } k i1) (rest_null hn rfl rfl) v
  | any n k ps a i os as ys nt =>
    simp only [setNullable, conv] at h1 h0
    obtain ⟨ht, he, rfl, rfl, rfl, rfl⟩ := ht
    obtain ⟨ps1, hps, h1⟩ := bind_ok_inv h1
    obtain ⟨a1, ha, h1⟩ := bind_ok_inv h1
    obtain ⟨i1, hi, h1⟩ := bind_ok_inv h1
    simp only [hps, ha, hi, Res.bind_ok, convList, convOpt] at h1 h0
    obtain ⟨o1, g1, h1'⟩ := bind_ok_inv h1
    obtain ⟨o0, g0, h0'⟩ := bind_ok_inv h0
    cases h1'; cases h0'
    obtain ⟨w, hw⟩ := Option.ne_none_iff_exists'.mp ht
    obtain ⟨t, low, high, e1, e2, e3, rfl⟩ := any_typed hw g1
    obtain ⟨t', low', high', f1, f2, f3, rfl⟩ := any_typed hw g0
    cases e1.symm.trans f1
    cases e2.symm.trans f2
    cases e3.symm.trans f3
    refine type_nullable (o := anyObject { n with nullable := true } k ps1 a1 i1 [] [] [] none low high) (rest_null hn ?_ rfl) v
    simp [anyObject, he, someList]
  | ref r => exact ht.elim
  | oneOf n l => exact ht.elim
  | allOf n l => exact ht.elim
  | anyOf n l => exact ht.elim
  | not n l => exact ht.elim

/-- C46: for a combination of schemas, null is accepted iff it was not accepted before. -/
theorem C46_combined_iff {s : OSchema} (ht : Combined s) {j1 j0 : JSchema}
    (h1 : conv (setNullable true s) = .ok j1) (h0 : conv (setNullable false s) = .ok j0) (v : Json) :
    JValid ι j1 v ↔ (v = .null ∧ ¬ JValid ι j0 .null) ∨ (v ≠ .null ∧ JValid ι j0 v) := by
  cases s with
  | oneOf n l =>
    simp only [setNullable, conv] at h1 h0
    obtain ⟨l1, hl, h1⟩ := bind_ok_inv h1
    rw [hl] at h0
    cases h1; cases h0
    exact wrapper_ok _ v
  | allOf n l =>
    simp only [setNullable, conv] at h1 h0
    obtain ⟨l1, hl, h1⟩ := bind_ok_inv h1
    rw [hl] at h0
    cases h1; cases h0
    exact wrapper_ok _ v
  | anyOf n l =>
    simp only [setNullable, conv] at h1 h0
    obtain ⟨l1, hl, h1⟩ := bind_ok_inv h1
    rw [hl] at h0
    cases h1; cases h0
    exact wrapper_ok _ v
  | not n l =>
    simp only [setNullable, conv] at h1 h0
    obtain ⟨l1, hl, h1⟩ := bind_ok_inv h1
    rw [hl] at h0
    cases h1; cases h0
    exact wrapper_ok _ v
  | any n k ps a i os as ys nt =>
    obtain ⟨ht, -, ho⟩ := ht
    obtain ⟨hstr, hnum, ⟨rfl, c2, rfl, c4, c5⟩, ⟨rfl, d2, d3, d4⟩, hsub⟩ := ho
    simp only [setNullable, conv, convProps, convAdditional, Res.bind_ok] at h1 h0
    obtain ⟨i', hi', h1⟩ := bind_ok_inv h1
    simp only [convOpt] at hi'
    cases hi'
    obtain ⟨os', hos, h1⟩ := bind_ok_inv h1
    obtain ⟨as', has, h1⟩ := bind_ok_inv h1
    obtain ⟨ys', hys, h1⟩ := bind_ok_inv h1
    obtain ⟨nt', hnt, h1⟩ := bind_ok_inv h1
    obtain ⟨o1, g1, h1'⟩ := bind_ok_inv h1
    simp only [hos, has, hys, hnt, Res.bind_ok, show convOpt none = .ok none from by simp only [convOpt]] at h0
    obtain ⟨o0, g0, h0'⟩ := bind_ok_inv h0
    cases h1'; cases h0'
    have ho : OnlySubschemas k ([] : List (Str × JSchema)) (none : Option JSchema) none os' as' ys' nt' :=
      ⟨hstr, hnum, ⟨rfl, c2, rfl, c4, c5⟩, ⟨rfl, d2, d3, d4⟩,
        hsub.imp (convList_nil hos) (Or.imp (convList_nil has) (Or.imp (convList_nil hys) (convOpt_none hnt)))⟩
    rw [any_combined ht ho g1, any_combined ht ho g0]
    exact wrapper_ok _ v
  | _ => exact ht.elim

/-- C46: so a nullable combination of schemas that reject null accepts null and otherwise the same values. -/
theorem C46_combined_partial {s : OSchema} (ht : Combined s) {j1 j0 : JSchema}
    (h1 : conv (setNullable true s) = .ok j1) (h0 : conv (setNullable false s) = .ok j0) (hn : ¬ JValid ι j0 .null) (v : Json) :
    JValid ι j1 v ↔ v = .null ∨ JValid ι j0 v := by
  rw [C46_combined_iff ht h1 h0]
  constructor
  · rintro (⟨h, -⟩ | ⟨-, h⟩)
    · exact .inl h
    · exact .inr h
  · rintro (rfl | h)
    · exact .inl ⟨rfl, hn⟩
    · exact .inr ⟨fun e => hn (e ▸ h), h⟩

example : Typed exFaithful ∧ Combined (.oneOf true [.string false plainString, .boolean false []]) ∧
    ∃ j, conv (setNullable false (.oneOf true [.string false plainString, .boolean false []])) = .ok j ∧
      ¬ JValid ι j .null := by
  refine ⟨trivial, trivial, _, rfl, ?_⟩
  rw [wrapper_false, jsub_one, jlist_map]
  simp only [List.map_cons, List.map_nil]
  rw [oneOf_two]
  simp [jvalid_into, convString, convBoolean, instanceType, ifGiven_some, JTypeOk, HasType]

/-- C46: a nullable combination rejects null if it would accept it anyway. -/
theorem C46_combined_fails : ∃ (s : OSchema) (j1 j0 : JSchema), Combined s ∧ conv (setNullable true s) = .ok j1 ∧
    conv (setNullable false s) = .ok j0 ∧ ¬ JValid ι j1 .null ∧ JValid ι j0 .null := by
  refine ⟨.anyOf true [.string true plainString], _, _, trivial, rfl, rfl, ?_, ?_⟩
  · rw [wrapper_ok, jsub_any]
    simp [JList, AnyOf, jvalid_into, convString, instanceType, plainString, convFormat, convEnum, reduce, StrV.isDefault,
      ifGiven_none, ifGiven_some, JTypeOk, HasType, JArr, JObj, JSub]
  · rw [wrapper_false, jsub_any]
    simp [JList, AnyOf, jvalid_into, convString, instanceType, plainString, convFormat, convEnum, reduce, StrV.isDefault,
      ifGiven_none, ifGiven_some, JTypeOk, HasType, JArr, JObj, JSub]

/-- C46: `minimum: 3` accepts 5, but not if it is nullable too. -/
theorem C46_untyped_fails : ∃ (s : OSchema) (j1 j0 : JSchema), conv (setNullable true s) = .ok j1 ∧
    conv (setNullable false s) = .ok j0 ∧ ¬ JValid ι j1 (.num 5) ∧ JValid ι j0 (.num 5) := by
  refine ⟨.any true { noKeywords with minimum := some 3 } [] none none [] [] [] none, _, _, rfl, rfl, ?_, ?_⟩
  · rw [jvalid_into]
    simp [anyObject, noKeywords, inferTypes, ifGiven_some, JTypeOk, HasType]
  · have h : (3 : Rat) ≤ 5 := by decide +kernel
    rw [jvalid_into]
    simp [anyObject, noKeywords, ifGiven_some, ifGiven_none, someList, JNumOk, JArr, JObj, JSub, h]

/-- C46: a typed schema with `allOf` rejects null although it is nullable. -/
theorem C46_typed_allOf_fails : ∃ (s : OSchema) (j1 : JSchema), setNullable true s = s ∧ conv s = .ok j1 ∧ ¬ JValid ι j1 .null := by
  refine ⟨.any true { noKeywords with typ := some "object".toList } [] none none [] [.string false plainString] [] none, _, rfl, rfl, ?_⟩
  rw [jvalid_into]
  simp [anyObject, noKeywords, instanceType, ifGiven_some, ifGiven_none, someList, JSub, JListOpt, JList, AllOf, jvalid_into,
    convString, JTypeOk, HasType]

/-! ## Limits -/

/-- C47: limits of numbers are converted exactly. -/
theorem C47_number (n : Data) (t : NumberType) (v : Json) : JValid ι (convNumber n t).into v ↔ OValid ι (.number n t) v := by
  rw [conv_valid (.number n t) _ trivial rfl]

/-- C47: limits of integers are converted exactly if they are numbers of type `f64`, such as those up to 2^53. -/
theorem C47_integer_partial (n : Data) (t : IntegerType) (h : FitsInt t.multipleOf ∧ FitsInt t.minimum ∧ FitsInt t.maximum)
    (v : Json) : JValid ι (convInteger n t).into v ↔ OValid ι (.integer n t) v := by
  rw [conv_valid (.integer n t) _ h rfl]

theorem integer_limit (n : Data) (t : IntegerType) (v : Json) : JValid ι (convInteger n t).into v ↔
    TypeOk .integer n.nullable v ∧ IfGiven (formatText integerFormat t.format) (ι.format · v) ∧
      EnumOk (t.enumeration.map (valueOf fun i : Int => .num i)) v ∧
      NumOk (t.multipleOf.map asF64) (t.minimum.map asF64) t.exclusiveMinimum (t.maximum.map asF64) t.exclusiveMaximum v := by
  rw [jvalid_into]
  simp only [convInteger]
  rw [type_ok, enum_ok, format_eq (text' := integerFormat) (fun t => by cases t <;> rfl), reduce_ok, num_ok]
  · simp [ifGiven_none, JArr, JObj, JSub]
  · intro h
    rw [NumV.default_eq h]
    exact jnum_none v

theorem asF64_int (m : Int) : ∃ f : Int, asF64 m = (f : Rat) := ⟨_, rfl⟩

theorem minimum_ok (m : Int) (ex : Bool) (v : Json) :
    (TypeOk .integer false v ∧ NumOk none (some (m : Rat)) ex none false v) ↔
      ∃ i : Int, v = .num i ∧ if ex then m < i else m ≤ i := by
  simp only [TypeOk, HasType, NumOk, ifGiven_none, ifGiven_some, Bool.false_eq_true, false_and, or_false, true_and, and_true]
  constructor
  · rintro ⟨⟨i, rfl⟩, h⟩
    have := h i rfl
    rw [Rat.intCast_lt_intCast, Rat.intCast_le_intCast] at this
    exact ⟨i, rfl, this⟩
  · rintro ⟨i, rfl, h⟩
    refine ⟨⟨i, rfl⟩, fun q hq => ?_⟩
    cases hq
    rw [Rat.intCast_lt_intCast, Rat.intCast_le_intCast]
    exact h

theorem maximum_ok (m : Int) (ex : Bool) (v : Json) :
    (TypeOk .integer false v ∧ NumOk none none false (some (m : Rat)) ex v) ↔
      ∃ i : Int, v = .num i ∧ if ex then i < m else i ≤ m := by
  simp only [TypeOk, HasType, NumOk, ifGiven_none, ifGiven_some, Bool.false_eq_true, false_and, or_false, true_and]
  constructor
  · rintro ⟨⟨i, rfl⟩, h⟩
    have := h i rfl
    rw [Rat.intCast_lt_intCast, Rat.intCast_le_intCast] at this
    exact ⟨i, rfl, this⟩
  · rintro ⟨i, rfl, h⟩
    refine ⟨⟨i, rfl⟩, fun q hq => ?_⟩
    cases hq
    rw [Rat.intCast_lt_intCast, Rat.intCast_le_intCast]
    exact h

theorem num_int {P : Int → Prop} (i : Int) : (∃ j : Int, Json.num i = .num j ∧ P j) ↔ P i := by
  constructor
  · rintro ⟨j, h, hj⟩
    cases Rat.intCast_inj.mp (Json.num.inj h)
    exact hj
  · exact fun h => ⟨i, rfl, h⟩

/-- C47: a minimum of integers keeps its meaning iff it is a number of type `f64`. -/
theorem C47_minimum_iff (m : Int) (ex : Bool) :
    (∀ v, JValid ι (convInteger false { plainInteger with minimum := some m, exclusiveMinimum := ex }).into v ↔
      OValid ι (.integer false { plainInteger with minimum := some m, exclusiveMinimum := ex }) v) ↔ IsDouble m := by
  rw [← asF64_exact]
  obtain ⟨f, hf⟩ := asF64_int m
  have key : ∀ v, JValid ι (convInteger false { plainInteger with minimum := some m, exclusiveMinimum := ex }).into v ↔
      ∃ i : Int, v = .num i ∧ if ex then f < i else f ≤ i := by
    intro v
    rw [integer_limit, ← minimum_ok]
    simp only [plainInteger, formatText, ifGiven_none, EnumOk, true_and, Option.map_some, Option.map_none, hf, List.map_nil,
      true_or]
  have key' : ∀ v, OValid ι (.integer false { plainInteger with minimum := some m, exclusiveMinimum := ex }) v ↔
      ∃ i : Int, v = .num i ∧ if ex then m < i else m ≤ i := by
    intro v
    rw [← minimum_ok]
    simp only [OValid, plainInteger, formatText, ifGiven_none, EnumOk, true_and, Option.map_some, Option.map_none, List.map_nil,
      true_or]
  simp only [key, key', hf, Rat.intCast_inj]
  constructor
  · intro h
    have h1 := h (.num (f : Int))
    have h2 := h (.num (m : Int))
    have h3 := h (.num ((f + 1 : Int)))
    have h4 := h (.num ((m + 1 : Int)))
    rw [num_int, num_int] at h1 h2 h3 h4
    cases ex <;> simp at h1 h2 h3 h4 <;> omega
  · rintro rfl v; exact Iff.rfl

/-- C47: so does a maximum. -/
theorem C47_maximum_iff (m : Int) (ex : Bool) :
    (∀ v, JValid ι (convInteger false { plainInteger with maximum := some m, exclusiveMaximum := ex }).into v ↔
      OValid ι (.integer false { plainInteger with maximum := some m, exclusiveMaximum := ex }) v) ↔ IsDouble m := by
  rw [← asF64_exact]
  obtain ⟨f, hf⟩ := asF64_int m
  have key : ∀ v, JValid ι (convInteger false { plainInteger with maximum := some m, exclusiveMaximum := ex }).into v ↔
      ∃ i : Int, v = .num i ∧ if ex then i < f else i ≤ f := by
    intro v
    rw [integer_limit, ← maximum_ok]
    simp only [plainInteger, formatText, ifGiven_none, EnumOk, true_and, Option.map_some, Option.map_none, hf, List.map_nil,
      true_or]
  have key' : ∀ v, OValid ι (.integer false { plainInteger with maximum := some m, exclusiveMaximum := ex }) v ↔
      ∃ i : Int, v = .num i ∧ if ex then i < m else i ≤ m := by
    intro v
    rw [← maximum_ok]
    simp only [OValid, plainInteger, formatText, ifGiven_none, EnumOk, true_and, Option.map_some, Option.map_none, List.map_nil,
      true_or]
  simp only [key, key', hf, Rat.intCast_inj]
  constructor
  · intro h
    have h1 := h (.num (f : Int))
    have h2 := h (.num (m : Int))
    have h3 := h (.num ((f - 1 : Int)))
    have h4 := h (.num ((m - 1 : Int)))
    rw [num_int, num_int] at h1 h2 h3 h4
    cases ex <;> simp at h1 h2 h3 h4 <;> omega
  · rintro rfl v; exact Iff.rfl

theorem rounded_double {i r : Int} (h : RoundedTo i r) (hi : IsDouble i) : r = i := by
  have := h.nearest i hi
  omega

/-- C47: in general, limits of integers are rounded to the nearest double, and of two such to the even one. -/
theorem C47_integer_rounded (n : Data) (t : IntegerType) : ∃ t' : IntegerType,
    OptRel RoundedTo t.minimum t'.minimum ∧ OptRel RoundedTo t.maximum t'.maximum ∧ OptRel RoundedTo t.multipleOf t'.multipleOf ∧
    t' = { t with minimum := t'.minimum, maximum := t'.maximum, multipleOf := t'.multipleOf } ∧
    ∀ v, JValid ι (convInteger n t).into v ↔ OValid ι (.integer n t') v := by
  have key : ∀ o : Option Int, ∃ o', OptRel RoundedTo o o' ∧ o.map asF64 = o'.map fun i : Int => (i : Rat) := by
    intro o
    cases o with
    | none => exact ⟨none, trivial, rfl⟩
    | some i =>
      obtain ⟨r, h1, h2⟩ := asF64_rounded i
      exact ⟨some r, h2, congrArg some h1⟩
  obtain ⟨a, ha, ha'⟩ := key t.minimum
  obtain ⟨b, hb, hb'⟩ := key t.maximum
  obtain ⟨c, hc, hc'⟩ := key t.multipleOf
  refine ⟨{ t with minimum := a, maximum := b, multipleOf := c }, ha, hb, hc, rfl, fun v => ?_⟩
  rw [integer_limit, ha', hb', hc']
  simp only [OValid]

/-- C47: `minimum: 9007199254740993` becomes 9007199254740992. -/
theorem C47_integer_fails : ¬ IsDouble 9007199254740993 ∧ RoundedTo 9007199254740993 9007199254740992 := by
  obtain ⟨r, h1, h2⟩ := asF64_rounded 9007199254740993
  have hr : asF64 9007199254740993 = ((9007199254740992 : Int) : Rat) := by decide +kernel
  rw [hr, Rat.intCast_inj] at h1
  subst h1
  refine ⟨fun h => ?_, h2⟩
  exact absurd (rounded_double h2 h) (by decide)

/-- C47: halves are rounded to even. -/
example : RoundedTo 9007199254740995 9007199254740996 := by
  obtain ⟨r, h1, h2⟩ := asF64_rounded 9007199254740995
  have hr : asF64 9007199254740995 = ((9007199254740996 : Int) : Rat) := by decide +kernel
  rw [hr, Rat.intCast_inj] at h1
  exact h1 ▸ h2

theorem fits_asU32 (n : Option Nat) : Fits (n.map asU32) := by
  cases n with
  | none => exact fits_none
  | some n => exact ifGiven_some.mpr (Nat.mod_lt _ (by decide))

theorem asU32_idem (n : Option Nat) : (n.map asU32).map asU32 = n.map asU32 := map_asU32 (fits_asU32 n)

/-- C47: in general, limits of lengths are taken modulo 2^32. -/
theorem C47_string_counts (n : Data) (t : StringType) (v : Json) : JValid ι (convString n t).into v ↔
    OValid ι (.string n { t with minLength := t.minLength.map (· % 2 ^ 32), maxLength := t.maxLength.map (· % 2 ^ 32) }) v := by
  have h : conv (.string n { t with minLength := t.minLength.map asU32, maxLength := t.maxLength.map asU32 }) =
      .ok (convString n t).into := by
    simp only [conv, convString, asU32_idem]
  rw [conv_valid _ _ (by simp only [Faithful]; exact ⟨fits_asU32 _, fits_asU32 _⟩) h]
  rfl

/-- C47: and so are limits of the number of items. -/
theorem C47_array_counts (n : Data) (k : ArrayLimits) (v : Json) : JValid ι (convArray n k none).into v ↔
    OValid ι (.array n { k with minItems := k.minItems.map (· % 2 ^ 32), maxItems := k.maxItems.map (· % 2 ^ 32) } none) v := by
  have h : conv (.array n { k with minItems := k.minItems.map asU32, maxItems := k.maxItems.map asU32 } none) =
      .ok (convArray n k none).into := by
    simp only [conv, convOpt, Res.bind_ok, convArray, asU32_idem]
    rfl
  rw [conv_valid _ _ (by simp only [Faithful, FaithfulOpt, and_true]; exact ⟨fits_asU32 _, fits_asU32 _⟩) h]
  rfl

/-- C47: and so are limits of the number of properties. -/
theorem C47_object_counts (n : Data) (k : ObjectLimits) (v : Json) : JValid ι (convObject n k [] none).into v ↔
    OValid ι (.object n { k with minProperties := k.minProperties.map (· % 2 ^ 32),
                                 maxProperties := k.maxProperties.map (· % 2 ^ 32) } [] none) v := by
  have h : conv (.object n { k with minProperties := k.minProperties.map asU32, maxProperties := k.maxProperties.map asU32 } [] none) =
      .ok (convObject n k [] none).into := by
    simp only [conv, convProps, convAdditional, Res.bind_ok, convObject, asU32_idem]
    rfl
  rw [conv_valid _ _ (by simp [Faithful, FaithfulProps, FaithfulAdditional]; exact ⟨fits_asU32 _, fits_asU32 _⟩) h]
  rfl

/-- C47: so a limit keeps its meaning iff it is below 2^32: here `maxLength`. -/
theorem C47_maxLength_iff (n : Nat) : (∀ v, JValid ι (convString false { plainString with maxLength := some n }).into v ↔
    OValid ι (.string false { plainString with maxLength := some n }) v) ↔ n < 2 ^ 32 := by
  have sem : ∀ (m : Nat) (s : Str), OValid ι (.string false { plainString with maxLength := some m }) (.str s) ↔ s.length ≤ m := by
    intro m s
    simp [OValid, plainString, TypeOk, HasType, formatText, ifGiven_none, ifGiven_some, EnumOk, StrOk]
  constructor
  · intro h
    have := h (.str (List.replicate n 'a'))
    rw [C47_string_counts] at this
    have e := (sem (n % 2 ^ 32) (List.replicate n 'a')).mp (this.mpr ((sem n _).mpr (by simp)))
    rw [List.length_replicate] at e
    exact Nat.lt_of_le_of_lt e (Nat.mod_lt _ (by decide))
  · intro h v
    have hf : Faithful ι (.string false { plainString with maxLength := some n }) :=
      ⟨fits_none, fun a ha => (by cases ha; exact h)⟩
    exact iff_of_eq (congrFun (conv_valid _ _ hf rfl) v)

/-- C47: `minLength`. -/
theorem C47_minLength_iff (n : Nat) : (∀ v, JValid ι (convString false { plainString with minLength := some n }).into v ↔
    OValid ι (.string false { plainString with minLength := some n }) v) ↔ n < 2 ^ 32 := by
  have sem : ∀ (m : Nat) (s : Str), OValid ι (.string false { plainString with minLength := some m }) (.str s) ↔ m ≤ s.length := by
    intro m s
    simp [OValid, plainString, TypeOk, HasType, formatText, ifGiven_none, ifGiven_some, EnumOk, StrOk]
  constructor
  · intro h
    have := h (.str (List.replicate (n % 2 ^ 32) 'a'))
    rw [C47_string_counts] at this
    have e := (sem n (List.replicate (n % 2 ^ 32) 'a')).mp (this.mp ((sem (n % 2 ^ 32) _).mpr (by simp)))
    rw [List.length_replicate] at e
    exact Nat.lt_of_le_of_lt e (Nat.mod_lt _ (by decide))
  · intro h v
    have hf : Faithful ι (.string false { plainString with minLength := some n }) :=
      ⟨fun a ha => (by cases ha; exact h), fits_none⟩
    exact iff_of_eq (congrFun (conv_valid _ _ hf rfl) v)

/-- C47: with `maxLength: 4294967296` no string is valid but the empty one. -/
theorem C47_maxLength_fails (s : Str) : JValid ι (convString false { plainString with maxLength := some 4294967296 }).into (.str s) ↔
    s = [] := by
  rw [C47_string_counts]
  simp [OValid, plainString, TypeOk, HasType, formatText, ifGiven_none, ifGiven_some, EnumOk, StrOk]

end Progenitor.Props

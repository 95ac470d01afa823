import Verif.Model.BTree

/-! # Lemmas on string order and maps -/

namespace Progenitor

theorem strCmp_refl (a : Str) : strCmp a a = .eq := by
  induction a with
  | nil => rfl
  | cons c a ih => simp [strCmp, ih]

theorem strCmp_eq {a b : Str} : strCmp a b = .eq ↔ a = b := by
  constructor
  · intro h
    induction a generalizing b with
    | nil => cases b with
      | nil => rfl
      | cons c b => simp [strCmp] at h
    | cons c a ih =>
      cases b with
      | nil => simp [strCmp] at h
      | cons d b =>
        simp only [strCmp] at h
        split at h
        · cases h
        · split at h
          · cases h
          · have : c = d := Char.toNat_inj.mp (by omega)
            rw [this, ih h]
  · rintro rfl; exact strCmp_refl a

theorem strCmp_swap (a b : Str) : strCmp b a = (strCmp a b).swap := by
  induction a generalizing b with
  | nil => cases b <;> rfl
  | cons c a ih =>
    cases b with
    | nil => rfl
    | cons d b =>
      simp only [strCmp]
      split
      · rename_i h
        rw [if_neg (by omega)]; rfl
      · split
        · rfl
        · exact ih b

theorem strCmp_lt_trans {a b c : Str} (h1 : strCmp a b = .lt) (h2 : strCmp b c = .lt) :
    strCmp a c = .lt := by
  induction a generalizing b c with
  | nil =>
    cases c with
    | nil => cases b <;> simp [strCmp] at h1 h2
    | cons => rfl
  | cons x a ih =>
    cases b with
    | nil => simp [strCmp] at h1
    | cons y b =>
      cases c with
      | nil => simp [strCmp] at h2
      | cons z c =>
        simp only [strCmp] at h1 h2 ⊢
        split at h1
        · split at h2
          · rw [if_pos (by omega)]
          · split at h2
            · cases h2
            · rw [if_pos (by omega)]
        · split at h1
          · cases h1
          · split at h2
            · rw [if_pos (by omega)]
            · split at h2
              · cases h2
              · rw [if_neg (by omega), if_neg (by omega)]
                exact ih h1 h2

theorem strCmp_gt {a b : Str} : strCmp a b = .gt ↔ strCmp b a = .lt := by
  rw [strCmp_swap a b]; cases strCmp a b <;> decide

namespace BTree

/-- Entries in strictly increasing key order. -/
def Sorted {V} (m : Map V) : Prop := m.Pairwise fun x y => strCmp x.1 y.1 = .lt

theorem mem_insert_key {V} {k : Str} {v : V} {m : Map V} {e : Str × V} (h : e ∈ insert k v m) :
    e = (k, v) ∨ e ∈ m := by
  induction m with
  | nil => simp [insert] at h; exact .inl h
  | cons x m ih =>
    obtain ⟨k', v'⟩ := x
    simp only [insert] at h
    split at h
    · simpa using h
    · simp at h; rcases h with h | h
      · exact .inl h
      · exact .inr (by simp [h])
    · simp at h; rcases h with h | h
      · exact .inr (by simp [h])
      · rcases ih h with h | h
        · exact .inl h
        · exact .inr (by simp [h])

theorem insert_sorted {V} (k : Str) (v : V) {m : Map V} (h : Sorted m) : Sorted (insert k v m) := by
  induction m with
  | nil => simp [insert, Sorted]
  | cons x m ih =>
    obtain ⟨k', v'⟩ := x
    have hm : Sorted m := (List.pairwise_cons.mp h).2
    have hx := (List.pairwise_cons.mp h).1
    simp only [insert]
    split
    · rename_i hlt
      refine List.pairwise_cons.mpr ⟨?_, h⟩
      intro e he
      rcases List.mem_cons.mp he with rfl | he
      · exact hlt
      · exact strCmp_lt_trans hlt (hx e he)
    · rename_i heq
      rw [strCmp_eq] at heq; subst heq
      exact List.pairwise_cons.mpr ⟨hx, hm⟩
    · rename_i hgt
      refine List.pairwise_cons.mpr ⟨?_, ih hm⟩
      intro e he
      rcases mem_insert_key he with rfl | he
      · exact strCmp_gt.mp hgt
      · exact hx e he

theorem get_cons {V} (k k' : Str) (v : V) (m : Map V) :
    get k ((k', v) :: m) = if k' = k then some v else get k m := by
  unfold get
  by_cases h : k' = k <;> simp [h]

theorem get_insert {V} (k k' : Str) (v : V) (m : Map V) :
    get k' (insert k v m) = if k = k' then some v else get k' m := by
  induction m with
  | nil => simp [insert, get_cons]
  | cons x m ih =>
    obtain ⟨k₀, v₀⟩ := x
    simp only [insert]
    split
    · rw [get_cons]
    · rename_i heq; rw [strCmp_eq] at heq; subst heq
      rw [get_cons, get_cons]; split <;> rfl
    · rename_i hgt
      rw [get_cons, get_cons, ih]
      by_cases h : k₀ = k'
      · rw [if_pos h, if_pos h, if_neg]
        rintro rfl
        subst h
        rw [strCmp_refl] at hgt; cases hgt
      · rw [if_neg h, if_neg h]

theorem insertAll_sorted {V} {m : Map V} (h : Sorted m) (l : List (Str × V)) :
    Sorted (insertAll m l) := by
  induction l generalizing m with
  | nil => exact h
  | cons x l ih => exact ih (insert_sorted _ _ h)

theorem mem_of_get {V} {k : Str} {v : V} {m : Map V} (h : get k m = some v) : (k, v) ∈ m := by
  unfold get at h
  cases hf : m.find? (fun e => e.1 = k) with
  | none => rw [hf] at h; cases h
  | some e =>
    rw [hf] at h
    have h1 := List.find?_some hf
    have h2 := List.mem_of_find?_eq_some hf
    simp at h h1
    obtain ⟨a, b⟩ := e
    simp at h h1
    subst h1; subst h; exact h2

theorem get_of_mem {V} {k : Str} {v : V} {m : Map V} (hs : Sorted m) (h : (k, v) ∈ m) :
    get k m = some v := by
  induction m with
  | nil => cases h
  | cons x m ih =>
    obtain ⟨k', v'⟩ := x
    rw [get_cons]
    rcases List.mem_cons.mp h with h | h
    · cases h; simp
    · rw [if_neg, ih (List.pairwise_cons.mp hs).2 h]
      rintro rfl
      have := (List.pairwise_cons.mp hs).1 _ h
      simp [strCmp_refl] at this

theorem mem_iff_get {V} {k : Str} {v : V} {m : Map V} (hs : Sorted m) :
    (k, v) ∈ m ↔ get k m = some v := ⟨get_of_mem hs, mem_of_get⟩

/-- Maps with the same entries are equal. -/
theorem ext {V} {m m' : Map V} (h : Sorted m) (h' : Sorted m') (hg : ∀ k, get k m = get k m') :
    m = m' := by
  induction m generalizing m' with
  | nil =>
    cases m' with
    | nil => rfl
    | cons x m' =>
      have := hg x.1
      rw [get_cons] at this; simp [get] at this
  | cons x m ih =>
    obtain ⟨k, v⟩ := x
    cases m' with
    | nil => have := hg k; rw [get_cons] at this; simp [get] at this
    | cons x' m' =>
      obtain ⟨k', v'⟩ := x'
      have hx := (List.pairwise_cons.mp h).1
      have hx' := (List.pairwise_cons.mp h').1
      have hkk : k = k' := by
        have e1 : (k, v) ∈ (k', v') :: m' := by
          apply mem_of_get; rw [← hg, get_cons]; simp
        have e2 : (k', v') ∈ (k, v) :: m := by
          apply mem_of_get; rw [hg, get_cons]; simp
        rcases List.mem_cons.mp e1 with e1 | e1
        · cases e1; rfl
        · rcases List.mem_cons.mp e2 with e2 | e2
          · cases e2; rfl
          · have a := hx _ e2
            have b := hx' _ e1
            have := strCmp_lt_trans a b
            simp [strCmp_refl] at this
      subst hkk
      have hv : v = v' := by
        have := hg k; rw [get_cons, get_cons] at this; simpa using this
      subst hv
      congr 1
      apply ih (List.pairwise_cons.mp h).2 (List.pairwise_cons.mp h').2
      intro q
      have := hg q
      rw [get_cons, get_cons] at this
      by_cases hq : k = q
      · subst hq
        have n1 : ∀ {w : Map V}, (∀ e ∈ w, strCmp k e.1 = .lt) → get k w = none := by
          intro w hw
          cases hc : get k w with
          | none => rfl
          | some y =>
            have := hw _ (mem_of_get hc)
            simp [strCmp_refl] at this
        rw [n1 hx, n1 hx']
      · simpa [hq] using this

theorem get_insertAll {V} (k : Str) (m : Map V) (l : List (Str × V)) :
    get k (insertAll m l) = ((l.reverse.find? fun e => e.1 = k).map Prod.snd).or (get k m) := by
  induction l generalizing m with
  | nil => simp [insertAll]
  | cons x l ih =>
    have : insertAll m (x :: l) = insertAll (insert x.1 x.2 m) l := rfl
    rw [this, ih, get_insert, List.reverse_cons, List.find?_append]
    cases hf : List.find? (fun e => e.1 = k) l.reverse with
    | some e => simp
    | none =>
      by_cases h : x.1 = k <;> simp [h]

theorem mem_insertAll {V} {m : Map V} {l : List (Str × V)} {e : Str × V} (h : e ∈ insertAll m l) :
    e ∈ l ∨ e ∈ m := by
  induction l generalizing m with
  | nil => exact .inr h
  | cons x l ih =>
    rcases ih (m := insert x.1 x.2 m) h with h | h
    · exact .inl (List.mem_cons_of_mem _ h)
    · rcases mem_insert_key h with rfl | h
      · exact .inl List.mem_cons_self
      · exact .inr h

theorem insert_perm {V} {k : Str} (v : V) {m : Map V} (h : k ∉ m.map Prod.fst) :
    (insert k v m).Perm ((k, v) :: m) := by
  induction m with
  | nil => exact .refl _
  | cons x m ih =>
    obtain ⟨k', v'⟩ := x
    simp only [List.map_cons, List.mem_cons, not_or] at h
    simp only [insert]
    split
    · exact .refl _
    · rename_i he; exact absurd (strCmp_eq.mp he) h.1
    · exact ((ih h.2).cons _).trans (.swap _ _ _)

/-- Inserting entries with distinct new keys keeps all of them. -/
theorem insertAll_perm {V} {m : Map V} {l : List (Str × V)} (hl : (l.map Prod.fst).Nodup)
    (hm : ∀ k ∈ l.map Prod.fst, k ∉ m.map Prod.fst) : (insertAll m l).Perm (l ++ m) := by
  induction l generalizing m with
  | nil => exact .refl _
  | cons x l ih =>
    have hx := List.nodup_cons.mp hl
    have hp := insert_perm x.2 (hm x.1 (by simp))
    have : insertAll m (x :: l) = insertAll (insert x.1 x.2 m) l := rfl
    rw [this]
    refine (ih hx.2 ?_).trans ?_
    · intro k hk hin
      have := (hp.map Prod.fst).mem_iff.mp hin
      rcases List.mem_cons.mp this with rfl | h
      · exact hx.1 hk
      · exact hm k (by simp at hk ⊢; exact .inr hk) h
    · exact (hp.append_left l).trans List.perm_middle

theorem values_nodup_keys {V} {m : Map V} (h : Sorted m) : (m.map Prod.fst).Nodup := by
  rw [List.Nodup, List.pairwise_map]
  apply List.Pairwise.imp _ h
  intro a b hab he
  rw [he, strCmp_refl] at hab; cases hab

end BTree

end Progenitor

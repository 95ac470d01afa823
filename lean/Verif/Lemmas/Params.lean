import Verif.Spec.Params
import Verif.Spec.Query
import Verif.Lemmas.BTree

/-! # Lemmas on parameters -/

namespace Progenitor.Params

open Progenitor Progenitor.Spec

theorem bind_ok_inv {α β} {r : Res α} {f : α → Res β} {b : β} (h : (r >>= f) = .ok b) :
    ∃ a, r = .ok a ∧ f a = .ok b := by
  cases r with
  | ok a => exact ⟨a, rfl, h⟩
  | err m => cases h
  | panic m => cases h

theorem pairwise_forall {α} {R : α → α → Prop} {l : List α} (hsym : ∀ {a b}, R a b → R b a)
    (hrefl : ∀ x ∈ l, R x x) (h : l.Pairwise R) {a b : α} (ha : a ∈ l) (hb : b ∈ l) : R a b := by
  induction l with
  | nil => cases ha
  | cons x l ih =>
    have hx := List.pairwise_cons.mp h
    rcases List.mem_cons.mp ha with e | ha' <;> rcases List.mem_cons.mp hb with e' | hb'
    · subst e; subst e'; exact hrefl _ (by simp)
    · subst e; exact hx.1 b hb'
    · subst e'; exact hsym (hx.1 a ha')
    · exact ih (fun y hy => hrefl y (by simp [hy])) hx.2 ha' hb'

theorem forall₂_right {α β} {R : α → β → Prop} {P : β → Prop} (hR : ∀ {a b}, R a b → P b)
    {xs : List α} {ys : List β} (h : Spec.Forall₂ R xs ys) : ∀ y ∈ ys, P y := by
  induction h with
  | nil => simp
  | cons hpa _ ih =>
    intro p hp
    rcases List.mem_cons.mp hp with rfl | hp
    · exact hR hpa
    · exact ih p hp

theorem forall₂_imp {α β} {R S : α → β → Prop} (hR : ∀ {a b}, R a b → S a b)
    {xs : List α} {ys : List β} (h : Spec.Forall₂ R xs ys) : Spec.Forall₂ S xs ys := by
  induction h with
  | nil => exact .nil
  | cons hpa _ ih => exact .cons (hR hpa) ih

/-! ## Conversion -/

theorem convert_describes {san p a} (h : convert san p = .ok a) : Describes p a ∧ a.name = san p.name := by
  obtain ⟨name, kind, required, hasSchema, ty⟩ := p
  unfold convert at h
  cases kind with
  | path s =>
    cases s with
    | false => dsimp only at h; cases h
    | true =>
      dsimp only at h
      split at h
      · split at h
        · cases h; exact ⟨⟨rfl, rfl, trivial⟩, rfl⟩
        · cases h
      · cases h
  | query f o =>
    cases f with
    | false => dsimp only at h; cases h
    | true =>
      cases o with
      | none =>
        dsimp only at h; split at h
        · cases h; exact ⟨⟨rfl, rfl, rfl, rfl⟩, rfl⟩
        · cases h
      | some t =>
        dsimp only at h; split at h
        · cases h; exact ⟨⟨rfl, rfl, rfl, rfl⟩, rfl⟩
        · cases h
  | header =>
    dsimp only at h; split at h
    · cases h; exact ⟨⟨rfl, rfl, rfl, rfl⟩, rfl⟩
    · cases h
  | cookie => dsimp only at h; cases h

theorem convertAll_forall₂ {san ps as} (h : convertAll san ps = .ok as) :
    Spec.Forall₂ (fun p a => convert san p = .ok a) ps as := by
  induction ps generalizing as with
  | nil => cases h; exact .nil
  | cons p ps ih =>
    simp only [convertAll] at h
    obtain ⟨a, ha, h⟩ := bind_ok_inv h
    obtain ⟨as', has, h⟩ := bind_ok_inv h
    cases h
    exact .cons ha (ih has)

theorem convert_not_body {san p a} (h : convert san p = .ok a) : location a.kind ≠ .body := by
  have := (convert_describes h).1.2.1
  rw [this]; cases p.kind <;> simp [docLocation]

/-! ## Insertion sort -/

section Sorting

variable {α : Type}

/-- Pure insertion. -/
def insertP (less : α → α → Bool) (x : α) : List α → List α
  | [] => [x]
  | y :: ys => if less x y then y :: insertP less x ys else x :: y :: ys

def sortP (less : α → α → Bool) : List α → List α → List α
  | acc, [] => acc.reverse
  | acc, x :: xs => sortP less (insertP less x acc) xs

theorem insertTail_pure {less : α → α → Res Bool} {l : α → α → Bool} {x : α} {acc : List α}
    (h : ∀ y ∈ acc, less x y = .ok (l x y)) : insertTail less x acc = .ok (insertP l x acc) := by
  induction acc with
  | nil => rfl
  | cons y ys ih =>
    simp only [insertTail, insertP, h y (by simp), Res.bind_ok]
    cases l x y with
    | false => rfl
    | true => simp [ih (fun z hz => h z (by simp [hz]))]

theorem insertP_perm (l : α → α → Bool) (x : α) (acc : List α) :
    (insertP l x acc).Perm (x :: acc) := by
  induction acc with
  | nil => exact .refl _
  | cons y ys ih =>
    simp only [insertP]
    split
    · exact (List.Perm.cons y ih).trans (.swap _ _ _)
    · exact .refl _

theorem sortP_perm (l : α → α → Bool) (acc xs : List α) :
    (sortP l acc xs).Perm (acc ++ xs) := by
  induction xs generalizing acc with
  | nil => simpa [sortP] using List.reverse_perm acc
  | cons x xs ih =>
    refine (ih _).trans ?_
    refine ((insertP_perm l x acc).append_right xs).trans ?_
    exact List.perm_middle.symm

theorem sortLoop_pure {less : α → α → Res Bool} {l : α → α → Bool} {acc xs : List α}
    (h1 : ∀ x ∈ xs, ∀ y ∈ acc, less x y = .ok (l x y))
    (h2 : xs.Pairwise fun y x => less x y = .ok (l x y)) :
    sortLoop less acc xs = .ok (sortP l acc xs) := by
  induction xs generalizing acc with
  | nil => rfl
  | cons x xs ih =>
    simp only [sortLoop, sortP]
    rw [insertTail_pure (l := l) (fun y hy => h1 x (by simp) y hy), Res.bind_ok]
    have h2' := List.pairwise_cons.mp h2
    apply ih _ h2'.2
    intro z hz y hy
    have := (insertP_perm l x acc).mem_iff.mp hy
    rcases List.mem_cons.mp this with rfl | h
    · exact h2'.1 z hz
    · exact h1 z (by simp [hz]) y h

/-- `less` restricted to `s` is a strict weak order. -/
structure Swo (less : α → α → Bool) (s : List α) : Prop where
  asymm : ∀ a ∈ s, ∀ b ∈ s, less a b = true → less b a = false
  ntrans : ∀ a ∈ s, ∀ b ∈ s, ∀ c ∈ s, less b a = false → less c b = false → less c a = false

theorem insertP_sorted {l : α → α → Bool} {s : List α} (hs : Swo l s) {x : α} {acc : List α}
    (hx : x ∈ s) (ha : ∀ y ∈ acc, y ∈ s) (h : acc.Pairwise fun a b => l a b = false) :
    (insertP l x acc).Pairwise fun a b => l a b = false := by
  induction acc with
  | nil => simp [insertP]
  | cons y ys ih =>
    have hy := List.pairwise_cons.mp h
    simp only [insertP]
    split
    · rename_i hl
      refine List.pairwise_cons.mpr ⟨?_, ih (fun z hz => ha z (by simp [hz])) hy.2⟩
      intro z hz
      rcases List.mem_cons.mp ((insertP_perm l x ys).mem_iff.mp hz) with rfl | hz
      · exact hs.asymm _ hx _ (ha y (by simp)) hl
      · exact hy.1 z hz
    · rename_i hl
      have hl : l x y = false := by simpa using hl
      refine List.pairwise_cons.mpr ⟨?_, h⟩
      intro z hz
      rcases List.mem_cons.mp hz with rfl | hz'
      · exact hl
      · exact hs.ntrans z (ha z hz) y (ha y (by simp)) x hx (hy.1 z hz') hl

theorem sortP_sorted {l : α → α → Bool} {s : List α} (hs : Swo l s) {acc xs : List α}
    (ha : ∀ y ∈ acc, y ∈ s) (hx : ∀ y ∈ xs, y ∈ s) (h : acc.Pairwise fun a b => l a b = false) :
    (sortP l acc xs).Pairwise fun a b => l b a = false := by
  induction xs generalizing acc with
  | nil => simpa [sortP, List.pairwise_reverse] using h
  | cons x xs ih =>
    simp only [sortP]
    apply ih
    · intro y hy
      rcases List.mem_cons.mp ((insertP_perm l x acc).mem_iff.mp hy) with rfl | hy
      · exact hx _ (by simp)
      · exact ha y hy
    · intro y hy; exact hx y (by simp [hy])
    · exact insertP_sorted hs (hx x (by simp)) ha h

/-- Insertion keeps the relative order of what was there. -/
theorem insertP_sublist (l : α → α → Bool) (x : α) (acc : List α) : acc.Sublist (insertP l x acc) := by
  induction acc with
  | nil => simp
  | cons y ys ih =>
    simp only [insertP]; split
    · exact ih.cons_cons y
    · exact List.sublist_cons_self _ _

/-- Insertion does not move `x` across an element it is not less than. -/
theorem insertP_after {l : α → α → Bool} {s : List α} (hs : Swo l s) {x a : α} {acc : List α}
    (hx : x ∈ s) (ha : ∀ y ∈ acc, y ∈ s) (hp : acc.Pairwise fun a b => l a b = false)
    (hm : a ∈ acc) (hl : l x a = false) : [x, a].Sublist (insertP l x acc) := by
  induction acc with
  | nil => cases hm
  | cons y ys ih =>
    simp only [insertP]
    split
    · rename_i hlt
      rcases List.mem_cons.mp hm with rfl | hm
      · rw [hl] at hlt; cases hlt
      · exact (ih (fun z hz => ha z (by simp [hz])) (List.pairwise_cons.mp hp).2 hm).cons _
    · exact (List.singleton_sublist.mpr hm).cons_cons x

theorem sortP_stable {l : α → α → Bool} {s : List α} (hs : Swo l s) {acc xs : List α}
    (ha : ∀ y ∈ acc, y ∈ s) (hx : ∀ y ∈ xs, y ∈ s) (h : acc.Pairwise fun a b => l a b = false)
    {a b : α} (hab : l b a = false)
    (hsub : [b, a].Sublist acc ∨ (a ∈ acc ∧ b ∈ xs) ∨ [a, b].Sublist xs) :
    [a, b].Sublist (sortP l acc xs) := by
  induction xs generalizing acc with
  | nil =>
    rcases hsub with h | h | h
    · simpa [sortP] using h.reverse
    · simp at h
    · simp at h
  | cons x xs ih =>
    simp only [sortP]
    apply ih
    · intro y hy
      rcases List.mem_cons.mp ((insertP_perm l x acc).mem_iff.mp hy) with rfl | hy
      · exact hx _ (by simp)
      · exact ha y hy
    · intro y hy; exact hx y (by simp [hy])
    · exact insertP_sorted hs (hx x (by simp)) ha h
    · rcases hsub with h' | ⟨h1, h2⟩ | h'
      · exact .inl (h'.trans (insertP_sublist _ _ _))
      · rcases List.mem_cons.mp h2 with rfl | h2
        · exact .inl (insertP_after hs (hx _ (by simp)) ha h h1 hab)
        · exact .inr (.inl ⟨(insertP_perm l x acc).mem_iff.mpr (by simp [h1]), h2⟩)
      · cases h' with
        | cons _ h' => exact .inr (.inr h')
        | cons_cons _ h' =>
          exact .inr (.inl ⟨(insertP_perm l _ acc).mem_iff.mpr (by simp), List.singleton_sublist.mp h'⟩)

/-- Two stable sorts of a list without repetitions agree. -/
theorem stable_unique {l : α → α → Bool} {xs o o' : List α} (hs : Swo l xs) (hn : xs.Nodup)
    (h : StableSorted l xs o) (h' : StableSorted l xs o') : o = o' := by
  have key : ∀ {p p' : List α}, StableSorted l xs p → StableSorted l xs p' →
      ∀ a b, [a, b].Sublist p → [b, a].Sublist p' → False := by
    intro p p' hp hp' a b hab hba
    have ma : a ∈ xs := hp.perm.mem_iff.mp (hab.subset (by simp))
    have mb : b ∈ xs := hp.perm.mem_iff.mp (hab.subset (by simp))
    have hl1 : l b a = false := by
      have := hp.sorted.sublist hab; simpa using this
    have hl2 : l a b = false := by
      have := hp'.sorted.sublist hba; simpa using this
    have hne : a ≠ b := by
      rintro rfl
      have := (hp.perm.nodup_iff.mpr hn).sublist hab
      simp at this
    have nod : ∀ {q : List α}, q.Nodup → [a, b].Sublist q → [b, a].Sublist q → False := by
      intro q hq h1 h2
      induction q with
      | nil => simp at h1
      | cons z q ih =>
        rw [List.nodup_cons] at hq
        cases h1 with
        | cons _ h1 =>
          cases h2 with
          | cons _ h2 => exact ih hq.2 h1 h2
          | cons_cons _ h2 => exact hq.1 (h1.subset (by simp))
        | cons_cons _ h1 =>
          cases h2 with
          | cons _ h2 => exact hq.1 (h2.subset (by simp))
          | cons_cons _ h2 => exact hne rfl
    have dich : ∀ {q : List α}, a ∈ q → b ∈ q → [a, b].Sublist q ∨ [b, a].Sublist q := by
      intro q h1 h2
      induction q with
      | nil => cases h1
      | cons z q ih =>
        rcases List.mem_cons.mp h1 with rfl | h1
        · rcases List.mem_cons.mp h2 with rfl | h2
          · exact absurd rfl hne
          · exact .inl ((List.singleton_sublist.mpr h2).cons_cons _)
        · rcases List.mem_cons.mp h2 with h2 | h2
          · rw [← h2]; exact .inr ((List.singleton_sublist.mpr h1).cons_cons _)
          · rcases ih h1 h2 with h | h
            · exact .inl (h.cons _)
            · exact .inr (h.cons _)
    rcases dich ma mb with h | h
    · exact nod (hp'.perm.nodup_iff.mpr hn) (hp'.stable a b hl2 hl1 h) hba
    · exact nod (hp.perm.nodup_iff.mpr hn) hab (hp.stable b a hl1 hl2 h)
  have hperm : o.Perm o' := h.perm.trans h'.perm.symm
  have hnd : o.Nodup := h.perm.nodup_iff.mpr hn
  have key' := key h h'
  clear h h' key
  induction o generalizing o' with
  | nil => exact (List.nil_perm.mp hperm).symm ▸ rfl
  | cons a o ih =>
    cases o' with
    | nil => exact absurd hperm.length_eq (by simp)
    | cons b o' =>
      have hab : a = b := by
        rcases List.mem_cons.mp (hperm.mem_iff.mp (by simp : a ∈ a :: o)) with h | h
        · exact h
        · rcases List.mem_cons.mp (hperm.mem_iff.mpr (by simp : b ∈ b :: o')) with h2 | h2
          · exact h2.symm
          · exact (key' a b ((List.singleton_sublist.mpr h2).cons_cons _)
              ((List.singleton_sublist.mpr h).cons_cons _)).elim
      subst hab
      congr 1
      exact ih (List.perm_cons a |>.mp hperm) (List.nodup_cons.mp hnd).2
        (fun x y h1 h2 => key' x y (h1.cons _) (h2.cons _))

end Sorting

/-! ## The comparator -/

theorem lexLe_iff {a b : Str} : LexLe a b ↔ strCmp a b ≠ .gt := by
  constructor
  · intro h
    induction h with
    | nil b => cases b <;> simp [strCmp]
    | lt a b as bs h => simp [strCmp, h]
    | eq a as bs _ ih => simpa [strCmp] using ih
  · intro h
    induction a generalizing b with
    | nil => exact .nil _
    | cons c a ih =>
      cases b with
      | nil => simp [strCmp] at h
      | cons d b =>
        simp only [strCmp] at h
        split at h
        · rename_i h1; exact .lt _ _ _ _ h1
        · split at h
          · simp at h
          · have : c = d := Char.toNat_inj.mp (by omega)
            subst this; exact .eq _ _ _ (ih h)

/-- Rank of the kind, and the position or name within the kind. -/
def pos (names : List Str) (n : Str) : Nat := names.findIdx (· == n)

theorem position_ok {names : List Str} {n : Str} (h : n ∈ names) :
    position names n = .ok (pos names n) := by
  unfold position pos
  have : names.findIdx? (· == n) = some (names.findIdx (· == n)) := by
    rw [List.findIdx?_eq_some_iff_findIdx_eq]
    exact ⟨List.findIdx_lt_length_of_exists ⟨n, h, by simp⟩, rfl⟩
  rw [this]

theorem position_panic {names : List Str} {n : Str} (h : n ∉ names) :
    (position names n).isPanic = true := by
  unfold position
  have : names.findIdx? (· == n) = none := by
    rw [List.findIdx?_eq_none_iff]
    intro x hx
    exact beq_false_of_ne (fun e => h (e ▸ hx))
  rw [this]; rfl

theorem firstBefore_of_pos {names : List Str} {a b : Str} (ha : a ∈ names)
    (h : pos names a ≤ pos names b) : FirstBefore names a b := by
  induction names with
  | nil => cases ha
  | cons x names ih =>
    by_cases hx : x = a
    · subst hx; exact ⟨[], names, rfl, by simp, by simp⟩
    · have ha' : a ∈ names := by
        rcases List.mem_cons.mp ha with rfl | h
        · exact absurd rfl hx
        · exact h
      have e1 : pos (x :: names) a = pos names a + 1 := by
        simp [pos, List.findIdx_cons, hx, beq_false_of_ne hx]
      by_cases hb : x = b
      · subst hb
        have : pos (x :: names) x = 0 := by simp [pos, List.findIdx_cons]
        omega
      · have e2 : pos (x :: names) b = pos names b + 1 := by
          simp [pos, List.findIdx_cons, hb, beq_false_of_ne hb]
        obtain ⟨pre, post, h1, h2, h3⟩ := ih ha' (by omega)
        refine ⟨x :: pre, post, by rw [h1]; rfl, ?_, ?_⟩
        · simp only [List.mem_cons, not_or]; exact ⟨fun e => hb e.symm, h2⟩
        · simp only [List.mem_cons, not_or]; exact ⟨fun e => hx e.symm, h3⟩

/-- The comparator's `Less`, with positions already computed. -/
def lessP (names : List Str) (a b : Param) : Bool :=
  match a.kind, b.kind with
  | .path, .path => decide (pos names a.apiName < pos names b.apiName)
  | .path, _ => true
  | .query _, .query _ => strCmp a.apiName b.apiName == .lt
  | .query _, .path => false
  | .query _, _ => true
  | .header _, .header _ => strCmp a.apiName b.apiName == .lt
  | _, _ => false

/-- Every path parameter is in the template. -/
def PathsFound (names : List Str) (l : List Param) : Prop :=
  ∀ p ∈ l, location p.kind = .path → p.apiName ∈ names

theorem less_pure {names : List Str} {a b : Param}
    (hp : location a.kind = .path → location b.kind = .path → a.apiName ∈ names ∧ b.apiName ∈ names)
    (hbody : ¬ (location a.kind = .body ∧ location b.kind = .body)) :
    (do pure ((← cmp names a b) == .lt) : Res Bool) = .ok (lessP names a b) := by
  unfold cmp lessP
  cases hka : a.kind <;> cases hkb : b.kind <;> rw [hka, hkb] at hbody <;>
    simp [location] at hbody ⊢ <;> try rfl
  rw [hka, hkb] at hp
  rw [position_ok (hp rfl rfl).1, position_ok (hp rfl rfl).2]
  simp
  rw [Bool.eq_iff_iff]
  simp [Nat.compare_eq_lt]

theorem strCmp_ntrans {a b c : Str} (h1 : (strCmp b a == .lt) = false) (h2 : (strCmp c b == .lt) = false) :
    (strCmp c a == .lt) = false := by
  have h1 : strCmp b a ≠ .lt := by simpa using h1
  have h2 : strCmp c b ≠ .lt := by simpa using h2
  have : strCmp c a ≠ .lt := by
    intro h
    cases hba : strCmp b a with
    | lt => exact h1 hba
    | eq => rw [strCmp_eq] at hba; subst hba; exact h2 h
    | gt => exact h2 (strCmp_lt_trans h (strCmp_gt.mp hba))
  simpa using this

theorem lessP_swo (names : List Str) {s : List Param}
    (hb : (∀ p ∈ s, location p.kind ≠ .body) ∨ (∀ p ∈ s, location p.kind ≠ .header)) :
    Swo (lessP names) s where
  asymm := by
    intro a ha b hb' h
    have h3 : (location a.kind ≠ .body ∧ location b.kind ≠ .body) ∨
        (location a.kind ≠ .header ∧ location b.kind ≠ .header) :=
      hb.imp (fun hb => ⟨hb a ha, hb b hb'⟩) (fun hb => ⟨hb a ha, hb b hb'⟩)
    unfold lessP at h ⊢
    cases hka : a.kind <;> cases hkb : b.kind <;> rw [hka] at h h3 <;> rw [hkb] at h h3 <;>
      simp_all [location]
    · omega
    · rw [strCmp_swap a.apiName, h]; decide
    · rw [strCmp_swap a.apiName, h]; decide
  ntrans := by
    intro a ha b hb' c hc h1 h2
    have h3 : (location a.kind ≠ .body ∧ location b.kind ≠ .body ∧ location c.kind ≠ .body) ∨
        (location a.kind ≠ .header ∧ location b.kind ≠ .header ∧ location c.kind ≠ .header) :=
      hb.imp (fun hb => ⟨hb a ha, hb b hb', hb c hc⟩) (fun hb => ⟨hb a ha, hb b hb', hb c hc⟩)
    unfold lessP at h1 h2 ⊢
    cases hka : a.kind <;> cases hkb : b.kind <;> cases hkc : c.kind <;>
      rw [hka] at h1 h3 <;> rw [hkb] at h1 h2 h3 <;> rw [hkc] at h2 h3 <;>
      simp only [location, ne_eq, reduceCtorEq, not_true_eq_false, not_false_eq_true, and_true,
        and_false, or_false, or_self, and_self] at h3 <;>
      simp only [reduceCtorEq] at h1 h2 ⊢
    · simp at h1 h2 ⊢; omega
    · exact strCmp_ntrans h1 h2
    · exact strCmp_ntrans h1 h2

theorem before_of_not_less {names : List Str} {a b : Param} (h : lessP names b a = false)
    (ha : location a.kind = .path → location b.kind = .path → a.apiName ∈ names)
    (hba : location a.kind ≠ .body) : Before names a b := by
  unfold lessP at h
  cases hka : a.kind <;> cases hkb : b.kind <;> rw [hka] at h hba ha <;> rw [hkb] at h ha <;>
    simp only [reduceCtorEq, location, ne_eq, not_true_eq_false] at h hba
  · exact .pathPath _ _ (by rw [hka]; rfl) (by rw [hkb]; rfl)
      (firstBefore_of_pos (ha rfl rfl) (by simpa using h))
  all_goals first
    | exact .pathOther _ _ (by rw [hka]; rfl) (by rw [hkb]; simp [location])
    | exact .queryQuery _ _ (by rw [hka]; rfl) (by rw [hkb]; rfl)
        (lexLe_iff.mpr (by rw [Ne, strCmp_gt]; simpa using h))
    | exact .headerHeader _ _ (by rw [hka]; rfl) (by rw [hkb]; rfl)
        (lexLe_iff.mpr (by rw [Ne, strCmp_gt]; simpa using h))
    | exact .queryHeader _ _ (by rw [hka]; rfl) (by rw [hkb]; rfl)
    | exact .queryBody _ _ (by rw [hka]; rfl) (by rw [hkb]; rfl)
    | exact .headerBody _ _ (by rw [hka]; rfl) (by rw [hkb]; rfl)

theorem before_body {names : List Str} {a b : Param} (ha : location a.kind ≠ .body)
    (hb : location b.kind = .body) : Before names a b := by
  cases hka : a.kind with
  | path => exact .pathOther _ _ (by rw [hka]; rfl) (by rw [hb]; simp)
  | query r => exact .queryBody _ _ (by rw [hka]; rfl) hb
  | header r => exact .headerBody _ _ (by rw [hka]; rfl) hb
  | body c => rw [hka] at ha; exact absurd rfl ha

theorem lessP_body_left {names : List Str} {a b : Param} (ha : location a.kind = .body) :
    lessP names a b = false := by
  unfold lessP
  cases hka : a.kind <;> rw [hka] at ha <;> simp [location] at ha ⊢

theorem sortP_snoc {α} (l : α → α → Bool) (acc xs : List α) (b : α) (h : ∀ y, l b y = false) :
    sortP l acc (xs ++ [b]) = sortP l acc xs ++ [b] := by
  induction xs generalizing acc with
  | nil =>
    simp [sortP]
    cases acc with
    | nil => rfl
    | cons y ys => simp [insertP, h]
  | cons x xs ih => simp only [List.cons_append, sortP]; exact ih _

/-! ## What a successful sort says about the path parameters -/

abbrev less (names : List Str) (a b : Param) : Res Bool := do pure ((← cmp names a b) == .lt)

theorem less_path_path_ok {names : List Str} {a b : Param} {r} (ha : location a.kind = .path)
    (hb : location b.kind = .path) (h : less names a b = .ok r) :
    a.apiName ∈ names ∧ b.apiName ∈ names := by
  obtain ⟨o, ho, _⟩ := bind_ok_inv h
  unfold cmp at ho
  cases hka : a.kind <;> rw [hka] at ha <;> simp [location] at ha
  cases hkb : b.kind <;> rw [hkb] at hb <;> simp [location] at hb
  rw [hka, hkb] at ho
  obtain ⟨i, hi, ho⟩ := bind_ok_inv ho
  obtain ⟨j, hj, ho⟩ := bind_ok_inv ho
  constructor
  · refine Classical.byContradiction fun hn => ?_
    have := position_panic hn; rw [hi] at this; cases this
  · refine Classical.byContradiction fun hn => ?_
    have := position_panic hn; rw [hj] at this; cases this

theorem less_other_path {names : List Str} {a b : Param} (ha : location a.kind ≠ .path)
    (hb : location b.kind = .path) : less names a b = .ok false := by
  unfold less cmp
  cases hkb : b.kind <;> rw [hkb] at hb <;> simp [location] at hb
  cases hka : a.kind <;> rw [hka] at ha <;> simp [location] at ha <;> rfl

theorem less_path_other {names : List Str} {a b : Param} (ha : location a.kind = .path)
    (hb : location b.kind ≠ .path) : less names a b = .ok true := by
  unfold less cmp
  cases hka : a.kind <;> rw [hka] at ha <;> simp [location] at ha
  cases hkb : b.kind <;> rw [hkb] at hb <;> simp [location] at hb <;> rfl

/-- At most one path parameter, or all of them in the template. -/
def Found (names : List Str) (l : List Param) : Prop :=
  l.length ≤ 1 ∨ ∀ p ∈ l, p.apiName ∈ names

/-- The reversed sorted prefix: others, then path parameters. -/
def Shape (names : List Str) (acc : List Param) : Prop :=
  ∃ np ps, acc = np ++ ps ∧ (∀ p ∈ np, location p.kind ≠ .path) ∧
    (∀ p ∈ ps, location p.kind = .path) ∧ Found names ps

theorem insertTail_path {names : List Str} {x : Param} {ps r : List Param}
    (hx : location x.kind = .path) (hps : ∀ p ∈ ps, location p.kind = .path)
    (hf : Found names ps) (h : insertTail (less names) x ps = .ok r) :
    (∀ p ∈ r, location p.kind = .path) ∧ Found names r := by
  cases ps with
  | nil => cases h; exact ⟨by simpa using hx, .inl (by simp)⟩
  | cons y ys =>
    have hxy : x.apiName ∈ names ∧ y.apiName ∈ names := by
      obtain ⟨b, hb, _⟩ := bind_ok_inv h
      exact less_path_path_ok hx (hps y (by simp)) hb
    have hall : ∀ p ∈ y :: ys, p.apiName ∈ names := by
      rcases hf with hf | hf
      · cases ys with
        | nil => simpa using hxy.2
        | cons => simp at hf
      · exact hf
    have hp : insertTail (less names) x (y :: ys) = .ok (insertP (lessP names) x (y :: ys)) := by
      apply insertTail_pure
      intro z hz
      apply less_pure (fun _ _ => ⟨hxy.1, hall z hz⟩)
      rw [hx]; simp
    rw [hp] at h; cases h
    have hm := (insertP_perm (lessP names) x (y :: ys))
    constructor
    · intro p hp'
      rcases List.mem_cons.mp (hm.mem_iff.mp hp') with rfl | hp'
      · exact hx
      · exact hps p hp'
    · right
      intro p hp'
      rcases List.mem_cons.mp (hm.mem_iff.mp hp') with rfl | hp'
      · exact hxy.1
      · exact hall p hp'

theorem insertTail_append_path {names : List Str} {x : Param} {np ps r : List Param}
    (hx : location x.kind = .path) (hnp : ∀ p ∈ np, location p.kind ≠ .path)
    (h : insertTail (less names) x (np ++ ps) = .ok r) :
    ∃ r', insertTail (less names) x ps = .ok r' ∧ r = np ++ r' := by
  induction np generalizing r with
  | nil => exact ⟨r, h, rfl⟩
  | cons y np ih =>
    simp only [List.cons_append, insertTail] at h
    have e := less_path_other (names := names) hx (hnp y (by simp))
    rw [e] at h
    simp only [Res.bind_ok, if_true] at h
    obtain ⟨r1, h1, h2⟩ := bind_ok_inv h
    obtain ⟨r', h3, h4⟩ := ih (fun p hp => hnp p (by simp [hp])) h1
    cases h2
    exact ⟨r', h3, by rw [h4]; rfl⟩

theorem insertTail_append_other {names : List Str} {x : Param} {np ps r : List Param}
    (hx : location x.kind ≠ .path) (hnp : ∀ p ∈ np, location p.kind ≠ .path)
    (hps : ∀ p ∈ ps, location p.kind = .path)
    (h : insertTail (less names) x (np ++ ps) = .ok r) :
    ∃ np', r = np' ++ ps ∧ ∀ p ∈ np', location p.kind ≠ .path := by
  induction np generalizing r with
  | nil =>
    cases ps with
    | nil => cases h; exact ⟨[x], rfl, by simpa using hx⟩
    | cons y ys =>
      simp only [List.nil_append, insertTail] at h
      have e := less_other_path (names := names) hx (hps y (by simp))
      rw [e] at h
      cases h
      exact ⟨[x], rfl, by simpa using hx⟩
  | cons y np ih =>
    simp only [List.cons_append, insertTail] at h
    obtain ⟨b, _, h⟩ := bind_ok_inv h
    cases b with
    | false =>
      cases h
      refine ⟨x :: y :: np, rfl, ?_⟩
      intro p hp
      rcases List.mem_cons.mp hp with rfl | hp
      · exact hx
      · exact hnp p hp
    | true =>
      simp only [if_true] at h
      obtain ⟨r1, h1, h2⟩ := bind_ok_inv h
      obtain ⟨np', h3, h4⟩ := ih (fun p hp => hnp p (by simp [hp])) h1
      cases h2
      refine ⟨y :: np', by rw [h3]; rfl, ?_⟩
      intro p hp
      rcases List.mem_cons.mp hp with rfl | hp
      · exact hnp _ (by simp)
      · exact h4 p hp

theorem sortLoop_shape {names : List Str} {acc xs r : List Param} (hs : Shape names acc)
    (h : sortLoop (less names) acc xs = .ok r) : Shape names r.reverse := by
  induction xs generalizing acc with
  | nil => cases h; simpa using hs
  | cons x xs ih =>
    simp only [sortLoop] at h
    obtain ⟨acc', h1, h2⟩ := bind_ok_inv h
    apply ih _ h2
    obtain ⟨np, ps, rfl, hnp, hps, hf⟩ := hs
    by_cases hx : location x.kind = .path
    · obtain ⟨r', h3, h4⟩ := insertTail_append_path hx hnp h1
      have := insertTail_path hx hps hf h3
      exact ⟨np, r', h4, hnp, this.1, this.2⟩
    · obtain ⟨np', h3, h4⟩ := insertTail_append_other hx hnp hps h1
      exact ⟨np', ps, h3, h4, hps, hf⟩

/-- Whether or not it succeeds, the loop never invents or loses an element. -/
theorem insertTail_perm {α} {less : α → α → Res Bool} {x : α} {acc r : List α}
    (h : insertTail less x acc = .ok r) : r.Perm (x :: acc) := by
  induction acc generalizing r with
  | nil => cases h; exact .refl _
  | cons y ys ih =>
    simp only [insertTail] at h
    obtain ⟨b, _, h⟩ := bind_ok_inv h
    cases b with
    | false => cases h; exact .refl _
    | true =>
      simp only [if_true] at h
      obtain ⟨r1, h1, h2⟩ := bind_ok_inv h
      cases h2
      exact ((ih h1).cons y).trans (.swap _ _ _)

theorem sortLoop_perm {α} {less : α → α → Res Bool} {acc xs r : List α}
    (h : sortLoop less acc xs = .ok r) : r.Perm (acc ++ xs) := by
  induction xs generalizing acc with
  | nil => cases h; simpa using List.reverse_perm acc
  | cons x xs ih =>
    simp only [sortLoop] at h
    obtain ⟨acc', h1, h2⟩ := bind_ok_inv h
    exact (ih h2).trans (((insertTail_perm h1).append_right xs).trans List.perm_middle.symm)

/-- If the sort succeeds, there is at most one path parameter or all of them
occur in the template. -/
theorem sortParams_found {names : List Str} {l r : List Param} (h : sortParams names l = .ok r) :
    (l.filter fun p => location p.kind == .path).length ≤ 1 ∨ PathsFound names l := by
  have hp : r.Perm l := by simpa using sortLoop_perm h
  obtain ⟨np, ps, he, hnp, hps, hf⟩ := sortLoop_shape (names := names)
    ⟨[], [], rfl, by simp, by simp, .inl (by simp)⟩ h
  have hp' : (np ++ ps).Perm l := he ▸ (List.reverse_perm r).trans hp
  rcases hf with hf | hf
  · left
    have : ((np ++ ps).filter fun p => location p.kind == .path).length ≤ 1 := by
      rw [List.filter_append]
      have e : np.filter (fun p => location p.kind == .path) = [] := by
        rw [List.filter_eq_nil_iff]
        intro p hp; simpa using hnp p hp
      rw [e]
      exact Nat.le_trans (List.length_filter_le _ _) hf
    rwa [(hp'.filter _).length_eq] at this
  · right
    intro p hp hk
    rcases List.mem_append.mp (hp'.mem_iff.mpr hp) with h | h
    · exact absurd hk (hnp p h)
    · exact hf p h

theorem pairwise_of_filter_le_one {α} (P : α → Bool) {l : List α}
    (h : (l.filter P).length ≤ 1) : l.Pairwise fun a b => ¬ (P a = true ∧ P b = true) := by
  induction l with
  | nil => exact .nil
  | cons x l ih =>
    rw [List.filter_cons] at h
    split at h
    · rename_i hx
      have h0 : l.filter P = [] := List.eq_nil_of_length_eq_zero (by simp at h; simpa using h)
      rw [List.filter_eq_nil_iff] at h0
      refine List.pairwise_cons.mpr ⟨fun y hy ⟨_, h2⟩ => h0 y hy h2, ih ?_⟩
      rw [List.filter_eq_nil_iff.mpr h0]; simp
    · rename_i hx
      exact List.pairwise_cons.mpr ⟨fun y hy ⟨h1, _⟩ => hx h1, ih h⟩

/-- Every pair of path parameters at different places is in the template. -/
theorem found_pairs {names : List Str} {l : List Param}
    (h : (l.filter fun p => location p.kind == .path).length ≤ 1 ∨ PathsFound names l) :
    l.Pairwise fun a b => location a.kind = .path → location b.kind = .path →
      a.apiName ∈ names ∧ b.apiName ∈ names := by
  rcases h with h | h
  · refine List.Pairwise.imp ?_ (pairwise_of_filter_le_one _ h)
    intro a b hn h1 h2
    exact absurd ⟨by simpa using h1, by simpa using h2⟩ hn
  · rw [List.pairwise_iff_forall_sublist]
    intro a b hab h1 h2
    exact ⟨h a (hab.subset (by simp)) h1, h b (hab.subset (by simp)) h2⟩

/-- With at most one unlisted path parameter, the sort is the pure sort. -/
theorem sortParams_pure {names : List Str} {xs : List Param} {b : Option Param}
    (h : (xs.filter fun p => location p.kind == .path).length ≤ 1 ∨ PathsFound names xs)
    (hx : ∀ p ∈ xs, location p.kind ≠ .body) (hb : ∀ p ∈ b, location p.kind = .body) :
    sortParams names (xs ++ b.toList) = .ok (sortP (lessP names) [] xs ++ b.toList) := by
  have e : sortParams names (xs ++ b.toList) = .ok (sortP (lessP names) [] (xs ++ b.toList)) := by
    apply sortLoop_pure
    · simp
    · rw [List.pairwise_append]
      refine ⟨?_, by cases b <;> simp, ?_⟩
      · refine List.Pairwise.imp_of_mem ?_ (found_pairs h)
        intro y x hy hx' hp
        exact less_pure (fun h1 h2 => (hp h2 h1).symm) (fun hc => hx x hx' hc.1)
      · intro y hy x hx'
        have hk := hb x (by simpa using hx')
        exact less_pure (fun h1 _ => by rw [hk] at h1; cases h1) (fun hc => hx y hy hc.2)
  rw [e]
  cases b with
  | none => simp
  | some b =>
    simp only [Option.toList_some]
    rw [sortP_snoc]
    intro y
    exact lessP_body_left (hb b rfl)

end Progenitor.Params

import Verif.Spec.Misc
import Verif.Lemmas.BTree

/-!
# Theorems about macro settings, references and spacing
-/

namespace Progenitor.Props

open Progenitor Progenitor.Names Progenitor.Spec

/-! ## C53 -/

section
open Progenitor.Macro

theorem mem_applyImpl (s : List TypeImpl) (i : ImplTrait) (t : TypeImpl) :
    t ∈ applyImpl s i ↔ (i.name = some t ∧ i.maybe = false) ∨ (i.name ≠ some t ∧ t ∈ s) := by
  unfold applyImpl
  cases hn : i.name with
  | none => simp
  | some x =>
    by_cases hx : x = t
    · subst hx
      cases hm : i.maybe
      · simp only [Bool.false_eq_true, if_false, addImpl]
        split
        · rename_i h; simp [h]
        · simp
      · simp [removeImpl]
    · have hx' : ¬ t = x := fun h => hx h.symm
      cases hm : i.maybe
      · simp only [Bool.false_eq_true, if_false, addImpl]
        split
        · simp [hx]
        · simp [hx, hx']
      · simp [removeImpl, hx, hx']

theorem foldl_impls (l : List ImplTrait) (s : List TypeImpl) (t : TypeImpl) :
    t ∈ l.foldl applyImpl s ↔
      (∃ pre i post, l = pre ++ i :: post ∧ i.name = some t ∧ i.maybe = false ∧ ∀ j ∈ post, j.name ≠ some t) ∨
      ((∀ j ∈ l, j.name ≠ some t) ∧ t ∈ s) := by
  induction l generalizing s with
  | nil => simp
  | cons i l ih =>
    rw [List.foldl_cons, ih]
    constructor
    · rintro (⟨pre, j, post, rfl, h⟩ | ⟨h1, h2⟩)
      · exact .inl ⟨i :: pre, j, post, rfl, h⟩
      · rcases (mem_applyImpl s i t).mp h2 with ⟨h3, h4⟩ | ⟨h3, h4⟩
        · exact .inl ⟨[], i, l, rfl, h3, h4, h1⟩
        · refine .inr ⟨?_, h4⟩
          intro j hj
          rcases List.mem_cons.mp hj with rfl | hj
          · exact h3
          · exact h1 j hj
    · rintro (⟨pre, j, post, h1, h2, h3, h4⟩ | ⟨h1, h2⟩)
      · cases pre with
        | nil =>
          injection h1 with ha hb
          subst ha; subst hb
          exact .inr ⟨h4, (mem_applyImpl _ _ _).mpr (.inl ⟨h2, h3⟩)⟩
        | cons k pre =>
          injection h1 with ha hb
          exact .inl ⟨pre, j, post, hb, h2, h3, h4⟩
      · exact .inr ⟨fun j hj => h1 j (by simp [hj]), (mem_applyImpl _ _ _).mpr (.inr ⟨h1 i (by simp), h2⟩)⟩

/-- C53: the last mention of a trait decides. -/
theorem C53_last_mention (l : List ImplTrait) (t : TypeImpl) : t ∈ impls l ↔ Implied l t := by
  unfold impls
  rw [foldl_impls]
  simp [Implied]

/-- C53: each trait once. -/
theorem C53_nodup (l : List ImplTrait) : (impls l).Nodup := by
  unfold impls
  have : ∀ s : List TypeImpl, s.Nodup → (l.foldl applyImpl s).Nodup := by
    induction l with
    | nil => exact fun s h => h
    | cons i l ih =>
      intro s hs
      refine ih _ ?_
      unfold applyImpl
      split
      · exact hs
      · split
        · exact hs.sublist List.filter_sublist
        · unfold addImpl
          split
          · exact hs
          · rename_i h; exact List.nodup_cons.mpr ⟨h, hs⟩
  exact this _ (by decide)

example : impls [⟨true, some .display⟩, ⟨false, some .default⟩, ⟨false, none⟩] = [.default, .fromStr] := by decide

/-! ## C54 -/

variable {V : Type} {u : Unicode}

theorem splitAt_some {s a b : Str} : splitAt s = some (a, b) ↔ s = a ++ '@' :: b ∧ '@' ∉ a := by
  induction s generalizing a with
  | nil => simp [splitAt]
  | cons c s ih =>
    unfold splitAt
    split
    · rename_i hc
      subst hc
      constructor
      · intro h; cases h; exact ⟨rfl, by simp⟩
      · rintro ⟨h1, h2⟩
        cases a with
        | nil => injection h1 with _ h1; rw [h1]
        | cons d a => injection h1 with h1 _; subst h1; simp at h2
    · rename_i hc
      constructor
      · intro h
        cases hs : splitAt s with
        | none => rw [hs] at h; cases h
        | some p =>
          obtain ⟨a', b'⟩ := p
          rw [hs] at h
          cases h
          obtain ⟨h1, h2⟩ := ih.mp hs
          refine ⟨by rw [h1]; rfl, ?_⟩
          simp only [List.mem_cons, not_or]
          exact ⟨fun h => hc h.symm, h2⟩
      · rintro ⟨h1, h2⟩
        cases a with
        | nil => injection h1 with h1 _; exact absurd h1 hc
        | cons d a =>
          injection h1 with h1 h3
          subst h1
          rw [ih.mpr ⟨h3, fun h => h2 (by simp [h])⟩]
          rfl

theorem splitAt_none {s : Str} : splitAt s = none ↔ '@' ∉ s := by
  constructor
  · intro h hm
    obtain ⟨a, b, h1, h2⟩ : ∃ a b, s = a ++ '@' :: b ∧ '@' ∉ a := by
      clear h
      induction s with
      | nil => cases hm
      | cons c s ih =>
        by_cases hc : c = '@'
        · exact ⟨[], s, by rw [hc]; rfl, by simp⟩
        · have hm' : '@' ∈ s := by
            rcases List.mem_cons.mp hm with h | h
            · exact absurd h.symm hc
            · exact h
          obtain ⟨a, b, h1, h2⟩ := ih hm'
          refine ⟨c :: a, b, by rw [h1]; rfl, ?_⟩
          simp only [List.mem_cons, not_or]
          exact ⟨fun h => hc h.symm, h2⟩
    rw [splitAt_some.mpr ⟨h1, h2⟩] at h
    cases h
  · intro hm
    cases h : splitAt s with
    | none => rfl
    | some p =>
      obtain ⟨h1, -⟩ := splitAt_some.mp h
      exact absurd (by rw [h1]; simp) hm

theorem isCrate_iff (hat : u.alnum '@' = false) (s : Str) : isCrate u s = true ↔ Spec.CrateName u s := by
  unfold isCrate Spec.CrateName
  simp only [List.all_eq_true, Bool.or_eq_true, decide_eq_true_eq, or_assoc]

/-- C54: the meaning of a crate specification. -/
theorem C54_split (hat : u.alnum '@' = false) (parse : Str → Option V) (s : Str) (orig : Option Str) (v : V) :
    parseSpec u parse s = some ⟨orig, v⟩ ↔ CrateMeaning u parse s orig v := by
  unfold parseSpec
  constructor
  · intro h
    split at h
    · rename_i a b hs
      obtain ⟨rfl, -⟩ := splitAt_some.mp hs
      split at h
      · rename_i hc
        cases hp : parse b with
        | none => rw [hp] at h; cases h
        | some w =>
          rw [hp] at h
          cases h
          exact .original ((isCrate_iff hat a).mp hc) hp
      · cases h
    · rename_i hs
      cases hp : parse s with
      | none => rw [hp] at h; cases h
      | some w =>
        rw [hp] at h
        cases h
        exact .plain (splitAt_none.mp hs) hp
  · intro h
    cases h with
    | plain h1 h2 => rw [splitAt_none.mpr h1]; simp [h2]
    | @original orig rest _ h1 h2 =>
      have hnat : '@' ∉ orig := by
        intro hm
        rcases h1 '@' hm with h | h | h
        · rw [hat] at h; cases h
        · exact absurd h (by decide)
        · exact absurd h (by decide)
      rw [splitAt_some.mpr ⟨rfl, hnat⟩]
      simp [(isCrate_iff hat orig).mpr h1, h2]

/-- C54: entries for different crates give the same configuration in any order. -/
theorem C54_order_partial {l l' : List (Str × MacroCrateSpec V)} (hp : l.Perm l')
    (hd : (l.map fun e => (crateEntry e).1).Nodup) : crates l = crates l' := by
  unfold crates
  have hp' := hp.map crateEntry
  have hnil : BTree.Sorted ([] : BTree.Map (CrateSpec V)) := .nil
  have hk : ((l.map crateEntry).map Prod.fst).Nodup := by rw [List.map_map]; exact hd
  have hk' : ((l'.map crateEntry).map Prod.fst).Nodup := (hp'.map Prod.fst).nodup_iff.mp hk
  refine BTree.ext (BTree.insertAll_sorted hnil _) (BTree.insertAll_sorted hnil _) fun k => ?_
  have h1 : ∀ x, BTree.get k (BTree.insertAll [] (l.map crateEntry)) = some x ↔ (k, x) ∈ l.map crateEntry := by
    intro x
    rw [← BTree.mem_iff_get (BTree.insertAll_sorted hnil _)]
    have := BTree.insertAll_perm (m := []) hk (by simp)
    rw [this.mem_iff]
    simp
  have h2 : ∀ x, BTree.get k (BTree.insertAll [] (l'.map crateEntry)) = some x ↔ (k, x) ∈ l'.map crateEntry := by
    intro x
    rw [← BTree.mem_iff_get (BTree.insertAll_sorted hnil _)]
    have := BTree.insertAll_perm (m := []) hk' (by simp)
    rw [this.mem_iff]
    simp
  cases h : BTree.get k (BTree.insertAll [] (l.map crateEntry)) with
  | some x =>
    exact ((h2 x).mpr (hp'.mem_iff.mp ((h1 x).mp h))).symm
  | none =>
    cases h' : BTree.get k (BTree.insertAll [] (l'.map crateEntry)) with
    | none => rfl
    | some x =>
      rw [(h1 x).mpr (hp'.mem_iff.mpr ((h2 x).mp h'))] at h
      cases h

/-- C54: two entries for the same crate give a configuration that depends on the order. -/
theorem C54_order_fails {v w : V} (hvw : v ≠ w) :
    ∃ l l' : List (Str × MacroCrateSpec V), l.Perm l' ∧ (l.map Prod.fst).Nodup ∧ crates l ≠ crates l' := by
  refine ⟨[("a".toList, ⟨some "foo".toList, v⟩), ("b".toList, ⟨some "foo".toList, w⟩)],
    [("b".toList, ⟨some "foo".toList, w⟩), ("a".toList, ⟨some "foo".toList, v⟩)], List.Perm.swap _ _ _, by simp, ?_⟩
  intro h
  have : BTree.get "foo".toList (crates [("a".toList, ⟨some "foo".toList, v⟩), ("b".toList, ⟨some "foo".toList, w⟩)]) =
    BTree.get "foo".toList (crates [("b".toList, ⟨some "foo".toList, w⟩), ("a".toList, ⟨some "foo".toList, v⟩)]) := by rw [h]
  have h1 : BTree.get "foo".toList (crates [("a".toList, (⟨some "foo".toList, v⟩ : MacroCrateSpec V)), ("b".toList, ⟨some "foo".toList, w⟩)]) =
    some ⟨w, some "b".toList⟩ := rfl
  have h2 : BTree.get "foo".toList (crates [("b".toList, (⟨some "foo".toList, w⟩ : MacroCrateSpec V)), ("a".toList, ⟨some "foo".toList, v⟩)]) =
    some ⟨v, some "a".toList⟩ := rfl
  rw [h1, h2] at this
  injection this with this
  injection this with this
  exact hvw this.symm

end

/-! ## C55 -/

section
open Progenitor.Refs

variable {T : Type}

theorem afterSlash_none {r : Str} : afterSlash r = none ↔ '/' ∉ r := by
  induction r with
  | nil => simp [afterSlash]
  | cons c r ih =>
    unfold afterSlash
    cases h : afterSlash r with
    | some k =>
      have : '/' ∈ r := by
        by_cases hm : '/' ∈ r
        · exact hm
        · rw [ih.mpr hm] at h; cases h
      simp [this]
    | none =>
      have := ih.mp h
      by_cases hc : c = '/'
      · simp [hc]
      · simp [hc, this, Ne.symm hc]

theorem afterSlash_some {r k : Str} : afterSlash r = some k ↔ KeyOf r k := by
  induction r with
  | nil => simp [afterSlash, KeyOf]
  | cons c r ih =>
    unfold afterSlash
    cases h : afterSlash r with
    | some k' =>
      rw [h] at ih
      have hr : '/' ∈ r := by
        by_cases hm : '/' ∈ r
        · exact hm
        · rw [afterSlash_none.mpr hm] at h; cases h
      refine Iff.trans ih ⟨?_, ?_⟩
      · rintro ⟨pre, h1, h2⟩
        exact ⟨c :: pre, by rw [h1]; rfl, h2⟩
      · rintro ⟨pre, h1, h2⟩
        cases pre with
        | nil => injection h1 with _ h1; rw [h1] at hr; exact absurd hr h2
        | cons d pre => injection h1 with _ h1; exact ⟨pre, h1, h2⟩
    | none =>
      have hr := afterSlash_none.mp h
      by_cases hc : c = '/'
      · subst hc
        simp only [if_true]
        constructor
        · intro h; cases h; exact ⟨[], rfl, hr⟩
        · rintro ⟨pre, h1, h2⟩
          cases pre with
          | nil => injection h1 with _ h1; rw [h1]
          | cons d pre => injection h1 with _ h1; rw [h1] at hr; simp at hr
      · simp only [hc, if_false]
        constructor
        · intro h; cases h
        · rintro ⟨pre, h1, h2⟩
          cases pre with
          | nil => injection h1 with h1 _; exact absurd h1 hc
          | cons d pre => injection h1 with _ h1; rw [h1] at hr; simp at hr

theorem lookup_some {k : Str} {m : List (Str × RefOr T)} {x : RefOr T} : lookup k m = some x ↔ Defined m k x := by
  induction m with
  | nil => simp [lookup, Defined]
  | cons e m ih =>
    obtain ⟨k', y⟩ := e
    unfold lookup
    by_cases hk : k' = k
    · subst hk
      simp only [if_true]
      constructor
      · intro h; cases h; exact ⟨[], m, rfl, by simp⟩
      · rintro ⟨pre, post, h1, h2⟩
        cases pre with
        | nil => injection h1 with h1 _; injection h1 with _ h1; rw [h1]
        | cons d pre =>
          injection h1 with h1 _
          exact absurd (by rw [← h1]) (h2 d (by simp))
    · simp only [hk, if_false]
      refine Iff.trans ih ⟨?_, ?_⟩
      · rintro ⟨pre, post, h1, h2⟩
        refine ⟨(k', y) :: pre, post, by rw [h1]; rfl, ?_⟩
        intro e he
        rcases List.mem_cons.mp he with rfl | he
        · exact hk
        · exact h2 e he
      · rintro ⟨pre, post, h1, h2⟩
        cases pre with
        | nil => injection h1 with h1 _; injection h1 with h1 _; exact absurd h1 hk
        | cons d pre =>
          injection h1 with _ h1
          exact ⟨pre, post, h1, fun e he => h2 e (by simp [he])⟩

theorem target_ok {m : List (Str × RefOr T)} {r : Str} {x : RefOr T} :
    target (some m) r = .ok x ↔ Refers m (.ref r) x := by
  unfold target Refers
  constructor
  · intro h
    split at h
    · cases h
    · rename_i k hk
      simp only at h
      split at h
      · cases h
      · rename_i y hy
        cases h
        exact ⟨r, k, rfl, afterSlash_some.mp hk, lookup_some.mp hy⟩
  · rintro ⟨r', k, h1, h2, h3⟩
    cases h1
    rw [afterSlash_some.mpr h2]
    simp only
    rw [lookup_some.mpr h3]

/-- C55: the result of following a reference is what the components define. -/
theorem C55_denotes (m : List (Str × RefOr T)) (a : RefOr T) (x : T) :
    (∃ n, resolve (some m) n a = some (.ok x)) ↔ Denotes m a x := by
  constructor
  · rintro ⟨n, h⟩
    induction n generalizing a with
    | zero => cases h
    | succ n ih =>
      cases a with
      | item y => cases h; exact .item x
      | ref r =>
        unfold resolve at h
        split at h
        · rename_i y hy; exact .step (target_ok.mp hy) (ih y h)
        · cases h
        · cases h
  · intro h
    induction h with
    | item x => exact ⟨1, rfl⟩
    | @step a b x h1 _ ih =>
      obtain ⟨n, hn⟩ := ih
      refine ⟨n + 1, ?_⟩
      obtain ⟨r, k, rfl, h2⟩ := h1
      unfold resolve
      rw [target_ok.mpr ⟨r, k, rfl, h2⟩]
      exact hn

/-- More calls do not change a result. -/
theorem resolve_mono {comps : Components T} {n n' : Nat} (hn : n ≤ n') {a : RefOr T} {r : Res T}
    (h : resolve comps n a = some r) : resolve comps n' a = some r := by
  induction n generalizing n' a with
  | zero => cases h
  | succ n ih =>
    obtain ⟨k, rfl⟩ : ∃ k, n' = k + 1 := ⟨n' - 1, by omega⟩
    cases a with
    | item y => exact h
    | ref s =>
      unfold resolve at h ⊢
      split at h
      · rename_i y hy; exact ih (by omega) h
      · exact h
      · exact h

/-- C55: there is one result. -/
theorem C55_deterministic (comps : Components T) {n n' : Nat} {a : RefOr T} {r r' : Res T}
    (h : resolve comps n a = some r) (h' : resolve comps n' a = some r') : r = r' := by
  have h1 := resolve_mono (Nat.le_max_left n n') h
  have h2 := resolve_mono (Nat.le_max_right n n') h'
  rw [h1] at h2
  exact Option.some.inj h2

/-- C55: a document panics iff following the reference leads to one that names no component. -/
theorem C55_panics_iff (m : List (Str × RefOr T)) (a : RefOr T) :
    (∃ n msg, resolve (some m) n a = some (.panic msg)) ↔ Dangling m a := by
  constructor
  · rintro ⟨n, msg, h⟩
    induction n generalizing a with
    | zero => cases h
    | succ n ih =>
      cases a with
      | item y => cases h
      | ref r =>
        unfold resolve at h
        split at h
        · rename_i y hy
          obtain ⟨b, hb, hd⟩ := ih y h
          exact ⟨b, .step (target_ok.mp hy) hb, hd⟩
        · cases h
        · rename_i msg' hp
          refine ⟨_, .refl _, ⟨r, rfl⟩, ?_⟩
          intro c hc
          rw [target_ok.mpr hc] at hp
          cases hp
  · rintro ⟨b, hb, ⟨r, rfl⟩, hd⟩
    generalize hc : RefOr.ref r = c at hb
    induction hb with
    | refl a =>
      subst hc
      refine ⟨1, ?_⟩
      unfold resolve
      cases ht : target (some m) r with
      | ok y => exact absurd (target_ok.mp ht) (hd y)
      | panic msg => exact ⟨msg, rfl⟩
      | err msg =>
        unfold target at ht
        split at ht
        · cases ht
        · simp only at ht
          split at ht <;> cases ht
    | @step a b c h1 _ ih =>
      obtain ⟨n, msg, hn⟩ := ih hc
      refine ⟨n + 1, msg, ?_⟩
      obtain ⟨r', k, rfl, h2⟩ := h1
      unfold resolve
      rw [target_ok.mpr ⟨r', k, rfl, h2⟩]
      exact hn

theorem refers_inj {m : List (Str × RefOr T)} {a b c : RefOr T} (h1 : Refers m a b) (h2 : Refers m a c) : b = c := by
  obtain ⟨r, k, rfl, h3⟩ := h1
  obtain ⟨r', k', h4, h5⟩ := h2
  have e1 := target_ok.mpr ⟨r, k, rfl, h3⟩
  have e2 := target_ok.mpr ⟨r, k', rfl, by cases h4; exact h5⟩
  rw [e1] at e2
  cases e2
  rfl

theorem undecided_step {m : List (Str × RefOr T)} {n : Nat} {a : RefOr T} (h : resolve (some m) (n + 1) a = none) :
    ∃ b, Refers m a b ∧ resolve (some m) n b = none := by
  cases a with
  | item x => cases h
  | ref r =>
    unfold resolve at h
    split at h
    · rename_i y hy; exact ⟨y, target_ok.mp hy, h⟩
    · cases h
    · cases h

/-- A chain of references that starts at `a`. -/
inductive Chain (m : List (Str × RefOr T)) : RefOr T → List (RefOr T) → Prop
  | nil (a) : Chain m a []
  | cons {a b l} : Refers m a b → Chain m b l → Chain m a (b :: l)

theorem undecided_chain {m : List (Str × RefOr T)} {n : Nat} {a : RefOr T} (h : resolve (some m) n a = none) :
    ∃ l, Chain m a l ∧ l.length = n := by
  induction n generalizing a with
  | zero => exact ⟨[], .nil a, rfl⟩
  | succ n ih =>
    obtain ⟨b, h1, h2⟩ := undecided_step h
    obtain ⟨l, h3, h4⟩ := ih h2
    exact ⟨b :: l, .cons h1 h3, by simp [h4]⟩

theorem chain_mem {m : List (Str × RefOr T)} {a : RefOr T} {l : List (RefOr T)} (h : Chain m a l) :
    ∀ b ∈ l, b ∈ m.map Prod.snd := by
  induction h with
  | nil => simp
  | @cons a b l h1 _ ih =>
    intro c hc
    rcases List.mem_cons.mp hc with rfl | hc
    · obtain ⟨r, k, -, -, pre, post, rfl, -⟩ := h1
      simp
    · exact ih c hc

theorem chain_leads {m : List (Str × RefOr T)} {a : RefOr T} {l : List (RefOr T)} (h : Chain m a l) :
    ∀ b ∈ l, ∃ c, Refers m a c ∧ Leads m c b := by
  induction h with
  | nil => simp
  | @cons a b l h1 _ ih =>
    intro c hc
    rcases List.mem_cons.mp hc with rfl | hc
    · exact ⟨c, h1, .refl c⟩
    · obtain ⟨d, h2, h3⟩ := ih c hc
      exact ⟨b, h1, .step h2 h3⟩

theorem chain_cyclic {m : List (Str × RefOr T)} {a : RefOr T} {l : List (RefOr T)} (h : Chain m a l) (hl : ¬ l.Nodup) :
    Cyclic m a := by
  induction h with
  | nil => exact absurd List.nodup_nil hl
  | @cons a b l h1 h2 ih =>
    by_cases hb : b ∈ l
    · obtain ⟨c, h3, h4⟩ := chain_leads h2 b hb
      exact ⟨b, c, .step h1 (.refl b), h3, h4⟩
    · have : ¬ l.Nodup := fun hn => hl (List.nodup_cons.mpr ⟨hb, hn⟩)
      obtain ⟨d, c, h3, h4⟩ := ih this
      exact ⟨d, c, .step h1 h3, h4⟩

/-- From a node that is on a cycle or leads to one there is always a next node of that kind. -/
theorem cyclic_step {m : List (Str × RefOr T)} {a : RefOr T} (h : Cyclic m a) : ∃ b, Refers m a b ∧ Cyclic m b := by
  obtain ⟨b, c, h1, h2, h3⟩ := h
  cases h1 with
  | refl => exact ⟨c, h2, a, c, h3, h2, h3⟩
  | step h4 h5 => exact ⟨_, h4, b, c, h5, h2, h3⟩

theorem cyclic_undecided {m : List (Str × RefOr T)} {a : RefOr T} (h : Cyclic m a) (n : Nat) :
    resolve (some m) n a = none := by
  induction n generalizing a with
  | zero => rfl
  | succ n ih =>
    obtain ⟨b, h1, h2⟩ := cyclic_step h
    obtain ⟨r, k, rfl, h3⟩ := h1
    unfold resolve
    rw [target_ok.mpr ⟨r, k, rfl, h3⟩]
    exact ih h2

/-- C55: a result is missing after one call more than there are components iff the reference leads into a cycle. -/
theorem C55_bound (m : List (Str × RefOr T)) (a : RefOr T) : resolve (some m) (m.length + 1) a = none ↔ Cyclic m a := by
  constructor
  · intro h
    obtain ⟨l, h1, h2⟩ := undecided_chain h
    refine chain_cyclic h1 fun hn => ?_
    have := hn.length_le_of_subset (fun b hb => chain_mem h1 b hb)
    rw [h2, List.length_map] at this
    omega
  · exact fun h => cyclic_undecided h _

/-- C55: resolution ends iff the reference does not lead into a cycle. -/
theorem C55_terminates_iff_partial (m : List (Str × RefOr T)) (a : RefOr T) :
    (∃ n r, resolve (some m) n a = some r) ↔ ¬ Cyclic m a := by
  constructor
  · rintro ⟨n, r, h⟩ hc
    rw [cyclic_undecided hc n] at h
    cases h
  · intro h
    refine ⟨m.length + 1, ?_⟩
    cases hr : resolve (some m) (m.length + 1) a with
    | none => exact absurd ((C55_bound m a).mp hr) h
    | some r => exact ⟨r, rfl⟩

/-- C55: there are documents for which resolution does not end. -/
theorem C55_terminates_fails : ∃ (m : List (Str × RefOr T)) (a : RefOr T), ∀ n, resolve (some m) n a = none := by
  refine ⟨[("x".toList, .ref "#/c/x".toList)], .ref "#/c/x".toList, cyclic_undecided ⟨_, _, .refl _, ?_, .refl _⟩⟩
  exact ⟨_, "x".toList, rfl, ⟨"#/c".toList, rfl, by decide⟩, [], [], rfl, by simp⟩

/-- C55: without components every reference panics. -/
theorem C55_no_components (r : Str) : ∃ msg, resolve (T := T) none 1 (.ref r) = some (.panic msg) := by
  unfold resolve target
  cases h : afterSlash r with
  | none => exact ⟨_, rfl⟩
  | some k => exact ⟨_, rfl⟩

example : resolve (T := Nat) (some [("x".toList, .ref "#/c/y".toList), ("y".toList, .item 7)]) 3 (.ref "#/c/x".toList) = some (.ok 7) := by
  decide

example : Denotes (T := Nat) [("x".toList, .ref "#/c/y".toList), ("y".toList, .item 7)] (.ref "#/c/x".toList) 7 :=
  (C55_denotes _ _ _).mp ⟨3, by decide⟩

end

/-! ## C57 -/

section
open Progenitor.Space

theorem spaced_refl (s : Str) : Spaced s s := by
  induction s with
  | nil => exact .nil
  | cons c s ih => exact .keep c ih

theorem spaced_append (p : Str) {s t : Str} (h : Spaced s t) : Spaced (p ++ s) (p ++ t) := by
  induction p with
  | nil => exact h
  | cons c p ih => exact .keep c ih

/-- C57: spacing inserts blank lines after lines that end in `}`, and does nothing else. -/
theorem C57_spaced (u : Unicode) (s : Str) : Spaced s (spaceOut u s) := by
  induction hn : s.length using Nat.strongRecOn generalizing s with
  | ind n ih =>
    unfold spaceOut
    split
    · rename_i g1 g2 rest h
      obtain ⟨h1, ⟨w, h2, -⟩, w', c, h3, -⟩ := matchHere_spec u h
      have hr := ih rest.length (by have := matchHere_shorter u h; omega) rest rfl
      have : s = ('\n' :: w) ++ ('}' :: '\n' :: ((w' ++ [c]) ++ rest)) := by rw [h1, h2, h3]; simp
      rw [this]
      have : g1 ++ '\n' :: g2 ++ spaceOut u rest =
        ('\n' :: w) ++ ('}' :: '\n' :: '\n' :: ((w' ++ [c]) ++ spaceOut u rest)) := by rw [h2, h3]; simp
      rw [this]
      exact spaced_append _ (.gap (spaced_append _ hr))
    · split
      · exact .nil
      · rename_i c cs _ _
        refine .keep c (ih cs.length ?_ cs rfl)
        subst hn; simp

theorem spaced_only {s t : Str} (h : Spaced s t) : OnlyNewlines s t := by
  induction h with
  | nil => exact .nil
  | keep c _ ih => exact .keep c ih
  | gap _ ih => exact .keep _ (.keep _ (.insert ih))

/-- C57: only newlines are inserted. -/
theorem C57_only_newlines (u : Unicode) (s : Str) : OnlyNewlines s (spaceOut u s) := spaced_only (C57_spaced u s)

/-- C57: so all other characters stay, in order. -/
theorem C57_same_text (u : Unicode) (s : Str) : (spaceOut u s).filter (· != '\n') = s.filter (· != '\n') := by
  have h := C57_only_newlines u s
  generalize spaceOut u s = t at h
  induction h with
  | nil => rfl
  | keep c _ ih => simp only [List.filter_cons, ih]
  | insert _ ih => simpa using ih

theorem spaceOut_match (u : Unicode) {s g1 g2 rest : Str} (h : matchHere u s = some (g1, g2, rest)) :
    spaceOut u s = g1 ++ '\n' :: g2 ++ spaceOut u rest := by
  rw [spaceOut]
  split
  · rename_i h'
    rw [h] at h'
    cases h'
    rfl
  · rename_i h'
    rw [h] at h'
    cases h'

theorem spaceOut_skip (u : Unicode) {c : Char} {s : Str} (h : matchHere u (c :: s) = none) :
    spaceOut u (c :: s) = c :: spaceOut u s := by
  rw [spaceOut]
  split
  · rename_i h'
    rw [h] at h'
    cases h'
  · rfl

theorem braceAfter_first {u : Unicode} (hb : u.white '}' = false) (w s : Str) (hw : '}' ∉ w) :
    braceAfter u (w ++ '}' :: s) = if w.all u.white then some (w ++ ['}'], s) else none := by
  induction w with
  | nil => simp [braceAfter, hb]
  | cons c w ih =>
    simp only [List.mem_cons, not_or] at hw
    have hc : c ≠ '}' := fun h => hw.1 h.symm
    simp only [List.cons_append, braceAfter, ih hw.2, List.all_cons, hc, if_false]
    by_cases h1 : u.white c = true <;> by_cases h2 : w.all u.white = true <;> simp [h1, h2]

theorem itemAfter_first {u : Unicode} (n : Nat) (w : Str) (c : Char) (s : Str) (hw : ∀ d ∈ w, u.white d = true)
    (hn : w.length ≤ n) (hc : u.white c = false) (hb : c ≠ '}') (hsp : c ≠ ' ') :
    itemAfter u n (w ++ c :: s) = some (w ++ [c], s) := by
  induction w generalizing n with
  | nil =>
    cases n with
    | zero => simp [itemAfter, hb, hsp]
    | succ n => simp [itemAfter, hb, hsp, hc]
  | cons d w ih =>
    cases n with
    | zero => simp at hn
    | succ n =>
      simp only [List.cons_append, itemAfter, hw d (by simp), if_true]
      rw [ih n (fun e he => hw e (by simp [he])) (by simpa using hn)]

/-- C57: where a line with only a closing brace, indented or not, is followed by the next item, a blank line is
inserted between them. -/
theorem C57_first_gap (u : Unicode) (hb : u.white '}' = false) (hs : u.white ' ' = true) (pre w w' : Str) (c : Char) (rest : Str)
    (hpre : '}' ∉ pre) (hw : ∀ d ∈ w, u.white d = true) (hw' : ∀ d ∈ w', u.white d = true) (h8 : w'.length ≤ 8)
    (hc : u.white c = false) (hcb : c ≠ '}') :
    spaceOut u (pre ++ '\n' :: w ++ '}' :: '\n' :: w' ++ c :: rest) =
      pre ++ '\n' :: w ++ '}' :: '\n' :: '\n' :: w' ++ c :: spaceOut u rest := by
  have hwb : '}' ∉ w := fun h => by rw [hw _ h] at hb; cases hb
  have hcs : c ≠ ' ' := fun h => by rw [h, hs] at hc; cases hc
  have hm : ∀ p : Str, '}' ∉ p → matchHere u ('\n' :: p ++ '}' :: '\n' :: w' ++ c :: rest) =
      if p.all u.white then some ('\n' :: (p ++ ['}']), '\n' :: (w' ++ [c]), rest) else none := by
    intro p hp
    have e : '\n' :: p ++ '}' :: '\n' :: w' ++ c :: rest = '\n' :: (p ++ '}' :: ('\n' :: (w' ++ c :: rest))) := by simp
    rw [e]
    unfold matchHere
    simp only
    rw [braceAfter_first hb p _ hp]
    cases p.all u.white with
    | false => rfl
    | true =>
      simp only [if_true]
      rw [itemAfter_first 8 w' c rest hw' h8 hc hcb hcs]
  induction pre with
  | nil =>
    have := hm w hwb
    rw [if_pos (by simpa using hw)] at this
    rw [List.nil_append, spaceOut_match u this]
    simp
  | cons d pre ih =>
    simp only [List.mem_cons, not_or] at hpre
    by_cases hd : d = '\n' ∧ (pre ++ '\n' :: w).all u.white = true
    · obtain ⟨rfl, hall⟩ := hd
      have := hm (pre ++ '\n' :: w) (by simp [hpre.2, hwb])
      rw [if_pos hall] at this
      have e : '\n' :: pre ++ '\n' :: w ++ '}' :: '\n' :: w' ++ c :: rest = '\n' :: (pre ++ '\n' :: w) ++ '}' :: '\n' :: w' ++ c :: rest := by simp
      rw [e, spaceOut_match u this]
      simp
    · have hnone : matchHere u (d :: (pre ++ '\n' :: w ++ '}' :: '\n' :: w' ++ c :: rest)) = none := by
        by_cases hdn : d = '\n'
        · subst hdn
          have := hm (pre ++ '\n' :: w) (by simp [hpre.2, hwb])
          rw [if_neg (fun h => hd ⟨rfl, h⟩)] at this
          simpa using this
        · unfold matchHere
          split
          · rename_i h; injection h with h _; exact absurd h hdn
          · rfl
      have e : d :: pre ++ '\n' :: w ++ '}' :: '\n' :: w' ++ c :: rest = d :: (pre ++ '\n' :: w ++ '}' :: '\n' :: w' ++ c :: rest) := by simp
      rw [e, spaceOut_skip u hnone, ih hpre.2]
      simp

end

end Progenitor.Props

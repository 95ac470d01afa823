import Verif.Props.Query
import Verif.Spec.QueryExact

/-!
# C08, C09: exactly which arrays and objects are sent in a query, and as what
-/

namespace Progenitor.Props

open Progenitor Progenitor.Query Progenitor.Spec

theorem part_pairs {v : Ser} {t : Option Str} (h : OneText v t) (key : Str) : valuePairs key v = .ok (t.toList.map fun x => (key, x)) := by
  induction h with
  | scalar v t h => simpa using valuePairs_scalar h key
  | bytes => rfl
  | unitStruct => rfl
  | none => rfl
  | some v t _ ih => simpa [valuePairs] using ih
  | newtype n v t _ ih => simpa [valuePairs] using ih

theorem pairs_part (key : Str) : ∀ (v : Ser) (ps : List Pair), valuePairs key v = .ok ps → ∃ t, OneText v t
  | .bool true, _, _ => ⟨_, .scalar _ _ .true⟩
  | .bool false, _, _ => ⟨_, .scalar _ _ .false⟩
  | .int (.ofNat n), _, _ => ⟨_, .scalar _ _ (.nat n)⟩
  | .int (.negSucc n), _, _ => ⟨_, .scalar _ _ (.neg n)⟩
  | .float t, _, _ => ⟨_, .scalar _ _ (.float t)⟩
  | .char c, _, _ => ⟨_, .scalar _ _ (.char c)⟩
  | .str s, _, _ => ⟨_, .scalar _ _ (.str s)⟩
  | .bytes (Option.some s), _, _ => ⟨_, .bytes s⟩
  | .bytes Option.none, _, h => by simp [valuePairs] at h
  | .none, _, _ => ⟨_, .none⟩
  | .some v, ps, h => by
    obtain ⟨t, ht⟩ := pairs_part key v ps (by simpa [valuePairs] using h)
    exact ⟨t, .some v t ht⟩
  | .unit, _, h => by simp [valuePairs] at h
  | .unitStruct n, _, _ => ⟨_, .unitStruct n⟩
  | .unitVariant e v, _, _ => ⟨_, .scalar _ _ (.unitVariant e v)⟩
  | .newtypeStruct n v, ps, h => by
    obtain ⟨t, ht⟩ := pairs_part key v ps (by simpa [valuePairs] using h)
    exact ⟨t, .newtype n v t ht⟩
  | .newtypeVariant .., _, h => by simp [valuePairs] at h
  | .seq _, _, h => by simp [valuePairs] at h
  | .tuple _, _, h => by simp [valuePairs] at h
  | .tupleStruct .., _, h => by simp [valuePairs] at h
  | .tupleVariant .., _, h => by simp [valuePairs] at h
  | .map _, _, h => by simp [valuePairs] at h
  | .struct .., _, h => by simp [valuePairs] at h
  | .structVariant .., _, h => by simp [valuePairs] at h

theorem label_text {k : Ser} {t : Str} (h : KeyLabel k t) : keyText k = .ok t := by
  induction h with
  | key k t h => exact keyText_key h
  | bytes => rfl
  | unitStruct => rfl
  | newtype n v t _ ih => simpa [keyText] using ih

theorem text_label : ∀ (k : Ser) (t : Str), keyText k = .ok t → KeyLabel k t
  | .bool true, _, h => by cases h; exact .key _ _ .true
  | .bool false, _, h => by cases h; exact .key _ _ .false
  | .int (.ofNat n), _, h => by cases h; exact .key _ _ (.nat n)
  | .int (.negSucc n), _, h => by cases h; exact .key _ _ (.neg n)
  | .float t, _, h => by cases h; exact .key _ _ (.float t)
  | .char c, _, h => by cases h; exact .key _ _ (.char c)
  | .str s, _, h => by cases h; exact .key _ _ (.str s)
  | .bytes (Option.some s), _, h => by cases h; exact .bytes s
  | .bytes Option.none, _, h => by simp [keyText] at h
  | .none, _, h => by simp [keyText] at h
  | .some _, _, h => by simp [keyText] at h
  | .unit, _, h => by simp [keyText] at h
  | .unitStruct n, _, h => by cases h; exact .unitStruct n
  | .unitVariant e v, _, h => by cases h; exact .key _ _ (.unitVariant e v)
  | .newtypeStruct n v, t, h => .newtype n v t (text_label v t (by simpa [keyText] using h))
  | .newtypeVariant .., _, h => by simp [keyText] at h
  | .seq _, _, h => by simp [keyText] at h
  | .tuple _, _, h => by simp [keyText] at h
  | .tupleStruct .., _, h => by simp [keyText] at h
  | .tupleVariant .., _, h => by simp [keyText] at h
  | .map _, _, h => by simp [keyText] at h
  | .struct .., _, h => by simp [keyText] at h
  | .structVariant .., _, h => by simp [keyText] at h

/-- What a list of things is sent as, if each is sent exactly as one relation says. -/
theorem collect_iff {α β : Type} {f : α → R (List Pair)} {Rel : α → β → Prop} {pairs : β → List Pair}
    (hf : ∀ x ps, f x = .ok ps ↔ ∃ t, Rel x t ∧ ps = pairs t) (xs : List α) (ps : List Pair) :
    collect f xs = .ok ps ↔ ∃ ts, Forall₂ Rel xs ts ∧ ps = ts.flatMap pairs := by
  induction xs generalizing ps with
  | nil =>
    constructor
    · intro h
      cases h
      exact ⟨[], .nil, rfl⟩
    · rintro ⟨_, h, rfl⟩
      cases h
      rfl
  | cons x xs ih =>
    constructor
    · intro h
      unfold collect at h
      split at h
      · cases h
      · rename_i ps1 h1
        split at h
        · cases h
        · rename_i ps2 h2
          cases h
          obtain ⟨t, ht, rfl⟩ := (hf x _).mp h1
          obtain ⟨ts, hts, rfl⟩ := (ih _).mp h2
          exact ⟨t :: ts, .cons ht hts, by simp⟩
    · rintro ⟨_, h, rfl⟩
      cases h with
      | cons h1 h2 =>
        rename_i t ts
        simp only [collect, (hf x _).mpr ⟨t, h1, rfl⟩, (ih _).mpr ⟨ts, h2, rfl⟩, List.flatMap_cons]

theorem pairs_iff (key : Str) (v : Ser) (ps : List Pair) :
    valuePairs key v = .ok ps ↔ ∃ t, OneText v t ∧ ps = t.toList.map fun x => (key, x) := by
  constructor
  · intro h
    obtain ⟨t, ht⟩ := pairs_part key v ps h
    rw [part_pairs ht] at h
    cases h
    exact ⟨t, ht, rfl⟩
  · rintro ⟨t, ht, rfl⟩
    exact part_pairs ht key

/-- C08: an array is sent exactly if each element is one text or absent, and then as one pair per text, in order. -/
theorem C08_seq_iff (name : Str) (vs : List Ser) (ps : List (Str × Str)) :
    queryPairs name (.seq vs) = .ok ps ↔
      ∃ ts, Forall₂ OneText vs ts ∧ ps = ts.flatMap fun t => t.toList.map fun x => (name, x) := by
  have h := collect_iff (f := fun v => valuePairs name v) (pairs_iff name) vs ps
  rw [← h]
  have e : ∀ vs : List Ser, collect pairOf (vs.map fun v => Ser.tuple [.str name, v]) = collect (fun v => valuePairs name v) vs := by
    intro vs
    induction vs with
    | nil => rfl
    | cons v vs ih => simp only [List.map_cons, collect, pairOf, keyText, ih]
  show collect pairOf _ = _ ↔ _
  rw [e]

/-- C08: otherwise nothing is sent. -/
theorem C08_refused_iff (name : Str) (vs : List Ser) :
    queryPairs name (.seq vs) = .error () ↔ ∃ v ∈ vs, ∀ t, ¬ OneText v t := by
  have ex : (∃ ts, Forall₂ OneText vs ts) ↔ ∀ v ∈ vs, ∃ t, OneText v t := by
    clear name
    induction vs with
    | nil => exact ⟨fun _ v hv => (by cases hv), fun _ => ⟨[], .nil⟩⟩
    | cons v vs ih =>
      constructor
      · rintro ⟨_, h⟩ w hw
        cases h with
        | cons h1 h2 =>
          rcases List.mem_cons.mp hw with rfl | hw
          · exact ⟨_, h1⟩
          · exact ih.mp ⟨_, h2⟩ w hw
      · intro h
        obtain ⟨t, ht⟩ := h v List.mem_cons_self
        obtain ⟨ts, hts⟩ := ih.mpr fun w hw => h w (List.mem_cons_of_mem _ hw)
        exact ⟨t :: ts, .cons ht hts⟩
  have hno : queryPairs name (.seq vs) = .error () ↔ ¬ ∃ ps, queryPairs name (.seq vs) = .ok ps := by
    cases queryPairs name (.seq vs) with
    | error e => simp
    | ok ps => simp
  rw [hno]
  have : (∃ ps, queryPairs name (.seq vs) = .ok ps) ↔ ∃ ts, Forall₂ OneText vs ts := by
    constructor
    · rintro ⟨ps, h⟩
      obtain ⟨ts, h1, -⟩ := (C08_seq_iff name vs ps).mp h
      exact ⟨ts, h1⟩
    · rintro ⟨ts, h⟩
      exact ⟨_, (C08_seq_iff name vs _).mpr ⟨ts, h, rfl⟩⟩
  rw [this, ex]
  grind

/-- C09: an object is sent exactly if each field is one text or absent, and then as the pairs of its fields, in order. -/
theorem C09_struct_iff (name n : Str) (fs : List (Str × Ser)) (ps : List (Str × Str)) :
    queryPairs name (.struct n fs) = .ok ps ↔
      ∃ ts : List (Str × Option Str), Forall₂ (fun f t => f.1 = t.1 ∧ OneText f.2 t.2) fs ts ∧
        ps = ts.flatMap fun t => t.2.toList.map fun x => (t.1, x) := by
  refine collect_iff (f := fieldOf) ?_ fs ps
  intro x qs
  unfold fieldOf
  rw [pairs_iff]
  constructor
  · rintro ⟨t, ht, rfl⟩
    exact ⟨(x.1, t), ⟨rfl, ht⟩, rfl⟩
  · rintro ⟨t, ⟨h1, h2⟩, rfl⟩
    exact ⟨t.2, h2, by rw [h1]⟩

/-- C09: a map is sent exactly if its keys are texts and its values are texts or absent, and then as the pairs of its entries, in order. -/
theorem C09_map_iff (name : Str) (kvs : List (Ser × Ser)) (ps : List (Str × Str)) :
    queryPairs name (.map kvs) = .ok ps ↔
      ∃ ts : List (Str × Option Str), Forall₂ (fun f t => KeyLabel f.1 t.1 ∧ OneText f.2 t.2) kvs ts ∧
        ps = ts.flatMap fun t => t.2.toList.map fun x => (t.1, x) := by
  refine collect_iff (f := entryOf) ?_ kvs ps
  intro x qs
  unfold entryOf
  constructor
  · intro h
    split at h
    · cases h
    · rename_i key hk
      obtain ⟨t, ht, rfl⟩ := (pairs_iff key x.2 qs).mp h
      exact ⟨(key, t), ⟨text_label _ _ hk, ht⟩, rfl⟩
  · rintro ⟨t, ⟨h1, h2⟩, rfl⟩
    rw [label_text h1]
    exact part_pairs h2 t.1

/- An array with an absent element is sent; one with an array in it is not. -/
example : queryPairs ['q'] (.seq [.str ['a'], .none, .newtypeStruct ['N'] (.str ['b'])]) = .ok [(['q'], ['a']), (['q'], ['b'])] :=
  (C08_seq_iff _ _ _).mpr ⟨[some ['a'], none, some ['b']], .cons (.scalar _ _ (.str _)) (.cons .none
    (.cons (.newtype _ _ _ (.scalar _ _ (.str _))) .nil)), rfl⟩

example : queryPairs ['q'] (.seq [.str ['a'], .seq [.str ['b']]]) = .error () :=
  (C08_refused_iff _ _).mpr ⟨.seq [.str ['b']], by simp, fun _ h => by cases h with | scalar _ _ h => cases h⟩

example : queryPairs ['q'] (.struct ['S'] [(['a'], .int 3), (['b'], .none)]) = .ok [(['a'], ['3'])] :=
  (C09_struct_iff _ _ _ _).mpr ⟨[(['a'], some ['3']), (['b'], none)], .cons ⟨rfl, .scalar _ _ (.nat 3)⟩ (.cons ⟨rfl, .none⟩ .nil), rfl⟩

example : queryPairs ['q'] (.map [(.newtypeStruct ['K'] (.str ['a']), .bool true)]) = .ok [(['a'], "true".toList)] :=
  (C09_map_iff _ _ _).mpr ⟨[(['a'], some "true".toList)], .cons ⟨.key _ _ (.newtype _ _ _ (.str _)), .scalar _ _ .true⟩ .nil, rfl⟩

end Progenitor.Props

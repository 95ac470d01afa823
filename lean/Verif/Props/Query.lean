import Verif.Lemmas.Query

/-!
# C07-C12: query parameters
-/

namespace Progenitor.Props

open Progenitor Progenitor.Spec Progenitor.Query

/-! ## C07 -/

/-- C07: a scalar argument is sent as exactly one pair: API name and text. -/
theorem C07_scalar (name : Str) (v : Ser) (t : Str) (h : Scalar v t) :
    queryPairs name v = .ok [(name, t)] :=
  queryPairs_scalar h name

example : Scalar (.some (.int (-5))) "-5".toList := .some _ _ (.neg 4)
example : Scalar (.unitVariant "Sort".toList "asc".toList) "asc".toList := .unitVariant _ _

/-! ## C08 -/

/-- C08: a sequence argument is sent as one pair per present element, in order. -/
theorem C08_seq (name : Str) (vs : List Ser) (ts : List (Option Str)) (h : Forall₂ Item vs ts) :
    queryPairs name (.seq vs) = .ok (ts.filterMap fun t => t.map fun x => (name, x)) :=
  collect_seq h

/-- C08, in the form without absent elements: the pairs are the elements. -/
theorem C08_seq_all (name : Str) (vs : List Ser) (ts : List Str) (h : Forall₂ Scalar vs ts) :
    queryPairs name (.seq vs) = .ok (ts.map fun x => (name, x)) := by
  have h' : Forall₂ Item vs (ts.map Option.some) := by
    induction h with
    | nil => exact .nil
    | cons h _ ih => exact .cons (.scalar _ _ h) ih
  rw [C08_seq name vs _ h']
  rw [List.filterMap_map]
  exact congrArg Except.ok (List.filterMap_eq_map (f := fun x => (name, x)) ▸ rfl)

/-- C08 fails for fixed-size arrays (serde serializes them as tuples): no value
of such a type with a scalar element can be sent. -/
theorem C08_fixed_size_arrays_fail (name : Str) (v : Ser) (t : Str) (vs : List Ser) (h : Scalar v t) :
    queryPairs name (.tuple (v :: vs)) = .error () := by
  have : pairOf v = .error () := by
    induction h with
    | some v t _ ih => simpa [pairOf] using ih
    | _ => rfl
  simp [queryPairs, top, collect, this]

example : Forall₂ Item [.str ['a'], .none, .int 3] [some ['a'], none, some ['3']] :=
  .cons (.scalar _ _ (.str _)) (.cons .none (.cons (.scalar _ _ (.nat 3)) .nil))

/-! ## C09 -/

/-- C09: a struct is sent as its present fields, in order, under their names. -/
theorem C09_struct (name sname : Str) (fs : List (Str × Ser)) (ts : List (Str × Option Str))
    (h : Forall₂ (fun f t => f.1 = t.1 ∧ Item f.2 t.2) fs ts) :
    queryPairs name (.struct sname fs) = .ok (ts.filterMap fun t => t.2.map fun x => (t.1, x)) :=
  collect_fields h

/-- C09: a map is sent as its present entries, in order, under their keys. -/
theorem C09_map (name : Str) (kvs : List (Ser × Ser)) (ts : List (Str × Option Str))
    (h : Forall₂ (fun f t => Key f.1 t.1 ∧ Item f.2 t.2) kvs ts) :
    queryPairs name (.map kvs) = .ok (ts.filterMap fun t => t.2.map fun x => (t.1, x)) :=
  collect_entries h

/-- C09: the keys may be texts, numbers and the like, and newtypes of them. -/
example : Forall₂ (fun (f : Ser × Ser) (t : Str × Option Str) => Key f.1 t.1 ∧ Item f.2 t.2)
    [(.newtypeStruct ['K'] (.str ['a']), .int 1), (.int 7, .none)] [(['a'], some ['1']), (['7'], none)] :=
  .cons ⟨.newtype _ _ _ (.str _), .scalar _ _ (.nat 1)⟩ (.cons ⟨.nat 7, .none⟩ .nil)

/-- C09: a one-field object variant is sent as that field. -/
theorem C09_newtype_variant (name e var : Str) (v : Ser) (t : Option Str) (h : Item v t) :
    queryPairs name (.newtypeVariant e var v) = .ok (t.toList.map fun x => (var, x)) := by
  have := C09_struct name e [(var, v)] [(var, t)] (.cons ⟨rfl, h⟩ .nil)
  simp only [queryPairs] at this ⊢
  rw [this]
  cases t <;> rfl

/-- C09: objects with a nested object field cannot be sent; the call fails
instead of sending something else. -/
theorem C09_nested_rejected (name sname k sname' : Str) (fs gs : List (Str × Ser)) :
    queryPairs name (.struct sname ((k, .struct sname' gs) :: fs)) = .error () := by
  simp [queryPairs, top, collect, fieldOf, valuePairs]

example : Forall₂ (fun (f : Str × Ser) (t : Str × Option Str) => f.1 = t.1 ∧ Item f.2 t.2)
    [("a".toList, .int 1), ("b".toList, .none)] [("a".toList, some ['1']), ("b".toList, none)] :=
  .cons ⟨rfl, .scalar _ _ (.nat 1)⟩ (.cons ⟨rfl, .none⟩ .nil)

/-! ## C10 -/

/-- C10: removing absent parameters from the call does not change the query. -/
theorem C10_none_invisible (l : List (Str × Ser)) (absent : Str × Ser → Bool)
    (h : ∀ p ∈ l, absent p = true → p.2 = .none) :
    addQueries (.ok none) l = addQueries (.ok none) (l.filter fun p => !absent p) := by
  have key : ∀ l : List (Str × Ser), (∀ p ∈ l, absent p = true → p.2 = .none) →
      allPairs l = allPairs (l.filter fun p => !absent p) := by
    intro l
    induction l with
    | nil => intro _; rfl
    | cons p l ih =>
      intro h
      have ih := ih fun q hq => h q (by simp [hq])
      by_cases hp : absent p = true
      · have h2 := h p (by simp) hp
        have h3 : queryPairs p.1 p.2 = .ok [] := by rw [h2]; rfl
        simp only [List.filter_cons, hp, Bool.not_true, if_false, Bool.false_eq_true]
        rw [← ih]
        simp only [allPairs, collect, h3]
        cases collect (fun p : Str × Ser => queryPairs p.1 p.2) l <;> rfl
      · simp only [List.filter_cons, hp, Bool.not_false, if_true]
        simp only [allPairs, collect]
        simp only [allPairs] at ih
        rw [ih]
  rw [queryOf_nil, addQueries_ok, addQueries_ok, key l h]

/-- C10: if every parameter is absent there is no query component at all. -/
theorem C10_no_query (l : List (Str × Ser)) (h : ∀ p ∈ l, p.2 = .none) :
    addQueries (.ok none) l = .ok none := by
  rw [C10_none_invisible l (fun _ => true) (fun p hp _ => h p hp)]
  have : l.filter (fun p => !((fun _ => true) p)) = [] := by
    rw [List.filter_eq_nil_iff]; simp
  rw [this]; rfl

example : addQueries (.ok none) [(['a'], .none), (['b'], .int 7)] = .ok (some "b=7".toList) := rfl

/-! ## C11 -/

/-- C11 fails: a newtype struct around a string cannot be sent at all. -/
theorem C11_newtype_fails : ∃ name n v, queryPairs name v = .ok [(name, ['x'])] ∧
    queryPairs name (.newtypeStruct n v) = .error () :=
  ⟨"q".toList, "Name".toList, .str ['x'], rfl, rfl⟩

/-- C11 fails for every scalar. -/
theorem C11_newtype_fails_scalar (name n : Str) (v : Ser) (t : Str) (h : Scalar v t) :
    queryPairs name (.newtypeStruct n v) = .error () := by
  simp only [queryPairs, top]
  induction h with
  | some v t _ ih => simpa [top] using ih
  | _ => rfl

/-- C11, guarded: newtypes around structs, maps, `None` and unit are
transparent. Missing: scalars and sequences, for which the code loses the
parameter name. -/
theorem C11_newtype_partial (name n : Str) (v : Ser)
    (h : (∃ s fs, v = .struct s fs) ∨ (∃ kvs, v = .map kvs) ∨ v = .none ∨ v = .unit) :
    queryPairs name (.newtypeStruct n v) = queryPairs name v := by
  rcases h with ⟨s, fs, rfl⟩ | ⟨kvs, rfl⟩ | rfl | rfl <;> rfl

/-- C11, inside arrays and objects newtypes are transparent (values position). -/
theorem C11_newtype_element (name n : Str) (pre post : List Ser) (v : Ser) :
    queryPairs name (.seq (pre ++ .newtypeStruct n v :: post)) =
      queryPairs name (.seq (pre ++ v :: post)) := by
  simp only [queryPairs, List.map_append, List.map_cons, collect_append, collect, pairOf, keyText,
    valuePairs]

theorem not_scalar_top {v : Ser} {t : Str} (h : Scalar v t) : top v = .error () ∧ pairOf v = .error () := by
  induction h with
  | some v t _ ih => simpa [top, pairOf] using ih
  | _ => exact ⟨rfl, rfl⟩

theorem item_top {v : Ser} {t : Option Str} (h : Item v t) :
    (t = none ∧ top v = .ok [] ∧ pairOf v = .ok [] ∧ ¬ Buried v) ∨ (t ≠ none ∧ top v = .error () ∧ pairOf v = .error () ∧ Buried v) := by
  induction h with
  | scalar v t h => exact .inr ⟨by simp, (not_scalar_top h).1, (not_scalar_top h).2, .scalar v t h⟩
  | none =>
    refine .inl ⟨rfl, rfl, rfl, fun h => ?_⟩
    cases h with
    | scalar _ _ h => cases h
  | some v t _ ih =>
    rcases ih with ⟨h1, h2, h3, h4⟩ | ⟨h1, h2, h3, h4⟩
    · refine .inl ⟨h1, by simpa [top] using h2, by simpa [pairOf] using h3, fun h => ?_⟩
      cases h with
      | some _ h => exact h4 h
      | scalar _ t h => cases h with
        | some _ _ h => exact h4 (.scalar _ t h)
    · exact .inr ⟨h1, by simpa [top] using h2, by simpa [pairOf] using h3, .some v h4⟩
  | newtype n v t _ ih =>
    rcases ih with ⟨h1, h2, h3, h4⟩ | ⟨h1, h2, h3, h4⟩
    · refine .inl ⟨h1, by simpa [top] using h2, by simpa [pairOf] using h3, fun h => ?_⟩
      cases h with
      | newtype _ _ h => exact h4 h
      | scalar _ t h => cases h
    · exact .inr ⟨h1, by simpa [top] using h2, by simpa [pairOf] using h3, .newtype n v h4⟩

theorem items_top (name : Str) {vs : List Ser} {ts : List (Option Str)} (h : Forall₂ Item vs ts) :
    ((ts.filterMap fun t => t.map fun x => (name, x)) = [] ∧ collect pairOf vs = .ok [] ∧ ∀ v ∈ vs, ∀ t, ¬ Item v (some t)) ∨
    (collect pairOf vs = .error () ∧ ∃ v ∈ vs, ∃ t, Item v (some t)) := by
  induction h with
  | nil => exact .inl ⟨rfl, rfl, by simp⟩
  | @cons v t vs ts h _ ih =>
    rcases item_top h with ⟨rfl, -, h2, h3⟩ | ⟨h1, -, h2, -⟩
    · rcases ih with ⟨i1, i2, i3⟩ | ⟨i1, v', hv', i2⟩
      · refine .inl ⟨by simpa using i1, by simp [collect, h2, i2], fun x hx t ht => ?_⟩
        rcases List.mem_cons.mp hx with rfl | hx
        · rcases item_top ht with ⟨h, -⟩ | ⟨-, -, -, h⟩
          · cases h
          · exact h3 h
        · exact i3 x hx t ht
      · exact .inr ⟨by simp [collect, h2, i1], v', by simp [hv'], i2⟩
    · obtain ⟨x, rfl⟩ := Option.ne_none_iff_exists'.mp h1
      exact .inr ⟨by simp [collect, h2], v, by simp, x, h⟩

theorem means_top {name : Str} {v : Ser} {ps : List (Str × Str)} (h : Means name v ps) :
    (top v = .ok ps ∧ ¬ Buried v) ∨ (top v = .error () ∧ Buried v) := by
  induction h with
  | item v t h =>
    rcases item_top h with ⟨rfl, h1, -, h2⟩ | ⟨-, h1, -, h2⟩
    · exact .inl ⟨h1, h2⟩
    · exact .inr ⟨h1, h2⟩
  | seq vs ts h =>
    rcases items_top name h with ⟨h1, h2, h3⟩ | ⟨h1, v, hv, t, h2⟩
    · refine .inl ⟨by rw [h1]; exact h2, fun h => ?_⟩
      cases h with
      | scalar _ _ h => cases h
      | seq _ v t hv ht => exact h3 v hv t ht
    · exact .inr ⟨h1, .seq vs v t hv h2⟩
  | tuple vs ts h =>
    rcases items_top name h with ⟨h1, h2, h3⟩ | ⟨h1, v, hv, t, h2⟩
    · refine .inl ⟨by rw [h1]; exact h2, fun h => ?_⟩
      cases h with
      | scalar _ _ h => cases h
      | tuple _ v t hv ht => exact h3 v hv t ht
    · exact .inr ⟨h1, .tuple vs v t hv h2⟩
  | struct n fs ts h =>
    refine .inl ⟨collect_fields h, fun h => ?_⟩
    cases h with
    | scalar _ _ h => cases h
  | map kvs ts h =>
    refine .inl ⟨collect_entries h, fun h => ?_⟩
    cases h with
    | scalar _ _ h => cases h
  | variant e var v t h => exact .inr ⟨rfl, .variant e var v⟩
  | some v ps _ ih =>
    rcases ih with ⟨h1, h2⟩ | ⟨h1, h2⟩
    · refine .inl ⟨by simpa [top] using h1, fun h => ?_⟩
      cases h with
      | some _ h => exact h2 h
      | scalar _ t h => cases h with
        | some _ _ h => exact h2 (.scalar _ t h)
    · exact .inr ⟨by simpa [top] using h1, .some v h2⟩
  | newtype n v ps _ ih =>
    rcases ih with ⟨h1, h2⟩ | ⟨h1, h2⟩
    · refine .inl ⟨by simpa [top] using h1, fun h => ?_⟩
      cases h with
      | newtype _ _ h => exact h2 h
      | scalar _ t h => cases h
    · exact .inr ⟨by simpa [top] using h1, .newtype n v h2⟩

theorem scalar_not_unsent {v : Ser} {t : Str} (h : Scalar v t) : ¬ Unsent v := by
  induction h with
  | some v t _ ih => intro h; cases h with | some _ h => exact ih h
  | _ => intro h; cases h

theorem item_query (name : Str) {v : Ser} {t : Option Str} (h : Item v t) :
    (queryPairs name v = .ok (t.toList.map fun x => (name, x)) ∧ ¬ Unsent v) ∨ (queryPairs name v = .error () ∧ Unsent v) := by
  induction h with
  | scalar v t h => exact .inl ⟨by simpa using queryPairs_scalar h name, scalar_not_unsent h⟩
  | none => exact .inl ⟨rfl, fun h => by cases h⟩
  | some v t _ ih =>
    rcases ih with ⟨h1, h2⟩ | ⟨h1, h2⟩
    · refine .inl ⟨by simpa [queryPairs] using h1, fun h => ?_⟩
      cases h with
      | some _ h => exact h2 h
    · exact .inr ⟨by simpa [queryPairs] using h1, .some v h2⟩
  | newtype n v t h _ =>
    rcases means_top (.item (name := name) v t h) with ⟨h1, h2⟩ | ⟨h1, h2⟩
    · refine .inl ⟨by simpa [queryPairs, top] using h1, fun h => ?_⟩
      cases h with
      | newtype _ _ h => exact h2 h
    · exact .inr ⟨by simpa [queryPairs, top] using h1, .newtype n v h2⟩

/-- C11: an argument is sent as exactly what it stands for, or not at all: precisely when something is present in a fixed-size array
or inside a newtype and is no object. -/
theorem C11_exact {name : Str} {v : Ser} {ps : List (Str × Str)} (h : Means name v ps) :
    (queryPairs name v = .ok ps ↔ ¬ Unsent v) ∧ (queryPairs name v = .error () ↔ Unsent v) := by
  have key : (queryPairs name v = .ok ps ∧ ¬ Unsent v) ∨ (queryPairs name v = .error () ∧ Unsent v) := by
    induction h with
    | item v t h => exact item_query name h
    | seq vs ts h => exact .inl ⟨C08_seq name vs ts h, fun h => by cases h⟩
    | tuple vs ts h =>
      rcases items_top name h with ⟨h1, h2, h3⟩ | ⟨h1, v, hv, t, h2⟩
      · refine .inl ⟨by rw [h1]; exact h2, fun h => ?_⟩
        cases h with
        | tuple _ v t hv ht => exact h3 v hv t ht
      · exact .inr ⟨h1, .tuple vs v t hv h2⟩
    | struct n fs ts h => exact .inl ⟨C09_struct name n fs ts h, fun h => by cases h⟩
    | map kvs ts h => exact .inl ⟨C09_map name kvs ts h, fun h => by cases h⟩
    | variant e var v t h => exact .inl ⟨C09_newtype_variant name e var v t h, fun h => by cases h⟩
    | some v ps _ ih =>
      rcases ih with ⟨h1, h2⟩ | ⟨h1, h2⟩
      · refine .inl ⟨by simpa [queryPairs] using h1, fun h => ?_⟩
        cases h with
        | some _ h => exact h2 h
      · exact .inr ⟨by simpa [queryPairs] using h1, .some v h2⟩
    | newtype n v ps h _ =>
      rcases means_top h with ⟨h1, h2⟩ | ⟨h1, h2⟩
      · refine .inl ⟨by simpa [queryPairs, top] using h1, fun h => ?_⟩
        cases h with
        | newtype _ _ h => exact h2 h
      · exact .inr ⟨by simpa [queryPairs, top] using h1, .newtype n v h2⟩
  rcases key with ⟨h1, h2⟩ | ⟨h1, h2⟩ <;> simp [h1, h2]

/-- C11: nothing else is ever sent for it. -/
theorem C11_nothing_else {name : Str} {v : Ser} {ps qs : List (Str × Str)} (h : Means name v ps) (hq : queryPairs name v = .ok qs) :
    qs = ps := by
  by_cases hu : Unsent v
  · rw [(C11_exact h).2.mpr hu] at hq; cases hq
  · rw [(C11_exact h).1.mpr hu] at hq
    exact (Except.ok.inj hq).symm

example : Means ['q'] (.newtypeStruct "N".toList (.seq [.none, .str ['x']])) [(['q'], ['x'])] ∧
    Unsent (.newtypeStruct "N".toList (.seq [.none, .str ['x']])) :=
  ⟨.newtype _ _ _ (.seq _ [none, some ['x']] (.cons .none (.cons (.scalar _ _ (.str _)) .nil))),
    .newtype _ _ (.seq _ (.str ['x']) ['x'] (by simp) (.scalar _ _ (.str _)))⟩
example : Means ['q'] (.tuple [.none]) [] ∧ ¬ Unsent (.tuple [.none]) := by
  refine ⟨.tuple _ [none] (.cons .none .nil), fun h => ?_⟩
  cases h with
  | tuple _ v t hv ht =>
    rw [List.mem_singleton.mp hv] at ht
    cases ht with
    | scalar _ _ h => cases h

/-! ## C12 -/

/-- C12: if the arguments serialize, the query string decodes to exactly the
pairs they contribute, in order; there is no query string iff there is no pair. -/
theorem C12_decode (l : List (Str × Ser)) (q : Option Str) (h : addQueries (.ok none) l = .ok q) :
    ∃ ps : List (List (Str × Str)),
      Forall₂ (fun a b => queryPairs a.1 a.2 = .ok b) l ps ∧
      formDecode (q.getD []) = ps.flatten.map (fun p => (utf8 p.1, utf8 p.2)) ∧
      (q = none ↔ ps.flatten = []) := by
  rw [queryOf_nil, addQueries_ok] at h
  cases ha : allPairs l with
  | error e => rw [ha] at h; cases h
  | ok qs =>
    rw [ha] at h
    simp only [Except.ok.injEq] at h
    have key : ∀ (l : List (Str × Ser)) qs, allPairs l = .ok qs →
        ∃ ps : List (List (Str × Str)), Forall₂ (fun a b => queryPairs a.1 a.2 = .ok b) l ps ∧
          ps.flatten = qs := by
      intro l
      induction l with
      | nil => intro qs h; cases h; exact ⟨[], .nil, rfl⟩
      | cons p l ih =>
        intro qs h
        simp only [allPairs, collect] at h
        cases hp : queryPairs p.1 p.2 with
        | error e => rw [hp] at h; cases h
        | ok rs =>
          rw [hp] at h
          cases hl : collect (fun p : Str × Ser => queryPairs p.1 p.2) l with
          | error e => rw [hl] at h; cases h
          | ok ss =>
            rw [hl] at h
            cases h
            obtain ⟨ps, h1, h2⟩ := ih ss hl
            exact ⟨rs :: ps, .cons hp h1, by simp [h2]⟩
    obtain ⟨ps, h1, h2⟩ := key l qs ha
    refine ⟨ps, h1, ?_, ?_⟩
    · rw [← h, queryOf_getD, formDecode_append, h2]; rfl
    · rw [h2, ← h]
      unfold queryOf
      split
      · rename_i h0
        simp [(appendPairs_eq_nil [] qs).1 h0]
      · rename_i h0
        simp
        intro h1; exact h0 ((appendPairs_eq_nil [] qs).2 ⟨rfl, h1⟩)

/-- C12: the query string consists of letters, digits and `*-._+%&=`, so that it needs no further
encoding and cannot run into a fragment. -/
theorem C12_alphabet (l : List (Str × Ser)) (q : Str) (h : addQueries (.ok none) l = .ok (some q)) :
    ∀ c ∈ q, ('a' ≤ c ∧ c ≤ 'z') ∨ ('A' ≤ c ∧ c ≤ 'Z') ∨ ('0' ≤ c ∧ c ≤ '9') ∨
      c ∈ ['*', '-', '.', '_', '+', '%', '&', '='] := by
  rw [queryOf_nil, addQueries_ok] at h
  cases ha : allPairs l with
  | error e => rw [ha] at h; cases h
  | ok qs =>
    rw [ha] at h
    simp only [Except.ok.injEq] at h
    have hq : q = appendPairs [] qs := by
      have := queryOf_getD (appendPairs [] qs)
      rw [h] at this
      exact this
    rw [hq]
    apply appendPairs_safe
    · simp
    · intro c hc
      simp only [formSafe, Bool.or_eq_true, Bool.and_eq_true, decide_eq_true_eq] at hc
      rcases hc with ((h | h) | h) | h
      · exact .inl h
      · exact .inr (.inl h)
      · exact .inr (.inr (.inl h))
      · refine .inr (.inr (.inr ?_))
        simp at h ⊢
        rcases h with h | h | h | h | h | h <;> simp [h]
    · simp
    · simp

/-- C12: a query fails to serialize only if some argument does. -/
theorem C12_error_iff (l : List (Str × Ser)) :
    (∃ e, addQueries (.ok none) l = .error e) ↔ ∃ p ∈ l, queryPairs p.1 p.2 = .error () := by
  rw [queryOf_nil, addQueries_ok]
  have key : ∀ l : List (Str × Ser), (∃ e, allPairs l = .error e) ↔
      ∃ p ∈ l, queryPairs p.1 p.2 = .error () := by
    intro l
    induction l with
    | nil => simp [allPairs, collect]
    | cons p l ih =>
      simp only [allPairs, collect] at ih ⊢
      cases hp : queryPairs p.1 p.2 with
      | error e => simp [hp]
      | ok rs =>
        cases hl : collect (fun p : Str × Ser => queryPairs p.1 p.2) l with
        | error e => simp [hl] at ih; simp [hp, ih]
        | ok ss => simp [hl] at ih; simp [hp]; exact fun a b h => ih a b h
  rw [← key l]
  cases allPairs l <;> simp

/-- C12: two parameter lists with the same query string contribute the same
pairs: no value can masquerade as another parameter. -/
theorem C12_injective (l m : List (Str × Ser)) (q : Option Str) (ps qs : List (Str × Str))
    (hl : addQueries (.ok none) l = .ok q) (hm : addQueries (.ok none) m = .ok q)
    (hp : allPairs l = .ok ps) (hq : allPairs m = .ok qs) : ps = qs := by
  rw [queryOf_nil, addQueries_ok, hp] at hl
  rw [queryOf_nil, addQueries_ok, hq] at hm
  simp only [Except.ok.injEq] at hl hm
  have h1 := formDecode_append [] ps
  have h2 := formDecode_append [] qs
  have h3 : appendPairs [] ps = appendPairs [] qs := by
    rw [← queryOf_getD (appendPairs [] ps), ← queryOf_getD (appendPairs [] qs), hl, hm]
  rw [h3, h2] at h1
  simp only [List.append_cancel_left_eq] at h1
  exact ((List.map_inj_right (by
    rintro ⟨a, b⟩ ⟨c, d⟩ h
    simp only [Prod.mk.injEq] at h ⊢
    exact ⟨utf8_injective h.1, utf8_injective h.2⟩)).1 h1).symm

example : addQueries (.ok none) [("a b".toList, .str "x&y=z".toList), (['c'], .seq [.int 1, .int 2])] =
    .ok (some "a+b=x%26y%3Dz&c=1&c=2".toList) := rfl
example : formDecode "a+b=x%26y%3Dz&c=1".toList =
    [(utf8 "a b".toList, utf8 "x&y=z".toList), (utf8 ['c'], utf8 ['1'])] := by decide

end Progenitor.Props

import Verif.Props.QueryExact
import Verif.Props.Exec

/-!
# C11, C19: exactly which values are sent in a query or as a form, and as what
-/

namespace Progenitor.Props

open Progenitor Progenitor.Params Progenitor.Query Progenitor.Exec Progenitor.Spec

theorem entry_pairs {v : Ser} {ps : List Pair} (h : EntryOf v ps) : pairOf v = .ok ps := by
  induction h with
  | pair k v key t hk hv => simp only [pairOf, label_text hk, part_pairs hv]
  | none => rfl
  | some v ps _ ih => simpa [pairOf] using ih
  | newtype n v ps _ ih => simpa [pairOf] using ih

theorem pairs_entry : ∀ (v : Ser) (ps : List Pair), pairOf v = .ok ps → EntryOf v ps
  | .tuple [k, v], ps, h => by
    simp only [pairOf] at h
    split at h
    · cases h
    · rename_i key hk
      obtain ⟨t, ht, rfl⟩ := (pairs_iff key v ps).mp h
      exact .pair k v key t (text_label k key hk) ht
  | .tuple [], _, h => by simp [pairOf] at h
  | .tuple [_], _, h => by simp [pairOf] at h
  | .tuple (_ :: _ :: _ :: _), _, h => by simp [pairOf] at h
  | .none, _, h => by cases h; exact .none
  | .some v, ps, h => .some v ps (pairs_entry v ps (by simpa [pairOf] using h))
  | .newtypeStruct n v, ps, h => .newtype n v ps (pairs_entry v ps (by simpa [pairOf] using h))
  | .bool _, _, h => by simp [pairOf] at h
  | .int _, _, h => by simp [pairOf] at h
  | .float _, _, h => by simp [pairOf] at h
  | .char _, _, h => by simp [pairOf] at h
  | .str _, _, h => by simp [pairOf] at h
  | .bytes _, _, h => by simp [pairOf] at h
  | .unit, _, h => by simp [pairOf] at h
  | .unitStruct _, _, h => by simp [pairOf] at h
  | .unitVariant .., _, h => by simp [pairOf] at h
  | .newtypeVariant .., _, h => by simp [pairOf] at h
  | .seq _, _, h => by simp [pairOf] at h
  | .tupleStruct .., _, h => by simp [pairOf] at h
  | .tupleVariant .., _, h => by simp [pairOf] at h
  | .map _, _, h => by simp [pairOf] at h
  | .struct .., _, h => by simp [pairOf] at h
  | .structVariant .., _, h => by simp [pairOf] at h

theorem entries_iff (vs : List Ser) (ps : List Pair) :
    collect pairOf vs = .ok ps ↔ ∃ pss, Forall₂ EntryOf vs pss ∧ ps = pss.flatten := by
  have h := collect_iff (f := pairOf) (Rel := EntryOf) (pairs := fun ps => ps)
    (fun x qs => ⟨fun h => ⟨qs, pairs_entry x qs h, rfl⟩, fun ⟨_, h, e⟩ => e ▸ entry_pairs h⟩) vs ps
  simpa [List.flatMap_def] using h

theorem form_top {v : Ser} {ps : List Pair} (h : FormOf v ps) : top v = .ok ps := by
  induction h with
  | unit => rfl
  | unitStruct => rfl
  | none => rfl
  | some v ps _ ih => simpa [top] using ih
  | newtype n v ps _ ih => simpa [top] using ih
  | seq vs pss h => exact (entries_iff vs _).mpr ⟨pss, h, rfl⟩
  | tuple vs pss h => exact (entries_iff vs _).mpr ⟨pss, h, rfl⟩
  | struct n fs ts h => exact (C09_struct_iff [] n fs _).mpr ⟨ts, h, rfl⟩
  | map kvs ts h => exact (C09_map_iff [] kvs _).mpr ⟨ts, h, rfl⟩

theorem top_form : ∀ (v : Ser) (ps : List Pair), top v = .ok ps → FormOf v ps
  | .unit, _, h => by cases h; exact .unit
  | .unitStruct n, _, h => by cases h; exact .unitStruct n
  | .none, _, h => by cases h; exact .none
  | .some v, ps, h => .some v ps (top_form v ps (by simpa [top] using h))
  | .newtypeStruct n v, ps, h => .newtype n v ps (top_form v ps (by simpa [top] using h))
  | .seq vs, ps, h => by
    obtain ⟨pss, h1, rfl⟩ := (entries_iff vs ps).mp h
    exact .seq vs pss h1
  | .tuple vs, ps, h => by
    obtain ⟨pss, h1, rfl⟩ := (entries_iff vs ps).mp h
    exact .tuple vs pss h1
  | .map kvs, ps, h => by
    obtain ⟨ts, h1, rfl⟩ := (C09_map_iff [] kvs ps).mp h
    exact .map kvs ts h1
  | .struct n fs, ps, h => by
    obtain ⟨ts, h1, rfl⟩ := (C09_struct_iff [] n fs ps).mp h
    exact .struct n fs ts h1
  | .bool _, _, h => by simp [top] at h
  | .int _, _, h => by simp [top] at h
  | .float _, _, h => by simp [top] at h
  | .char _, _, h => by simp [top] at h
  | .str _, _, h => by simp [top] at h
  | .bytes _, _, h => by simp [top] at h
  | .unitVariant .., _, h => by simp [top] at h
  | .newtypeVariant .., _, h => by simp [top] at h
  | .tupleStruct .., _, h => by simp [top] at h
  | .tupleVariant .., _, h => by simp [top] at h
  | .structVariant .., _, h => by simp [top] at h

theorem query_sent {name : Str} {v : Ser} {ps : List Pair} (h : QueryOf name v ps) : queryPairs name v = .ok ps := by
  induction h with
  | scalar v t h => exact queryPairs_scalar h name
  | seq vs ts h => exact (C08_seq_iff name vs _).mpr ⟨ts, h, rfl⟩
  | variant e var v t h =>
    show top (.struct e [(var, v)]) = _
    simp [top, collect, fieldOf, part_pairs h]
  | some v ps _ ih => simpa [queryPairs] using ih
  | form v ps h1 h2 h =>
    have ht := form_top h
    cases h with
    | seq vs => exact absurd rfl (h1 vs)
    | some w => exact absurd rfl (h2 w)
    | _ => simpa [queryPairs] using ht

theorem sent_query (name : Str) : ∀ (v : Ser) (ps : List Pair), queryPairs name v = .ok ps → QueryOf name v ps
  | .some v, ps, h => .some v ps (sent_query name v ps (by simpa [queryPairs] using h))
  | .bool true, _, h => by cases (queryPairs_scalar .true name).symm.trans h; exact .scalar _ _ .true
  | .bool false, _, h => by cases (queryPairs_scalar .false name).symm.trans h; exact .scalar _ _ .false
  | .int (.ofNat n), _, h => by cases (queryPairs_scalar (.nat n) name).symm.trans h; exact .scalar _ _ (.nat n)
  | .int (.negSucc n), _, h => by cases (queryPairs_scalar (.neg n) name).symm.trans h; exact .scalar _ _ (.neg n)
  | .float t, _, h => by cases (queryPairs_scalar (.float t) name).symm.trans h; exact .scalar _ _ (.float t)
  | .char c, _, h => by cases (queryPairs_scalar (.char c) name).symm.trans h; exact .scalar _ _ (.char c)
  | .str s, _, h => by cases (queryPairs_scalar (.str s) name).symm.trans h; exact .scalar _ _ (.str s)
  | .unitVariant e v, _, h => by
    cases (queryPairs_scalar (.unitVariant e v) name).symm.trans h; exact .scalar _ _ (.unitVariant e v)
  | .seq vs, ps, h => by
    obtain ⟨ts, h1, rfl⟩ := (C08_seq_iff name vs ps).mp h
    exact .seq vs ts h1
  | .newtypeVariant e var v, ps, h => by
    obtain ⟨ts, h1, rfl⟩ := (C09_struct_iff [] e [(var, v)] ps).mp h
    cases h1 with
    | cons h1 h2 =>
      cases h2
      obtain ⟨e1, h1⟩ := h1
      simp only [List.flatMap_cons, List.flatMap_nil, List.append_nil, ← e1]
      exact .variant e var v _ h1
  | .bytes _, _, h => by simp [queryPairs, top] at h
  | .tupleStruct .., _, h => by simp [queryPairs, top] at h
  | .tupleVariant .., _, h => by simp [queryPairs, top] at h
  | .structVariant .., _, h => by simp [queryPairs, top] at h
  | .none, ps, h => .form _ _ (by simp) (by simp) (top_form _ ps h)
  | .unit, ps, h => .form _ _ (by simp) (by simp) (top_form _ ps h)
  | .unitStruct _, ps, h => .form _ _ (by simp) (by simp) (top_form _ ps h)
  | .newtypeStruct _ _, ps, h => .form _ _ (by simp) (by simp) (top_form _ ps h)
  | .tuple _, ps, h => .form _ _ (by simp) (by simp) (top_form _ ps h)
  | .map _, ps, h => .form _ _ (by simp) (by simp) (top_form _ ps h)
  | .struct _ _, ps, h => .form _ _ (by simp) (by simp) (top_form _ ps h)

/-- C11: exactly what each argument of a query parameter is sent as; all others are refused. -/
theorem C11_sent_iff (name : Str) (v : Ser) :
    (∀ ps, queryPairs name v = .ok ps ↔ QueryOf name v ps) ∧ (queryPairs name v = .error () ↔ ∀ ps, ¬ QueryOf name v ps) := by
  have h : ∀ ps, queryPairs name v = .ok ps ↔ QueryOf name v ps := fun ps => ⟨sent_query name v ps, query_sent⟩
  refine ⟨h, ?_⟩
  simp only [← h]
  cases queryPairs name v with
  | error e => simp
  | ok ps => simp

/-- C19: exactly which values are sent as a form; what is sent is read as the pairs of the value. -/
theorem C19_form_iff (toJson : Ser → Except Unit Bytes) (v : Value) :
    ((∃ b, Encodes toJson .form v b) ↔ ∃ s ps, argSer v = some s ∧ FormOf s ps) ∧
    ∀ b s ps, Encodes toJson .form v b → argSer v = some s → FormOf s ps →
      ∃ t, b = utf8 t ∧ formDecode t = ps.map fun p => (utf8 p.1, utf8 p.2) := by
  refine ⟨⟨?_, ?_⟩, ?_⟩
  · rintro ⟨_, h⟩
    cases h with
    | form v s ps t h1 h2 h3 => exact ⟨s, ps, h1, top_form s ps h2⟩
  · rintro ⟨s, ps, h1, h2⟩
    exact ⟨_, .form v s ps _ h1 (form_top h2) rfl⟩
  · intro b s ps h hs hf
    cases h with
    | form v s' ps' t h1 h2 h3 =>
      rw [hs] at h1
      cases h1
      rw [form_top hf] at h2
      cases h2
      refine ⟨t, rfl, ?_⟩
      rw [h3, formDecode_append]
      rfl

/- A list of pairs in a newtype is sent as it is; a number in a newtype is refused. -/
example : queryPairs ['q'] (.newtypeStruct ['N'] (.seq [.tuple [.str ['a'], .int 3], .none])) = .ok [(['a'], ['3'])] :=
  ((C11_sent_iff _ _).1 _).mpr (.form _ _ (by simp) (by simp) (.newtype _ _ _ (.seq _ [[(['a'], ['3'])], []]
    (.cons (.pair _ _ _ (some ['3']) (.key _ _ (.str _)) (.scalar _ _ (.nat 3))) (.cons .none .nil)))))

example : queryPairs ['q'] (.newtypeStruct ['N'] (.int 3)) = .error () :=
  (C11_sent_iff _ _).2.mpr fun _ h => by
    cases h with
    | scalar _ _ h => cases h
    | form _ _ _ _ h =>
      cases h with
      | newtype _ _ _ h => cases h

example (toJson : Ser → Except Unit Bytes) :
    ∃ b, Encodes toJson .form (.plain ⟨[], .map [(.str ['a'], .str ['b', ' ']), (.str ['c'], .none)]⟩) b :=
  (C19_form_iff toJson _).1.mpr ⟨_, _, rfl, .map _ [(['a'], some ['b', ' ']), (['c'], none)]
    (.cons ⟨.key _ _ (.str _), .scalar _ _ (.str _)⟩ (.cons ⟨.key _ _ (.str _), .none⟩ .nil))⟩

end Progenitor.Props

import Verif.Spec.SchemaNotes
import Verif.Props.Schema

/-!
# Annotations of schemas: C95
-/

namespace Progenitor.Props

open Progenitor Progenitor.Schema Progenitor.Spec Progenitor.Params

theorem jstep_into {o : SchemaObject} {st : SchemaStep} {j : JSchema} : JStep o.into st j ↔
    (∃ ob k, o.object = some ob ∧ st = .property k ∧ (k, j) ∈ ob.properties) ∨
    (∃ ob, o.object = some ob ∧ st = .additional ∧ ob.additional = some j) ∨
    (∃ ar, o.array = some ar ∧ st = .items ∧ ar.items = some j) ∨
    (∃ u l i, o.subs = some u ∧ st = .oneOf i ∧ u.oneOf = some l ∧ l[i]? = some j) ∨
    (∃ u l i, o.subs = some u ∧ st = .allOf i ∧ u.allOf = some l ∧ l[i]? = some j) ∨
    (∃ u l i, o.subs = some u ∧ st = .anyOf i ∧ u.anyOf = some l ∧ l[i]? = some j) ∨
    (∃ u, o.subs = some u ∧ st = .not ∧ u.not = some j) := by
  obtain ⟨n, ty, f, e, nu, str, ar, ob, su⟩ := o
  unfold SchemaObject.into
  dsimp only
  constructor
  · intro h
    cases h with
    | property h => exact .inl ⟨_, _, rfl, rfl, h⟩
    | additional h => exact .inr (.inl ⟨_, rfl, rfl, h⟩)
    | items h => exact .inr (.inr (.inl ⟨_, rfl, rfl, h⟩))
    | oneOf h h2 => exact .inr (.inr (.inr (.inl ⟨_, _, _, rfl, rfl, h, h2⟩)))
    | allOf h h2 => exact .inr (.inr (.inr (.inr (.inl ⟨_, _, _, rfl, rfl, h, h2⟩))))
    | anyOf h h2 => exact .inr (.inr (.inr (.inr (.inr (.inl ⟨_, _, _, rfl, rfl, h, h2⟩)))))
    | not h => exact .inr (.inr (.inr (.inr (.inr (.inr ⟨_, rfl, rfl, h⟩)))))
  · rintro (⟨_, _, rfl, rfl, h⟩ | ⟨_, rfl, rfl, h⟩ | ⟨_, rfl, rfl, h⟩ | ⟨_, _, _, rfl, rfl, h, h2⟩ | ⟨_, _, _, rfl, rfl, h, h2⟩ |
      ⟨_, _, _, rfl, rfl, h, h2⟩ | ⟨_, rfl, rfl, h⟩)
    · exact .property h
    · exact .additional h
    · exact .items h
    · exact .oneOf h h2
    · exact .allOf h h2
    · exact .anyOf h h2
    · exact .not h

theorem jstep_notes {o : SchemaObject} {n : Notes} {st : SchemaStep} {j : JSchema} :
    JStep { o with notes := n }.into st j ↔ JStep o.into st j := by
  rw [jstep_into, jstep_into]

theorem core_wrapper {s : OSchema} {d : Data} (hd : dataOf s = some d) (hn : d.nullable = true) (o : SchemaObject) :
    CoreOf s (nullableWrapper o true).into { o with notes := {} }.into :=
  .inl ⟨d, _, _, _, _, _, _, _, _, _, hd, hn, rfl, rfl⟩

theorem core_plain {s : OSchema} {d : Data} (hd : dataOf s = some d) {o : SchemaObject}
    (h : d.nullable = false ∨ o.ty ≠ none ∨ o.subs = none) : CoreOf s o.into o.into := by
  refine .inr ⟨rfl, ?_⟩
  rintro i' ⟨d', n, ty, f, e, nu, st, ar, ob, su, h1, h2, -, h3⟩
  rw [hd] at h1
  cases h1
  unfold SchemaObject.into at h3
  injection h3 with e1 e2 e3 e4 e5 e6 e7 e8 e9
  rcases h with h | h | h
  · rw [h] at h2; cases h2
  · exact h e2
  · rw [h] at e9; cases e9

theorem core_wrapped {s : OSchema} {d : Data} (hd : dataOf s = some d) (o : SchemaObject) : ∃ n,
    CoreOf s (nullableWrapper o d.nullable).into { o with notes := n }.into ∧ (n = o.notes ∨ n = {}) := by
  cases hn : d.nullable with
  | true => exact ⟨_, core_wrapper hd hn o, .inr rfl⟩
  | false => exact ⟨o.notes, by rw [wrapper_false]; exact core_plain hd (.inl hn), .inl rfl⟩

/-- The parts of `o` are the converted parts of `s`. -/
def PartsOf (s : OSchema) (o : SchemaObject) : Prop :=
  (∀ st s', OStep s st s' → ∃ j', conv s' = .ok j' ∧ JStep o.into st j') ∧
  ∀ st j', JStep o.into st j' → (∃ s', OStep s st s' ∧ conv s' = .ok j') ∨ ((∀ s', ¬ OStep s st s') ∧ ∃ b, j' = .bool b)

theorem reduce_eq {T : Type} {f : T → Bool} {x y : T} : reduce f x = some y ↔ f x = false ∧ x = y := by
  unfold reduce
  split <;> simp_all

theorem list_parts {l : List OSchema} {js : List JSchema} (h : convList l = .ok js) :
    (∀ (i : Nat) s, l[i]? = some s → ∃ j, conv s = .ok j ∧ js[i]? = some j) ∧
    ∀ (i : Nat) j, js[i]? = some j → ∃ s, l[i]? = some s ∧ conv s = .ok j := by
  induction l generalizing js with
  | nil =>
    simp only [convList] at h
    cases h
    simp
  | cons s l ih =>
    simp only [convList] at h
    obtain ⟨j, h1, h⟩ := bind_ok_inv h
    obtain ⟨js', h2, h⟩ := bind_ok_inv h
    cases h
    obtain ⟨i1, i2⟩ := ih h2
    constructor
    · intro i s' hs
      cases i with
      | zero => simp only [List.getElem?_cons_zero, Option.some.injEq] at hs; subst hs; exact ⟨j, h1, rfl⟩
      | succ i => exact i1 i s' (by simpa using hs)
    · intro i j' hj
      cases i with
      | zero => simp only [List.getElem?_cons_zero, Option.some.injEq] at hj; subst hj; exact ⟨s, rfl, h1⟩
      | succ i => exact i2 i j' (by simpa using hj)

theorem props_parts {l : List (Str × OSchema)} {js : List (Str × JSchema)} (h : convProps l = .ok js) :
    js.map Prod.fst = l.map Prod.fst ∧ (∀ k s, (k, s) ∈ l → ∃ j, conv s = .ok j ∧ (k, j) ∈ js) ∧
    ∀ k j, (k, j) ∈ js → ∃ s, (k, s) ∈ l ∧ conv s = .ok j := by
  induction l generalizing js with
  | nil =>
    simp only [convProps] at h
    cases h
    simp
  | cons e l ih =>
    obtain ⟨k, s⟩ := e
    simp only [convProps] at h
    obtain ⟨j, h1, h⟩ := bind_ok_inv h
    obtain ⟨js', h2, h⟩ := bind_ok_inv h
    cases h
    obtain ⟨i0, i1, i2⟩ := ih h2
    refine ⟨by simp [i0], ?_, ?_⟩
    · intro k' s' hs
      rcases List.mem_cons.mp hs with h | h
      · cases h; exact ⟨j, h1, List.mem_cons_self⟩
      · obtain ⟨j', h3, h4⟩ := i1 _ _ h; exact ⟨j', h3, List.mem_cons_of_mem _ h4⟩
    · intro k' j' hs
      rcases List.mem_cons.mp hs with h | h
      · cases h; exact ⟨s, List.mem_cons_self, h1⟩
      · obtain ⟨s', h3, h4⟩ := i2 _ _ h; exact ⟨s', List.mem_cons_of_mem _ h3, h4⟩

theorem sorted_mem {V : Type} {l : List (Str × V)} (hn : (l.map Prod.fst).Nodup) (e : Str × V) : e ∈ BTree.insertAll [] l ↔ e ∈ l := by
  have := BTree.insertAll_perm (m := []) hn (by simp)
  simpa using this.mem_iff

theorem opt_parts {x : Option OSchema} {j : Option JSchema} (h : convOpt x = .ok j) :
    (∀ s, x = some s → ∃ j', conv s = .ok j' ∧ j = some j') ∧ ∀ j', j = some j' → ∃ s, x = some s ∧ conv s = .ok j' := by
  cases x with
  | none => simp only [convOpt] at h; cases h; simp
  | some s =>
    simp only [convOpt] at h
    obtain ⟨j', h1, h⟩ := bind_ok_inv h
    cases h
    simp [h1]

theorem additional_parts {x : Option (Additional OSchema)} {j : Option JSchema} (h : convAdditional x = .ok j) :
    (∀ s, x = some (.schema s) → ∃ j', conv s = .ok j' ∧ j = some j') ∧
    ∀ j', j = some j' → (∃ s, x = some (.schema s) ∧ conv s = .ok j') ∨ ∃ b, x = some (.any b) ∧ j' = .bool b := by
  match x with
  | none => simp only [convAdditional] at h; cases h; simp
  | some (.any b) => simp only [convAdditional] at h; cases h; simp
  | some (.schema s) =>
    simp only [convAdditional] at h
    obtain ⟨j', h1, h⟩ := bind_ok_inv h
    cases h
    simp [h1]

def notesOf : JSchema → Option Notes
  | .obj n .. => some n
  | _ => none

theorem notes_into (o : SchemaObject) : notesOf o.into = some o.notes := rfl

theorem notes_wrapper (o : SchemaObject) (b : Bool) : notesOf (nullableWrapper o b).into = some o.notes := by
  cases b <;> rfl

theorem parts_none {s : OSchema} (hs : ∀ st s', ¬ OStep s st s') {o : SchemaObject} (h1 : o.array = none) (h2 : o.object = none)
    (h3 : o.subs = none) : PartsOf s o := by
  refine ⟨fun st s' h => (hs st s' h).elim, fun st j h => ?_⟩
  rw [jstep_into, h1, h2, h3] at h
  simp at h

theorem parts_object {d : Data} {k : ObjectLimits} {ps : List (Str × OSchema)} {a : Option (Additional OSchema)}
    {jps : List (Str × JSchema)} {ja : Option JSchema} (hn : (ps.map Prod.fst).Nodup) (h1 : convProps ps = .ok jps)
    (h2 : convAdditional a = .ok ja) : PartsOf (.object d k ps a) (convObject d k jps ja) := by
  obtain ⟨p0, p1, p2⟩ := props_parts h1
  obtain ⟨a1, a2⟩ := additional_parts h2
  rw [← p0] at hn
  constructor
  · intro st s' h
    cases h with
    | property h =>
      obtain ⟨j, h3, h4⟩ := p1 _ _ h
      refine ⟨j, h3, jstep_into.mpr (.inl ⟨_, _, reduce_eq.mpr ⟨?_, rfl⟩, rfl, (sorted_mem hn _).mpr h4⟩)⟩
      have := (sorted_mem hn _).mpr h4
      simp only [ObjV.isDefault, Bool.and_eq_false_iff, List.isEmpty_eq_false_iff]
      exact .inl (.inr (List.ne_nil_of_mem this))
    | additional =>
      obtain ⟨j, h3, rfl⟩ := a1 _ rfl
      exact ⟨j, h3, jstep_into.mpr (.inr (.inl ⟨_, reduce_eq.mpr ⟨by simp [ObjV.isDefault], rfl⟩, rfl, rfl⟩))⟩
  · intro st j h
    rw [jstep_into] at h
    simp only [convObject, reduce_eq, reduceCtorEq, false_and, exists_false, or_false] at h
    rcases h with ⟨ob, k', ⟨-, rfl⟩, rfl, h⟩ | ⟨ob, ⟨-, rfl⟩, rfl, h⟩
    · obtain ⟨s, h3, h4⟩ := p2 _ _ ((sorted_mem hn _).mp h)
      exact .inl ⟨s, .property h3, h4⟩
    · rcases a2 _ h with ⟨s, rfl, h3⟩ | ⟨b, rfl, h3⟩
      · exact .inl ⟨s, .additional, h3⟩
      · exact .inr ⟨fun s' h => (by cases h), b, h3⟩

theorem parts_array {d : Data} {k : ArrayLimits} {x : Option OSchema} {jx : Option JSchema} (h1 : convOpt x = .ok jx) :
    PartsOf (.array d k x) (convArray d k jx) := by
  obtain ⟨a1, a2⟩ := opt_parts h1
  constructor
  · intro st s' h
    cases h with
    | items =>
      obtain ⟨j, h3, rfl⟩ := a1 _ rfl
      refine ⟨j, h3, ?_⟩
      rw [jstep_into]
      simp [convArray, reduce_eq, ArrV.isDefault]
  · intro st j h
    rw [jstep_into] at h
    simp only [convArray, reduce_eq, reduceCtorEq, false_and, exists_false, or_false, false_or] at h
    obtain ⟨ar, ⟨-, rfl⟩, rfl, h⟩ := h
    obtain ⟨s, rfl, h3⟩ := a2 _ h
    exact .inl ⟨s, .items, h3⟩

theorem parts_one {d : Data} {l : List OSchema} {js : List JSchema} (h1 : convList l = .ok js) : PartsOf (.oneOf d l) (subOne d js) := by
  obtain ⟨a1, a2⟩ := list_parts h1
  constructor
  · intro st s' h
    cases h with
    | oneOf h =>
      obtain ⟨j, h3, h4⟩ := a1 _ _ h
      exact ⟨j, h3, jstep_into.mpr (.inr (.inr (.inr (.inl ⟨_, _, _, rfl, rfl, rfl, h4⟩))))⟩
  · intro st j h
    rw [jstep_into] at h
    simp [subOne] at h
    obtain ⟨_, i, rfl, rfl, h⟩ := h
    obtain ⟨s, h3, h4⟩ := a2 _ _ h
    exact .inl ⟨s, .oneOf h3, h4⟩

theorem parts_all {d : Data} {l : List OSchema} {js : List JSchema} (h1 : convList l = .ok js) : PartsOf (.allOf d l) (subAll d js) := by
  obtain ⟨a1, a2⟩ := list_parts h1
  constructor
  · intro st s' h
    cases h with
    | allOf h =>
      obtain ⟨j, h3, h4⟩ := a1 _ _ h
      exact ⟨j, h3, jstep_into.mpr (.inr (.inr (.inr (.inr (.inl ⟨_, _, _, rfl, rfl, rfl, h4⟩)))))⟩
  · intro st j h
    rw [jstep_into] at h
    simp [subAll] at h
    obtain ⟨_, i, rfl, rfl, h⟩ := h
    obtain ⟨s, h3, h4⟩ := a2 _ _ h
    exact .inl ⟨s, .allOf h3, h4⟩

theorem parts_anyOf {d : Data} {l : List OSchema} {js : List JSchema} (h1 : convList l = .ok js) : PartsOf (.anyOf d l) (subAny d js) := by
  obtain ⟨a1, a2⟩ := list_parts h1
  constructor
  · intro st s' h
    cases h with
    | anyOf h =>
      obtain ⟨j, h3, h4⟩ := a1 _ _ h
      exact ⟨j, h3, jstep_into.mpr (.inr (.inr (.inr (.inr (.inr (.inl ⟨_, _, _, rfl, rfl, rfl, h4⟩))))))⟩
  · intro st j h
    rw [jstep_into] at h
    simp [subAny] at h
    obtain ⟨_, i, rfl, rfl, h⟩ := h
    obtain ⟨s, h3, h4⟩ := a2 _ _ h
    exact .inl ⟨s, .anyOf h3, h4⟩

theorem parts_not {d : Data} {s : OSchema} {js : JSchema} (h1 : conv s = .ok js) : PartsOf (.not d s) (subNot d js) := by
  constructor
  · intro st s' h
    cases h with
    | not => exact ⟨js, h1, jstep_into.mpr (.inr (.inr (.inr (.inr (.inr (.inr ⟨_, rfl, rfl, rfl⟩))))))⟩
  · intro st j h
    rw [jstep_into] at h
    simp [subNot] at h
    obtain ⟨rfl, rfl⟩ := h
    exact .inl ⟨s, .not, h1⟩

theorem ite_some {T : Type} {c : Bool} {x y : T} : (if c = true then some x else none) = some y ↔ c = true ∧ x = y := by
  cases c <;> simp

theorem someList_eq {T : Type} {l l' : List T} : someList l = some l' ↔ l ≠ [] ∧ l = l' := by
  unfold someList
  cases l <;> simp

theorem parts_any {d : Data} {k : AnyKeywords} {ps a i os as ys nt} {jps : List (Str × JSchema)} {ja ji : Option JSchema}
    {jos jas jys : List JSchema} {jnt : Option JSchema} (hn : (ps.map Prod.fst).Nodup) (h1 : convProps ps = .ok jps)
    (h2 : convAdditional a = .ok ja) (h3 : convOpt i = .ok ji) (h4 : convList os = .ok jos) (h5 : convList as = .ok jas)
    (h6 : convList ys = .ok jys) (h7 : convOpt nt = .ok jnt) (low high : Option Rat × Option Rat) :
    PartsOf (.any d k ps a i os as ys nt) (anyObject d k jps ja ji jos jas jys jnt low high) := by
  obtain ⟨p0, p1, p2⟩ := props_parts h1
  obtain ⟨a1, a2⟩ := additional_parts h2
  obtain ⟨i1, i2⟩ := opt_parts h3
  obtain ⟨o1, o2⟩ := list_parts h4
  obtain ⟨l1, l2⟩ := list_parts h5
  obtain ⟨y1, y2⟩ := list_parts h6
  obtain ⟨n1, n2⟩ := opt_parts h7
  rw [← p0] at hn
  constructor
  · intro st s' h
    cases h with
    | anyProperty h =>
      obtain ⟨j, h3, h4⟩ := p1 _ _ h
      refine ⟨j, h3, jstep_into.mpr (.inl ⟨_, _, ite_some.mpr ⟨?_, rfl⟩, rfl, (sorted_mem hn _).mpr h4⟩)⟩
      have := List.isEmpty_eq_false_iff.mpr (List.ne_nil_of_mem h4)
      simp [this]
    | anyAdditional =>
      obtain ⟨j, h3, rfl⟩ := a1 _ rfl
      exact ⟨j, h3, jstep_into.mpr (.inr (.inl ⟨_, ite_some.mpr ⟨by simp, rfl⟩, rfl, rfl⟩))⟩
    | anyItems =>
      obtain ⟨j, h8, rfl⟩ := i1 _ rfl
      refine ⟨j, h8, ?_⟩
      rw [jstep_into]
      simp [anyObject]
    | anyOneOf h =>
      obtain ⟨j, h3, h4⟩ := o1 _ _ h
      have hne : jos ≠ [] := by rintro rfl; simp at h4
      exact ⟨j, h3, jstep_into.mpr (.inr (.inr (.inr (.inl ⟨_, _, _, ite_some.mpr ⟨by simp [hne], rfl⟩, rfl,
        someList_eq.mpr ⟨hne, rfl⟩, h4⟩))))⟩
    | anyAllOf h =>
      obtain ⟨j, h3, h4⟩ := l1 _ _ h
      have hne : jas ≠ [] := by rintro rfl; simp at h4
      exact ⟨j, h3, jstep_into.mpr (.inr (.inr (.inr (.inr (.inl ⟨_, _, _, ite_some.mpr ⟨by simp [hne], rfl⟩, rfl,
        someList_eq.mpr ⟨hne, rfl⟩, h4⟩)))))⟩
    | anyAnyOf h =>
      obtain ⟨j, h3, h4⟩ := y1 _ _ h
      have hne : jys ≠ [] := by rintro rfl; simp at h4
      exact ⟨j, h3, jstep_into.mpr (.inr (.inr (.inr (.inr (.inr (.inl ⟨_, _, _, ite_some.mpr ⟨by simp [hne], rfl⟩, rfl,
        someList_eq.mpr ⟨hne, rfl⟩, h4⟩))))))⟩
    | anyNot =>
      obtain ⟨j, h3, rfl⟩ := n1 _ rfl
      exact ⟨j, h3, jstep_into.mpr (.inr (.inr (.inr (.inr (.inr (.inr ⟨_, ite_some.mpr ⟨by simp, rfl⟩, rfl, rfl⟩))))))⟩
  · intro st j h
    rw [jstep_into] at h
    simp only [anyObject, ite_some] at h
    rcases h with ⟨ob, k', ⟨-, rfl⟩, rfl, h⟩ | ⟨ob, ⟨-, rfl⟩, rfl, h⟩ | ⟨ar, ⟨-, rfl⟩, rfl, h⟩ | ⟨u, l, x, ⟨-, rfl⟩, rfl, h, h'⟩ |
      ⟨u, l, x, ⟨-, rfl⟩, rfl, h, h'⟩ | ⟨u, l, x, ⟨-, rfl⟩, rfl, h, h'⟩ | ⟨u, ⟨-, rfl⟩, rfl, h⟩
    · obtain ⟨s, h3, h4⟩ := p2 _ _ ((sorted_mem hn _).mp h)
      exact .inl ⟨s, .anyProperty h3, h4⟩
    · rcases a2 _ h with ⟨s, rfl, h3⟩ | ⟨b, rfl, h3⟩
      · exact .inl ⟨s, .anyAdditional, h3⟩
      · exact .inr ⟨fun s' h => (by cases h), b, h3⟩
    · obtain ⟨s, rfl, h8⟩ := i2 _ h
      exact .inl ⟨s, .anyItems, h8⟩
    · obtain ⟨-, rfl⟩ := someList_eq.mp h
      obtain ⟨s, h3, h4⟩ := o2 _ _ h'
      exact .inl ⟨s, .anyOneOf h3, h4⟩
    · obtain ⟨-, rfl⟩ := someList_eq.mp h
      obtain ⟨s, h3, h4⟩ := l2 _ _ h'
      exact .inl ⟨s, .anyAllOf h3, h4⟩
    · obtain ⟨-, rfl⟩ := someList_eq.mp h
      obtain ⟨s, h3, h4⟩ := y2 _ _ h'
      exact .inl ⟨s, .anyAnyOf h3, h4⟩
    · obtain ⟨s, rfl, h3⟩ := n2 _ h
      exact .inl ⟨s, .anyNot, h3⟩

theorem step_bare {d : Data} {k : AnyKeywords} {ps a i os as ys nt} {jps : List (Str × JSchema)} {ja ji : Option JSchema}
    {jos jas jys : List JSchema} {jnt : Option JSchema} (h1 : convProps ps = .ok jps) (h2 : convAdditional a = .ok ja)
    (h3 : convOpt i = .ok ji) (h4 : convList os = .ok jos) (h5 : convList as = .ok jas) (h6 : convList ys = .ok jys)
    (h7 : convOpt nt = .ok jnt) (hk : NoKeywords k jps ja ji jos jas jys jnt) (st : SchemaStep) (s' : OSchema) :
    ¬ OStep (.any d k ps a i os as ys nt) st s' := by
  obtain ⟨-, -, ⟨rfl, -, rfl, -⟩, ⟨rfl, -⟩, ⟨rfl, rfl, rfl, rfl⟩, -⟩ := hk
  intro h
  cases h with
  | anyProperty h => obtain ⟨j, -, h⟩ := (props_parts h1).2.1 _ _ h; cases h
  | anyAdditional => obtain ⟨j, -, h⟩ := (additional_parts h2).1 _ rfl; cases h
  | anyItems => obtain ⟨j, -, h⟩ := (opt_parts h3).1 _ rfl; cases h
  | anyOneOf h => obtain ⟨j, -, h⟩ := (list_parts h4).1 _ _ h; simp at h
  | anyAllOf h => obtain ⟨j, -, h⟩ := (list_parts h5).1 _ _ h; simp at h
  | anyAnyOf h => obtain ⟨j, -, h⟩ := (list_parts h6).1 _ _ h; simp at h
  | anyNot => obtain ⟨j, -, h⟩ := (opt_parts h7).1 _ rfl; cases h

theorem inferTypes_some (a b c d : Bool) : inferTypes a b c d ≠ none := by
  cases a <;> cases b <;> cases c <;> cases d <;> simp [inferTypes]

/-- A converted schema: a reference, or an object with the annotations of `s` and, inside, its converted parts. -/
theorem conv_core {s : OSchema} {j : JSchema} (hn : ((propsOf s).map Prod.fst).Nodup) (h : conv s = .ok j) :
    (∃ r, s = .ref r ∧ j = .ref r) ∨ ∃ d o n, dataOf s = some d ∧ notesOf j = some d.notes ∧ PartsOf s o ∧
      CoreOf s j { o with notes := n }.into := by
  cases s with
  | ref r => cases h; exact .inl ⟨r, rfl, rfl⟩
  | string d t =>
    cases h
    exact .inr ⟨d, convString d t, _, rfl, rfl, parts_none (fun st s' h => by cases h) rfl rfl rfl, core_plain rfl (.inr (.inr rfl))⟩
  | number d t =>
    cases h
    exact .inr ⟨d, convNumber d t, _, rfl, rfl, parts_none (fun st s' h => by cases h) rfl rfl rfl, core_plain rfl (.inr (.inr rfl))⟩
  | integer d t =>
    cases h
    exact .inr ⟨d, convInteger d t, _, rfl, rfl, parts_none (fun st s' h => by cases h) rfl rfl rfl, core_plain rfl (.inr (.inr rfl))⟩
  | boolean d t =>
    cases h
    exact .inr ⟨d, convBoolean d t, _, rfl, rfl, parts_none (fun st s' h => by cases h) rfl rfl rfl, core_plain rfl (.inr (.inr rfl))⟩
  | object d k ps a =>
    simp only [conv] at h
    obtain ⟨jps, h1, h⟩ := bind_ok_inv h
    obtain ⟨ja, h2, h⟩ := bind_ok_inv h
    cases h
    exact .inr ⟨d, convObject d k jps ja, _, rfl, rfl, parts_object hn h1 h2, core_plain rfl (.inr (.inr rfl))⟩
  | array d k x =>
    simp only [conv] at h
    obtain ⟨jx, h1, h⟩ := bind_ok_inv h
    cases h
    exact .inr ⟨d, convArray d k jx, _, rfl, rfl, parts_array h1, core_plain rfl (.inr (.inr rfl))⟩
  | oneOf d l =>
    simp only [conv] at h
    obtain ⟨js, h1, h⟩ := bind_ok_inv h
    cases h
    obtain ⟨n, hc, -⟩ := core_wrapped (s := .oneOf d l) rfl (subOne d js)
    exact .inr ⟨d, _, n, rfl, notes_wrapper _ _, parts_one h1, hc⟩
  | allOf d l =>
    simp only [conv] at h
    obtain ⟨js, h1, h⟩ := bind_ok_inv h
    cases h
    obtain ⟨n, hc, -⟩ := core_wrapped (s := .allOf d l) rfl (subAll d js)
    exact .inr ⟨d, _, n, rfl, notes_wrapper _ _, parts_all h1, hc⟩
  | anyOf d l =>
    simp only [conv] at h
    obtain ⟨js, h1, h⟩ := bind_ok_inv h
    cases h
    obtain ⟨n, hc, -⟩ := core_wrapped (s := .anyOf d l) rfl (subAny d js)
    exact .inr ⟨d, _, n, rfl, notes_wrapper _ _, parts_anyOf h1, hc⟩
  | not d s =>
    simp only [conv] at h
    obtain ⟨js, h1, h⟩ := bind_ok_inv h
    cases h
    obtain ⟨n, hc, -⟩ := core_wrapped (s := .not d s) rfl (subNot d js)
    exact .inr ⟨d, _, n, rfl, notes_wrapper _ _, parts_not h1, hc⟩
  | any d k ps a i os as ys nt =>
    simp only [conv] at h
    obtain ⟨jps, h1, h⟩ := bind_ok_inv h
    obtain ⟨ja, h2, h⟩ := bind_ok_inv h
    obtain ⟨ji, h3, h⟩ := bind_ok_inv h
    obtain ⟨jos, h4, h⟩ := bind_ok_inv h
    obtain ⟨jas, h5, h⟩ := bind_ok_inv h
    obtain ⟨jys, h6, h⟩ := bind_ok_inv h
    obtain ⟨jnt, h7, h⟩ := bind_ok_inv h
    obtain ⟨o, h8, h⟩ := bind_ok_inv h
    cases h
    refine .inr ?_
    unfold convAny at h8
    simp only at h8
    split at h8
    · rename_i hb _
      cases h8
      exact ⟨d, { notes := d.notes }, _, rfl, rfl, parts_none (step_bare h1 h2 h3 h4 h5 h6 h7 (nothing_iff.mp hb).2) rfl rfl rfl,
        core_plain rfl (.inr (.inr rfl))⟩
    · rename_i hb _
      cases h8
      exact ⟨d, { notes := d.notes, ty := some (.single .null) }, _, rfl, rfl,
        parts_none (step_bare h1 h2 h3 h4 h5 h6 h7 (nothing_iff.mp hb).2) rfl rfl rfl, core_plain rfl (.inr (.inr rfl))⟩
    · obtain ⟨low, -, h8⟩ := bind_ok_inv h8
      obtain ⟨high, -, h8⟩ := bind_ok_inv h8
      obtain ⟨ty, hty, h8⟩ := bind_ok_inv h8
      have hp := parts_any (d := d) (k := k) hn h1 h2 h3 h4 h5 h6 h7 low high
      split at h8
      · cases h8
        obtain ⟨n, hc, -⟩ := core_wrapped (s := .any d k ps a i os as ys nt) rfl (anyObject d k jps ja ji jos jas jys jnt low high)
        exact ⟨d, _, n, rfl, notes_wrapper _ _, hp, hc⟩
      · cases h8
        refine ⟨d, { anyObject d k jps ja ji jos jas jys jnt low high with ty }, _, rfl, rfl, ?_, core_plain rfl ?_⟩
        · refine ⟨fun st s' h => ?_, fun st j' h => ?_⟩
          · obtain ⟨j', h9, h10⟩ := hp.1 st s' h
            exact ⟨j', h9, by rw [jstep_into] at h10 ⊢; exact h10⟩
          · exact hp.2 st j' (by rw [jstep_into] at h ⊢; exact h)
        · unfold anyType at hty
          cases hk : k.typ with
          | some t =>
            rw [hk] at hty
            obtain ⟨t', -, hty⟩ := bind_ok_inv hty
            cases hty
            refine .inr (.inl ?_)
            dsimp only
            unfold instanceType
            split <;> simp
          | none =>
            rw [hk] at hty
            dsimp only at hty
            cases hnd : d.nullable with
            | false => exact .inl rfl
            | true =>
              rw [hnd, if_pos rfl] at hty
              cases hty
              exact .inr (.inl (inferTypes_some _ _ _ _))

theorem isDefault_metadata {m : Metadata} (h : m.isDefault = true) : m = ⟨none, none, none, false, false, false, []⟩ := by
  obtain ⟨a, b, c, d, e, f, g⟩ := m
  simp_all [Metadata.isDefault]

theorem notes_same (d : Data) : SameNotes d d.notes := by
  have key : d.notes.metadata = none ∧ d.title = none ∧ d.description = none ∧ d.default = none ∧ d.deprecated = false ∧
      d.readOnly = false ∧ d.writeOnly = false ∧ d.example'.toList = [] ∨
      d.notes.metadata = some ⟨d.title, d.description, d.default, d.deprecated, d.readOnly, d.writeOnly, d.example'.toList⟩ := by
    unfold Data.notes reduce
    dsimp only
    split
    · rename_i h
      have := isDefault_metadata h
      simp only [Metadata.mk.injEq] at this
      exact .inl ⟨rfl, this⟩
    · exact .inr rfl
  have ext : (d.extensions.map Prod.fst).Nodup → ∀ e, e ∈ d.notes.extensions ↔ e ∈ d.extensions := fun hn e => sorted_mem hn e
  rcases key with ⟨h, h1, h2, h3, h4, h5, h6, h7⟩ | h
  · constructor <;> first | exact ext | (rw [h]; simp_all)
  · constructor <;> first | exact ext | (rw [h]; simp)

theorem ostep_unique {s : OSchema} (hn : ((propsOf s).map Prod.fst).Nodup) {st : SchemaStep} {a b : OSchema} (h : OStep s st a)
    (h' : OStep s st b) : a = b := by
  have key : ∀ {ps : List (Str × OSchema)} {n : Str} {a b : OSchema}, (ps.map Prod.fst).Nodup → (n, a) ∈ ps → (n, b) ∈ ps → a = b := by
    intro ps n a b hn ha hb
    induction ps with
    | nil => cases ha
    | cons e ps ih =>
      simp only [List.map_cons, List.nodup_cons] at hn
      rcases List.mem_cons.mp ha with ha' | ha' <;> rcases List.mem_cons.mp hb with hb' | hb'
      · rw [← ha'] at hb'; cases hb'; rfl
      · exact absurd (List.mem_map_of_mem (f := Prod.fst) hb') (by rw [← ha'] at hn; exact hn.1)
      · exact absurd (List.mem_map_of_mem (f := Prod.fst) ha') (by rw [← hb'] at hn; exact hn.1)
      · exact ih hn.2 ha' hb'
  cases h <;> cases h' <;> first | rfl | exact key hn ‹_› ‹_› | simp_all

theorem core_unique {s : OSchema} {j i i' : JSchema} (h : CoreOf s j i) (h' : CoreOf s j i') : i = i' := by
  rcases h with h | ⟨rfl, h⟩ <;> rcases h' with h' | ⟨rfl, h'⟩
  · obtain ⟨_, _, _, _, _, _, _, _, _, _, -, -, -, e⟩ := h
    obtain ⟨_, _, _, _, _, _, _, _, _, _, -, -, -, e'⟩ := h'
    rw [e] at e'
    injection e' with _ _ _ _ _ _ _ _ e'
    simp at e'
    exact e'
  · exact absurd h (h' _)
  · exact absurd h' (h _)
  · rfl

theorem annotated_of_conv {s : OSchema} {j : JSchema} (hn : ((propsOf s).map Prod.fst).Nodup) (h : conv s = .ok j) : Annotated s j := by
  rcases conv_core hn h with ⟨r, rfl, rfl⟩ | ⟨d, o, n, h1, h2, -, -⟩
  · rfl
  · cases j with
    | bool b => cases h2
    | ref r => cases h2
    | obj n' _ _ _ _ _ _ _ _ =>
      cases h2
      cases s with
      | ref r => cases h1
      | _ => intro d' hd; cases hd; cases h1; exact notes_same _

/-- C95: at the same place are a schema and what it is converted to, and the latter has the annotations of the former. -/
theorem C95_place {s : OSchema} {j : JSchema} (hn : DistinctNames s) (h : conv s = .ok j) {s' : OSchema} {j' : JSchema}
    (hp : SamePlace s j s' j') : PartBy OStep s s' ∧ conv s' = .ok j' ∧ Annotated s' j' := by
  induction hp with
  | here => exact ⟨.here, h, annotated_of_conv (hn s .here) h⟩
  | @step s1 j1 i st s2 j2 _ hc ho hj ih =>
    obtain ⟨i1, i2, -⟩ := ih
    rcases conv_core (hn s1 i1) i2 with ⟨r, rfl, rfl⟩ | ⟨d, o, n, -, -, hparts, hc'⟩
    · cases ho
    · rw [core_unique hc hc', jstep_notes] at hj
      rcases hparts.2 _ _ hj with ⟨s3, h3, h4⟩ | ⟨h3, -⟩
      · cases ostep_unique (hn s1 i1) ho h3
        exact ⟨i1.step ho, h4, annotated_of_conv (hn s2 (i1.step ho)) h4⟩
      · exact absurd ho (h3 _)

/-- C95: every part of a schema keeps its annotations. -/
theorem C95_kept {s : OSchema} {j : JSchema} (hn : DistinctNames s) (h : conv s = .ok j) {s' : OSchema} (hp : PartBy OStep s s') :
    ∃ j', SamePlace s j s' j' ∧ Annotated s' j' := by
  suffices ∃ j', SamePlace s j s' j' by
    obtain ⟨j', hj⟩ := this
    exact ⟨j', hj, (C95_place hn h hj).2.2⟩
  induction hp with
  | here => exact ⟨j, .here⟩
  | @step s1 st s2 h1 ho ih =>
    obtain ⟨j1, hj⟩ := ih
    obtain ⟨-, h2, -⟩ := C95_place hn h hj
    rcases conv_core (hn s1 h1) h2 with ⟨r, rfl, rfl⟩ | ⟨d, o, n, -, -, hparts, hc⟩
    · cases ho
    · obtain ⟨j2, -, h3⟩ := hparts.1 _ _ ho
      exact ⟨j2, hj.step hc ho (jstep_notes.mpr h3)⟩

/-- C95: no other part of the converted schema has annotations. -/
theorem C95_only {s : OSchema} {j : JSchema} (hn : DistinctNames s) (h : conv s = .ok j) {j' : JSchema} (hp : PartBy JStep j j') :
    (∃ s', SamePlace s j s' j') ∨ Unannotated j' := by
  have key : (∃ s', SamePlace s j s' j') ∨ (Unannotated j' ∧ ((∃ s1 j1, SamePlace s j s1 j1 ∧ CoreOf s1 j1 j') ∨ ∀ st x, ¬ JStep j' st x)) := by
    induction hp with
    | here => exact .inl ⟨s, .here⟩
    | @step j1 st j2 _ hj ih =>
      have inside : ∀ {s1 j0 : _}, SamePlace s j s1 j0 → CoreOf s1 j0 j1 →
          (∃ s', SamePlace s j s' j2) ∨ (Unannotated j2 ∧ ∀ st x, ¬ JStep j2 st x) := by
        intro s1 j0 hs hc
        obtain ⟨hpart, h2, -⟩ := C95_place hn h hs
        rcases conv_core (hn s1 hpart) h2 with ⟨r, rfl, rfl⟩ | ⟨d, o, n, -, -, hparts, hc'⟩
        · rcases hc with ⟨_, _, _, _, _, _, _, _, _, _, e, -⟩ | ⟨rfl, -⟩
          · cases e
          · cases hj
        · have hj' := hj
          rw [core_unique hc hc', jstep_notes] at hj'
          rcases hparts.2 _ _ hj' with ⟨s3, h3, h4⟩ | ⟨-, b, rfl⟩
          · exact .inl ⟨s3, hs.step hc h3 hj⟩
          · exact .inr ⟨trivial, fun st x h => by cases h⟩
      rcases ih with ⟨s1, hs⟩ | ⟨-, ⟨s1, j0, hs, hc⟩ | hno⟩
      · by_cases hw : ∃ i, Wrapped s1 j1 i
        · obtain ⟨i, hw⟩ := hw
          have hw' := hw
          obtain ⟨d, n, ty, f, e, nu, str, ar, ob, su, -, -, rfl, rfl⟩ := hw'
          cases hj with
          | oneOf h1 h2 =>
            cases h1
            rename_i k
            match k, h2 with
            | 0, h2 => cases h2; exact .inr ⟨rfl, .inr fun st x h => by cases h⟩
            | 1, h2 => cases h2; exact .inr ⟨rfl, .inl ⟨s1, _, hs, .inl hw⟩⟩
            | k + 2, h2 => simp at h2
          | allOf h1 _ => cases h1
          | anyOf h1 _ => cases h1
          | not h1 => cases h1
        · rcases inside hs (.inr ⟨rfl, fun i hi => hw ⟨i, hi⟩⟩) with h | ⟨h1, h2⟩
          · exact .inl h
          · exact .inr ⟨h1, .inr h2⟩
      · rcases inside hs hc with h | ⟨h1, h2⟩
        · exact .inl h
        · exact .inr ⟨h1, .inr h2⟩
      · exact absurd hj (hno _ _)
  exact key.imp_right And.left

/-! ## Examples -/

namespace NotesExample

/-- A pet, or null; a pet has a name. -/
def named : OSchema :=
  .object { nullable := false, description := some "A pet".toList } ⟨["name".toList], none, none⟩
    [("name".toList, .string { nullable := true, default := some (.str "Rex".toList) } plainString), ("other".toList, .ref "#/x".toList)]
    (some (.any true))

def maybe : OSchema :=
  .allOf { nullable := true, title := some "Maybe".toList, extensions := [("x-rust-type".toList, .str "T".toList)] } [named]

theorem maybe_distinct : DistinctNames maybe := by
  intro s' h
  have key : s' = maybe ∨ s' = named ∨ ((∀ st x, ¬ OStep s' st x) ∧ propsOf s' = []) := by
    induction h with
    | here => exact .inl rfl
    | step _ hs ih =>
      rcases ih with rfl | rfl | ⟨ih, -⟩
      · cases hs with
        | @allOf _ _ i _ h => match i, h with
          | 0, h => cases h; exact .inr (.inl rfl)
      · cases hs with
        | property h =>
          simp only [List.mem_cons, List.not_mem_nil, or_false, Prod.mk.injEq] at h
          rcases h with ⟨-, rfl⟩ | ⟨-, rfl⟩ <;> exact .inr (.inr ⟨fun st x h => (by cases h), rfl⟩)
      · exact absurd hs (ih _ _)
  rcases key with rfl | rfl | ⟨-, h⟩
  · simp [maybe, propsOf]
  · simp only [named, propsOf]; decide
  · rw [h]; simp

/-- The title and the extension are outside, the object is the second alternative. -/
example : ∃ j i null, conv maybe = .ok j ∧ notesOf j = some ⟨some ⟨some "Maybe".toList, none, none, false, false, false, []⟩,
    [("x-rust-type".toList, .str "T".toList)]⟩ ∧ JStep j (.oneOf 0) null ∧ Unannotated null ∧ JStep j (.oneOf 1) i ∧ Unannotated i :=
  ⟨_, _, _, rfl, rfl, .oneOf rfl rfl, rfl, .oneOf rfl rfl, rfl⟩

/-- The name and its default, three levels down. -/
example : PartBy OStep maybe (.string { nullable := true, default := some (.str "Rex".toList) } plainString) :=
  (PartBy.here.step (.allOf (i := 0) rfl)).step (.property (n := "name".toList) List.mem_cons_self)

example {j : JSchema} (h : conv maybe = .ok j) {s' : OSchema} (hp : PartBy OStep maybe s') : ∃ j', SamePlace maybe j s' j' ∧ Annotated s' j' :=
  C95_kept maybe_distinct h hp

end NotesExample

end Progenitor.Props

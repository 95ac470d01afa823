import Verif.Spec.SchemaPlain
import Verif.Props.SchemaNotes

/-!
# C95: annotations do not influence the rest
-/

namespace Progenitor.Props

open Progenitor Progenitor.Schema Progenitor.Spec Progenitor.Params

/-- A schema object without annotations, its parts included. -/
def objPlain (o : SchemaObject) : SchemaObject :=
  { o with notes := {}, array := jPlainArr o.array, object := jPlainObj o.object, subs := jPlainSub o.subs }

theorem into_plain (o : SchemaObject) : jPlain o.into = (objPlain o).into := by
  cases o; simp [SchemaObject.into, jPlain, objPlain]

theorem notes_plain (b : Bool) : ({ nullable := b } : Data).notes = {} := rfl

theorem plainList_map (l : List JSchema) : jPlainList l = l.map jPlain := by
  induction l <;> simp_all [jPlainList]

theorem plainProps_map (l : List (Str × JSchema)) : jPlainProps l = l.map fun e => (e.1, jPlain e.2) := by
  induction l with
  | nil => rfl
  | cons e l ih => cases e; simp_all [jPlainProps]

theorem plainOpt_map (x : Option JSchema) : jPlainOpt x = x.map jPlain := by cases x <;> simp [jPlainOpt]

theorem plainListOpt_map (x : Option (List JSchema)) : jPlainListOpt x = x.map (List.map jPlain) := by
  cases x <;> simp [jPlainListOpt, plainList_map]

theorem plainSub_map (x : Option (SubV JSchema)) : jPlainSub x = x.map fun u =>
    ⟨u.allOf.map (List.map jPlain), u.anyOf.map (List.map jPlain), u.oneOf.map (List.map jPlain), u.not.map jPlain⟩ := by
  rcases x with _ | ⟨⟩ <;> simp [jPlainSub, plainListOpt_map, plainOpt_map]

theorem plainObj_map (x : Option (ObjV JSchema)) : jPlainObj x = x.map fun o =>
    ⟨o.maxProperties, o.minProperties, o.required, o.properties.map fun e => (e.1, jPlain e.2), o.additional.map jPlain⟩ := by
  rcases x with _ | ⟨⟩ <;> simp [jPlainObj, plainProps_map, plainOpt_map]

theorem plainArr_map (x : Option (ArrV JSchema)) : jPlainArr x = x.map fun a =>
    ⟨a.items.map jPlain, a.maxItems, a.minItems, a.uniqueItems⟩ := by
  rcases x with _ | ⟨⟩ <;> simp [jPlainArr, plainOpt_map]

theorem insert_mapped {V W : Type} (f : V → W) (k : Str) (v : V) (m : BTree.Map V) :
    BTree.insert k (f v) (m.map fun e => (e.1, f e.2)) = (BTree.insert k v m).map fun e => (e.1, f e.2) := by
  induction m with
  | nil => rfl
  | cons e m ih =>
    obtain ⟨a, b⟩ := e
    simp only [List.map_cons, BTree.insert]
    split <;> simp [ih]

theorem insertAll_mapped {V W : Type} (f : V → W) (l : List (Str × V)) : ∀ m : BTree.Map V,
    BTree.insertAll (m.map fun e => (e.1, f e.2)) (l.map fun e => (e.1, f e.2)) = (BTree.insertAll m l).map fun e => (e.1, f e.2) := by
  induction l with
  | nil => intro m; rfl
  | cons e l ih =>
    intro m
    have := ih (BTree.insert e.1 e.2 m)
    rw [← insert_mapped] at this
    exact this

theorem insertAll_plain (l : List (Str × JSchema)) :
    BTree.insertAll [] (l.map fun e => (e.1, jPlain e.2)) = (BTree.insertAll [] l).map fun e => (e.1, jPlain e.2) :=
  insertAll_mapped jPlain l []

theorem reduce_mapped {S T : Type} (f : S → T) (p : S → Bool) (q : T → Bool) (h : ∀ x, q (f x) = p x) (x : S) :
    reduce q (f x) = (reduce p x).map f := by
  unfold reduce
  rw [h]
  split <;> rfl

theorem convObject_plain (d : Data) (k : ObjectLimits) (ps : List (Str × JSchema)) (a : Option JSchema) :
    convObject { nullable := d.nullable } k (jPlainProps ps) (jPlainOpt a) = objPlain (convObject d k ps a) := by
  simp only [convObject, objPlain, notes_plain, plainObj_map, plainProps_map, plainOpt_map, insertAll_plain]
  congr 1
  rw [← reduce_mapped _ ObjV.isDefault]
  intro x
  simp [ObjV.isDefault]

theorem convArray_plain (d : Data) (k : ArrayLimits) (i : Option JSchema) :
    convArray { nullable := d.nullable } k (jPlainOpt i) = objPlain (convArray d k i) := by
  simp only [convArray, objPlain, notes_plain, plainArr_map, plainOpt_map]
  congr 1
  rw [← reduce_mapped _ ArrV.isDefault]
  intro x
  simp [ArrV.isDefault]

theorem wrapper_plain (o : SchemaObject) (b : Bool) : nullableWrapper (objPlain o) b = objPlain (nullableWrapper o b) := by
  cases b
  · rfl
  · cases o
    simp [nullableWrapper, objPlain, SchemaObject.into, jPlainSub, jPlainListOpt, jPlainList, jPlain, jPlainArr, jPlainObj, jPlainOpt]

theorem anyObject_plain (d : Data) (k : AnyKeywords) (ps : List (Str × JSchema)) (a i : Option JSchema) (os as ys : List JSchema)
    (nt : Option JSchema) (low high : Option Rat × Option Rat) :
    anyObject { nullable := d.nullable } k (jPlainProps ps) (jPlainOpt a) (jPlainOpt i) (jPlainList os) (jPlainList as) (jPlainList ys)
      (jPlainOpt nt) low high = objPlain (anyObject d k ps a i os as ys nt low high) := by
  have hl : ∀ l : List JSchema, someList (l.map jPlain) = (someList l).map (List.map jPlain) := by
    intro l; unfold someList; cases l <;> rfl
  simp only [anyObject, objPlain, notes_plain, plainArr_map, plainObj_map, plainSub_map, plainOpt_map, plainProps_map, plainList_map,
    insertAll_plain, hl, List.isEmpty_map, Option.isSome_map]
  congr 1 <;> split <;> rfl

theorem convAny_plain (d : Data) (k : AnyKeywords) (ps : List (Str × JSchema)) (a i : Option JSchema) (os as ys : List JSchema)
    (nt : Option JSchema) :
    convAny { nullable := d.nullable } k (jPlainProps ps) (jPlainOpt a) (jPlainOpt i) (jPlainList os) (jPlainList as) (jPlainList ys)
      (jPlainOpt nt) = (convAny d k ps a i os as ys nt).bind fun o => .ok (objPlain o) := by
  unfold convAny
  dsimp only
  have e : (k.bare && (jPlainProps ps).isEmpty && (jPlainOpt a).isNone && (jPlainOpt i).isNone && (jPlainList os).isEmpty &&
      (jPlainList as).isEmpty && (jPlainList ys).isEmpty && (jPlainOpt nt).isNone) =
      (k.bare && ps.isEmpty && a.isNone && i.isNone && os.isEmpty && as.isEmpty && ys.isEmpty && nt.isNone) := by
    simp [plainOpt_map, plainProps_map, plainList_map]
  rw [e]
  split
  · rfl
  · rfl
  · show Res.bind _ _ = Res.bind (Res.bind _ _) _
    cases limit "minimum" k.minimum k.exclusiveMinimum with
    | err => rfl
    | panic => rfl
    | ok low =>
      show Res.bind _ _ = Res.bind (Res.bind _ _) _
      cases limit "maximum" k.maximum k.exclusiveMaximum with
      | err => rfl
      | panic => rfl
      | ok high =>
        change Res.bind (anyType k.typ d.nullable _) _ = Res.bind (Res.bind (anyType k.typ d.nullable _) _) _
        simp only [anyObject_plain]
        generalize anyObject d k ps a i os as ys nt low high = o
        have h1 : anyType k.typ d.nullable (objPlain o) = anyType k.typ d.nullable o := by
          unfold anyType
          simp [objPlain, plainObj_map, plainArr_map]
        rw [h1]
        cases anyType k.typ d.nullable o with
        | err => rfl
        | panic => rfl
        | ok ty =>
          show (if _ then _ else _) = Res.bind (if _ then _ else _) _
          have h2 : (objPlain o).subs.isSome = o.subs.isSome := by simp [objPlain, plainSub_map]
          rw [h2]
          split
          · show Res.ok _ = Res.ok _
            rw [wrapper_plain]
          · rfl

mutual

theorem conv_plain : ∀ s : OSchema, conv (oPlain s) = (conv s).bind fun j => .ok (jPlain j)
  | .ref r => rfl
  | .string d t => rfl
  | .number d t => rfl
  | .integer d t => rfl
  | .boolean d e => rfl
  | .object d k ps a => by
    simp only [oPlain, conv]
    show Res.bind _ _ = Res.bind (Res.bind _ _) _
    rw [convProps_plain ps]
    cases convProps ps with
    | err => rfl
    | panic => rfl
    | ok ps' =>
      show Res.bind _ _ = Res.bind (Res.bind _ _) _
      rw [convAdditional_plain a]
      cases convAdditional a with
      | err => rfl
      | panic => rfl
      | ok a' => exact congrArg Res.ok (by rw [into_plain, convObject_plain])
  | .array d k i => by
    simp only [oPlain, conv]
    show Res.bind _ _ = Res.bind (Res.bind _ _) _
    rw [convOpt_plain i]
    cases convOpt i with
    | err => rfl
    | panic => rfl
    | ok i' => exact congrArg Res.ok (by rw [into_plain, convArray_plain])
  | .oneOf d l => by
    simp only [oPlain, conv]
    show Res.bind _ _ = Res.bind (Res.bind _ _) _
    rw [convList_plain l]
    cases convList l with
    | err => rfl
    | panic => rfl
    | ok l' => exact congrArg Res.ok (by rw [into_plain, ← wrapper_plain]; rfl)
  | .allOf d l => by
    simp only [oPlain, conv]
    show Res.bind _ _ = Res.bind (Res.bind _ _) _
    rw [convList_plain l]
    cases convList l with
    | err => rfl
    | panic => rfl
    | ok l' => exact congrArg Res.ok (by rw [into_plain, ← wrapper_plain]; rfl)
  | .anyOf d l => by
    simp only [oPlain, conv]
    show Res.bind _ _ = Res.bind (Res.bind _ _) _
    rw [convList_plain l]
    cases convList l with
    | err => rfl
    | panic => rfl
    | ok l' => exact congrArg Res.ok (by rw [into_plain, ← wrapper_plain]; rfl)
  | .not d s => by
    simp only [oPlain, conv]
    show Res.bind _ _ = Res.bind (Res.bind _ _) _
    rw [conv_plain s]
    cases conv s with
    | err => rfl
    | panic => rfl
    | ok s' => exact congrArg Res.ok (by rw [into_plain, ← wrapper_plain]; rfl)
  | .any d k ps a i os as ys nt => by
    simp only [oPlain, conv]
    show Res.bind _ _ = Res.bind (Res.bind _ _) _
    rw [convProps_plain ps]
    cases convProps ps with
    | err => rfl
    | panic => rfl
    | ok ps' =>
    show Res.bind _ _ = Res.bind (Res.bind _ _) _
    rw [convAdditional_plain a]
    cases convAdditional a with
    | err => rfl
    | panic => rfl
    | ok a' =>
    show Res.bind _ _ = Res.bind (Res.bind _ _) _
    rw [convOpt_plain i]
    cases convOpt i with
    | err => rfl
    | panic => rfl
    | ok i' =>
    show Res.bind _ _ = Res.bind (Res.bind _ _) _
    rw [convList_plain os]
    cases convList os with
    | err => rfl
    | panic => rfl
    | ok os' =>
    show Res.bind _ _ = Res.bind (Res.bind _ _) _
    rw [convList_plain as]
    cases convList as with
    | err => rfl
    | panic => rfl
    | ok as' =>
    show Res.bind _ _ = Res.bind (Res.bind _ _) _
    rw [convList_plain ys]
    cases convList ys with
    | err => rfl
    | panic => rfl
    | ok ys' =>
    show Res.bind _ _ = Res.bind (Res.bind _ _) _
    rw [convOpt_plain nt]
    cases convOpt nt with
    | err => rfl
    | panic => rfl
    | ok nt' =>
    change Res.bind (convAny { nullable := d.nullable } k (jPlainProps ps') (jPlainOpt a') (jPlainOpt i') (jPlainList os')
      (jPlainList as') (jPlainList ys') (jPlainOpt nt')) _ = Res.bind (Res.bind (convAny d k ps' a' i' os' as' ys' nt') _) _
    rw [convAny_plain]
    cases convAny d k ps' a' i' os' as' ys' nt' with
    | err => rfl
    | panic => rfl
    | ok o => exact congrArg Res.ok (into_plain o).symm

theorem convList_plain : ∀ l : List OSchema, convList (oPlainList l) = (convList l).bind fun l => .ok (jPlainList l)
  | [] => rfl
  | s :: l => by
    simp only [oPlainList, convList]
    show Res.bind _ _ = Res.bind (Res.bind _ _) _
    rw [conv_plain s]
    cases conv s with
    | err => rfl
    | panic => rfl
    | ok s' =>
      show Res.bind _ _ = Res.bind (Res.bind _ _) _
      rw [convList_plain l]
      cases convList l <;> rfl

theorem convProps_plain : ∀ l : List (Str × OSchema), convProps (oPlainProps l) = (convProps l).bind fun l => .ok (jPlainProps l)
  | [] => rfl
  | (k, s) :: l => by
    simp only [oPlainProps, convProps]
    show Res.bind _ _ = Res.bind (Res.bind _ _) _
    rw [conv_plain s]
    cases conv s with
    | err => rfl
    | panic => rfl
    | ok s' =>
      show Res.bind _ _ = Res.bind (Res.bind _ _) _
      rw [convProps_plain l]
      cases convProps l <;> rfl

theorem convOpt_plain : ∀ x : Option OSchema, convOpt (oPlainOpt x) = (convOpt x).bind fun x => .ok (jPlainOpt x)
  | none => rfl
  | some s => by
    simp only [oPlainOpt, convOpt]
    show Res.bind _ _ = Res.bind (Res.bind _ _) _
    rw [conv_plain s]
    cases conv s <;> rfl

theorem convAdditional_plain : ∀ x : Option (Additional OSchema),
    convAdditional (oPlainAdditional x) = (convAdditional x).bind fun x => .ok (jPlainOpt x)
  | none => rfl
  | some (.any b) => rfl
  | some (.schema s) => by
    simp only [oPlainAdditional, convAdditional]
    show Res.bind _ _ = Res.bind (Res.bind _ _) _
    rw [conv_plain s]
    cases conv s <;> rfl

end

/-- C95: of two schemas that differ in annotations only, both or none are supported, and what they are converted to differs in
annotations only. -/
theorem C95_rest {s s' : OSchema} (h : oPlain s = oPlain s') :
    (∀ j, conv s = .ok j → ∃ j', conv s' = .ok j' ∧ jPlain j' = jPlain j) ∧ (∀ m, conv s = .panic m → conv s' = .panic m) ∧
    ∀ m, conv s = .err m → conv s' = .err m := by
  have e := (conv_plain s).symm.trans ((congrArg conv h).trans (conv_plain s'))
  refine ⟨fun j hj => ?_, fun m hm => ?_, fun m hm => ?_⟩
  · rw [hj] at e
    cases h' : conv s' with
    | ok j' => rw [h'] at e; exact ⟨j', rfl, (Res.ok.inj e).symm⟩
    | err => rw [h'] at e; cases e
    | panic => rw [h'] at e; cases e
  · rw [hm] at e
    cases h' : conv s' with
    | ok j' => rw [h'] at e; cases e
    | err => rw [h'] at e; cases e
    | panic => rw [h'] at e; cases e; rfl
  · rw [hm] at e
    cases h' : conv s' with
    | ok j' => rw [h'] at e; cases e
    | err => rw [h'] at e; cases e; rfl
    | panic => rw [h'] at e; cases e

mutual

theorem jvalid_plain (ι : Interp) : ∀ j : JSchema, JValid ι (jPlain j) = JValid ι j
  | .bool b => rfl
  | .ref r => rfl
  | .obj _ ty format enum number string array object subs => by
    simp only [jPlain, JValid, jarr_plain ι array, jobj_plain ι object, jsub_plain ι subs]

theorem jarr_plain (ι : Interp) : ∀ x : Option (ArrV JSchema), JArr ι (jPlainArr x) = JArr ι x
  | none => rfl
  | some ⟨items, max, min, unique⟩ => by simp only [jPlainArr, JArr, jopt_plain ι items]

theorem jobj_plain (ι : Interp) : ∀ x : Option (ObjV JSchema), JObj ι (jPlainObj x) = JObj ι x
  | none => rfl
  | some ⟨max, min, required, ps, a⟩ => by simp only [jPlainObj, JObj, jprops_plain ι ps, jopt_plain ι a]

theorem jsub_plain (ι : Interp) : ∀ x : Option (SubV JSchema), JSub ι (jPlainSub x) = JSub ι x
  | none => rfl
  | some ⟨as, ys, os, nt⟩ => by
    simp only [jPlainSub, JSub, jlistOpt_plain ι as, jlistOpt_plain ι ys, jlistOpt_plain ι os, jopt_plain ι nt]

theorem jlistOpt_plain (ι : Interp) : ∀ x : Option (List JSchema), JListOpt ι (jPlainListOpt x) = JListOpt ι x
  | none => rfl
  | some l => by simp only [jPlainListOpt, JListOpt, jlist_plain ι l]

theorem jlist_plain (ι : Interp) : ∀ l : List JSchema, JList ι (jPlainList l) = JList ι l
  | [] => rfl
  | s :: l => by simp only [jPlainList, JList, jvalid_plain ι s, jlist_plain ι l]

theorem jprops_plain (ι : Interp) : ∀ l : List (Str × JSchema), JProps ι (jPlainProps l) = JProps ι l
  | [] => rfl
  | (k, s) :: l => by simp only [jPlainProps, JProps, jvalid_plain ι s, jprops_plain ι l]

theorem jopt_plain (ι : Interp) : ∀ x : Option JSchema, JOpt ι (jPlainOpt x) = JOpt ι x
  | none => rfl
  | some s => by simp only [jPlainOpt, JOpt, jvalid_plain ι s]

end

/-- C95: so they accept the same values. -/
theorem C95_values {s s' : OSchema} (h : oPlain s = oPlain s') {j j' : JSchema} (hj : conv s = .ok j) (hj' : conv s' = .ok j')
    (ι : Interp) (v : Json) : JValid ι j v ↔ JValid ι j' v := by
  obtain ⟨j2, h2, e⟩ := (C95_rest h).1 j hj
  rw [hj'] at h2
  cases h2
  rw [← jvalid_plain ι j, ← jvalid_plain ι j', e]

/-- The schema of the other examples, and the same without title, extension, description and default. -/
example : ∃ s', oPlain NotesExample.maybe = oPlain s' ∧ (∃ j, conv NotesExample.maybe = .ok j) ∧ NotesExample.maybe ≠ s' := by
  refine ⟨oPlain NotesExample.maybe, rfl, ⟨_, rfl⟩, fun h => ?_⟩
  have := congrArg (fun s => (dataOf s).bind fun d => d.title) h
  cases this

end Progenitor.Props

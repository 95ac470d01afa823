import Verif.Spec.Settings
import Verif.Props.Misc

/-!
# C76: settings
-/

namespace Progenitor.Props

open Progenitor Progenitor.Spec Progenitor.Doc Progenitor.Macro Progenitor.Settings

variable {S V Tok X : Type}

/-! ## Sequences of calls -/

theorem lastOf_nil {C : Type} (f : C → Option X) : lastOf f [] = none := rfl

theorem lastOf_append {C : Type} (f : C → Option X) (a b : List C) : lastOf f (a ++ b) = (lastOf f b).or (lastOf f a) := by
  unfold lastOf
  rw [List.filterMap_append, List.getLast?_append]

theorem lastOf_cons {C : Type} (f : C → Option X) (c : C) (l : List C) : lastOf f (c :: l) = (lastOf f l).or (f c) := by
  have := lastOf_append f [c] l
  rw [List.singleton_append] at this
  rw [this]
  congr 1
  unfold lastOf
  cases h : f c <;> simp [h]

theorem lastOf_map {C D : Type} (f : C → Option X) (h : D → C) (l : List D) : lastOf f (l.map h) = lastOf (fun d => f (h d)) l := by
  unfold lastOf
  rw [List.filterMap_map]
  rfl

theorem lastOf_none {C : Type} (l : List C) : lastOf (fun _ => (none : Option X)) l = none := by
  induction l with
  | nil => rfl
  | cons c l ih => rw [lastOf_cons, ih]; rfl

theorem filterMap_nothing {C : Type} (l : List C) : l.filterMap (fun _ => (none : Option X)) = [] := by
  induction l with
  | nil => rfl
  | cons c l ih => rw [List.filterMap_cons, ih]

theorem lastOf_toList (x : Option X) : lastOf some x.toList = x := by cases x <;> rfl

theorem fold_or {G C : Type} {call : G → C → G} {proj : G → Option X} {f : C → Option X}
    (h : ∀ g c, proj (call g c) = (f c).or (proj g)) (l : List C) (g : G) : proj (l.foldl call g) = (lastOf f l).or (proj g) := by
  induction l generalizing g with
  | nil => rfl
  | cons c l ih => rw [List.foldl_cons, ih, h, lastOf_cons, Option.or_assoc]

theorem fold_getD {G C : Type} {call : G → C → G} {proj : G → X} {f : C → Option X}
    (h : ∀ g c, proj (call g c) = (f c).getD (proj g)) (l : List C) (g : G) : proj (l.foldl call g) = (lastOf f l).getD (proj g) := by
  induction l generalizing g with
  | nil => rfl
  | cons c l ih =>
    rw [List.foldl_cons, ih, h, lastOf_cons]
    cases lastOf f l <;> rfl

theorem fold_append {G C : Type} {call : G → C → G} {proj : G → List X} {f : C → Option X}
    (h : ∀ g c, proj (call g c) = proj g ++ (f c).toList) (l : List C) (g : G) :
    proj (l.foldl call g) = proj g ++ l.filterMap f := by
  induction l generalizing g with
  | nil => simp
  | cons c l ih =>
    rw [List.foldl_cons, ih, h, List.append_assoc]
    congr 1
    cases hf : f c <;> simp [hf]

theorem insert_or (m : HashMap X) (n k : Str) (x : X) :
    m.insert n x k = (if n = k then some x else none).or (m k) := by
  unfold HashMap.insert
  by_cases h : n = k
  · subst h; simp
  · have : ¬ k = n := fun e => h e.symm
    simp [h, this]

theorem ofList_entry (l : List (Str × X)) (k : Str) : HashMap.ofList l k = entry l k := by
  unfold HashMap.ofList entry
  rw [fold_or (proj := fun m : HashMap X => m k) (f := fun e : Str × X => if e.1 = k then some e.2 else none)
    (fun m e => insert_or m e.1 k e.2)]
  simp

/-! ## Iteration -/

theorem iter_entry {m : HashMap X} {l : List (Str × X)} (h : Iter m l) (k : Str) : entry l k = m k := by
  obtain ⟨h1, h2⟩ := h
  have key : ∀ (l : List (Str × X)), (l.map Prod.fst).Nodup → ∀ x, entry l k = some x ↔ (k, x) ∈ l := by
    intro l
    induction l with
    | nil => intro _ x; simp [entry, lastOf_nil]
    | cons e l ih =>
      intro hn x
      rw [List.map_cons, List.nodup_cons] at hn
      unfold entry at ih ⊢
      rw [lastOf_cons]
      by_cases he : e.1 = k
      · subst he
        have : lastOf (fun e' : Str × X => if e'.1 = e.1 then some e'.2 else none) l = none := by
          cases h : lastOf (fun e' : Str × X => if e'.1 = e.1 then some e'.2 else none) l with
          | none => rfl
          | some y => exact absurd (List.mem_map_of_mem (f := Prod.fst) ((ih hn.2 y).mp h)) hn.1
        rw [this]
        constructor
        · intro h; simp at h; subst h; exact List.mem_cons_self
        · intro h
          rcases List.mem_cons.mp h with h | h
          · rw [← h]; simp
          · exact absurd (List.mem_map_of_mem (f := Prod.fst) h) hn.1
      · simp only [he, if_false, Option.or_none]
        rw [ih hn.2 x, List.mem_cons]
        constructor
        · exact .inr
        · rintro (h | h)
          · exact absurd (by rw [← h]) he
          · exact h
  cases hm : m k with
  | some x => exact (key l h1 x).mpr ((h2 k x).mpr hm)
  | none =>
    cases he : entry l k with
    | none => rfl
    | some x => rw [(h2 k x).mp ((key l h1 x).mp he)] at hm; cases hm

/-- Some order exists. -/
theorem iter_exists (l : List (Str × X)) : ∃ o, Iter (HashMap.ofList l) o := by
  have : ∀ (ks : List Str), ks.Nodup → ∃ o : List (Str × X), (o.map Prod.fst).Nodup ∧
      (∀ k ∈ o.map Prod.fst, k ∈ ks) ∧ ∀ k x, (k, x) ∈ o ↔ k ∈ ks ∧ HashMap.ofList l k = some x := by
    intro ks
    induction ks with
    | nil => intro _; exact ⟨[], by simp, by simp, by simp⟩
    | cons k ks ih =>
      intro hn
      rw [List.nodup_cons] at hn
      obtain ⟨o, h1, h2, h3⟩ := ih hn.2
      cases hk : HashMap.ofList l k with
      | none =>
        refine ⟨o, h1, fun j hj => List.mem_cons_of_mem _ (h2 j hj), fun j x => ?_⟩
        rw [h3, List.mem_cons]
        constructor
        · exact fun h => ⟨.inr h.1, h.2⟩
        · rintro ⟨h | h, hx⟩
          · subst h; rw [hk] at hx; cases hx
          · exact ⟨h, hx⟩
      | some y =>
        refine ⟨(k, y) :: o, ?_, ?_, fun j x => ?_⟩
        · rw [List.map_cons, List.nodup_cons]
          exact ⟨fun h => hn.1 (h2 k h), h1⟩
        · intro j hj
          rcases List.mem_cons.mp hj with rfl | hj
          · exact List.mem_cons_self
          · exact List.mem_cons_of_mem _ (h2 j hj)
        · rw [List.mem_cons, h3, List.mem_cons]
          constructor
          · rintro (h | h)
            · cases h; exact ⟨.inl rfl, hk⟩
            · exact ⟨.inr h.1, h.2⟩
          · rintro ⟨h | h, hx⟩
            · subst h; rw [hk] at hx; cases hx; exact .inl rfl
            · exact .inr ⟨h, hx⟩
  obtain ⟨ks, hn, hks⟩ : ∃ ks : List Str, ks.Nodup ∧ ∀ k ∈ l.map Prod.fst, k ∈ ks := by
    generalize l.map Prod.fst = a
    induction a with
    | nil => exact ⟨[], by simp, by simp⟩
    | cons k a ih =>
      obtain ⟨ks, h1, h2⟩ := ih
      by_cases h : k ∈ ks
      · refine ⟨ks, h1, fun j hj => ?_⟩
        rcases List.mem_cons.mp hj with rfl | hj
        · exact h
        · exact h2 j hj
      · refine ⟨k :: ks, List.nodup_cons.mpr ⟨h, h1⟩, fun j hj => ?_⟩
        rcases List.mem_cons.mp hj with rfl | hj
        · exact List.mem_cons_self
        · exact List.mem_cons_of_mem _ (h2 j hj)
  obtain ⟨o, h1, h2, h3⟩ := this ks hn
  refine ⟨o, h1, fun k x => ?_⟩
  rw [h3]
  refine ⟨fun h => h.2, fun h => ⟨hks k ?_, h⟩⟩
  rw [ofList_entry] at h
  unfold entry lastOf at h
  have := List.mem_of_getLast? h
  rw [List.mem_filterMap] at this
  obtain ⟨e, he, hx⟩ := this
  split at hx
  · rename_i hk; rw [← hk]; exact List.mem_map_of_mem he
  · cases hx

/-- A map with finitely many keys has an order of iteration; here for the map of an iteration after a function on the values. -/
theorem iter_map {Y : Type} {m : HashMap X} {l : List (Str × X)} (h : Iter m l) (f : X → Y) {m' : HashMap Y}
    (hm : ∀ k, m' k = (m k).map f) : Iter m' (l.map fun e => (e.1, f e.2)) := by
  obtain ⟨h1, h2⟩ := h
  refine ⟨by rw [List.map_map]; exact h1, fun k y => ?_⟩
  rw [hm, List.mem_map]
  constructor
  · rintro ⟨⟨j, x⟩, hx, he⟩
    cases he
    rw [(h2 _ _).mp hx]
    rfl
  · intro hy
    cases hk : m k with
    | none => rw [hk] at hy; cases hy
    | some x => rw [hk] at hy; cases hy; exact ⟨(k, x), (h2 k x).mpr hk, rfl⟩

/-! ## Generator and type space -/

theorem crates_sorted (l : List (Setter S V)) (g : Generation S V) (h : BTree.Sorted g.crates) : BTree.Sorted (g.calls l).crates := by
  unfold Generation.calls
  induction l generalizing g with
  | nil => exact h
  | cons c l ih =>
    refine ih (g.call c) ?_
    cases c <;> try exact h
    exact BTree.insert_sorted _ _ h

theorem sorted_entry {m : BTree.Map X} (h : BTree.Sorted m) (k : Str) : entry m k = BTree.get k m :=
  iter_entry (m := fun k => BTree.get k m) ⟨BTree.values_nodup_keys h, fun _ _ => BTree.mem_iff_get h⟩ k

/-- C76: after any sequence of calls on `GenerationSettings`, and for any order of iteration of its hash maps, generator and type space
have the settings that the calls say. -/
theorem C76_calls (l : List (Setter S V)) (ps : List (Str × TypePatch)) (rs : List (Str × Target))
    (hp : Iter (Generation.calls {} l).patch ps) (hr : Iter (Generation.calls {} l).replace rs) :
    Follows l (Generation.calls {} l) (newTypify (Generation.calls {} l) ps rs) := by
  have hs := crates_sorted l ({} : Generation S V) .nil
  generalize hg : Generation.calls {} l = g at *
  have G : ∀ {Y : Type} (proj : Generation S V → Option Y) (f : Setter S V → Option Y),
      (∀ g c, proj (g.call c) = (f c).or (proj g)) → proj g = (lastOf f l).or (proj {}) := by
    intro Y proj f h; rw [← hg]; exact fold_or h l _
  have GD : ∀ {Y : Type} (proj : Generation S V → Y) (f : Setter S V → Option Y),
      (∀ g c, proj (g.call c) = (f c).getD (proj g)) → proj g = (lastOf f l).getD (proj {}) := by
    intro Y proj f h; rw [← hg]; exact fold_getD h l _
  have GA : ∀ {Y : Type} (proj : Generation S V → List Y) (f : Setter S V → Option Y),
      (∀ g c, proj (g.call c) = proj g ++ (f c).toList) → proj g = proj {} ++ l.filterMap f := by
    intro Y proj f h; rw [← hg]; exact fold_append h l _
  have T : ∀ {Y : Type} (proj : Typify S V → Option Y) (f : TypifySetter S V → Option Y),
      (∀ g c, proj (g.call c) = (f c).or (proj g)) → proj (newTypify g ps rs) = (lastOf f (typifyCalls g ps rs)).or (proj {}) := by
    intro Y proj f h; exact fold_or h _ _
  have TD : ∀ {Y : Type} (proj : Typify S V → Y) (f : TypifySetter S V → Option Y),
      (∀ g c, proj (g.call c) = (f c).getD (proj g)) → proj (newTypify g ps rs) = (lastOf f (typifyCalls g ps rs)).getD (proj {}) := by
    intro Y proj f h; exact fold_getD h _ _
  have TA : ∀ {Y : Type} (proj : Typify S V → List Y) (f : TypifySetter S V → Option Y),
      (∀ g c, proj (g.call c) = proj g ++ (f c).toList) → proj (newTypify g ps rs) = proj {} ++ (typifyCalls g ps rs).filterMap f := by
    intro Y proj f h; exact fold_append h _ _
  refine ⟨?_, ?_, ?_, ?_, ?_, ?_, ?_, ?_, ?_, ?_, ?_, ?_, ?_, ?_, ?_, ?_⟩
  · exact GD (·.interface) saysInterface fun g c => by cases c <;> rfl
  · exact GD (·.tag) saysTag fun g c => by cases c <;> rfl
  · rw [G (·.innerType) saysInnerType fun g c => by cases c <;> rfl]; simp
  · rw [G (·.preHook) saysPreHook fun g c => by cases c <;> rfl]; simp
  · rw [G (·.preHookAsync) saysPreHookAsync fun g c => by cases c <;> rfl]; simp
  · rw [G (·.postHook) saysPostHook fun g c => by cases c <;> rfl]; simp
  · rw [G (·.postHookAsync) saysPostHookAsync fun g c => by cases c <;> rfl]; simp
  · rw [T (·.typeMod) (fun | .typeMod i => some i | _ => none) fun g c => by cases c <;> rfl]
    simp [typifyCalls, lastOf_append, lastOf_map, lastOf_none, lastOf_cons, Option.or]
  · rw [TD (·.structBuilder) (fun | .structBuilder i => some i | _ => none) fun g c => by cases c <;> rfl]
    simp [typifyCalls, lastOf_append, lastOf_map, lastOf_none, lastOf_cons, Option.or]
  · rw [TA (·.derives) (fun | .derive i => some i | _ => none) fun g c => by cases c <;> simp [Typify.call]]
    rw [← (GA (·.extraDerives) saysDerive fun g c => by cases c <;> simp [Generation.call, saysDerive]).trans (List.nil_append _)]
    simp [typifyCalls, List.filterMap_map, Function.comp_def, filterMap_nothing]
  · rw [T (·.mapType) (fun | .mapType i => some i | _ => none) fun g c => by cases c <;> rfl]
    have := G (·.mapType) saysMapType fun g c => by cases c <;> rfl
    simp only [Option.or_none] at this
    rw [← this]
    simp [typifyCalls, lastOf_append, lastOf_map, lastOf_none, lastOf_cons, lastOf_toList]
  · rw [TD (·.unknownCrates) (fun | .unknownCrates i => some i | _ => none) fun g c => by cases c <;> rfl]
    rw [← GD (·.unknownCrates) saysUnknownCrates fun g c => by cases c <;> rfl]
    simp [typifyCalls, lastOf_append, lastOf_map, lastOf_none, lastOf_cons, Option.or]
  · intro k
    rw [T (·.crates k) (fun | .crate n c => if n = k then some c else none | _ => none) fun g c => by
      cases c <;> first | rfl | exact insert_or _ _ _ _]
    have h1 : BTree.get k g.crates = lastOf (saysCrate k) l := by
      have := G (fun g => BTree.get k g.crates) (saysCrate k) fun g c => by
        cases c <;> first | rfl | (simp only [Generation.call, saysCrate, BTree.get_insert]; grind)
      simpa [BTree.get] using this
    rw [← h1, ← sorted_entry hs]
    simp [typifyCalls, lastOf_append, lastOf_map, lastOf_none, lastOf_cons, entry]
  · intro k
    rw [T (·.patch k) (fun | .patch n c => if n = k then some c else none | _ => none) fun g c => by
      cases c <;> first | rfl | exact insert_or _ _ _ _]
    have := G (·.patch k) (saysPatch k) fun g c => by
      cases c <;> first | rfl | exact insert_or _ _ _ _
    simp only [Option.or_none] at this
    rw [← this, ← iter_entry hp]
    simp [typifyCalls, lastOf_append, lastOf_map, lastOf_none, lastOf_cons, entry]
  · intro k
    rw [T (·.replace k) (fun | .replacement n c => if n = k then some c else none | _ => none) fun g c => by
      cases c <;> first | rfl | exact insert_or _ _ _ _]
    have := G (·.replace k) (saysReplacement k) fun g c => by
      cases c <;> first | rfl | exact insert_or _ _ _ _
    simp only [Option.or_none] at this
    rw [← this, ← iter_entry hr]
    simp [typifyCalls, lastOf_append, lastOf_map, lastOf_none, lastOf_cons, entry]
  · rw [TA (·.convert) (fun | .conversion s t => some (s, t) | _ => none) fun g c => by cases c <;> simp [Typify.call]]
    rw [← (GA (·.convert) saysConversion fun g c => by cases c <;> simp [Generation.call, saysConversion]).trans (List.nil_append _)]
    simp [typifyCalls, List.filterMap_map, Function.comp_def, filterMap_nothing]

/-! ## `generate_api!` -/

theorem field_chosen {es : List (Str × Tok)} {key : String} {parse : Tok → Option X} {x : Option X}
    (h : field es key parse = some x) : ChosenIf es key parse x := by
  unfold field at h
  split at h
  · rename_i hf
    cases h
    exact .absent fun t ht => by
      have : (key.toList, t) ∈ es.filter fun e => e.1 = key.toList := List.mem_filter.mpr ⟨ht, by simp⟩
      rw [hf] at this
      cases this
  · rename_i e hf
    have he : e ∈ es.filter fun e => e.1 = key.toList := by rw [hf]; exact List.mem_cons_self
    obtain ⟨h1, h2⟩ := List.mem_filter.mp he
    simp only [decide_eq_true_eq] at h2
    cases hp : parse e.2 with
    | none => rw [hp] at h; cases h
    | some y =>
      rw [hp] at h
      cases h
      exact .given e.2 _ (by rw [← h2]; exact h1) (by rw [hp]; rfl)
  · cases h

theorem chosen_getD {es : List (Str × Tok)} {key : String} {parse : Tok → Option X} {x : Option X} (h : ChosenIf es key parse x) (d : X) :
    Chosen es key parse d (x.getD d) := by
  cases h with
  | given t x h1 h2 =>
    cases hp : parse t with
    | none => rw [hp] at h2; cases h2
    | some y => rw [hp] at h2; cases h2; exact .given t y h1 hp
  | absent h => exact .absent h

/-- What `readSettings` yields. -/
structure ReadAs (P : Parsers Tok S V) (strict : Bool) (es : List (Str × Tok)) (m : MacroSettings S V) : Prop where
  spec : field es "spec" P.lit = some (some m.spec)
  interface : ∃ x, field es "interface" P.interface = some x ∧ m.interface = x.getD .positional
  tags : ∃ x, field es "tags" P.tags = some x ∧ m.tags = x.getD .merged
  innerType : field es "inner_type" P.type = some m.innerType
  preHook : field es "pre_hook" P.hook = some m.preHook
  preHookAsync : field es "pre_hook_async" P.hook = some m.preHookAsync
  postHook : field es "post_hook" P.hook = some m.postHook
  postHookAsync : field es "post_hook_async" P.hook = some m.postHookAsync
  mapType : field es "map_type" P.type = some m.mapType
  derives : ∃ x, field es "derives" P.paths = some x ∧ m.derives = x.getD []
  unknownCrates : ∃ x, field es "unknown_crates" P.policy = some x ∧ m.unknownCrates = x.getD .generate
  crates : ∃ x, field es "crates" P.crates = some x ∧ m.crates = HashMap.ofList (x.getD [])
  patch : ∃ x, field es "patch" P.patch = some x ∧ m.patch = HashMap.ofList (x.getD [])
  replace : ∃ x, field es "replace" P.replace = some x ∧ m.replace = HashMap.ofList (x.getD [])
  convert : ∃ x, field es "convert" P.convert = some x ∧ m.convert = x.getD []
  known : strict = true → ∀ e ∈ es, e.1 ∈ fieldNames.map String.toList

theorem readSettings_iff {P : Parsers Tok S V} {strict : Bool} {es : List (Str × Tok)} {m : MacroSettings S V} :
    readSettings P strict es = some m ↔ ReadAs P strict es m := by
  have hk : (strict && es.any fun e => !(fieldNames.map String.toList).contains e.1) = true ↔
      ¬ (strict = true → ∀ e ∈ es, e.1 ∈ fieldNames.map String.toList) := by
    simp only [Bool.and_eq_true, List.any_eq_true, Bool.not_eq_true', List.contains_eq_mem, decide_eq_false_iff_not]
    grind
  constructor
  · intro h
    simp only [readSettings, bind, Option.bind_eq_some_iff] at h
    obtain ⟨spec, h1, spec, rfl, i, h2, t, h3, it, h4, a, h5, b, h6, c, h7, d, h8, mt, h9, de, h10, uc, h11, cr, h12, pa, h13, re, h14,
      co, h15, h⟩ := h
    split at h
    · cases h
    · rename_i hn
      cases h
      exact ⟨h1, ⟨i, h2, rfl⟩, ⟨t, h3, rfl⟩, h4, h5, h6, h7, h8, h9, ⟨de, h10, rfl⟩, ⟨uc, h11, rfl⟩, ⟨cr, h12, rfl⟩, ⟨pa, h13, rfl⟩,
        ⟨re, h14, rfl⟩, ⟨co, h15, rfl⟩, Classical.not_not.mp fun h => hn (hk.mpr h)⟩
  · rintro ⟨h1, ⟨i, h2, e2⟩, ⟨t, h3, e3⟩, h4, h5, h6, h7, h8, h9, ⟨de, h10, e10⟩, ⟨uc, h11, e11⟩, ⟨cr, h12, e12⟩, ⟨pa, h13, e13⟩,
        ⟨re, h14, e14⟩, ⟨co, h15, e15⟩, h16⟩
    simp only [readSettings, bind, Option.bind_eq_some_iff]
    refine ⟨_, h1, _, rfl, i, h2, t, h3, _, h4, _, h5, _, h6, _, h7, _, h8, _, h9, de, h10, uc, h11, cr, h12, pa, h13, re, h14,
      co, h15, ?_⟩
    rw [if_neg fun h => hk.mp h h16, ← e2, ← e3, ← e10, ← e11, ← e12, ← e13, ← e14, ← e15]
    rfl

theorem toPatch_eq (p : MacroPatch) : p.toPatch = ⟨p.rename, p.derives⟩ := by
  obtain ⟨r, d⟩ := p
  have : ∀ (d : List Str) (s : TypePatch),
      d.foldl (fun (s : TypePatch) d => { s with derives := s.derives ++ [d] }) s = ⟨s.rename, s.derives ++ d⟩ := by
    intro d
    induction d with
    | nil => intro s; simp
    | cons x d ih => intro s; rw [List.foldl_cons, ih]; simp
  unfold MacroPatch.toPatch
  simp only [this]
  cases r <;> rfl

theorem entry_map {Y : Type} (l : List (Str × X)) (f : X → Y) (k : Str) : entry (l.map fun e => (e.1, f e.2)) k = (entry l k).map f := by
  unfold entry
  rw [lastOf_map]
  induction l with
  | nil => rfl
  | cons e l ih =>
    rw [lastOf_cons, lastOf_cons, ih]
    by_cases h : e.1 = k
    · simp only [h, if_true]; cases lastOf (fun e => if e.1 = k then some e.2 else none) l <;> rfl
    · simp [h]

theorem crateFor_iff (n : Str) (s : MacroCrateSpec V) (k : Str) (c : CrateSpec V) : CrateFor (n, s) k c ↔ crateEntry (n, s) = (k, c) := by
  obtain ⟨o, v⟩ := s
  unfold crateEntry
  constructor
  · intro h; cases h <;> rfl
  · intro h
    cases o <;> cases h
    · exact .plain ..
    · exact .renamed ..

theorem lastOf_some {C : Type} {f : C → Option X} {l : List C} {x : X} (h : lastOf f l = some x) : ∃ c ∈ l, f c = some x := by
  unfold lastOf at h
  exact List.mem_filterMap.mp (List.mem_of_getLast? h)

theorem lastOf_isSome {C : Type} {f : C → Option X} {l : List C} {c : C} {x : X} (hc : c ∈ l) (hf : f c = some x) :
    ∃ y, lastOf f l = some y := by
  cases h : lastOf f l with
  | some y => exact ⟨y, rfl⟩
  | none =>
    unfold lastOf at h
    rw [List.getLast?_eq_none_iff] at h
    have : x ∈ l.filterMap f := List.mem_filterMap.mpr ⟨c, hc, hf⟩
    rw [h] at this
    cases this

/-- C76: what is written in `generate_api!(..)` is what generator and type space get, whatever the order of iteration of hash maps. -/
theorem C76_macro (P : Parsers Tok S V) (strict : Bool) (es : List (Str × Tok)) (spec : Str) (g : Generation S V) (t : Typify S V)
    (h : Configures P strict (.keyed es) (some (spec, g, t))) : Asked P es spec g t := by
  cases h with
  | keyed _ m o hm ho =>
  obtain ⟨h1, ⟨i, h2, e2⟩, ⟨t, h3, e3⟩, h4, h5, h6, h7, h8, h9, ⟨de, h10, e10⟩, ⟨uc, h11, e11⟩, ⟨cr, h12, e12⟩, ⟨pa, h13, e13⟩,
        ⟨re, h14, e14⟩, ⟨co, h15, e15⟩, -⟩ := readSettings_iff.mp hm
  have F := C76_calls (macroCalls m o) o.patch' o.replace' ho.patch' ho.replace'
  generalize hg : Generation.calls {} (macroCalls m o) = g at *
  generalize ht : newTypify g o.patch' o.replace' = ty at *
  refine ⟨?_, ?_, ?_, ?_, ?_, ?_, ?_, ?_, F.typeMod, F.structBuilder, ?_, ?_, ?_, ?_, ?_, ?_, ?_⟩
  · have := field_chosen h1
    cases this with
    | given t x ht hp =>
      refine ⟨t, ht, ?_⟩
      cases hq : P.lit t with
      | none => rw [hq] at hp; cases hp
      | some y => rw [hq] at hp; cases hp; rfl
  · rw [F.interface, show lastOf saysInterface (macroCalls m o) = some m.interface by
      simp [macroCalls, lastOf_append, lastOf_map, lastOf_none, lastOf_cons, saysInterface, Option.or], e2]
    exact chosen_getD (field_chosen h2) _
  · rw [F.tag, show lastOf saysTag (macroCalls m o) = some m.tags by
      simp [macroCalls, lastOf_append, lastOf_map, lastOf_none, lastOf_cons, saysTag, Option.or], e3]
    exact chosen_getD (field_chosen h3) _
  · rw [F.innerType, show lastOf saysInnerType (macroCalls m o) = m.innerType by
      simp [macroCalls, lastOf_append, lastOf_map, lastOf_none, lastOf_cons, saysInnerType, lastOf_toList]]
    exact field_chosen h4
  · rw [F.preHook, show lastOf saysPreHook (macroCalls m o) = m.preHook by
      simp [macroCalls, lastOf_append, lastOf_map, lastOf_none, lastOf_cons, saysPreHook, lastOf_toList]]
    exact field_chosen h5
  · rw [F.preHookAsync, show lastOf saysPreHookAsync (macroCalls m o) = m.preHookAsync by
      simp [macroCalls, lastOf_append, lastOf_map, lastOf_none, lastOf_cons, saysPreHookAsync, lastOf_toList]]
    exact field_chosen h6
  · rw [F.postHook, show lastOf saysPostHook (macroCalls m o) = m.postHook by
      simp [macroCalls, lastOf_append, lastOf_map, lastOf_none, lastOf_cons, saysPostHook, lastOf_toList]]
    exact field_chosen h7
  · rw [F.postHookAsync, show lastOf saysPostHookAsync (macroCalls m o) = m.postHookAsync by
      simp [macroCalls, lastOf_append, lastOf_map, lastOf_none, lastOf_cons, saysPostHookAsync, lastOf_toList]]
    exact field_chosen h8
  · rw [F.mapType, show lastOf saysMapType (macroCalls m o) = m.mapType by
      simp [macroCalls, lastOf_append, lastOf_map, lastOf_none, lastOf_cons, saysMapType, lastOf_toList]]
    exact field_chosen h9
  · rw [F.derives, show List.filterMap saysDerive (macroCalls m o) = m.derives by
      simp [macroCalls, List.filterMap_map, List.filterMap_cons, Function.comp_def, filterMap_nothing, saysDerive], e10]
    exact chosen_getD (field_chosen h10) _
  · rw [F.unknownCrates, show lastOf saysUnknownCrates (macroCalls m o) = some m.unknownCrates by
      simp [macroCalls, lastOf_append, lastOf_map, lastOf_none, lastOf_cons, saysUnknownCrates, Option.or], e11]
    exact chosen_getD (field_chosen h11) _
  · refine ⟨_, chosen_getD (field_chosen h12) _, ?_⟩
    have hc : ∀ k, ty.crates k = lastOf (fun e => if (crateEntry e).1 = k then some (crateEntry e).2 else none) o.crates := by
      intro k
      rw [F.crates]
      simp [macroCalls, lastOf_append, lastOf_map, lastOf_none, lastOf_cons, saysCrate]
    have he : ∀ n s, entry (cr.getD []) n = some s ↔ (n, s) ∈ o.crates := by
      intro n s
      rw [ho.crates.2, e12, ofList_entry]
    constructor
    · intro k c hk
      rw [hc] at hk
      obtain ⟨⟨n, s⟩, h1, h2⟩ := lastOf_some hk
      split at h2
      · rename_i hn
        exact ⟨n, s, (he n s).mpr h1, (crateFor_iff ..).mpr (by rw [← hn]; cases h2; rfl)⟩
      · cases h2
    · intro n s k c hs hf
      rw [hc]
      have := (crateFor_iff ..).mp hf
      exact lastOf_isSome ((he n s).mp hs) (by rw [this]; simp; rfl)
  · refine ⟨_, chosen_getD (field_chosen h13) _, fun k => ?_⟩
    rw [F.patch, ← ofList_entry, ← e13, ← iter_entry ho.patch, ← entry_map]
    simp [macroCalls, lastOf_append, lastOf_map, lastOf_none, lastOf_cons, saysPatch, entry, toPatch_eq]
  · refine ⟨_, chosen_getD (field_chosen h14) _, fun k => ?_⟩
    have hr : ty.replace k = (entry (re.getD []) k).map fun w => (w.1, impls w.2) := by
      rw [F.replace, ← ofList_entry, ← e14, ← iter_entry ho.replace, ← entry_map]
      simp [macroCalls, lastOf_append, lastOf_map, lastOf_none, lastOf_cons, saysReplacement, entry]
    rw [hr]
    refine ⟨by simp, ?_⟩
    intro w x hw hx
    rw [hw] at hx
    cases hx
    exact ⟨rfl, fun i => C53_last_mention _ _⟩
  · refine ⟨_, chosen_getD (field_chosen h15) _, ?_⟩
    have hc : ty.convert = m.convert.map fun e => (e.1, e.2.1, impls e.2.2) := by
      rw [F.convert]
      have : ∀ l : List (S × Str × List ImplTrait), (l.map fun e => (Setter.conversion e.1 (e.2.1, impls e.2.2) : Setter S V)).filterMap
          saysConversion = l.map fun e => (e.1, e.2.1, impls e.2.2) := by
        intro l
        induction l with
        | nil => rfl
        | cons e l ih => simp [saysConversion, ih]
      rw [macroCalls, List.filterMap_append, this]
      simp [List.filterMap_map, List.filterMap_cons, Function.comp_def, filterMap_nothing, saysConversion]
    rw [← e15, hc]
    refine ⟨by simp, ?_⟩
    intro e he
    rw [List.zip_map_right, List.mem_map] at he
    obtain ⟨⟨a, b⟩, h1, rfl⟩ := he
    obtain ⟨i, h2, h3⟩ := List.mem_iff_getElem.mp h1
    rw [List.getElem_zip] at h3
    cases h3
    exact ⟨rfl, fun i => C53_last_mention _ _⟩

theorem field_perm {es es' : List (Str × Tok)} (h : es.Perm es') (key : String) (parse : Tok → Option X) :
    field es key parse = field es' key parse := by
  have hp := h.filter fun e => e.1 = key.toList
  unfold field
  generalize es.filter (fun e => decide (e.1 = key.toList)) = a at hp ⊢
  generalize es'.filter (fun e => decide (e.1 = key.toList)) = b at hp ⊢
  match a, b, hp with
  | [], b, hp => rw [List.nil_perm.mp hp]
  | [x], b, hp => rw [List.singleton_perm.mp hp]
  | x :: y :: a, b, hp =>
    have hl := hp.length_eq
    match b, hl with
    | [], hl => cases hl
    | [z], hl => simp at hl
    | z :: w :: b, _ => rfl

theorem readSettings_perm (P : Parsers Tok S V) (strict : Bool) {es es' : List (Str × Tok)} (h : es.Perm es') :
    readSettings P strict es = readSettings P strict es' := by
  have ha : es.any (fun e => !(fieldNames.map String.toList).contains e.1) = es'.any fun e => !(fieldNames.map String.toList).contains e.1 := by
    rw [Bool.eq_iff_iff, List.any_eq_true, List.any_eq_true]
    simp only [h.mem_iff]
  unfold readSettings
  simp only [field_perm h, ha]

/-- C76: options may be given in any order. -/
theorem C76_order (P : Parsers Tok S V) (strict : Bool) {es es' : List (Str × Tok)} (h : es.Perm es')
    (r : Option (Str × Generation S V × Typify S V)) : Configures P strict (.keyed es) r ↔ Configures P strict (.keyed es') r := by
  have hr := readSettings_perm P strict h
  constructor
  · intro h
    cases h with
    | invalid _ h => exact .invalid _ (hr ▸ h)
    | keyed _ m o h ho => exact .keyed _ m o (hr ▸ h) ho
  · intro h
    cases h with
    | invalid _ h => exact .invalid _ (hr ▸ h)
    | keyed _ m o h ho => exact .keyed _ m o (hr ▸ h) ho

theorem calls_patch (m : MacroSettings S V) (o : Orders V) (k : Str) :
    (Generation.calls {} (macroCalls m o)).patch k = (entry o.patch k).map MacroPatch.toPatch := by
  unfold Generation.calls
  rw [fold_or (proj := fun g : Generation S V => g.patch k) (f := saysPatch k) (fun g c => by
      cases c <;> first | rfl | exact insert_or _ _ _ _), ← entry_map]
  simp [macroCalls, lastOf_append, lastOf_map, lastOf_none, lastOf_cons, saysPatch, entry]

theorem calls_replace (m : MacroSettings S V) (o : Orders V) (k : Str) :
    (Generation.calls {} (macroCalls m o)).replace k = (entry o.replace k).map fun w => (w.1, impls w.2) := by
  unfold Generation.calls
  rw [fold_or (proj := fun g : Generation S V => g.replace k) (f := saysReplacement k) (fun g c => by
      cases c <;> first | rfl | exact insert_or _ _ _ _), ← entry_map]
  simp [macroCalls, lastOf_append, lastOf_map, lastOf_none, lastOf_cons, saysReplacement, entry]

theorem generation_ext {g g' : Generation S V} (h1 : g.interface = g'.interface) (h2 : g.tag = g'.tag) (h3 : g.innerType = g'.innerType)
    (h4 : g.preHook = g'.preHook) (h5 : g.preHookAsync = g'.preHookAsync) (h6 : g.postHook = g'.postHook)
    (h7 : g.postHookAsync = g'.postHookAsync) (h8 : g.extraDerives = g'.extraDerives) (h9 : g.mapType = g'.mapType)
    (h10 : g.unknownCrates = g'.unknownCrates) (h11 : g.crates = g'.crates) (h12 : ∀ k, g.patch k = g'.patch k)
    (h13 : ∀ k, g.replace k = g'.replace k) (h14 : g.convert = g'.convert) : g = g' := by
  obtain ⟨_, _, _, _, _, _, _, _, _, _, _, _, _, _⟩ := g
  obtain ⟨_, _, _, _, _, _, _, _, _, _, _, _, _, _⟩ := g'
  have h12 := funext h12
  have h13 := funext h13
  simp only at *
  subst_vars
  rfl

theorem typify_ext {t t' : Typify S V} (h1 : t.typeMod = t'.typeMod) (h2 : t.structBuilder = t'.structBuilder) (h3 : t.derives = t'.derives)
    (h4 : t.unknownCrates = t'.unknownCrates) (h5 : ∀ k, t.crates k = t'.crates k) (h6 : ∀ k, t.patch k = t'.patch k)
    (h7 : ∀ k, t.replace k = t'.replace k) (h8 : t.convert = t'.convert) (h9 : t.mapType = t'.mapType) : t = t' := by
  obtain ⟨_, _, _, _, _, _, _, _, _⟩ := t
  obtain ⟨_, _, _, _, _, _, _, _, _⟩ := t'
  have h5 := funext h5
  have h6 := funext h6
  have h7 := funext h7
  simp only at *
  subst_vars
  rfl

theorem calls_generation (m : MacroSettings S V) (o : Orders V) : Generation.calls {} (macroCalls m o) =
    ⟨m.interface, m.tags, m.innerType, m.preHook, m.preHookAsync, m.postHook, m.postHookAsync, m.derives, m.mapType, m.unknownCrates,
      crates o.crates, fun k => (entry o.patch k).map MacroPatch.toPatch, fun k => (entry o.replace k).map fun w => (w.1, impls w.2),
      m.convert.map fun e => (e.1, e.2.1, impls e.2.2)⟩ := by
  refine generation_ext ?_ ?_ ?_ ?_ ?_ ?_ ?_ ?_ ?_ ?_ ?_ (calls_patch m o) (calls_replace m o) ?_ <;> unfold Generation.calls
  · rw [fold_getD (proj := fun g : Generation S V => g.interface) (f := saysInterface) (fun g c => by cases c <;> rfl)]
    simp [macroCalls, lastOf_append, lastOf_map, lastOf_none, lastOf_cons, saysInterface, Option.or]
  · rw [fold_getD (proj := fun g : Generation S V => g.tag) (f := saysTag) (fun g c => by cases c <;> rfl)]
    simp [macroCalls, lastOf_append, lastOf_map, lastOf_none, lastOf_cons, saysTag, Option.or]
  · rw [fold_or (proj := fun g : Generation S V => g.innerType) (f := saysInnerType) (fun g c => by cases c <;> rfl)]
    simp [macroCalls, lastOf_append, lastOf_map, lastOf_none, lastOf_cons, saysInnerType, lastOf_toList]
  · rw [fold_or (proj := fun g : Generation S V => g.preHook) (f := saysPreHook) (fun g c => by cases c <;> rfl)]
    simp [macroCalls, lastOf_append, lastOf_map, lastOf_none, lastOf_cons, saysPreHook, lastOf_toList]
  · rw [fold_or (proj := fun g : Generation S V => g.preHookAsync) (f := saysPreHookAsync) (fun g c => by cases c <;> rfl)]
    simp [macroCalls, lastOf_append, lastOf_map, lastOf_none, lastOf_cons, saysPreHookAsync, lastOf_toList]
  · rw [fold_or (proj := fun g : Generation S V => g.postHook) (f := saysPostHook) (fun g c => by cases c <;> rfl)]
    simp [macroCalls, lastOf_append, lastOf_map, lastOf_none, lastOf_cons, saysPostHook, lastOf_toList]
  · rw [fold_or (proj := fun g : Generation S V => g.postHookAsync) (f := saysPostHookAsync) (fun g c => by cases c <;> rfl)]
    simp [macroCalls, lastOf_append, lastOf_map, lastOf_none, lastOf_cons, saysPostHookAsync, lastOf_toList]
  · rw [fold_append (proj := fun g : Generation S V => g.extraDerives) (f := saysDerive) (fun g c => by
      cases c <;> simp [Generation.call, saysDerive])]
    simp [macroCalls, List.filterMap_map, List.filterMap_cons, Function.comp_def, filterMap_nothing, saysDerive]
  · rw [fold_or (proj := fun g : Generation S V => g.mapType) (f := saysMapType) (fun g c => by cases c <;> rfl)]
    simp [macroCalls, lastOf_append, lastOf_map, lastOf_none, lastOf_cons, saysMapType, lastOf_toList]
  · rw [fold_getD (proj := fun g : Generation S V => g.unknownCrates) (f := saysUnknownCrates) (fun g c => by cases c <;> rfl)]
    simp [macroCalls, lastOf_append, lastOf_map, lastOf_none, lastOf_cons, saysUnknownCrates, Option.or]
  · have key : ∀ (l : List (Setter S V)) (g : Generation S V), (l.foldl Generation.call g).crates =
        BTree.insertAll g.crates (l.filterMap fun c => match c with | .crate n c => some (n, c) | _ => none) := by
      intro l
      induction l with
      | nil => intro g; rfl
      | cons c l ih =>
        intro g
        rw [List.foldl_cons, ih, List.filterMap_cons]
        cases c <;> rfl
    rw [key, crates]
    simp [macroCalls, List.filterMap_map, Function.comp_def, filterMap_nothing]
  · rw [fold_append (proj := fun g : Generation S V => g.convert) (f := saysConversion) (fun g c => by
      cases c <;> simp [Generation.call, saysConversion])]
    have : ∀ l : List (S × Str × List ImplTrait), (l.map fun e => (Setter.conversion e.1 (e.2.1, impls e.2.2) : Setter S V)).filterMap
        saysConversion = l.map fun e => (e.1, e.2.1, impls e.2.2) := by
      intro l
      induction l with
      | nil => rfl
      | cons e l ih => simp [saysConversion, ih]
    rw [macroCalls, List.filterMap_append, this]
    simp [List.filterMap_map, List.filterMap_cons, Function.comp_def, filterMap_nothing, saysConversion]

theorem newTypify_eq (g : Generation S V) (hs : BTree.Sorted g.crates) (ps : List (Str × TypePatch)) (rs : List (Str × Target))
    (hp : Iter g.patch ps) (hr : Iter g.replace rs) : newTypify g ps rs =
    ⟨some "types".toList, decide (g.interface = .builder), g.extraDerives, g.unknownCrates, fun k => BTree.get k g.crates, g.patch,
      g.replace, g.convert, g.mapType⟩ := by
  refine typify_ext ?_ ?_ ?_ ?_ (fun k => ?_) (fun k => ?_) (fun k => ?_) ?_ ?_ <;> unfold newTypify
  · rw [fold_or (proj := fun t : Typify S V => t.typeMod) (f := fun | .typeMod i => some i | _ => none) (fun g c => by cases c <;> rfl)]
    simp [typifyCalls, lastOf_append, lastOf_map, lastOf_none, lastOf_cons, Option.or]
  · rw [fold_getD (proj := fun t : Typify S V => t.structBuilder) (f := fun | .structBuilder i => some i | _ => none)
      (fun g c => by cases c <;> rfl)]
    simp [typifyCalls, lastOf_append, lastOf_map, lastOf_none, lastOf_cons, Option.or]
  · rw [fold_append (proj := fun t : Typify S V => t.derives) (f := fun | .derive i => some i | _ => none)
      (fun g c => by cases c <;> simp [Typify.call])]
    simp [typifyCalls, List.filterMap_map, Function.comp_def, filterMap_nothing]
  · rw [fold_getD (proj := fun t : Typify S V => t.unknownCrates) (f := fun | .unknownCrates i => some i | _ => none)
      (fun g c => by cases c <;> rfl)]
    simp [typifyCalls, lastOf_append, lastOf_map, lastOf_none, lastOf_cons, Option.or]
  · rw [fold_or (proj := fun t : Typify S V => t.crates k) (f := fun | .crate n c => if n = k then some c else none | _ => none)
      (fun g c => by cases c <;> first | rfl | exact insert_or _ _ _ _)]
    show _ = BTree.get k g.crates
    rw [← sorted_entry hs]
    simp [typifyCalls, lastOf_append, lastOf_map, lastOf_none, lastOf_cons, entry]
  · rw [fold_or (proj := fun t : Typify S V => t.patch k) (f := fun | .patch n c => if n = k then some c else none | _ => none)
      (fun g c => by cases c <;> first | rfl | exact insert_or _ _ _ _)]
    show _ = g.patch k
    rw [← iter_entry hp]
    simp [typifyCalls, lastOf_append, lastOf_map, lastOf_none, lastOf_cons, entry]
  · rw [fold_or (proj := fun t : Typify S V => t.replace k) (f := fun | .replacement n c => if n = k then some c else none | _ => none)
      (fun g c => by cases c <;> first | rfl | exact insert_or _ _ _ _)]
    show _ = g.replace k
    rw [← iter_entry hr]
    simp [typifyCalls, lastOf_append, lastOf_map, lastOf_none, lastOf_cons, entry]
  · rw [fold_append (proj := fun t : Typify S V => t.convert) (f := fun | .conversion s t => some (s, t) | _ => none)
      (fun g c => by cases c <;> simp [Typify.call])]
    simp [typifyCalls, List.filterMap_map, Function.comp_def, filterMap_nothing]
  · rw [fold_or (proj := fun t : Typify S V => t.mapType) (f := fun | .mapType i => some i | _ => none) (fun g c => by cases c <;> rfl)]
    simp [typifyCalls, lastOf_append, lastOf_map, lastOf_none, lastOf_cons, lastOf_toList]

/-- Every invocation has a result. -/
theorem configures_exists (P : Parsers Tok S V) (strict : Bool) (es : List (Str × Tok)) (m : MacroSettings S V)
    (h : readSettings P strict es = some m) : ∃ r, Configures P strict (.keyed es) (some r) := by
  obtain ⟨-, -, -, -, -, -, -, -, -, -, -, ⟨cr, -, e12⟩, ⟨pa, -, e13⟩, ⟨re, -, e14⟩, -, -⟩ := readSettings_iff.mp h
  obtain ⟨c, hc⟩ := iter_exists (cr.getD [])
  obtain ⟨p, hp⟩ := iter_exists (pa.getD [])
  obtain ⟨r, hr⟩ := iter_exists (re.getD [])
  rw [← e12] at hc
  rw [← e13] at hp
  rw [← e14] at hr
  refine ⟨_, .keyed es m ⟨c, p, r, p.map fun e => (e.1, e.2.toPatch), r.map fun e => (e.1, e.2.1, impls e.2.2)⟩ h ⟨hc, hp, hr, ?_, ?_⟩⟩
  · exact iter_map hp _ fun k => by rw [calls_patch, iter_entry hp]
  · exact iter_map hr (fun w => (w.1, impls w.2)) fun k => by rw [calls_replace, iter_entry hr]

/-- C76: the string alone means the same as the option `spec` alone. -/
theorem C76_literal (P : Parsers Tok S V) (strict : Bool) (s : Str) (tok : Tok) (hs : P.lit tok = some s)
    (r : Option (Str × Generation S V × Typify S V)) :
    Configures P strict (.literal s) r ↔ Configures P strict (.keyed [("spec".toList, tok)]) r := by
  have hm : readSettings P strict [("spec".toList, tok)] = some ⟨s, .positional, .merged, none, none, none, none, none, none, [], .generate,
      fun _ => none, fun _ => none, fun _ => none, []⟩ := by
    rw [readSettings_iff]
    refine ⟨?_, ⟨none, rfl, rfl⟩, ⟨none, rfl, rfl⟩, rfl, rfl, rfl, rfl, rfl, rfl, ⟨none, rfl, rfl⟩, ⟨none, rfl, rfl⟩, ⟨none, rfl, rfl⟩,
      ⟨none, rfl, rfl⟩, ⟨none, rfl, rfl⟩, ⟨none, rfl, rfl⟩, ?_⟩
    · show (P.lit tok).map some = _
      rw [hs]; rfl
    · intro _ e he
      rw [List.mem_singleton.mp he]
      exact List.mem_cons_self
  have hempty : ∀ {Y : Type} {l : List (Str × Y)}, Iter (fun _ => none) l → l = [] := by
    intro Y l hl
    cases l with
    | nil => rfl
    | cons e l => exact absurd ((hl.2 e.1 e.2).mp List.mem_cons_self) (by simp)
  generalize hm0 : (⟨s, .positional, .merged, none, none, none, none, none, none, [], .generate,
      fun _ => none, fun _ => none, fun _ => none, []⟩ : MacroSettings S V) = m0 at hm
  have hz : ∀ p' r', Generation.calls {} (macroCalls m0 ⟨[], [], [], p', r'⟩) = {} := by
    intro p' r'
    rw [calls_generation, ← hm0]
    rfl
  have hspec : m0.spec = s := by rw [← hm0]
  have hc0 : m0.crates = fun _ => none := by rw [← hm0]
  have hp0 : m0.patch = fun _ => none := by rw [← hm0]
  have hr0 : m0.replace = fun _ => none := by rw [← hm0]
  clear hm0
  have hnone : ∀ {Y : Type}, Iter (fun _ => none) ([] : List (Str × Y)) := fun {Y} => ⟨by simp, fun k x => ⟨nofun, nofun⟩⟩
  constructor
  · intro h
    cases h with
    | literal =>
      have := Configures.keyed (P := P) (strict := strict) _ _ ⟨[], [], [], [], []⟩ hm
        ⟨by rw [hc0]; exact hnone, by rw [hp0]; exact hnone, by rw [hr0]; exact hnone, by rw [hz]; exact hnone, by rw [hz]; exact hnone⟩
      rw [hz, hspec] at this
      exact this
  · intro h
    cases h with
    | invalid _ h => rw [hm] at h; cases h
    | keyed _ m o h ho =>
      rw [hm] at h
      cases h
      obtain ⟨c, p, r, p', r'⟩ := o
      obtain ⟨h1, h2, h3, h4, h5⟩ := ho
      rw [hc0] at h1
      rw [hp0] at h2
      rw [hr0] at h3
      have e1 : c = [] := hempty h1
      have e2 : p = [] := hempty h2
      have e3 : r = [] := hempty h3
      subst e1 e2 e3
      rw [hz] at h4 h5
      have e4 : p' = [] := hempty h4
      have e5 : r' = [] := hempty h5
      subst e4 e5
      rw [hz, hspec]
      exact .literal s

/-- C76: which invocations are accepted. -/
theorem C76_accepted_iff (P : Parsers Tok S V) (strict : Bool) (es : List (Str × Tok)) :
    (∃ r, Configures P strict (.keyed es) (some r)) ↔ Sensible P strict es := by
  have hf : ∀ {Y : Type} (key : String) (parse : Tok → Option Y),
      (∃ x, field es key parse = some x) ↔ (es.filter fun e => e.1 = key.toList).length ≤ 1 ∧
        ∀ t, (key.toList, t) ∈ es → (parse t).isSome = true := by
    intro Y key parse
    have hmem : ∀ t, (key.toList, t) ∈ es ↔ (key.toList, t) ∈ es.filter fun e => e.1 = key.toList := by
      intro t; simp [List.mem_filter]
    have hkey : ∀ e ∈ es.filter fun e => e.1 = key.toList, e.1 = key.toList := by
      intro e he; simpa using (List.mem_filter.mp he).2
    simp only [hmem]
    unfold field
    generalize (es.filter fun e => decide (e.1 = key.toList)) = a at hkey ⊢
    match a, hkey with
    | [], _ => simp
    | [e], hkey =>
      have he := hkey e List.mem_cons_self
      constructor
      · rintro ⟨x, hx⟩
        refine ⟨by simp, fun t ht => ?_⟩
        rw [← List.mem_singleton.mp ht] at hx
        cases hp : parse t with
        | some y => rfl
        | none => simp [hp] at hx
      · rintro ⟨-, h⟩
        have := h e.2 (by rw [← he]; exact List.mem_cons_self)
        obtain ⟨y, hy⟩ := Option.isSome_iff_exists.mp this
        exact ⟨some y, by simp [hy]⟩
    | e :: e' :: a, _ => simp
  have hspec : (∃ x, field es "spec" P.lit = some (some x)) ↔
      (∃ x, field es "spec" P.lit = some x) ∧ ∃ t, ("spec".toList, t) ∈ es := by
    constructor
    · rintro ⟨x, hx⟩
      refine ⟨⟨_, hx⟩, ?_⟩
      cases field_chosen hx with
      | given t _ h _ => exact ⟨t, h⟩
    · rintro ⟨⟨x, hx⟩, t, ht⟩
      cases x with
      | some x => exact ⟨x, hx⟩
      | none =>
        cases field_chosen hx with
        | given t' _ h h' => cases hp : P.lit t' <;> rw [hp] at h' <;> cases h'
        | absent h => exact absurd ht (h t)
  have hall : (∃ m, readSettings P strict es = some m) ↔ Sensible P strict es := by
    constructor
    · rintro ⟨m, hm⟩
      obtain ⟨h1, ⟨i, h2, -⟩, ⟨t, h3, -⟩, h4, h5, h6, h7, h8, h9, ⟨de, h10, -⟩, ⟨uc, h11, -⟩, ⟨cr, h12, -⟩, ⟨pa, h13, -⟩,
        ⟨re, h14, -⟩, ⟨co, h15, -⟩, hk⟩ := readSettings_iff.mp hm
      have all : ∀ o ∈ options P, (es.filter fun e => e.1 = o.1.toList).length ≤ 1 ∧ ∀ t, (o.1.toList, t) ∈ es → o.2 t = true := by
        intro o ho
        simp only [options, List.mem_cons, List.not_mem_nil, or_false] at ho
        rcases ho with rfl | rfl | rfl | rfl | rfl | rfl | rfl | rfl | rfl | rfl | rfl | rfl | rfl | rfl | rfl
        · exact (hf _ _).mp ⟨_, h1⟩
        · exact (hf _ _).mp ⟨_, h2⟩
        · exact (hf _ _).mp ⟨_, h3⟩
        · exact (hf _ _).mp ⟨_, h4⟩
        · exact (hf _ _).mp ⟨_, h5⟩
        · exact (hf _ _).mp ⟨_, h6⟩
        · exact (hf _ _).mp ⟨_, h7⟩
        · exact (hf _ _).mp ⟨_, h8⟩
        · exact (hf _ _).mp ⟨_, h9⟩
        · exact (hf _ _).mp ⟨_, h10⟩
        · exact (hf _ _).mp ⟨_, h11⟩
        · exact (hf _ _).mp ⟨_, h12⟩
        · exact (hf _ _).mp ⟨_, h13⟩
        · exact (hf _ _).mp ⟨_, h14⟩
        · exact (hf _ _).mp ⟨_, h15⟩
      refine ⟨(hspec.mp ⟨_, h1⟩).2, fun o ho => (all o ho).1, fun o ho => (all o ho).2, fun hs e he => ?_⟩
      have := hk hs e he
      have hn : fieldNames = (options P).map Prod.fst := rfl
      rw [hn, List.map_map, List.mem_map] at this
      obtain ⟨o, ho, heq⟩ := this
      exact ⟨o, ho, heq.symm⟩
    · rintro ⟨h1, h2, h3, h4⟩
      have F : ∀ {Y : Type} (key : String) (parse : Tok → Option Y), (key, fun t => (parse t).isSome) ∈ options P →
          ∃ x, field es key parse = some x := fun key parse h => (hf key parse).mpr ⟨h2 _ h, h3 _ h⟩
      obtain ⟨spec, hs⟩ := hspec.mpr ⟨F "spec" P.lit (by simp [options]), h1⟩
      obtain ⟨i, e2⟩ := F "interface" P.interface (by simp [options])
      obtain ⟨t, e3⟩ := F "tags" P.tags (by simp [options])
      obtain ⟨it, e4⟩ := F "inner_type" P.type (by simp [options])
      obtain ⟨a, e5⟩ := F "pre_hook" P.hook (by simp [options])
      obtain ⟨b, e6⟩ := F "pre_hook_async" P.hook (by simp [options])
      obtain ⟨c, e7⟩ := F "post_hook" P.hook (by simp [options])
      obtain ⟨d, e8⟩ := F "post_hook_async" P.hook (by simp [options])
      obtain ⟨mt, e9⟩ := F "map_type" P.type (by simp [options])
      obtain ⟨de, e10⟩ := F "derives" P.paths (by simp [options])
      obtain ⟨uc, e11⟩ := F "unknown_crates" P.policy (by simp [options])
      obtain ⟨cr, e12⟩ := F "crates" P.crates (by simp [options])
      obtain ⟨pa, e13⟩ := F "patch" P.patch (by simp [options])
      obtain ⟨re, e14⟩ := F "replace" P.replace (by simp [options])
      obtain ⟨co, e15⟩ := F "convert" P.convert (by simp [options])
      refine ⟨⟨spec, i.getD .positional, t.getD .merged, it, a, b, c, d, mt, de.getD [], uc.getD .generate, HashMap.ofList (cr.getD []),
        HashMap.ofList (pa.getD []), HashMap.ofList (re.getD []), co.getD []⟩, readSettings_iff.mpr ⟨hs, ⟨_, e2, rfl⟩, ⟨_, e3, rfl⟩, e4, e5,
        e6, e7, e8, e9, ⟨_, e10, rfl⟩, ⟨_, e11, rfl⟩, ⟨_, e12, rfl⟩, ⟨_, e13, rfl⟩, ⟨_, e14, rfl⟩, ⟨_, e15, rfl⟩, ?_⟩⟩
      intro hst e he
      obtain ⟨o, ho, heq⟩ := h4 hst e he
      have hn : fieldNames = (options P).map Prod.fst := rfl
      rw [hn, List.map_map, heq]
      exact List.mem_map_of_mem (f := String.toList ∘ Prod.fst) ho
  rw [← hall]
  constructor
  · rintro ⟨r, h⟩
    cases h with
    | keyed _ m o h ho => exact ⟨m, h⟩
  · rintro ⟨m, h⟩
    exact configures_exists P strict es m h

/-- C76: the documented option `struct_builder` does not exist: where unknown options are ignored it changes nothing, where they are not it
is an error. -/
theorem C76_struct_builder_fails (P : Parsers Tok S V) (strict : Bool) (es : List (Str × Tok)) (tok : Tok)
    (r : Str × Generation S V × Typify S V) (h : Configures P strict (.keyed (("struct_builder".toList, tok) :: es)) (some r)) :
    strict = false ∧ Configures P strict (.keyed es) (some r) ∧ (r.2.1.interface = .positional → r.2.2.structBuilder = false) := by
  have hA := C76_macro P strict _ r.1 r.2.1 r.2.2 h
  cases h with
  | keyed _ m o h ho =>
  have hm := readSettings_iff.mp h
  have hst : strict = false := by
    cases strict with
    | false => rfl
    | true => exact absurd (hm.known rfl _ List.mem_cons_self) (by show "struct_builder".toList ∉ _; decide +kernel)
  subst hst
  refine ⟨rfl, ?_, fun hi => ?_⟩
  · refine .keyed _ m o ?_ ho
    rw [← h]
    have hf : ∀ {Y : Type} (key : String) (parse : Tok → Option Y), "struct_builder".toList ≠ key.toList →
        field (("struct_builder".toList, tok) :: es) key parse = field es key parse := by
      intro Y key parse hk
      unfold field
      rw [List.filter_cons_of_neg (by rw [decide_eq_true_eq]; exact hk)]
    unfold readSettings
    rw [hf, hf, hf, hf, hf, hf, hf, hf, hf, hf, hf, hf, hf, hf, hf] <;> first | rfl | decide +kernel
  · exact Bool.eq_false_iff.mpr fun hb => absurd (hi.symm.trans (hA.structBuilder.mp hb)) (by decide)

theorem iter_perm {m : HashMap X} {l l' : List (Str × X)} (h : Iter m l) (h' : Iter m l') : l.Perm l' := by
  have hn : ∀ {l : List (Str × X)}, (l.map Prod.fst).Nodup → l.Nodup := by
    intro l hl
    exact List.Pairwise.of_map Prod.fst (fun a b hab e => hab (by rw [e])) hl
  refine (List.perm_ext_iff_of_nodup (hn h.1) (hn h'.1)).mpr fun e => ?_
  rw [show e = (e.1, e.2) from rfl, h.2, h'.2]

/-- C76: the result does not depend on the order in which hash maps are iterated, if no two entries of the `crates` table are about the
same crate (otherwise it does, see `C54_order_fails`). -/
theorem C76_unique_partial (P : Parsers Tok S V) (strict : Bool) (es : List (Str × Tok)) (hd : DistinctCrates P es)
    (r r' : Option (Str × Generation S V × Typify S V)) (h : Configures P strict (.keyed es) r) (h' : Configures P strict (.keyed es) r') :
    r = r' := by
  cases h with
  | invalid _ h =>
    cases h' with
    | invalid _ h' => rfl
    | keyed _ m o hm ho => rw [h] at hm; cases hm
  | keyed _ m o hm ho =>
    cases h' with
    | invalid _ h' => rw [h'] at hm; cases hm
    | keyed _ m' o' hm' ho' =>
      rw [hm] at hm'
      cases hm'
      have hpa : ∀ k, entry o.patch k = entry o'.patch k := fun k => by rw [iter_entry ho.patch, iter_entry ho'.patch]
      have hre : ∀ k, entry o.replace k = entry o'.replace k := fun k => by rw [iter_entry ho.replace, iter_entry ho'.replace]
      obtain ⟨cr, h12, e12⟩ := (readSettings_iff.mp hm).crates
      have hcr : crates o.crates = crates o'.crates := by
        refine C54_order_partial (iter_perm ho.crates ho'.crates) ?_
        have hinj : ∀ a ∈ o.crates, ∀ b ∈ o.crates, (crateEntry a).1 = (crateEntry b).1 → a.1 = b.1 := by
          intro a ha b hb hab
          have hmem : ∀ e ∈ o.crates, entry (cr.getD []) e.1 = some e.2 := by
            intro e he
            rw [← ofList_entry, ← e12]
            exact (ho.crates.2 e.1 e.2).mp he
          exact hd _ (chosen_getD (field_chosen h12) _) a.1 a.2 b.1 b.2 (crateEntry a).1 (crateEntry a).2 (crateEntry b).2 (hmem a ha)
            (hmem b hb) ((crateFor_iff ..).mpr rfl) ((crateFor_iff ..).mpr (by rw [hab]))
        have hn := ho.crates.1
        rw [List.Nodup, List.pairwise_map] at hn ⊢
        refine hn.imp_of_mem ?_
        intro a b ha hb hne heq
        exact hne (hinj a ha b hb heq)
      have hg : Generation.calls {} (macroCalls m o) = Generation.calls {} (macroCalls m o') := by
        rw [calls_generation, calls_generation, hcr, funext hpa, funext hre]
      have ht : newTypify (Generation.calls {} (macroCalls m o)) o.patch' o.replace' =
          newTypify (Generation.calls {} (macroCalls m o')) o'.patch' o'.replace' := by
        rw [hg]
        have h6 := ho.patch'
        have h7 := ho.replace'
        rw [hg] at h6 h7
        have hs := crates_sorted (macroCalls m o') ({} : Generation S V) .nil
        rw [newTypify_eq _ hs _ _ h6 h7, newTypify_eq _ hs _ _ ho'.patch' ho'.replace']
      rw [ht, hg]

/-! ## The expansion -/

/-- The names a path consists of: what is between slashes; empty names do not count. -/
def pathNames : Str → List Str
  | [] => [[]]
  | c :: s => if c = '/' then [] :: pathNames s else
      match pathNames s with
      | [] => [[c]]
      | w :: ws => (c :: w) :: ws

/-- The place in the file system a path leads to: whether it starts at the root, and the names on the way. -/
def place (p : Str) : Bool × List Str := (p.head? = some '/', (pathNames p).filter (· ≠ []))

theorem pathNames_ne (s : Str) : pathNames s ≠ [] := by
  cases s with
  | nil => exact nofun
  | cons c s => rw [pathNames]; split; exact nofun; split <;> exact nofun

theorem pathNames_slash (a b : Str) : pathNames (a ++ '/' :: b) = pathNames a ++ pathNames b := by
  induction a with
  | nil => simp [pathNames]
  | cons c a ih =>
    rw [List.cons_append, pathNames, pathNames, ih]
    split
    · rfl
    · have := pathNames_ne a
      cases h : pathNames a with
      | nil => exact absurd h this
      | cons w ws => rfl

theorem place_slash (a b : Str) (ha : a ≠ []) :
    place (a ++ '/' :: b) = ((place a).1, (place a).2 ++ (place b).2) := by
  unfold place
  rw [pathNames_slash, List.filter_append]
  cases a with
  | nil => exact absurd rfl ha
  | cons c a => rfl

/-- C76: the document that is read is the one at the path given: from the root if the path starts there, otherwise from the directory of
the manifest. -/
theorem C76_path (dir spec : Str) :
    place (join dir spec) = if (place spec).1 then place spec else
      ((place dir).1, (place dir).2 ++ (place spec).2) := by
  unfold join
  by_cases h : spec.head? = some '/'
  · simp [place, h]
  · have hs : (place spec).1 = false := by simp [place, h]
    rw [if_neg h, hs, if_neg Bool.false_ne_true]
    by_cases hd : dir = []
    · subst hd
      rw [if_pos (.inr rfl)]
      simp [place, h, pathNames]
    · by_cases hl : dir.getLast? = some '/'
      · rw [if_pos (.inl hl)]
        obtain ⟨d, rfl⟩ : ∃ d, dir = d ++ ['/'] := by
          rcases List.eq_nil_or_concat dir with e | ⟨d, c, rfl⟩
          · exact absurd e hd
          · rw [List.concat_eq_append, List.getLast?_concat] at hl
            cases hl
            exact ⟨d, List.concat_eq_append⟩
        cases d with
        | nil => simp [place, pathNames]
        | cons c d =>
          rw [List.append_assoc, List.singleton_append, place_slash _ _ (by simp), place_slash _ _ (by simp)]
          simp [place, pathNames]
      · rw [if_neg (by simp [hl, hd]), place_slash _ _ hd]

example : place (join "/home/me/crate".toList "../api//doc.json".toList) =
    (true, ["home".toList, "me".toList, "crate".toList, "..".toList, "api".toList, "doc.json".toList]) := by decide +kernel

/-- C76: the macro expands to the code generated from the document at the path given (relative to the manifest), read as JSON or else as
YAML, with the settings given; the expansion refers to that same file. -/
theorem C76_expansion {D C : Type} (json yaml : Str → Option D) (gen : Generation S V → Typify S V → D → Res C) (env : Env)
    (cfg : Option (Str × Generation S V × Typify S V)) (x : Expansion C) :
    expand json yaml gen env cfg = .ok x ↔ ∃ spec g t dir text d, cfg = some (spec, g, t) ∧
      (env.manifestDir = some dir ∨ env.manifestDir = none ∧ env.cwd = some dir) ∧ x.rebuild = join dir spec ∧
      env.files (join dir spec) = some text ∧ (json text = some d ∨ json text = none ∧ yaml text = some d) ∧ gen g t d = .ok x.code := by
  obtain ⟨code, rebuild⟩ := x
  constructor
  · intro h
    unfold expand at h
    split at h
    · cases h
    · rename_i spec g t
      split at h
      · cases h
      · rename_i dir hd
        split at h
        · cases h
        · rename_i text ht
          split at h
          · cases h
          · rename_i d hdoc
            unfold readDoc at hdoc
            split at h
            · rename_i c hc
              cases h
              refine ⟨spec, g, t, dir, text, d, rfl, Option.or_eq_some_iff.mp hd, rfl, ht, ?_, hc⟩
              split at hdoc
              · rename_i hj; exact .inl (hj.trans hdoc)
              · rename_i hj; exact .inr ⟨hj, hdoc⟩
            · cases h
            · cases h
  · rintro ⟨spec, g, t, dir, text, d, rfl, hd, rfl, ht, hdoc, hc⟩
    unfold expand
    simp only [Option.or_eq_some_iff.mpr hd, ht]
    have : readDoc json yaml text = some d := by
      unfold readDoc
      rcases hdoc with h | ⟨h, h'⟩
      · rw [h]
      · rw [h]; exact h'
    simp only [this, hc]

/-- C76: everything that can go wrong is a compile error, unless the generator itself panics or the current directory is needed and
inaccessible. -/
theorem C76_errors {D C : Type} (json yaml : Str → Option D) (gen : Generation S V → Typify S V → D → Res C) (env : Env)
    (cfg : Option (Str × Generation S V × Typify S V)) (m : Str) (h : expand json yaml gen env cfg = .panic m) :
    (env.manifestDir = none ∧ env.cwd = none) ∨ ∃ g t d, gen g t d = .panic m := by
  unfold expand at h
  split at h
  · cases h
  · split at h
    · rename_i hd; exact .inl (Option.or_eq_none_iff.mp hd)
    · split at h
      · cases h
      · split at h
        · cases h
        · split at h
          · cases h
          · cases h
          · rename_i hg; cases h; exact .inr ⟨_, _, _, hg⟩

/-! ## Example -/

/-- Tokens are texts; the values that occur are read. -/
def toyParsers : Parsers Str Nat Nat where
  lit := some
  interface t := if t = "Builder".toList then some .builder else none
  tags t := if t = "Separate".toList then some .separate else none
  type := some
  hook := some
  paths t := some [t]
  policy _ := none
  crates _ := some [("bar".toList, ⟨some "foo".toList, 1⟩), ("baz".toList, ⟨none, 2⟩)]
  patch t := some [("Thing".toList, ⟨some t, ["Hash".toList]⟩)]
  replace _ := some [("Name".toList, "String".toList, [⟨true, some .display⟩])]
  convert _ := none

def toyInput : List (Str × Str) :=
  [("interface".toList, "Builder".toList), ("crates".toList, []), ("spec".toList, "api.json".toList), ("pre_hook".toList, "log".toList),
   ("patch".toList, "Item".toList), ("replace".toList, [])]

example : Sensible toyParsers true toyInput :=
  ⟨⟨"api.json".toList, by decide +kernel⟩, by decide +kernel, by
    intro o ho t ht
    simp only [toyInput, List.mem_cons, List.not_mem_nil, or_false, Prod.mk.injEq] at ht
    simp only [options, List.mem_cons, List.not_mem_nil, or_false] at ho
    rcases ho with rfl | rfl | rfl | rfl | rfl | rfl | rfl | rfl | rfl | rfl | rfl | rfl | rfl | rfl | rfl <;>
      rcases ht with ⟨h, rfl⟩ | ⟨h, rfl⟩ | ⟨h, rfl⟩ | ⟨h, rfl⟩ | ⟨h, rfl⟩ | ⟨h, rfl⟩ <;> first | rfl | exact absurd h (by decide +kernel),
   by decide +kernel⟩

example : DistinctCrates toyParsers toyInput := by
  intro l hl n s n' s' k c c' h1 h2 h3 h4
  have he : ∀ {n s}, entry l n = some s → (n, s) ∈ l := by
    intro n s h
    obtain ⟨e, he, hs⟩ := lastOf_some h
    split at hs
    · rename_i hn; cases hs; rw [← hn]; exact he
    · cases hs
  have h1 := he h1
  have h2 := he h2
  cases hl with
  | absent h => exact absurd (by decide +kernel : ("crates".toList, []) ∈ toyInput) (h [])
  | given t x ht hx =>
    cases hx
    simp only [List.mem_cons, List.not_mem_nil, or_false, Prod.mk.injEq] at h1 h2
    rcases h1 with ⟨rfl, rfl⟩ | ⟨rfl, rfl⟩ <;> rcases h2 with ⟨rfl, rfl⟩ | ⟨rfl, rfl⟩
    · rfl
    · have := (crateFor_iff ..).mp h3
      have h := (crateFor_iff ..).mp h4
      exact absurd ((Prod.mk.inj this).1.trans (Prod.mk.inj h).1.symm) (by decide +kernel)
    · have := (crateFor_iff ..).mp h3
      have h := (crateFor_iff ..).mp h4
      exact absurd ((Prod.mk.inj this).1.trans (Prod.mk.inj h).1.symm) (by decide +kernel)
    · rfl

end Progenitor.Props

import Verif.Lemmas.Params

/-!
# C13-C16: parameters of an operation
-/

namespace Progenitor.Props

open Progenitor Progenitor.Spec Progenitor.Params

/-! ## C13 -/

namespace C13Example

/-- The path item declares the path parameter `id`. -/
def pathId : DocParam := ⟨"id".toList, .path true, true, true, 0⟩
/-- The operation declares a query parameter `id`. -/
def queryId : DocParam := ⟨"id".toList, .query true none, true, true, 1⟩

end C13Example

open C13Example in
/-- C13 is false: parameters are combined by name alone, so a query parameter of
the operation removes the path parameter of the same name.  (For the path
`/{id}` the generator accepts the operation up to this point.) -/
theorem C13_override_fails :
    ∃ (pl ol : List DocParam) (as : List Param),
      NoDuplicates pl ∧ NoDuplicates ol ∧ NoDuplicates (pl ++ ol) ∧
      processParams id ["id".toList] pl ol none = .ok as ∧
      ∃ p, Effective pl ol p ∧ ¬ ∃ a ∈ as, Describes p a := by
  refine ⟨[pathId], [queryId], [⟨"id".toList, "id".toList, .type 1, .query true⟩], ?_, ?_, ?_, ?_,
    pathId, ?_, ?_⟩
  · simp [NoDuplicates]
  · simp [NoDuplicates]
  · simp [NoDuplicates, SameParam, pathId, queryId, docLocation]
  · rfl
  · refine .inr ⟨by simp, ?_⟩
    simp [SameParam, pathId, queryId, docLocation]
  · simp [Describes, location, docLocation, pathId]

theorem noDup_names {l : List DocParam} (hd : NoDuplicates l) (hu : NamesUnambiguous l) :
    (l.map fun p => (p.name, p)).Pairwise fun a b => a.1 ≠ b.1 := by
  rw [List.pairwise_map]
  exact List.Pairwise.imp_of_mem (fun {p q} hp hq h e => h ⟨e, hu p hp q hq e⟩) hd

theorem find_name {l : List DocParam} (hn : (l.map fun p => (p.name, p)).Pairwise fun a b => a.1 ≠ b.1)
    (k : Str) (p : DocParam) :
    (((l.map fun p => (p.name, p)).reverse.find? fun e => e.1 = k).map Prod.snd) = some p ↔
      p ∈ l ∧ p.name = k := by
  constructor
  · intro h
    obtain ⟨e, he, rfl⟩ := Option.map_eq_some_iff.mp h
    have h1 := List.find?_some he
    have h2 := List.mem_of_find?_eq_some he
    rw [List.mem_reverse, List.mem_map] at h2
    obtain ⟨q, hq, rfl⟩ := h2
    exact ⟨hq, by simpa using h1⟩
  · rintro ⟨hp, rfl⟩
    have hm : (p.name, p) ∈ (l.map fun p => (p.name, p)).reverse := by
      simp only [List.mem_reverse, List.mem_map]; exact ⟨p, hp, rfl⟩
    cases hf : (l.map fun p => (p.name, p)).reverse.find? fun e => e.1 = p.name with
    | none =>
      rw [List.find?_eq_none] at hf
      exact absurd (by simp) (hf _ hm)
    | some e =>
      have h1 : e.1 = p.name := by simpa using List.find?_some hf
      have h2 := List.mem_of_find?_eq_some hf
      have he : e = (p.name, p) := by
        refine Classical.byContradiction fun hne => ?_
        have := pairwise_forall (l := (l.map fun p => (p.name, p)).reverse)
          (R := fun a b => a ≠ b → a.1 ≠ b.1) (fun {a b} h hab => (h hab.symm).symm)
          (by intro x _ h; exact absurd rfl h)
          (List.pairwise_reverse.mpr (List.Pairwise.imp (S := fun (a b : Str × DocParam) => b ≠ a → b.1 ≠ a.1) (fun h _ => Ne.symm h) hn)) h2 hm hne
        exact this h1
      rw [he]; rfl

/-- The combined map contains exactly the effective parameters. -/
theorem combined_effective {pl ol : List DocParam} (hp : NoDuplicates pl) (ho : NoDuplicates ol)
    (hu : NamesUnambiguous (pl ++ ol)) (p : DocParam) :
    p ∈ BTree.values (combined pl ol) ↔ Effective pl ol p := by
  have hup : NamesUnambiguous pl := fun a ha b hb => hu a (by simp [ha]) b (by simp [hb])
  have huo : NamesUnambiguous ol := fun a ha b hb => hu a (by simp [ha]) b (by simp [hb])
  have hs0 : BTree.Sorted ([] : BTree.Map DocParam) := .nil
  have hsp : BTree.Sorted (parameterMap pl) := BTree.insertAll_sorted hs0 _
  have hs : BTree.Sorted (combined pl ol) := BTree.insertAll_sorted hsp _
  have hgp : ∀ k q, BTree.get k (parameterMap pl) = some q ↔ q ∈ pl ∧ q.name = k := by
    intro k q
    rw [parameterMap, BTree.get_insertAll, ← find_name (noDup_names hp hup)]
    simp [BTree.get]
  have hg : ∀ k q, BTree.get k (combined pl ol) = some q ↔
      (q ∈ ol ∧ q.name = k) ∨ ((∀ r ∈ ol, r.name ≠ k) ∧ q ∈ pl ∧ q.name = k) := by
    intro k q
    rw [combined, BTree.get_insertAll]
    cases hf : (((ol.map fun p => (p.name, p)).reverse.find? fun e => e.1 = k).map Prod.snd) with
    | some r =>
      have hr := (find_name (noDup_names ho huo) k r).mp hf
      rw [Option.some_or]
      constructor
      · intro h; cases h; exact .inl hr
      · rintro (h | h)
        · rw [← hf]; exact (find_name (noDup_names ho huo) k q).mpr h
        · exact absurd hr.2 (h.1 r hr.1)
    | none =>
      have hn : ∀ r ∈ ol, r.name ≠ k := by
        intro r hr e
        have := (find_name (noDup_names ho huo) k r).mpr ⟨hr, e⟩
        rw [hf] at this; cases this
      rw [Option.none_or, hgp]
      constructor
      · intro h; exact .inr ⟨hn, h⟩
      · rintro (h | h)
        · exact absurd h.2 (hn q h.1)
        · exact h.2
  have hkey : ∀ k q, (k, q) ∈ combined pl ol → q.name = k := by
    intro k q h
    rw [BTree.mem_iff_get hs, hg] at h
    rcases h with h | h
    · exact h.2
    · exact h.2.2
  have : p ∈ BTree.values (combined pl ol) ↔ BTree.get p.name (combined pl ol) = some p := by
    rw [← BTree.mem_iff_get hs]
    simp only [BTree.values, List.mem_map, Prod.exists, exists_eq_right]
    constructor
    · rintro ⟨k, hk⟩; have := hkey k p hk; rw [this]; exact hk
    · intro h; exact ⟨_, h⟩
  rw [this, hg]
  simp only [and_true, Effective]
  constructor
  · rintro (h | ⟨h1, h2⟩)
    · exact .inl h
    · exact .inr ⟨h2, fun q hq hsame => h1 q hq hsame.1.symm⟩
  · rintro (h | ⟨h1, h2⟩)
    · exact .inl h
    · by_cases hol : p ∈ ol
      · exact .inl hol
      · exact .inr ⟨fun q hq e => h2 q hq
          ⟨e.symm, hu p (by simp [h1]) q (by simp [hq]) e.symm⟩, h1⟩

/-- C13 for operations in which no name is used in two locations: the arguments
of the generated method other than the body are described by exactly the
effective parameters of the operation, one argument for each. -/
theorem C13_override_partial (san : Str → Str) (names : List Str) (pl ol : List DocParam)
    (body : Option Param) (as : List Param)
    (hp : NoDuplicates pl) (ho : NoDuplicates ol) (hu : NamesUnambiguous (pl ++ ol))
    (hb : ∀ b ∈ body, location b.kind = .body)
    (h : processParams san names pl ol body = .ok as) :
    (∀ p, Effective pl ol p → ∃ a ∈ as, Describes p a) ∧
    (∀ a ∈ as, location a.kind ≠ .body → ∃ p, Effective pl ol p ∧ Describes p a) ∧
    (as.filter fun a => location a.kind ≠ .body).Pairwise (fun a b => a.apiName ≠ b.apiName) := by
  simp only [processParams] at h
  obtain ⟨conv, hc, h⟩ := bind_ok_inv h
  have hperm : as.Perm (conv ++ body.toList) := by simpa using sortLoop_perm h
  have hf := convertAll_forall₂ hc
  have hl : ∀ {vs : List DocParam} {cs : List Param},
      Spec.Forall₂ (fun p a => convert san p = .ok a) vs cs → ∀ p ∈ vs, ∃ a ∈ cs, Describes p a := by
    intro vs cs hvc
    induction hvc with
    | nil => intro p hp; cases hp
    | cons hpa _ ih =>
      intro p hp
      rcases List.mem_cons.mp hp with rfl | hp
      · exact ⟨_, by simp, (convert_describes hpa).1⟩
      · obtain ⟨a, ha, hd⟩ := ih p hp; exact ⟨a, by simp [ha], hd⟩
  have hr : ∀ {vs : List DocParam} {cs : List Param},
      Spec.Forall₂ (fun p a => convert san p = .ok a) vs cs →
      ∀ a ∈ cs, location a.kind ≠ .body ∧ ∃ p ∈ vs, Describes p a := by
    intro vs cs hvc
    induction hvc with
    | nil => intro p hp; cases hp
    | cons hpa _ ih =>
      intro a ha
      rcases List.mem_cons.mp ha with rfl | ha
      · exact ⟨convert_not_body hpa, _, by simp, (convert_describes hpa).1⟩
      · obtain ⟨h1, p, hp, hd⟩ := ih a ha; exact ⟨h1, p, by simp [hp], hd⟩
  refine ⟨?_, ?_, ?_⟩
  · intro p he
    obtain ⟨a, ha, hd⟩ := hl hf p ((combined_effective hp ho hu p).mpr he)
    exact ⟨a, hperm.mem_iff.mpr (by simp [ha]), hd⟩
  · intro a ha hk
    rcases List.mem_append.mp (hperm.mem_iff.mp ha) with ha | ha
    · obtain ⟨_, p, hp', hd⟩ := hr hf a ha
      exact ⟨p, (combined_effective hp ho hu p).mp hp', hd⟩
    · exact absurd (hb a (by simpa using ha)) hk
  · have hnames : (conv.map Param.apiName).Nodup := by
      have h1 : conv.map Param.apiName = (combined pl ol).map Prod.fst := by
        have e1 : ∀ {vs : List DocParam} {cs : List Param},
            Spec.Forall₂ (fun p a => convert san p = .ok a) vs cs →
            cs.map Param.apiName = vs.map DocParam.name := by
          intro vs cs hvc
          induction hvc with
          | nil => rfl
          | cons hpa _ ih => simp only [List.map_cons, ih, (convert_describes hpa).1.1]
        rw [e1 hf, BTree.values, List.map_map]
        apply List.map_congr_left
        intro e he
        have key : ∀ (m : BTree.Map DocParam) (l : List DocParam), (∀ e ∈ m, e.2.name = e.1) →
            ∀ e ∈ BTree.insertAll m (l.map fun p => (p.name, p)), e.2.name = e.1 := by
          intro m l
          induction l generalizing m with
          | nil => intro hm e he; exact hm e he
          | cons x l ih =>
            intro hm
            apply ih
            intro e he
            rcases BTree.mem_insert_key he with rfl | he
            · rfl
            · exact hm e he
        exact key _ _ (key _ _ (by simp)) e he
      rw [h1]
      exact BTree.values_nodup_keys (BTree.insertAll_sorted (BTree.insertAll_sorted .nil _) _)
    have hfil : (as.filter fun a => location a.kind ≠ .body).Perm conv := by
      refine (hperm.filter _).trans ?_
      rw [List.filter_append]
      have e1 : conv.filter (fun a => decide (location a.kind ≠ .body)) = conv := by
        rw [List.filter_eq_self]; intro a ha; simpa using (hr hf a ha).1
      have e2 : body.toList.filter (fun a => decide (location a.kind ≠ .body)) = [] := by
        rw [List.filter_eq_nil_iff]; intro a ha; simpa using hb a (by simpa using ha)
      rw [e1, e2]; simp
    have : ((as.filter fun a => location a.kind ≠ .body).map Param.apiName).Nodup :=
      (hfil.map _).nodup_iff.mpr hnames
    rw [List.Nodup, List.pairwise_map] at this
    exact this

/-- Non-vacuity: an operation that overrides a shared query parameter. -/
example : processParams id ["id".toList]
      [⟨"id".toList, .path true, true, true, 0⟩, ⟨"q".toList, .query true none, false, true, 1⟩]
      [⟨"q".toList, .query true none, true, true, 2⟩] none =
    .ok [⟨"id".toList, "id".toList, .type 0, .path⟩, ⟨"q".toList, "q".toList, .type 2, .query true⟩] := rfl
example : NamesUnambiguous
      ([⟨"id".toList, .path true, true, true, 0⟩, ⟨"q".toList, .query true none, false, true, 1⟩] ++
       [⟨"q".toList, .query true none, true, true, 2⟩]) := by
  intro p hp q hq
  simp only [List.cons_append, List.nil_append, List.mem_cons, List.not_mem_nil, or_false] at hp hq
  rcases hp with rfl | rfl | rfl <;> rcases hq with rfl | rfl | rfl <;> simp [docLocation]

/-! ## C14 -/

/-- C14: whenever the parameters of an operation are accepted, the arguments are
in the documented order. -/
theorem C14_order (san : Str → Str) (names : List Str) (pl ol : List DocParam)
    (body : Option Param) (as : List Param) (hb : ∀ b ∈ body, location b.kind = .body)
    (h : processParams san names pl ol body = .ok as) : as.Pairwise (Before names) := by
  simp only [processParams] at h
  obtain ⟨conv, hc, h⟩ := bind_ok_inv h
  have hnb : ∀ p ∈ conv, location p.kind ≠ .body :=
    forall₂_right (P := fun p => location p.kind ≠ .body) (fun h => convert_not_body h)
      (convertAll_forall₂ hc)
  have hfound : (conv.filter fun p => location p.kind == .path).length ≤ 1 ∨ PathsFound names conv := by
    rcases sortParams_found h with h | h
    · left
      rw [List.filter_append, List.length_append] at h
      omega
    · exact .inr fun p hp => h p (by simp [hp])
  rw [sortParams_pure hfound hnb hb] at h
  cases h
  rw [List.pairwise_append]
  refine ⟨?_, by cases body <;> simp, ?_⟩
  · have hperm := sortP_perm (lessP names) [] conv
    have hs := sortP_sorted (acc := []) (lessP_swo names (s := conv) (.inl hnb)) (by simp) (fun y hy => hy) .nil
    have hfound' : ((sortP (lessP names) [] conv).filter fun p => location p.kind == .path).length ≤ 1 ∨
        PathsFound names (sortP (lessP names) [] conv) := by
      rcases hfound with h | h
      · left; rw [(hperm.filter _).length_eq]; exact h
      · exact .inr fun p hp => h p (hperm.mem_iff.mp hp)
    refine List.Pairwise.imp_of_mem ?_ (hs.and (found_pairs hfound'))
    intro a b ha _ ⟨h1, h2⟩
    exact before_of_not_less h1 (fun x y => (h2 x y).1) (hnb a (hperm.mem_iff.mp ha))
  · intro a ha b hb'
    exact before_body (hnb a ((sortP_perm (lessP names) [] conv).mem_iff.mp ha))
      (hb b (by simpa using hb'))

/-- C14: exactly the declared parameters and the body occur. -/
theorem C14_exactly (san : Str → Str) (names : List Str) (pl ol : List DocParam)
    (body : Option Param) (as : List Param)
    (h : processParams san names pl ol body = .ok as) :
    ∃ conv, Spec.Forall₂ (fun p a => Describes p a ∧ a.name = san p.name)
        (BTree.values (combined pl ol)) conv ∧
      as.Perm (conv ++ body.toList) := by
  simp only [processParams] at h
  obtain ⟨conv, hc, h⟩ := bind_ok_inv h
  refine ⟨conv, ?_, by simpa using sortLoop_perm h⟩
  exact forall₂_imp convert_describes (convertAll_forall₂ hc)

/-- C14: the order in which the document lists parameters is irrelevant. -/
theorem C14_order_independent (san : Str → Str) (names : List Str) (pl pl' ol ol' : List DocParam)
    (body : Option Param) (hp : pl.Perm pl') (ho : ol.Perm ol')
    (hnp : pl.Pairwise fun a b => a.name ≠ b.name) (hno : ol.Pairwise fun a b => a.name ≠ b.name) :
    processParams san names pl ol body = processParams san names pl' ol' body := by
  have hnp' := hp.pairwise hnp (fun h => h.symm)
  have hno' := ho.pairwise hno (fun h => h.symm)
  have m : ∀ {l : List DocParam}, (l.Pairwise fun a b => a.name ≠ b.name) →
      (l.map fun p => (p.name, p)).Pairwise fun a b => a.1 ≠ b.1 := by
    intro l hl; rw [List.pairwise_map]; exact hl
  have opt : ∀ {x y : Option DocParam}, (∀ p, x = some p ↔ y = some p) → x = y := by
    intro x y h
    cases x with
    | some a => exact ((h a).mp rfl).symm
    | none => cases y with
      | none => rfl
      | some b => exact (h b).mpr rfl
  have : combined pl ol = combined pl' ol' := by
    apply BTree.ext
    · exact BTree.insertAll_sorted (BTree.insertAll_sorted .nil _) _
    · exact BTree.insertAll_sorted (BTree.insertAll_sorted .nil _) _
    · intro k
      simp only [combined, parameterMap, BTree.get_insertAll]
      have e1 : ((pl.map fun p => (p.name, p)).reverse.find? fun e => e.1 = k).map Prod.snd =
          ((pl'.map fun p => (p.name, p)).reverse.find? fun e => e.1 = k).map Prod.snd := by
        apply opt; intro p
        rw [find_name (m hnp), find_name (m hnp'), hp.mem_iff]
      have e2 : ((ol.map fun p => (p.name, p)).reverse.find? fun e => e.1 = k).map Prod.snd =
          ((ol'.map fun p => (p.name, p)).reverse.find? fun e => e.1 = k).map Prod.snd := by
        apply opt; intro p
        rw [find_name (m hno), find_name (m hno'), ho.mem_iff]
      rw [e1, e2]
  simp only [processParams, this]

example : processParams id ["z".toList, "a".toList] []
      [⟨"a".toList, .path true, true, true, 0⟩, ⟨"z".toList, .path true, true, true, 1⟩,
       ⟨"h".toList, .header, false, true, 2⟩, ⟨"q".toList, .query true none, false, true, 3⟩]
      (some ⟨"body".toList, "body".toList, .type 4, .body .json⟩) =
    .ok [⟨"z".toList, "z".toList, .type 1, .path⟩, ⟨"a".toList, "a".toList, .type 0, .path⟩,
      ⟨"q".toList, "q".toList, .type 3, .query false⟩, ⟨"h".toList, "h".toList, .type 2, .header false⟩,
      ⟨"body".toList, "body".toList, .type 4, .body .json⟩] := rfl

/-! ## C15 -/

/-- C15 is false: a header and a body are each reported to be greater than the other. -/
theorem C15_antisymmetry_fails : ∃ (h b : Param), ∀ names,
    cmp names h b = .ok .gt ∧ cmp names b h = .ok .gt :=
  ⟨⟨"h".toList, "h".toList, .type 0, .header true⟩,
   ⟨"body".toList, "body".toList, .type 1, .body .json⟩, fun _ => ⟨rfl, rfl⟩⟩

/-- C15 is false even for the relation "is less" that the standard library
derives: two ordered headers are both unordered with respect to the body. -/
theorem C15_incomparability_fails : ∃ (h₁ h₂ b : Param), ∀ names,
    less names h₁ h₂ = .ok true ∧ less names h₁ b = .ok false ∧ less names b h₁ = .ok false ∧
    less names h₂ b = .ok false ∧ less names b h₂ = .ok false :=
  ⟨⟨"a".toList, "a".toList, .type 0, .header true⟩, ⟨"b".toList, "b".toList, .type 0, .header true⟩,
   ⟨"body".toList, "body".toList, .type 1, .body .json⟩, fun _ => ⟨rfl, rfl, rfl, rfl, rfl⟩⟩

/-- The parameters of an operation that has no header parameters or no body,
and whose path parameters occur in the path. -/
def Orderly (names : List Str) (s : List Param) : Prop :=
  PathsFound names s ∧
  ((∀ p ∈ s, location p.kind ≠ .body) ∨ (∀ p ∈ s, location p.kind ≠ .header))

/-- C15 where it holds: antisymmetry. -/
theorem C15_antisymmetric_partial (names : List Str) (s : List Param) (h : Orderly names s)
    (a b : Param) (ha : a ∈ s) (hb : b ∈ s)
    (hab : ¬ (location a.kind = .body ∧ location b.kind = .body)) :
    ∃ o, cmp names a b = .ok o ∧ cmp names b a = .ok o.swap := by
  obtain ⟨hf, hh⟩ := h
  have h3 : ¬ (location a.kind = .body ∧ location b.kind = .header) ∧
      ¬ (location a.kind = .header ∧ location b.kind = .body) := by
    rcases hh with hh | hh
    · exact ⟨fun x => hh a ha x.1, fun x => hh b hb x.2⟩
    · exact ⟨fun x => hh b hb x.2, fun x => hh a ha x.1⟩
  have hpa := hf a ha; have hpb := hf b hb
  unfold cmp
  cases hka : a.kind <;> cases hkb : b.kind <;> rw [hka] at hab h3 hpa <;> rw [hkb] at hab h3 hpb <;>
    simp [location] at hab h3 hpa hpb ⊢ <;> try rfl
  · rw [position_ok hpa, position_ok hpb]
    simp [Nat.compare_swap]
  · exact strCmp_swap _ _
  · exact strCmp_swap _ _

/-- C15 where it holds: transitivity of "less" and of "not less". -/
theorem C15_transitive_partial (names : List Str) (s : List Param) (h : Orderly names s)
    (a b c : Param) (ha : a ∈ s) (hb : b ∈ s) (hc : c ∈ s)
    (hbody : [a, b, c].Pairwise fun x y => ¬ (location x.kind = .body ∧ location y.kind = .body)) :
    (less names a b = .ok true → less names b c = .ok true → less names a c = .ok true) ∧
    (less names b a = .ok false → less names c b = .ok false → less names c a = .ok false) := by
  obtain ⟨hf, hh⟩ := h
  have hs := lessP_swo names hh
  simp at hbody
  have e : ∀ {x y}, x ∈ s → y ∈ s → ¬ (location x.kind = .body ∧ location y.kind = .body) →
      less names x y = .ok (lessP names x y) := by
    intro x y hx hy hb
    exact less_pure (fun h1 h2 => ⟨hf x hx h1, hf y hy h2⟩) hb
  rw [e ha hb (by simpa using hbody.1.1), e hb hc (by simpa using hbody.2),
    e ha hc (by simpa using hbody.1.2), e hb ha (fun h => by simp [h] at hbody),
    e hc hb (fun h => by simp [h] at hbody), e hc ha (fun h => by simp [h] at hbody)]
  simp only [Res.ok.injEq]
  refine ⟨fun h1 h2 => ?_, hs.ntrans a ha b hb c hc⟩
  have h3 := hs.asymm a ha b hb h1
  cases hac : lessP names a c with
  | true => rfl
  | false =>
    have := hs.ntrans c hc a ha b hb hac h3
    rw [this] at h2; cases h2

/-- C15, consequence: for such operations the sort does not panic and every
stable sort - in particular the one of the standard library, whatever algorithm
it uses - returns the modelled result. -/
theorem C15_any_stable_sort (names : List Str) (l out : List Param) (hn : l.Nodup)
    (hord : Orderly names l)
    (hone : l.Pairwise fun x y => ¬ (location x.kind = .body ∧ location y.kind = .body))
    (hout : StableSorted (fun a b => less names a b == .ok true) l out) :
    sortParams names l = .ok out := by
  have hs := lessP_swo names hord.2
  have e : sortParams names l = .ok (sortP (lessP names) [] l) := by
    apply sortLoop_pure (by simp)
    refine List.Pairwise.imp_of_mem ?_ hone
    intro y x hy hx h
    exact less_pure (fun h1 h2 => ⟨hord.1 x hx h1, hord.1 y hy h2⟩) (fun h' => h h'.symm)
  have e' : ∀ x ∈ l, ∀ y ∈ l, x ≠ y → (less names x y == .ok true) = lessP names x y := by
    intro x hx y hy hxy
    have hb : ¬ (location x.kind = .body ∧ location y.kind = .body) :=
      pairwise_forall (R := fun x y => x ≠ y → ¬ (location x.kind = .body ∧ location y.kind = .body))
        (fun h hne hc => h hne.symm hc.symm) (fun x _ h => absurd rfl h)
        (List.Pairwise.imp (S := fun (x y : Param) => x ≠ y → ¬ (location x.kind = .body ∧ location y.kind = .body))
          (fun h _ => h) hone) hx hy hxy
    have := less_pure (names := names) (fun h1 h2 => ⟨hord.1 x hx h1, hord.1 y hy h2⟩) hb
    have this : less names x y = .ok (lessP names x y) := this
    rw [this]
    cases lessP names x y <;> rfl
  rw [e]
  congr 1
  have hmodel : StableSorted (lessP names) l (sortP (lessP names) [] l) := by
    refine ⟨sortP_perm _ _ _, sortP_sorted (acc := []) hs (by simp) (fun _ h => h) .nil, ?_⟩
    intro a b _ h2 hsub
    exact sortP_stable (acc := []) hs (by simp) (fun _ h => h) .nil h2 (.inr (.inr hsub))
  have hirr : ∀ x, lessP names x x = false := by
    intro x; unfold lessP; cases x.kind <;> simp [strCmp_refl]
  have hout' : StableSorted (lessP names) l out := by
    refine ⟨hout.perm, ?_, ?_⟩
    · refine List.Pairwise.imp_of_mem ?_ hout.sorted
      intro a b ha hb h
      by_cases hab : b = a
      · subst hab; exact hirr _
      · rw [← e' b (hout.perm.mem_iff.mp hb) a (hout.perm.mem_iff.mp ha) hab]; exact h
    · intro a b h1 h2 hsub
      by_cases hab : a = b
      · subst hab
        have := hn.sublist hsub
        simp at this
      · have ha : a ∈ l := hsub.subset (by simp)
        have hb : b ∈ l := hsub.subset (by simp)
        exact hout.stable a b (by rw [e' a ha b hb hab]; exact h1)
          (by rw [e' b hb a ha (Ne.symm hab)]; exact h2) hsub
  exact stable_unique hs hn hmodel hout'

/-- C15, consequence: with all path parameters in the path and a single body
pushed last (as the generator does) the sort does not panic. -/
theorem C15_no_panic (names : List Str) (xs : List Param) (b : Option Param)
    (hf : PathsFound names xs) (hx : ∀ p ∈ xs, location p.kind ≠ .body)
    (hb : ∀ p ∈ b, location p.kind = .body) :
    ∃ out, sortParams names (xs ++ b.toList) = .ok out :=
  ⟨_, sortParams_pure (.inr hf) hx hb⟩

example : Orderly ["id".toList]
    [⟨"id".toList, "id".toList, .type 0, .path⟩, ⟨"h".toList, "h".toList, .type 1, .header true⟩] := by
  refine ⟨?_, .inl ?_⟩ <;> simp [PathsFound, location]

/-! ## C16 -/

theorem search_unique {ids : List Str} {name r r' : Str} (h : Search ids name r)
    (h' : Search ids name r') : r = r' := by
  induction h with
  | stop name hn =>
    cases h' with
    | stop _ _ => rfl
    | next _ _ hm _ => exact absurd hm hn
  | next name r hm _ ih =>
    cases h' with
    | stop _ hn => exact absurd hm hn
    | next _ _ _ h' => exact ih h'

theorem fuel_search {ids : List Str} {n : Nat} {name r : Str}
    (h : uniqueIdentFuel ids n name = some r) :
    Search ids name r ∧ r ∉ ids ∧ ∃ k, r = List.replicate k '_' ++ name := by
  induction n generalizing name with
  | zero => cases h
  | succ n ih =>
    simp only [uniqueIdentFuel] at h
    split at h
    · rename_i hm
      obtain ⟨h1, h2, k, h3⟩ := ih h
      refine ⟨.next _ _ hm h1, h2, k + 1, ?_⟩
      rw [h3, List.replicate_succ', List.append_assoc]; rfl
    · rename_i hm
      cases h
      exact ⟨.stop _ hm, hm, 0, rfl⟩

theorem fuel_none {ids : List Str} {n : Nat} {name : Str} (h : uniqueIdentFuel ids n name = none) :
    ∀ k < n, List.replicate k '_' ++ name ∈ ids := by
  induction n generalizing name with
  | zero => intro k hk; omega
  | succ n ih =>
    simp only [uniqueIdentFuel] at h
    split at h
    · rename_i hm
      intro k hk
      cases k with
      | zero => exact hm
      | succ k =>
        have := ih h k (by omega)
        rwa [List.replicate_succ', List.append_assoc]
    · cases h

theorem nodup_length_le {l ids : List Str} (hn : l.Nodup) (h : ∀ x ∈ l, x ∈ ids) :
    l.length ≤ ids.length := by
  induction l generalizing ids with
  | nil => simp
  | cons x l ih =>
    rw [List.nodup_cons] at hn
    have hx : x ∈ ids := h x (by simp)
    have := ih (ids := ids.erase x) hn.2 (by
      intro y hy
      have : y ≠ x := by rintro rfl; exact hn.1 hy
      exact (List.mem_erase_of_ne this).mpr (h y (by simp [hy])))
    rw [List.length_erase_of_mem hx] at this
    have : 0 < ids.length := List.length_pos_of_mem hx
    simp; omega

theorem fuel_enough (ids : List Str) (name : Str) :
    ∃ r, uniqueIdentFuel ids (ids.length + 1) name = some r := by
  cases h : uniqueIdentFuel ids (ids.length + 1) name with
  | some r => exact ⟨r, rfl⟩
  | none =>
    have hall := fuel_none h
    have hl := nodup_length_le (ids := ids)
      (l := (List.range (ids.length + 1)).map fun k => List.replicate k '_' ++ name) ?_ ?_
    · simp at hl
      omega
    · rw [List.Nodup, List.pairwise_map]
      refine List.Pairwise.imp ?_ List.nodup_range
      intro a b hab he
      have := congrArg List.length he
      simp at this; omega
    · intro x hx
      obtain ⟨k, hk, rfl⟩ := List.mem_map.mp hx
      exact hall k (by simpa using hk)

/-- C16: the search for a fresh name terminates for every set of identifiers,
its result is the modelled one, and it is not among the identifiers. -/
theorem C16_search (ids : List Str) (name : Str) :
    (∃ r, Search ids name r) ∧ (∀ r, Search ids name r → r = uniqueIdent name ids) ∧
    uniqueIdent name ids ∉ ids ∧ ∃ k, uniqueIdent name ids = List.replicate k '_' ++ name := by
  obtain ⟨r, hr⟩ := fuel_enough ids name
  obtain ⟨h1, h2, h3⟩ := fuel_search hr
  have e : uniqueIdent name ids = r := by simp [uniqueIdent, hr]
  rw [e]
  exact ⟨⟨r, h1⟩, fun r' h' => search_unique h' h1, h2, h3⟩

/-- C16 is false: a parameter called `header_map` is shadowed by a local variable
of the generated method. -/
theorem C16_hygiene_fails : ∃ (params : List Str) (x : Str), x ∈ (locals params).all ∧ x ∈ params :=
  ⟨["header_map".toList], "header_map".toList, by simp [Locals.all, locals], by simp⟩

/-- C16 unless a parameter is called `header_map`: no local variable has the name
of a parameter. -/
theorem C16_hygiene_partial (params : List Str) (h : "header_map".toList ∉ params) :
    ∀ x ∈ (locals params).all, x ∉ params := by
  intro x hx
  simp only [Locals.all, locals, List.mem_cons, List.not_mem_nil, or_false] at hx
  rcases hx with rfl | rfl | rfl | rfl | rfl
  · exact (C16_search params _).2.2.1
  · exact (C16_search params _).2.2.1
  · exact (C16_search params _).2.2.1
  · exact (C16_search params _).2.2.1
  · exact h

theorem strip_inj {k k' : Nat} {c c' : Char} {s s' : Str} (hc : c ≠ '_') (hc' : c' ≠ '_')
    (h : List.replicate k '_' ++ c :: s = List.replicate k' '_' ++ c' :: s') : c :: s = c' :: s' := by
  induction k generalizing k' with
  | zero =>
    cases k' with
    | zero => simpa using h
    | succ k' => simp [List.replicate_succ] at h; exact absurd h.1 hc
  | succ k ih =>
    cases k' with
    | zero => simp [List.replicate_succ] at h; exact absurd h.1.symm hc'
    | succ k' =>
      simp only [List.replicate_succ, List.cons_append, List.cons.injEq, true_and] at h
      exact ih h

/-- C16: the local variables are distinct from each other. -/
theorem C16_locals_distinct (params : List Str) : (locals params).all.Nodup := by
  obtain ⟨k₁, h₁⟩ := (C16_search params "url".toList).2.2.2
  obtain ⟨k₂, h₂⟩ := (C16_search params "request".toList).2.2.2
  obtain ⟨k₃, h₃⟩ := (C16_search params "response".toList).2.2.2
  obtain ⟨k₄, h₄⟩ := (C16_search params "result".toList).2.2.2
  have h₅ : (locals params).headerMap = List.replicate 0 '_' ++ "header_map".toList := rfl
  have key : ∀ {k k' : Nat} {a b : Str}, (∃ c s, c ≠ '_' ∧ a = c :: s) → (∃ c s, c ≠ '_' ∧ b = c :: s) →
      a ≠ b → List.replicate k '_' ++ a ≠ List.replicate k' '_' ++ b := by
    rintro k k' a b ⟨c, s, hc, rfl⟩ ⟨c', s', hc', rfl⟩ hne he
    exact hne (strip_inj hc hc' he)
  have f : ∀ c s, c ≠ '_' → ∃ c' s', c' ≠ '_' ∧ (c :: s : Str) = c' :: s' := fun c s h => ⟨c, s, h, rfl⟩
  have u := f 'u' "rl".toList (by decide)
  have q := f 'r' "equest".toList (by decide)
  have p := f 'r' "esponse".toList (by decide)
  have t := f 'r' "esult".toList (by decide)
  have m := f 'h' "eader_map".toList (by decide)
  simp only [Locals.all]
  rw [h₅]
  simp only [locals]
  rw [h₁, h₂, h₃, h₄]
  simp only [List.nodup_cons, List.mem_cons, List.not_mem_nil, or_false, not_or, not_false_eq_true,
    List.nodup_nil, and_true]
  exact ⟨⟨key u q (by decide), key u p (by decide), key u t (by decide), key u m (by decide)⟩,
    ⟨key q p (by decide), key q t (by decide), key q m (by decide)⟩,
    ⟨key p t (by decide), key p m (by decide)⟩, key t m (by decide)⟩

example : (locals ["url".toList, "_url".toList, "request".toList]).all =
    ["__url".toList, "_request".toList, "response".toList, "result".toList, "header_map".toList] := by
  decide

/-! ## C59: path parameters and the template -/

/-- C59 is false: an operation with a single path parameter that does not occur
in the path is accepted (the argument is then unused). -/
theorem C59_in_template_fails : ∃ (pl : List DocParam) (as : List Param) (a : Param),
    processParams id [] pl [] none = .ok as ∧ a ∈ as ∧ location a.kind = .path ∧
    a.apiName ∉ ([] : List Str) :=
  ⟨[⟨"id".toList, .path true, true, true, 0⟩], [⟨"id".toList, "id".toList, .type 0, .path⟩],
   ⟨"id".toList, "id".toList, .type 0, .path⟩, rfl, by simp, rfl, by simp⟩

/-- C59 for operations with at least two path parameters. -/
theorem C59_in_template_partial (san : Str → Str) (names : List Str) (pl ol : List DocParam)
    (body : Option Param) (as : List Param) (h : processParams san names pl ol body = .ok as)
    (htwo : 2 ≤ (as.filter fun a => location a.kind == .path).length) :
    ∀ a ∈ as, location a.kind = .path → a.apiName ∈ names := by
  simp only [processParams] at h
  obtain ⟨conv, _, h⟩ := bind_ok_inv h
  have hperm : as.Perm (conv ++ body.toList) := by simpa using sortLoop_perm h
  rw [(hperm.filter _).length_eq] at htwo
  rcases sortParams_found h with h' | h'
  · omega
  · intro a ha
    exact h' a (hperm.mem_iff.mp ha)

end Progenitor.Props

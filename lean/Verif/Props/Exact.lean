import Verif.Props.Params

/-!
# C13 and C15: exactly when they hold

`C13_override_partial` and `C15_antisymmetric_partial` have conditions; here these conditions are shown to be necessary, and weakened
where they are not.
-/

namespace Progenitor.Props

open Progenitor Progenitor.Spec Progenitor.Params

/-! ## C13 -/

theorem find_only {l : List DocParam} {p : DocParam} (hp : p ∈ l) (hu : ∀ q ∈ l, q.name = p.name → q = p) :
    (((l.map fun p => (p.name, p)).reverse.find? fun e => e.1 = p.name).map Prod.snd) = some p := by
  cases hf : (l.map fun p => (p.name, p)).reverse.find? fun e => e.1 = p.name with
  | none =>
    rw [List.find?_eq_none] at hf
    exact absurd (by simp) (hf (p.name, p) (by simp only [List.mem_reverse, List.mem_map]; exact ⟨p, hp, rfl⟩))
  | some e =>
    have h1 : e.1 = p.name := by simpa using List.find?_some hf
    have h2 := List.mem_of_find?_eq_some hf
    rw [List.mem_reverse, List.mem_map] at h2
    obtain ⟨q, hq, rfl⟩ := h2
    rw [Option.map_some, hu q hq h1]

theorem find_none {l : List DocParam} {k : Str} (hu : ∀ q ∈ l, q.name ≠ k) :
    (((l.map fun p => (p.name, p)).reverse.find? fun e => e.1 = k).map Prod.snd) = none := by
  rw [Option.map_eq_none_iff, List.find?_eq_none]
  intro e he
  rw [List.mem_reverse, List.mem_map] at he
  obtain ⟨q, hq, rfl⟩ := he
  simpa using hu q hq

/-- Two effective parameters are the same if they have the same name and location. -/
theorem effective_same {pl ol : List DocParam} (hp : NoDuplicates pl) (ho : NoDuplicates ol) {p q : DocParam}
    (h : Effective pl ol p) (h' : Effective pl ol q) (e : SameParam p q) : p = q := by
  have one : ∀ {l : List DocParam}, NoDuplicates l → p ∈ l → q ∈ l → p = q := by
    intro l hl hp hq
    refine Classical.byContradiction fun hne => ?_
    exact pairwise_forall (R := fun a b => a ≠ b → ¬ SameParam a b)
      (fun {a b} h hab hs => h hab.symm ⟨hs.1.symm, hs.2.symm⟩) (by intro x _ h; exact absurd rfl h)
      (List.Pairwise.imp (S := fun a b => a ≠ b → ¬ SameParam a b) (fun h _ => h) hl) hp hq hne e
  rcases h with h | h <;> rcases h' with h' | h'
  · exact one ho h h'
  · exact absurd ⟨e.1.symm, e.2.symm⟩ (h'.2 p h)
  · exact absurd e (h.2 q h')
  · exact one hp h.1 h'.1

/-- C13, exactly: when the parameters of an operation are accepted, each effective parameter is an argument of the generated method if
and only if no two effective parameters have the same name. -/
theorem C13_override_iff (san : Str → Str) (names : List Str) (pl ol : List DocParam) (body : Option Param) (as : List Param)
    (hp : NoDuplicates pl) (ho : NoDuplicates ol) (hb : ∀ b ∈ body, location b.kind = .body)
    (h : processParams san names pl ol body = .ok as) :
    (∀ p, Effective pl ol p → ∃ a ∈ as, Describes p a) ↔
      ∀ p q, Effective pl ol p → Effective pl ol q → p.name = q.name → docLocation p.kind = docLocation q.kind := by
  have h0 := h
  simp only [processParams] at h
  obtain ⟨conv, hc, h⟩ := bind_ok_inv h
  have hperm : as.Perm (conv ++ body.toList) := by simpa using sortLoop_perm h
  have hf := convertAll_forall₂ hc
  have names_eq : ∀ {vs : List DocParam} {cs : List Param},
      Spec.Forall₂ (fun p a => convert san p = .ok a) vs cs → cs.map Param.apiName = vs.map DocParam.name := by
    intro vs cs hvc
    induction hvc with
    | nil => rfl
    | cons hpa _ ih => simp only [List.map_cons, ih, (convert_describes hpa).1.1]
  have hsort : BTree.Sorted (combined pl ol) := BTree.insertAll_sorted (BTree.insertAll_sorted .nil _) _
  constructor
  · intro hall p q he he' hn
    obtain ⟨a, ha, hd⟩ := hall p he
    obtain ⟨b, hb', hd'⟩ := hall q he'
    have inConv : ∀ {a : Param} {p : DocParam}, a ∈ as → Describes p a → a ∈ conv := by
      intro a p ha hd
      rcases List.mem_append.mp (hperm.mem_iff.mp ha) with ha | ha
      · exact ha
      · have := hb a (by simpa using ha)
        rw [hd.2.1] at this
        cases hk : p.kind <;> rw [hk] at this <;> simp [docLocation] at this
    have hnames : (conv.map Param.apiName).Nodup := by
      have h1 : conv.map Param.apiName = (combined pl ol).map Prod.fst := by
        rw [names_eq hf, BTree.values, List.map_map]
        apply List.map_congr_left
        intro e he
        have key : ∀ (m : BTree.Map DocParam) (l : List DocParam), (∀ e ∈ m, e.2.name = e.1) →
            ∀ e ∈ BTree.insertAll m (l.map fun p => (p.name, p)), e.2.name = e.1 := by
          intro m l
          induction l generalizing m with
          | nil => intro hm e he; exact hm e he
          | cons x l ih =>
            intro hm
            apply ih
            intro e he
            rcases BTree.mem_insert_key he with rfl | he
            · rfl
            · exact hm e he
        exact key _ _ (key _ _ (by simp)) e he
      rw [h1]
      exact BTree.values_nodup_keys hsort
    have : a = b := by
      have e : a.apiName = b.apiName := by rw [hd.1, hd'.1, hn]
      have ha := inConv ha hd
      have hb := inConv hb' hd'
      rw [List.Nodup, List.pairwise_map] at hnames
      refine Classical.byContradiction fun hne => ?_
      exact pairwise_forall (R := fun a b => a ≠ b → a.apiName ≠ b.apiName) (fun {a b} h hab => (h hab.symm).symm)
        (by intro x _ h; exact absurd rfl h) (List.Pairwise.imp (S := fun (a b : Param) => a ≠ b → a.apiName ≠ b.apiName) (fun h _ => h) hnames) ha hb hne e
    rw [← hd.2.1, ← hd'.2.1, this]
  · intro hu p he
    have hmem : p ∈ BTree.values (combined pl ol) := by
      have hget : BTree.get p.name (combined pl ol) = some p := by
        rw [combined, BTree.get_insertAll]
        rcases he with he | ⟨he, hno⟩
        · rw [find_only he, Option.some_or]
          intro q hq e
          exact (effective_same hp ho (.inl he) (.inl hq) ⟨e.symm, hu p q (.inl he) (.inl hq) e.symm⟩).symm
        · rw [find_none, Option.none_or, parameterMap, BTree.get_insertAll, find_only he]
          · rfl
          · intro q hq e
            refine Classical.byContradiction fun hne => ?_
            by_cases hex : ∃ r ∈ ol, SameParam q r
            · obtain ⟨r, hr, hs⟩ := hex
              exact hno r hr ⟨e.symm.trans hs.1, hu p r (.inr ⟨he, hno⟩) (.inl hr) (e.symm.trans hs.1)⟩
            · have hq' : Effective pl ol q := .inr ⟨hq, fun r hr hs => hex ⟨r, hr, hs⟩⟩
              exact hne (effective_same hp ho hq' (.inr ⟨he, hno⟩) ⟨e, hu q p hq' (.inr ⟨he, hno⟩) e⟩)
          · intro q hq e
            exact hno q hq ⟨e.symm, hu p q (.inr ⟨he, hno⟩) (.inl hq) e.symm⟩
      rw [← BTree.mem_iff_get hsort] at hget
      simp only [BTree.values, List.mem_map, Prod.exists, exists_eq_right]
      exact ⟨_, hget⟩
    have hl : ∀ {vs : List DocParam} {cs : List Param},
        Spec.Forall₂ (fun p a => convert san p = .ok a) vs cs → ∀ p ∈ vs, ∃ a ∈ cs, Describes p a := by
      intro vs cs hvc
      induction hvc with
      | nil => intro p hp; cases hp
      | cons hpa _ ih =>
        intro p hp
        rcases List.mem_cons.mp hp with rfl | hp
        · exact ⟨_, by simp, (convert_describes hpa).1⟩
        · obtain ⟨a, ha, hd⟩ := ih p hp; exact ⟨a, by simp [ha], hd⟩
    obtain ⟨a, ha, hd⟩ := hl hf p hmem
    exact ⟨a, hperm.mem_iff.mpr (by simp [ha]), hd⟩

/-- A path parameter that the operation redefines, while the path item has a query parameter of another name: all effective parameters
are arguments. -/
example : ∃ as, processParams id ["id".toList]
      [⟨"id".toList, .path true, true, true, 0⟩, ⟨"q".toList, .query true none, false, true, 1⟩]
      [⟨"id".toList, .path true, true, true, 2⟩] none = .ok as ∧ as.length = 2 := ⟨_, rfl, rfl⟩

/-! ## C15 -/

/-- C15, exactly: if the path parameters occur in the path, the comparison is antisymmetric if and only if there are no header
parameters or there is no body. -/
theorem C15_antisymmetric_iff (names : List Str) (s : List Param) (hf : PathsFound names s) :
    (∀ a ∈ s, ∀ b ∈ s, ¬ (location a.kind = .body ∧ location b.kind = .body) →
      ∃ o, cmp names a b = .ok o ∧ cmp names b a = .ok o.swap) ↔
    (∀ p ∈ s, location p.kind ≠ .body) ∨ (∀ p ∈ s, location p.kind ≠ .header) := by
  constructor
  · intro h
    refine Classical.byContradiction fun hn => ?_
    simp only [not_or, Classical.not_forall, Classical.not_not] at hn
    obtain ⟨⟨b, hb, kb⟩, a, ha, ka⟩ := hn
    obtain ⟨o, h1, h2⟩ := h a ha b hb (by rw [ka]; simp)
    unfold cmp at h1 h2
    cases hka : a.kind <;> cases hkb : b.kind <;> rw [hka] at ka h1 h2 <;> rw [hkb] at kb h1 h2 <;> simp [location] at ka kb
    simp only [Res.ok.injEq] at h1 h2
    subst h1
    simp at h2
  · intro h a ha b hb hab
    exact C15_antisymmetric_partial names s ⟨hf, h⟩ a b ha hb hab

theorem strCmp_same {a b : Str} (h : ¬ strCmp a b = .lt) (h' : ¬ strCmp b a = .lt) : a = b := by
  cases hc : strCmp a b with
  | lt => exact absurd hc h
  | eq => exact strCmp_eq.mp hc
  | gt => exact absurd (strCmp_gt.mp hc) h'

/-- C15, exactly: if the path parameters occur in the path, "not less in either direction" is transitive if and only if there is no
body or all header parameters have the same name (so that there is at most one). -/
theorem C15_incomparable_iff (names : List Str) (s : List Param) (hf : PathsFound names s)
    (hone : ∀ a ∈ s, ∀ b ∈ s, location a.kind = .body → location b.kind = .body → a = b) :
    (∀ a ∈ s, ∀ b ∈ s, ∀ c ∈ s, a ≠ b → b ≠ c → a ≠ c →
      less names a b = .ok false → less names b a = .ok false → less names b c = .ok false → less names c b = .ok false →
      less names a c = .ok false ∧ less names c a = .ok false) ↔
    (∀ p ∈ s, location p.kind ≠ .body) ∨
      ∀ p ∈ s, ∀ q ∈ s, location p.kind = .header → location q.kind = .header → p.apiName = q.apiName := by
  have hpure : ∀ a ∈ s, ∀ b ∈ s, a ≠ b → less names a b = .ok (lessP names a b) := by
    intro a ha b hb hne
    exact less_pure (fun h1 h2 => ⟨hf a ha h1, hf b hb h2⟩) fun hk => hne (hone a ha b hb hk.1 hk.2)
  constructor
  · intro h
    refine Classical.byContradiction fun hn => ?_
    simp only [not_or, Classical.not_forall, Classical.not_not] at hn
    obtain ⟨⟨b, hb, kb⟩, p, hp, q, hq, kp, kq, hne⟩ := hn
    have hpb : p ≠ b := fun e => by rw [e, kb] at kp; cases kp
    have hbq : b ≠ q := fun e => by rw [← e, kb] at kq; cases kq
    have hpq : p ≠ q := fun e => hne (by rw [e])
    have header_body : ∀ {x}, location x.kind = .header → lessP names x b = false ∧ lessP names b x = false := by
      intro x kx
      unfold lessP
      cases hkx : x.kind <;> cases hkb : b.kind <;> rw [hkx] at kx <;> rw [hkb] at kb <;> simp [location] at kx kb ⊢
    have := h p hp b hb q hq hpb hbq hpq
    rw [hpure p hp b hb hpb, hpure b hb p hp hpb.symm, hpure b hb q hq hbq, hpure q hq b hb hbq.symm,
      hpure p hp q hq hpq, hpure q hq p hp hpq.symm, (header_body kp).1, (header_body kp).2, (header_body kq).1,
      (header_body kq).2] at this
    have := this rfl rfl rfl rfl
    unfold lessP at this
    cases hkp : p.kind <;> cases hkq : q.kind <;> rw [hkp] at kp this <;> rw [hkq] at kq this <;> simp [location] at kp kq this
    exact hne (strCmp_same this.1 this.2)
  · intro h a ha b hb c hc hab hbc hac
    rw [hpure a ha b hb hab, hpure b hb a ha hab.symm, hpure b hb c hc hbc, hpure c hc b hb hbc.symm,
      hpure a ha c hc hac, hpure c hc a ha hac.symm]
    have h1 : location a.kind = .body → location c.kind = .body → False := fun ka kc => hac (hone a ha c hc ka kc)
    have h2 : location b.kind = .body → location a.kind = .header → location c.kind = .header → a.apiName = c.apiName := by
      intro kb ka kc
      rcases h with h | h
      · exact absurd kb (h b hb)
      · exact h a ha c hc ka kc
    simp only [Res.ok.injEq]
    unfold lessP
    cases hka : a.kind <;> cases hkb : b.kind <;> cases hkc : c.kind <;> rw [hka] at h1 h2 <;> rw [hkb] at h2 <;>
      rw [hkc] at h1 h2 <;> simp [location] at h1 h2 ⊢
    · intro x1 x2 x3 x4; omega
    · intro x1 x2 x3 x4
      rw [strCmp_same x1 x2, strCmp_same x3 x4, strCmp_refl]; decide
    · intro x1 x2 x3 x4
      rw [strCmp_same x1 x2, strCmp_same x3 x4, strCmp_refl]; decide
    · rw [h2, strCmp_refl]; decide

/-- Headers and a body: neither holds. -/
example : PathsFound ["id".toList] [⟨"a".toList, "a".toList, .type 0, .header true⟩, ⟨"b".toList, "b".toList, .type 0, .header true⟩,
    ⟨"body".toList, "body".toList, .type 1, .body .json⟩] := by
  intro p hp hk
  simp only [List.mem_cons, List.not_mem_nil, or_false] at hp
  rcases hp with rfl | rfl | rfl <;> simp [location] at hk

end Progenitor.Props

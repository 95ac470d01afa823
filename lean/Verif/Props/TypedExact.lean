import Verif.Props.Typed

/-!
# C96: exactly when a client is generated for a document with schemas
-/

namespace Progenitor.Props

open Progenitor Progenitor.Params Progenitor.Refs Progenitor.Resp Progenitor.Names Progenitor.Builder Progenitor.Exec
  Progenitor.Schema Progenitor.RefDoc Progenitor.Spec Progenitor.Typed

variable {σ : Type}

/-- With enough calls allowed, the result is this one. -/
def Settles {α : Type} (f : Nat → M σ α) (s : σ) (a : α) (s' : σ) : Prop := ∃ N, ∀ n, N ≤ n → f n s = some (.ok (a, s'))

theorem settles_const {α : Type} {f : M σ α} {s s' : σ} {a : α} (h : f s = some (.ok (a, s'))) : Settles (fun _ => f) s a s' :=
  ⟨0, fun _ _ => h⟩

theorem m_bind_of {α β : Type} {f : M σ α} {g : α → M σ β} {s s' : σ} {a : α} (h : f s = some (.ok (a, s'))) :
    (f >>= g : M σ β) s = g a s' := by
  show Run.bind (f s) (fun x => g x.1 x.2) = _
  rw [h]
  rfl

theorem settles_bind {α β : Type} {f : Nat → M σ α} {g : Nat → α → M σ β} {s s1 s2 : σ} {a : α} {b : β} (h : Settles f s a s1)
    (h' : Settles (fun n => g n a) s1 b s2) : Settles (fun n => (f n >>= g n : M σ β)) s b s2 := by
  obtain ⟨N, h⟩ := h
  obtain ⟨N', h'⟩ := h'
  refine ⟨max N N', fun n hn => ?_⟩
  show (f n >>= g n : M σ β) s = _
  rw [m_bind_of (h n (by omega))]
  exact h' n (by omega)

theorem settles_res {α : Type} {r : Res α} {s : σ} {a : α} (h : r = .ok a) : Settles (fun _ => (res r : M σ α)) s a s := by
  subst h
  exact settles_const rfl

theorem settles_pure {α : Type} {s : σ} {a : α} : Settles (fun _ => (pure a : M σ α)) s a s := settles_const rfl

theorem settles_get {s : σ} : Settles (fun _ => (Typed.get : M σ σ)) s s s := settles_const rfl

theorem settles_run {α : Type} {r : Nat → Run α} {s : σ} {a : α} (h : ∃ N, ∀ n, N ≤ n → r n = some (.ok a)) :
    Settles (fun n => (run (r n) : M σ α)) s a s := by
  obtain ⟨N, h⟩ := h
  refine ⟨N, fun n hn => ?_⟩
  show Run.bind (r n) (fun a => (pure (a, s) : Run (α × σ))) = _
  rw [h n hn]
  rfl

theorem calls_split {lib : Library σ} {a c : σ} {l m : List AskedType} (h : Calls lib a (l ++ m) c) :
    ∃ b, Calls lib a l b ∧ Calls lib b m c := by
  induction l generalizing a with
  | nil => exact ⟨a, .nil a, h⟩
  | cons x l ih =>
    cases h with
    | cons h1 h2 =>
      obtain ⟨b, hb, hc⟩ := ih h2
      exact ⟨b, .cons h1 hb, hc⟩

theorem calls_single {lib : Library σ} {a c : σ} {x : AskedType} (h : Calls lib a [x] c) : lib.add a x.1.1 x.1.2 = .ok (x.2, c) := by
  cases h with
  | cons h1 h2 => cases h2; exact h1

theorem calls_none {lib : Library σ} {a c : σ} (h : Calls lib a [] c) : c = a := by cases h; rfl

section

variable {lib : Library σ} {u : Unicode} {id : Str} {comps : Option SSections}

theorem resolve_of_leadsTo {T : Type} {sel : SSections → List (Str × RefOr T)} {a : RefOr T} {x : T} (h : LeadsTo comps sel a x) :
    ∃ N, ∀ n, N ≤ n → (resolve (comps.map sel) n a : Run T) = some (.ok x) := by
  cases comps with
  | none =>
    cases h
    refine ⟨1, fun n hn => ?_⟩
    obtain ⟨m, rfl⟩ : ∃ m, n = m + 1 := ⟨n - 1, by omega⟩
    rfl
  | some c =>
    obtain ⟨N, hN⟩ := (C55_denotes (sel c) a x).mpr h
    exact ⟨N, fun n hn => resolve_mono hn hN⟩

theorem items_of_lead {T : Type} {sel : SSections → List (Str × RefOr T)} {l : List (RefOr T)} {xs : List T}
    (h : Forall₂ (LeadsTo comps sel) l xs) : ∃ N, ∀ n, N ≤ n → items n (comps.map sel) l = some (.ok xs) := by
  induction h with
  | nil => exact ⟨0, fun _ _ => rfl⟩
  | cons h1 _ ih =>
    obtain ⟨N, hN⟩ := resolve_of_leadsTo h1
    obtain ⟨N', hN'⟩ := ih
    refine ⟨max N N', fun n hn => ?_⟩
    show Run.bind (resolve _ n _) _ = _
    rw [hN n (by omega)]
    show Run.bind (items n _ _) _ = _
    rw [hN' n (by omega)]
    rfl

theorem addType_of {what : Str} {s : OSchema} {st st' : σ} {t : Params.TypeId} {q : JSchema × Str} (hw : Wants u id what s q)
    (h : lib.add st q.1 q.2 = .ok (t, st')) : addType lib u id what s st = some (.ok (t, st')) := by
  obtain ⟨j, name⟩ := q
  obtain ⟨h1, h2⟩ := hw
  simp only at h1 h2 h
  subst h2
  unfold addType
  rw [h1]
  show some (lib.add st j _) = _
  rw [← h]
  simp

/-! ## Parameters -/

theorem convert_of (hl : LawfulTypes lib) {types : Types} {p : SParam} {q : DocParam} {s : OSchema} {x : AskedType} {st st' : σ} {a : Param}
    (hpq : SameButType p q) (hs : p.schema = some s) (hw : Wants u id p.name s x.1) (ha : lib.add st x.1.1 x.1.2 = .ok (x.2, st'))
    (ht : GivenType types q x.2) (hk : Knows (lib.info st') types) (hc : Params.convert (sanitize u .snake) q = .ok a) :
    Typed.convert lib u id p st = some (.ok (a, st')) := by
  obtain ⟨name, kind, required, schema⟩ := p
  obtain ⟨qname, qkind, qrequired, qhas, qty⟩ := q
  obtain ⟨h1, h2, h3, h4⟩ := hpq
  obtain ⟨h5, h6⟩ := ht
  simp only at h1 h2 h3 h4 h5 h6 hs hw
  subst h1 h3 h5 hs
  have hadd := addType_of hw ha
  cases h2 with
  | path b =>
    cases b with
    | false => cases hc
    | true =>
      simp only [Params.convert, h4, Option.isSome_some, if_true] at hc
      split at hc
      · rename_i hr
        cases hc
        simp only [Typed.convert, hr, if_true]
        rw [m_bind_of hadd]
        rfl
      · cases hc
  | query b o =>
    cases b with
    | false => cases hc
    | true =>
      simp only [Params.convert, h4, Option.isSome_some, if_true] at hc
      simp only [Typed.convert]
      rw [m_bind_of hadd, m_bind_of (a := st') (s' := st') rfl]
      have ho := h6 true o rfl
      cases hi : lib.info st' x.2 with
      | none => exact absurd hi (hl.there _ _ _ _ _ ha)
      | some i =>
        have hti := hk _ _ hi
        cases o with
        | some inner =>
          have := (ho inner).mp rfl
          rw [hti] at this
          cases this
          cases hc
          rfl
        | none =>
          cases hc
          cases i with
          | option inner =>
            have := (ho inner).mpr hti
            cases this
          | _ => rfl
  | header =>
    simp only [Params.convert, h4, Option.isSome_some, if_true] at hc
    cases hc
    simp only [Typed.convert]
    rw [m_bind_of hadd]
    rfl
  | cookie => cases hc

theorem convertAll_of (hl : LawfulTypes lib) {types : Types} {zs : List (SParam × DocParam)} {l : List AskedType} {st st' : σ}
    {as : List Param}
    (hz : Forall₂ (fun z x => SameButType z.1 z.2 ∧ (∃ s, z.1.schema = some s ∧ Wants u id z.1.name s x.1) ∧ GivenType types z.2 x.2) zs l)
    (hcalls : Calls lib st l st') (hk : Knows (lib.info st') types)
    (hc : Params.convertAll (sanitize u .snake) (zs.map Prod.snd) = .ok as) :
    Typed.convertAll lib u id (zs.map Prod.fst) st = some (.ok (as, st')) := by
  induction hz generalizing st as with
  | nil =>
    cases hcalls
    cases hc
    rfl
  | @cons z x zs l h1 _ ih =>
    obtain ⟨hsame, ⟨s, hs, hw⟩, ht⟩ := h1
    obtain ⟨a, ha, hc⟩ := Params.bind_ok_inv hc
    obtain ⟨as', has, hc⟩ := Params.bind_ok_inv hc
    cases hc
    cases hcalls with
    | cons c1 c2 =>
      have e1 := convert_of hl hsame hs hw c1 ht (knows_trans (calls_knows hl c2) hk) ha
      have e2 := ih c2 has
      simp only [List.map_cons, Typed.convertAll]
      rw [m_bind_of e1, m_bind_of e2]
      rfl

theorem sorted_unique {ps qs : List SParam} (hp : ps.Pairwise fun p q => strCmp p.name q.name = .lt)
    (hq : qs.Pairwise fun p q => strCmp p.name q.name = .lt) (h : ∀ p, p ∈ ps ↔ p ∈ qs) : ps = qs := by
  induction ps generalizing qs with
  | nil =>
    cases qs with
    | nil => rfl
    | cons q qs => exact absurd ((h q).mpr List.mem_cons_self) (by simp)
  | cons p ps ih =>
    cases qs with
    | nil => exact absurd ((h p).mp List.mem_cons_self) (by simp)
    | cons q qs =>
      rw [List.pairwise_cons] at hp hq
      have irr : ∀ p : SParam, strCmp p.name p.name ≠ .lt := fun p => by rw [strCmp_refl]; simp
      have e : p = q := by
        rcases List.mem_cons.mp ((h p).mp List.mem_cons_self) with e | e
        · exact e
        · rcases List.mem_cons.mp ((h q).mpr List.mem_cons_self) with e' | e'
          · exact e'.symm
          · exact absurd (strCmp_lt_trans (hq.1 p e) (hp.1 q e')) (irr q)
      subst e
      congr 1
      refine ih hp.2 hq.2 fun x => ?_
      constructor
      · intro hx
        rcases List.mem_cons.mp ((h x).mp (List.mem_cons_of_mem _ hx)) with rfl | hx'
        · exact absurd (hp.1 x hx) (irr x)
        · exact hx'
      · intro hx
        rcases List.mem_cons.mp ((h x).mpr (List.mem_cons_of_mem _ hx)) with rfl | hx'
        · exact absurd (hq.1 x hx) (irr x)
        · exact hx'

/-- Both lists of parameters at once. -/
theorem both_combined {pl ol : List SParam} {pl' ol' : List DocParam} (hp : Forall₂ SameButType pl pl')
    (ho : Forall₂ SameButType ol ol') :
    ∃ zs : List (SParam × DocParam), zs.map Prod.fst = BTree.values (Typed.combined pl ol) ∧
      zs.map Prod.snd = BTree.values (Params.combined pl' ol') ∧
      ∀ z ∈ zs, SameButType z.1 z.2 ∧ ∃ pre post, LastAt (pl ++ ol) pre z.1 post ∧ (pl' ++ ol')[pre.length]? = some z.2 := by
  have hall := forall₂_append hp ho
  have e2 : Params.combined pl' ol' = BTree.insertAll [] ((pl' ++ ol').map fun p => (p.name, p)) := by
    simp [Params.combined, parameterMap, BTree.insertAll]
  rw [typedCombined_append, e2]
  generalize pl ++ ol = l at hall
  generalize pl' ++ ol' = l' at hall
  have hmap : ∀ (l : List SParam) (l' : List DocParam), Forall₂ SameButType l l' →
      (l.zip l').map Prod.fst = l ∧ (l.zip l').map Prod.snd = l' ∧ ∀ z ∈ l.zip l', SameButType z.1 z.2 := by
    intro l l' h
    induction h with
    | nil => exact ⟨rfl, rfl, by simp⟩
    | cons h1 _ ih =>
      refine ⟨by simp [ih.1], by simp [ih.2.1], ?_⟩
      intro z hz
      rcases List.mem_cons.mp hz with rfl | hz
      · exact h1
      · exact ih.2.2 z hz
  obtain ⟨hfst, hsnd, hsame⟩ := hmap l l' hall
  have m1 : (l.map fun p => (p.name, p)) = ((l.zip l').map fun z => (z.1.name, z)).map fun e => (e.1, e.2.1) := by
    rw [List.map_map]
    conv => lhs; rw [← hfst]
    rw [List.map_map]
    rfl
  have m2 : (l'.map fun p => (p.name, p)) = ((l.zip l').map fun z => (z.1.name, z)).map fun e => (e.1, e.2.2) := by
    rw [List.map_map]
    conv => lhs; rw [← hsnd]
    rw [List.map_map]
    apply List.map_congr_left
    intro z hz
    simp only [Function.comp, (hsame z hz).1]
  refine ⟨BTree.values (BTree.insertAll [] ((l.zip l').map fun z => (z.1.name, z))), ?_, ?_, ?_⟩
  · have := insertAll_mapped (fun z : SParam × DocParam => z.1) ((l.zip l').map fun z => (z.1.name, z)) []
    rw [List.map_nil] at this
    rw [m1, this]
    simp [BTree.values, Function.comp_def]
  · have := insertAll_mapped (fun z : SParam × DocParam => z.2) ((l.zip l').map fun z => (z.1.name, z)) []
    rw [List.map_nil] at this
    rw [m2, this]
    simp [BTree.values, Function.comp_def]
  · intro z hz
    obtain ⟨e, he, rfl⟩ := List.mem_map.mp hz
    have hg := (BTree.mem_iff_get (k := e.1) (v := e.2) (BTree.insertAll_sorted .nil _)).mp he
    rw [BTree.get_insertAll] at hg
    have hg : ((((l.zip l').map fun z => (z.1.name, z)).reverse.find? fun x => x.1 = e.1).map Prod.snd) = some e.2 := by
      simpa [BTree.get] using hg
    rw [← List.map_reverse] at hg
    obtain ⟨y, hy, hye⟩ := Option.map_eq_some_iff.mp hg
    obtain ⟨hk, as, bs, hab, has⟩ := List.find?_eq_some_iff_append.mp hy
    obtain ⟨l1, l2, hl, h1, h2⟩ := List.map_eq_append_iff.mp hab
    obtain ⟨q, l3, rfl, hq, h3⟩ := List.map_eq_cons_iff.mp h2
    subst hq
    have hk : q.1.name = e.1 := by simpa using hk
    have hye : q = e.2 := hye
    subst hye
    have hzip : l.zip l' = l3.reverse ++ e.2 :: l1.reverse := by
      have := congrArg List.reverse hl
      simpa using this
    refine ⟨hsame _ (by rw [hzip]; simp), (l3.reverse).map Prod.fst, (l1.reverse).map Prod.fst, ⟨?_, ?_⟩, ?_⟩
    · rw [← hfst, hzip]; simp
    · intro r hr er
      obtain ⟨w, hw, rfl⟩ := List.mem_map.mp hr
      have := has (w.1.name, w) (by
        rw [← h1]
        exact List.mem_map_of_mem (f := fun z : SParam × DocParam => (z.1.name, z)) (List.mem_reverse.mp hw))
      simp [er, hk] at this
    · rw [← hsnd, hzip]; simp

theorem params_of (hl : LawfulTypes lib) {types : Types} {pl ol : List SParam} {pl' ol' : List DocParam} {l : List AskedType}
    (hp : Forall₂ SameButType pl pl') (ho : Forall₂ SameButType ol ol') (ht : ParamsTyped u types id (pl ++ ol) (pl' ++ ol') l)
    {st st' : σ} (hc : Calls lib st l st') (hk : Knows (lib.info st') types) {as : List Param}
    (ha : Params.convertAll (sanitize u .snake) (BTree.values (Params.combined pl' ol')) = .ok as) :
    Typed.convertAll lib u id (BTree.values (Typed.combined pl ol)) st = some (.ok (as, st')) := by
  obtain ⟨ps, hs, hm, hf⟩ := ht
  have e : ps = BTree.values (Typed.combined pl ol) := by
    refine sorted_unique hs (typedCombined_names pl ol) fun p => ?_
    rw [hm, mem_typedCombined]
  obtain ⟨zs, h1, h2, h3⟩ := both_combined hp ho
  rw [← h2] at ha
  rw [← h1]
  refine convertAll_of hl ?_ hc hk ha
  rw [e, ← h1] at hf
  have key : ∀ (zs : List (SParam × DocParam)) (l : List AskedType),
      (∀ z ∈ zs, SameButType z.1 z.2 ∧ ∃ pre post, LastAt (pl ++ ol) pre z.1 post ∧ (pl' ++ ol')[pre.length]? = some z.2) →
      Forall₂ (fun p a => ∃ s, p.schema = some s ∧ Wants u id p.name s a.1 ∧
        ∀ pre post, LastAt (pl ++ ol) pre p post → ∃ q, (pl' ++ ol')[pre.length]? = some q ∧ GivenType types q a.2)
        (zs.map Prod.fst) l →
      Forall₂ (fun z x => SameButType z.1 z.2 ∧ (∃ s, z.1.schema = some s ∧ Wants u id z.1.name s x.1) ∧
        GivenType types z.2 x.2) zs l := by
    intro zs
    induction zs with
    | nil => intro l _ h; cases h; exact .nil
    | cons z zs ih =>
      intro l hz h
      cases h with
      | cons h hr =>
        obtain ⟨s, hs, hw, hlast⟩ := h
        obtain ⟨hsame, pre, post, hla, hq⟩ := hz z List.mem_cons_self
        obtain ⟨q, hq', hg⟩ := hlast pre post hla
        rw [hq] at hq'
        cases hq'
        exact .cons ⟨hsame, ⟨s, hs, hw⟩, hg⟩ (ih _ (fun z hz' => hz z (List.mem_cons_of_mem _ hz')) hr)
  exact key zs l h3 hf

/-! ## The body -/

theorem mediaBase_unique {ct a b : Str} (h : MediaBase ct a) (h' : MediaBase ct b) : a = b := by
  rw [mediaBase_iff] at h h'
  rw [← h, h']

theorem body_of {b : Option (RefOr SContent)} {b' : Option (List (Str × BodyMedia))} {l : List AskedType}
    (h : BodyTyped comps u id b b' l) {st st' : σ} (hc : Calls lib st l st') {o : Option Param} (ho : getBodyParam b' = .ok o) :
    Settles (fun n => getBody lib comps n u id b) st o st' := by
  have hbody : ∀ {ct : Str} {x : BodySchema} {enc : Bool} {o : Option Param},
      getBodyParam (some [(ct, ⟨some x, enc⟩)]) = .ok o → ∃ c ty, ContentType.parse ct = .ok c ∧
        Progenitor.bodyType c ⟨some x, enc⟩ x = .ok ty ∧ o = some ⟨"body".toList, "body".toList, ty, .body c⟩ := by
    intro ct x enc o h
    obtain ⟨c, h1, h⟩ := Params.bind_ok_inv h
    obtain ⟨ty, h2, h⟩ := Params.bind_ok_inv h
    cases h
    exact ⟨c, ty, h1, h2, rfl⟩
  cases h with
  | none =>
    cases ho
    rw [calls_none hc]
    exact settles_pure
  | empty hr =>
    cases ho
    rw [calls_none hc]
    exact settles_bind (settles_run (resolve_of_leadsTo hr)) settles_pure
  | @octets r ct m s x p t hr hs hb hx hof =>
    rw [calls_none hc]
    obtain ⟨c, ty, h1, h2, rfl⟩ := hbody ho
    refine settles_bind (settles_run (resolve_of_leadsTo hr)) ?_
    obtain ⟨base, hb', hcase⟩ := (mediaType_iff ct c).mp h1
    rw [mediaBase_unique hb' hb] at hcase
    simp only [Typed.bodyOf, hs]
    refine settles_bind (settles_res h1) ?_
    have hc : c = .octetStream := by
      rcases hcase with ⟨h, _⟩ | ⟨_, h⟩ | ⟨_, h⟩ | ⟨_, h | h⟩
      · exact h
      all_goals exact absurd h (by decide)
    subst hc
    refine settles_bind (a := ty) (s1 := st) ?_ settles_pure
    refine settles_bind (settles_run (resolve_of_leadsTo hx)) ?_
    rw [if_pos ((bareString_iff isBinary_iff x).mpr hof)]
    cases h2
    exact settles_pure
  | @text r ct m s x b t base hr hs hb htext hx hof =>
    rw [calls_none hc]
    obtain ⟨c, ty, h1, h2, rfl⟩ := hbody ho
    refine settles_bind (settles_run (resolve_of_leadsTo hr)) ?_
    obtain ⟨base', hb', hcase⟩ := (mediaType_iff ct c).mp h1
    rw [mediaBase_unique hb' hb] at hcase
    simp only [Typed.bodyOf, hs]
    refine settles_bind (settles_res h1) ?_
    have hc : c = .text base := by
      rcases hcase with ⟨_, h⟩ | ⟨_, h⟩ | ⟨_, h⟩ | ⟨h, _⟩
      · rw [h] at htext; exact absurd htext (by decide)
      · rw [h] at htext; exact absurd htext (by decide)
      · rw [h] at htext; exact absurd htext (by decide)
      · exact h
    subst hc
    refine settles_bind (a := ty) (s1 := st) ?_ settles_pure
    refine settles_bind (settles_run (resolve_of_leadsTo hx)) ?_
    rw [if_pos ((bareString_iff isEmpty_iff x).mpr hof)]
    cases h2
    exact settles_pure
  | @typed r ct m s b p t q base hr hs hb hbase hw =>
    have hadd := addType_of hw (calls_single hc)
    obtain ⟨c, ty, h1, h2, rfl⟩ := hbody ho
    refine settles_bind (settles_run (resolve_of_leadsTo hr)) ?_
    obtain ⟨base', hb', hcase⟩ := (mediaType_iff ct c).mp h1
    rw [mediaBase_unique hb' hb] at hcase
    simp only [Typed.bodyOf, hs]
    refine settles_bind (settles_res h1) ?_
    have hcc : c = .json ∨ c = .form := by
      rcases hcase with ⟨_, h⟩ | ⟨h, _⟩ | ⟨h, _⟩ | ⟨_, h⟩
      · rw [h] at hbase; exact absurd hbase (by decide)
      · exact .inl h
      · exact .inr h
      · exact absurd hbase (by rcases h with h | h <;> rw [h] <;> decide)
    refine settles_bind (a := ty) (s1 := st') ?_ settles_pure
    have henc : m.encodingEmpty = true ∧ ty = .type t := by
      rcases hcc with rfl | rfl <;> simp only [Progenitor.bodyType] at h2 <;> split at h2 <;> rename_i he <;> cases h2 <;>
        exact ⟨he, rfl⟩
    obtain ⟨he, rfl⟩ := henc
    refine ⟨0, fun n _ => ?_⟩
    have e : Typed.bodyType lib comps n u id c m s = (do let t ← addType lib u id "body".toList s; pure (.type t) : M σ PType) := by
      rcases hcc with rfl | rfl <;> simp only [Typed.bodyType, he, if_true]
    show Typed.bodyType lib comps n u id c m s st = _
    rw [e, m_bind_of hadd]
    rfl

/-! ## Responses -/

theorem typedMedia_first {pre post : SContent} {m : Str} {mt : SMedia} (hp : ∀ e ∈ pre, ¬ IsJson e.1) (hj : IsJson m) :
    Typed.jsonMedia (pre ++ (m, mt) :: post) = some mt := by
  unfold Typed.jsonMedia
  rw [Option.map_eq_some_iff]
  refine ⟨(m, mt), List.find?_eq_some_iff_append.mpr ⟨decide_eq_true ((isJson_iff m).mpr hj), pre, post, rfl, fun e he => ?_⟩, rfl⟩
  rw [decide_eq_false fun h => hp e he ((isJson_iff e.1).mp h)]
  rfl

theorem sameMedia_json {c : SContent} {c' : DocResponse} (h : Forall₂ SameMedia c c') (hn : ∀ e ∈ c, ¬ IsJson e.1) :
    ∀ e ∈ c', ¬ IsJson e.1 := by
  induction h with
  | nil => simp
  | cons h1 _ ih =>
    intro e he
    rcases List.mem_cons.mp he with rfl | he
    · rw [h1.1]; exact hn _ List.mem_cons_self
    · exact ih (fun e he => hn e (List.mem_cons_of_mem _ he)) e he

theorem response_of {ws : Bool} {r : RefOr SContent} {c' : DocResponse} {l : List AskedType} (h : ResponseTyped comps u id r c' l)
    {st st' : σ} (hc : Calls lib st l st') {k : Resp.Kind} (hk : Resp.kindOf ws c' = .ok k) :
    ∃ c, LeadsTo comps SSections.responses r c ∧ Typed.kindOf lib u id ws c st = some (.ok (k, st')) := by
  cases h with
  | @json pre pre' m mt post post' s q t hr hp hj hs hw hpre hpost =>
    refine ⟨_, hr, ?_⟩
    have hadd := addType_of hw (calls_single hc)
    have hm' : Resp.jsonMedia (pre' ++ (m, ⟨mt.encodingEmpty, some t⟩) :: post') = some ⟨mt.encodingEmpty, some t⟩ :=
      jsonMedia_some.mpr ⟨pre', m, post', rfl, hj, sameMedia_json hpre hp⟩
    simp only [Resp.kindOf, hm'] at hk
    split at hk
    · rename_i he
      cases hk
      simp only [Typed.kindOf, typedMedia_first hp hj, he, hs, if_true]
      rw [m_bind_of hadd]
      rfl
    · cases hk
  | @other c c' hr hn hsame =>
    refine ⟨c, hr, ?_⟩
    rw [calls_none hc]
    have hn' := sameMedia_json hsame hn
    have hm' : Resp.jsonMedia c' = none := jsonMedia_none.mpr hn'
    simp only [Resp.kindOf, hm'] at hk
    simp only [Typed.kindOf, typedMedia_none.mpr hn]
    cases ws with
    | true => cases hk; rfl
    | false =>
      cases hsame with
      | nil => cases hk; rfl
      | cons _ _ => cases hk; rfl

theorem responses_of {ws : Bool} {rs : List (Status × RefOr SContent)} {rs' : List DocResponse} {l : List AskedType}
    (h : ResponsesTyped comps u id (rs.map Prod.snd) rs' l) {st st' : σ} (hc : Calls lib st l st') {xs : List Response}
    (hx : Resp.convertAll ws ((rs.map Prod.fst).zip rs') = .ok xs) :
    Settles (fun n => convertResponses lib comps n u id ws rs) st xs st' := by
  induction rs generalizing rs' l st xs with
  | nil =>
    cases h
    cases hx
    rw [calls_none hc]
    exact settles_pure
  | cons e rs ih =>
    obtain ⟨s, r⟩ := e
    cases h with
    | cons h1 h2 =>
      obtain ⟨s1, hc1, hc2⟩ := calls_split hc
      obtain ⟨k, hk, hx⟩ := Params.bind_ok_inv hx
      obtain ⟨ys, hy, hx⟩ := Params.bind_ok_inv hx
      cases hx
      obtain ⟨c, hr, hkk⟩ := response_of h1 hc1 hk
      exact settles_bind (settles_run (resolve_of_leadsTo hr)) (settles_bind (settles_const hkk)
        (settles_bind (ih h2 hc2 hy) settles_pure))

/-! ## Operations -/

theorem processResponses_inv {ws : Bool} {default : Option DocResponse} {codes : List (DocStatus × DocResponse)} {ys : List Response}
    (h : Resp.processResponses ws default codes = .ok ys) :
    ∃ xs, Resp.convertAll ws (default.toList.map (fun r => (Status.default, r)) ++ codes.map (fun e => (e.1.toStatus, e.2))) = .ok xs ∧
      ys = completed ws xs := by
  obtain ⟨xs, hx, _⟩ := Params.bind_ok_inv h
  refine ⟨xs, hx, ?_⟩
  have := processResponses_ok ws default codes xs hx
  rw [h] at this
  cases this
  rfl

theorem responses_join {d : SOperation} {ws : Bool} {default : Option DocResponse} {codes : List (DocStatus × DocResponse)}
    {l : List AskedType} {xs : List Response} (hcodes : codes.map Prod.fst = d.codes.map Prod.fst)
    (hdef : default.isSome = d.default.isSome)
    (ht : ResponsesTyped comps u id (d.default.toList ++ d.codes.map Prod.snd) (default.toList ++ codes.map Prod.snd) l)
    (hx : Resp.convertAll ws (default.toList.map (fun r => (Status.default, r)) ++ codes.map (fun e => (e.1.toStatus, e.2))) = .ok xs) :
    ∃ rs', ResponsesTyped comps u id
      ((d.default.toList.map (fun r => (Status.default, r)) ++ d.codes.map (fun e => (e.1.toStatus, e.2))).map Prod.snd) rs' l ∧
      Resp.convertAll ws (((d.default.toList.map (fun r => (Status.default, r)) ++
        d.codes.map (fun e => (e.1.toStatus, e.2))).map Prod.fst).zip rs') = .ok xs := by
  have e1 : (d.default.toList.map (fun r => (Status.default, r)) ++ d.codes.map (fun e => (e.1.toStatus, e.2))).map Prod.snd =
      d.default.toList ++ d.codes.map Prod.snd := by
    simp [List.map_map, Function.comp_def]
  refine ⟨default.toList ++ codes.map Prod.snd, by rw [e1]; exact ht, ?_⟩
  rw [← hx]
  congr 1
  have hz : ∀ (cs : List (DocStatus × RefOr SContent)) (cs' : List (DocStatus × DocResponse)), cs'.map Prod.fst = cs.map Prod.fst →
      ((cs.map fun e => (e.1.toStatus, e.2)).map Prod.fst).zip (cs'.map Prod.snd) = cs'.map fun e => (e.1.toStatus, e.2) := by
    intro cs
    induction cs with
    | nil => intro cs' h; cases cs' <;> simp_all
    | cons c cs ih =>
      intro cs' h
      cases cs' with
      | nil => simp at h
      | cons c' cs' =>
        simp only [List.map_cons, List.cons.injEq] at h
        simp only [List.map_cons, List.zip_cons_cons, ih cs' h.2, h.1]
  have hz := hz d.codes codes hcodes
  cases hd : d.default with
  | none =>
    rw [hd] at hdef
    cases default with
    | some x => cases hdef
    | none => simpa using hz
  | some r =>
    rw [hd] at hdef
    cases default with
    | none => cases hdef
    | some x => simpa using hz

theorem completed_there {st : σ} {ws : Bool} {rs : List Response}
    (h : ∀ x ∈ rs, ∀ t, x.kind = .type t → lib.info st t ≠ none) :
    ∀ x ∈ completed ws rs, ∀ t, x.kind = .type t → lib.info st t ≠ none := by
  intro x hx t hxt
  refine h x ?_ t hxt
  unfold completed at hx
  rcases List.mem_append.mp hx with hx | hx
  · split at hx
    · exact hx
    · rcases List.mem_append.mp hx with hx | hx
      · exact hx
      · rw [List.mem_singleton.mp hx] at hxt; cases hxt
  · split at hx
    · rw [List.mem_singleton.mp hx] at hxt; cases hxt
    · cases hx

theorem process_of (hl : LawfulTypes lib) {types : Types} {path method : Str} {d : SOperation} {d' : DocOperation} {l : List AskedType}
    (h : OperationTyped comps u types id d d' l) {st st' : σ} (hc : Calls lib st l st') (hk : Knows (lib.info st') types)
    {p : Processed} (hp : processOperation (sanitize u .snake) types path method { d' with operationId := id } = .ok p) :
    Settles (fun n => process lib comps n u id path method d) st p st' := by
  obtain ⟨htags, hws, hpag, pl, ol, l1, l2, l3, rfl, hpl, hol, hpl', hol', hps, hb, hcodes, hdef, hrs⟩ := h
  obtain ⟨s2, hc12, hc3⟩ := calls_split hc
  obtain ⟨s1, hc1, hc2⟩ := calls_split hc12
  obtain ⟨ps, h1, k1⟩ := Params.bind_ok_inv hp
  obtain ⟨b, h2, k2⟩ := Params.bind_ok_inv k1
  obtain ⟨tmp, h3, k3⟩ := Params.bind_ok_inv k2
  obtain ⟨qs, h4, k4⟩ := Params.bind_ok_inv k3
  obtain ⟨ys, h5, k5⟩ := Params.bind_ok_inv k4
  obtain ⟨w, h6, k6⟩ := Params.bind_ok_inv k5
  obtain ⟨m, h7, k7⟩ := Params.bind_ok_inv k6
  cases k7
  simp only at h1 h2 h5 h6
  rw [hws] at h5
  obtain ⟨xs, hx, rfl⟩ := processResponses_inv h5
  obtain ⟨rs', hrt, hrx⟩ := responses_join hcodes hdef hrs hx
  have r3 := responses_of hrt hc3 hrx
  have hthere : ∀ x ∈ xs, ∀ t, x.kind = .type t → lib.info st' t ≠ none := by
    obtain ⟨N, hN⟩ := r3
    exact responses_there hl (hN N (Nat.le_refl _))
  have hpg := pagination_knows hl hk (completed_there (ws := d.websocket) hthere) d.pagination qs
  rw [hpag, hpg] at h6
  have hk1 : Knows (lib.info s1) types :=
    knows_trans (knows_trans (calls_knows hl hc2) (calls_knows hl hc3)) hk
  refine settles_bind (settles_run (items_of_lead hpl)) ?_
  refine settles_bind (settles_run (items_of_lead hol)) ?_
  refine settles_bind (settles_const (params_of hl hpl' hol' hps hc1 hk1 h1)) ?_
  refine settles_bind (body_of hb hc2 h2) ?_
  refine settles_bind (settles_res h3) ?_
  refine settles_bind (settles_res h4) ?_
  refine settles_bind r3 ?_
  refine settles_bind settles_get ?_
  refine settles_bind (a := w) (settles_res ?_) ?_
  · rw [← h6]
    simp only [Typed.noConflict, Progenitor.noConflict, hws]
  · refine settles_bind (settles_res h7) ?_
    rw [htags, hws, hpag, hpg]
    exact settles_pure

theorem settles_congr {α : Type} {f g : Nat → M σ α} {s s' : σ} {a : α} (h : Settles f s a s') (e : ∀ n, g n s = f n s) :
    Settles g s a s' := by
  obtain ⟨N, h⟩ := h
  exact ⟨N, fun n hn => by rw [e, h n hn]⟩

theorem ops_of (hl : LawfulTypes lib) {types : Types} {path : Str} {os : List (Str × SRaw)} {os' : List (Str × Doc.RawOperation)}
    {l : List AskedType} (h : OpsTyped comps u types os os' l) {st st' : σ} (hc : Calls lib st l st') (hk : Knows (lib.info st') types)
    {ps : List Processed} (hp : Doc.processAll u types (os'.map fun e => (path, e.1, e.2)) = .ok ps) :
    Settles (fun n => Typed.processAll lib comps n u (os.map fun e => (path, e.1, e.2))) st ps st' := by
  induction h generalizing st ps with
  | nil =>
    cases hp
    rw [calls_none hc]
    exact settles_pure
  | cons h1 _ ih =>
    obtain ⟨s1, hc1, hc2⟩ := calls_split hc
    obtain ⟨p, h3, hp⟩ := Params.bind_ok_inv hp
    obtain ⟨qs, h4, hp⟩ := Params.bind_ok_inv hp
    cases hp
    exact settles_bind (process_of hl h1 hc1 (knows_trans (calls_knows hl hc2) hk) h3) (settles_bind (ih hc2 h4) settles_pure)

theorem settles_processAll_append {os os' : List (Str × Str × SRaw)} {st s1 st' : σ} {p1 p2 : List Processed}
    (h : Settles (fun n => Typed.processAll lib comps n u os) st p1 s1)
    (h' : Settles (fun n => Typed.processAll lib comps n u os') s1 p2 st') :
    Settles (fun n => Typed.processAll lib comps n u (os ++ os')) st (p1 ++ p2) st' := by
  obtain ⟨N, hN⟩ := h
  obtain ⟨N', h'⟩ := h'
  refine ⟨max N N', fun n hn => ?_⟩
  have h := hN n (by omega)
  replace h' := h' n (by omega)
  revert h
  show Typed.processAll lib comps n u os st = _ → Typed.processAll lib comps n u (os ++ os') st = _
  clear hn hN
  induction os generalizing st p1 with
  | nil =>
    intro h
    obtain ⟨rfl, rfl⟩ := m_pure_ok h
    exact h'
  | cons o os ih =>
    intro h
    obtain ⟨p, s2, h1, h⟩ := m_bind_ok h
    obtain ⟨ps', s3, h2, h⟩ := m_bind_ok h
    obtain ⟨rfl, rfl⟩ := m_pure_ok h
    simp only [List.cons_append, Typed.processAll]
    rw [m_bind_of h1, m_bind_of (ih h2)]
    rfl

theorem doc_processAll_split {types : Types} {os os' : List (Str × Str × Doc.RawOperation)} {ps : List Processed}
    (h : Doc.processAll u types (os ++ os') = .ok ps) :
    ∃ p1 p2, ps = p1 ++ p2 ∧ Doc.processAll u types os = .ok p1 ∧ Doc.processAll u types os' = .ok p2 := by
  induction os generalizing ps with
  | nil => exact ⟨[], ps, rfl, rfl, h⟩
  | cons o os ih =>
    obtain ⟨p, h1, h⟩ := Params.bind_ok_inv h
    obtain ⟨qs, h2, h⟩ := Params.bind_ok_inv h
    cases h
    obtain ⟨p1, p2, rfl, h3, h4⟩ := ih h2
    refine ⟨p :: p1, p2, rfl, ?_, h4⟩
    simp only [Doc.processAll, h1, h3, Res.bind_ok]
    rfl

theorem paths_of (hl : LawfulTypes lib) {types : Types} {paths : List (Str × Option (List (Str × SRaw)))}
    {paths' : List (Str × Option (List (Str × Doc.RawOperation)))} {l : List AskedType}
    (h : PathsTyped comps u types paths paths' l) {st st' : σ} (hc : Calls lib st l st') (hk : Knows (lib.info st') types)
    {ps : List Processed}
    (hp : Doc.processAll u types (paths'.flatMap fun p => match p.2 with
        | none => []
        | some ops => ops.map fun e => (p.1, e.1, e.2)) = .ok ps) :
    Settles (fun n => Typed.processAll lib comps n u (paths.flatMap fun p => match p.2 with
      | none => []
      | some ops => ops.map fun e => (p.1, e.1, e.2))) st ps st' := by
  induction h generalizing st ps with
  | nil =>
    cases hp
    rw [calls_none hc]
    exact settles_pure
  | cons h1 _ ih =>
    obtain ⟨s1, hc1, hc2⟩ := calls_split hc
    rw [List.flatMap_cons] at hp
    obtain ⟨p1, p2, rfl, h3, h4⟩ := doc_processAll_split hp
    simp only [List.flatMap_cons]
    exact settles_processAll_append (ops_of hl h1 hc1 (knows_trans (calls_knows hl hc2) hk) h3) (ih hc2 h4)

theorem convProps_of {l : List (Str × OSchema)} {js : List (Str × JSchema)}
    (h : Forall₂ (fun e f => f.1 = e.1 ∧ conv e.2 = .ok f.2) l js) : convProps l = .ok js := by
  induction h with
  | nil => rfl
  | @cons e f l js h1 _ ih =>
    obtain ⟨k, s⟩ := e
    obtain ⟨k', j⟩ := f
    obtain ⟨h1, h2⟩ := h1
    simp only at h1 h2
    subst h1
    simp only [convProps, h2, ih, Res.bind_ok]
    rfl

/-- C96: exactly these are the clients that are generated: whenever the library of types answers each of these calls, in this
order, and the document with these types has a client, a client is generated (given enough steps), and it is that one. -/
theorem C96_iff (hl : LawfulTypes lib) (d : SDocument) (s0 s1 : σ) (ms : List Processed) :
    (∃ n, Typed.rawMethods lib n u d s0 = some (.ok (ms, s1))) ↔
      ∃ js a l d', ConvertedComponents d js ∧ lib.addRefs s0 js = .ok a ∧ Calls lib a l s1 ∧
        DocumentTyped u (lib.info s1) d d' l ∧ Doc.rawMethods u (lib.info s1) d' = .ok ms := by
  constructor
  · rintro ⟨n, h⟩
    exact C96_document hl h
  · rintro ⟨js, a, l, d', hj, ha, hc, hd, hm⟩
    obtain ⟨w, hv, hm⟩ := Params.bind_ok_inv hm
    rw [validate_typed hd] at hv
    rw [doc_operations_eq] at hm
    have hpaths := paths_of hl hd.2 hc (fun _ _ h => h) hm
    have hcomp : addComponents lib (componentSchemas d) s0 = some (.ok ((), a)) := by
      unfold ConvertedComponents at hj
      rw [← componentSchemas_eq] at hj
      unfold addComponents
      rw [convProps_of hj]
      show Run.bind (some (lib.addRefs s0 js)) _ = _
      rw [ha]
      rfl
    obtain ⟨N, hN⟩ := settles_bind (g := fun n (_ : Unit) => _) (settles_res (s := s0) hv)
      (settles_bind (g := fun n (_ : Unit) => _) (settles_const hcomp) hpaths)
    exact ⟨N, hN N (Nat.le_refl _)⟩

end

end Progenitor.Props

import Verif.Spec.Typed
import Verif.Props.RefDocExact
import Verif.Props.SchemaPlain
import Verif.Props.Accepted

/-!
# C96: the types of a generated client are those of the schemas of the document
-/

namespace Progenitor.Props

open Progenitor Progenitor.Params Progenitor.Refs Progenitor.Resp Progenitor.Names Progenitor.Builder Progenitor.Exec
  Progenitor.Schema Progenitor.RefDoc Progenitor.Spec Progenitor.Typed

variable {σ : Type}

/-! ## Runs that succeed -/

theorem m_bind_ok {α β : Type} {f : M σ α} {g : α → M σ β} {s s' : σ} {b : β}
    (h : (f >>= g : M σ β) s = some (.ok (b, s'))) : ∃ a s1, f s = some (.ok (a, s1)) ∧ g a s1 = some (.ok (b, s')) := by
  obtain ⟨⟨a, s1⟩, h1, h2⟩ := run_bind_ok (f := f s) (g := fun x => g x.1 x.2) h
  exact ⟨a, s1, h1, h2⟩

theorem m_run_ok {α : Type} {r : Run α} {s s' : σ} {a : α} (h : (run r : M σ α) s = some (.ok (a, s'))) :
    r = some (.ok a) ∧ s' = s := by
  obtain ⟨b, h1, h2⟩ := run_bind_ok (f := r) (g := fun a => (pure (a, s) : Run (α × σ))) h
  cases h2
  exact ⟨h1, rfl⟩

theorem m_res_ok {α : Type} {r : Res α} {s s' : σ} {a : α} (h : (res r : M σ α) s = some (.ok (a, s'))) :
    r = .ok a ∧ s' = s := by
  obtain ⟨h1, h2⟩ := m_run_ok h
  exact ⟨Option.some.inj h1, h2⟩

theorem m_pure_ok {α : Type} {s s' : σ} {a b : α} (h : (pure a : M σ α) s = some (.ok (b, s'))) : b = a ∧ s' = s := by
  cases h
  exact ⟨rfl, rfl⟩

theorem m_get_ok {s s' : σ} {a : σ} (h : (Typed.get : M σ σ) s = some (.ok (a, s'))) : a = s ∧ s' = s := by
  cases h
  exact ⟨rfl, rfl⟩

theorem calls_append {lib : Library σ} {a b c : σ} {l m : List AskedType} (h : Calls lib a l b) (h' : Calls lib b m c) :
    Calls lib a (l ++ m) c := by
  induction h with
  | nil s => exact h'
  | cons h1 _ ih => exact .cons h1 (ih h')

theorem calls_one {lib : Library σ} {a b : σ} {x : AskedType} (h : lib.add a x.1.1 x.1.2 = .ok (x.2, b)) :
    Calls lib a [x] b := .cons h (.nil b)

theorem knows_trans {a b c : Types} (h : Knows a b) (h' : Knows b c) : Knows a c := fun t i ht => h' t i (h t i ht)

theorem calls_knows {lib : Library σ} (hl : LawfulTypes lib) {a b : σ} {l : List AskedType} (h : Calls lib a l b) :
    Knows (lib.info a) (lib.info b) := by
  induction h with
  | nil s => exact fun _ _ h => h
  | cons h1 _ ih => exact knows_trans (hl.grows _ _ _ _ _ h1) ih

section

variable {lib : Library σ} {u : Unicode} {id : Str} {comps : Option SSections} {n : Nat}

theorem addType_ok {what : Str} {s : OSchema} {st st' : σ} {t : Params.TypeId}
    (h : addType lib u id what s st = some (.ok (t, st'))) :
    ∃ q, Wants u id what s q ∧ lib.add st q.1 q.2 = .ok (t, st') := by
  obtain ⟨j, s1, h1, h2⟩ := m_bind_ok h
  obtain ⟨hj, rfl⟩ := m_res_ok h1
  refine ⟨(j, sanitize u .pascal (id ++ '-' :: what)), ⟨hj, ?_⟩, Option.some.inj h2⟩
  simp

/-! ## Parameters -/

/-- The type that is known to be inside of an option. -/
def innerOf (types : Types) (t : Params.TypeId) : Option Params.TypeId :=
  match types t with
  | some (.option i) => some i
  | _ => none

theorem innerOf_iff (types : Types) (t i : Params.TypeId) : innerOf types t = some i ↔ types t = some (.option i) := by
  unfold innerOf
  split <;> rename_i h
  · rw [h]; simp
  · constructor
    · intro h; cases h
    · intro h'; exact absurd h' (h i)

def elKind (types : Types) (t : Params.TypeId) : SKind → DocKind
  | .path b => .path b
  | .query b => .query b (innerOf types t)
  | .header => .header
  | .cookie => .cookie

/-- The parameter with its type. -/
def el (types : Types) (asg : Str → Params.TypeId) (p : SParam) : DocParam :=
  ⟨p.name, elKind types (asg p.name) p.kind, p.required, p.schema.isSome, asg p.name⟩

theorem el_same (types : Types) (asg : Str → Params.TypeId) (p : SParam) : SameButType p (el types asg p) := by
  refine ⟨rfl, ?_, rfl, rfl⟩
  unfold el
  cases p.kind <;> constructor

theorem el_type (types : Types) (asg : Str → Params.TypeId) (p : SParam) : GivenType types (el types asg p) (asg p.name) := by
  refine ⟨rfl, fun b o hk inner => ?_⟩
  have : o = innerOf types (asg p.name) := by
    unfold el at hk
    cases hp : p.kind <;> rw [hp] at hk <;> cases hk
    rfl
  rw [this, innerOf_iff]

theorem convert_asked {p : SParam} {st st' : σ} {q : Param} (h : Typed.convert lib u id p st = some (.ok (q, st'))) :
    ∃ (s : OSchema) (a : AskedType), p.schema = some s ∧ Wants u id p.name s a.1 ∧ lib.add st a.1.1 a.1.2 = .ok (a.2, st') ∧
      ∀ types, Knows (lib.info st') types → ∀ asg : Str → Params.TypeId, asg p.name = a.2 →
        Params.convert (sanitize u .snake) (el types asg p) = .ok q := by
  obtain ⟨name, kind, required, schema⟩ := p
  rcases kind with (_ | _) | (_ | _) | _ | _
  · exact absurd (m_res_ok h).1 (by simp)
  · cases required with
    | false => exact absurd (m_res_ok h).1 (by simp)
    | true =>
      cases schema with
      | none => exact absurd (m_res_ok h).1 (by simp)
      | some s =>
        obtain ⟨t, s1, h1, h2⟩ := m_bind_ok h
        obtain ⟨rfl, rfl⟩ := m_pure_ok h2
        obtain ⟨w, hw, ha⟩ := addType_ok h1
        refine ⟨s, (w, t), rfl, hw, ha, fun types _ asg e => ?_⟩
        simp_all [Params.convert, el, elKind]
  · exact absurd (m_res_ok h).1 (by simp)
  · cases schema with
    | none => exact absurd (m_res_ok h).1 (by simp)
    | some s =>
      obtain ⟨t, s1, h1, h2⟩ := m_bind_ok h
      obtain ⟨w, hw, ha⟩ := addType_ok h1
      obtain ⟨x, s2, h3, h4⟩ := m_bind_ok h2
      obtain ⟨rfl, rfl⟩ := m_get_ok h3
      dsimp only at h4
      have key : ∀ types : Types, Knows (lib.info s2) types → ∀ i, lib.info s2 t = some i →
          innerOf types t = match i with | .option o => some o | _ => none := by
        intro types ht i hi
        unfold innerOf
        rw [ht _ _ hi]
        cases i <;> rfl
      cases hi : lib.info s2 t with
      | none =>
        rw [hi] at h4
        exact absurd (m_res_ok h4).1 (by simp)
      | some i =>
        rw [hi] at h4
        cases i with
        | option inner =>
          obtain ⟨rfl, rfl⟩ := m_pure_ok h4
          refine ⟨s, (w, t), rfl, hw, ha, fun types ht asg e => ?_⟩
          have := key types ht _ hi
          simp_all [Params.convert, el, elKind]
        | struct l =>
          obtain ⟨rfl, rfl⟩ := m_pure_ok h4
          refine ⟨s, (w, t), rfl, hw, ha, fun types ht asg e => ?_⟩
          have := key types ht _ hi
          simp_all [Params.convert, el, elKind]
        | vec l =>
          obtain ⟨rfl, rfl⟩ := m_pure_ok h4
          refine ⟨s, (w, t), rfl, hw, ha, fun types ht asg e => ?_⟩
          have := key types ht _ hi
          simp_all [Params.convert, el, elKind]
        | string =>
          obtain ⟨rfl, rfl⟩ := m_pure_ok h4
          refine ⟨s, (w, t), rfl, hw, ha, fun types ht asg e => ?_⟩
          have := key types ht _ hi
          simp_all [Params.convert, el, elKind]
        | other =>
          obtain ⟨rfl, rfl⟩ := m_pure_ok h4
          refine ⟨s, (w, t), rfl, hw, ha, fun types ht asg e => ?_⟩
          have := key types ht _ hi
          simp_all [Params.convert, el, elKind]
  · cases schema with
    | none => exact absurd (m_res_ok h).1 (by simp)
    | some s =>
      obtain ⟨t, s1, h1, h2⟩ := m_bind_ok h
      obtain ⟨rfl, rfl⟩ := m_pure_ok h2
      obtain ⟨w, hw, ha⟩ := addType_ok h1
      refine ⟨s, (w, t), rfl, hw, ha, fun types _ asg e => ?_⟩
      simp_all [Params.convert, el, elKind]
  · exact absurd (m_res_ok h).1 (by simp)

/-- All of them; names are distinct, so that the types can be given by name. -/
theorem convertAll_asked (hl : LawfulTypes lib) {ps : List SParam} (hn : (ps.map SParam.name).Nodup) {st st' : σ} {qs : List Param}
    (h : Typed.convertAll lib u id ps st = some (.ok (qs, st'))) :
    ∃ (l : List AskedType) (asg : Str → Params.TypeId), Calls lib st l st' ∧ Forall₂ (fun p a => (∃ s, p.schema = some s ∧ Wants u id p.name s a.1) ∧ a.2 = asg p.name) ps l ∧
      ∀ types, Knows (lib.info st') types → ∀ asg' : Str → Params.TypeId, (∀ p ∈ ps, asg' p.name = asg p.name) →
        Params.convertAll (sanitize u .snake) (ps.map (el types asg')) = .ok qs := by
  induction ps generalizing st qs with
  | nil =>
    obtain ⟨rfl, rfl⟩ := m_pure_ok h
    exact ⟨[], fun _ => 0, .nil _, .nil, fun _ _ _ _ => rfl⟩
  | cons p ps ih =>
    obtain ⟨q, s1, h1, h2⟩ := m_bind_ok h
    obtain ⟨qs', s2, h3, h4⟩ := m_bind_ok h2
    obtain ⟨rfl, rfl⟩ := m_pure_ok h4
    obtain ⟨s, a, hs, hw, ha, hc⟩ := convert_asked h1
    rw [List.map_cons, List.nodup_cons] at hn
    obtain ⟨l, asg, hcalls, hf, hall⟩ := ih hn.2 h3
    have hne : ∀ p' ∈ ps, p'.name ≠ p.name := fun p' hp' e => hn.1 (e ▸ List.mem_map_of_mem hp')
    refine ⟨a :: l, fun k => if k = p.name then a.2 else asg k, .cons ha hcalls, .cons ⟨⟨s, hs, hw⟩, by simp⟩ ?_, ?_⟩
    · refine forall₂_imp_mem ?_ hf
      rintro p' hp' a' ⟨h, e⟩
      exact ⟨h, by simpa only [if_neg (hne p' hp')] using e⟩
    · intro types ht asg' hasg
      have e1 := hc types (knows_trans (calls_knows hl hcalls) ht) asg' (by rw [hasg p List.mem_cons_self]; exact if_pos rfl)
      have e2 := hall types ht asg' fun p' hp' => by rw [hasg p' (List.mem_cons_of_mem _ hp')]; exact if_neg (hne p' hp')
      simp only [List.map_cons, Params.convertAll, e1, e2]
      rfl

/-! ### The parameters that count -/

theorem find_lastAt {l : List SParam} (k : Str) (p : SParam) :
    (((l.map fun p => (p.name, p)).reverse.find? fun e => e.1 = k).map Prod.snd) = some p ↔
      (∃ pre post, LastAt l pre p post) ∧ p.name = k := by
  rw [← List.map_reverse]
  constructor
  · intro h
    obtain ⟨e, he, rfl⟩ := Option.map_eq_some_iff.mp h
    obtain ⟨hk, as, bs, hab, has⟩ := List.find?_eq_some_iff_append.mp he
    obtain ⟨l1, l2, hl, h1, h2⟩ := List.map_eq_append_iff.mp hab
    obtain ⟨q, l3, rfl, hq, h3⟩ := List.map_eq_cons_iff.mp h2
    subst hq
    have hk : q.name = k := by simpa using hk
    refine ⟨⟨l3.reverse, l1.reverse, ?_, ?_⟩, hk⟩
    · have := congrArg List.reverse hl
      simpa using this
    · intro r hr e
      have := has (r.name, r) (by rw [← h1]; exact List.mem_map_of_mem (f := fun p : SParam => (p.name, p)) (List.mem_reverse.mp hr))
      dsimp only at e
      simp [e, hk] at this
  · rintro ⟨⟨pre, post, rfl, hp⟩, rfl⟩
    rw [List.reverse_append, List.reverse_cons, List.map_append, List.map_append, List.append_assoc, List.find?_append]
    have : ((post.reverse.map fun p => (p.name, p)).find? fun e => decide (e.1 = p.name)) = none := by
      rw [List.find?_eq_none]
      intro e he
      obtain ⟨q, hq, rfl⟩ := List.mem_map.mp he
      simpa using hp q (List.mem_reverse.mp hq)
    rw [this]
    simp

theorem typedCombined_append (pl ol : List SParam) :
    Typed.combined pl ol = BTree.insertAll [] ((pl ++ ol).map fun p => (p.name, p)) := by
  simp [Typed.combined, BTree.insertAll]

theorem get_typedCombined (pl ol : List SParam) (k : Str) (p : SParam) :
    BTree.get k (Typed.combined pl ol) = some p ↔ (∃ pre post, LastAt (pl ++ ol) pre p post) ∧ p.name = k := by
  rw [typedCombined_append, BTree.get_insertAll, ← find_lastAt]
  simp [BTree.get]

theorem typedCombined_sorted (pl ol : List SParam) : BTree.Sorted (Typed.combined pl ol) :=
  BTree.insertAll_sorted (BTree.insertAll_sorted .nil _) _

theorem typedCombined_key {pl ol : List SParam} {e : Str × SParam} (h : e ∈ Typed.combined pl ol) : e.2.name = e.1 := by
  rw [BTree.mem_iff_get (k := e.1) (v := e.2) (typedCombined_sorted pl ol), get_typedCombined] at h
  exact h.2

theorem mem_typedCombined (pl ol : List SParam) (p : SParam) :
    p ∈ BTree.values (Typed.combined pl ol) ↔ ∃ pre post, LastAt (pl ++ ol) pre p post := by
  have : p ∈ BTree.values (Typed.combined pl ol) ↔ BTree.get p.name (Typed.combined pl ol) = some p := by
    rw [← BTree.mem_iff_get (typedCombined_sorted _ _)]
    simp only [BTree.values, List.mem_map, Prod.exists, exists_eq_right]
    constructor
    · rintro ⟨k, hk⟩; have := typedCombined_key hk; dsimp only at this; rw [this]; exact hk
    · intro h; exact ⟨_, h⟩
  rw [this, get_typedCombined, and_iff_left rfl]

theorem typedCombined_names (pl ol : List SParam) :
    (BTree.values (Typed.combined pl ol)).Pairwise fun p q => strCmp p.name q.name = .lt := by
  rw [BTree.values, List.pairwise_map]
  refine List.Pairwise.imp_of_mem ?_ (typedCombined_sorted pl ol)
  intro a b ha hb h
  rw [typedCombined_key ha, typedCombined_key hb]
  exact h

theorem typedCombined_nodup (pl ol : List SParam) : ((BTree.values (Typed.combined pl ol)).map SParam.name).Nodup := by
  rw [List.Nodup, List.pairwise_map]
  refine (typedCombined_names pl ol).imp ?_
  intro a b h e
  rw [e, strCmp_refl] at h
  cases h

theorem combined_el (types : Types) (asg : Str → Params.TypeId) (pl ol : List SParam) :
    BTree.values (Params.combined (pl.map (el types asg)) (ol.map (el types asg))) =
      (BTree.values (Typed.combined pl ol)).map (el types asg) := by
  have hm : ∀ l : List SParam, (l.map (el types asg)).map (fun p => (p.name, p)) =
      (l.map fun p => (p.name, p)).map fun e => (e.1, el types asg e.2) := by
    intro l
    simp only [List.map_map]
    rfl
  unfold Params.combined parameterMap Typed.combined
  rw [hm, hm]
  have := insertAll_mapped (el types asg) (pl.map fun p => (p.name, p)) []
  rw [List.map_nil] at this
  rw [this, insertAll_mapped]
  simp only [BTree.values, List.map_map]
  rfl

theorem leadsTo_of_resolve {T : Type} {sel : SSections → List (Str × RefOr T)} {a : RefOr T} {x : T}
    (h : resolve (comps.map sel) n a = some (.ok x)) : LeadsTo comps sel a x := by
  cases comps with
  | none =>
    cases n with
    | zero => cases h
    | succ n =>
      cases a with
      | item y => cases h; rfl
      | ref r =>
        unfold resolve target at h
        simp only [Option.map_none] at h
        split at h <;> rename_i hx
        · split at hx <;> cases hx
        · cases h
        · cases h
  | some c => exact (C55_denotes (sel c) a x).mp ⟨n, h⟩

theorem items_lead {T : Type} {sel : SSections → List (Str × RefOr T)} {l : List (RefOr T)} {xs : List T}
    (h : items n (comps.map sel) l = some (.ok xs)) : Forall₂ (LeadsTo comps sel) l xs := by
  induction l generalizing xs with
  | nil => cases h; exact .nil
  | cons a l ih =>
    obtain ⟨x, h1, h2⟩ := run_bind_ok h
    obtain ⟨ys, h3, h4⟩ := run_bind_ok h2
    cases h4
    exact .cons (leadsTo_of_resolve h1) (ih h3)

theorem forall₂_map_self {α β : Type} {R : α → β → Prop} {f : α → β} (h : ∀ a, R a (f a)) (l : List α) :
    Forall₂ R l (l.map f) := by
  induction l with
  | nil => exact .nil
  | cons a l ih => exact .cons (h a) ih

theorem params_typed (hl : LawfulTypes lib) {pl ol : List SParam} {st st' : σ} {qs : List Param}
    (h : Typed.convertAll lib u id (BTree.values (Typed.combined pl ol)) st = some (.ok (qs, st'))) :
    ∃ l, Calls lib st l st' ∧ ∀ types, Knows (lib.info st') types → ∃ pl' ol', Forall₂ SameButType pl pl' ∧
      Forall₂ SameButType ol ol' ∧ ParamsTyped u types id (pl ++ ol) (pl' ++ ol') l ∧
      Params.convertAll (sanitize u .snake) (BTree.values (Params.combined pl' ol')) = .ok qs := by
  obtain ⟨l, asg, hc, hf, hall⟩ := convertAll_asked hl (typedCombined_nodup pl ol) h
  refine ⟨l, hc, fun types ht => ⟨pl.map (el types asg), ol.map (el types asg), forall₂_map_self (el_same types asg) _,
    forall₂_map_self (el_same types asg) _, ?_, ?_⟩⟩
  · refine ⟨BTree.values (Typed.combined pl ol), typedCombined_names pl ol, mem_typedCombined pl ol, ?_⟩
    refine forall₂_imp_mem ?_ hf
    rintro p - a ⟨⟨s, hs, hw⟩, e⟩
    refine ⟨s, hs, hw, fun pre post hlast => ⟨el types asg p, ?_, ?_⟩⟩
    · rw [← List.map_append, hlast.1]
      simp
    · rw [e]; exact el_type types asg p
  · rw [combined_el]
    exact hall types ht asg fun _ _ => rfl

/-! ## The body -/

theorem bareString_iff {f : Format StringFormat → Bool} {g : Format StringFormat} (hf : ∀ x, f x = true ↔ x = g) (s : OSchema) :
    bareString f s = true ↔ OnlyFormat g s := by
  constructor
  · intro h
    cases s with
    | string d t =>
      obtain ⟨a, b, c, e, k⟩ := t
      simp only [bareString, Bool.and_eq_true, Bool.not_eq_true', hf, Option.isNone_iff_eq_none, List.isEmpty_iff] at h
      obtain ⟨⟨⟨⟨⟨⟨⟨h1, h2⟩, h3⟩, h4⟩, h5⟩, h6⟩, h7⟩, h8⟩ := h
      exact ⟨d, _, rfl, h1, h2, h3, by rw [h4, h5, h6, h7, h8]⟩
    | _ => exact absurd h (by simp [bareString])
  · rintro ⟨d, t, rfl, h1, h2, h3, rfl⟩
    simp [bareString, h1, h2, h3, hf]

theorem isBinary_iff (x : Format StringFormat) : isBinary x = true ↔ x = .item .binary := by
  rcases x with (_ | _ | _ | _ | _) | _ | _ <;> simp [isBinary]

theorem isEmpty_iff (x : Format StringFormat) : Typed.isEmpty x = true ↔ x = .empty := by
  rcases x with _ | _ | _ <;> simp [Typed.isEmpty]

theorem body_typed {b : Option (RefOr SContent)} {st st' : σ} {o : Option Param}
    (h : getBody lib comps n u id b st = some (.ok (o, st'))) :
    ∃ l b', Calls lib st l st' ∧ BodyTyped comps u id b b' l ∧ getBodyParam b' = .ok o := by
  cases b with
  | none =>
    obtain ⟨rfl, rfl⟩ := m_pure_ok h
    exact ⟨[], none, .nil _, .none, rfl⟩
  | some r =>
    obtain ⟨c, s1, h1, h2⟩ := m_bind_ok h
    obtain ⟨hr, rfl⟩ := m_run_ok h1
    have hr := leadsTo_of_resolve hr
    match c, h2, hr with
    | [], h2, hr =>
      obtain ⟨rfl, rfl⟩ := m_pure_ok h2
      exact ⟨[], some [], .nil _, .empty hr, rfl⟩
    | _ :: _ :: _, h2, _ => exact absurd (m_res_ok h2).1 (by simp)
    | [(ct, m)], h2, hr =>
      obtain ⟨schema, enc⟩ := m
      cases schema with
      | none => exact absurd (m_res_ok h2).1 (by simp)
      | some s =>
        obtain ⟨c, s2, h3, h4⟩ := m_bind_ok h2
        obtain ⟨hc, rfl⟩ := m_res_ok h3
        obtain ⟨ty, s3, h5, h6⟩ := m_bind_ok h4
        obtain ⟨rfl, rfl⟩ := m_pure_ok h6
        obtain ⟨base, hb, hcase⟩ := (mediaType_iff ct c).mp hc
        have done : ∀ x : BodySchema, Progenitor.bodyType c ⟨some x, enc⟩ x = .ok ty →
            getBodyParam (some [(ct, ⟨some x, enc⟩)]) = .ok (some ⟨"body".toList, "body".toList, ty, .body c⟩) := by
          intro x hx
          simp only [getBodyParam, hc, Res.bind_ok, hx]
          rfl
        have typed : ∀ c' : ContentType, (c' = .json ∨ c' = .form) →
            Typed.bodyType lib comps n u id c' ⟨some s, enc⟩ s s2 = some (.ok (ty, st')) →
            ∃ q t, enc = true ∧ ty = .type t ∧ Wants u id "body".toList s q ∧ lib.add s2 q.1 q.2 = .ok (t, st') := by
          intro c' hc' h5
          have h5 : (if enc then (do let t ← addType lib u id "body".toList s; pure (.type t) : M σ PType)
              else res (.panic "media type encoding not empty".toList)) s2 = some (.ok (ty, st')) := by
            rcases hc' with rfl | rfl <;> exact h5
          cases enc with
          | false => exact absurd (m_res_ok h5).1 (by simp)
          | true =>
            obtain ⟨t, s4, h7, h8⟩ := m_bind_ok h5
            obtain ⟨rfl, rfl⟩ := m_pure_ok h8
            obtain ⟨q, hq, ha⟩ := addType_ok h7
            exact ⟨q, t, rfl, rfl, hq, ha⟩
        rcases hcase with ⟨rfl, rfl⟩ | ⟨rfl, rfl⟩ | ⟨rfl, rfl⟩ | ⟨rfl, htext⟩
        · obtain ⟨x, s4, h7, h8⟩ := m_bind_ok h5
          obtain ⟨hx, rfl⟩ := m_run_ok h7
          by_cases hbs : bareString isBinary x = true
          · rw [if_pos hbs] at h8
            obtain ⟨rfl, rfl⟩ := m_pure_ok h8
            exact ⟨[], some [(ct, ⟨some ⟨true, false, 0⟩, enc⟩)], .nil _,
              .octets (m := ⟨some s, enc⟩) hr rfl hb (leadsTo_of_resolve hx) ((bareString_iff isBinary_iff x).mp hbs), done _ rfl⟩
          · rw [if_neg hbs] at h8
            exact absurd (m_res_ok h8).1 (by simp)
        · obtain ⟨q, t, rfl, rfl, hq, ha⟩ := typed _ (.inl rfl) h5
          exact ⟨[(q, t)], some [(ct, ⟨some ⟨false, false, t⟩, true⟩)], calls_one ha,
            .typed (m := ⟨some s, true⟩) hr rfl hb (.inl rfl) hq, done _ rfl⟩
        · obtain ⟨q, t, rfl, rfl, hq, ha⟩ := typed _ (.inr rfl) h5
          exact ⟨[(q, t)], some [(ct, ⟨some ⟨false, false, t⟩, true⟩)], calls_one ha,
            .typed (m := ⟨some s, true⟩) hr rfl hb (.inr rfl) hq, done _ rfl⟩
        · obtain ⟨x, s4, h7, h8⟩ := m_bind_ok h5
          obtain ⟨hx, rfl⟩ := m_run_ok h7
          by_cases hbs : bareString Typed.isEmpty x = true
          · rw [if_pos hbs] at h8
            obtain ⟨rfl, rfl⟩ := m_pure_ok h8
            exact ⟨[], some [(ct, ⟨some ⟨false, true, 0⟩, enc⟩)], .nil _,
              .text (m := ⟨some s, enc⟩) hr rfl hb htext (leadsTo_of_resolve hx) ((bareString_iff isEmpty_iff x).mp hbs), done _ rfl⟩
          · rw [if_neg hbs] at h8
            exact absurd (m_res_ok h8).1 (by simp)

/-! ## Responses -/

theorem typedMedia_none {r : SContent} : Typed.jsonMedia r = none ↔ ∀ e ∈ r, ¬ IsJson e.1 := by
  unfold Typed.jsonMedia
  rw [Option.map_eq_none_iff, List.find?_eq_none]
  constructor
  · intro h e he hj
    exact h e he (decide_eq_true ((isJson_iff e.1).mpr hj))
  · intro h e he hd
    exact h e he ((isJson_iff e.1).mp (of_decide_eq_true hd))

theorem typedMedia_some {r : SContent} {mt : SMedia} (h : Typed.jsonMedia r = some mt) :
    ∃ pre m post, r = pre ++ (m, mt) :: post ∧ IsJson m ∧ ∀ e ∈ pre, ¬ IsJson e.1 := by
  unfold Typed.jsonMedia at h
  rw [Option.map_eq_some_iff] at h
  obtain ⟨⟨m, mt'⟩, h, rfl⟩ := h
  obtain ⟨hd, pre, post, rfl, hp⟩ := List.find?_eq_some_iff_append.mp h
  refine ⟨pre, m, post, rfl, (isJson_iff m).mp (of_decide_eq_true hd), fun e he hj => ?_⟩
  have := hp e he
  rw [decide_eq_true ((isJson_iff e.1).mpr hj)] at this
  cases this

/-- A media type with a type. -/
def elMedia (t : Params.TypeId) (e : Str × SMedia) : Str × Media := (e.1, ⟨e.2.encodingEmpty, e.2.schema.map fun _ => t⟩)

theorem elMedia_same (t : Params.TypeId) (e : Str × SMedia) : SameMedia e (elMedia t e) := by
  refine ⟨rfl, rfl, ?_⟩
  cases h : e.2.schema <;> simp [elMedia, h]

theorem response_typed {ws : Bool} {r : RefOr SContent} {c : SContent} (hr : LeadsTo comps SSections.responses r c)
    {st st' : σ} {k : Resp.Kind} (h : Typed.kindOf lib u id ws c st = some (.ok (k, st'))) :
    ∃ l c', Calls lib st l st' ∧ ResponseTyped comps u id r c' l ∧ Resp.kindOf ws c' = .ok k := by
  cases hm : Typed.jsonMedia c with
  | some mt =>
    obtain ⟨pre, m, post, rfl, hj, hp⟩ := typedMedia_some hm
    simp only [Typed.kindOf, hm] at h
    obtain ⟨schema, enc⟩ := mt
    cases enc with
    | false => exact absurd (m_res_ok h).1 (by simp)
    | true =>
      cases schema with
      | none => exact absurd (m_res_ok h).1 (by simp)
      | some s =>
        obtain ⟨t, s1, h1, h2⟩ := m_bind_ok h
        obtain ⟨rfl, rfl⟩ := m_pure_ok h2
        obtain ⟨q, hq, ha⟩ := addType_ok h1
        refine ⟨[(q, t)], pre.map (elMedia t) ++ (m, ⟨true, some t⟩) :: post.map (elMedia t), calls_one ha,
          .json (mt := ⟨some s, true⟩) hr hp hj rfl hq (forall₂_map_self (elMedia_same t) _) (forall₂_map_self (elMedia_same t) _), ?_⟩
        refine C24_kind.mpr (.json _ _ _ _ _ ?_ hj rfl rfl)
        intro e he
        obtain ⟨x, hx, rfl⟩ := List.mem_map.mp he
        exact hp x hx
  | none =>
    have hn := typedMedia_none.mp hm
    simp only [Typed.kindOf, hm] at h
    have hn' : ∀ e ∈ c.map (elMedia 0), ¬ IsJson e.1 := by
      intro e he
      obtain ⟨x, hx, rfl⟩ := List.mem_map.mp he
      exact hn x hx
    have hw : st' = st ∧ Resp.kindOf ws (c.map (elMedia 0)) = .ok k := by
      rw [C24_kind]
      cases ws with
      | true =>
        obtain ⟨rfl, rfl⟩ := m_pure_ok h
        exact ⟨rfl, .upgrade _ rfl hn'⟩
      | false =>
        cases c with
        | nil =>
          obtain ⟨rfl, rfl⟩ := m_pure_ok h
          exact ⟨rfl, .none rfl⟩
        | cons e c =>
          obtain ⟨rfl, rfl⟩ := m_pure_ok h
          exact ⟨rfl, .raw _ rfl (by simp) hn'⟩
    obtain ⟨rfl, hw⟩ := hw
    exact ⟨[], c.map (elMedia 0), .nil _, .other hr hn (forall₂_map_self (elMedia_same 0) _), hw⟩

theorem responses_typed {ws : Bool} {rs : List (Status × RefOr SContent)} {st st' : σ} {xs : List Response}
    (h : convertResponses lib comps n u id ws rs st = some (.ok (xs, st'))) :
    ∃ l rs', Calls lib st l st' ∧ ResponsesTyped comps u id (rs.map Prod.snd) rs' l ∧
      Resp.convertAll ws ((rs.map Prod.fst).zip rs') = .ok xs := by
  induction rs generalizing st xs with
  | nil =>
    obtain ⟨rfl, rfl⟩ := m_pure_ok h
    exact ⟨[], [], .nil _, .nil, rfl⟩
  | cons e rs ih =>
    obtain ⟨s, r⟩ := e
    obtain ⟨c, s1, h1, h2⟩ := m_bind_ok h
    obtain ⟨hr, rfl⟩ := m_run_ok h1
    obtain ⟨k, s2, h3, h4⟩ := m_bind_ok h2
    obtain ⟨ys, s3, h5, h6⟩ := m_bind_ok h4
    obtain ⟨rfl, rfl⟩ := m_pure_ok h6
    obtain ⟨l1, c', hc1, ht1, hk⟩ := response_typed (leadsTo_of_resolve hr) h3
    obtain ⟨l2, rs', hc2, ht2, hk2⟩ := ih h5
    refine ⟨l1 ++ l2, c' :: rs', calls_append hc1 hc2, .cons ht1 ht2, ?_⟩
    simp only [List.map_cons, List.zip_cons_cons, Resp.convertAll, hk, hk2, Res.bind_ok]
    rfl

theorem responsesTyped_length {rs : List (RefOr SContent)} {rs' : List DocResponse} {l : List AskedType}
    (h : ResponsesTyped comps u id rs rs' l) : rs'.length = rs.length := by
  induction h with
  | nil => rfl
  | cons _ _ ih => simp [ih]

theorem kindOf_there (hl : LawfulTypes lib) {ws : Bool} {c : SContent} {st st' : σ} {k : Resp.Kind}
    (h : Typed.kindOf lib u id ws c st = some (.ok (k, st'))) : ∀ t, k = .type t → lib.info st' t ≠ none := by
  intro t hk
  cases hm : Typed.jsonMedia c with
  | some mt =>
    simp only [Typed.kindOf, hm] at h
    obtain ⟨schema, enc⟩ := mt
    cases enc with
    | false => exact absurd (m_res_ok h).1 (by simp)
    | true =>
      cases schema with
      | none => exact absurd (m_res_ok h).1 (by simp)
      | some s =>
        obtain ⟨t, s1, h1, h2⟩ := m_bind_ok h
        obtain ⟨rfl, rfl⟩ := m_pure_ok h2
        obtain ⟨q, hq, ha⟩ := addType_ok h1
        cases hk
        exact hl.there _ _ _ _ _ ha
  | none =>
    simp only [Typed.kindOf, hm] at h
    cases ws with
    | true => obtain ⟨rfl, rfl⟩ := m_pure_ok h; cases hk
    | false =>
      cases c with
      | nil => obtain ⟨rfl, rfl⟩ := m_pure_ok h; cases hk
      | cons e c => obtain ⟨rfl, rfl⟩ := m_pure_ok h; cases hk

theorem there_mono {a b : Types} (h : Knows a b) {t : Params.TypeId} (ht : a t ≠ none) : b t ≠ none := by
  cases hi : a t with
  | none => exact absurd hi ht
  | some i => rw [h t i hi]; simp

theorem responses_there (hl : LawfulTypes lib) {ws : Bool} {rs : List (Status × RefOr SContent)} {st st' : σ} {xs : List Response}
    (h : convertResponses lib comps n u id ws rs st = some (.ok (xs, st'))) :
    ∀ x ∈ xs, ∀ t, x.kind = .type t → lib.info st' t ≠ none := by
  induction rs generalizing st xs with
  | nil =>
    obtain ⟨rfl, rfl⟩ := m_pure_ok h
    simp
  | cons e rs ih =>
    obtain ⟨s, r⟩ := e
    obtain ⟨c, s1, h1, h2⟩ := m_bind_ok h
    obtain ⟨hr, rfl⟩ := m_run_ok h1
    obtain ⟨k, s2, h3, h4⟩ := m_bind_ok h2
    obtain ⟨ys, s3, h5, h6⟩ := m_bind_ok h4
    obtain ⟨rfl, rfl⟩ := m_pure_ok h6
    obtain ⟨l, _, hc, _, _⟩ := responses_typed h5
    intro x hx t ht
    rcases List.mem_cons.mp hx with rfl | hx
    · exact there_mono (calls_knows hl hc) (kindOf_there hl h3 t ht)
    · exact ih h5 x hx t ht

/-! ## Pagination -/

theorem get_mem_props {k : Str} {props : List (Str × Params.TypeId)} {t : Params.TypeId}
    (h : BTree.get k (BTree.insertAll [] props) = some t) : t ∈ props.map Prod.snd := by
  rcases BTree.mem_insertAll (BTree.mem_of_get h) with h | h
  · exact List.mem_map_of_mem (f := Prod.snd) h
  · cases h

theorem knows_eq {a b : Types} (h : Knows a b) {t : Params.TypeId} (ht : a t ≠ none) : b t = a t := by
  cases hi : a t with
  | none => exact absurd hi ht
  | some i => exact h t i hi

theorem pageType_knows (hl : LawfulTypes lib) {st : σ} {types : Types} (hk : Knows (lib.info st) types) {t : Params.TypeId}
    (ht : lib.info st t ≠ none) : pageType types t = pageType (lib.info st) t := by
  unfold pageType
  rw [knows_eq hk ht]
  cases hi : lib.info st t with
  | none => rfl
  | some i =>
    cases i with
    | struct props =>
      have hin : ∀ k x, BTree.get k (BTree.insertAll [] props) = some x → lib.info st x ≠ none := fun k x hx =>
        hl.closed st t _ hi x (get_mem_props hx)
      dsimp only
      split
      · rfl
      · cases hnp : BTree.get "next_page".toList (BTree.insertAll [] props) with
        | none => rfl
        | some np =>
          dsimp only
          rw [knows_eq hk (hin _ _ hnp)]
          cases hni : lib.info st np with
          | none => rfl
          | some j =>
            cases j with
            | option o =>
              dsimp only
              rw [knows_eq hk (hl.closed st np _ hni o (by simp [mentions]))]
              split
              · cases hit : BTree.get "items".toList (BTree.insertAll [] props) with
                | none => rfl
                | some it =>
                  dsimp only
                  rw [knows_eq hk (hin _ _ hit)]
              · rfl
            | _ => rfl
    | _ => rfl

theorem pagination_knows (hl : LawfulTypes lib) {st : σ} {types : Types} (hk : Knows (lib.info st) types) {rs : List Response}
    (hr : ∀ x ∈ rs, ∀ t, x.kind = .type t → lib.info st t ≠ none) (ext : Option (List Str)) (ps : List Param) :
    paginationData types ext ps rs = paginationData (lib.info st) ext ps rs := by
  have hs : ∀ t ∈ successTypes rs, lib.info st t ≠ none := by
    intro t ht
    obtain ⟨x, hx, hxt⟩ := List.mem_filterMap.mp ht
    refine hr x hx t ?_
    unfold successType at hxt
    split at hxt
    · rename_i hc
      split at hxt
      · cases hxt; exact hc
      · cases hxt
    · rename_i hc; cases hxt; exact hc
    · cases hxt
  unfold paginationData
  cases ext with
  | none => rfl
  | some req =>
    dsimp only
    split
    · rfl
    · split
      · rfl
      · split
        · rfl
        · generalize successTypes rs = l at hs
          match l, hs with
          | [], _ => rfl
          | [t], hs => dsimp only; rw [pageType_knows hl hk (hs t (by simp))]
          | _ :: _ :: _, _ => rfl

/-! ## Operations -/

theorem processResponses_ok (ws : Bool) (default : Option DocResponse) (codes : List (DocStatus × DocResponse)) (xs : List Response)
    (h : Resp.convertAll ws (default.toList.map (fun r => (Status.default, r)) ++ codes.map (fun e => (e.1.toStatus, e.2))) = .ok xs) :
    Resp.processResponses ws default codes = .ok (completed ws xs) := by
  simp only [Resp.processResponses, h, Res.bind_ok, completed]
  cases ws
  · simp only [Bool.false_eq_true, if_false, List.append_nil]; rfl
  · rfl

theorem responses_split {d : SOperation} {ws : Bool} {rs' : List DocResponse} {l : List AskedType} {xs : List Response}
    (ht : ResponsesTyped comps u id
      ((d.default.toList.map (fun r => (Status.default, r)) ++ d.codes.map (fun e => (e.1.toStatus, e.2))).map Prod.snd) rs' l)
    (hx : Resp.convertAll ws (((d.default.toList.map (fun r => (Status.default, r)) ++
      d.codes.map (fun e => (e.1.toStatus, e.2))).map Prod.fst).zip rs') = .ok xs) :
    ∃ (default : Option DocResponse) (codes : List (DocStatus × DocResponse)),
      codes.map Prod.fst = d.codes.map Prod.fst ∧ default.isSome = d.default.isSome ∧
      ResponsesTyped comps u id (d.default.toList ++ d.codes.map Prod.snd) (default.toList ++ codes.map Prod.snd) l ∧
      Resp.processResponses ws default codes = .ok (completed ws xs) := by
  have e1 : (d.default.toList.map (fun r => (Status.default, r)) ++ d.codes.map (fun e => (e.1.toStatus, e.2))).map Prod.snd =
      d.default.toList ++ d.codes.map Prod.snd := by
    simp [List.map_map, Function.comp_def]
  have hlen := responsesTyped_length ht
  rw [e1] at ht hlen
  have hz : ∀ ys : List DocResponse, ys.length = d.codes.length →
      ((d.codes.map Prod.fst).zip ys).map Prod.fst = d.codes.map Prod.fst ∧
      ((d.codes.map Prod.fst).zip ys).map Prod.snd = ys ∧
      ((d.codes.map Prod.fst).zip ys).map (fun e => (e.1.toStatus, e.2)) =
        ((d.codes.map (fun e => (e.1.toStatus, e.2))).map Prod.fst).zip ys := by
    intro ys hy
    generalize d.codes = cs at hy
    induction cs generalizing ys with
    | nil => cases ys <;> simp_all
    | cons c cs ih =>
      cases ys with
      | nil => simp at hy
      | cons y ys =>
        obtain ⟨h1, h2, h3⟩ := ih ys (by simpa using hy)
        simp only [List.map_cons, List.zip_cons_cons, h1, h2, h3]
        simp
  cases hd : d.default with
  | none =>
    rw [hd] at ht hx hlen
    simp only [Option.toList_none, List.nil_append, List.map_nil, List.length_map] at ht hx hlen
    obtain ⟨h1, h2, h3⟩ := hz rs' hlen
    refine ⟨none, (d.codes.map Prod.fst).zip rs', h1, rfl, ?_, processResponses_ok _ _ _ _ ?_⟩
    · rw [h2]; exact ht
    · rw [h3]; exact hx
  | some r =>
    rw [hd] at ht hx hlen
    cases rs' with
    | nil => simp at hlen
    | cons r' rs' =>
      simp only [Option.toList_some, List.cons_append, List.nil_append, List.length_cons, List.length_map, Nat.add_right_cancel_iff]
        at hlen
      obtain ⟨h1, h2, h3⟩ := hz rs' hlen
      refine ⟨some r', (d.codes.map Prod.fst).zip rs', h1, rfl, ?_, processResponses_ok _ _ _ _ ?_⟩
      · rw [h2]; exact ht
      · rw [h3]; exact hx

theorem process_typed (hl : LawfulTypes lib) {path method : Str} {d : SOperation} {st st' : σ} {p : Processed}
    (h : process lib comps n u id path method d st = some (.ok (p, st'))) :
    ∃ l, Calls lib st l st' ∧ ∀ types, Knows (lib.info st') types →
      ∃ d', OperationTyped comps u types id d d' l ∧
        processOperation (sanitize u .snake) types path method { d' with operationId := id } = .ok p := by
  obtain ⟨pl, s1, h1, k1⟩ := m_bind_ok h
  obtain ⟨hpl, rfl⟩ := m_run_ok h1
  obtain ⟨ol, s2, h2, k2⟩ := m_bind_ok k1
  obtain ⟨hol, rfl⟩ := m_run_ok h2
  obtain ⟨ps, s3, h3, k3⟩ := m_bind_ok k2
  obtain ⟨b, s4, h4, k4⟩ := m_bind_ok k3
  obtain ⟨tmp, s5, h5, k5⟩ := m_bind_ok k4
  obtain ⟨r5, rfl⟩ := m_res_ok h5
  obtain ⟨qs, s6, h6, k6⟩ := m_bind_ok k5
  obtain ⟨r6, rfl⟩ := m_res_ok h6
  obtain ⟨rs, s7, h7, k7⟩ := m_bind_ok k6
  obtain ⟨x, s8, h8, k8⟩ := m_bind_ok k7
  obtain ⟨rfl, rfl⟩ := m_get_ok h8
  obtain ⟨w, s9, h9, k9⟩ := m_bind_ok k8
  obtain ⟨r9, rfl⟩ := m_res_ok h9
  obtain ⟨m, s10, h10, k10⟩ := m_bind_ok k9
  obtain ⟨r10, rfl⟩ := m_res_ok h10
  obtain ⟨rfl, rfl⟩ := m_pure_ok k10
  obtain ⟨l1, hc1, hp⟩ := params_typed hl h3
  obtain ⟨l2, b', hc2, hb, hbp⟩ := body_typed h4
  obtain ⟨l3, rs', hc3, hr, hrc⟩ := responses_typed h7
  obtain ⟨default, codes, hcodes, hdef, hrt, hpr⟩ := responses_split hr hrc
  refine ⟨l1 ++ l2 ++ l3, calls_append (calls_append hc1 hc2) hc3, fun types ht => ?_⟩
  obtain ⟨pl', ol', hpl', hol', hpt, hpc⟩ := hp types
    (knows_trans (knows_trans (calls_knows hl hc2) (calls_knows hl hc3)) ht)
  refine ⟨⟨id, d.tags, pl', ol', b', default, codes, d.websocket, d.pagination⟩,
    ⟨rfl, rfl, rfl, pl, ol, l1, l2, l3, rfl, items_lead hpl, items_lead hol, hpl', hol', hpt, hb, hcodes, hdef, hrt⟩, ?_⟩
  have hpg := pagination_knows hl ht (rs := completed d.websocket rs) (by
    intro x hx t hxt
    refine responses_there hl h7 x ?_ t hxt
    unfold completed at hx
    rcases List.mem_append.mp hx with hx | hx
    · split at hx
      · exact hx
      · rcases List.mem_append.mp hx with hx | hx
        · exact hx
        · rw [List.mem_singleton.mp hx] at hxt; cases hxt
    · split at hx
      · rw [List.mem_singleton.mp hx] at hxt; cases hxt
      · cases hx) d.pagination qs
  simp only [processOperation, hpc, hbp, r5, r6, hpr, Res.bind_ok, hpg]
  have h9 : Progenitor.noConflict ⟨id, d.tags, pl', ol', b', default, codes, d.websocket, d.pagination⟩
      (paginationData (lib.info _) d.pagination qs (completed d.websocket rs)) = .ok w := r9
  rw [h9, Res.bind_ok, r10]
  rfl

theorem process_pattern {os : List (Str × SRaw)} {path : Str} (hl : LawfulTypes lib) {st st' : σ} {ps : List Processed}
    (h : Typed.processAll lib comps n u (os.map fun e => (path, e.1, e.2)) st = some (.ok (ps, st'))) :
    ∃ l, Calls lib st l st' ∧ ∀ types, Knows (lib.info st') types → ∃ os', OpsTyped comps u types os os' l ∧
      Doc.processAll u types (os'.map fun e => (path, e.1, e.2)) = .ok ps := by
  induction os generalizing st ps with
  | nil =>
    obtain ⟨rfl, rfl⟩ := m_pure_ok h
    exact ⟨[], .nil _, fun _ _ => ⟨[], .nil, rfl⟩⟩
  | cons e os ih =>
    obtain ⟨m, oid, op⟩ := e
    obtain ⟨p, s1, h1, h⟩ := m_bind_ok h
    obtain ⟨ps', s2, h2, h⟩ := m_bind_ok h
    obtain ⟨rfl, rfl⟩ := m_pure_ok h
    cases oid with
    | none => exact absurd (m_res_ok h1).1 (by simp)
    | some id =>
      obtain ⟨l1, hc1, hp⟩ := process_typed hl (show process lib comps n u id path m op st = _ from h1)
      obtain ⟨l2, hc2, hq⟩ := ih h2
      refine ⟨l1 ++ l2, calls_append hc1 hc2, fun types ht => ?_⟩
      obtain ⟨d', hd, hdp⟩ := hp types (knows_trans (calls_knows hl hc2) ht)
      obtain ⟨os', ho, hop⟩ := hq types ht
      refine ⟨(m, ⟨some id, d'⟩) :: os', .cons hd ho, ?_⟩
      simp only [List.map_cons, Doc.processAll, Doc.processOne, hdp, hop, Res.bind_ok]
      rfl

theorem processAll_append {os os' : List (Str × Str × SRaw)} {st st' : σ} {ps : List Processed}
    (h : Typed.processAll lib comps n u (os ++ os') st = some (.ok (ps, st'))) :
    ∃ p1 p2 s1, ps = p1 ++ p2 ∧ Typed.processAll lib comps n u os st = some (.ok (p1, s1)) ∧
      Typed.processAll lib comps n u os' s1 = some (.ok (p2, st')) := by
  induction os generalizing st ps with
  | nil => exact ⟨[], ps, st, rfl, rfl, h⟩
  | cons o os ih =>
    obtain ⟨p, s1, h1, h⟩ := m_bind_ok h
    obtain ⟨ps', s2, h2, h⟩ := m_bind_ok h
    obtain ⟨rfl, rfl⟩ := m_pure_ok h
    obtain ⟨p1, p2, s3, rfl, h3, h4⟩ := ih h2
    refine ⟨p :: p1, p2, s3, rfl, ?_, h4⟩
    show Run.bind (Typed.processOne lib comps n u o st) _ = _
    rw [h1]
    show Run.bind (Typed.processAll lib comps n u os s1) _ = _
    rw [h3]
    rfl

theorem doc_processAll_append {types : Types} {os os' : List (Str × Str × Doc.RawOperation)} {ps ps' : List Processed}
    (h : Doc.processAll u types os = .ok ps) (h' : Doc.processAll u types os' = .ok ps') :
    Doc.processAll u types (os ++ os') = .ok (ps ++ ps') := by
  induction os generalizing ps with
  | nil => cases h; exact h'
  | cons o os ih =>
    obtain ⟨p, h1, h⟩ := Params.bind_ok_inv h
    obtain ⟨qs, h2, h⟩ := Params.bind_ok_inv h
    cases h
    simp only [List.cons_append, Doc.processAll, h1, ih h2, Res.bind_ok]
    rfl

/-- Paths that are not references. -/
theorem paths_typed (hl : LawfulTypes lib) {paths : List (Str × Option (List (Str × SRaw)))} (hn : ∀ p ∈ paths, p.2 ≠ none) {st st' : σ}
    {ps : List Processed}
    (h : Typed.processAll lib comps n u (paths.flatMap fun p => match p.2 with
      | none => []
      | some ops => ops.map fun e => (p.1, e.1, e.2)) st = some (.ok (ps, st'))) :
    ∃ l, Calls lib st l st' ∧ ∀ types, Knows (lib.info st') types → ∃ paths', PathsTyped comps u types paths paths' l ∧
      Doc.processAll u types (paths'.flatMap fun p => match p.2 with
        | none => []
        | some ops => ops.map fun e => (p.1, e.1, e.2)) = .ok ps := by
  induction paths generalizing st ps with
  | nil =>
    obtain ⟨rfl, rfl⟩ := m_pure_ok h
    exact ⟨[], .nil _, fun _ _ => ⟨[], .nil, rfl⟩⟩
  | cons e paths ih =>
    obtain ⟨path, ops⟩ := e
    cases ops with
    | none => exact absurd rfl (hn _ List.mem_cons_self)
    | some ops =>
      rw [List.flatMap_cons] at h
      obtain ⟨p1, p2, s1, rfl, h1, h2⟩ := processAll_append h
      obtain ⟨l1, hc1, ho⟩ := process_pattern hl h1
      obtain ⟨l2, hc2, hp⟩ := ih (fun p hp => hn p (List.mem_cons_of_mem _ hp)) h2
      refine ⟨l1 ++ l2, calls_append hc1 hc2, fun types ht => ?_⟩
      obtain ⟨os', ho1, ho3⟩ := ho types (knows_trans (calls_knows hl hc2) ht)
      obtain ⟨paths', hp1, hp3⟩ := hp types ht
      refine ⟨(path, some os') :: paths', .cons ho1 hp1, ?_⟩
      rw [List.flatMap_cons]
      exact doc_processAll_append ho3 hp3

theorem validateOps_typed {types : Types} {path : Str} {os : List (Str × SRaw)} {os' : List (Str × Doc.RawOperation)}
    {l : List AskedType} (h : OpsTyped comps u types os os' l) :
    ∀ ids, Doc.validateOps path ids os' = Doc.validateOps path ids (os.map fun e => (e.1, Typed.bareOp e.2)) := by
  induction h with
  | nil => intro ids; rfl
  | cons _ _ ih =>
    intro ids
    simp only [List.map_cons, Doc.validateOps, Typed.bareOp]
    simp only [Typed.bareOp] at ih
    simp only [ih]

theorem validate_typed {types : Types} {d : SDocument} {d' : Doc.Document} {l : List AskedType}
    (h : DocumentTyped u types d d' l) : Doc.validate u d' = Doc.validate u (Typed.bare d) := by
  obtain ⟨hv, hp⟩ := h
  unfold Doc.validate Typed.bare
  simp only [hv]
  suffices hs : ∀ ids, Doc.validatePaths ids d'.paths =
      Doc.validatePaths ids (d.paths.map fun p => (p.1, p.2.map fun ops => ops.map fun e => (e.1, Typed.bareOp e.2))) by
    rw [hs]
  revert hp
  generalize d.paths = ps
  generalize d'.paths = ps'
  intro hp
  induction hp with
  | nil => intro ids; rfl
  | cons h1 _ ih =>
    intro ids
    simp only [List.map_cons, Option.map_some, Doc.validatePaths, validateOps_typed h1, ih]

theorem componentSchemas_eq (d : SDocument) : componentSchemas d = (d.components.map SSections.schemas).getD [] := by
  unfold componentSchemas
  cases d.components <;> rfl

theorem doc_operations_eq (d : Doc.Document) : Doc.operations d = d.paths.flatMap fun p => match p.2 with
    | none => []
    | some ops => ops.map fun e => (p.1, e.1, e.2) := by
  unfold Doc.operations
  congr 1

/-- C96: when a client is generated for a document with schemas, each type in it is one that the library of types was asked for:
with the schemas of the components, and then, operation by operation, for each parameter that counts, for a JSON or form body and
for each response that has JSON, with its schema and the name of the operation and what it is for.  The client is the one of the
document that has these types in place of the schemas. -/
theorem C96_document (hl : LawfulTypes lib) {d : SDocument} {s0 s1 : σ} {ms : List Processed}
    (h : Typed.rawMethods lib n u d s0 = some (.ok (ms, s1))) :
    ∃ js a l d', ConvertedComponents d js ∧ lib.addRefs s0 js = .ok a ∧ Calls lib a l s1 ∧
      DocumentTyped u (lib.info s1) d d' l ∧ Doc.rawMethods u (lib.info s1) d' = .ok ms := by
  obtain ⟨_, s2, h1, k1⟩ := m_bind_ok h
  obtain ⟨hv, rfl⟩ := m_res_ok h1
  obtain ⟨_, s3, h2, k2⟩ := m_bind_ok k1
  obtain ⟨js, s4, h3, k3⟩ := m_bind_ok h2
  obtain ⟨hj, rfl⟩ := m_res_ok h3
  obtain ⟨a, h4, k4⟩ := run_bind_ok k3
  cases k4
  have hnone : ∀ p ∈ d.paths, p.2 ≠ none := by
    obtain ⟨_, _, hv⟩ := Params.bind_ok_inv hv
    obtain ⟨r, hv, _⟩ := Params.bind_ok_inv hv
    intro p hp hpn
    refine (validatePaths_ok.mp ⟨r, hv⟩).1 (p.1, none) ?_ rfl
    exact List.mem_map.mpr ⟨p, hp, by simp [hpn]⟩
  obtain ⟨l, hc, hall⟩ := paths_typed hl hnone k2
  obtain ⟨paths', hp, hpr⟩ := hall (lib.info s1) fun _ _ h => h
  have ht : DocumentTyped u (lib.info s1) d ⟨d.version, paths'⟩ l := ⟨rfl, hp⟩
  refine ⟨js, _, l, ⟨d.version, paths'⟩, ?_, Option.some.inj h4, hc, ht, ?_⟩
  · unfold ConvertedComponents
    rw [← componentSchemas_eq]
    exact forall₂_imp_mem (fun _ _ _ h => ⟨h.1.symm, h.2⟩) (props_mem hj)
  · unfold Doc.rawMethods
    rw [validate_typed ht, hv, Res.bind_ok, doc_operations_eq]
    exact hpr

/-- C96: the same for the code. -/
theorem C96_generate {B : Type} (hl : LawfulTypes lib) {tt : σ → TypeTable B} {i : Doc.Interface} {t : Doc.TagStyle} {d : SDocument}
    {s0 s1 : σ} {ms : List Processed} {cs : List Code} (h : Typed.generate lib n u tt i t d s0 = some (.ok ((ms, cs), s1))) :
    ∃ js a l d', ConvertedComponents d js ∧ lib.addRefs s0 js = .ok a ∧ Calls lib a l s1 ∧
      DocumentTyped u (lib.info s1) d d' l ∧ Doc.generate u (lib.info s1) (tt s1) i t d' = .ok (ms, cs) := by
  obtain ⟨ms', s2, h1, k1⟩ := m_bind_ok h
  obtain ⟨x, s3, h2, k2⟩ := m_bind_ok k1
  obtain ⟨rfl, rfl⟩ := m_get_ok h2
  obtain ⟨cs', s4, h3, k3⟩ := m_bind_ok k2
  obtain ⟨hcs, rfl⟩ := m_res_ok h3
  obtain ⟨e, rfl⟩ := m_pure_ok k3
  cases e
  obtain ⟨js, a, l, d', hj, ha, hc, hd, hm⟩ := C96_document hl h1
  refine ⟨js, a, l, d', hj, ha, hc, hd, ?_⟩
  simp only [Doc.generate, hm, Res.bind_ok, hcs]
  rfl

end

end Progenitor.Props

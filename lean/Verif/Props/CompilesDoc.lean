import Verif.Props.Compiles
import Verif.Props.Generate

/-!
# C86: the documents whose client compiles (whole documents)
-/

namespace Progenitor.Props

open Progenitor Progenitor.Params Progenitor.Exec Progenitor.Spec Progenitor.Builder Progenitor.Doc Progenitor.Names Progenitor.Stream

/-! ## Pages -/

/-- The type of a success, read off the document. -/
def okType (ws : Bool) (e : Resp.DocStatus × Resp.DocResponse) : Option Params.TypeId :=
  match Resp.kindOf ws e.2 with
  | .ok k => successType ⟨e.1.toStatus, k⟩
  | _ => none

theorem okType_iff (d : DocOperation) (e : Resp.DocStatus × Resp.DocResponse) (t : Params.TypeId) :
    okType d.websocket e = some t ↔ TypedOk d e t := by
  obtain ⟨st, r⟩ := e
  unfold okType TypedOk
  dsimp only
  rw [← C24_kind]
  have hst : (∃ c, st.toStatus = .code c ∧ 200 ≤ c ∧ c ≤ 299) ∨ st.toStatus = .range 2 ↔
      (∃ c, st = .code c ∧ 200 ≤ c ∧ c ≤ 299) ∨ st = .range 2 := by
    cases st <;> simp [Resp.DocStatus.toStatus]
  rw [← hst]
  cases hk : Resp.kindOf d.websocket r with
  | ok k =>
    dsimp only
    rw [successType_some]
    unfold TypedSuccess
    simp
  | err m => simp
  | panic m => simp

theorem successTypes_codes {ws : Bool} {df : Option Resp.DocResponse} {codes : List (Resp.DocStatus × Resp.DocResponse)}
    {rs : List Resp.Response} (h : Resp.processResponses ws df codes = .ok rs) : successTypes rs = codes.filterMap (okType ws) := by
  simp only [Resp.processResponses] at h
  obtain ⟨rs', h1, h⟩ := bind_ok_inv h
  have hf := Resp.convertAll_kinds h1
  have gen : ∀ {l : List (Resp.Status × Resp.DocResponse)} {rs : List Resp.Response},
      Spec.Forall₂ (fun e r => r.status = e.1 ∧ Resp.kindOf ws e.2 = .ok r.kind) l rs →
      successTypes rs = l.filterMap fun e => match Resp.kindOf ws e.2 with
        | .ok k => successType ⟨e.1, k⟩
        | _ => none := by
    intro l rs hlr
    unfold successTypes
    induction hlr with
    | nil => rfl
    | cons hp _ ih =>
      rename_i e r _ _ _
      obtain ⟨st, k⟩ := r
      obtain ⟨rfl, hk⟩ := hp
      simp only [List.filterMap_cons, ih, hk]
  have hrs : successTypes rs = successTypes rs' := by
    have hraw : successType ⟨.range 2, .raw⟩ = none := rfl
    have hup : successType ⟨.code 101, .upgrade⟩ = none := rfl
    unfold successTypes
    split at h <;> split at h <;> cases h <;> simp [List.filterMap_append, hraw, hup]
  rw [hrs, gen hf]
  have hdf : ∀ l : List (Resp.Status × Resp.DocResponse), (∀ e ∈ l, e.1 = .default) →
      (l.filterMap fun e => match Resp.kindOf ws e.2 with
        | .ok k => successType ⟨e.1, k⟩
        | _ => none) = [] := by
    intro l hl
    rw [List.filterMap_eq_nil_iff]
    rintro ⟨st, r⟩ he
    have := hl _ he
    dsimp only at this
    subst this
    dsimp only
    cases Resp.kindOf ws r with
    | ok k => cases k <;> rfl
    | err m => rfl
    | panic m => rfl
  rw [List.filterMap_append, hdf _ (by cases df <;> simp), List.nil_append, List.filterMap_map]
  rfl

theorem query_required {p : DocParam} {a : Param} (h : Describes p a) (hl : docLocation p.kind = .query) :
    (a.kind = .query true ∧ ArgRequired p) ∨ (a.kind = .query false ∧ ¬ ArgRequired p) := by
  obtain ⟨_, _, hm⟩ := h
  obtain ⟨name, kind, required, hasSchema, ty⟩ := p
  obtain ⟨an, aa, at', ak⟩ := a
  unfold ArgRequired
  cases kind with
  | query f o =>
    cases ak <;> cases o <;> simp_all
  | _ => cases hl

/-- The operation without the extension for pages is processed in the same way. -/
theorem process_unpaged {san types path method d pr} (hp : processOperation san types path method d = .ok pr) :
    processOperation san types path method { d with pagination := none } = .ok ⟨pr.op, none⟩ := by
  unfold processOperation at hp ⊢
  obtain ⟨conv, hconv, hp⟩ := bind_ok_inv hp
  obtain ⟨body, hbody, hp⟩ := bind_ok_inv hp
  obtain ⟨tmp, htmp, hp⟩ := bind_ok_inv hp
  obtain ⟨ps, hps, hp⟩ := bind_ok_inv hp
  obtain ⟨rs, hrs, hp⟩ := bind_ok_inv hp
  obtain ⟨_, hnc, hp⟩ := bind_ok_inv hp
  obtain ⟨m, hm, hp⟩ := bind_ok_inv hp
  cases hp
  simp only [hconv, hbody, htmp, hps, hrs, hm, Res.bind_ok]
  simp [paginationData, noConflict]

/-- Whether there are pages, for any operation all of whose parts are understood. -/
theorem paged_data_iff {san types path method} {d : DocOperation} {pr} (hd : PropsDistinct types)
    (hp : processOperation san types path method { d with pagination := none } = .ok pr) :
    paginationData types d.pagination pr.op.params pr.op.responses ≠ none ↔ Paged types d := by
  obtain ⟨_, _, _, hrs, _⟩ := processOperation_inv hp
  have hnd := processOperation_apiNames hp
  have hst := successTypes_codes hrs
  have hpage : (∃ t, successTypes pr.op.responses = [t] ∧ ∃ item, PageOf types t item) ↔
      ∃ t pre e post, PageType types t ∧ d.codes = pre ++ e :: post ∧ TypedOk d e t ∧ ∀ e' ∈ pre ++ post, ∀ t', ¬ TypedOk d e' t' := by
    rw [hst]
    refine exists_congr fun t => ?_
    rw [filterMap_singleton]
    have hpt : (∃ item, PageOf types t item) ↔ PageType types t :=
      ⟨fun ⟨i, a, b, c, e, h⟩ => ⟨a, b, c, e, i, h⟩, fun ⟨a, b, c, e, i, h⟩ => ⟨i, a, b, c, e, h⟩⟩
    rw [hpt]
    constructor
    · rintro ⟨⟨pre, e, post, he, ht, hno⟩, hp⟩
      refine ⟨pre, e, post, hp, he, (okType_iff d e t).mp ht, fun e' he' t' ht' => ?_⟩
      have := (okType_iff d e' t').mpr ht'
      rw [hno e' he'] at this
      cases this
    · rintro ⟨pre, e, post, hp, he, ht, hno⟩
      refine ⟨⟨pre, e, post, he, (okType_iff d e t).mpr ht, fun e' he' => ?_⟩, hp⟩
      cases hx : okType d.websocket e' with
      | none => rfl
      | some t' => exact absurd ((okType_iff d e' t').mp hx) (hno e' he' t')
  have hname : ∀ n, (∃ a ∈ pr.op.params, a.apiName = n ∧ a.kind = .query false) ↔
      ∃ p, Counts d p ∧ p.name = n ∧ docLocation p.kind = .query ∧ ¬ ArgRequired p := by
    intro n
    constructor
    · rintro ⟨a, ha, hn, hk⟩
      rcases param_counts hp ha with ⟨p, hpc, hda, _, _⟩ | ⟨e, _, hb⟩
      · have hl : docLocation p.kind = .query := by rw [← hda.2.1, hk]; rfl
        refine ⟨p, hpc, hda.1.symm.trans hn, hl, ?_⟩
        rcases query_required hda hl with ⟨h, _⟩ | ⟨_, h⟩
        · rw [hk] at h; cases h
        · exact h
      · rcases (body_shape hb a rfl).2 with ⟨c, _, hk', _⟩ | ⟨c, _, _, hk', _⟩ <;> (rw [hk] at hk'; cases hk')
    · rintro ⟨p, hpc, hn, hl, hr⟩
      obtain ⟨a, ha, hda, _, _⟩ := counts_param hp hpc
      refine ⟨a, ha, hda.1.trans hn, ?_⟩
      rcases query_required hda hl with ⟨_, h⟩ | ⟨h, _⟩
      · exact absurd h hr
      · exact h
  have hopt : (∀ a ∈ pr.op.params, a.kind ≠ .query true) ↔ ∀ p, Counts d p → docLocation p.kind = .query → ¬ ArgRequired p := by
    constructor
    · intro h p hpc hl hr
      obtain ⟨a, ha, hda, _, _⟩ := counts_param hp hpc
      rcases query_required hda hl with ⟨hk, _⟩ | ⟨_, h'⟩
      · exact h a ha hk
      · exact h' hr
    · intro h a ha hk
      rcases param_counts hp ha with ⟨p, hpc, hda, _, _⟩ | ⟨e, _, hb⟩
      · have hl : docLocation p.kind = .query := by rw [← hda.2.1, hk]; rfl
        rcases query_required hda hl with ⟨_, h'⟩ | ⟨h', _⟩
        · exact h p hpc hl h'
        · rw [hk] at h'; cases h'
      · rcases (body_shape hb a rfl).2 with ⟨c, _, hk', _⟩ | ⟨c, _, _, hk', _⟩ <;> (rw [hk] at hk'; cases hk')
  have hbody : (∀ a ∈ pr.op.params, a.typ ≠ .rawBody) ↔ ∀ ct m, d.body = some [(ct, m)] → ∃ base, MediaBase ct base ∧
      (base = "application/json".toList ∨ base = "application/x-www-form-urlencoded".toList) := by
    constructor
    · intro h ct m hb
      obtain ⟨a, ha, hbp⟩ := body_param hp hb
      rcases (C19_declared_iff _ _).mp hbp with ⟨h', _⟩ | ⟨ct', m', s, c, typ, hb', _, hc, hbt, heq⟩
      · cases h'
      · rw [hb] at hb'
        cases hb'
        cases heq
        have hne := h _ ha
        dsimp only at hne
        obtain ⟨base, hbase, hcs⟩ := (mediaType_iff _ _).mp hc
        refine ⟨base, hbase, ?_⟩
        rcases hcs with ⟨rfl, _⟩ | ⟨rfl, h⟩ | ⟨rfl, h⟩ | ⟨rfl, _⟩
        · simp only [bodyType] at hbt
          split at hbt
          · cases hbt; exact absurd rfl hne
          · cases hbt
        · exact .inl h
        · exact .inr h
        · simp only [bodyType] at hbt
          split at hbt
          · cases hbt; exact absurd rfl hne
          · cases hbt
    · intro h a ha ht
      rcases param_counts hp ha with ⟨p, _, _, _, hat⟩ | ⟨e, he, hbp⟩
      · rw [hat] at ht; cases ht
      · rcases (C19_declared_iff _ _).mp hbp with ⟨h', _⟩ | ⟨ct', m', s, c, typ, hb', _, hc, hbt, heq⟩
        · cases h'
        · cases heq
          dsimp only at ht
          subst ht
          obtain ⟨base, hbase, hj⟩ := h _ _ hb'
          have : c = .json ∨ c = .form := by
            rcases hj with hj | hj
            · have := (mediaType_iff ct' .json).mpr ⟨base, hbase, .inr (.inl ⟨rfl, hj⟩)⟩
              rw [hc] at this; cases this; exact .inl rfl
            · have := (mediaType_iff ct' .form).mpr ⟨base, hbase, .inr (.inr (.inl ⟨rfl, hj⟩))⟩
              rw [hc] at this; cases this; exact .inr rfl
          rcases this with rfl | rfl <;> (simp only [bodyType] at hbt; split at hbt <;> cases hbt)
  constructor
  · intro h
    obtain ⟨⟨item, req⟩, hpg⟩ := Option.ne_none_iff_exists'.mp h
    obtain ⟨h1, h2, h3, h4, h5, t, h6, h7⟩ := (paginationData_iff hd hnd item req).mp hpg
    obtain ⟨p, hpc, hn, hl, _⟩ := (hname _).mp h2
    obtain ⟨q, hqc, hqn, hql, _⟩ := (hname _).mp h3
    exact ⟨by rw [h1]; simp, ⟨p, hpc, hn, hl⟩, ⟨q, hqc, hqn, hql⟩, hopt.mp h4, hbody.mp h5,
      hpage.mp ⟨t, successTypes_one.mpr h7, item, h6⟩⟩
  · rintro ⟨h1, ⟨p, hpc, hn, hl⟩, ⟨q, hqc, hqn, hql⟩, h4, h5, h6⟩
    obtain ⟨req, hreq⟩ := Option.ne_none_iff_exists'.mp h1
    obtain ⟨t, ht, item, hi⟩ := hpage.mpr h6
    have := (paginationData_iff hd hnd item req).mpr ⟨hreq, (hname _).mpr ⟨p, hpc, hn, hl, h4 p hpc hl⟩,
      (hname _).mpr ⟨q, hqc, hqn, hql, h4 q hqc hql⟩, hopt.mpr h4, hbody.mpr h5, t, hi, successTypes_one.mp ht⟩
    rw [this]
    simp

/-- C86: which operations provide their list in pages. -/
theorem C86_paged_iff {san types path method d pr} (hd : PropsDistinct types)
    (hp : processOperation san types path method d = .ok pr) : pr.paginated ≠ none ↔ Paged types d := by
  obtain ⟨_, _, _, _, _, _, _, _, hpg, _⟩ := processOperation_inv hp
  rw [hpg]
  exact paged_data_iff (pr := ⟨pr.op, none⟩) hd (process_unpaged hp)

/-! ## Names -/

variable {u : Unicode} {B : Type}

theorem clientOwn_iff (inner : Bool) (s : Str) : s ∈ clientOwn inner ↔ ClientName inner s := by
  unfold clientOwn ClientName
  rw [List.mem_append, List.mem_map]
  refine or_congr ⟨fun ⟨x, hx, e⟩ => ⟨x, hx, e.symm⟩, fun ⟨x, hx, e⟩ => ⟨x, hx, e.symm⟩⟩ ?_
  cases inner <;> simp

theorem append_nodup_iff {l m : List Str} (hl : l.Nodup) : (l ++ m).Nodup ↔ m.Nodup ∧ ∀ x ∈ m, x ∉ l := by
  constructor
  · intro h
    rw [List.nodup_append] at h
    exact ⟨h.2.1, fun x hx hx' => h.2.2 x hx' x hx rfl⟩
  · rintro ⟨h1, h2⟩
    exact nodup_append_of hl h1 h2

/-- Names that come alone or with a longer one. -/
theorem stream_nodup_iff {α} (σ : Str) (hσ : σ ≠ []) (n : α → Str) (b : α → Bool) (l : List α) :
    (l.flatMap fun p => n p :: if b p then [n p ++ σ] else []).Nodup ↔
      (l.map n).Nodup ∧ ∀ p ∈ l, ∀ q ∈ l, b p = true → n q ≠ n p ++ σ := by
  have hne : ∀ s : Str, s ≠ s ++ σ := by
    intro s h
    exact hσ (List.append_cancel_left (by rw [List.append_nil]; exact h.symm))
  have hmem : ∀ (l : List α) x, x ∈ (l.flatMap fun p => n p :: if b p then [n p ++ σ] else []) ↔
      (∃ p ∈ l, x = n p) ∨ ∃ p ∈ l, b p = true ∧ x = n p ++ σ := by
    intro l x
    rw [List.mem_flatMap]
    constructor
    · rintro ⟨p, hp, hx⟩
      rcases List.mem_cons.mp hx with rfl | hx
      · exact .inl ⟨p, hp, rfl⟩
      · split at hx
        · rename_i hb; exact .inr ⟨p, hp, hb, List.mem_singleton.mp hx⟩
        · cases hx
    · rintro (⟨p, hp, rfl⟩ | ⟨p, hp, hb, rfl⟩)
      · exact ⟨p, hp, by simp⟩
      · exact ⟨p, hp, by rw [if_pos hb]; simp⟩
  induction l with
  | nil => simp
  | cons a l ih =>
    rw [List.flatMap_cons, List.nodup_append, propext ih, List.map_cons, List.nodup_cons (l := l.map n)]
    constructor
    · rintro ⟨h1, ⟨h2, h3⟩, h4⟩
      have h4' : ∀ x ∈ (n a :: if b a then [n a ++ σ] else []), ∀ y, ((∃ p ∈ l, y = n p) ∨
          ∃ p ∈ l, b p = true ∧ y = n p ++ σ) → x ≠ y := fun x hx y hy => h4 x hx y ((hmem l y).mpr hy)
      refine ⟨⟨fun hm => ?_, h2⟩, ?_⟩
      · obtain ⟨p, hp, e⟩ := List.mem_map.mp hm
        exact h4' (n a) (by simp) (n p) (.inl ⟨p, hp, rfl⟩) e.symm
      · intro p hp q hq hb
        rcases List.mem_cons.mp hp with rfl | hp1 <;> rcases List.mem_cons.mp hq with rfl | hq1
        · exact hne _
        · exact fun e => h4' (n p ++ σ) (by rw [if_pos hb]; simp) (n q) (.inl ⟨q, hq1, rfl⟩) e.symm
        · exact h4' (n q) (by simp) _ (.inr ⟨p, hp1, hb, rfl⟩)
        · exact h3 p hp1 q hq1 hb
    · rintro ⟨⟨h1, h2⟩, h3⟩
      refine ⟨?_, ⟨h2, fun p hp q hq => h3 p (by simp [hp]) q (by simp [hq])⟩, ?_⟩
      · split
        · exact List.nodup_cons.mpr ⟨fun hm => hne _ (List.mem_singleton.mp hm), by simp⟩
        · simp
      · intro x hx y hy e
        subst e
        rcases List.mem_cons.mp hx with rfl | hx
        · rcases (hmem l _).mp hy with ⟨p, hp, e⟩ | ⟨p, hp, hb, e⟩
          · exact h1 (by rw [e]; exact List.mem_map_of_mem hp)
          · exact h3 p (by simp [hp]) a (by simp) hb e
        · split at hx
          · rename_i hb
            have hx := List.mem_singleton.mp hx
            subst hx
            rcases (hmem l _).mp hy with ⟨p, hp, e⟩ | ⟨p, hp, hb', e⟩
            · exact h3 a (by simp) p (by simp [hp]) hb e.symm
            · exact h1 (by rw [List.append_cancel_right e]; exact List.mem_map_of_mem hp)
          · cases hx

/-- What is known of each method. -/
def NamedFor (u : Unicode) (types : Types) (tt : TypeTable B) (o : RawOperation) (p : Processed) : Prop :=
  p.op.operationId = methodName u o ∧ p.op.tags = o.op.tags ∧ (p.paginated.isSome = true ↔ Paged types o.op) ∧
    ((∀ q, Counts o.op q → tt.builder (argType q) = none) → ∀ x, x ∈ builderUses tt p ↔ ∃ y, Mentions types tt o.op y ∧ x = y.toList)

theorem required_iff {p : DocParam} {a : Param} (h : Describes p a) (hs : ParamSupported p) :
    isRequired a.kind = false ↔ ¬ ArgRequired p := by
  obtain ⟨_, _, hm⟩ := h
  obtain ⟨name, kind, required, hasSchema, ty⟩ := p
  obtain ⟨an, aa, at', ak⟩ := a
  unfold ArgRequired
  unfold ParamSupported at hs
  cases kind with
  | path s => cases ak <;> simp_all [isRequired]
  | query f o => cases o <;> cases ak <;> simp_all [isRequired]
  | header => cases ak <;> simp_all [isRequired]
  | cookie => simp_all

theorem uses_iff {san types path method d pr} (hd : PropsDistinct types) (hp : processOperation san types path method d = .ok pr)
    (hsup : ∀ p, Counts d p → ParamSupported p) (tt : TypeTable B) (hpl : ∀ q, Counts d q → tt.builder (argType q) = none) (x : Str) :
    x ∈ builderUses tt pr ↔ ∃ y, Mentions types tt d y ∧ x = y.toList := by
  have hpg : pr.paginated.isSome = true ↔ Paged types d := by
    rw [← C86_paged_iff hd hp]; cases pr.paginated <;> simp
  have h1 : pr.op.params ≠ [] ↔ (∃ p, Counts d p) ∨ ∃ e, d.body = some [e] := by
    constructor
    · intro h
      obtain ⟨a, ha⟩ := List.exists_mem_of_ne_nil _ h
      rcases param_counts hp ha with ⟨p, hpc, _⟩ | ⟨e, he, _⟩
      · exact .inl ⟨p, hpc⟩
      · exact .inr ⟨e, he⟩
    · rintro (⟨p, hpc⟩ | ⟨e, he⟩) hnil
      · obtain ⟨a, ha, _⟩ := counts_param hp hpc
        rw [hnil] at ha; cases ha
      · obtain ⟨a, ha, _⟩ := body_param hp he
        rw [hnil] at ha; cases ha
  have h2 : pr.op.params.any (fun q => !isRequired q.kind) = true ↔ ∃ p, Counts d p ∧ ¬ ArgRequired p := by
    rw [List.any_eq_true]
    constructor
    · rintro ⟨a, ha, hr⟩
      rw [Bool.not_eq_true'] at hr
      rcases param_counts hp ha with ⟨p, hpc, hda, _⟩ | ⟨e, _, hb⟩
      · exact ⟨p, hpc, (required_iff hda (hsup p hpc)).mp hr⟩
      · rcases (body_shape hb a rfl).2 with ⟨c, _, hk, _⟩ | ⟨c, _, _, hk, _⟩ <;> (rw [hk] at hr; cases hr)
    · rintro ⟨p, hpc, hr⟩
      obtain ⟨a, ha, hda, _⟩ := counts_param hp hpc
      exact ⟨a, ha, by rw [(required_iff hda (hsup p hpc)).mpr hr]; rfl⟩
  have h3 : pr.op.params.any (fun q => match q.typ with
      | .type t => (tt.builder t).isSome
      | .rawBody => false) = true ↔ BodyStruct tt d := by
    rw [List.any_eq_true, ← body_struct_iff hp tt]
    constructor
    · rintro ⟨a, ha, hr⟩
      refine ⟨a, ha, ?_⟩
      rcases param_counts hp ha with ⟨p, hpc, _, _, hat⟩ | ⟨e, _, hb⟩
      · rw [hat] at hr
        simp only [hpl p hpc] at hr
        cases hr
      · rcases (body_shape hb a rfl).2 with ⟨c, _, hk, ht⟩ | ⟨c, t, _, hk, ht⟩
        · rw [ht] at hr; cases hr
        · rw [ht] at hr
          obtain ⟨tb, htb⟩ := Option.isSome_iff_exists.mp hr
          exact ⟨tb, t, c, ht, hk, htb⟩
    · rintro ⟨a, ha, tb, t, c, ht, hk, htb⟩
      exact ⟨a, ha, by rw [ht]; simp only [htb]; rfl⟩
  unfold builderUses
  simp only [List.mem_append]
  constructor
  · rintro ((((h | h) | h) | h) | h)
    · exact ⟨_, .result, List.mem_singleton.mp h⟩
    · split at h
      · cases h
      · rename_i hne
        rcases h1.mp hne with ⟨p, hpc⟩ | ⟨e, he⟩
        · exact ⟨_, .param p hpc, List.mem_singleton.mp h⟩
        · exact ⟨_, .body e he, List.mem_singleton.mp h⟩
    · split at h
      · rename_i ho
        obtain ⟨p, hpc, hr⟩ := h2.mp ho
        exact ⟨_, .optional p hpc hr, List.mem_singleton.mp h⟩
      · cases h
    · split at h
      · rename_i ho
        exact ⟨_, .struct (h3.mp ho), List.mem_singleton.mp h⟩
      · cases h
    · split at h
      · rename_i ho
        exact ⟨_, .page (hpg.mp ho), List.mem_singleton.mp h⟩
      · cases h
  · rintro ⟨y, hy, rfl⟩
    cases hy with
    | result => exact .inl (.inl (.inl (.inl (by simp))))
    | param p hpc => exact .inl (.inl (.inl (.inr (by rw [if_neg (h1.mpr (.inl ⟨p, hpc⟩))]; simp))))
    | body e he => exact .inl (.inl (.inl (.inr (by rw [if_neg (h1.mpr (.inr ⟨e, he⟩))]; simp))))
    | optional p hpc hr => exact .inl (.inl (.inr (by rw [if_pos (h2.mpr ⟨p, hpc, hr⟩)]; simp)))
    | struct hb =>
      refine .inl (.inr ?_)
      split
      · simp
      · rename_i hn; exact absurd (h3.mpr hb) hn
    | page hpa => exact .inr (by rw [if_pos (hpg.mpr hpa)]; simp)

/-- Everything of a document that decides on names, with the methods. -/
theorem names_fit (hd : PropsDistinct types) {d : Document} {ms : List Processed} (tt : TypeTable B)
    (hm : rawMethods u types d = .ok ms) (hsup : ∀ o ∈ opsOf d, ∀ q, Counts o.op q → ParamSupported q) :
    Forall₂ (NamedFor u types tt) (opsOf d) ms := by
  have hall := (rawMethods_ok hm).2
  rw [← operations_ops] at hsup ⊢
  generalize operations d = os at hall hsup
  clear hm
  induction os generalizing ms with
  | nil => cases hall; exact .nil
  | cons o os ih =>
    obtain ⟨p, h1, h⟩ := bind_ok_inv hall
    obtain ⟨ps', h2, h⟩ := bind_ok_inv h
    cases h
    refine .cons ?_ (ih h2 fun o ho => hsup o (by simp at ho ⊢; exact .inr ho))
    obtain ⟨path, m, o⟩ := o
    obtain ⟨id, hid, hn, ht⟩ := processOne_id h1
    dsimp only at hid
    have hpo : processOperation (sanitize u .snake) types path m { o.op with operationId := id } = .ok p := by
      unfold processOne at h1
      simpa only [hid] using h1
    have hpaged : Paged types { o.op with operationId := id } ↔ Paged types o.op :=
      ⟨fun ⟨a, b, c, e, f, g⟩ => ⟨a, b, c, e, f, g⟩, fun ⟨a, b, c, e, f, g⟩ => ⟨a, b, c, e, f, g⟩⟩
    refine ⟨?_, ht, ?_, ?_⟩
    · rw [hn]; unfold methodName; rw [hid]; rfl
    · rw [← hpaged, ← C86_paged_iff hd hpo]
      cases p.paginated <;> simp
    · intro hpl x
      rw [uses_iff hd hpo (hsup o (by simp)) tt hpl]
      refine exists_congr fun y => and_congr_left fun _ => ?_
      constructor
      · intro h
        cases h with
        | result => exact .result
        | param p h => exact .param p h
        | body e h => exact .body e h
        | optional p h h' => exact .optional p h h'
        | struct h => exact .struct h
        | page h => exact .page (hpaged.mp h)
      · intro h
        cases h with
        | result => exact .result
        | param p h => exact .param p h
        | body e h => exact .body e h
        | optional p h h' => exact .optional p h h'
        | struct h => exact .struct h
        | page h => exact .page (hpaged.mpr h)

theorem fits_names {types : Types} {tt : TypeTable B} {os : List RawOperation} {ms : List Processed} (hf : Forall₂ (NamedFor u types tt) os ms)
    (g : Str → Str) : ms.map (fun p => g p.op.operationId) = os.map fun o => g (methodName u o) := by
  induction hf with
  | nil => rfl
  | cons h _ ih => rw [List.map_cons, List.map_cons, ih, h.1]

/-- C86: when functions of the client have different names. -/
theorem positional_names_iff {types : Types} (tt : TypeTable B) (inner : Bool) {d : Document} {ms : List Processed}
    (hf : Forall₂ (NamedFor u types tt) (opsOf d) ms) (hv : ((opsOf d).map RawOperation.id).Nodup) :
    namesOk u tt inner .positional .merged ms = true ↔ PositionalNames u types inner d := by
  have hstream : ∀ s : Str, s ++ "_stream".toList ∉ clientOwn inner := by
    intro s hm
    have hl : ∀ x ∈ clientOwn inner, x.drop (x.length - 7) ≠ "_stream".toList := by
      cases inner <;> decide
    refine hl _ hm ?_
    have h7 : "_stream".toList.length = 7 := by decide
    rw [List.length_append, h7, Nat.add_sub_cancel, List.drop_left]
  unfold namesOk
  dsimp only
  rw [decide_eq_true_iff, append_nodup_iff (clientOwn_nodup inner)]
  have := stream_nodup_iff "_stream".toList (by decide) (fun p : Processed => p.op.operationId) (fun p => p.paginated.isSome) ms
  rw [show ms.flatMap positionalNames = ms.flatMap fun p => p.op.operationId :: if p.paginated.isSome then
      [p.op.operationId ++ "_stream".toList] else [] from rfl, this, fits_names hf (fun x => x), map_nodup_iff hv]
  constructor
  · rintro ⟨⟨h1, h2⟩, h3⟩
    refine ⟨?_, h1, ?_⟩
    · intro o ho hc
      obtain ⟨p, hp, hfit⟩ := forall₂_left hf o ho
      refine h3 _ ?_ ((clientOwn_iff _ _).mpr hc)
      exact List.mem_flatMap.mpr ⟨p, hp, by rw [hfit.1]; simp⟩
    · intro o ho o' ho' hpg
      obtain ⟨p, hp, hfit⟩ := forall₂_left hf o ho
      obtain ⟨p', hp', hfit'⟩ := forall₂_left hf o' ho'
      rw [← hfit.1, ← hfit'.1]
      exact h2 p hp p' hp' (hfit.2.2.1.mpr hpg)
  · rintro ⟨h1, h2, h3⟩
    refine ⟨⟨h2, ?_⟩, ?_⟩
    · intro p hp q hq hb
      obtain ⟨o, ho, hfit⟩ := forall₂_right hf p hp
      obtain ⟨o', ho', hfit'⟩ := forall₂_right hf q hq
      rw [hfit.1, hfit'.1]
      exact h3 o ho o' ho' (hfit.2.2.1.mp hb)
    · intro x hx
      obtain ⟨p, hp, hx⟩ := List.mem_flatMap.mp hx
      rcases List.mem_cons.mp hx with rfl | hx
      · obtain ⟨o, ho, hfit⟩ := forall₂_right hf p hp
        rw [hfit.1]
        exact fun hc => h1 o ho ((clientOwn_iff _ _).mp hc)
      · split at hx
        · rw [List.mem_singleton.mp hx]; exact hstream _
        · cases hx

/-- An operation with a repeated tag is twice in a trait. -/
theorem repeated_twice {ms : List Processed} {p : Processed} (hp : p ∈ ms) {tag : Str} (hc : 2 ≤ p.op.tags.count tag) :
    ¬ ((ms.flatMap fun m => List.replicate (m.op.tags.count tag) m).map fun p => p.op.operationId).Nodup := by
  intro hn
  obtain ⟨pre, post, rfl⟩ := List.append_of_mem hp
  obtain ⟨n, hn2⟩ : ∃ n, p.op.tags.count tag = n + 2 := ⟨_, (Nat.sub_add_cancel hc).symm⟩
  have hsub : [p, p].Sublist ((pre ++ p :: post).flatMap fun m => List.replicate (m.op.tags.count tag) m) := by
    rw [List.flatMap_append, List.flatMap_cons, hn2]
    refine List.Sublist.trans ?_ (List.sublist_append_right _ _)
    refine List.Sublist.trans ?_ (List.sublist_append_left _ _)
    rw [List.replicate_succ, List.replicate_succ]
    exact .cons_cons _ (.cons_cons _ (List.nil_sublist _))
  have := hn.sublist (hsub.map fun p => p.op.operationId)
  simp at this

theorem trait_methods_iff {ms : List Processed} (hn : (ms.map fun p => p.op.operationId).Nodup) :
    ((builderTags ms ([], [])).2.all fun e => decide ((e.2.map fun p => p.op.operationId).Nodup)) = true ↔
      ∀ p ∈ ms, p.op.tags.Nodup := by
  rw [List.all_eq_true]
  constructor
  · intro h p hp
    rw [List.nodup_iff_count]
    intro tag
    by_cases hc : p.op.tags.count tag ≤ 1
    · exact hc
    · exfalso
      have ht : tag ∈ p.op.tags := List.count_pos_iff.mp (by omega)
      obtain ⟨l, hl, _⟩ := ((C51_partition ms).2.1 p tag).mpr ⟨hp, ht⟩
      have hd := of_decide_eq_true (h _ hl)
      rw [tag_entry hl] at hd
      exact repeated_twice hp (by dsimp only; omega) hd
  · intro htag e he
    refine decide_eq_true ?_
    rw [tag_entry he]
    have hsub : (ms.flatMap fun m => List.replicate (m.op.tags.count e.1) m).Sublist ms := by
      clear hn he
      induction ms with
      | nil => exact .slnil
      | cons p ms ih =>
        rw [List.flatMap_cons]
        have hle : p.op.tags.count e.1 ≤ 1 := List.nodup_iff_count.mp (htag p (by simp)) _
        have ih := ih fun q hq => htag q (by simp [hq])
        rcases Nat.le_one_iff_eq_zero_or_eq_one.mp hle with h0 | h1
        · rw [h0]; exact .cons _ ih
        · rw [h1]; exact .cons_cons _ ih
    exact hn.sublist (List.Sublist.map _ hsub)

theorem traits_iff (u : Unicode) (ms : List Processed) :
    ((builderTags ms ([], [])).2.map fun e => traitName u e.1).Nodup ↔
      ∀ p ∈ ms, ∀ q ∈ ms, ∀ a ∈ p.op.tags, ∀ b ∈ q.op.tags, sanitize u .pascal a = sanitize u .pascal b → a = b := by
  obtain ⟨_, hmem, hne, hk⟩ := C51_partition ms
  rw [map_nodup_iff hk]
  constructor
  · intro h p hp q hq a ha b hb e
    obtain ⟨l, hl, _⟩ := (hmem p a).mpr ⟨hp, ha⟩
    obtain ⟨l', hl', _⟩ := (hmem q b).mpr ⟨hq, hb⟩
    exact h _ hl _ hl' (by unfold traitName; dsimp only; rw [e])
  · rintro h ⟨a, l⟩ he ⟨b, l'⟩ he' heq
    obtain ⟨p, hp⟩ := List.exists_mem_of_ne_nil _ (hne _ he)
    obtain ⟨q, hq⟩ := List.exists_mem_of_ne_nil _ (hne _ he')
    obtain ⟨hp, ha⟩ := (hmem p a).mp ⟨_, he, hp⟩
    obtain ⟨hq, hb⟩ := (hmem q b).mp ⟨_, he', hq⟩
    unfold traitName at heq
    exact h p hp q hq a ha b hb (List.append_cancel_left (List.append_cancel_right heq))

/-- When the structs for operations can be in one module. -/
theorem module_iff {types : Types} (tt : TypeTable B) {d : Document} {ms : List Processed}
    (hf : Forall₂ (NamedFor u types tt) (opsOf d) ms) (hv : ((opsOf d).map RawOperation.id).Nodup)
    (hpl : ∀ o ∈ opsOf d, ∀ q, Counts o.op q → tt.builder (argType q) = none) :
    builderModOk u tt ms = true ↔
      (∀ o ∈ opsOf d, ∀ o' ∈ opsOf d, builderName u o = builderName u o' → o.id = o'.id) ∧
      (∀ o ∈ opsOf d, ∀ x ∈ ["types", "ByteStream", "Error", "RequestBuilderExt", "ResponseValue"], builderName u o ≠ x.toList) ∧
      ∀ o ∈ opsOf d, ∀ o' ∈ opsOf d, ∀ x, Mentions types tt o'.op x → builderName u o ≠ x.toList := by
  have hsn : ms.map (structName u) = (opsOf d).map (builderName u) := fits_names hf (sanitize u .pascal)
  unfold builderModOk
  rw [Bool.and_eq_true, decide_eq_true_iff, append_nodup_iff (by decide), hsn, map_nodup_iff hv, and_assoc]
  refine and_congr_right fun _ => and_congr ?_ ?_
  · constructor
    · intro h o ho x hx e
      exact h _ (List.mem_map_of_mem ho) (by rw [e]; exact List.mem_map_of_mem hx)
    · intro h y hy hi
      obtain ⟨o, ho, rfl⟩ := List.mem_map.mp hy
      obtain ⟨x, hx, e⟩ := List.mem_map.mp hi
      exact h o ho x hx e.symm
  · simp only [List.all_eq_true, Bool.not_eq_true', List.contains_eq_mem, decide_eq_false_iff_not]
    constructor
    · intro h o ho o' ho' x hx e
      obtain ⟨p, hp, hfit⟩ := forall₂_left hf o ho
      obtain ⟨p', hp', hfit'⟩ := forall₂_left hf o' ho'
      refine h p hp p' hp' ((hfit'.2.2.2 (hpl o' ho') _).mpr ⟨x, hx, ?_⟩)
      rw [← e]
      unfold structName builderName
      rw [hfit.1]
    · intro h p hp q hq hm
      obtain ⟨o, ho, hfit⟩ := forall₂_right hf p hp
      obtain ⟨o', ho', hfit'⟩ := forall₂_right hf q hq
      obtain ⟨x, hx, e⟩ := (hfit'.2.2.2 (hpl o' ho') _).mp hm
      refine h o ho o' ho' x hx ?_
      rw [← e]
      unfold structName builderName
      rw [hfit.1]

theorem builder_names_iff {types : Types} (tt : TypeTable B) (inner : Bool) (t : TagStyle) {d : Document} {ms : List Processed}
    (hf : Forall₂ (NamedFor u types tt) (opsOf d) ms) (hv : ((opsOf d).map RawOperation.id).Nodup)
    (hpl : ∀ o ∈ opsOf d, ∀ q, Counts o.op q → tt.builder (argType q) = none) :
    namesOk u tt inner .builder t ms = true ↔ BuilderNames u types tt inner t d := by
  have hmod := module_iff tt hf hv hpl
  have hinj : (∀ o ∈ opsOf d, ∀ o' ∈ opsOf d, builderName u o = builderName u o' → o.id = o'.id) →
      (ms.map fun p => p.op.operationId).Nodup := by
    intro h
    rw [fits_names hf (fun x => x), map_nodup_iff hv]
    intro o ho o' ho' e
    refine h o ho o' ho' ?_
    unfold builderName
    rw [e]
  cases t with
  | merged =>
    unfold namesOk
    dsimp only
    rw [Bool.and_eq_true, decide_eq_true_iff, append_nodup_iff (clientOwn_nodup inner), hmod]
    constructor
    · rintro ⟨⟨_, h2⟩, h3, h4, h5⟩
      refine ⟨fun o ho _ hc => ?_, h3, h4, h5, fun h => (by cases h), fun h => (by cases h)⟩
      obtain ⟨p, hp, hfit⟩ := forall₂_left hf o ho
      exact h2 _ (List.mem_map_of_mem hp) (by rw [hfit.1]; exact (clientOwn_iff _ _).mpr hc)
    · rintro ⟨h1, h2, h3, h4, _, _⟩
      refine ⟨⟨hinj h2, fun x hx hc => ?_⟩, h2, h3, h4⟩
      obtain ⟨p, hp, rfl⟩ := List.mem_map.mp hx
      obtain ⟨o, ho, hfit⟩ := forall₂_right hf p hp
      rw [hfit.1] at hc
      exact h1 o ho (.inl rfl) ((clientOwn_iff _ _).mp hc)
  | separate =>
    unfold namesOk
    dsimp only
    rw [Bool.and_eq_true, Bool.and_eq_true, Bool.and_eq_true, decide_eq_true_iff, decide_eq_true_iff,
      append_nodup_iff (clientOwn_nodup inner), hmod, traits_iff, C51_base]
    constructor
    · rintro ⟨⟨⟨⟨_, h2⟩, h3, h4, h5⟩, h6⟩, h7⟩
      rw [trait_methods_iff (hinj h3)] at h7
      refine ⟨fun o ho ht hc => ?_, h3, h4, h5, fun _ o ho => ?_, fun _ o ho o' ho' => ?_⟩
      · obtain ⟨p, hp, hfit⟩ := forall₂_left hf o ho
        have ht : o.op.tags = [] := by rcases ht with h | h; · cases h
                                       · exact h
        refine h2 _ (List.mem_map_of_mem (List.mem_filter.mpr ⟨hp, decide_eq_true (hfit.2.1.trans ht)⟩)) ?_
        rw [hfit.1]
        exact (clientOwn_iff _ _).mpr hc
      · obtain ⟨p, hp, hfit⟩ := forall₂_left hf o ho
        rw [← hfit.2.1]
        exact h7 p hp
      · obtain ⟨p, hp, hfit⟩ := forall₂_left hf o ho
        obtain ⟨p', hp', hfit'⟩ := forall₂_left hf o' ho'
        rw [← hfit.2.1, ← hfit'.2.1]
        exact h6 p hp p' hp'
    · rintro ⟨h1, h2, h3, h4, h5, h6⟩
      refine ⟨⟨⟨⟨?_, fun x hx hc => ?_⟩, h2, h3, h4⟩, fun p hp q hq => ?_⟩, (trait_methods_iff (hinj h2)).mpr fun p hp => ?_⟩
      · exact (hinj h2).sublist (List.filter_sublist.map _)
      · obtain ⟨p, hp, rfl⟩ := List.mem_map.mp hx
        obtain ⟨hp, ht⟩ := List.mem_filter.mp hp
        obtain ⟨o, ho, hfit⟩ := forall₂_right hf p hp
        rw [hfit.1] at hc
        exact h1 o ho (.inr (hfit.2.1.symm.trans (of_decide_eq_true ht))) ((clientOwn_iff _ _).mp hc)
      · obtain ⟨o, ho, hfit⟩ := forall₂_right hf p hp
        obtain ⟨o', ho', hfit'⟩ := forall₂_right hf q hq
        rw [hfit.2.1, hfit'.2.1]
        exact h6 rfl o ho o' ho'
      · obtain ⟨o, ho, hfit⟩ := forall₂_right hf p hp
        rw [hfit.2.1]
        exact h5 rfl o ho

/-! ## Documents -/

variable {P V : Type}

/-- Arguments of the types in the signature. -/
def TypedArgs (params : List Param) (args : List Value) : Prop :=
  params.length = args.length ∧ ∀ p v, (p, v) ∈ params.zip args → typed p v = true

/-- All calls with arguments of the right types compile: of the method, and of the stream if there is one. -/
structure PositionalCompiles (cfg : Config) (hooks : Hooks) (w : World) (decode : Params.TypeId → Bytes → Except P V) (hist : List Event)
    (types : Types) (p : Processed) (c : Code) : Prop where
  call : ∀ args, TypedArgs p.op.params args → (call cfg hooks w decode p.op.params c hist args).1 ≠ .noCompile
  stream : p.paginated ≠ none → ∀ args, TypedArgs (streamParams p.op.params) args → positionalArgs types p.op.params args ≠ none

/-- All uses of the builder with fitting setters compile: `send`, and `stream` if there is one. -/
structure BuilderCompiles (cfg : Config) (hooks : Hooks) (w : World) (decode : Params.TypeId → Bytes → Except P V) (hist : List Event)
    (types : Types) (tt : TypeTable B) (p : Processed) (c : Code) : Prop where
  send : ∀ calls, (∀ x ∈ calls, CallOk tt p.op.params x) →
    (callBuilder cfg hooks w decode tt p.op.params p.paginated.isSome c hist calls).1 ≠ .noCompile
  stream : p.paginated ≠ none → ∀ calls, (∀ x ∈ calls, CallOk tt p.op.params x) → builderStream tt types p.op.params calls ≠ none

theorem typed_args (params : List Param) : ∃ args, TypedArgs params args := by
  induction params with
  | nil => exact ⟨[], rfl, fun p v h => (by cases h)⟩
  | cons p ps ih =>
    obtain ⟨args, hl, ht⟩ := ih
    obtain ⟨v, hv⟩ : ∃ v, typed p v = true := by
      obtain ⟨pn, pa, pt, pk⟩ := p
      cases pt with
      | rawBody => exact ⟨.raw [], rfl⟩
      | type t =>
        cases pk with
        | query r => cases r with
          | false => exact ⟨.opt none, rfl⟩
          | true => exact ⟨.plain ⟨[], .none⟩, rfl⟩
        | header r => cases r with
          | false => exact ⟨.opt none, rfl⟩
          | true => exact ⟨.plain ⟨[], .none⟩, rfl⟩
        | path => exact ⟨.plain ⟨[], .none⟩, rfl⟩
        | body _ => exact ⟨.plain ⟨[], .none⟩, rfl⟩
    refine ⟨v :: args, by simp [hl], fun q w hq => ?_⟩
    rw [List.zip_cons_cons] at hq
    rcases List.mem_cons.mp hq with h | h
    · cases h; exact hv
    · exact ht q w h

theorem positional_compiles_iff (h : Lawful u) {types path method d pr c} (hd : PropsDistinct types)
    (hp : processOperation (sanitize u .snake) types path method d = .ok pr) (hc : methodSigBody pr.op = .ok c)
    (cfg : Config) (hooks : Hooks) (w : World) (decode : Params.TypeId → Bytes → Except P V) (hist : List Event) :
    PositionalCompiles cfg hooks w decode hist types pr c ↔ MethodSound (sanitize u .snake) path method d ∧
      (Paged types d → TokenSound types d ∧ CaptureSound (sanitize u .snake) d) := by
  constructor
  · rintro ⟨h1, h2⟩
    obtain ⟨args, ha⟩ := typed_args pr.op.params
    refine ⟨((C86_method_iff hp hc cfg hooks w decode hist args).mp (h1 args ha)).1, fun hpg => ?_⟩
    have hpg := (C86_paged_iff hd hp).mpr hpg
    obtain ⟨pd, hpd⟩ := Option.ne_none_iff_exists'.mp hpg
    obtain ⟨args, ha⟩ := typed_args (streamParams pr.op.params)
    obtain ⟨_, _, ht, hcap, _⟩ := (C86_stream_iff h hd hp hpd args).mp (h2 hpg args ha)
    exact ⟨ht, hcap⟩
  · rintro ⟨h1, h2⟩
    refine ⟨fun args ha => (C86_method_iff hp hc cfg hooks w decode hist args).mpr ⟨h1, ha⟩, fun hpg args ha => ?_⟩
    obtain ⟨pd, hpd⟩ := Option.ne_none_iff_exists'.mp hpg
    obtain ⟨ht, hcap⟩ := h2 ((C86_paged_iff hd hp).mp hpg)
    exact (C86_stream_iff h hd hp hpd args).mpr ⟨h1.distinct, h1.body, ht, hcap, ha.1, ha.2⟩

theorem builderSound_congr {san : Str → Str} {tt : TypeTable B} {a b : Prop} {d : DocOperation} (hab : a ↔ b) :
    BuilderSound san tt a d ↔ BuilderSound san tt b d :=
  ⟨fun ⟨h1, h2, h3, h4, h5, h6⟩ => ⟨h1, h2, fun hb => h3 (hab.mpr hb), fun hb => h4 (hab.mpr hb), h5, h6⟩,
   fun ⟨h1, h2, h3, h4, h5, h6⟩ => ⟨h1, h2, fun hb => h3 (hab.mp hb), fun hb => h4 (hab.mp hb), h5, h6⟩⟩

theorem builder_compiles_iff (h : Lawful u) {types path method d pr c} (hd : PropsDistinct types)
    (hp : processOperation (sanitize u .snake) types path method d = .ok pr) (tt : TypeTable B) (hc : builderStruct tt pr.op = .ok c)
    (hlaw : ∀ t tb, tt.builder t = some tb → ∀ a, tb.finish (tb.ofValue a) = .ok a)
    (cfg : Config) (hooks : Hooks) (w : World) (decode : Params.TypeId → Bytes → Except P V) (hist : List Event) :
    BuilderCompiles cfg hooks w decode hist types tt pr c ↔ MethodSound (sanitize u .snake) path method d ∧
      BuilderSound (sanitize u .snake) tt (Paged types d) d ∧ (Paged types d → TokenSound types d) := by
  have hsend := C86_builder_iff hp tt hc (fun p _ tb ⟨t, _, _, _, htb⟩ a => hlaw t tb htb a) cfg hooks w decode hist
  rw [builderSound_congr (C86_paged_iff hd hp)] at hsend
  have hg : genParams tt pr.op.params = .ok () := by
    unfold builderStruct at hc
    obtain ⟨_, hg, _⟩ := bind_ok_inv hc
    exact hg
  constructor
  · rintro ⟨h1, h2⟩
    obtain ⟨hm, hb⟩ := hsend.mp h1
    refine ⟨hm, hb, fun hpg => ?_⟩
    have hpg := (C86_paged_iff hd hp).mpr hpg
    obtain ⟨pd, hpd⟩ := Option.ne_none_iff_exists'.mp hpg
    exact ((C86_builder_stream_iff h hd hp hpd tt hg []).mp (h2 hpg [] (by simp))).2.2.2.1
  · rintro ⟨hm, hb, ht⟩
    refine ⟨hsend.mpr ⟨hm, hb⟩, fun hpg calls hok => ?_⟩
    obtain ⟨pd, hpd⟩ := Option.ne_none_iff_exists'.mp hpg
    have hpaged := (C86_paged_iff hd hp).mp hpg
    exact (C86_builder_stream_iff h hd hp hpd tt hg calls).mpr
      ⟨hm.distinct, hm.body, (builderSound_congr (iff_true_intro hpaged)).mp hb, ht hpaged, hok⟩

/-- The code of every operation, and the operation of all code. -/
theorem all_pairs {types : Types} {f : OperationMethod → Res Code} {F : List Processed → Res (List Code)}
    (h0 : F [] = .ok []) (h1 : ∀ p ps, F (p :: ps) = (do let c ← f p.op; let cs ← F ps; pure (c :: cs)))
    {os : List (Str × Str × RawOperation)} {ms : List Processed} {cs : List Code} (hm : processAll u types os = .ok ms)
    (hc : F ms = .ok cs) (Q : Processed → Code → Prop) :
    (∀ p c, (p, c) ∈ ms.zip cs → Q p c) ↔ ∀ o ∈ os, ∀ p c, processOne u types o = .ok p → f p.op = .ok c → Q p c := by
  induction os generalizing ms cs with
  | nil =>
    cases hm
    rw [h0] at hc
    cases hc
    simp
  | cons o os ih =>
    obtain ⟨p, hp, hm⟩ := bind_ok_inv hm
    obtain ⟨ps, hps, hm⟩ := bind_ok_inv hm
    cases hm
    rw [h1] at hc
    obtain ⟨c, hc1, hc⟩ := bind_ok_inv hc
    obtain ⟨cs', hc2, hc⟩ := bind_ok_inv hc
    cases hc
    rw [List.zip_cons_cons, List.forall_mem_cons, ← propext (ih hps hc2)]
    constructor
    · intro h
      refine ⟨fun p' c' hp' hc' => ?_, fun p' c' hpc => h p' c' (by simp [hpc])⟩
      rw [hp] at hp'
      cases hp'
      rw [hc1] at hc'
      cases hc'
      exact h p c (by simp)
    · rintro ⟨h2, h3⟩ p' c' hpc
      rcases List.mem_cons.mp hpc with e | hpc
      · cases e; exact h2 p c hp hc1
      · exact h3 p' c' hpc

theorem generate_parts {types : Types} {tt : TypeTable B} {i : Interface} {t : TagStyle} {d : Document} {ms : List Processed}
    {cs : List Code} (hg : generate u types tt i t d = .ok (ms, cs)) : rawMethods u types d = .ok ms ∧ operationCode tt i t ms = .ok cs := by
  unfold generate at hg
  obtain ⟨ms', hm, hg⟩ := bind_ok_inv hg
  obtain ⟨cs', hc, hg⟩ := bind_ok_inv hg
  cases hg
  exact ⟨hm, hc⟩

theorem processOne_of {types : Types} {path m : Str} {o : RawOperation} {p : Processed} (h : processOne u types (path, m, o) = .ok p) :
    ∃ id, o.id = some id ∧ processOperation (sanitize u .snake) types path m { o.op with operationId := id } = .ok p := by
  unfold processOne at h
  cases hid : o.id with
  | none => simp only [hid] at h; cases h
  | some id => exact ⟨id, rfl, by simpa only [hid] using h⟩

theorem methodSound_id {san : Str → Str} {path m id : Str} {d : DocOperation} :
    MethodSound san path m { d with operationId := id } ↔ MethodSound san path m d :=
  ⟨fun ⟨h1, h2, h3, h4, h5, h6⟩ => ⟨h1, h2, h3, h4, h5, h6⟩, fun ⟨h1, h2, h3, h4, h5, h6⟩ => ⟨h1, h2, h3, h4, h5, h6⟩⟩

theorem paged_id {types : Types} {id : Str} {d : DocOperation} : Paged types { d with operationId := id } ↔ Paged types d :=
  ⟨fun ⟨a, b, c, e, f, g⟩ => ⟨a, b, c, e, f, g⟩, fun ⟨a, b, c, e, f, g⟩ => ⟨a, b, c, e, f, g⟩⟩

theorem builderSound_id {san : Str → Str} {tt : TypeTable B} {a : Prop} {id : Str} {d : DocOperation} :
    BuilderSound san tt a { d with operationId := id } ↔ BuilderSound san tt a d :=
  ⟨fun ⟨h1, h2, h3, h4, h5, h6⟩ => ⟨h1, h2, h3, h4, h5, h6⟩, fun ⟨h1, h2, h3, h4, h5, h6⟩ => ⟨h1, h2, h3, h4, h5, h6⟩⟩

theorem route_op {d : Document} {o : RawOperation} (ho : o ∈ opsOf d) : ∃ path m, (path, m, o) ∈ routes d := by
  rw [← operations_ops, routes_eq] at ho
  obtain ⟨⟨path, m, o'⟩, h, rfl⟩ := List.mem_map.mp ho
  exact ⟨path, m, h⟩

theorem op_route {d : Document} {path m : Str} {o : RawOperation} (h : (path, m, o) ∈ routes d) : o ∈ opsOf d := by
  rw [← operations_ops, routes_eq]
  exact List.mem_map.mpr ⟨_, h, rfl⟩

/-- C86: exactly these documents give a client in the positional style that compiles. -/
theorem C86_positional_iff (h : Lawful u) {types : Types} (hd : PropsDistinct types) (tt : TypeTable B) (inner : Bool) (d : Document)
    (cfg : Config) (hooks : Hooks) (w : World) (decode : Params.TypeId → Bytes → Except P V) (hist : List Event) :
    (∃ ms cs, generate u types tt .positional .merged d = .ok (ms, cs) ∧ namesOk u tt inner .positional .merged ms = true ∧
      ∀ p c, (p, c) ∈ ms.zip cs → PositionalCompiles cfg hooks w decode hist types p c) ↔
    ValidDoc u d ∧ PositionalNames u types inner d ∧
      ∀ path m o, (path, m, o) ∈ routes d → OperationSupported path m o.op ∧ MethodSound (sanitize u .snake) path m o.op ∧
        (Paged types o.op → TokenSound types o.op ∧ CaptureSound (sanitize u .snake) o.op) := by
  have hgen := C85_generates_iff h types tt .positional .merged d
  have key : ∀ ms cs, generate u types tt .positional .merged d = .ok (ms, cs) → ValidDoc u d →
      (∀ path m o, (path, m, o) ∈ routes d → OperationSupported path m o.op) →
      ((namesOk u tt inner .positional .merged ms = true ↔ PositionalNames u types inner d) ∧
        ((∀ p c, (p, c) ∈ ms.zip cs → PositionalCompiles cfg hooks w decode hist types p c) ↔
          ∀ path m o, (path, m, o) ∈ routes d → MethodSound (sanitize u .snake) path m o.op ∧
            (Paged types o.op → TokenSound types o.op ∧ CaptureSound (sanitize u .snake) o.op))) := by
    intro ms cs hg hv hsup
    obtain ⟨hm, hc⟩ := generate_parts hg
    have hall := (rawMethods_ok hm).2
    refine ⟨positional_names_iff tt inner (names_fit hd tt hm fun o ho => ?_) hv.distinct, ?_⟩
    · obtain ⟨path, m, hr⟩ := route_op ho
      exact (hsup path m o hr).params
    · rw [all_pairs (f := methodSigBody) (F := positionalAll) rfl (fun _ _ => rfl) hall hc, routes_eq]
      have hex := (all_iff (u := u) (types := types) (f := methodSigBody) (F := positionalAll) rfl (fun _ _ => rfl) (operations d)).mp
        ⟨ms, cs, hall, hc⟩
      rw [routes_eq] at hex
      constructor
      · intro hq path m o ho
        obtain ⟨p, c, hp, hcc⟩ := hex _ ho
        obtain ⟨id, hid, hpo⟩ := processOne_of hp
        have := (positional_compiles_iff h hd hpo hcc cfg hooks w decode hist).mp (hq _ ho p c hp hcc)
        rw [methodSound_id, paged_id] at this
        exact this
      · rintro hq ⟨path, m, o⟩ ho p c hp hcc
        obtain ⟨id, hid, hpo⟩ := processOne_of hp
        refine (positional_compiles_iff h hd hpo hcc cfg hooks w decode hist).mpr ?_
        rw [methodSound_id, paged_id]
        exact hq path m o ho
  constructor
  · rintro ⟨ms, cs, hg, hn, hcomp⟩
    obtain ⟨hv, _, hsup⟩ := hgen.mp ⟨_, hg⟩
    obtain ⟨k1, k2⟩ := key ms cs hg hv fun path m o ho => (hsup path m o ho).1
    exact ⟨hv, k1.mp hn, fun path m o ho => ⟨(hsup path m o ho).1, k2.mp hcomp path m o ho⟩⟩
  · rintro ⟨hv, hn, hops⟩
    obtain ⟨⟨ms, cs⟩, hg⟩ := hgen.mpr ⟨hv, fun _ => rfl, fun path m o ho => ⟨(hops path m o ho).1, fun h => (by cases h)⟩⟩
    obtain ⟨k1, k2⟩ := key ms cs hg hv fun path m o ho => (hops path m o ho).1
    exact ⟨ms, cs, hg, k1.mpr hn, k2.mpr fun path m o ho => (hops path m o ho).2⟩

/-- C86: exactly these documents give a client in the builder style that compiles.  Converting a value to a builder and back gives the
value. -/
theorem C86_builder_client_iff (h : Lawful u) {types : Types} (hd : PropsDistinct types) (tt : TypeTable B)
    (hlaw : ∀ t tb, tt.builder t = some tb → ∀ a, tb.finish (tb.ofValue a) = .ok a) (inner : Bool) (t : TagStyle) (d : Document)
    (cfg : Config) (hooks : Hooks) (w : World) (decode : Params.TypeId → Bytes → Except P V) (hist : List Event) :
    (∃ ms cs, generate u types tt .builder t d = .ok (ms, cs) ∧ namesOk u tt inner .builder t ms = true ∧
      ∀ p c, (p, c) ∈ ms.zip cs → BuilderCompiles cfg hooks w decode hist types tt p c) ↔
    ValidDoc u d ∧ BuilderNames u types tt inner t d ∧
      ∀ path m o, (path, m, o) ∈ routes d → OperationSupported path m o.op ∧ MethodSound (sanitize u .snake) path m o.op ∧
        BuilderSound (sanitize u .snake) tt (Paged types o.op) o.op ∧ (Paged types o.op → TokenSound types o.op) := by
  have hgen := C85_generates_iff h types tt .builder t d
  have key : ∀ ms cs, generate u types tt .builder t d = .ok (ms, cs) → ValidDoc u d →
      (∀ path m o, (path, m, o) ∈ routes d → OperationSupported path m o.op) →
      ((∀ p c, (p, c) ∈ ms.zip cs → BuilderCompiles cfg hooks w decode hist types tt p c) ↔
          ∀ path m o, (path, m, o) ∈ routes d → MethodSound (sanitize u .snake) path m o.op ∧
            BuilderSound (sanitize u .snake) tt (Paged types o.op) o.op ∧ (Paged types o.op → TokenSound types o.op)) ∧
      ((∀ path m o, (path, m, o) ∈ routes d → BuilderSound (sanitize u .snake) tt (Paged types o.op) o.op) →
        (namesOk u tt inner .builder t ms = true ↔ BuilderNames u types tt inner t d)) := by
    intro ms cs hg hv hsup
    obtain ⟨hm, hc⟩ := generate_parts hg
    have hall := (rawMethods_ok hm).2
    refine ⟨?_, fun hbs => ?_⟩
    · have hc : builderAll tt ms = .ok cs := by
        cases t <;> exact hc
      rw [all_pairs (f := builderStruct tt) (F := builderAll tt) rfl (fun _ _ => rfl) hall hc, routes_eq]
      have hex := (all_iff (u := u) (types := types) (f := builderStruct tt) (F := builderAll tt) rfl (fun _ _ => rfl) (operations d)).mp
        ⟨ms, cs, hall, hc⟩
      rw [routes_eq] at hex
      constructor
      · intro hq path m o ho
        obtain ⟨p, c, hp, hcc⟩ := hex _ ho
        obtain ⟨id, hid, hpo⟩ := processOne_of hp
        have := (builder_compiles_iff h hd hpo tt hcc hlaw cfg hooks w decode hist).mp (hq _ ho p c hp hcc)
        rw [methodSound_id, paged_id, builderSound_id] at this
        exact this
      · rintro hq ⟨path, m, o⟩ ho p c hp hcc
        obtain ⟨id, hid, hpo⟩ := processOne_of hp
        refine (builder_compiles_iff h hd hpo tt hcc hlaw cfg hooks w decode hist).mpr ?_
        rw [methodSound_id, paged_id, builderSound_id]
        exact hq path m o ho
    · refine builder_names_iff tt inner t (names_fit hd tt hm fun o ho => ?_) hv.distinct fun o ho => ?_
      · obtain ⟨path, m, hr⟩ := route_op ho
        exact (hsup path m o hr).params
      · obtain ⟨path, m, hr⟩ := route_op ho
        exact (hbs path m o hr).plain
  constructor
  · rintro ⟨ms, cs, hg, hn, hcomp⟩
    obtain ⟨hv, _, hsup⟩ := hgen.mp ⟨_, hg⟩
    obtain ⟨k1, k2⟩ := key ms cs hg hv fun path m o ho => (hsup path m o ho).1
    have hops := k1.mp hcomp
    exact ⟨hv, (k2 fun path m o ho => (hops path m o ho).2.1).mp hn, fun path m o ho => ⟨(hsup path m o ho).1, hops path m o ho⟩⟩
  · rintro ⟨hv, hn, hops⟩
    obtain ⟨⟨ms, cs⟩, hg⟩ := hgen.mpr ⟨hv, fun h => (by cases h), fun path m o ho => ⟨(hops path m o ho).1, fun _ p hpc b hb => by
      rw [(hops path m o ho).2.2.1.plain p hpc] at hb; cases hb⟩⟩
    obtain ⟨k1, k2⟩ := key ms cs hg hv fun path m o ho => (hops path m o ho).1
    exact ⟨ms, cs, hg, (k2 fun path m o ho => (hops path m o ho).2.2.1).mpr hn, k1.mpr fun path m o ho => (hops path m o ho).2⟩

/-! ## Examples -/

namespace CompileExample

/-- Type 7 is a struct; its builder keeps a value. -/
def table : TypeTable (Option Arg) :=
  ⟨fun t => if t = 7 then some ⟨none, some, fun o => match o with | some a => .ok a | none => .error []⟩ else none, fun _ => []⟩

/-- The operation with the pages. -/
def listed : DocOperation := { pageDoc with tags := ["a".toList] }

/-- A list in pages and an operation with a body. -/
def doc (second : Str) : Document :=
  ⟨"3.0.3".toList, [("/things".toList, some [("get".toList, ⟨some "list_things".toList, listed⟩)]),
    ("/things/{id}".toList, some [("put".toList, ⟨some second, AcceptExample.good⟩)])]⟩

theorem table_law : ∀ t tb, table.builder t = some tb → ∀ a, tb.finish (tb.ofValue a) = .ok a := by
  intro t tb h a
  simp only [table] at h
  split at h
  · cases h; rfl
  · cases h

end CompileExample

open CompileExample

/-- Statements on the parameters of a concrete operation. -/
theorem counts_all {Q : DocParam → Prop} (d : DocOperation) (h : ∀ p ∈ BTree.values (combined d.pathLevel d.opLevel), Q p) :
    ∀ p, Counts d p → Q p := fun p hp => h p ((counts_iff d p).mpr hp)

theorem doc_routes {id : Str} {path m : Str} {o : RawOperation} (h : (path, m, o) ∈ routes (doc id)) :
    (path = "/things".toList ∧ m = "get".toList ∧ o = ⟨some "list_things".toList, listed⟩) ∨
    (path = "/things/{id}".toList ∧ m = "put".toList ∧ o = ⟨some id, AcceptExample.good⟩) := by
  simp only [routes, doc, List.flatMap_cons, List.flatMap_nil, Option.getD_some, List.map_cons, List.map_nil, List.cons_append,
    List.nil_append, List.mem_cons, List.not_mem_nil, or_false, Prod.mk.injEq] at h
  exact h

theorem good_paths : WellFormedPath "/things".toList ∧ WellFormedPath "/things/{id}".toList :=
  ⟨⟨_, rfl, .char _ _ (by decide) (by decide) <| .char _ _ (by decide) (by decide) <| .char _ _ (by decide) (by decide) <|
      .char _ _ (by decide) (by decide) <| .char _ _ (by decide) (by decide) <| .char _ _ (by decide) (by decide) .nil⟩,
   ⟨_, rfl, .char _ _ (by decide) (by decide) <| .char _ _ (by decide) (by decide) <| .char _ _ (by decide) (by decide) <|
      .char _ _ (by decide) (by decide) <| .char _ _ (by decide) (by decide) <| .char _ _ (by decide) (by decide) <|
      .char _ _ (by decide) (by decide) <| .param "id".toList [] (by decide) .nil⟩⟩

theorem listed_method : MethodSound (sanitize exUnicode .snake) "/things".toList "get".toList listed := by
  refine ⟨good_paths.1, by decide, ?_, fun e he => (by cases he), counts_all _ (by decide +kernel),
    fun _ => counts_all _ (by decide +kernel)⟩
  intro p q hp hq
  exact counts_all (Q := fun p => ∀ q ∈ BTree.values (combined listed.pathLevel listed.opLevel),
    sanitize exUnicode .snake p.name = sanitize exUnicode .snake q.name → p.name = q.name) _ (by decide +kernel) p hp q
    ((counts_iff _ q).mpr hq)

theorem good_method : MethodSound (sanitize exUnicode .snake) "/things/{id}".toList "put".toList AcceptExample.good := by
  refine ⟨good_paths.2, by decide, ?_, fun e he => counts_all _ (by decide +kernel), counts_all _ (by decide +kernel),
    fun _ => counts_all _ (by decide +kernel)⟩
  intro p q hp hq
  exact counts_all (Q := fun p => ∀ q ∈ BTree.values (combined AcceptExample.good.pathLevel AcceptExample.good.opLevel),
    sanitize exUnicode .snake p.name = sanitize exUnicode .snake q.name → p.name = q.name) _ (by decide +kernel) p hp q
    ((counts_iff _ q).mpr hq)

theorem listed_builder : BuilderSound (sanitize exUnicode .snake) table (Paged pageTypes listed) listed := by
  refine ⟨counts_all _ ?_, counts_all _ ?_, fun _ => counts_all _ ?_, fun _ => counts_all _ ?_, fun _ => counts_all _ ?_, counts_all _ ?_⟩
  · decide +kernel
  · decide +kernel
  · decide +kernel
  · decide +kernel
  · decide +kernel
  · simp only [← Option.isNone_iff_eq_none]
    decide +kernel

theorem good_builder : BuilderSound (sanitize exUnicode .snake) table (Paged pageTypes AcceptExample.good) AcceptExample.good := by
  refine ⟨counts_all _ ?_, counts_all _ ?_, fun _ => counts_all _ ?_, fun _ => counts_all _ ?_, fun _ => counts_all _ ?_, counts_all _ ?_⟩
  · decide +kernel
  · decide +kernel
  · decide +kernel
  · decide +kernel
  · decide +kernel
  · simp only [← Option.isNone_iff_eq_none]
    decide +kernel

theorem listed_token : TokenSound pageTypes listed ∧ CaptureSound (sanitize exUnicode .snake) listed :=
  ⟨counts_all _ (by decide +kernel), counts_all _ (by decide +kernel)⟩

theorem good_token : TokenSound pageTypes AcceptExample.good ∧ CaptureSound (sanitize exUnicode .snake) AcceptExample.good :=
  ⟨counts_all _ (by decide +kernel), counts_all _ (by decide +kernel)⟩

/-- The first operation is a list in pages. -/
theorem doc_paged : Paged pageTypes listed := by
  obtain ⟨pr, hp, hpg⟩ : ∃ pr, processOperation id pageTypes "/v".toList "get".toList listed = .ok pr ∧
      pr.paginated = some ⟨13, []⟩ := ⟨_, rfl, rfl⟩
  exact (C86_paged_iff pageTypes_distinct hp).mp (by rw [hpg]; simp)

theorem doc_ops {id : Str} {o : RawOperation} (h : o ∈ opsOf (doc id)) :
    o = ⟨some "list_things".toList, listed⟩ ∨ o = ⟨some id, AcceptExample.good⟩ := by
  simpa [opsOf, doc] using h

/-- Everything that compiling needs holds for the document. -/
example : ValidDoc exUnicode (doc "put_thing".toList) ∧ PositionalNames exUnicode pageTypes true (doc "put_thing".toList) ∧
    BuilderNames exUnicode pageTypes table true .separate (doc "put_thing".toList) ∧
    ∀ path m o, (path, m, o) ∈ routes (doc "put_thing".toList) → OperationSupported path m o.op ∧
      MethodSound (sanitize exUnicode .snake) path m o.op ∧
      (Paged pageTypes o.op → TokenSound pageTypes o.op ∧ CaptureSound (sanitize exUnicode .snake) o.op) ∧
      BuilderSound (sanitize exUnicode .snake) table (Paged pageTypes o.op) o.op := by
  have hg : ∃ r, generate exUnicode pageTypes table .positional .merged (doc "put_thing".toList) = .ok r :=
    (isOk_iff _).mp (by decide +kernel)
  obtain ⟨hv, _, hs⟩ := (C85_generates_iff exUnicode_lawful _ _ _ _ _).mp hg
  have hname : ∀ o ∈ opsOf (doc "put_thing".toList), builderName exUnicode o = "ListThings".toList ∨
      builderName exUnicode o = "PutThing".toList := by
    intro o ho
    rcases doc_ops ho with rfl | rfl
    · left; decide +kernel
    · right; decide +kernel
  refine ⟨hv, ⟨?_, ?_, ?_⟩, ⟨?_, ?_, ?_, ?_, ?_, ?_⟩, fun path m o ho => ⟨(hs path m o ho).1, ?_⟩⟩
  · intro o ho
    rw [← clientOwn_iff]
    rcases doc_ops ho with rfl | rfl <;> decide +kernel
  · intro o ho o' ho'
    rcases doc_ops ho with rfl | rfl <;> rcases doc_ops ho' with rfl | rfl <;> decide +kernel
  · intro o ho o' ho' _
    rcases doc_ops ho with rfl | rfl <;> rcases doc_ops ho' with rfl | rfl <;> decide +kernel
  · intro o ho _
    rw [← clientOwn_iff]
    rcases doc_ops ho with rfl | rfl <;> decide +kernel
  · intro o ho o' ho'
    rcases doc_ops ho with rfl | rfl <;> rcases doc_ops ho' with rfl | rfl <;> decide +kernel
  · intro o ho
    rcases hname o ho with e | e <;> rw [e] <;> decide +kernel
  · intro o ho o' ho' x hx
    rcases hname o ho with e | e <;> rw [e] <;> cases hx <;> decide +kernel
  · intro _ o ho
    rcases doc_ops ho with rfl | rfl <;> decide +kernel
  · intro _ o ho o' ho'
    rcases doc_ops ho with rfl | rfl <;> rcases doc_ops ho' with rfl | rfl <;> decide +kernel
  · rcases doc_routes ho with ⟨rfl, rfl, rfl⟩ | ⟨rfl, rfl, rfl⟩
    · exact ⟨listed_method, fun _ => listed_token, listed_builder⟩
    · exact ⟨good_method, fun _ => good_token, good_builder⟩

/-- With another id for the second operation there are two functions of the same name. -/
example : (∃ r, generate exUnicode pageTypes table .positional .merged (doc "list-things-stream".toList) = .ok r) ∧
    ¬ PositionalNames exUnicode pageTypes false (doc "list-things-stream".toList) := by
  refine ⟨(isOk_iff _).mp (by decide +kernel), fun h => ?_⟩
  refine h.stream ⟨some "list_things".toList, listed⟩ (by simp [opsOf, doc])
    ⟨some "list-things-stream".toList, AcceptExample.good⟩ (by simp [opsOf, doc]) doc_paged ?_
  decide +kernel

/-- A struct called `Option` hides the one of the standard library; `list_things` has optional parameters. -/
example : (∃ r, generate exUnicode pageTypes table .builder .merged (doc "option".toList) = .ok r) ∧
    ¬ BuilderNames exUnicode pageTypes table false .merged (doc "option".toList) := by
  refine ⟨(isOk_iff _).mp (by decide +kernel), fun h => ?_⟩
  obtain ⟨p, hp, _, hl⟩ := doc_paged.limit
  refine h.hidden ⟨some "option".toList, AcceptExample.good⟩ (by simp [opsOf, doc])
    ⟨some "list_things".toList, listed⟩ (by simp [opsOf, doc]) _
    (.optional p hp (doc_paged.optional p hp hl)) ?_
  decide +kernel

end Progenitor.Props

import Verif.Props.CompilesDoc
import Verif.Spec.MockDoc

/-!
# C87, C88: operations all of whose parts are understood
-/

namespace Progenitor.Props

open Progenitor Progenitor.Params Progenitor.Spec Progenitor.Doc Progenitor.Names

theorem convertResponses_iff (ws : Bool) (l : List (Resp.Status × Resp.DocResponse)) :
    (∃ rs, Resp.convertAll ws l = .ok rs) ↔ ∀ e ∈ l, ∃ k, Carries ws e.2 k := by
  induction l with
  | nil => exact ⟨fun _ e he => (by cases he), fun _ => ⟨[], rfl⟩⟩
  | cons e l ih =>
    obtain ⟨st, r⟩ := e
    rw [List.forall_mem_cons, ← ih]
    constructor
    · rintro ⟨rs, h⟩
      simp only [Resp.convertAll] at h
      obtain ⟨k, hk, h⟩ := bind_ok_inv h
      obtain ⟨rs', hrs, _⟩ := bind_ok_inv h
      exact ⟨⟨k, C24_kind.mp hk⟩, rs', hrs⟩
    · rintro ⟨⟨k, hk⟩, rs, hrs⟩
      refine ⟨⟨st, k⟩ :: rs, ?_⟩
      simp only [Resp.convertAll, C24_kind.mpr hk, Res.bind_ok, hrs]
      rfl

theorem processResponses_iff (d : DocOperation) : (∃ rs, Resp.processResponses d.websocket d.default d.codes = .ok rs) ↔
    (∀ x, d.default = some x → ∃ k, Carries d.websocket x k) ∧ ∀ e ∈ d.codes, ∃ k, Carries d.websocket e.2 k := by
  have hc := convertResponses_iff d.websocket
    (d.default.toList.map (fun r => (Resp.Status.default, r)) ++ d.codes.map fun e => (e.1.toStatus, e.2))
  have hr : (∀ e ∈ d.default.toList.map (fun r => (Resp.Status.default, r)) ++ d.codes.map (fun e => (e.1.toStatus, e.2)),
      ∃ k, Carries d.websocket e.2 k) ↔
      (∀ x, d.default = some x → ∃ k, Carries d.websocket x k) ∧ ∀ e ∈ d.codes, ∃ k, Carries d.websocket e.2 k := by
    constructor
    · intro h
      refine ⟨fun x hx => h (.default, x) (by simp [hx]), fun e he => h (e.1.toStatus, e.2) ?_⟩
      exact List.mem_append_right _ (List.mem_map.mpr ⟨e, he, rfl⟩)
    · rintro ⟨h1, h2⟩ e he
      rcases List.mem_append.mp he with he | he
      · obtain ⟨x, hx, rfl⟩ := List.mem_map.mp he
        exact h1 x (by simpa using hx)
      · obtain ⟨x, hx, rfl⟩ := List.mem_map.mp he
        exact h2 x hx
  rw [← hr, ← hc]
  constructor
  · rintro ⟨rs, h⟩
    unfold Resp.processResponses at h
    obtain ⟨rs', h', _⟩ := bind_ok_inv h
    exact ⟨rs', h'⟩
  · rintro ⟨rs, h⟩
    unfold Resp.processResponses
    simp only [h, Res.bind_ok]
    exact ⟨_, rfl⟩

/-- Everything but the check for websockets with pages. -/
theorem unpaged_iff (san : Str → Str) (types : Types) (path method : Str) (d : DocOperation) :
    (∃ P, processOperation san types path method { d with pagination := none } = .ok P) ↔
      (∀ p, Counts d p → ParamSupported p) ∧ BodySupported d.body ∧ LaxPath path ∧
      (∀ p q, Counts d p → Counts d q → docLocation p.kind = .path → docLocation q.kind = .path → p ≠ q → p.name ∈ braceGroups path) ∧
      ((∀ x, d.default = some x → ∃ k, Carries d.websocket x k) ∧ ∀ e ∈ d.codes, ∃ k, Carries d.websocket e.2 k) ∧
      method ∈ MethodNames := by
  constructor
  · rintro ⟨P, hP⟩
    unfold processOperation at hP
    obtain ⟨conv, hconv, hP⟩ := bind_ok_inv hP
    obtain ⟨body, hbody, hP⟩ := bind_ok_inv hP
    obtain ⟨tmp, htmp, hP⟩ := bind_ok_inv hP
    obtain ⟨ps, hps, hP⟩ := bind_ok_inv hP
    obtain ⟨rs, hrs, hP⟩ := bind_ok_inv hP
    obtain ⟨_, _, hP⟩ := bind_ok_inv hP
    obtain ⟨m, hm, hP⟩ := bind_ok_inv hP
    have hf := convertAll_forall₂ hconv
    have hnames := C02_names path tmp (parseTemplate_parse htmp)
    refine ⟨?_, (body_iff _).mp ⟨_, hbody⟩, (template_iff _).mp ⟨_, htmp⟩, ?_, (processResponses_iff d).mp ⟨_, hrs⟩, (method_iff _).mp ⟨_, hm⟩⟩
    · intro p hp
      exact (convertAll_iff san _).mp ⟨_, hconv⟩ p ((counts_iff d p).mpr hp)
    · intro p q hp hq hpk hqk hne
      obtain ⟨a, ha, hpa⟩ := forall₂_left hf p ((counts_iff d p).mpr hp)
      obtain ⟨b, hb, hqb⟩ := forall₂_left hf q ((counts_iff d q).mpr hq)
      have hda := (convert_describes hpa).1
      have hdb := (convert_describes hqb).1
      rcases sortParams_found hps with hlen | hfound
      · exfalso
        have hma : a ∈ (conv ++ body.toList).filter fun p => location p.kind == .path := by
          refine List.mem_filter.mpr ⟨by simp [ha], ?_⟩
          rw [(path_kind hda).mpr hpk]; rfl
        have hmb : b ∈ (conv ++ body.toList).filter fun p => location p.kind == .path := by
          refine List.mem_filter.mpr ⟨by simp [hb], ?_⟩
          rw [(path_kind hdb).mpr hqk]; rfl
        have hab : a = b := by
          generalize (conv ++ body.toList).filter (fun p => location p.kind == .path) = l at hma hmb hlen
          match l with
          | [] => cases hma
          | [x] =>
            simp only [List.mem_singleton] at hma hmb
            rw [hma, hmb]
          | _ :: _ :: _ => simp only [List.length_cons] at hlen; omega
        apply hne
        refine nodup_inj (values_names d.pathLevel d.opLevel) ((counts_iff d p).mpr hp) ((counts_iff d q).mpr hq) ?_
        rw [← hda.1, ← hdb.1, hab]
      · rw [← hnames, ← hda.1]
        exact hfound a (by simp [ha]) (by rw [(path_kind hda).mpr hpk]; rfl)
  · rintro ⟨hparams, hbody, hlax, hused, hresp, hmeth⟩
    obtain ⟨conv, hconv⟩ := (convertAll_iff san (BTree.values (combined d.pathLevel d.opLevel))).mpr
      fun p hp => hparams p ((counts_iff d p).mp hp)
    obtain ⟨body, hbody⟩ := (body_iff _).mpr hbody
    obtain ⟨tmp, htmp⟩ := (template_iff _).mpr hlax
    obtain ⟨m, hm⟩ := (method_iff _).mpr hmeth
    obtain ⟨rs, hrs⟩ := (processResponses_iff d).mpr hresp
    have hf := convertAll_forall₂ hconv
    have hnames := C02_names path tmp (parseTemplate_parse htmp)
    have hnb : ∀ p ∈ conv, location p.kind ≠ .body := by
      intro a ha
      obtain ⟨p, _, hpa⟩ := forall₂_right hf a ha
      exact convert_not_body hpa
    have hsort : (conv.filter fun p => location p.kind == .path).length ≤ 1 ∨ PathsFound (Template.names tmp) conv := by
      by_cases hfound : PathsFound (Template.names tmp) conv
      · exact .inr hfound
      · left
        unfold PathsFound at hfound
        simp only [Classical.not_forall] at hfound
        obtain ⟨a, ha, hka, hna⟩ := hfound
        obtain ⟨p, hp, hpa⟩ := forall₂_right hf a ha
        have hda := (convert_describes hpa).1
        have hpl : docLocation p.kind = .path := hda.2.1.symm.trans hka
        have hsame : ∀ b ∈ conv.filter (fun p => location p.kind == .path), b.apiName = a.apiName := by
          intro b hb
          obtain ⟨hb, hkb⟩ := List.mem_filter.mp hb
          obtain ⟨q, hq, hqb⟩ := forall₂_right hf b hb
          have hdb := (convert_describes hqb).1
          have hql : docLocation q.kind = .path := hdb.2.1.symm.trans (by simpa using hkb)
          by_cases hpq : p = q
          · rw [hda.1, hdb.1, hpq]
          · exfalso
            have := hused p q ((counts_iff d p).mp hp) ((counts_iff d q).mp hq) hpl hql hpq
            rw [← hnames, ← hda.1] at this
            exact hna this
        have hnd : ((conv.filter fun p => location p.kind == .path).map Param.apiName).Nodup := by
          have : (conv.map Param.apiName).Nodup := by rw [names_conv hf]; exact values_names _ _
          exact this.sublist (List.filter_sublist.map _)
        generalize conv.filter (fun p => location p.kind == .path) = l at hsame hnd
        match l with
        | [] => simp
        | [x] => simp
        | x :: y :: l =>
          exfalso
          have h1 := hsame x (by simp)
          have h2 := hsame y (by simp)
          simp only [List.map_cons, List.nodup_cons, List.mem_cons, not_or] at hnd
          exact hnd.1.1 (h1.trans h2.symm)
    have hps := sortParams_pure hsort hnb (body_location hbody)
    unfold processOperation
    simp only [hconv, hbody, htmp, hps, hrs, hm, Res.bind_ok]
    simp [paginationData, noConflict]

/-- Exactly the operations all of whose parts are understood are processed. -/
theorem understood_iff {types : Types} (hd : PropsDistinct types) (san : Str → Str) (path method : Str) (d : DocOperation) :
    (∃ P, processOperation san types path method d = .ok P) ↔ Understood types path method d := by
  have hsplit : (∃ P, processOperation san types path method d = .ok P) ↔
      (∃ P, processOperation san types path method { d with pagination := none } = .ok P) ∧ (d.websocket = true → ¬ Paged types d) := by
    constructor
    · rintro ⟨P, hP⟩
      obtain ⟨_, _, _, _, _, _, _, _, _, hc⟩ := processOperation_inv hP
      refine ⟨⟨_, process_unpaged hP⟩, fun hw hpg => hc ⟨hw, ?_⟩⟩
      have := (C86_paged_iff hd hP).mpr hpg
      cases h : P.paginated with
      | none => exact absurd h this
      | some x => rfl
    · rintro ⟨⟨P, hP⟩, hc⟩
      have hpg := paged_data_iff hd hP
      unfold processOperation at hP ⊢
      obtain ⟨conv, hconv, hP⟩ := bind_ok_inv hP
      obtain ⟨body, hbody, hP⟩ := bind_ok_inv hP
      obtain ⟨tmp, htmp, hP⟩ := bind_ok_inv hP
      obtain ⟨ps, hps, hP⟩ := bind_ok_inv hP
      obtain ⟨rs, hrs, hP⟩ := bind_ok_inv hP
      obtain ⟨_, _, hP⟩ := bind_ok_inv hP
      obtain ⟨m, hm, hP⟩ := bind_ok_inv hP
      cases hP
      dsimp only at hpg hconv hbody hrs
      have hnc : noConflict d (paginationData types d.pagination ps rs) = .ok () := by
        unfold noConflict
        rw [if_neg]
        rintro ⟨hw, hs⟩
        refine hc hw (hpg.mp fun h => ?_)
        rw [h] at hs
        cases hs
      simp only [hconv, hbody, htmp, hps, hrs, hnc, hm, Res.bind_ok]
      exact ⟨_, rfl⟩
  rw [hsplit, unpaged_iff]
  exact ⟨fun ⟨⟨a, b, c, e, ⟨f, g⟩, h⟩, i⟩ => ⟨a, b, c, e, f, g, h, i⟩, fun ⟨a, b, c, e, f, g, h, i⟩ => ⟨⟨a, b, c, e, ⟨f, g⟩, h⟩, i⟩⟩

/-- Operations for which a client is generated are understood. -/
theorem supported_understood {types : Types} (hd : PropsDistinct types) {path method : Str} {d : DocOperation}
    (h : OperationSupported path method d) : Understood types path method d := by
  obtain ⟨P, _, hP, _⟩ := (C85_operation_iff id types path method d).mpr h
  exact (understood_iff hd id path method d).mp ⟨P, hP⟩

theorem understood_id {types : Types} {path m : Str} {d : DocOperation} {id : Str} :
    Understood types path m { d with operationId := id } ↔ Understood types path m d :=
  ⟨fun ⟨a, b, c, e, f, g, h, i⟩ => ⟨a, b, c, e, f, g, h, fun hw hp => i hw (paged_id.mpr hp)⟩,
   fun ⟨a, b, c, e, f, g, h, i⟩ => ⟨a, b, c, e, f, g, h, fun hw hp => i hw (paged_id.mp hp)⟩⟩

/-! ## One step after the other -/

theorem each_iff {γ : Type} {u : Unicode} {types : Types} {f : Processed → Res γ} {F : List Processed → Res (List γ)}
    (h0 : F [] = .ok []) (h1 : ∀ p ps, F (p :: ps) = (do let c ← f p; let cs ← F ps; pure (c :: cs)))
    (os : List (Str × Str × RawOperation)) :
    (∃ ms cs, processAll u types os = .ok ms ∧ F ms = .ok cs) ↔
      ∀ o ∈ os, ∃ P c, processOne u types o = .ok P ∧ f P = .ok c := by
  induction os with
  | nil => exact ⟨fun _ _ ho => (by cases ho), fun _ => ⟨[], [], rfl, h0⟩⟩
  | cons o os ih =>
    rw [List.forall_mem_cons, ← ih]
    constructor
    · rintro ⟨ms, cs, hm, hc⟩
      unfold processAll at hm
      obtain ⟨P, hP, hm⟩ := bind_ok_inv hm
      obtain ⟨ps, hps, hm⟩ := bind_ok_inv hm
      cases hm
      rw [h1] at hc
      obtain ⟨c, hc1, hc⟩ := bind_ok_inv hc
      obtain ⟨cs', hc2, hc⟩ := bind_ok_inv hc
      exact ⟨⟨P, c, hP, hc1⟩, ps, cs', hps, hc2⟩
    · rintro ⟨⟨P, c, hP, hc⟩, ps, cs, hps, hcs⟩
      refine ⟨P :: ps, c :: cs, ?_, ?_⟩
      · unfold processAll
        rw [hP, Res.bind_ok, hps]
        rfl
      · rw [h1, hc, Res.bind_ok, hcs]
        rfl

/-- What holds for each operation and its result. -/
theorem each_pairs {γ : Type} {u : Unicode} {types : Types} {f : Processed → Res γ} {F : List Processed → Res (List γ)}
    (h0 : F [] = .ok []) (h1 : ∀ p ps, F (p :: ps) = (do let c ← f p; let cs ← F ps; pure (c :: cs)))
    {Q : Processed → γ → Prop} {os : List (Str × Str × RawOperation)} : ∀ {ms : List Processed} {cs : List γ},
    processAll u types os = .ok ms → F ms = .ok cs →
    ((∀ p c, (p, c) ∈ ms.zip cs → Q p c) ↔ ∀ o ∈ os, ∀ p c, processOne u types o = .ok p → f p = .ok c → Q p c) := by
  induction os with
  | nil =>
    intro ms cs hm hc
    cases hm
    rw [h0] at hc
    cases hc
    exact ⟨fun _ _ ho => (by cases ho), fun _ _ _ h => (by cases h)⟩
  | cons o os ih =>
    intro ms cs hm hc
    unfold processAll at hm
    obtain ⟨P, hP, hm⟩ := bind_ok_inv hm
    obtain ⟨ps, hps, hm⟩ := bind_ok_inv hm
    cases hm
    rw [h1] at hc
    obtain ⟨c, hc1, hc⟩ := bind_ok_inv hc
    obtain ⟨cs', hc2, hc⟩ := bind_ok_inv hc
    cases hc
    rw [List.forall_mem_cons, ← ih hps hc2, List.zip_cons_cons]
    constructor
    · intro h
      refine ⟨fun p c' hp hc' => ?_, fun p c hpc => h p c (List.mem_cons_of_mem _ hpc)⟩
      rw [hP] at hp
      cases hp
      rw [hc1] at hc'
      cases hc'
      exact h _ _ (by simp)
    · rintro ⟨h2, h3⟩ p' c' hpc
      rcases List.mem_cons.mp hpc with e | hpc
      · cases e; exact h2 _ _ hP hc1
      · exact h3 p' c' hpc

end Progenitor.Props

import Verif.Lemmas.Accepted
import Verif.Props.Wire
import Verif.Props.Builder
import Verif.Props.Response

/-!
# C85: the documents a client is generated for
-/

namespace Progenitor.Props

open Progenitor Progenitor.Params Progenitor.Exec Progenitor.Spec Progenitor.Builder Progenitor.Doc Progenitor.Names

/-! ## Parameters -/

theorem find_last {l : List DocParam} (k : Str) (p : DocParam) :
    (((l.map fun p => (p.name, p)).reverse.find? fun e => e.1 = k).map Prod.snd) = some p ↔ LastNamed l p ∧ p.name = k := by
  rw [← List.map_reverse]
  constructor
  · intro h
    obtain ⟨e, he, rfl⟩ := Option.map_eq_some_iff.mp h
    obtain ⟨hk, as, bs, hab, has⟩ := List.find?_eq_some_iff_append.mp he
    obtain ⟨l1, l2, hl, h1, h2⟩ := List.map_eq_append_iff.mp hab
    obtain ⟨q, l3, rfl, hq, h3⟩ := List.map_eq_cons_iff.mp h2
    subst hq
    have hk : q.name = k := by simpa using hk
    refine ⟨⟨l3.reverse, l1.reverse, ?_, ?_⟩, hk⟩
    · have := congrArg List.reverse hl
      simpa using this
    · intro r hr e
      have := has (r.name, r) (by rw [← h1]; exact List.mem_map_of_mem (f := fun p : DocParam => (p.name, p)) (List.mem_reverse.mp hr))
      dsimp only at e
      simp [e, hk] at this
  · rintro ⟨⟨pre, post, rfl, hp⟩, rfl⟩
    rw [List.reverse_append, List.reverse_cons, List.map_append, List.map_append, List.append_assoc, List.find?_append]
    have : ((post.reverse.map fun p => (p.name, p)).find? fun e => decide (e.1 = p.name)) = none := by
      rw [List.find?_eq_none]
      intro e he
      obtain ⟨q, hq, rfl⟩ := List.mem_map.mp he
      simpa using hp q (List.mem_reverse.mp hq)
    rw [this]
    simp

theorem get_combined (pl ol : List DocParam) (k : Str) (q : DocParam) : BTree.get k (combined pl ol) = some q ↔
    (LastNamed ol q ∧ q.name = k) ∨ ((∀ r ∈ ol, r.name ≠ k) ∧ LastNamed pl q ∧ q.name = k) := by
  rw [combined, BTree.get_insertAll]
  have hgp : BTree.get k (parameterMap pl) = some q ↔ LastNamed pl q ∧ q.name = k := by
    rw [parameterMap, BTree.get_insertAll, ← find_last]
    simp [BTree.get]
  cases hf : (((ol.map fun p => (p.name, p)).reverse.find? fun e => e.1 = k).map Prod.snd) with
  | some r =>
    have hr := (find_last k r).mp hf
    rw [Option.some_or]
    constructor
    · intro h; cases h; exact .inl hr
    · rintro (h | h)
      · rw [← hf]; exact (find_last k q).mpr h
      · obtain ⟨pre, post, rfl, _⟩ := hr.1
        exact absurd hr.2 (h.1 r (by simp))
  | none =>
    have hn : ∀ r ∈ ol, r.name ≠ k := by
      intro r hr e
      simp only [Option.map_eq_none_iff, List.find?_eq_none] at hf
      have := hf (r.name, r) (by simp only [List.mem_reverse, List.mem_map]; exact ⟨r, hr, rfl⟩)
      simp [e] at this
    rw [Option.none_or, hgp]
    constructor
    · intro h; exact .inr ⟨hn, h⟩
    · rintro (h | h)
      · obtain ⟨⟨pre, post, rfl, _⟩, h2⟩ := h
        exact absurd h2 (hn q (by simp))
      · exact h.2

theorem combined_sorted (pl ol : List DocParam) : BTree.Sorted (combined pl ol) :=
  BTree.insertAll_sorted (BTree.insertAll_sorted .nil _) _

theorem combined_key {pl ol : List DocParam} {k : Str} {q : DocParam} (h : (k, q) ∈ combined pl ol) : q.name = k := by
  rw [BTree.mem_iff_get (combined_sorted pl ol), get_combined] at h
  rcases h with h | h
  · exact h.2
  · exact h.2.2

/-- The parameters that are converted are those that count. -/
theorem counts_iff (d : DocOperation) (p : DocParam) : p ∈ BTree.values (combined d.pathLevel d.opLevel) ↔ Counts d p := by
  have : p ∈ BTree.values (combined d.pathLevel d.opLevel) ↔ BTree.get p.name (combined d.pathLevel d.opLevel) = some p := by
    rw [← BTree.mem_iff_get (combined_sorted _ _)]
    simp only [BTree.values, List.mem_map, Prod.exists, exists_eq_right]
    constructor
    · rintro ⟨k, hk⟩; have := combined_key hk; rw [this]; exact hk
    · intro h; exact ⟨_, h⟩
  rw [this, get_combined]
  simp only [and_true, Counts]
  grind

theorem values_names (pl ol : List DocParam) : ((BTree.values (combined pl ol)).map DocParam.name).Nodup := by
  have : (BTree.values (combined pl ol)).map DocParam.name = (combined pl ol).map Prod.fst := by
    rw [BTree.values, List.map_map]
    apply List.map_congr_left
    intro e he
    exact combined_key (k := e.1) (q := e.2) he
  rw [this]
  exact BTree.values_nodup_keys (combined_sorted _ _)

theorem convert_iff (san : Str → Str) (p : DocParam) : (∃ a, convert san p = .ok a) ↔ ParamSupported p := by
  obtain ⟨name, kind, required, hasSchema, ty⟩ := p
  cases kind with
  | path s => cases s <;> cases required <;> cases hasSchema <;> simp [convert, ParamSupported]
  | query f o => cases f <;> cases o <;> cases hasSchema <;> simp [convert, ParamSupported]
  | header => cases hasSchema <;> simp [convert, ParamSupported]
  | cookie => simp [convert, ParamSupported]

theorem convertAll_iff (san : Str → Str) (l : List DocParam) :
    (∃ as, Params.convertAll san l = .ok as) ↔ ∀ p ∈ l, ParamSupported p := by
  induction l with
  | nil => simp [Params.convertAll]
  | cons p l ih =>
    rw [List.forall_mem_cons, ← ih, ← convert_iff san]
    simp only [Params.convertAll]
    constructor
    · rintro ⟨as, h⟩
      obtain ⟨a, ha, h⟩ := bind_ok_inv h
      obtain ⟨as', has, h⟩ := bind_ok_inv h
      exact ⟨⟨a, ha⟩, as', has⟩
    · rintro ⟨⟨a, ha⟩, as, has⟩
      rw [ha, Res.bind_ok, has]
      exact ⟨_, rfl⟩

/-! ## Bodies -/

theorem mediaBase_iff (ct s : Str) : MediaBase ct s ↔ beforeSemicolon ct = s := by
  unfold MediaBase beforeSemicolon
  constructor
  · rintro ⟨hs, rfl | ⟨x, rfl⟩⟩
    · exact (takeWhile_all _ _ fun a ha => by simp only [decide_eq_true_eq]; rintro rfl; exact hs ha).1
    · rw [List.takeWhile_append_of_pos (by intro a ha; simp; rintro rfl; exact hs ha)]
      simp
  · rintro rfl
    refine ⟨fun h => ?_, ?_⟩
    · have := List.all_eq_true.mp (List.all_takeWhile (p := fun c => decide (c ≠ ';')) (l := ct)) _ h
      simp at this
    · have hsplit := List.takeWhile_append_dropWhile (p := fun c => decide (c ≠ ';')) (l := ct)
      cases hd : ct.dropWhile (fun c => decide (c ≠ ';')) with
      | nil => rw [hd, List.append_nil] at hsplit; exact .inl hsplit.symm
      | cons y x =>
        right
        have : y = ';' := by
          have := List.head?_dropWhile_not (fun c => decide (c ≠ ';')) ct
          rw [hd] at this
          simpa using this
        subst this
        exact ⟨x, by rw [← hd]; exact hsplit.symm⟩

theorem mediaType_iff (ct : Str) (c : ContentType) : ContentType.parse ct = .ok c ↔ ∃ base, MediaBase ct base ∧
    ((c = .octetStream ∧ base = "application/octet-stream".toList) ∨ (c = .json ∧ base = "application/json".toList) ∨
    (c = .form ∧ base = "application/x-www-form-urlencoded".toList) ∨
    (c = .text base ∧ (base = "text/plain".toList ∨ base = "text/x-markdown".toList))) := by
  have key : ∀ base, MediaBase ct base → (ContentType.parse ct = .ok c ↔ ContentType.parse base = .ok c) := by
    rintro base ⟨hs, rfl | ⟨x, rfl⟩⟩
    · rfl
    · exact C19_media_parameters base x hs c
  constructor
  · intro h
    have hb := (mediaBase_iff ct _).mpr rfl
    exact ⟨_, hb, (C19_media_types _ hb.1 c).mp ((key _ hb).mp h)⟩
  · rintro ⟨base, hb, h⟩
    exact (key _ hb).mpr ((C19_media_types _ hb.1 c).mpr h)

theorem body_iff (body : Option (List (Str × BodyMedia))) : (∃ o, getBodyParam body = .ok o) ↔ BodySupported body := by
  simp only [C19_declared_iff]
  constructor
  · rintro ⟨o, ⟨_, h | h⟩ | ⟨ct, m, s, c, typ, rfl, hs, hc, ht, rfl⟩⟩
    · exact .inl h
    · exact .inr (.inl h)
    · right; right
      obtain ⟨base, hb, hcb⟩ := (mediaType_iff ct c).mp hc
      refine ⟨ct, m, s, base, rfl, hs, hb, ?_⟩
      rcases hcb with ⟨rfl, rfl⟩ | ⟨rfl, rfl⟩ | ⟨rfl, rfl⟩ | ⟨rfl, h⟩
      · left
        refine ⟨rfl, ?_⟩
        simp only [bodyType] at ht
        split at ht
        · assumption
        · cases ht
      · right; right
        refine ⟨.inl rfl, ?_⟩
        simp only [bodyType] at ht
        split at ht
        · assumption
        · cases ht
      · right; right
        refine ⟨.inr rfl, ?_⟩
        simp only [bodyType] at ht
        split at ht
        · assumption
        · cases ht
      · right; left
        refine ⟨h, ?_⟩
        simp only [bodyType] at ht
        split at ht
        · assumption
        · cases ht
  · rintro (rfl | rfl | ⟨ct, m, s, base, rfl, hs, hb, h⟩)
    · exact ⟨none, .inl ⟨rfl, .inl rfl⟩⟩
    · exact ⟨none, .inl ⟨rfl, .inr rfl⟩⟩
    · rcases h with ⟨h, hok⟩ | ⟨h, hok⟩ | ⟨h | h, hok⟩
      · exact ⟨_, .inr ⟨ct, m, s, .octetStream, .rawBody, rfl, hs, (mediaType_iff _ _).mpr ⟨base, hb, .inl ⟨rfl, h⟩⟩,
          by simp only [bodyType, hok, if_true], rfl⟩⟩
      · exact ⟨_, .inr ⟨ct, m, s, .text base, .rawBody, rfl, hs,
          (mediaType_iff _ _).mpr ⟨base, hb, .inr (.inr (.inr ⟨rfl, h⟩))⟩, by simp only [bodyType, hok, if_true], rfl⟩⟩
      · exact ⟨_, .inr ⟨ct, m, s, .json, .type s.ty, rfl, hs, (mediaType_iff _ _).mpr ⟨base, hb, .inr (.inl ⟨rfl, h⟩)⟩,
          by simp only [bodyType, hok, if_true], rfl⟩⟩
      · exact ⟨_, .inr ⟨ct, m, s, .form, .type s.ty, rfl, hs, (mediaType_iff _ _).mpr ⟨base, hb, .inr (.inr (.inl ⟨rfl, h⟩))⟩,
          by simp only [bodyType, hok, if_true], rfl⟩⟩

/-- A body parameter has the type that goes with its media type. -/
theorem body_shape {body : Option (List (Str × BodyMedia))} {o : Option Param} (h : getBodyParam body = .ok o) :
    ∀ p ∈ o, p.name = "body".toList ∧ ((∃ c, (c = .octetStream ∨ ∃ m, c = .text m) ∧ p.kind = .body c ∧ p.typ = .rawBody) ∨
      ∃ c t, (c = .json ∨ c = .form) ∧ p.kind = .body c ∧ p.typ = .type t) := by
  intro p hp
  rcases (C19_declared_iff body o).mp h with ⟨rfl, _⟩ | ⟨ct, m, s, c, typ, _, _, _, ht, rfl⟩
  · cases hp
  · cases hp
    refine ⟨rfl, ?_⟩
    cases c with
    | octetStream =>
      left
      simp only [bodyType] at ht
      split at ht
      · cases ht; exact ⟨_, .inl rfl, rfl, rfl⟩
      · cases ht
    | text m =>
      left
      simp only [bodyType] at ht
      split at ht
      · cases ht; exact ⟨_, .inr ⟨m, rfl⟩, rfl, rfl⟩
      · cases ht
    | json =>
      right
      simp only [bodyType] at ht
      split at ht
      · cases ht; exact ⟨_, _, .inl rfl, rfl, rfl⟩
      · cases ht
    | form =>
      right
      simp only [bodyType] at ht
      split at ht
      · cases ht; exact ⟨_, _, .inr rfl, rfl, rfl⟩
      · cases ht

/-! ## Responses -/

open Progenitor.Resp in
theorem listed_iff {d : DocOperation} {rs : List Response} (h : processResponses d.websocket d.default d.codes = .ok rs)
    (r : Response) : r ∈ rs ↔ Listed d r.status r.kind := by
  obtain ⟨s, k⟩ := r
  rw [processResponses_mem h]
  dsimp only
  have hcov : ∀ e : DocStatus × DocResponse, coversSuccess e.1.toStatus = false ↔
      ∀ s, 200 ≤ s → s < 300 → ¬ Covers e.1.toStatus s := by
    intro e
    cases e.1 with
    | code c =>
      simp only [DocStatus.toStatus, coversSuccess, Covers]
      constructor
      · intro h s h1 h2 h3; subst h3; simp at h; omega
      · intro h
        by_cases hc : 200 ≤ c ∧ c < 300
        · exact absurd rfl (h c hc.1 hc.2)
        · simp; omega
    | range n =>
      simp only [DocStatus.toStatus, coversSuccess, Covers]
      constructor
      · intro h s h1 h2 h3; simp at h; omega
      · intro h
        by_cases hc : n = 2
        · subst hc; exact absurd (by omega) (h 200 (by omega) (by omega))
        · simp [hc]
  constructor
  · rintro (⟨x, hx, rfl, hk⟩ | ⟨e, he, rfl, hk⟩ | ⟨hr, hd, hn⟩ | ⟨hw, hr⟩)
    · exact .default x k hx (C24_kind.mp hk)
    · exact .code e k he (C24_kind.mp hk)
    · cases hr; exact .noSuccess hd fun e he => (hcov e).mp (hn e he)
    · cases hr; exact .websocket hw
  · intro h
    cases h with
    | default x _ hx hk => exact .inl ⟨x, hx, rfl, C24_kind.mpr hk⟩
    | code e _ he hk => exact .inr (.inl ⟨e, he, rfl, C24_kind.mpr hk⟩)
    | noSuccess hd hn => exact .inr (.inr (.inl ⟨rfl, hd, fun e he => (hcov e).mpr (hn e he)⟩))
    | websocket hw => exact .inr (.inr (.inr ⟨hw, rfl⟩))

open Progenitor.Resp in
theorem listed_default {d : DocOperation} {s : Status} {k : Resp.Kind} (h : Listed d s k) (hs : s = .default) :
    ∃ x, d.default = some x ∧ Carries d.websocket x k := by
  cases h with
  | default x _ hx hk => exact ⟨x, hx, hk⟩
  | code e _ _ _ => exact absurd hs (toStatus_ne_default _)
  | noSuccess => cases hs
  | websocket => cases hs

open Progenitor.Resp in
theorem success_mem {d : DocOperation} {rs : List Response} (h : processResponses d.websocket d.default d.codes = .ok rs)
    (r : Response) : r ∈ popDefault (sorted Status.isSuccessOrDefault rs) ↔ Listed d r.status r.kind ∧ AsSuccess d r.status := by
  have hsucc : ∀ s : Status, s ≠ .default → (s.isSuccessOrDefault = true ↔ AsSuccess d s) := by
    intro s hs
    cases s with
    | code c => simp [Status.isSuccessOrDefault, AsSuccess]; omega
    | range n => simp [Status.isSuccessOrDefault, AsSuccess]
    | default => exact absurd rfl hs
  by_cases hd : r.status = .default
  · -- the default response
    cases hdf : d.default with
    | none =>
      constructor
      · intro hr
        obtain ⟨x, hx, _⟩ := listed_default ((listed_iff h r).mp (mem_sorted.mp (mem_popDefault hr)).1) hd
        rw [hdf] at hx; cases hx
      · rintro ⟨hl, _⟩
        obtain ⟨x, hx, _⟩ := listed_default hl hd
        rw [hdf] at hx; cases hx
    | some x =>
      have h' := h
      rw [hdf] at h'
      obtain ⟨k, cs, W, rfl, hst, hW⟩ := processResponses_shape h'
      obtain ⟨s, rk⟩ := r
      dsimp only at hd
      subst hd
      have huniq : ∀ k', (⟨.default, k'⟩ : Response) ∈ (⟨.default, k⟩ :: (cs ++ W) : List Response) → k' = k := by
        intro k' hk'
        have h1 := (listed_iff h _).mp hk'
        have h2 := (listed_iff h ⟨.default, k⟩).mp (by simp)
        have get : ∀ k, Listed d .default k → kindOf d.websocket x = .ok k := by
          intro k hk
          obtain ⟨y, hy, hk⟩ := listed_default hk rfl
          rw [hdf] at hy; cases hy
          exact C24_kind.mpr hk
        have := (get _ h1).symm.trans (get _ h2)
        simpa using this
      constructor
      · intro hr
        have hm := (mem_sorted.mp (mem_popDefault hr)).1
        obtain rfl := huniq rk hm
        exact ⟨(listed_iff h _).mp hm, (hidden_iff hst hW).mp hr⟩
      · rintro ⟨hl, ha⟩
        have hm := (listed_iff h ⟨.default, rk⟩).mpr hl
        obtain rfl := huniq rk hm
        exact (hidden_iff hst hW).mpr ha
  · constructor
    · intro hr
      have hm := mem_sorted.mp (mem_popDefault hr)
      exact ⟨(listed_iff h r).mp hm.1, (hsucc _ hd).mp hm.2⟩
    · rintro ⟨hl, ha⟩
      have hm := mem_sorted.mpr ⟨(listed_iff h r).mpr hl, (hsucc _ hd).mpr ha⟩
      rcases mem_popDefault_of hm with h | ⟨h, _⟩
      · exact h
      · exact absurd h hd

open Progenitor.Resp in
/-- C85: exactly when the responses of an operation are understood. -/
theorem C85_responses_iff (d : DocOperation) :
    (∃ di, Accepted d.websocket d.default d.codes di) ↔ ResponsesSupported d := by
  have herr : ∀ s : Status, s.isErrorOrDefault = true ↔ AsError s := by
    intro s
    cases s with
    | code c => simp [Status.isErrorOrDefault, AsError]; omega
    | range n => simp [Status.isErrorOrDefault, AsError]; omega
    | default => simp [Status.isErrorOrDefault, AsError]
  constructor
  · rintro ⟨di, rs, h1, h2⟩
    obtain ⟨_, _, hs, he, hu, _⟩ := genMatch_ok h2
    have hconv : (∀ x, d.default = some x → ∃ k, kindOf d.websocket x = .ok k) ∧
        ∀ e ∈ d.codes, ∃ k, kindOf d.websocket e.2 = .ok k := by
      have h1' := h1
      simp only [processResponses] at h1'
      obtain ⟨rs', hc, _⟩ := bind_ok_inv h1'
      have hf := convertAll_kinds hc
      have hall : ∀ {l : List (Status × DocResponse)} {rs : List Response},
          Spec.Forall₂ (fun e r => r.status = e.1 ∧ kindOf d.websocket e.2 = .ok r.kind) l rs →
          ∀ e ∈ l, ∃ k, kindOf d.websocket e.2 = .ok k := by
        intro l rs h
        induction h with
        | nil => intro e he; cases he
        | cons hpa _ ih =>
          intro e he
          rcases List.mem_cons.mp he with rfl | he
          · exact ⟨_, hpa.2⟩
          · exact ih e he
      refine ⟨fun x hx => ?_, fun e he => ?_⟩
      · exact hall hf (.default, x) (by simp [hx])
      · exact hall hf (e.1.toStatus, e.2) (List.mem_append_right _
          (List.mem_map_of_mem (f := fun e : DocStatus × DocResponse => (e.1.toStatus, e.2)) he))
    refine ⟨?_, ?_, ?_, ?_, ?_⟩
    · intro x hx
      obtain ⟨k, hk⟩ := hconv.1 x hx
      exact ⟨k, C24_kind.mp hk⟩
    · intro e hem
      obtain ⟨k, hk⟩ := hconv.2 e hem
      exact ⟨k, C24_kind.mp hk⟩
    · intro s k s' k' hl hl' ha ha'
      exact (hs ⟨s, k⟩ ((success_mem h1 _).mpr ⟨hl, ha⟩)).trans (hs ⟨s', k'⟩ ((success_mem h1 _).mpr ⟨hl', ha'⟩)).symm
    · intro s k s' k' hl hl' ha ha'
      exact (he ⟨s, k⟩ ((listed_iff h1 _).mpr hl) ((herr s).mpr ha)).trans
        (he ⟨s', k'⟩ ((listed_iff h1 _).mpr hl') ((herr s').mpr ha')).symm
    · intro s hl ha
      exact hu ⟨s, .upgrade⟩ ((listed_iff h1 _).mpr hl) ((herr s).mpr ha) rfl
  · rintro ⟨h1, h2, h3, h4, h5⟩
    obtain ⟨rs, hrs⟩ := processResponses_of (ws := d.websocket) (df := d.default) (codes := d.codes)
      (fun x hx => (h1 x hx).imp fun _ h => C24_kind.mpr h) (fun e he => (h2 e he).imp fun _ h => C24_kind.mpr h)
    obtain ⟨di, hdi⟩ := genMatch_of (rs := rs)
      (fun r hr r' hr' => by
        obtain ⟨hl, ha⟩ := (success_mem hrs r).mp hr
        obtain ⟨hl', ha'⟩ := (success_mem hrs r').mp hr'
        exact h3 _ _ _ _ hl hl' ha ha')
      (fun r hr r' hr' he he' => h4 _ _ _ _ ((listed_iff hrs r).mp hr) ((listed_iff hrs r').mp hr') ((herr _).mp he) ((herr _).mp he'))
      (fun r hr he hk => h5 _ (hk ▸ (listed_iff hrs r).mp hr) ((herr _).mp he))
    exact ⟨di, rs, hrs, hdi⟩

/-! ## Operations -/

theorem method_iff (m : Str) : (∃ h, HttpMethod.parse m = .ok h) ↔ m ∈ MethodNames := by
  have e : MethodNames = ["get".toList, "put".toList, "post".toList, "delete".toList, "options".toList, "head".toList,
      "patch".toList, "trace".toList] := rfl
  rw [e]
  constructor
  · rintro ⟨h, hh⟩
    unfold HttpMethod.parse at hh
    by_cases h0 : m = "get".toList
    · rw [h0]; exact List.mem_cons_self
    rw [if_neg h0] at hh
    by_cases h1 : m = "put".toList
    · rw [h1]; exact .tail _ (List.mem_cons_self)
    rw [if_neg h1] at hh
    by_cases h2 : m = "post".toList
    · rw [h2]; exact .tail _ (.tail _ (List.mem_cons_self))
    rw [if_neg h2] at hh
    by_cases h3 : m = "delete".toList
    · rw [h3]; exact .tail _ (.tail _ (.tail _ (List.mem_cons_self)))
    rw [if_neg h3] at hh
    by_cases h4 : m = "options".toList
    · rw [h4]; exact .tail _ (.tail _ (.tail _ (.tail _ (List.mem_cons_self))))
    rw [if_neg h4] at hh
    by_cases h5 : m = "head".toList
    · rw [h5]; exact .tail _ (.tail _ (.tail _ (.tail _ (.tail _ (List.mem_cons_self)))))
    rw [if_neg h5] at hh
    by_cases h6 : m = "patch".toList
    · rw [h6]; exact .tail _ (.tail _ (.tail _ (.tail _ (.tail _ (.tail _ (List.mem_cons_self))))))
    rw [if_neg h6] at hh
    by_cases h7 : m = "trace".toList
    · rw [h7]; exact .tail _ (.tail _ (.tail _ (.tail _ (.tail _ (.tail _ (.tail _ (List.mem_cons_self)))))))
    rw [if_neg h7] at hh
    cases hh
  · intro h
    rcases List.mem_cons.mp h with rfl | h
    · exact ⟨_, rfl⟩
    rcases List.mem_cons.mp h with rfl | h
    · exact ⟨_, rfl⟩
    rcases List.mem_cons.mp h with rfl | h
    · exact ⟨_, rfl⟩
    rcases List.mem_cons.mp h with rfl | h
    · exact ⟨_, rfl⟩
    rcases List.mem_cons.mp h with rfl | h
    · exact ⟨_, rfl⟩
    rcases List.mem_cons.mp h with rfl | h
    · exact ⟨_, rfl⟩
    rcases List.mem_cons.mp h with rfl | h
    · exact ⟨_, rfl⟩
    rcases List.mem_cons.mp h with rfl | h
    · exact ⟨_, rfl⟩
    cases h

theorem template_iff (path : Str) : (∃ t, parseTemplate path = .ok t) ↔ LaxPath path := by
  rw [← C01_accepts_iff]
  unfold parseTemplate
  cases Template.parse path with
  | ok t => simp
  | error e => simp

theorem parseTemplate_parse {path : Str} {t : Template.PathTemplate} (h : parseTemplate path = .ok t) : Template.parse path = .ok t := by
  unfold parseTemplate at h
  cases hp : Template.parse path with
  | ok t' => rw [hp] at h; cases h; rfl
  | error e => rw [hp] at h; cases h

theorem compile_iff {path : Str} {t : Template.PathTemplate} (h : parseTemplate path = .ok t) (rename : Str → Option Str) :
    (∃ e, Template.compile t rename = .ok e) ↔ ∀ n ∈ braceGroups path, rename n ≠ none := by
  have hp := C03_panics_iff path t rename (parseTemplate_parse h)
  cases hc : Template.compile t rename with
  | ok e =>
    rw [hc] at hp
    simp only [Res.isPanic, Bool.false_eq_true, false_iff] at hp
    exact ⟨fun _ n hn he => hp ⟨n, hn, he⟩, fun _ => ⟨e, rfl⟩⟩
  | panic m =>
    rw [hc] at hp
    simp only [Res.isPanic, true_iff] at hp
    obtain ⟨n, hn, he⟩ := hp
    refine ⟨?_, fun h => absurd he (h n hn)⟩
    rintro ⟨e, h⟩; cases h
  | err m =>
    exfalso
    unfold Template.compile at hc
    cases ha : Template.compileArgs rename t with
    | ok is => rw [ha] at hc; cases hc
    | err m' => exact Template.compileArgs_no_err rename t m' ha
    | panic m' => rw [ha] at hc; cases hc

theorem forall₂_right {α β} {R : α → β → Prop} {l : List α} {m : List β} (h : Spec.Forall₂ R l m) :
    ∀ b ∈ m, ∃ a ∈ l, R a b := by
  induction h with
  | nil => intro b hb; cases hb
  | cons hab _ ih =>
    intro b hb
    rcases List.mem_cons.mp hb with rfl | hb
    · exact ⟨_, by simp, hab⟩
    · obtain ⟨a, ha, h⟩ := ih b hb; exact ⟨a, by simp [ha], h⟩

theorem forall₂_left {α β} {R : α → β → Prop} {l : List α} {m : List β} (h : Spec.Forall₂ R l m) :
    ∀ a ∈ l, ∃ b ∈ m, R a b := by
  induction h with
  | nil => intro b hb; cases hb
  | cons hab _ ih =>
    intro b hb
    rcases List.mem_cons.mp hb with rfl | hb
    · exact ⟨_, by simp, hab⟩
    · obtain ⟨a, ha, h⟩ := ih b hb; exact ⟨a, by simp [ha], h⟩

theorem path_kind {p : DocParam} {a : Param} (h : Describes p a) : a.kind = .path ↔ docLocation p.kind = .path := by
  have h2 := h.2.1
  constructor
  · intro hk; rw [hk] at h2; exact h2.symm
  · intro hk
    rw [hk] at h2
    cases ha : a.kind <;> rw [ha] at h2 <;> first | rfl | cases h2

theorem names_conv {san : Str → Str} {vs : List DocParam} {conv : List Param}
    (h : Spec.Forall₂ (fun p a => convert san p = .ok a) vs conv) : conv.map Param.apiName = vs.map DocParam.name := by
  induction h with
  | nil => rfl
  | cons hpa _ ih => simp only [List.map_cons, ih, (convert_describes hpa).1.1]

theorem nodup_inj {α β} {f : α → β} {l : List α} (h : (l.map f).Nodup) {a b : α} (ha : a ∈ l) (hb : b ∈ l) (e : f a = f b) : a = b := by
  induction l with
  | nil => cases ha
  | cons x l ih =>
    rw [List.map_cons, List.nodup_cons] at h
    rcases List.mem_cons.mp ha with h1 | h1 <;> rcases List.mem_cons.mp hb with h2 | h2
    · rw [h1, h2]
    · rw [← h1, e] at h; exact absurd (List.mem_map_of_mem h2) h.1
    · rw [← h2, ← e] at h; exact absurd (List.mem_map_of_mem h1) h.1
    · exact ih h.2 h1 h2

theorem body_location {body : Option (List (Str × BodyMedia))} {o : Option Param} (h : getBodyParam body = .ok o) :
    ∀ p ∈ o, location p.kind = .body := by
  intro p hp
  rcases (body_shape h p hp).2 with ⟨c, _, hk, _⟩ | ⟨c, _, _, hk, _⟩ <;> rw [hk] <;> rfl

/-- The body of the request can always be emitted. -/
theorem body_emitted {xs : List Param} {body : Option (List (Str × BodyMedia))} {o : Option Param} (h : getBodyParam body = .ok o)
    (hx : ∀ p ∈ xs, location p.kind ≠ .body) : ∃ bs b, bodyFuncs (xs ++ o.toList) = .ok bs ∧ oneBody bs = .ok b := by
  induction xs with
  | nil =>
    cases o with
    | none => exact ⟨_, _, rfl, rfl⟩
    | some p =>
      obtain ⟨pn, pa, pt, pk⟩ := p
      rcases (body_shape h _ rfl).2 with ⟨c, rfl | ⟨m, rfl⟩, hk, ht⟩ | ⟨c, t, rfl | rfl, hk, ht⟩ <;>
        · dsimp only at hk ht
          subst hk; subst ht
          exact ⟨_, _, rfl, rfl⟩
  | cons x xs ih =>
    obtain ⟨bs, b, h1, h2⟩ := ih fun p hp => hx p (by simp [hp])
    refine ⟨bs, b, ?_, h2⟩
    simp only [List.cons_append, bodyFuncs, h1, Res.bind_ok]
    have := hx x (by simp)
    cases hk : x.kind with
    | body c => rw [hk] at this; exact absurd rfl this
    | _ => rfl

/-- C85: a method is generated for an operation exactly if the operation is supported. -/
theorem C85_operation_iff (san : Str → Str) (types : Types) (path method : Str) (d : DocOperation) :
    (∃ P c, processOperation san types path method d = .ok P ∧ methodSigBody P.op = .ok c) ↔ OperationSupported path method d := by
  constructor
  · rintro ⟨P, c, hP, hc⟩
    unfold processOperation at hP
    obtain ⟨conv, hconv, hP⟩ := bind_ok_inv hP
    obtain ⟨body, hbody, hP⟩ := bind_ok_inv hP
    obtain ⟨tmp, htmp, hP⟩ := bind_ok_inv hP
    obtain ⟨ps, hps, hP⟩ := bind_ok_inv hP
    obtain ⟨rs, hrs, hP⟩ := bind_ok_inv hP
    obtain ⟨_, _, hP⟩ := bind_ok_inv hP
    obtain ⟨m, hm, hP⟩ := bind_ok_inv hP
    cases hP
    unfold methodSigBody at hc
    obtain ⟨url, hurl, hc⟩ := bind_ok_inv hc
    obtain ⟨bs, _, hc⟩ := bind_ok_inv hc
    obtain ⟨b, _, hc⟩ := bind_ok_inv hc
    obtain ⟨di, hdi, _⟩ := bind_ok_inv hc
    dsimp only at hurl hdi
    have hf := convertAll_forall₂ hconv
    have hperm : ps.Perm (conv ++ body.toList) := by simpa using sortLoop_perm hps
    have hnames := C02_names path tmp (parseTemplate_parse htmp)
    refine ⟨?_, (body_iff _).mp ⟨_, hbody⟩, ⟨(template_iff _).mp ⟨_, htmp⟩, ?_, ?_⟩, (C85_responses_iff d).mp ⟨di, rs, hrs, hdi⟩,
      (method_iff _).mp ⟨_, hm⟩⟩
    · intro p hp
      exact (convertAll_iff san _).mp ⟨_, hconv⟩ p ((counts_iff d p).mpr hp)
    · intro n hn
      have := (compile_iff htmp _).mp ⟨_, hurl⟩ n hn
      cases hr : urlRenames ps n with
      | none => exact absurd hr this
      | some i =>
        obtain ⟨a, ha, hk, hapi, _⟩ := urlRenames_some hr
        rcases List.mem_append.mp (hperm.mem_iff.mp ha) with ha | ha
        · obtain ⟨p, hp, hpa⟩ := forall₂_right hf a ha
          have hd := (convert_describes hpa).1
          exact ⟨p, (counts_iff d p).mp hp, hd.1.symm.trans hapi, (path_kind hd).mp hk⟩
        · have := body_location hbody a (by simpa using ha)
          rw [hk] at this; cases this
    · intro p q hp hq hpk hqk hne
      obtain ⟨a, ha, hpa⟩ := forall₂_left hf p ((counts_iff d p).mpr hp)
      obtain ⟨b, hb, hqb⟩ := forall₂_left hf q ((counts_iff d q).mpr hq)
      have hda := (convert_describes hpa).1
      have hdb := (convert_describes hqb).1
      rcases sortParams_found hps with hlen | hfound
      · exfalso
        have hma : a ∈ (conv ++ body.toList).filter fun p => location p.kind == .path := by
          refine List.mem_filter.mpr ⟨by simp [ha], ?_⟩
          rw [(path_kind hda).mpr hpk]; rfl
        have hmb : b ∈ (conv ++ body.toList).filter fun p => location p.kind == .path := by
          refine List.mem_filter.mpr ⟨by simp [hb], ?_⟩
          rw [(path_kind hdb).mpr hqk]; rfl
        have hab : a = b := by
          generalize (conv ++ body.toList).filter (fun p => location p.kind == .path) = l at hma hmb hlen
          match l with
          | [] => cases hma
          | [x] =>
            simp only [List.mem_singleton] at hma hmb
            rw [hma, hmb]
          | _ :: _ :: _ => simp only [List.length_cons] at hlen; omega
        apply hne
        refine nodup_inj (values_names d.pathLevel d.opLevel) ((counts_iff d p).mpr hp) ((counts_iff d q).mpr hq) ?_
        rw [← hda.1, ← hdb.1, hab]
      · rw [← hnames, ← hda.1]
        exact hfound a (by simp [ha]) (by rw [(path_kind hda).mpr hpk]; rfl)
  · rintro ⟨hparams, hbody, ⟨hlax, hdecl, hused⟩, hresp, hmeth⟩
    obtain ⟨conv, hconv⟩ := (convertAll_iff san (BTree.values (combined d.pathLevel d.opLevel))).mpr
      fun p hp => hparams p ((counts_iff d p).mp hp)
    obtain ⟨body, hbody⟩ := (body_iff _).mpr hbody
    obtain ⟨tmp, htmp⟩ := (template_iff _).mpr hlax
    obtain ⟨m, hm⟩ := (method_iff _).mpr hmeth
    obtain ⟨di, rs, hrs, hdi⟩ := (C85_responses_iff d).mpr hresp
    have hf := convertAll_forall₂ hconv
    have hnames := C02_names path tmp (parseTemplate_parse htmp)
    have hnb : ∀ p ∈ conv, location p.kind ≠ .body := by
      intro a ha
      obtain ⟨p, _, hpa⟩ := forall₂_right hf a ha
      exact convert_not_body hpa
    have hsort : (conv.filter fun p => location p.kind == .path).length ≤ 1 ∨ PathsFound (Template.names tmp) conv := by
      by_cases hfound : PathsFound (Template.names tmp) conv
      · exact .inr hfound
      · left
        unfold PathsFound at hfound
        simp only [Classical.not_forall] at hfound
        obtain ⟨a, ha, hka, hna⟩ := hfound
        obtain ⟨p, hp, hpa⟩ := forall₂_right hf a ha
        have hda := (convert_describes hpa).1
        have hpl : docLocation p.kind = .path := hda.2.1.symm.trans hka
        have hsame : ∀ b ∈ conv.filter (fun p => location p.kind == .path), b.apiName = a.apiName := by
          intro b hb
          obtain ⟨hb, hkb⟩ := List.mem_filter.mp hb
          obtain ⟨q, hq, hqb⟩ := forall₂_right hf b hb
          have hdb := (convert_describes hqb).1
          have hql : docLocation q.kind = .path := hdb.2.1.symm.trans (by simpa using hkb)
          by_cases hpq : p = q
          · rw [hda.1, hdb.1, hpq]
          · exfalso
            have := hused p q ((counts_iff d p).mp hp) ((counts_iff d q).mp hq) hpl hql hpq
            rw [← hnames, ← hda.1] at this
            exact hna this
        have hnd : ((conv.filter fun p => location p.kind == .path).map Param.apiName).Nodup := by
          have : (conv.map Param.apiName).Nodup := by rw [names_conv hf]; exact values_names _ _
          exact this.sublist (List.filter_sublist.map _)
        generalize conv.filter (fun p => location p.kind == .path) = l at hsame hnd
        match l with
        | [] => simp
        | [x] => simp
        | x :: y :: l =>
          exfalso
          have h1 := hsame x (by simp)
          have h2 := hsame y (by simp)
          simp only [List.map_cons, List.nodup_cons, List.mem_cons, not_or] at hnd
          exact hnd.1.1 (h1.trans h2.symm)
    have hps := sortParams_pure hsort hnb (body_location hbody)
    have hperm := sortP_perm (lessP (Template.names tmp)) [] conv
    have hconf : noConflict d (paginationData types d.pagination
        (sortP (lessP (Template.names tmp)) [] conv ++ body.toList) rs) = .ok () := by
      unfold noConflict
      rw [if_neg]
      rintro ⟨hws, hpg⟩
      obtain ⟨pg, hpg⟩ := Option.isSome_iff_exists.mp hpg
      have hst : ∃ t, t ∈ successTypes rs := by
        unfold paginationData at hpg
        split at hpg
        · cases hpg
        · split at hpg
          · cases hpg
          · split at hpg
            · cases hpg
            · split at hpg
              · cases hpg
              · split at hpg
                · rename_i t ht; exact ⟨t, by rw [ht]; simp⟩
                · cases hpg
      obtain ⟨t, ht⟩ := hst
      obtain ⟨r, hr, hrt⟩ := List.mem_filterMap.mp ht
      have hl := (listed_iff hrs r).mp hr
      obtain ⟨s, k⟩ := r
      have hsk : AsSuccess d s ∧ k = .type t := by
        unfold successType at hrt
        dsimp only at hrt
        split at hrt
        · split at hrt
          · cases hrt; exact ⟨.inr (by omega), rfl⟩
          · cases hrt
        · cases hrt; exact ⟨rfl, rfl⟩
        · cases hrt
      have := hresp.successes _ _ _ _ hl (.websocket hws) hsk.1 (.inl rfl)
      dsimp only at this
      rw [hsk.2] at this
      cases this
    obtain ⟨url, hurl⟩ := (compile_iff htmp (urlRenames (sortP (lessP (Template.names tmp)) [] conv ++ body.toList))).mpr (by
      intro n hn hnone
      obtain ⟨p, hp, rfl, hpk⟩ := hdecl n hn
      obtain ⟨a, ha, hpa⟩ := forall₂_left hf p ((counts_iff d p).mpr hp)
      have hda := (convert_describes hpa).1
      simp only [urlRenames, Option.map_eq_none_iff, List.find?_eq_none] at hnone
      have := hnone a (by
        simp only [List.mem_reverse, List.mem_filter, decide_eq_true_eq]
        exact ⟨List.mem_append_left _ (hperm.mem_iff.mpr (by simpa using ha)), (path_kind hda).mpr hpk⟩)
      exact this (by simpa using hda.1))
    obtain ⟨bs, b, hbs, hb⟩ := body_emitted (xs := sortP (lessP (Template.names tmp)) [] conv) hbody
      (fun p hp => hnb p (by simpa using hperm.mem_iff.mp hp))
    have hproc : processOperation san types path method d = .ok
        ⟨(⟨san d.operationId, d.tags, m, tmp, sortP (lessP (Template.names tmp)) [] conv ++ body.toList, rs, d.websocket⟩ : OperationMethod),
         paginationData types d.pagination (sortP (lessP (Template.names tmp)) [] conv ++ body.toList) rs⟩ := by
      unfold processOperation
      simp only [hconv, hbody, htmp, hps, hrs, hconf, hm, Res.bind_ok]
      rfl
    have hsig : ∃ c, methodSigBody (⟨san d.operationId, d.tags, m, tmp, sortP (lessP (Template.names tmp)) [] conv ++ body.toList, rs, d.websocket⟩ : OperationMethod) = .ok c := by
      unfold methodSigBody
      simp only [hurl, hbs, hb, hdi, Res.bind_ok]
      exact ⟨_, rfl⟩
    obtain ⟨c, hc⟩ := hsig
    exact ⟨_, c, hproc, hc⟩

/-! ## Builders -/

/-- What the argument for a parameter is for the builder. -/
theorem arg_shape {p : DocParam} {a : Param} (h : Describes p a) (hs : ParamSupported p) (ht : a.typ = .type (argType p)) :
    a.typ = .type (argType p) ∧ (Optional a ↔ ¬ ArgRequired p) := by
  refine ⟨ht, ?_⟩
  obtain ⟨_, _, hm⟩ := h
  obtain ⟨name, kind, required, hasSchema, ty⟩ := p
  obtain ⟨an, aa, at', ak⟩ := a
  unfold Optional ArgRequired
  unfold ParamSupported at hs
  cases kind with
  | path s =>
    cases ak <;> simp_all
  | query f o =>
    cases o <;> cases ak <;> simp_all
  | header => cases ak <;> simp_all
  | cookie => simp_all

theorem convert_type {san : Str → Str} {p : DocParam} {a : Param} (h : convert san p = .ok a) : a.typ = .type (argType p) := by
  obtain ⟨name, kind, required, hasSchema, ty⟩ := p
  unfold convert at h
  cases kind with
  | path s => cases s <;> cases required <;> cases hasSchema <;> simp at h <;> (subst h; rfl)
  | query f o => cases f <;> cases o <;> cases hasSchema <;> simp at h <;> (subst h; rfl)
  | header => cases hasSchema <;> simp at h <;> (subst h; rfl)
  | cookie => simp at h

variable {B : Type}

/-- C85: a builder is generated for an operation exactly if the operation is supported and no parameter other than the body has the type
of a struct. -/
theorem C85_builder_iff (u : Unicode) (types : Types) (tt : TypeTable B) (path method : Str) (d : DocOperation) :
    (∃ P c, processOperation (sanitize u .snake) types path method d = .ok P ∧ builderStruct tt P.op = .ok c) ↔
      OperationSupported path method d ∧ BuilderSupported u tt d := by
  have key : ∀ P, processOperation (sanitize u .snake) types path method d = .ok P →
      (genParams tt P.op.params = .ok () ↔ BuilderSupported u tt d) := by
    intro P hP
    unfold processOperation at hP
    obtain ⟨conv, hconv, hP⟩ := bind_ok_inv hP
    obtain ⟨body, hbody, hP⟩ := bind_ok_inv hP
    obtain ⟨tmp, htmp, hP⟩ := bind_ok_inv hP
    obtain ⟨ps, hps, hP⟩ := bind_ok_inv hP
    obtain ⟨rs, hrs, hP⟩ := bind_ok_inv hP
    obtain ⟨_, _, hP⟩ := bind_ok_inv hP
    obtain ⟨m, hm, hP⟩ := bind_ok_inv hP
    cases hP
    have hf := convertAll_forall₂ hconv
    have hperm : ps.Perm (conv ++ body.toList) := by simpa using sortLoop_perm hps
    have hsup := (convertAll_iff (sanitize u .snake) _).mp ⟨_, hconv⟩
    dsimp only
    rw [C62_generates]
    constructor
    · intro h p hp b hb
      have hp' := (counts_iff d p).mpr hp
      obtain ⟨a, ha, hpa⟩ := forall₂_left hf p hp'
      obtain ⟨hd, hn⟩ := convert_describes hpa
      obtain ⟨ht, ho⟩ := arg_shape hd (hsup p hp') (convert_type hpa)
      obtain ⟨h1, h2⟩ := (h a (hperm.mem_iff.mpr (by simp [ha]))).1 _ b ht hb
      refine ⟨Classical.byContradiction fun hr => h1 (ho.mpr hr), hn.symm.trans h2⟩
    · intro h a ha
      rcases List.mem_append.mp (hperm.mem_iff.mp ha) with ha | ha
      · obtain ⟨p, hp', hpa⟩ := forall₂_right hf a ha
        obtain ⟨hd, hn⟩ := convert_describes hpa
        obtain ⟨ht, ho⟩ := arg_shape hd (hsup p hp') (convert_type hpa)
        refine ⟨?_, ?_⟩
        · intro t b hat hb
          rw [ht] at hat
          cases hat
          obtain ⟨h1, h2⟩ := h p ((counts_iff d p).mp hp') b hb
          exact ⟨fun hopt => ho.mp hopt h1, hn.trans h2⟩
        · intro hr; rw [ht] at hr; cases hr
      · have hbs := body_shape hbody a (by simpa using ha)
        refine ⟨fun t b _ _ => ⟨?_, hbs.1⟩, ?_⟩
        · rcases hbs.2 with ⟨c, _, hk, _⟩ | ⟨c, _, _, hk, _⟩ <;>
          · unfold Optional
            rw [hk]
            rintro (h | h) <;> cases h
        · intro hr
          rcases hbs.2 with ⟨c, rfl | ⟨m, rfl⟩, hk, _⟩ | ⟨c, _, _, _, ht⟩
          · exact .inl hk
          · exact .inr ⟨m, hk⟩
          · rw [hr] at ht; cases ht
  rw [← C85_operation_iff (sanitize u .snake) types path method d]
  constructor
  · rintro ⟨P, c, hP, hc⟩
    unfold builderStruct at hc
    obtain ⟨_, hg, hc⟩ := bind_ok_inv hc
    exact ⟨⟨P, c, hP, hc⟩, (key P hP).mp hg⟩
  · rintro ⟨⟨P, c, hP, hc⟩, hb⟩
    refine ⟨P, c, hP, ?_⟩
    unfold builderStruct
    rw [(key P hP).mpr hb]
    exact hc

/-! ## Documents -/

/-- Running one step after the other for all operations. -/
theorem all_iff {u : Unicode} {types : Types} {f : OperationMethod → Res Code} {F : List Processed → Res (List Code)}
    (h0 : F [] = .ok []) (h1 : ∀ p ps, F (p :: ps) = (do let c ← f p.op; let cs ← F ps; pure (c :: cs)))
    (os : List (Str × Str × RawOperation)) :
    (∃ ms cs, processAll u types os = .ok ms ∧ F ms = .ok cs) ↔
      ∀ o ∈ os, ∃ P c, processOne u types o = .ok P ∧ f P.op = .ok c := by
  induction os with
  | nil => exact ⟨fun _ _ ho => (by cases ho), fun _ => ⟨[], [], rfl, h0⟩⟩
  | cons o os ih =>
    rw [List.forall_mem_cons, ← ih]
    constructor
    · rintro ⟨ms, cs, hm, hc⟩
      unfold processAll at hm
      obtain ⟨P, hP, hm⟩ := bind_ok_inv hm
      obtain ⟨ps, hps, hm⟩ := bind_ok_inv hm
      cases hm
      rw [h1] at hc
      obtain ⟨c, hc1, hc⟩ := bind_ok_inv hc
      obtain ⟨cs', hc2, hc⟩ := bind_ok_inv hc
      exact ⟨⟨P, c, hP, hc1⟩, ps, cs', hps, hc2⟩
    · rintro ⟨⟨P, c, hP, hc⟩, ps, cs, hps, hcs⟩
      refine ⟨P :: ps, c :: cs, ?_, ?_⟩
      · unfold processAll
        rw [hP, Res.bind_ok, hps]
        rfl
      · rw [h1, hc, Res.bind_ok, hcs]
        rfl

theorem isOk_iff {α} (r : Res α) : r.isOk = true ↔ ∃ a, r = .ok a := by
  cases r <;> simp [Res.isOk]

/-- The id of an operation does not matter here. -/
theorem listed_id {d : DocOperation} {id : Str} {s : Resp.Status} {k : Resp.Kind} :
    Listed { d with operationId := id } s k ↔ Listed d s k := by
  constructor
  · intro h
    cases h with
    | default x _ hx hk => exact .default x _ hx hk
    | code e _ he hk => exact .code e _ he hk
    | noSuccess hd hn => exact .noSuccess hd hn
    | websocket hw => exact .websocket hw
  · intro h
    cases h with
    | default x _ hx hk => exact .default x _ hx hk
    | code e _ he hk => exact .code (d := { d with operationId := id }) e _ he hk
    | noSuccess hd hn => exact .noSuccess (d := { d with operationId := id }) hd hn
    | websocket hw => exact .websocket (d := { d with operationId := id }) hw

theorem asSuccess_id {d : DocOperation} {id : Str} {s : Resp.Status} :
    AsSuccess { d with operationId := id } s ↔ AsSuccess d s := by cases s <;> rfl

theorem supported_id {path m : Str} {d : DocOperation} {id : Str} :
    OperationSupported path m { d with operationId := id } ↔ OperationSupported path m d := by
  constructor
  · rintro ⟨h1, h2, ⟨h3, h4, h5⟩, ⟨h6, h7, h8, h9, h10⟩, h11⟩
    refine ⟨h1, h2, ⟨h3, h4, h5⟩, ⟨h6, h7, ?_, ?_, ?_⟩, h11⟩
    · intro s k s' k' hl hl' ha ha'
      exact h8 s k s' k' (listed_id.mpr hl) (listed_id.mpr hl') (asSuccess_id.mpr ha) (asSuccess_id.mpr ha')
    · intro s k s' k' hl hl' ha ha'
      exact h9 s k s' k' (listed_id.mpr hl) (listed_id.mpr hl') ha ha'
    · intro s hl ha
      exact h10 s (listed_id.mpr hl) ha
  · rintro ⟨h1, h2, ⟨h3, h4, h5⟩, ⟨h6, h7, h8, h9, h10⟩, h11⟩
    refine ⟨h1, h2, ⟨h3, h4, h5⟩, ⟨h6, h7, ?_, ?_, ?_⟩, h11⟩
    · intro s k s' k' hl hl' ha ha'
      exact h8 s k s' k' (listed_id.mp hl) (listed_id.mp hl') (asSuccess_id.mp ha) (asSuccess_id.mp ha')
    · intro s k s' k' hl hl' ha ha'
      exact h9 s k s' k' (listed_id.mp hl) (listed_id.mp hl') ha ha'
    · intro s hl ha
      exact h10 s (listed_id.mp hl) ha

/-- C85: a client is generated exactly for the valid documents all of whose operations are supported; in the builder style parameters
must not be structs, and separate tags need the builder style. -/
theorem C85_generates_iff {u : Unicode} (h : Lawful u) (types : Types) (tt : TypeTable B) (i : Interface) (t : TagStyle) (d : Document) :
    (∃ r, generate u types tt i t d = .ok r) ↔
      ValidDoc u d ∧ (i = .positional → t = .merged) ∧
      ∀ path m o, (path, m, o) ∈ routes d →
        OperationSupported path m o.op ∧ (i = .builder → BuilderSupported u tt o.op) := by
  rw [← routes_eq]
  have hid : ValidDoc u d → ∀ path m o, (path, m, o) ∈ operations d → ∃ id, o.id = some id := by
    intro hv path m o ho
    have : o ∈ opsOf d := by
      unfold operations at ho
      obtain ⟨⟨pth, item⟩, hp, hmem⟩ := List.mem_flatMap.mp ho
      cases item with
      | none => cases hmem
      | some ops =>
        obtain ⟨⟨m', o'⟩, ho', e⟩ := List.mem_map.mp hmem
        cases e
        unfold opsOf
        refine List.mem_flatMap.mpr ⟨_, hp, ?_⟩
        exact List.mem_map_of_mem (f := Prod.snd) ho'
    exact Option.ne_none_iff_exists'.mp (hv.hasId o this)
  have hone : ∀ path m (o : RawOperation) id, o.id = some id → processOne u types (path, m, o) =
      processOperation (sanitize u .snake) types path m { o.op with operationId := id } := by
    intro path m o id hi
    unfold processOne
    simp only [hi]
  have hvalid : (∃ x, validate u d = .ok x) ↔ ValidDoc u d := by rw [← isOk_iff]; exact C44_validate_iff h d
  have hsplit : (∃ r, generate u types tt i t d = .ok r) ↔
      ValidDoc u d ∧ ∃ ms cs, processAll u types (operations d) = .ok ms ∧ operationCode tt i t ms = .ok cs := by
    rw [← hvalid]
    constructor
    · rintro ⟨r, hr⟩
      unfold generate at hr
      obtain ⟨ms, hm, hr⟩ := bind_ok_inv hr
      obtain ⟨cs, hc, hr⟩ := bind_ok_inv hr
      unfold rawMethods at hm
      obtain ⟨x, hx, hm⟩ := bind_ok_inv hm
      exact ⟨⟨x, hx⟩, ms, cs, hm, hc⟩
    · rintro ⟨⟨x, hx⟩, ms, cs, hm, hc⟩
      refine ⟨(ms, cs), ?_⟩
      unfold generate rawMethods
      simp only [hx, Res.bind_ok, hm, hc]
      rfl
  rw [hsplit]
  refine and_congr_right fun hv => ?_
  cases i with
  | positional =>
    cases t with
    | separate =>
      constructor
      · rintro ⟨ms, cs, _, hc⟩; cases hc
      · rintro ⟨h, _⟩; cases h rfl
    | merged =>
      have := all_iff (u := u) (types := types) (f := methodSigBody) (F := positionalAll) rfl (fun _ _ => rfl) (operations d)
      refine this.trans ?_
      constructor
      · intro hall
        refine ⟨fun _ => rfl, fun path m o ho => ⟨?_, fun h => (by cases h)⟩⟩
        obtain ⟨id, hi⟩ := hid hv path m o ho
        have := hall _ ho
        rw [hone path m o id hi, C85_operation_iff, supported_id] at this
        exact this
      · rintro ⟨_, hall⟩ ⟨path, m, o⟩ ho
        obtain ⟨id, hi⟩ := hid hv path m o ho
        rw [hone path m o id hi, C85_operation_iff, supported_id]
        exact (hall path m o ho).1
  | builder =>
    have := all_iff (u := u) (types := types) (f := builderStruct tt) (F := builderAll tt) rfl (fun _ _ => rfl) (operations d)
    refine this.trans ?_
    constructor
    · intro hall
      refine ⟨fun h => (by cases h), fun path m o ho => ?_⟩
      obtain ⟨id, hi⟩ := hid hv path m o ho
      have := hall _ ho
      rw [hone path m o id hi, C85_builder_iff, supported_id] at this
      exact ⟨this.1, fun _ => this.2⟩
    · rintro ⟨_, hall⟩ ⟨path, m, o⟩ ho
      obtain ⟨id, hi⟩ := hid hv path m o ho
      rw [hone path m o id hi, C85_builder_iff, supported_id]
      exact ⟨(hall path m o ho).1, (hall path m o ho).2 rfl⟩

/-! ## Examples -/

namespace AcceptExample

def noTypes : Types := fun _ => none
def noBuilders : TypeTable Unit := ⟨fun _ => none, fun _ => []⟩
def unitBuilder : TypeBuilder Unit := ⟨(), fun _ => (), fun _ => .error []⟩
/-- Type 7 is a struct. -/
def structs : TypeTable Unit := ⟨fun t => if t = 7 then some unitBuilder else none, fun _ => []⟩

def idParam : DocParam := ⟨"id".toList, .path true, true, true, 0⟩
def jsonBody : Option (List (Str × BodyMedia)) := some [("application/json; charset=utf-8".toList, ⟨some ⟨false, false, 7⟩, true⟩)]

/-- `id` in the path, `q` replaced by the operation, a body, typed responses and a default that 2XX hides. -/
def good : DocOperation :=
  { operationId := [], tags := [], pathLevel := [idParam, ⟨"q".toList, .cookie, false, true, 1⟩],
    opLevel := [⟨"q".toList, .query true none, false, true, 1⟩], body := jsonBody,
    default := some RespExample.jsonE, codes := [(.range 2, RespExample.jsonT), (.range 4, RespExample.jsonE)],
    websocket := false, pagination := none }

/-- A query parameter with the name of the path parameter. -/
def shadowed : DocOperation := { good with opLevel := [⟨"id".toList, .query true none, false, true, 1⟩] }

/-- A code next to 2XX. -/
def uncovered : DocOperation := { good with codes := [(.range 2, RespExample.jsonT), (.code 201, RespExample.jsonT)] }

/-- A struct in the query. -/
def structured : DocOperation := { good with opLevel := [⟨"q".toList, .query true none, true, true, 7⟩] }

def docOf (o : DocOperation) : Document :=
  ⟨"3.0.3".toList, [("/things/{id}".toList, some [("put".toList, ⟨some "put_thing".toList, o⟩)])]⟩

end AcceptExample

open AcceptExample

theorem good_generated : ∃ r, generate exUnicode noTypes structs .builder .separate (docOf good) = .ok r :=
  (isOk_iff _).mp (by decide +kernel)

/-- The operation is supported, also in the builder style. -/
example : OperationSupported "/things/{id}".toList "put".toList good ∧ BuilderSupported exUnicode structs good :=
  have h := ((C85_generates_iff exUnicode_lawful _ _ _ _ _).mp good_generated).2.2 _ _ ⟨some "put_thing".toList, good⟩ (by simp [routes, docOf])
  ⟨h.1, h.2 rfl⟩

example : DefaultHidden good.codes := by
  refine ⟨?_, [], _, _, rfl, ?_⟩
  · intro e he c hc
    simp only [good, List.mem_cons, List.not_mem_nil, or_false] at he
    rcases he with rfl | rfl <;> cases hc
  · intro e he
    simp only [List.mem_singleton] at he
    subst he
    exact fun h => by cases h

/-- The hidden path parameter is missed. -/
example : ¬ PathSupported "/things/{id}".toList shadowed := by
  rintro ⟨_, h, _⟩
  obtain ⟨p, hc, hn, hl⟩ := h "id".toList (by decide)
  rcases hc with ⟨pre, post, e, _⟩ | ⟨_, hno⟩
  · have : p ∈ shadowed.opLevel := by rw [e]; simp
    simp only [shadowed, List.mem_singleton] at this
    subst this
    cases hl
  · exact hno ⟨"id".toList, .query true none, false, true, 1⟩ (by simp [shadowed]) hn.symm

example : ¬ ∃ r, generate exUnicode noTypes noBuilders .positional .merged (docOf shadowed) = .ok r := by
  rw [← isOk_iff]; decide +kernel

/-- The default counts as a success next to 201, and its body is another one. -/
example : ¬ ResponsesSupported uncovered := by
  intro h
  have hd : Listed uncovered .default (.type 2) := .default _ _ rfl (C24_kind.mp rfl)
  have h201 : Listed uncovered (.code 201) (.type 1) := .code (.code 201, RespExample.jsonT) _ (by simp [uncovered]) (C24_kind.mp rfl)
  have := h.successes _ _ _ _ hd h201 (fun hh => hh.1 (.code 201, RespExample.jsonT) (by simp [uncovered]) 201 rfl (by omega)) (.inr (by omega))
  cases this

example : ¬ ∃ r, generate exUnicode noTypes noBuilders .positional .merged (docOf uncovered) = .ok r := by
  rw [← isOk_iff]; decide +kernel

/-- Positional arguments may be structs in the query, builders may not. -/
example : (∃ r, generate exUnicode noTypes structs .positional .merged (docOf structured) = .ok r) ∧
    ¬ ∃ r, generate exUnicode noTypes structs .builder .merged (docOf structured) = .ok r := by
  rw [← isOk_iff, ← isOk_iff]; decide +kernel

example : ¬ ∃ r, generate exUnicode noTypes noBuilders .positional .separate (docOf good) = .ok r := by
  rw [← isOk_iff]; decide +kernel

end Progenitor.Props

import Verif.Props.Exec
import Verif.Props.Response

/-!
# C61: the `Accept` header
-/

namespace Progenitor.Props

open Progenitor Progenitor.Spec Progenitor.Resp Progenitor.Params

/-- A success of this kind can be returned. -/
def CanSucceed (rs : List Response) (k : Resp.Kind) : Prop := ∃ s, Classified rs s (.ok k)

/-- A documented error of this kind can be returned. -/
def CanFail (rs : List Response) (k : Resp.Kind) : Prop := ∃ s, Classified rs s (.err k)

theorem covers_success {r : Response} (h : r.status.isSuccessOrDefault = true) (hd : r.status ≠ .default) :
    ∃ s, DocumentsSuccess r s := by
  obtain ⟨st, k⟩ := r
  cases st with
  | code c =>
    refine ⟨c, rfl, ?_⟩
    simp [Status.isSuccessOrDefault] at h
    rcases h with h | h
    · exact .inr (by rw [h])
    · exact .inl (by omega)
  | range n =>
    simp [Status.isSuccessOrDefault] at h
    subst h
    exact ⟨200, by simp [Covers], .inl (by omega)⟩
  | default => exact absurd rfl hd

theorem covers_error {r : Response} (h : r.status.isErrorOrDefault = true) (hd : r.status ≠ .default) :
    ∃ s, DocumentsError r s := by
  obtain ⟨st, k⟩ := r
  cases st with
  | code c =>
    simp [Status.isErrorOrDefault] at h
    exact ⟨c, rfl, by omega, by omega⟩
  | range n =>
    simp [Status.isErrorOrDefault] at h
    exact ⟨100 * n, by simp [Covers], by omega, by omega⟩
  | default => exact absurd rfl hd

/-- Every success kind that can be returned is the success kind of the method. -/
theorem success_kind {rs : List Response} {d : Dispatch} (h : genMatch rs = .ok d) (k : Resp.Kind) :
    CanSucceed rs k → k = d.success := by
  obtain ⟨ea, _, hsk, _⟩ := genMatch_ok h
  rintro ⟨s, hc⟩
  cases hc with
  | success r hr hd =>
    rcases mem_popDefault_of (mem_sorted.mpr ⟨hr, documentsSuccess_item hd⟩) with hp | ⟨hdef, _⟩
    · exact hsk r hp
    · rw [DocumentsSuccess, hdef] at hd; exact absurd hd.1 (by simp [Covers])
  | successByDefault dr hr hdef h200 h300 hno =>
    rcases mem_popDefault_of (mem_sorted (f := Status.isSuccessOrDefault).mpr ⟨hr, by rw [hdef]; rfl⟩) with hp | ⟨_, k, hk⟩
    · exact hsk dr hp
    · have := (mem_sorted.mp (mem_popDefault hk)).1
      exact absurd ⟨by simp [Covers]; omega, .inl ⟨h200, h300⟩⟩ (hno _ this)

/-- A nonempty success kind can be returned. -/
theorem success_reachable {rs : List Response} {d : Dispatch} (h : genMatch rs = .ok d)
    (hn : d.success ≠ .none) : CanSucceed rs d.success := by
  obtain ⟨ea, _, hsk, _⟩ := genMatch_ok h
  have hne : popDefault (sorted Status.isSuccessOrDefault rs) ≠ [] := by
    intro he
    simp only [genMatch] at h
    obtain ⟨⟨si, sk⟩, h1, h⟩ := bind_ok_inv h
    obtain ⟨⟨ei, ek⟩, h2, h⟩ := bind_ok_inv h
    obtain ⟨ea, h3, h⟩ := bind_ok_inv h
    cases h
    simp only [extract, sort_pure isFilter_success, Res.bind_ok, he] at h1
    cases h1
    exact hn rfl
  by_cases hx : ∃ r ∈ popDefault (sorted Status.isSuccessOrDefault rs), r.status ≠ .default
  · obtain ⟨r, hr, hd⟩ := hx
    have hm := mem_sorted.mp (mem_popDefault hr)
    obtain ⟨s, hs⟩ := covers_success hm.2 hd
    exact ⟨s, hsk r hr ▸ .success r hm.1 hs⟩
  · have hall : ∀ r ∈ popDefault (sorted Status.isSuccessOrDefault rs), r.status = .default := by
      intro r hr
      exact Decidable.byContradiction fun h => hx ⟨r, hr, h⟩
    obtain ⟨r, hr⟩ := List.exists_mem_of_ne_nil _ hne
    have hm := mem_sorted.mp (mem_popDefault hr)
    refine ⟨200, hsk r hr ▸ .successByDefault r hm.1 (hall r hr) (by omega) (by omega) ?_⟩
    intro r' hr' hd
    have hi := documentsSuccess_item hd
    rcases mem_popDefault_of (mem_sorted.mpr ⟨hr', hi⟩) with hp | ⟨hdef, _⟩
    · rw [DocumentsSuccess, hall r' hp] at hd; exact absurd hd.1 (by simp [Covers])
    · rw [DocumentsSuccess, hdef] at hd; exact absurd hd.1 (by simp [Covers])

theorem error_kind {rs : List Response} {d : Dispatch} (h : genMatch rs = .ok d) (k : Resp.Kind) :
    CanFail rs k → k = d.error := by
  obtain ⟨ea, _, _, hek, _⟩ := genMatch_ok h
  rintro ⟨s, hc⟩
  cases hc with
  | error r hr hd => exact hek r hr (documentsError_item hd).1
  | errorByDefault dr hr hdef _ _ _ => exact hek dr hr (by rw [hdef]; rfl)

theorem error_reachable {rs : List Response} {d : Dispatch} (h : genMatch rs = .ok d) {t}
    (hn : d.error = .type t) : CanFail rs (.type t) := by
  obtain ⟨ea, _, _, hek, _⟩ := genMatch_ok h
  have hne : sorted Status.isErrorOrDefault rs ≠ [] := by
    intro he
    simp only [genMatch] at h
    obtain ⟨⟨si, sk⟩, h1, h⟩ := bind_ok_inv h
    obtain ⟨⟨ei, ek⟩, h2, h⟩ := bind_ok_inv h
    obtain ⟨ea, h3, h⟩ := bind_ok_inv h
    cases h
    simp only [extract, sort_pure isFilter_error, Res.bind_ok, error_items, he] at h2
    cases h2
    cases hn
  obtain ⟨r, hr⟩ := List.exists_mem_of_ne_nil _ hne
  have hm := mem_sorted.mp hr
  have hk := hek r hm.1 hm.2
  rw [hn] at hk
  by_cases hd : r.status = .default
  · refine ⟨600, hk ▸ .errorByDefault r hm.1 hd (by omega) ?_ (by rw [hk]; intro h; cases h)⟩
    intro r' _
    constructor
    · rintro ⟨hc, h | h⟩
      · omega
      · rw [h] at hc; simp [Covers] at hc
    · rintro ⟨_, h⟩; omega
  · obtain ⟨s, hs⟩ := covers_error hm.2 hd
    exact ⟨s, hk ▸ .error r hm.1 hs⟩

/-- The responses ask for JSON: a success is decoded as JSON, or successes have no content and an
error is decoded as JSON. -/
def AsksForJson (rs : List Response) : Prop :=
  (∃ t, CanSucceed rs (.type t)) ∨ ((∀ k, CanSucceed rs k → k = .none) ∧ ∃ t, CanFail rs (.type t))

theorem acceptJson_iff {rs : List Response} {d : Dispatch} (h : genMatch rs = .ok d) :
    acceptJson d = true ↔ AsksForJson rs := by
  have hs := success_kind h
  have hr := success_reachable h
  have he := error_kind h
  have her := @error_reachable rs d h
  unfold acceptJson AsksForJson
  constructor
  · intro ha
    split at ha
    · rename_i _ t hk
      refine .inl ⟨t, ?_⟩
      rw [← hk]; exact hr (by rw [hk]; intro h; cases h)
    · rename_i t hk hk'
      refine .inr ⟨fun k hc => by rw [hs k hc, hk], t, her hk'⟩
    · cases ha
  · rintro (⟨t, hc⟩ | ⟨hn, t, hc⟩)
    · rw [← hs _ hc]
    · rw [← he _ hc]
      cases hk : d.success with
      | none => rfl
      | type t => rfl
      | raw =>
        have := hn _ (hr (by rw [hk]; intro h; cases h))
        rw [hk] at this; cases this
      | upgrade =>
        have := hn _ (hr (by rw [hk]; intro h; cases h))
        rw [hk] at this; cases this

/-- C61: unless the caller passes an `Accept` header argument, the request carries
`Accept: application/json` if the documented responses ask for JSON, and no `Accept` otherwise. -/
theorem C61_accept (cfg : Exec.Config) (op : OperationMethod) (args : List Exec.Value) (r : Exec.Request)
    (hw : Exec.BodyNamed op.params) (h : Issues cfg op args r)
    (hx : explicitValues cfg.apiVersion op.params args Hdr.accept = []) :
    (AsksForJson op.responses → values r.headers Hdr.accept = [utf8 Mime.json]) ∧
    (¬ AsksForJson op.responses → values r.headers Hdr.accept = []) := by
  obtain ⟨d, hd, hv⟩ := C17_exact cfg op args r hw h
  have hws : values ((handshake cfg.wsKey).map fun e => (e.1, utf8 e.2)) Hdr.accept = [] := by
    have h1 : Hdr.connection ≠ Hdr.accept := by decide
    have h2 : Hdr.upgrade ≠ Hdr.accept := by decide
    have h3 : Hdr.wsVersion ≠ Hdr.accept := by decide
    have h4 : Hdr.wsKey ≠ Hdr.accept := by decide
    simp [handshake, values, h1, h2, h3, h4]
  have hne : Hdr.accept ≠ Hdr.contentType := by decide
  have e := hv Hdr.accept
  rw [if_pos hx, hws, ite_self, List.append_nil] at e
  rw [e]
  unfold automaticValues
  constructor
  · intro ha
    simp [(acceptJson_iff hd).mpr ha, hne]
  · intro ha
    have : ¬ acceptJson d = true := mt (acceptJson_iff hd).mp ha
    simp [this, hne]

/-- C61: a header argument called `Accept` replaces it. -/
theorem C61_explicit (cfg : Exec.Config) (op : OperationMethod) (args : List Exec.Value) (r : Exec.Request)
    (hw : Exec.BodyNamed op.params) (h : Issues cfg op args r)
    (hx : explicitValues cfg.apiVersion op.params args Hdr.accept ≠ []) :
    values r.headers Hdr.accept = explicitValues cfg.apiVersion op.params args Hdr.accept := by
  obtain ⟨d, hd, hv⟩ := C17_exact cfg op args r hw h
  have hws : values ((handshake cfg.wsKey).map fun e => (e.1, utf8 e.2)) Hdr.accept = [] := by
    have h1 : Hdr.connection ≠ Hdr.accept := by decide
    have h2 : Hdr.upgrade ≠ Hdr.accept := by decide
    have h3 : Hdr.wsVersion ≠ Hdr.accept := by decide
    have h4 : Hdr.wsKey ≠ Hdr.accept := by decide
    simp [handshake, values, h1, h2, h3, h4]
  have e := hv Hdr.accept
  rw [if_neg hx, hws, ite_self, List.append_nil] at e
  exact e

/-- An operation with JSON errors only. -/
def jsonErrorOp : OperationMethod :=
  { exOp with params := [], path := [.const "/v1".toList],
              responses := [⟨.code 204, .none⟩, ⟨.range 4, .type 3⟩] }

example : ∃ r, Issues exCfg jsonErrorOp [] r ∧ AsksForJson jsonErrorOp.responses ∧
    explicitValues exCfg.apiVersion jsonErrorOp.params [] Hdr.accept = [] ∧
    values r.headers Hdr.accept = [utf8 Mime.json] :=
  ⟨_, ⟨_, _, rfl, rfl, rfl⟩, (acceptJson_iff (rs := jsonErrorOp.responses) rfl).mp rfl, rfl, rfl⟩

example : ¬ AsksForJson [⟨.code 200, .raw⟩, ⟨.range 4, .type 3⟩] :=
  mt (acceptJson_iff (rs := [⟨.code 200, .raw⟩, ⟨.range 4, .type 3⟩]) rfl).mpr (by decide)

end Progenitor.Props

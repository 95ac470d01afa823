import Verif.Lemmas.Response

/-!
# C23-C26, C56: response dispatch
-/

namespace Progenitor.Props

open Progenitor Progenitor.Spec Progenitor.Client Progenitor.Resp

/-- The generator accepts the responses of an operation and emits dispatch `d`. -/
def Accepted (ws : Bool) (df : Option DocResponse) (codes : List (DocStatus × DocResponse))
    (d : Dispatch) : Prop :=
  ∃ rs, processResponses ws df codes = .ok rs ∧ genMatch rs = .ok d

namespace RespExample

def jsonT : DocResponse := [("application/json".toList, ⟨true, some 1⟩)]
def jsonE : DocResponse := [("application/json".toList, ⟨true, some 2⟩)]
def octets : DocResponse := [("application/octet-stream".toList, ⟨true, none⟩)]
def noContent : DocResponse := []

def resp (s : Nat) : HttpResponse := ⟨s, [], .ok [], .ok 0⟩

/-- 200 and 201 with type 1, 4XX and 5XX with type 2. -/
def usual : List (DocStatus × DocResponse) :=
  [(.code 200, jsonT), (.code 201, jsonT), (.range 4, jsonE), (.range 5, jsonE)]

def usualDispatch : Dispatch :=
  ⟨[⟨.lit 200, .ok (.type 1)⟩, ⟨.lit 201, .ok (.type 1)⟩, ⟨.between 400 499, .err (.type 2)⟩,
    ⟨.between 500 599, .err (.type 2)⟩, ⟨.wild, .unexpected⟩], .type 1, .type 2⟩

theorem usual_accepted : Accepted false none usual usualDispatch := ⟨_, rfl, rfl⟩

/-- Only a default response. -/
def onlyDefault : Dispatch :=
  ⟨[⟨.between 200 299, .ok (.type 1)⟩, ⟨.wild, .err (.type 1)⟩], .type 1, .type 1⟩

theorem onlyDefault_accepted : Accepted false (some jsonT) [] onlyDefault := ⟨_, rfl, rfl⟩

/-- A websocket operation with a JSON error response. -/
def channel : List (DocStatus × DocResponse) := [(.code 200, noContent), (.range 4, jsonE)]

def channelDispatch : Dispatch :=
  ⟨[⟨.lit 101, .ok .upgrade⟩, ⟨.lit 200, .ok .upgrade⟩, ⟨.between 400 499, .err (.type 2)⟩,
    ⟨.wild, .unexpected⟩], .upgrade, .type 2⟩

theorem channel_accepted : Accepted true none channel channelDispatch := ⟨_, rfl, rfl⟩

end RespExample

open RespExample

/-! ## C23 -/

/-- C23: the emitted `match` has an arm for every status. -/
theorem C23_total {ws df codes d} (h : Accepted ws df codes d) (s : Nat) :
    ∃ act, dispatch d.arms s = some act := by
  obtain ⟨rs, h1, h2⟩ := h
  obtain ⟨act, hc⟩ := classified_total rs s
  exact ⟨act, dispatch_of_classified h2 (processResponses_last h1) hc⟩

example : ∃ act, dispatch usualDispatch.arms 418 = some act := C23_total usual_accepted 418

/-- C23: for every status the emitted `match` selects exactly what the
specification says about the documented responses. -/
theorem C23_classified {ws df codes rs d} (h1 : processResponses ws df codes = .ok rs)
    (h2 : genMatch rs = .ok d) (s : Nat) (act : Act) :
    dispatch d.arms s = some act ↔ Classified rs s act := by
  constructor
  · intro h
    obtain ⟨act', hc⟩ := classified_total rs s
    have := dispatch_of_classified h2 (processResponses_last h1) hc
    rw [h] at this
    cases this
    exact hc
  · exact dispatch_of_classified h2 (processResponses_last h1)

example : dispatch usualDispatch.arms 404 = some (.err (.type 2)) := rfl

/-- C23: the answer does not depend on the order of the documented responses. -/
theorem C23_order {ws df codes codes' d d'} (h : Accepted ws df codes d)
    (h' : Accepted ws df codes' d') (hp : codes.Perm codes') (s : Nat) :
    dispatch d.arms s = dispatch d'.arms s := by
  obtain ⟨rs, h1, h2⟩ := h
  obtain ⟨rs', h1', h2'⟩ := h'
  have hm : ∀ r, r ∈ rs ↔ r ∈ rs' := by
    intro r
    rw [processResponses_mem h1, processResponses_mem h1']
    simp only [hp.mem_iff]
  obtain ⟨act, hc⟩ := classified_total rs s
  have hc' : Classified rs' s act := by
    cases hc with
    | success r hr hd => exact .success r ((hm r).mp hr) hd
    | successByDefault dr hr hd ha hb hn =>
      exact .successByDefault dr ((hm _).mp hr) hd ha hb fun r hr => hn r ((hm r).mpr hr)
    | error r hr hd => exact .error r ((hm r).mp hr) hd
    | errorByDefault dr hr hd ha hn hk =>
      exact .errorByDefault dr ((hm _).mp hr) hd ha (fun r hr => hn r ((hm r).mpr hr)) hk
    | unexpected hn hd =>
      exact .unexpected (fun r hr => hn r ((hm r).mpr hr)) fun r hr => hd r ((hm r).mpr hr)
  rw [dispatch_of_classified h2 (processResponses_last h1) hc,
    dispatch_of_classified h2' (processResponses_last h1') hc']

example : Accepted false none usual.reverse
    ⟨[⟨.lit 200, .ok (.type 1)⟩, ⟨.lit 201, .ok (.type 1)⟩, ⟨.between 400 499, .err (.type 2)⟩,
    ⟨.between 500 599, .err (.type 2)⟩, ⟨.wild, .unexpected⟩], .type 1, .type 2⟩ ∧
    usual.Perm usual.reverse := ⟨⟨_, rfl, rfl⟩, (List.reverse_perm _).symm⟩

/-! ## C24 -/

theorem perform_ok {P V : Type} {decode : TypeId → Bytes → Except P V} {act : Act} {r : HttpResponse}
    {rv : ResponseValue (Inner V)} (h : perform decode act r = .ok rv) : ∃ k, act = .ok k := by
  cases act with
  | ok k => exact ⟨k, rfl⟩
  | err k =>
    cases k with
    | type t => simp only [perform] at h; split at h <;> cases h
    | _ => cases h
  | unexpected => cases h

theorem perform_ok_faithful {P V : Type} {decode : TypeId → Bytes → Except P V} {act : Act}
    {r : HttpResponse} {rv : ResponseValue (Inner V)} (h : perform decode act r = .ok rv) :
    rv.status = r.status ∧ rv.headers = r.headers := by
  obtain ⟨k, rfl⟩ := perform_ok h
  cases k with
  | type t =>
    simp only [perform, fromResponse] at h
    cases hb : r.body with
    | error e => rw [hb] at h; cases h
    | ok b =>
      rw [hb] at h
      dsimp only at h
      cases hd : decode t b with
      | error e => rw [hd] at h; cases h
      | ok v => rw [hd] at h; cases h; exact ⟨rfl, rfl⟩
  | none => cases h; exact ⟨rfl, rfl⟩
  | raw => cases h; exact ⟨rfl, rfl⟩
  | upgrade =>
    simp only [perform, upgrade] at h
    split at h
    · cases hu : r.upgrade with
      | error e => rw [hu] at h; cases h
      | ok v => rw [hu] at h; cases h; exact ⟨rfl, rfl⟩
    · cases h

theorem handle_ok {P V : Type} {decode : TypeId → Bytes → Except P V} {d : Dispatch}
    {result : Except ReqwestError HttpResponse} {rv : ResponseValue (Inner V)}
    (h : handle decode d result = some (.ok rv)) :
    ∃ r k, result = .ok r ∧ dispatch d.arms r.status = some (.ok k) ∧
      perform decode (.ok k) r = .ok rv := by
  unfold handle at h
  cases result with
  | error e => cases h
  | ok r =>
    dsimp only at h
    cases hd : dispatch d.arms r.status with
    | none => rw [hd] at h; cases h
    | some act =>
      rw [hd] at h
      simp only [Option.map_some, Option.some.injEq] at h
      obtain ⟨k, rfl⟩ := perform_ok h
      exact ⟨r, k, rfl, hd, h⟩

/-- C24: `Ok` means that a response arrived whose status is 2xx and covered by the
document (by code, range or default; or the document has no success response at
all), or is 101 and documented (explicitly or by being a websocket operation).  The
value reports that status and the headers. -/
theorem C24_ok_only_success {P V : Type} {decode : TypeId → Bytes → Except P V} {ws df codes d}
    (hacc : Accepted ws df codes d) {result rv} (h : handle decode d result = some (.ok rv)) :
    ∃ r, result = .ok r ∧ rv.status = r.status ∧ rv.headers = r.headers ∧
      ((200 ≤ r.status ∧ r.status < 300 ∧
          (df.isSome ∨ (∃ e ∈ codes, Covers e.1.toStatus r.status) ∨
            (df = none ∧ ∀ e ∈ codes, ∀ s, 200 ≤ s → s < 300 → ¬ Covers e.1.toStatus s))) ∨
        (r.status = 101 ∧ (ws = true ∨ ∃ e ∈ codes, e.1 = .code 101))) := by
  obtain ⟨rs, h1, h2⟩ := hacc
  obtain ⟨r, k, rfl, hd, hp⟩ := handle_ok h
  obtain ⟨hs, hh⟩ := perform_ok_faithful hp
  refine ⟨r, rfl, hs, hh, ?_⟩
  rw [C23_classified h1 h2] at hd
  cases hd with
  | success r' hr' hdoc =>
    rcases (processResponses_mem h1 r').mp hr' with ⟨x, rfl, hst, _⟩ | ⟨e, he, hst, _⟩ | ⟨rfl, hdf, hno⟩ | ⟨rfl, rfl⟩
    · rw [DocumentsSuccess, hst] at hdoc; exact absurd hdoc.1 (by simp [Covers])
    · rcases hdoc with ⟨hc, h2xx | h101⟩
      · exact .inl ⟨h2xx.1, h2xx.2, .inr (.inl ⟨e, he, hst ▸ hc⟩)⟩
      · right
        rw [h101] at hc hst
        refine ⟨hc, .inr ⟨e, he, ?_⟩⟩
        cases hes : e.1 with
        | code c => rw [hes] at hst; simpa [DocStatus.toStatus] using hst.symm
        | range n => rw [hes] at hst; simp [DocStatus.toStatus] at hst
    · rcases hdoc with ⟨hc, h2xx | h101⟩
      · refine .inl ⟨h2xx.1, h2xx.2, .inr (.inr ⟨hdf, ?_⟩)⟩
        intro e he s hs1 hs2 hcov
        have := hno e he
        cases hes : e.1 with
        | code c =>
          rw [hes] at this hcov
          simp [DocStatus.toStatus, coversSuccess, Covers] at this hcov
          omega
        | range n =>
          rw [hes] at this hcov
          simp [DocStatus.toStatus, coversSuccess, Covers] at this hcov
          omega
      · cases h101
    · exact .inr ⟨hdoc.1, .inl rfl⟩
  | successByDefault dr hr' hdef ha hb _ =>
    rcases (processResponses_mem h1 dr).mp hr' with ⟨x, rfl, hst, _⟩ | ⟨e, he, hst, _⟩ | ⟨rfl, hdf, hno⟩ | ⟨_, rfl⟩
    · exact .inl ⟨ha, hb, .inl rfl⟩
    · exact absurd (hst.symm.trans hdef) (toStatus_ne_default _)
    · cases hdef
    · cases hdef

example : handle (P := Unit) (fun t _ => .ok t) usualDispatch (.ok (resp 200)) =
    some (.ok ⟨.value 1, 200, []⟩) := rfl

theorem isJson_iff (m : Str) : (m = "application/json".toList ∨ "application/json;".toList.isPrefixOf m = true) ↔ IsJson m := by
  unfold IsJson
  rw [List.isPrefixOf_iff_prefix]
  constructor
  · rintro (h | ⟨t, ht⟩)
    · exact .inl h
    · exact .inr ⟨t, ht.symm⟩
  · rintro (h | ⟨t, ht⟩)
    · exact .inl h
    · exact .inr ⟨t, ht.symm⟩

theorem jsonMedia_none {r : DocResponse} : jsonMedia r = none ↔ ∀ e ∈ r, ¬ IsJson e.1 := by
  unfold jsonMedia
  rw [Option.map_eq_none_iff, List.find?_eq_none]
  constructor
  · intro h e he hj
    exact h e he (decide_eq_true ((isJson_iff e.1).mpr hj))
  · intro h e he hd
    exact h e he ((isJson_iff e.1).mp (of_decide_eq_true hd))

theorem jsonMedia_some {r : DocResponse} {mt : Media} :
    jsonMedia r = some mt ↔ ∃ pre m post, r = pre ++ (m, mt) :: post ∧ IsJson m ∧ ∀ e ∈ pre, ¬ IsJson e.1 := by
  unfold jsonMedia
  rw [Option.map_eq_some_iff]
  constructor
  · rintro ⟨⟨m, mt'⟩, h, rfl⟩
    obtain ⟨hd, pre, post, rfl, hp⟩ := List.find?_eq_some_iff_append.mp h
    refine ⟨pre, m, post, rfl, (isJson_iff m).mp (of_decide_eq_true hd), fun e he hj => ?_⟩
    have := hp e he
    rw [decide_eq_true ((isJson_iff e.1).mpr hj)] at this
    cases this
  · rintro ⟨pre, m, post, rfl, hj, hp⟩
    refine ⟨(m, mt), List.find?_eq_some_iff_append.mpr ⟨decide_eq_true ((isJson_iff m).mpr hj), pre, post, rfl, fun e he => ?_⟩, rfl⟩
    rw [decide_eq_false fun h => hp e he ((isJson_iff e.1).mp h)]
    rfl

/-- C24: which type (or none) the body of a documented response has. -/
theorem C24_kind {ws : Bool} {r : DocResponse} {k : Kind} : kindOf ws r = .ok k ↔ Carries ws r k := by
  unfold kindOf
  constructor
  · intro h
    split at h
    · rename_i mt hm
      obtain ⟨pre, m, post, rfl, hj, hp⟩ := jsonMedia_some.mp hm
      split at h
      · rename_i he
        split at h
        · rename_i t ht
          cases h
          exact .json pre m mt post t hp hj he ht
        · cases h
      · cases h
    · rename_i hm
      have hn := jsonMedia_none.mp hm
      cases ws with
      | true => cases h; exact .upgrade r rfl hn
      | false =>
        simp only [Bool.false_eq_true, if_false] at h
        cases r with
        | nil => cases h; exact .none rfl
        | cons e r => cases h; exact .raw _ rfl (by simp) hn
  · intro h
    cases h with
    | json pre m mt post t hp hj he ht =>
      rw [jsonMedia_some.mpr ⟨pre, m, post, rfl, hj, hp⟩]
      simp only [he, ht, if_true]
    | upgrade _ hw hn =>
      rw [jsonMedia_none.mpr hn]
      simp only [hw, if_true]
    | none hw => subst hw; rfl
    | raw _ hw hne hn =>
      rw [jsonMedia_none.mpr hn]
      subst hw
      cases r with
      | nil => exact absurd rfl hne
      | cons e r => rfl

example : Carries false [("text/plain".toList, ⟨true, none⟩), ("application/json;charset=utf-8".toList, ⟨true, some 3⟩)] (.type 3) :=
  .json [_] _ _ [] 3 (by
    intro e he
    simp only [List.mem_singleton] at he
    subst he
    rw [← isJson_iff]
    decide) (.inr ⟨"charset=utf-8".toList, rfl⟩) rfl rfl

/-- Media types that only begin like JSON are no JSON. -/
example : Carries false [("application/json-seq".toList, ⟨true, some 3⟩)] .raw := C24_kind.mp (by decide +kernel)

/-- The outcome that reports a response of kind `k` as a success: the value with the status and headers of
the response, unless its (typed) body cannot be read or decoded, or its connection not upgraded. -/
inductive ReportsOk {P V : Type} (decode : TypeId → Bytes → Except P V) (r : HttpResponse) :
    Resp.Kind → Outcome P V → Prop
  | typed {t b v} : r.body = .ok b → decode t b = .ok v →
      ReportsOk decode r (.type t) (.ok ⟨.value v, r.status, r.headers⟩)
  | undecodable {t b p} : r.body = .ok b → decode t b = .error p →
      ReportsOk decode r (.type t) (.error (.invalidResponsePayload b p))
  | unreadable {t e} : r.body = .error e → ReportsOk decode r (.type t) (.error (.responseBodyError e))
  | none : ReportsOk decode r .none (.ok ⟨.unit, r.status, r.headers⟩)
  | raw : ReportsOk decode r .raw (.ok ⟨.stream r.body, r.status, r.headers⟩)
  | upgraded {c} : r.status = 101 → r.upgrade = .ok c → ReportsOk decode r .upgrade (.ok ⟨.upgraded c, r.status, r.headers⟩)
  | notUpgraded {e} : r.status = 101 → r.upgrade = .error e → ReportsOk decode r .upgrade (.error (.invalidUpgrade e))
  | noUpgrade : r.status ≠ 101 → ReportsOk decode r .upgrade (.error (.unexpectedResponse r))

theorem perform_success {P V : Type} (decode : TypeId → Bytes → Except P V) (k : Resp.Kind) (r : HttpResponse) :
    ReportsOk decode r k (perform decode (.ok k) r) := by
  cases k with
  | type t =>
    simp only [perform, fromResponse]
    cases hb : r.body with
    | error e => exact .unreadable hb
    | ok b =>
      dsimp only
      cases hd : decode t b with
      | error p => exact .undecodable hb hd
      | ok v => exact .typed hb hd
  | none => exact .none
  | raw => exact .raw
  | upgrade =>
    simp only [perform, Client.upgrade]
    by_cases h : r.status = 101
    · rw [if_pos h]
      cases hu : r.upgrade with
      | error e => exact .notUpgraded h hu
      | ok c => exact .upgraded h hu
    · rw [if_neg h]
      exact .noUpgrade h

theorem codes_kinds {ws df codes rs} (h1 : processResponses ws df codes = .ok rs) : ∀ e ∈ codes, ∃ k, kindOf ws e.2 = .ok k := by
  intro e he
  simp only [processResponses] at h1
  obtain ⟨rs', h1', _⟩ := Params.bind_ok_inv h1
  have hf := convertAll_kinds h1'
  have gen : ∀ {l : List (Status × DocResponse)} {rs : List Response},
      Spec.Forall₂ (fun e r => r.status = e.1 ∧ kindOf ws e.2 = .ok r.kind) l rs →
      ∀ e ∈ l, ∃ k, kindOf ws e.2 = .ok k := by
    intro l rs hlr
    induction hlr with
    | nil => simp
    | cons hp _ ih =>
      intro e he
      rcases List.mem_cons.mp he with rfl | he
      · exact ⟨_, hp.2⟩
      · exact ih e he
  exact gen hf (e.1.toStatus, e.2)
    (List.mem_append.mpr (.inr (List.mem_map.mpr ⟨e, he, rfl⟩)))

theorem default_kind {ws df codes rs} (h1 : processResponses ws df codes = .ok rs) : ∀ x, df = some x → ∃ k, kindOf ws x = .ok k := by
  intro x hx
  subst hx
  simp only [processResponses] at h1
  obtain ⟨rs', h1', _⟩ := Params.bind_ok_inv h1
  simp only [Option.toList_some, List.map_cons, List.map_nil, List.cons_append, convertAll] at h1'
  obtain ⟨k, hk, _⟩ := Params.bind_ok_inv h1'
  exact ⟨k, hk⟩

/-- C24: conversely, a 2xx status documented by code or range, or not documented but with a default
response, is reported as a success of the documented kind. -/
theorem C24_documented_success {P V : Type} (decode : TypeId → Bytes → Except P V) {ws df codes d}
    (hacc : Accepted ws df codes d) (r : HttpResponse) (hs : 200 ≤ r.status ∧ r.status < 300) :
    (∀ e ∈ codes, Covers e.1.toStatus r.status →
      ∃ k out, kindOf ws e.2 = .ok k ∧ handle decode d (.ok r) = some out ∧ ReportsOk decode r k out) ∧
    (∀ x k, df = some x → kindOf ws x = .ok k → (∀ e ∈ codes, ¬ Covers e.1.toStatus r.status) →
      ∃ out, handle decode d (.ok r) = some out ∧ ReportsOk decode r k out) := by
  obtain ⟨rs, h1, h2⟩ := hacc
  constructor
  · intro e he hc
    obtain ⟨k, hk⟩ := codes_kinds h1 e he
    have hmem : (⟨e.1.toStatus, k⟩ : Response) ∈ rs :=
      (processResponses_mem h1 _).mpr (.inr (.inl ⟨e, he, rfl, hk⟩))
    have hd : dispatch d.arms r.status = some (.ok k) :=
      (C23_classified h1 h2 _ _).mpr (.success _ hmem ⟨hc, .inl hs⟩)
    exact ⟨k, _, hk, by simp only [handle, hd]; rfl, perform_success decode k r⟩
  · intro x k hx hk hno
    subst hx
    have hmem : (⟨.default, k⟩ : Response) ∈ rs :=
      (processResponses_mem h1 _).mpr (.inl ⟨x, rfl, rfl, hk⟩)
    have hd : dispatch d.arms r.status = some (.ok k) := by
      refine (C23_classified h1 h2 _ _).mpr (.successByDefault _ hmem rfl hs.1 hs.2 ?_)
      intro r' hr' hdoc
      rcases (processResponses_mem h1 r').mp hr' with ⟨_, _, hst, _⟩ | ⟨e, he, hst, _⟩ | ⟨rfl, hn, _⟩ | ⟨_, rfl⟩
      · have := hdoc.1; rw [hst] at this; exact this
      · have := hdoc.1; rw [hst] at this; exact hno e he this
      · cases hn
      · have := hdoc.1; simp [Covers] at this; omega
    exact ⟨_, by simp only [handle, hd]; rfl, perform_success decode k r⟩

example : ∃ k out, kindOf false jsonT = .ok k ∧
    handle (P := Unit) (fun t _ => .ok t) usualDispatch (.ok (resp 201)) = some out ∧ ReportsOk (fun t _ => .ok t) (resp 201) k out :=
  (C24_documented_success _ usual_accepted (resp 201) (by decide)).1 (.code 201, jsonT) (by simp [usual]) rfl

/-! ## C25 -/

/-- The outcome that reports a response of kind `k` as an error: an
`ErrorResponse` with the status and headers of the response, unless its (typed)
body cannot be read or decoded. -/
inductive ReportsError {P V : Type} (decode : TypeId → Bytes → Except P V) (r : HttpResponse) :
    Resp.Kind → Outcome P V → Prop
  | typed {t b v} : r.body = .ok b → decode t b = .ok v →
      ReportsError decode r (.type t) (.error (.errorResponse ⟨.value v, r.status, r.headers⟩))
  | undecodable {t b p} : r.body = .ok b → decode t b = .error p →
      ReportsError decode r (.type t) (.error (.invalidResponsePayload b p))
  | unreadable {t e} : r.body = .error e →
      ReportsError decode r (.type t) (.error (.responseBodyError e))
  | none : ReportsError decode r .none (.error (.errorResponse ⟨.unit, r.status, r.headers⟩))
  | raw : ReportsError decode r .raw (.error (.errorResponse ⟨.stream r.body, r.status, r.headers⟩))

theorem perform_err {P V : Type} (decode : TypeId → Bytes → Except P V) {k : Resp.Kind} (r : HttpResponse)
    (hk : k ≠ .upgrade) : ReportsError decode r k (perform decode (.err k) r) := by
  cases k with
  | type t =>
    simp only [perform, fromResponse]
    cases hb : r.body with
    | error e => exact .unreadable hb
    | ok b =>
      dsimp only
      cases hd : decode t b with
      | error p => exact .undecodable hb hd
      | ok v => exact .typed hb hd
  | none => exact .none
  | raw => exact .raw
  | upgrade => exact absurd rfl hk

/-- C25: a 4xx/5xx status documented by code or range, or not documented but with
a default response of kind other than upgrade, is reported as an error of the
documented kind. -/
theorem C25_documented_errors {P V : Type} (decode : TypeId → Bytes → Except P V) {ws df codes d}
    (hacc : Accepted ws df codes d) (r : HttpResponse) (hs : 400 ≤ r.status ∧ r.status < 600) :
    (∀ e ∈ codes, Covers e.1.toStatus r.status →
      ∃ k out, kindOf ws e.2 = .ok k ∧ handle decode d (.ok r) = some out ∧ ReportsError decode r k out) ∧
    (∀ x k, df = some x → kindOf ws x = .ok k → k ≠ .upgrade →
      (∀ e ∈ codes, ¬ Covers e.1.toStatus r.status) →
      ∃ out, handle decode d (.ok r) = some out ∧ ReportsError decode r k out) := by
  obtain ⟨rs, h1, h2⟩ := hacc
  have kinds := codes_kinds h1
  constructor
  · intro e he hc
    obtain ⟨k, hk⟩ := kinds e he
    have hmem : (⟨e.1.toStatus, k⟩ : Response) ∈ rs :=
      (processResponses_mem h1 _).mpr (.inr (.inl ⟨e, he, rfl, hk⟩))
    have hdoc : DocumentsError ⟨e.1.toStatus, k⟩ r.status := ⟨hc, hs.1, hs.2⟩
    have hd : dispatch d.arms r.status = some (.err k) :=
      (C23_classified h1 h2 _ _).mpr (.error _ hmem hdoc)
    have hnu : k ≠ .upgrade := by
      intro hu
      obtain ⟨_, _, _, _, hup, _⟩ := genMatch_ok h2
      have hi := documentsError_item hdoc
      exact hi.2 (hup _ hmem hi.1 hu)
    exact ⟨k, _, hk, by simp only [handle, hd]; rfl, perform_err decode r hnu⟩
  · intro x k hx hk hnu hno
    subst hx
    have hmem : (⟨.default, k⟩ : Response) ∈ rs :=
      (processResponses_mem h1 _).mpr (.inl ⟨x, rfl, rfl, hk⟩)
    have hd : dispatch d.arms r.status = some (.err k) := by
      refine (C23_classified h1 h2 _ _).mpr (.errorByDefault _ hmem rfl (by omega) ?_ hnu)
      intro r' hr'
      have hcov : ¬ Covers r'.status r.status := by
        rcases (processResponses_mem h1 r').mp hr' with ⟨_, _, hst, _⟩ | ⟨e, he, hst, _⟩ | ⟨rfl, _, _⟩ | ⟨_, rfl⟩
        · rw [hst]; simp [Covers]
        · rw [hst]; exact hno e he
        · simp [Covers]; omega
        · simp [Covers]; omega
      exact ⟨fun h => hcov h.1, fun h => hcov h.1⟩
    exact ⟨_, by simp only [handle, hd]; rfl, perform_err decode r hnu⟩

example : handle (P := Unit) (fun t _ => .ok t) usualDispatch (.ok (resp 404)) =
    some (.error (.errorResponse ⟨.value 2, 404, []⟩)) := rfl
example : Covers (DocStatus.range 4).toStatus 404 := by simp [DocStatus.toStatus, Covers]

/-- C25: a status that nothing covers is returned as `UnexpectedResponse` with
the response itself. -/
theorem C25_unexpected {P V : Type} (decode : TypeId → Bytes → Except P V) {ws codes d}
    (hacc : Accepted ws none codes d) (r : HttpResponse)
    (hno : ∀ e ∈ codes, ¬ Covers e.1.toStatus r.status)
    (h2xx : 200 ≤ r.status → r.status < 300 → ∃ e ∈ codes, ∃ s, 200 ≤ s ∧ s < 300 ∧ Covers e.1.toStatus s)
    (h101 : ws = true → r.status ≠ 101) :
    handle decode d (.ok r) = some (.error (.unexpectedResponse r)) := by
  obtain ⟨rs, h1, h2⟩ := hacc
  have hcov : ∀ r' ∈ rs, ¬ DocumentsSuccess r' r.status ∧ ¬ DocumentsError r' r.status := by
    intro r' hr'
    rcases (processResponses_mem h1 r').mp hr' with ⟨_, hx, _⟩ | ⟨e, he, hst, _⟩ | ⟨rfl, _, hn⟩ | ⟨hw, rfl⟩
    · cases hx
    · have := hno e he
      rw [← hst] at this
      exact ⟨fun h => this h.1, fun h => this h.1⟩
    · constructor
      · rintro ⟨hc, h2 | h3⟩
        · obtain ⟨e, he, s, hs1, hs2, hs3⟩ := h2xx h2.1 h2.2
          have := hn e he
          cases hes : e.1 with
          | code c =>
            rw [hes] at this hs3
            simp [DocStatus.toStatus, coversSuccess, Covers] at this hs3
            omega
          | range n =>
            rw [hes] at this hs3
            simp [DocStatus.toStatus, coversSuccess, Covers] at this hs3
            omega
        · cases h3
      · rintro ⟨hc, h3, _⟩
        simp [Covers] at hc
        omega
    · have h101 := h101 hw
      exact ⟨fun h => h101 h.1, fun h => h101 h.1⟩
  have hdef : ∀ d ∈ rs, d.status = .default → ¬ (200 ≤ r.status ∧ r.status < 300) ∧ d.kind = .upgrade := by
    intro r' hr' hst'
    rcases (processResponses_mem h1 r').mp hr' with ⟨_, hx, _⟩ | ⟨e, he, hst, _⟩ | ⟨rfl, _, _⟩ | ⟨_, rfl⟩
    · cases hx
    · exact absurd (hst.symm.trans hst') (toStatus_ne_default _)
    · cases hst'
    · cases hst'
  have hd := (C23_classified h1 h2 _ _).mpr (.unexpected hcov hdef)
  simp only [handle, hd]
  rfl

example : handle (P := Unit) (fun t _ => .ok t) usualDispatch (.ok (resp 204)) =
    some (.error (.unexpectedResponse (resp 204))) :=
  C25_unexpected _ usual_accepted _ (by intro e he; simp [usual] at he; rcases he with rfl | rfl | rfl | rfl <;> simp [DocStatus.toStatus, Covers, resp])
    (fun _ _ => ⟨(.code 200, jsonT), by simp [usual], 200, by simp [DocStatus.toStatus, Covers]⟩) (by simp)

/-- C25: neither kind of response is ever reported as `Ok`. -/
theorem C25_never_ok {P V : Type} {decode : TypeId → Bytes → Except P V} {ws df codes d}
    (hacc : Accepted ws df codes d) (r : HttpResponse)
    (h : ¬ (200 ≤ r.status ∧ r.status < 300) ∧ r.status ≠ 101) :
    ∃ e, handle decode d (.ok r) = some (.error e) := by
  obtain ⟨act, ha⟩ := C23_total hacc r.status
  cases ho : perform decode act r with
  | error e => exact ⟨e, by simp only [handle, ha, Option.map_some, ho]⟩
  | ok rv =>
    have : handle decode d (.ok r) = some (.ok rv) := by simp only [handle, ha, Option.map_some, ho]
    obtain ⟨r', hr', _, _, hc⟩ := C24_ok_only_success hacc this
    cases hr'
    omega

example : handle (P := Unit) (fun t _ => .ok t) onlyDefault (.ok (resp 302)) =
    some (.error (.errorResponse ⟨.value 1, 302, []⟩)) := rfl

/-! ## C26 -/

/-- C26: a websocket method returns `Ok` only for status 101, and then it returns
the upgraded connection. -/
theorem C26_ok_only_upgrade {P V : Type} {decode : TypeId → Bytes → Except P V} {df codes d}
    (hacc : Accepted true df codes d) {result rv} (h : handle decode d result = some (.ok rv)) :
    ∃ r c, result = .ok r ∧ r.status = 101 ∧ r.upgrade = .ok c ∧ rv = ⟨.upgraded c, 101, r.headers⟩ := by
  obtain ⟨rs, h1, h2⟩ := hacc
  obtain ⟨r, k, rfl, hd, hp⟩ := handle_ok h
  obtain ⟨ea, harms, hsk, _, _, hea⟩ := genMatch_ok h2
  have h101 := processResponses_websocket h1
  have hk101 : d.success = .upgrade := by
    have hm : (⟨.code 101, .upgrade⟩ : Response) ∈ sorted Status.isSuccessOrDefault rs :=
      mem_sorted.mpr ⟨h101, rfl⟩
    rcases mem_popDefault_of hm with hp | ⟨hx, _⟩
    · exact (hsk _ hp).symm
    · cases hx
  have hk : k = .upgrade := by
    unfold dispatch at hd
    cases hf : d.arms.find? (fun a => a.pat.matches r.status) with
    | none => rw [hf] at hd; cases hd
    | some x =>
      rw [hf] at hd
      simp at hd
      have hx := List.mem_of_find?_eq_some hf
      rw [harms] at hx
      rcases List.mem_append.mp hx with hx | hx
      · rcases List.mem_append.mp hx with hx | hx
        · obtain ⟨r', hr', rfl⟩ := List.mem_map.mp hx
          rw [successArm_act, hsk _ hr', hk101] at hd
          cases hd; rfl
        · obtain ⟨_, _, _, _, rfl⟩ := (hea x).mp hx
          cases hd
      · unfold catchAll at hx
        split at hx
        · cases hx
        · simp at hx; subst hx; cases hd
  subst hk
  simp only [perform, upgrade] at hp
  split at hp
  · rename_i h101
    cases hu : r.upgrade with
    | error e => rw [hu] at hp; cases hp
    | ok c =>
      rw [hu] at hp
      simp only [Except.map, Except.ok.injEq] at hp
      exact ⟨r, c, rfl, h101, hu, by rw [← hp, ← h101]; rfl⟩
  · cases hp

example : handle (P := Unit) (V := Nat) (fun t _ => .ok t) channelDispatch (.ok (resp 101)) =
    some (.ok ⟨.upgraded 0, 101, []⟩) := rfl
example : handle (P := Unit) (V := Nat) (fun t _ => .ok t) channelDispatch (.ok (resp 200)) =
    some (.error (.unexpectedResponse (resp 200))) := rfl

/-- C26: every response with another status is an error. -/
theorem C26_other_statuses {P V : Type} {decode : TypeId → Bytes → Except P V} {df codes d}
    (hacc : Accepted true df codes d) (r : HttpResponse) (h : r.status ≠ 101) :
    ∃ e, handle decode d (.ok r) = some (.error e) := by
  obtain ⟨act, ha⟩ := C23_total hacc r.status
  cases ho : perform decode act r with
  | error e => exact ⟨e, by simp only [handle, ha, Option.map_some, ho]⟩
  | ok rv =>
    have : handle decode d (.ok r) = some (.ok rv) := by simp only [handle, ha, Option.map_some, ho]
    obtain ⟨r', c, hr', h101, _⟩ := C26_ok_only_upgrade hacc this
    cases hr'
    exact absurd h101 h

example : ∃ e, handle (P := Unit) (V := Nat) (fun t _ => .ok t) channelDispatch (.ok (resp 404)) =
    some (.error e) := C26_other_statuses channel_accepted _ (by decide)

/-- C26: the generator does not accept all websocket operations with JSON errors.
It panics if only the errors (or only 101 and errors) are documented, since it adds a raw 2XX
response, and if the default response is a JSON error. -/
theorem C26_generation_fails :
    (∀ d, ¬ Accepted true none [(.range 4, jsonE), (.range 5, jsonE)] d) ∧
    (∀ d, ¬ Accepted true none [(.code 101, noContent), (.range 4, jsonE)] d) ∧
    (∀ d, ¬ Accepted true (some jsonE) [(.code 101, noContent)] d) ∧
    (∀ d, ¬ Accepted true (some noContent) [(.range 4, jsonE)] d) := by
  refine ⟨?_, ?_, ?_, ?_⟩ <;>
  · rintro d ⟨rs, h1, h2⟩
    cases h1
    cases h2

/-- C26, the part that holds: a websocket operation is accepted if there is no
default response, some 2xx response is documented, no 2xx or 101 response has
JSON content, and all 4xx/5xx responses are JSON of one type.  Missing: the cases of
`C26_generation_fails`. -/
theorem C26_generation_partial {codes : List (DocStatus × DocResponse)} {t : TypeId}
    (hex : ∃ e ∈ codes, e.1 = .range 2 ∨ ∃ c, e.1 = .code c ∧ 200 ≤ c ∧ c < 300)
    (hs : ∀ e ∈ codes, e.1.toStatus.isSuccessOrDefault = true → jsonMedia e.2 = none)
    (he : ∀ e ∈ codes, e.1.toStatus.isErrorOrDefault = true → jsonMedia e.2 = some ⟨true, some t⟩)
    (ho : ∀ e ∈ codes, ∀ m, jsonMedia e.2 = some m → m.encodingEmpty = true ∧ m.schema.isSome) :
    ∃ d, Accepted true none codes d := by
  have hk : ∀ e ∈ codes, ∃ k, kindOf true e.2 = .ok k := by
    intro e hem
    unfold kindOf
    cases hj : jsonMedia e.2 with
    | none => exact ⟨_, rfl⟩
    | some m =>
      obtain ⟨h1, h2⟩ := ho e hem m hj
      obtain ⟨t', ht⟩ := Option.isSome_iff_exists.mp h2
      simp only [h1, ht, if_true]
      exact ⟨_, rfl⟩
  obtain ⟨rs, hrs⟩ := processResponses_of (ws := true) (df := none) (by simp) hk
  have hup : ∀ r ∈ rs, r.status.isSuccessOrDefault = true → r.kind = .upgrade := by
    intro r hr hrs'
    rcases (processResponses_mem hrs r).mp hr with ⟨_, hx, _⟩ | ⟨e, he', hst, hke⟩ | ⟨rfl, _, hn⟩ | ⟨_, rfl⟩
    · cases hx
    · have := hs e he' (hst ▸ hrs')
      simp [kindOf, this] at hke
      exact hke.symm
    · obtain ⟨e, he', hc⟩ := hex
      have := hn e he'
      rcases hc with hc | ⟨c, hc, hlo, hhi⟩
      · rw [hc] at this; cases this
      · rw [hc] at this; simp [DocStatus.toStatus, coversSuccess] at this; omega
    · rfl
  have herr : ∀ r ∈ rs, r.status.isErrorOrDefault = true → r.kind = .type t := by
    intro r hr hrs'
    rcases (processResponses_mem hrs r).mp hr with ⟨_, hx, _⟩ | ⟨e, he', hst, hke⟩ | ⟨rfl, _, hn⟩ | ⟨_, rfl⟩
    · cases hx
    · have := he e he' (hst ▸ hrs')
      simp [kindOf, this] at hke
      exact hke.symm
    · cases hrs'
    · cases hrs'
  obtain ⟨d, hd⟩ := genMatch_of (rs := rs)
    (fun r hr r' hr' => by
      have h1 := mem_sorted.mp (mem_popDefault hr)
      have h2 := mem_sorted.mp (mem_popDefault hr')
      rw [hup r h1.1 h1.2, hup r' h2.1 h2.2])
    (fun r hr r' hr' h1 h2 => by rw [herr r hr h1, herr r' hr' h2])
    (fun r hr h1 h2 => by rw [herr r hr h1] at h2; cases h2)
  exact ⟨d, rs, hrs, hd⟩

example : ∃ d, Accepted true none channel d :=
  C26_generation_partial (t := 2) ⟨(.code 200, noContent), by simp [channel]⟩
    (by intro e he; simp [channel] at he; rcases he with rfl | rfl <;> simp [noContent, jsonMedia, DocStatus.toStatus, Status.isSuccessOrDefault])
    (by intro e he; simp [channel] at he; rcases he with rfl | rfl
        · simp [DocStatus.toStatus, Status.isErrorOrDefault]
        · intro _; rfl)
    (by intro e he; simp [channel] at he; rcases he with rfl | rfl
        · intro m hm; cases hm
        · intro m hm; cases hm; exact ⟨rfl, rfl⟩)

/-! ## C56 -/

/-- All success responses have kind `S`, all error responses and the default kind `E`. -/
def Uniform (df : Option DocResponse) (codes : List (DocStatus × DocResponse)) (S E : Resp.Kind) : Prop :=
  (∀ x, df = some x → kindOf false x = .ok E) ∧
  (∀ e ∈ codes, ∃ k, kindOf false e.2 = .ok k) ∧
  (∀ e ∈ codes, ∀ s, (200 ≤ s ∧ s < 300 ∨ e.1 = .code 101) → Covers e.1.toStatus s →
    kindOf false e.2 = .ok S) ∧
  (∀ e ∈ codes, ∀ s, 400 ≤ s → s < 600 → Covers e.1.toStatus s → kindOf false e.2 = .ok E)

/-- C56 is false: a typed success and a default error of another type make the
generator panic; so does 2XX together with 201 and such a default.  With 200 and 2XX
acceptance even depends on the order of the two in the document. -/
theorem C56_no_panic_fails :
    (Uniform (some jsonE) [(.code 200, jsonT)] (.type 1) (.type 2) ∧
      ∀ d, ¬ Accepted false (some jsonE) [(.code 200, jsonT)] d) ∧
    (∀ d, ¬ Accepted false (some jsonE) [(.range 2, jsonT), (.code 201, jsonT)] d) ∧
    ((∃ d, Accepted false (some jsonE) [(.code 200, jsonT), (.range 2, jsonT)] d) ∧
      ∀ d, ¬ Accepted false (some jsonE) [(.range 2, jsonT), (.code 200, jsonT)] d) := by
  refine ⟨⟨⟨?_, ?_, ?_, ?_⟩, ?_⟩, ?_, ⟨_, _, rfl, rfl⟩, ?_⟩
  · intro x hx; cases hx; rfl
  · intro e he; simp at he; subst he; exact ⟨_, rfl⟩
  · intro e he; simp at he; subst he; intro s _ _; rfl
  · intro e he; simp at he; subst he
    intro s h1 h2 h3
    simp [DocStatus.toStatus, Covers] at h3
    omega
  all_goals
  · rintro d ⟨rs, h1, h2⟩
    cases h1
    cases h2

/-- C56, the part that holds: a uniform document is accepted if it has no default
response (and does not document 101 as its only success), or the success and error kinds
coincide, or it documents 2XX and no single 2xx code.  Missing: the other documents with a default
response, see `C56_no_panic_fails`. -/
theorem C56_no_panic_partial {df : Option DocResponse} {codes : List (DocStatus × DocResponse)}
    {S E : Resp.Kind} (hu : Uniform df codes S E)
    (hg : (df = none ∧ ((∀ e ∈ codes, e.1 ≠ .code 101) ∨
            ∃ e ∈ codes, ∃ s, 200 ≤ s ∧ s < 300 ∧ Covers e.1.toStatus s)) ∨
      (S = E ∧ df ≠ none) ∨
      ((∃ e ∈ codes, e.1 = .range 2) ∧
        ∀ e ∈ codes, ∀ c, e.1 = .code c → ¬ (200 ≤ c ∧ c < 300))) :
    ∃ d, Accepted false df codes d := by
  obtain ⟨hu1, hu2, hu3, hu4⟩ := hu
  obtain ⟨rs, hrs⟩ := processResponses_of (ws := false) (fun x hx => ⟨E, hu1 x hx⟩) hu2
  have hS : ∀ e ∈ codes, e.1.toStatus.isSuccessOrDefault = true → kindOf false e.2 = .ok S := by
    intro e he hs
    cases hes : e.1 with
    | code c =>
      rw [hes] at hs
      simp [DocStatus.toStatus, Status.isSuccessOrDefault] at hs
      refine hu3 e he c ?_ (by simp [hes, DocStatus.toStatus, Covers])
      rcases hs with rfl | hs
      · exact .inr hes
      · exact .inl (by omega)
    | range n =>
      rw [hes] at hs
      simp [DocStatus.toStatus, Status.isSuccessOrDefault] at hs
      subst hs
      exact hu3 e he 200 (.inl (by omega)) (by simp [hes, DocStatus.toStatus, Covers])
  have hE : ∀ e ∈ codes, e.1.toStatus.isErrorOrDefault = true → kindOf false e.2 = .ok E := by
    intro e he hs
    cases hes : e.1 with
    | code c =>
      rw [hes] at hs
      simp [DocStatus.toStatus, Status.isErrorOrDefault] at hs
      exact hu4 e he c (by omega) (by omega) (by simp [hes, DocStatus.toStatus, Covers])
    | range n =>
      rw [hes] at hs
      simp [DocStatus.toStatus, Status.isErrorOrDefault] at hs
      exact hu4 e he (n * 100) (by omega) (by omega) (by simp [hes, DocStatus.toStatus, Covers]; omega)
  have herr : ∀ r ∈ rs, r.status.isErrorOrDefault = true → r.kind = E := by
    intro r hr hre
    rcases (processResponses_mem hrs r).mp hr with ⟨x, hx, _, hk⟩ | ⟨e, he, hst, hk⟩ | ⟨rfl, _, _⟩ | ⟨h, _⟩
    · have := (hu1 x hx).symm.trans hk; simpa using this.symm
    · have := (hE e he (hst ▸ hre)).symm.trans hk; simpa using this.symm
    · cases hre
    · cases h
  have hnup : ∀ r ∈ rs, r.kind ≠ .upgrade := by
    intro r hr hru
    rcases (processResponses_mem hrs r).mp hr with ⟨x, hx, _, hk⟩ | ⟨e, he, hst, hk⟩ | ⟨rfl, _, _⟩ | ⟨h, _⟩
    · rw [hru] at hk; exact absurd (kindOf_upgrade hk) (by simp)
    · rw [hru] at hk; exact absurd (kindOf_upgrade hk) (by simp)
    · cases hru
    · cases h
  have hcodes : ∀ r ∈ rs, ∀ e ∈ codes, r.status = e.1.toStatus → kindOf false e.2 = .ok r.kind →
      r.status.isSuccessOrDefault = true → r.kind = S := by
    intro r _ e he hst hk hs
    have := (hS e he (hst ▸ hs)).symm.trans hk; simpa using this.symm
  have hsucc : ∃ k, ∀ r ∈ popDefault (sorted Status.isSuccessOrDefault rs), r.kind = k := by
    rcases hg with ⟨rfl, hg⟩ | ⟨rfl, hdf⟩ | ⟨hex, hc⟩
    · -- no default
      by_cases hcs : ∀ e ∈ codes, coversSuccess e.1.toStatus = false
      · -- only the synthesized success
        refine ⟨.raw, ?_⟩
        intro r hr
        obtain ⟨hr, hs⟩ := mem_sorted.mp (mem_popDefault hr)
        rcases (processResponses_mem hrs r).mp hr with ⟨x, hx, _, hk⟩ | ⟨e, he, hst, hk⟩ | ⟨rfl, _, _⟩ | ⟨h, _⟩
        · cases hx
        · exfalso
          have hcse := hcs e he
          rw [hst] at hs
          cases hes : e.1 with
          | code c =>
            rw [hes] at hs hcse
            simp [DocStatus.toStatus, Status.isSuccessOrDefault, coversSuccess] at hs hcse
            have h101 : c = 101 := by omega
            subst h101
            rcases hg with hg | ⟨e', he', s, hs1, hs2, hs3⟩
            · exact hg e he hes
            · have := hcs e' he'
              cases hes' : e'.1 with
              | code c =>
                rw [hes'] at this hs3
                simp [DocStatus.toStatus, coversSuccess, Covers] at this hs3
                omega
              | range n =>
                rw [hes'] at this hs3
                simp [DocStatus.toStatus, coversSuccess, Covers] at this hs3
                omega
          | range n =>
            rw [hes] at hs hcse
            simp [DocStatus.toStatus, Status.isSuccessOrDefault, coversSuccess] at hs hcse
            exact hcse hs
        · rfl
        · cases h
      · refine ⟨S, ?_⟩
        intro r hr
        obtain ⟨hr, hs⟩ := mem_sorted.mp (mem_popDefault hr)
        rcases (processResponses_mem hrs r).mp hr with ⟨x, hx, _, hk⟩ | ⟨e, he, hst, hk⟩ | ⟨rfl, _, hn⟩ | ⟨h, _⟩
        · cases hx
        · exact hcodes r hr e he hst hk hs
        · exact absurd hn hcs
        · cases h
    · refine ⟨S, ?_⟩
      intro r hr
      obtain ⟨hr, hs⟩ := mem_sorted.mp (mem_popDefault hr)
      rcases (processResponses_mem hrs r).mp hr with ⟨x, hx, _, hk⟩ | ⟨e, he, hst, hk⟩ | ⟨rfl, hn, _⟩ | ⟨h, _⟩
      · have := (hu1 x hx).symm.trans hk; simpa using this.symm
      · exact hcodes r hr e he hst hk hs
      · exact absurd hn hdf
      · cases h
    · refine ⟨S, ?_⟩
      have key : ∀ r ∈ rs, r.status ≠ .default → r.status.isSuccessOrDefault = true → r.kind = S := by
        intro r hr hnd hs
        rcases (processResponses_mem hrs r).mp hr with ⟨x, hx, hst, hk⟩ | ⟨e, he, hst, hk⟩ | ⟨rfl, _, hn⟩ | ⟨h, _⟩
        · exact absurd hst hnd
        · exact hcodes r hr e he hst hk hs
        · obtain ⟨e, he, hes⟩ := hex
          have := hn e he
          rw [hes] at this
          cases this
        · cases h
      cases df with
      | none =>
        intro r hr
        obtain ⟨hr, hs⟩ := mem_sorted.mp (mem_popDefault hr)
        refine key r hr ?_ hs
        intro hst'
        rcases (processResponses_mem hrs r).mp hr with ⟨x, hx, hst, hk⟩ | ⟨e, he, hst, hk⟩ | ⟨rfl, _, hn⟩ | ⟨h, _⟩
        · cases hx
        · exact absurd (hst.symm.trans hst') (toStatus_ne_default _)
        · cases hst'
        · cases h
      | some x =>
        obtain ⟨k, rest, rfl, hk, hnd⟩ := processResponses_default hrs
        have hpop := popDefault_range (d := ⟨.default, k⟩) (rs := rest) rfl hnd (by
          obtain ⟨e, he, hes⟩ := hex
          obtain ⟨ke, hke⟩ := hu2 e he
          have hm : (⟨.range 2, ke⟩ : Response) ∈ (⟨.default, k⟩ :: rest : List Response) :=
            (processResponses_mem hrs _).mpr (.inr (.inl ⟨e, he, by rw [hes]; rfl, hke⟩))
          rcases List.mem_cons.mp hm with hm | hm
          · cases hm
          · exact ⟨_, hm, rfl⟩) (by
          intro r hr c hrc
          rcases (processResponses_mem hrs r).mp (by simp [hr]) with ⟨x, hx, hst, hk⟩ | ⟨e, he, hst, hk⟩ | ⟨rfl, _, hn⟩ | ⟨h, _⟩
          · rw [hrc] at hst; cases hst
          · rw [hrc] at hst
            cases hes : e.1 with
            | code c' =>
              rw [hes] at hst
              simp [DocStatus.toStatus] at hst
              subst hst
              exact hc e he _ hes
            | range n => rw [hes] at hst; cases hst
          · cases hrc
          · cases h)
        intro r hr
        have hr' := hpop r hr
        obtain ⟨hr, hs⟩ := mem_sorted.mp (mem_popDefault hr)
        exact key r hr (hnd r hr') hs
  obtain ⟨k, hk⟩ := hsucc
  obtain ⟨d, hd⟩ := genMatch_of (rs := rs) (fun r hr r' hr' => by rw [hk r hr, hk r' hr'])
    (fun r hr r' hr' h1 h2 => by rw [herr r hr h1, herr r' hr' h2])
    (fun r hr _ h2 => absurd h2 (hnup r hr))
  exact ⟨d, rs, hrs, hd⟩

/-- The third guard: `{2XX: T, default: E}`. -/
example : ∃ d, Accepted false (some jsonE) [(.range 2, jsonT)] d :=
  C56_no_panic_partial (S := .type 1) (E := .type 2)
    ⟨by intro x hx; cases hx; rfl,
     by intro e he; simp at he; subst he; exact ⟨_, rfl⟩,
     by intro e he; simp at he; subst he; intro s _ _; rfl,
     by intro e he; simp at he; subst he; intro s h1 h2 h3; simp [DocStatus.toStatus, Covers] at h3; omega⟩
    (.inr (.inr ⟨⟨(.range 2, jsonT), by simp, rfl⟩, by intro e he; simp at he; subst he; simp⟩))

end Progenitor.Props

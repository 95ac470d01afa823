import Verif.Lemmas.Exec
import Verif.Props.Paths
import Verif.Props.Query
import Verif.Props.Params

/-!
# C17-C22: what a generated method sends
-/

namespace Progenitor.Props

open Progenitor Progenitor.Params Progenitor.Client Progenitor.Query Progenitor.Exec Progenitor.Spec

theorem issues_parts {cfg : Config} {op : OperationMethod} {args : List Value} {r : Request}
    (h : Issues cfg op args r) :
    ∃ c env o, methodSigBody op = .ok c ∧ bindArgs op.params args = some env ∧
      clientHas op.method = true ∧ operands c cfg.baseurl env = some o ∧ buildWith cfg c o = .request r := by
  obtain ⟨c, env, hc, hb, h⟩ := h
  unfold build at h
  split at h
  · rename_i hm
    split at h
    · cases h
    · rename_i o ho
      refine ⟨c, env, o, hc, hb, ?_, ho, h⟩
      rw [(methodSigBody_ok hc).2.2.2.2.2.2.1] at hm
      exact hm
  · cases h

/-! ## C17 -/

theorem values_append (a b : Headers) (n : Str) : values (a ++ b) n = values a n ++ values b n := by
  simp [values]

theorem values_present (hs : List (Str × Option Str)) (n : Str) :
    values (present hs) n = hs.filterMap fun e => if lowerName e.1 = n then e.2.map utf8 else none := by
  induction hs with
  | nil => rfl
  | cons e hs ih =>
    obtain ⟨m, t⟩ := e
    cases t with
    | none =>
      rw [show present ((m, none) :: hs) = present hs from rfl, ih, List.filterMap_cons]
      split <;> simp_all
    | some t =>
      rw [show present ((m, some t) :: hs) = [(lowerName m, utf8 t)] ++ present hs from rfl, values_append, ih,
        List.filterMap_cons]
      by_cases h : lowerName m = n <;> simp [h, values]

/-- The values `Accept` and `Content-Type` are given automatically. -/
def automaticValues (accept : Bool) (labels : List Str) (n : Str) : List Bytes :=
  (if accept = true ∧ n = Hdr.accept then [utf8 Mime.json] else []) ++
  (if n = Hdr.contentType then labels.map utf8 else [])

/-- C17, exactly: the values of each header name in the request.  The API version and the given
header arguments are sent; where there are none, what the method adds on its own; and the
websocket handshake. -/
theorem C17_exact (cfg : Config) (op : OperationMethod) (args : List Value) (r : Request)
    (hw : BodyNamed op.params) (h : Issues cfg op args r) :
    ∃ d, Resp.genMatch op.responses = .ok d ∧ ∀ n,
      values r.headers n =
        (if explicitValues cfg.apiVersion op.params args n = [] then
          automaticValues (Resp.acceptJson d) (bodyLabels op.params) n
         else explicitValues cfg.apiVersion op.params args n) ++
        (if op.websocket then values ((handshake cfg.wsKey).map fun e => (e.1, utf8 e.2)) n else []) := by
  obtain ⟨c, env, o, hc, hb, _, ho, h⟩ := issues_parts h
  obtain ⟨hoh, _⟩ := operands_some hc hb ho
  obtain ⟨hm, label, body, q, h1, _, h3, _, rfl⟩ := buildWith_request.mp h
  rw [buildHeaders_ok] at h1
  obtain ⟨_, rfl, _⟩ := h1
  rw [hoh]
  obtain ⟨_, _, _, hd, hacc, hws, _⟩ := methodSigBody_ok hc
  refine ⟨c.dispatch, hd, ?_⟩
  intro n
  have hexp : values ((Hdr.apiVersion, utf8 cfg.apiVersion) :: present (headerArgs op.params args)) n =
      explicitValues cfg.apiVersion op.params args n := by
    unfold explicitValues
    rw [← values_present]
    by_cases hn : Hdr.apiVersion = n
    · simp [values, hn]
    · simp [values, hn, Ne.symm hn]
  have hauto : values (autoHeaders c label) n =
      automaticValues (Resp.acceptJson c.dispatch) (bodyLabels op.params) n := by
    unfold autoHeaders automaticValues
    rw [values_append, hacc]
    congr 1
    · by_cases hn : Hdr.accept = n
      · cases Resp.acceptJson c.dispatch <;> simp [hn, values]
      · rw [if_neg (fun h : _ ∧ n = Hdr.accept => hn h.2.symm)]
        cases Resp.acceptJson c.dispatch <;> simp [hn, values]
    · have hl : label = (bodyLabels op.params).map fun m => (Hdr.contentType, utf8 m) := by
        rcases operands_body hw hc hb ho with ⟨hn, hnb⟩ | ⟨p, v, ct, _, hk, hbl, hbody⟩
        · rw [hn] at h3
          cases h3
          have : bodyLabels op.params = [] := by
            unfold bodyLabels
            rw [List.filterMap_eq_nil_iff]
            intro p hp
            have := hnb p hp
            cases hk : p.kind with
            | body ct => exact absurd hk (this ct)
            | _ => rfl
          rw [this]; rfl
        · rw [hbl]
          cases ct with
          | octetStream => obtain ⟨b, _, hb⟩ := hbody; rw [hb] at h3; cases h3; rfl
          | text m => obtain ⟨b, _, hb⟩ := hbody; rw [hb] at h3; cases h3; rfl
          | json =>
            obtain ⟨s, _, hb⟩ := hbody; rw [hb] at h3
            simp only [bodyParts] at h3
            cases hj : cfg.toJson s with
            | error e => rw [hj] at h3; cases h3
            | ok b => rw [hj] at h3; cases h3; rfl
          | form =>
            obtain ⟨s, _, hb⟩ := hbody; rw [hb] at h3
            simp only [bodyParts] at h3
            cases hj : formBody s with
            | error e => rw [hj] at h3; cases h3
            | ok b => rw [hj] at h3; cases h3; rfl
      rw [hl]
      by_cases hn : Hdr.contentType = n
      · rw [if_pos hn.symm]
        subst hn
        unfold values
        rw [List.filter_eq_self.mpr (by simp), List.map_map]
        rfl
      · simp only [values, Ne.symm hn, if_false, List.map_eq_nil_iff, List.filter_eq_nil_iff]
        simp [hn]
  dsimp only
  rw [values_append, values_append, hexp]
  congr 1
  · by_cases hne : explicitValues cfg.apiVersion op.params args n = []
    · rw [if_pos hne, hne, List.append_nil, ← hauto]
      unfold values
      congr 1
      rw [List.filter_filter]
      apply List.filter_congr
      intro e he
      by_cases hen : e.1 = n
      · simp only [hen, decide_true, Bool.true_and, Bool.not_eq_true', List.any_eq_false, decide_eq_true_eq]
        rw [← hexp] at hne
        simp only [values, List.map_eq_nil_iff, List.filter_eq_nil_iff, decide_eq_true_eq] at hne
        exact hne
      · simp [hen]
    · rw [if_neg hne]
      have : values ((autoHeaders c label).filter fun h =>
          !((Hdr.apiVersion, utf8 cfg.apiVersion) :: present (headerArgs op.params args)).any fun e => e.1 = h.1) n = [] := by
        rw [← hexp] at hne
        unfold values at hne ⊢
        rw [List.map_eq_nil_iff, List.filter_filter, List.filter_eq_nil_iff]
        intro e he
        by_cases hen : e.1 = n
        · simp only [hen, decide_true, Bool.true_and, Bool.not_eq_true', Bool.not_eq_false]
          obtain ⟨e', he'⟩ := List.exists_mem_of_ne_nil _ (fun h => hne (List.map_eq_nil_iff.mpr h))
          rw [List.mem_filter] at he'
          exact List.any_eq_true.mpr ⟨e', he'⟩
        · simp [hen]
      rw [this]; rfl
  · unfold wsHeaders
    rw [hws]
    split <;> rfl

theorem lower_apiVersion : lowerName Hdr.apiVersion = Hdr.apiVersion := by decide

/-- C17: a header argument that is given is sent under its name. -/
theorem C17_given (cfg : Config) (op : OperationMethod) (args : List Value) (r : Request)
    (hw : BodyNamed op.params) (h : Issues cfg op args r) (p : Param) (v : Value) (rq : Bool) (t : Str)
    (hpv : (p, v) ∈ op.params.zip args) (hk : p.kind = .header rq) (ht : argText v = some t) :
    utf8 t ∈ values r.headers (lowerName p.apiName) := by
  obtain ⟨d, _, hx⟩ := C17_exact cfg op args r hw h
  rw [hx]
  have hm : utf8 t ∈ explicitValues cfg.apiVersion op.params args (lowerName p.apiName) := by
    unfold explicitValues
    apply List.mem_append_right
    refine List.mem_filterMap.mpr ⟨(p.apiName, some t), ?_, by simp⟩
    refine List.mem_filterMap.mpr ⟨(p, v), hpv, ?_⟩
    simp [hk, ht]
  rw [if_neg (List.ne_nil_of_mem hm)]
  exact List.mem_append_left _ hm

/-- C17: the API version is always sent, as the first value of `api-version`. -/
theorem C17_api_version (cfg : Config) (op : OperationMethod) (args : List Value) (r : Request)
    (hw : BodyNamed op.params) (h : Issues cfg op args r) :
    (values r.headers "api-version".toList).head? = some (utf8 cfg.apiVersion) := by
  change (values r.headers Hdr.apiVersion).head? = some (utf8 cfg.apiVersion)
  obtain ⟨d, _, hx⟩ := C17_exact cfg op args r hw h
  rw [hx, if_neg]
  · simp [explicitValues]
  · simp [explicitValues]

theorem explicit_none {apiVersion : Str} {params : List Param} {args : List Value} {n : Str} (h1 : n ≠ Hdr.apiVersion)
    (hn : ∀ p v rq, (p, v) ∈ params.zip args → p.kind = .header rq → lowerName p.apiName = n → argText v = none) :
    explicitValues apiVersion params args n = [] := by
  unfold explicitValues
  rw [if_neg h1, List.nil_append, List.filterMap_eq_nil_iff]
  rintro ⟨m, t⟩ hm
  obtain ⟨⟨p, v⟩, hpv, hs⟩ := List.mem_filterMap.mp hm
  dsimp only at hs ⊢
  split at hs
  · rename_i rq hk
    cases hs
    split
    · rename_i hl
      rw [hn p v rq hpv hk hl]; rfl
    · rfl
  · cases hs

/-- C17: what is sent without being asked for: `accept` if a documented response has a JSON body and the call gives no `accept`
header; the handshake of a websocket. -/
theorem C17_added (cfg : Config) (op : OperationMethod) (args : List Value) (r : Request)
    (hw : BodyNamed op.params) (h : Issues cfg op args r) :
    ((∀ p v rq, (p, v) ∈ op.params.zip args → p.kind = .header rq → lowerName p.apiName = "accept".toList → argText v = none) →
      ∃ d, Resp.genMatch op.responses = .ok d ∧
        values r.headers "accept".toList = if Resp.acceptJson d then [utf8 "application/json".toList] else []) ∧
    (op.websocket = true →
      utf8 "Upgrade".toList ∈ values r.headers "connection".toList ∧ utf8 "websocket".toList ∈ values r.headers "upgrade".toList ∧
      utf8 "13".toList ∈ values r.headers "sec-websocket-version".toList ∧
      utf8 cfg.wsKey ∈ values r.headers "sec-websocket-key".toList) := by
  obtain ⟨d, hd, hx⟩ := C17_exact cfg op args r hw h
  constructor
  · intro hn
    refine ⟨d, hd, ?_⟩
    have hne : "accept".toList ≠ Hdr.apiVersion := by decide
    rw [hx, if_pos (explicit_none hne hn)]
    have e1 : values ((handshake cfg.wsKey).map fun e => (e.1, utf8 e.2)) "accept".toList = [] := by
      change values ((handshake cfg.wsKey).map fun e => (e.1, utf8 e.2)) Hdr.accept = []
      have n1 : Hdr.connection ≠ Hdr.accept := by decide
      have n2 : Hdr.upgrade ≠ Hdr.accept := by decide
      have n3 : Hdr.wsVersion ≠ Hdr.accept := by decide
      have n4 : Hdr.wsKey ≠ Hdr.accept := by decide
      simp [handshake, values, n1, n2, n3, n4]
    rw [e1, ite_self, List.append_nil]
    unfold automaticValues
    rw [if_neg (show "accept".toList ≠ Hdr.contentType by decide), List.append_nil]
    cases Resp.acceptJson d
    · rfl
    · rw [if_pos ⟨rfl, rfl⟩, if_pos rfl]; rfl
  · intro hws
    have key : ∀ n x, (n, x) ∈ handshake cfg.wsKey → utf8 x ∈ values r.headers n := by
      intro n x hm
      rw [hx, if_pos hws]
      apply List.mem_append_right
      exact List.mem_map.mpr ⟨(n, utf8 x), List.mem_filter.mpr ⟨List.mem_map.mpr ⟨_, hm, rfl⟩, decide_eq_true rfl⟩, rfl⟩
    exact ⟨key _ _ (.head _), key _ _ (.tail _ (.head _)), key _ _ (.tail _ (.tail _ (.head _))),
      key _ _ (.tail _ (.tail _ (.tail _ (.head _))))⟩

/-- C17: nothing is sent for an absent header argument: a header name for which no argument
is given, and which neither the method nor the handshake uses, does not occur. -/
theorem C17_absent (cfg : Config) (op : OperationMethod) (args : List Value) (r : Request)
    (hw : BodyNamed op.params) (h : Issues cfg op args r) (n : Str)
    (hn : ∀ p v rq, (p, v) ∈ op.params.zip args → p.kind = .header rq → lowerName p.apiName = n → argText v = none)
    (hother : n ∉ ["api-version".toList, "accept".toList, "content-type".toList, "connection".toList, "upgrade".toList,
      "sec-websocket-version".toList, "sec-websocket-key".toList]) :
    values r.headers n = [] := by
  obtain ⟨d, _, hx⟩ := C17_exact cfg op args r hw h
  change n ∉ [Hdr.apiVersion, Hdr.accept, Hdr.contentType, Hdr.connection, Hdr.upgrade, Hdr.wsVersion, Hdr.wsKey] at hother
  simp only [List.mem_cons, List.not_mem_nil, or_false, not_or] at hother
  obtain ⟨h1, h2, h3, h4, h5, h6, h7⟩ := hother
  have he : explicitValues cfg.apiVersion op.params args n = [] := explicit_none h1 hn
  rw [hx, if_pos he]
  simp [automaticValues, h2, h3, handshake, values, Ne.symm h4, Ne.symm h5, Ne.symm h6, Ne.symm h7]

/-! ### A concrete operation, used in the examples -/

/-- `GET /v1/{id}` with an optional header `X-Tag` and a query parameter `q`. -/
def exOp : OperationMethod where
  operationId := "get_it".toList
  tags := []
  method := .get
  path := [.const "/v1/".toList, .param "id".toList]
  params := [⟨"id".toList, "id".toList, .type 0, .path⟩, ⟨"q".toList, "q".toList, .type 0, .query true⟩,
    ⟨"x_tag".toList, "X-Tag".toList, .type 0, .header false⟩]
  responses := [⟨.code 200, .none⟩]
  websocket := false

def exCfg : Config where
  baseurl := "http://h".toList
  apiVersion := "1.0".toList
  validUrl := fun _ => true
  toJson := fun _ => .ok []
  wsKey := []

def txt (s : String) : Arg := ⟨s.toList, .str s.toList⟩

def exReq : Request where
  method := .get
  url := "http://h/v1/a%2Fb".toList
  query := some "q=x+y".toList
  headers := [(Hdr.apiVersion, utf8 "1.0".toList), ("x-tag".toList, utf8 "t".toList)]
  body := none

theorem exIssues : Issues exCfg exOp [.plain (txt "a/b"), .plain (txt "x y"), .opt (some (txt "t"))] exReq :=
  ⟨_, _, rfl, rfl, rfl⟩

example : BodyNamed exOp.params := by
  intro p hp ct hk
  simp only [exOp, List.mem_cons, List.not_mem_nil, or_false] at hp
  rcases hp with rfl | rfl | rfl <;> cases hk

/-! ## C18 -/

/-- Bytes allowed in a header value. -/
def LegalValue (t : Str) : Prop := ∀ b ∈ utf8 t, (32 ≤ b.toNat ∧ b.toNat ≠ 127) ∨ b.toNat = 9

/-- RFC 9110 `token`. -/
def LegalName (n : Str) : Prop :=
  n ≠ [] ∧ ∀ c ∈ n, c.isAlphanum = true ∨ c ∈ "!#$%&'*+-.^_`|~".toList

theorem legalValue_iff (t : Str) : headerValueOk t = true ↔ LegalValue t := by
  simp [headerValueOk, LegalValue, headerValueByte, List.all_eq_true]

/-- Text that can be a header value in the code: `HeaderValue::from_static` panics for everything else. -/
def StaticValue (t : Str) : Prop := ∀ b ∈ utf8 t, (32 ≤ b.toNat ∧ b.toNat ≤ 126) ∨ b.toNat = 9

theorem staticValue_iff (t : Str) : (utf8 t).all visibleAscii = true ↔ StaticValue t := by
  unfold StaticValue visibleAscii
  rw [List.all_eq_true]
  refine forall_congr' fun b => forall_congr' fun _ => ?_
  have h1 : (32 ≤ b) ↔ 32 ≤ b.toNat := by rw [UInt8.le_iff_toNat_le]; rfl
  have h2 : (b < 127) ↔ b.toNat < 127 := by rw [UInt8.lt_iff_toNat_lt]; rfl
  have h3 : (b = 9) ↔ b.toNat = 9 := by rw [← UInt8.toNat_inj]; rfl
  simp [h1, h2, h3]
  omega

theorem legalName_iff (n : Str) : headerNameOk n = true ↔ LegalName n := by
  simp [headerNameOk, LegalName, headerNameChar, List.all_eq_true]

variable {P V : Type}

theorem build_bad_header (cfg : Config) {op : OperationMethod} {c : Code} {env : Env} {args : List Value}
    (hc : methodSigBody op = .ok c) (hb : bindArgs op.params args = some env)
    (hbad : ∃ n t, (n, some t) ∈ headerArgs op.params args ∧ ¬ LegalValue t) :
    (build cfg c env = .noCompile ∨ build cfg c env = .panicked ∨
      build cfg c env = .invalidRequest "failed to parse header value".toList) ∧
    (StaticValue cfg.apiVersion →
      (∀ n t, (n, t) ∈ headerArgs op.params args → LegalName n) →
      build cfg c env = .noCompile ∨ build cfg c env = .invalidRequest "failed to parse header value".toList) := by
  obtain ⟨n, t, hm, hv⟩ := hbad
  rw [← legalValue_iff, Bool.not_eq_true] at hv
  unfold build
  split
  · cases ho : operands c cfg.baseurl env with
    | none => exact ⟨.inl rfl, fun _ _ => .inl rfl⟩
    | some o =>
      obtain ⟨hoh, _⟩ := operands_some hc hb ho
      dsimp only
      unfold buildWith
      cases hh : buildHeaders cfg o.headers with
      | panicked =>
        refine ⟨.inr (.inl rfl), ?_⟩
        intro hvis hnames
        exfalso
        unfold buildHeaders at hh
        rw [if_pos ((staticValue_iff _).mpr hvis), runHeaders_invalid] at hh
        · cases hh
        · intro n t hm
          rw [hoh] at hm
          exact (legalName_iff n).mpr (hnames n _ hm)
        · exact ⟨n, t, hoh ▸ hm, hv⟩
      | invalid => exact ⟨.inr (.inr rfl), fun _ _ => .inr rfl⟩
      | ok hm' =>
        exfalso
        have := ((buildHeaders_ok.mp hh).2.2 n t (hoh ▸ hm)).1
        rw [hv] at this; cases this
  · exact ⟨.inl rfl, fun _ _ => .inl rfl⟩

/-- C18: a header argument that is not a legal header value prevents every effect and any
successful outcome; and the call returns `InvalidRequest`, provided that the code compiles, the
documented header names are legal and the API version is printable. -/
theorem C18_invalid_value (cfg : Config) (hooks : Hooks) (w : World) (decode : TypeId → Bytes → Except P V)
    (op : OperationMethod) (c : Code) (hist : List Event) (args : List Value)
    (hc : methodSigBody op = .ok c)
    (hbad : ∃ n t, (n, some t) ∈ headerArgs op.params args ∧ ¬ LegalValue t) :
    (call cfg hooks w decode op.params c hist args).2 = hist ∧
    (∀ rv, (call cfg hooks w decode op.params c hist args).1 ≠ .returned (.ok rv)) ∧
    (StaticValue cfg.apiVersion →
      (∀ n t, (n, t) ∈ headerArgs op.params args → LegalName n) →
      (call cfg hooks w decode op.params c hist args).1 = .noCompile ∨
      (call cfg hooks w decode op.params c hist args).1 =
        .returned (.error (.invalidRequest "failed to parse header value".toList))) := by
  unfold call
  cases hb : bindArgs op.params args with
  | none => exact ⟨rfl, by simp, fun _ _ => .inl rfl⟩
  | some env =>
    obtain ⟨h1, h2⟩ := build_bad_header cfg hc hb hbad
    dsimp only [run]
    rcases h1 with h | h | h
    · rw [h]; exact ⟨rfl, by simp, fun _ _ => .inl rfl⟩
    · rw [h]
      refine ⟨rfl, by simp, fun hv hn => ?_⟩
      rcases h2 hv hn with h' | h' <;> rw [h] at h' <;> cases h'
    · rw [h]; exact ⟨rfl, by simp, fun _ _ => .inr rfl⟩

example : ("X-Tag".toList, some "a\nb".toList) ∈
      headerArgs exOp.params [.plain (txt "a/b"), .plain (txt "x y"), .opt (some (txt "a\nb"))] ∧
    ¬ LegalValue "a\nb".toList ∧ LegalName "X-Tag".toList := by
  refine ⟨?_, ?_, ?_⟩
  · exact List.mem_filterMap.mpr ⟨(_, _), List.mem_cons_of_mem _ (List.mem_cons_of_mem _ (List.mem_cons_self)), rfl⟩
  · rw [← legalValue_iff]; decide
  · rw [← legalName_iff]; decide

theorem runHeaders_names {acc : Headers} {hs : List (Str × Option Str)} (hn : ∀ n t, (n, t) ∈ hs → headerNameOk n = true) :
    runHeaders acc hs ≠ .panicked := by
  induction hs generalizing acc with
  | nil => simp [runHeaders]
  | cons e hs ih =>
    obtain ⟨n, t⟩ := e
    have ih' : ∀ acc, runHeaders acc hs ≠ .panicked := fun acc => ih fun n t h => hn n t (by simp [h])
    cases t with
    | none => exact ih' _
    | some t =>
      simp only [runHeaders]
      rw [if_pos (hn n (some t) (by simp))]
      split
      · exact ih' _
      · simp

/-- C18: the version of the document becomes a header value as it is.  If it has a character other than printable ASCII and tabs, no
call of any method (that compiles) returns: they all panic, before any effect.  Otherwise, and if the documented names of headers are
legal, there is no panic before the request is complete. -/
theorem C18_version (cfg : Config) (hooks : Hooks) (w : World) (decode : TypeId → Bytes → Except P V)
    (op : OperationMethod) (c : Code) (hist : List Event) (args : List Value) (hc : methodSigBody op = .ok c) :
    (¬ StaticValue cfg.apiVersion → call cfg hooks w decode op.params c hist args = (.noCompile, hist) ∨
      call cfg hooks w decode op.params c hist args = (.panicked, hist)) ∧
    (StaticValue cfg.apiVersion → (∀ n t, (n, t) ∈ headerArgs op.params args → LegalName n) →
      ∀ env, bindArgs op.params args = some env → build cfg c env ≠ .panicked) := by
  unfold call
  cases hb : bindArgs op.params args with
  | none => exact ⟨fun _ => .inl rfl, fun _ _ env h => by cases h⟩
  | some env =>
    dsimp only [run]
    by_cases hcl : clientHas c.method = true
    · cases ho : operands c cfg.baseurl env with
      | none =>
        have hbd : build cfg c env = .noCompile := by unfold build; rw [if_pos hcl, ho]
        rw [hbd]
        exact ⟨fun _ => .inl rfl, fun _ _ env h => by cases h; rw [hbd]; simp⟩
      | some o =>
        obtain ⟨hoh, _⟩ := operands_some hc hb ho
        have hbd : build cfg c env = buildWith cfg c o := by unfold build; rw [if_pos hcl, ho]
        constructor
        · intro hv
          rw [← staticValue_iff] at hv
          rw [hbd]
          unfold buildWith buildHeaders
          rw [if_neg hv]
          exact .inr rfl
        · intro hv hn env' he
          cases he
          rw [hbd]
          have hnp : buildHeaders cfg o.headers ≠ .panicked := by
            unfold buildHeaders
            rw [if_pos ((staticValue_iff _).mpr hv)]
            exact runHeaders_names fun n t hm => (legalName_iff n).mpr (hn n t (hoh ▸ hm))
          unfold buildWith
          cases hh : buildHeaders cfg o.headers with
          | panicked => exact absurd hh hnp
          | invalid => simp
          | ok hm =>
            dsimp only
            split
            · simp
            · split <;> simp
    · have hbd : build cfg c env = .noCompile := by unfold build; rw [if_neg hcl]
      rw [hbd]
      exact ⟨fun _ => .inl rfl, fun _ _ env h => by cases h; rw [hbd]; simp⟩

example : ¬ StaticValue "1.0\u00e9".toList ∧ StaticValue "1.0\t(beta)".toList := by
  rw [← staticValue_iff, ← staticValue_iff]; decide +kernel

/-! ## C19 -/

theorem bodyParts_encodes {cfg : Config} {ct : ContentType} {v : Value} {ob : Option BodyVal}
    {label : List (Str × Bytes)} {body : Option Bytes}
    (hb : match ct with
       | .octetStream => ∃ b, v = .raw b ∧ ob = some (.raw Mime.octets b)
       | .text m => ∃ b, v = .raw b ∧ ob = some (.raw m b)
       | .json => ∃ s, argSer v = some s ∧ ob = some (.json s)
       | .form => ∃ s, argSer v = some s ∧ ob = some (.form s))
    (h : bodyParts cfg ob = .ok (label, body)) :
    ∃ b, body = some b ∧ Encodes cfg.toJson ct v b := by
  cases ct with
  | octetStream => obtain ⟨b, rfl, rfl⟩ := hb; cases h; exact ⟨b, rfl, .octets b⟩
  | text m => obtain ⟨b, rfl, rfl⟩ := hb; cases h; exact ⟨b, rfl, .text m b⟩
  | json =>
    obtain ⟨s, hs, rfl⟩ := hb
    simp only [bodyParts] at h
    cases hj : cfg.toJson s with
    | error e => rw [hj] at h; cases h
    | ok b => rw [hj] at h; cases h; exact ⟨b, rfl, .json v s b hs hj⟩
  | form =>
    obtain ⟨s, hs, rfl⟩ := hb
    simp only [bodyParts] at h
    cases hj : formBody s with
    | error e => rw [hj] at h; cases h
    | ok b =>
      rw [hj] at h; cases h
      unfold formBody at hj
      cases ht : top s with
      | error e => rw [ht] at hj; cases hj
      | ok ps => rw [ht] at hj; cases hj; exact ⟨_, rfl, .form v s ps _ hs ht rfl⟩

/-- C19: a body argument is sent, encoded by its declared content type. -/
theorem C19_body (cfg : Config) (op : OperationMethod) (args : List Value) (r : Request)
    (hw : BodyNamed op.params) (h : Issues cfg op args r) (p : Param) (v : Value) (ct : ContentType)
    (hpv : (p, v) ∈ op.params.zip args) (hk : p.kind = .body ct) :
    ∃ b, r.body = some b ∧ Encodes cfg.toJson ct v b := by
  obtain ⟨c, env, o, hc, hb, _, ho, h⟩ := issues_parts h
  obtain ⟨hm, label, body, q, _, _, h3, _, rfl⟩ := buildWith_request.mp h
  have hp : p ∈ op.params := (List.of_mem_zip hpv).1
  rcases operands_body hw hc hb ho with ⟨_, hnb⟩ | ⟨p', v', ct', hpv', hk', _, hbody⟩
  · exact absurd hk (hnb p hp ct)
  · obtain ⟨hnd, hlen, _, hlook⟩ := bindArgs_some hb
    have hp' : p' ∈ op.params := (List.of_mem_zip hpv').1
    have hn : p.name = p'.name := by rw [hw p hp ct hk, hw p' hp' ct' hk']
    have hpp : p = p' := by
      have : ∀ (l : List Param), (l.map Param.name).Nodup → p ∈ l → p' ∈ l → p = p' := by
        intro l
        induction l with
        | nil => intro _ h; cases h
        | cons x l ih =>
          intro hnd hp hp'
          rw [List.map_cons, List.nodup_cons] at hnd
          rcases List.mem_cons.mp hp with h1 | h1 <;> rcases List.mem_cons.mp hp' with h2 | h2
          · rw [h1, h2]
          · rw [← h1] at hnd
            exact absurd (List.mem_map.mpr ⟨p', h2, hn.symm⟩) hnd.1
          · rw [← h2] at hnd
            exact absurd (List.mem_map.mpr ⟨p, h1, hn⟩) hnd.1
          · exact ih hnd.2 h1 h2
      exact this op.params hnd hp hp'
    subst hpp
    have hv : v = v' := by
      have h1 := hlook p v hpv
      rw [hlook p v' hpv'] at h1; cases h1; rfl
    subst hv
    have hct : ct = ct' := by rw [hk] at hk'; cases hk'; rfl
    subst hct
    exact bodyParts_encodes hbody h3

/-- C19: without a body parameter no body is sent. -/
theorem C19_no_body (cfg : Config) (op : OperationMethod) (args : List Value) (r : Request)
    (hw : BodyNamed op.params) (h : Issues cfg op args r)
    (hn : ∀ p ∈ op.params, ∀ ct, p.kind ≠ .body ct) : r.body = none := by
  obtain ⟨c, env, o, hc, hb, _, ho, h⟩ := issues_parts h
  obtain ⟨hm, label, body, q, _, _, h3, _, rfl⟩ := buildWith_request.mp h
  rcases operands_body hw hc hb ho with ⟨hob, _⟩ | ⟨p', v', ct', hpv', hk', _⟩
  · rw [hob] at h3; cases h3; rfl
  · exact absurd hk' (hn p' (List.of_mem_zip hpv').1 ct')

/-- C19: a form body decodes to the fields of the argument that are present, in order. -/
theorem C19_form_decodes (toJson : Ser → Except Unit Bytes) (a : Arg) (sname : Str) (fs : List (Str × Ser))
    (ts : List (Str × Option Str)) (b : Bytes) (ha : a.ser = .struct sname fs)
    (hf : Forall₂ (fun f t => f.1 = t.1 ∧ Item f.2 t.2) fs ts)
    (he : Encodes toJson .form (.plain a) b) :
    ∃ t, b = utf8 t ∧ formDecode t =
      (ts.filterMap fun t => t.2.map fun x => (t.1, x)).map fun p => (utf8 p.1, utf8 p.2) := by
  cases he with
  | form v s ps t hs htop ht =>
    refine ⟨t, rfl, ?_⟩
    simp only [argSer, Option.some.injEq] at hs
    rw [← hs, ha] at htop
    have := C09_struct [] sname fs ts hf
    simp only [queryPairs] at this
    rw [htop] at this
    cases this
    rw [ht, formDecode_append]
    rfl

/-- C19, labelling, guarded: unless a header argument named `Content-Type` is given, the only
`Content-Type` is the declared one (none without a body).  Missing for the full claim: a
documented header parameter of that name replaces the label. -/
theorem C19_label_partial (cfg : Config) (op : OperationMethod) (args : List Value) (r : Request)
    (hw : BodyNamed op.params) (h : Issues cfg op args r)
    (hn : ∀ p v rq, (p, v) ∈ op.params.zip args → p.kind = .header rq →
      lowerName p.apiName = Hdr.contentType → argText v = none) :
    values r.headers Hdr.contentType = (bodyLabels op.params).map utf8 ∧
    (∀ p ∈ op.params, ∀ ct, p.kind = .body ct → bodyLabels op.params = [ct.print]) := by
  have h' := h
  obtain ⟨d, _, hx⟩ := C17_exact cfg op args r hw h
  have he : explicitValues cfg.apiVersion op.params args Hdr.contentType = [] := by
    unfold explicitValues
    rw [if_neg (by decide), List.nil_append, List.filterMap_eq_nil_iff]
    rintro ⟨m, t⟩ hm
    obtain ⟨⟨p, v⟩, hpv, hs⟩ := List.mem_filterMap.mp hm
    dsimp only at hs ⊢
    split at hs
    · rename_i rq hk
      cases hs
      split
      · rename_i hl
        rw [hn p v rq hpv hk hl]; rfl
      · rfl
    · cases hs
  constructor
  · rw [hx, if_pos he]
    have h0 : values ((handshake cfg.wsKey).map fun e => (e.1, utf8 e.2)) Hdr.contentType = [] := by
      unfold values handshake
      rw [List.map_eq_nil_iff, List.filter_eq_nil_iff]
      intro e he
      simp only [List.map_cons, List.map_nil, List.mem_cons, List.not_mem_nil, or_false] at he
      rcases he with rfl | rfl | rfl | rfl <;> 
        exact fun h => absurd (of_decide_eq_true h) (by dsimp only; decide)
    rw [h0]
    unfold automaticValues
    rw [if_neg (by intro h; exact accept_ne h.2.symm), if_pos rfl]
    simp
  · intro p hp ct hk
    obtain ⟨c, env, o, hc, hb, _, ho, h⟩ := issues_parts h'
    rcases operands_body hw hc hb ho with ⟨_, hnb⟩ | ⟨p', v', ct', hpv', hk', hbl, _⟩
    · exact absurd hk (hnb p hp ct)
    · have hp' : p' ∈ op.params := (List.of_mem_zip hpv').1
      have : ct.print ∈ bodyLabels op.params := by
        refine List.mem_filterMap.mpr ⟨p, hp, ?_⟩
        rw [hk]; cases ct <;> rfl
      rw [hbl] at this ⊢
      rw [List.mem_singleton] at this
      rw [this]

/-- A JSON body together with a header parameter called `Content-Type`. -/
def ctOp : OperationMethod where
  operationId := "put_it".toList
  tags := []
  method := .put
  path := [.const "/v1".toList]
  params := [⟨"body".toList, "body".toList, .type 0, .body .json⟩,
    ⟨"content_type".toList, "Content-Type".toList, .type 0, .header true⟩]
  responses := [⟨.code 204, .none⟩]
  websocket := false

/-- C19 fails as stated: the label of a JSON body can be something else. -/
theorem C19_label_fails : ∃ (op : OperationMethod) (args : List Value) (r : Request),
    BodyNamed op.params ∧ Issues exCfg op args r ∧
    (∃ p ∈ op.params, p.kind = .body .json) ∧ r.body.isSome = true ∧
    utf8 Mime.json ∉ values r.headers Hdr.contentType := by
  refine ⟨ctOp, [.plain (txt "1"), .plain (txt "text/plain")],
    { method := .put, url := "http://h/v1".toList, query := none,
      headers := [(Hdr.apiVersion, utf8 "1.0".toList), (Hdr.contentType, utf8 "text/plain".toList)],
      body := some [] }, ?_, ⟨_, _, rfl, rfl, rfl⟩, ⟨_, List.mem_cons_self, rfl⟩, rfl, by decide⟩
  intro p hp ct hk
  simp only [ctOp, List.mem_cons, List.not_mem_nil, or_false] at hp
  rcases hp with rfl | rfl
  · rfl
  · cases hk

/-- C19: which content type is declared depends only on the text before `;`. -/
theorem C19_media_parameters (s x : Str) (hs : ';' ∉ s) (ct : ContentType) :
    ContentType.parse (s ++ ';' :: x) = .ok ct ↔ ContentType.parse s = .ok ct := by
  have h : ∀ s y : Str, ';' ∉ s → (∀ z ∈ y.head?, z = ';') → beforeSemicolon (s ++ y) = s := by
    intro s y hs hy
    unfold beforeSemicolon
    rw [List.takeWhile_append_of_pos (by intro a ha; simp; rintro rfl; exact hs ha)]
    cases y with
    | nil => simp
    | cons z y => rw [hy z (by simp)]; simp
  have h1 := h s (';' :: x) hs (by simp)
  have h2 := h s [] hs (by simp)
  rw [List.append_nil] at h2
  unfold ContentType.parse
  rw [h1, h2]
  dsimp only
  split
  · rfl
  split
  · rfl
  split
  · rfl
  split
  · rfl
  · simp

/-- C19: the documented body decides the body parameter. -/
theorem C19_declared (ct : Str) (m : BodyMedia) (p : Param) :
    getBodyParam (some [(ct, m)]) = .ok (some p) ↔
      ∃ s c typ, m.schema = some s ∧ ContentType.parse ct = .ok c ∧ bodyType c m s = .ok typ ∧
        p = ⟨"body".toList, "body".toList, typ, .body c⟩ := by
  simp only [getBodyParam]
  cases hm : m.schema with
  | none =>
    dsimp only
    constructor
    · intro h; cases h
    · rintro ⟨_, _, _, h, _⟩; cases h
  | some s =>
    dsimp only
    constructor
    · intro h
      obtain ⟨c, hc, h⟩ := bind_ok_inv h
      obtain ⟨typ, ht, h⟩ := bind_ok_inv h
      cases h
      exact ⟨s, c, typ, rfl, hc, ht, rfl⟩
    · rintro ⟨_, c, typ, hs, hc, ht, rfl⟩
      cases hs
      rw [hc, Res.bind_ok, ht]
      rfl

/-- C19: which documented bodies give a body parameter: none without a media type, one for a single media type; a body with
several media types is refused. -/
theorem C19_declared_iff (body : Option (List (Str × BodyMedia))) (o : Option Param) :
    getBodyParam body = .ok o ↔
      (o = none ∧ (body = none ∨ body = some [])) ∨
      ∃ ct m s c typ, body = some [(ct, m)] ∧ m.schema = some s ∧ ContentType.parse ct = .ok c ∧ bodyType c m s = .ok typ ∧
        o = some ⟨"body".toList, "body".toList, typ, .body c⟩ := by
  match body with
  | none => simp [getBodyParam, eq_comm]
  | some [] => simp [getBodyParam, eq_comm]
  | some [(ct, m)] =>
    cases o with
    | none =>
      simp only [getBodyParam]
      constructor
      · intro h
        cases hm : m.schema with
        | none => rw [hm] at h; cases h
        | some s =>
          rw [hm] at h
          obtain ⟨c, _, h⟩ := bind_ok_inv h
          obtain ⟨typ, _, h⟩ := bind_ok_inv h
          cases h
      · rintro (⟨_, h | h⟩ | ⟨_, _, _, _, _, _, _, _, _, h⟩)
        · cases h
        · simp at h
        · cases h
    | some p =>
      rw [C19_declared]
      constructor
      · rintro ⟨s, c, typ, h1, h2, h3, rfl⟩
        exact .inr ⟨ct, m, s, c, typ, rfl, h1, h2, h3, rfl⟩
      · rintro (⟨h, _⟩ | ⟨ct', m', s, c, typ, h0, h1, h2, h3, h4⟩)
        · cases h
        · cases h0
          cases h4
          exact ⟨s, c, typ, h1, h2, h3, rfl⟩
  | some (_ :: _ :: _) => simp [getBodyParam]

/-- C19: the media types of bodies, as written in documents and in requests. -/
theorem C19_media_types (s : Str) (hs : ';' ∉ s) (c : ContentType) : ContentType.parse s = .ok c ↔
    (c = .octetStream ∧ s = "application/octet-stream".toList) ∨ (c = .json ∧ s = "application/json".toList) ∨
    (c = .form ∧ s = "application/x-www-form-urlencoded".toList) ∨
    (c = .text s ∧ (s = "text/plain".toList ∨ s = "text/x-markdown".toList)) := by
  have e : beforeSemicolon s = s := by
    unfold beforeSemicolon
    refine (takeWhile_all _ _ fun a ha => ?_).1
    simp only [decide_eq_true_eq]
    rintro rfl
    exact hs ha
  unfold ContentType.parse
  rw [e]
  change (if s = "application/octet-stream".toList then _ else if s = "application/json".toList then _ else
    if s = "application/x-www-form-urlencoded".toList then _ else _) = _ ↔ _
  by_cases h1 : s = "application/octet-stream".toList
  · subst h1
    constructor
    · intro h; cases h; exact .inl ⟨rfl, rfl⟩
    · rintro (⟨rfl, h⟩ | ⟨rfl, h⟩ | ⟨rfl, h⟩ | ⟨rfl, h | h⟩)
      · rfl
      all_goals exact absurd h (by decide)
  rw [if_neg h1]
  by_cases h2 : s = "application/json".toList
  · subst h2
    constructor
    · intro h; cases h; exact .inr (.inl ⟨rfl, rfl⟩)
    · rintro (⟨rfl, h⟩ | ⟨rfl, h⟩ | ⟨rfl, h⟩ | ⟨rfl, h | h⟩)
      · exact absurd h (by decide)
      · rfl
      all_goals exact absurd h (by decide)
  rw [if_neg h2]
  by_cases h3 : s = "application/x-www-form-urlencoded".toList
  · subst h3
    constructor
    · intro h; cases h; exact .inr (.inr (.inl ⟨rfl, rfl⟩))
    · rintro (⟨rfl, h⟩ | ⟨rfl, h⟩ | ⟨rfl, h⟩ | ⟨rfl, h | h⟩)
      · exact absurd h (by decide)
      · exact absurd h (by decide)
      · rfl
      all_goals exact absurd h (by decide)
  rw [if_neg h3]
  by_cases h4 : s = "text/plain".toList ∨ s = "text/x-markdown".toList
  · rw [if_pos h4]
    constructor
    · intro h; cases h; exact .inr (.inr (.inr ⟨rfl, h4⟩))
    · rintro (⟨rfl, h⟩ | ⟨rfl, h⟩ | ⟨rfl, h⟩ | ⟨rfl, _⟩)
      · exact absurd h h1
      · exact absurd h h2
      · exact absurd h h3
      · rfl
  · rw [if_neg h4]
    constructor
    · intro h; cases h
    · rintro (⟨rfl, h⟩ | ⟨rfl, h⟩ | ⟨rfl, h⟩ | ⟨rfl, h⟩)
      · exact absurd h h1
      · exact absurd h h2
      · exact absurd h h3
      · exact absurd h h4

/-- C19: the labels of bodies. -/
theorem C19_print (c : ContentType) : c.print = match c with
    | .octetStream => "application/octet-stream".toList
    | .json => "application/json".toList
    | .form => "application/x-www-form-urlencoded".toList
    | .text m => m := by
  cases c <;> rfl

example : ContentType.parse "application/json; charset=utf-8".toList = .ok .json := rfl
example : ContentType.parse "application/xml".toList =
    .err "unexpected content type: application/xml".toList := rfl
example : ∃ p, getBodyParam (some [("text/plain".toList, ⟨some ⟨false, true, 0⟩, true⟩)]) = .ok (some p) :=
  ⟨_, rfl⟩

/-! ## C20 -/

theorem takeWhile_noSpecial {t : Str} (h : ∀ c ∈ t, c ≠ '#' ∧ c ≠ '?') :
    initialUrl t = t ∧ initialQuery t = none := by
  have h1 := takeWhile_all (fun c : Char => decide (c ≠ '#')) t (fun c hc => by simp [(h c hc).1])
  have h2 := takeWhile_all (fun c : Char => decide (c ≠ '?')) t (fun c hc => by simp [(h c hc).2])
  unfold initialUrl initialQuery
  rw [h1.1, h2.1, h2.2]
  exact ⟨rfl, rfl⟩

theorem braceGroups_append {a : Str} (r : Str) (h : '{' ∉ a) : braceGroups (a ++ r) = braceGroups r := by
  induction a with
  | nil => rfl
  | cons c a ih =>
    simp only [List.mem_cons, not_or] at h
    rw [List.cons_append, Template.braceGroups_cons_of_ne _ _ (Ne.symm h.1), ih h.2]

theorem braceGroups_segs (l : List Seg) (hl : SegsOk l) : braceGroups (segsText l) = pars l := by
  induction l with
  | nil => rfl
  | cons x l ih =>
    cases x with
    | lit s =>
      obtain ⟨_, h1, _, _, h4⟩ := hl
      have : segsText (.lit s :: l) = ('/' :: s) ++ segsText l := by simp [segsText]
      rw [this, braceGroups_append, ih h4]
      · rfl
      · simp only [List.mem_cons, not_or]
        refine ⟨by decide, fun hc => ?_⟩
        have := List.all_eq_true.1 h1 _ hc
        simp [plainChar] at this
    | par n pre post =>
      obtain ⟨h1, hp, hq, h4⟩ := hl
      have : segsText (.par n pre post :: l) = ('/' :: pre) ++ '{' :: (n ++ '}' :: (post ++ segsText l)) := by simp [segsText]
      rw [this, braceGroups_append _ (by
        simp only [List.mem_cons, not_or]
        exact ⟨by decide, fun hc => (plain_no_brace (affix_plain hp) _ hc).1 rfl⟩)]
      rw [show braceGroups ('{' :: (n ++ '}' :: (post ++ segsText l))) =
        (n ++ '}' :: (post ++ segsText l)).takeWhile (· ≠ '}') :: braceGroups (n ++ '}' :: (post ++ segsText l)) by simp [braceGroups]]
      have e : n ++ '}' :: (post ++ segsText l) = (n ++ '}' :: post) ++ segsText l := by simp
      rw [show braceGroups (n ++ '}' :: (post ++ segsText l)) = pars l by
        rw [e, braceGroups_append, ih h4]
        simp only [List.mem_append, List.mem_cons, not_or]
        exact ⟨fun hc => (h1 _ hc).1 rfl, by decide, fun hc => (plain_no_brace (affix_plain hq) _ hc).1 rfl⟩]
      have : (n ++ '}' :: (post ++ segsText l)).takeWhile (· ≠ '}') = n := by
        rw [List.takeWhile_append_of_pos (by intro c hc; simp [(h1 c hc).2.1])]
        simp
      rw [this]
      rfl

theorem forall₂_determined {α β : Type} {R S : α → β → Prop} {l : List α} {m n : List β}
    (hRS : ∀ a b c, R a b → S a c → b = c) (h1 : Forall₂ R l m) (h2 : Forall₂ S l n) : m = n := by
  induction h1 generalizing n with
  | nil => cases h2; rfl
  | cons h _ ih => cases h2 with
    | cons h' h2 => rw [hRS _ _ _ h h', ih h2]

/-- C20, guarded: for a slash-separated template, and unless a path argument contains a
backslash or is `.` or `..`, decoding the request gives back the call: the HTTP method; the
path segments decode to base, literals and path arguments; the query decodes to the query
arguments; the headers are described by `C17_exact` and `C17_given`, the body by `C19_body`.
Missing for the full claim: the guard on path arguments. -/
theorem C20_roundtrip_partial (cfg : Config) (op : OperationMethod) (args : List Value) (r : Request)
    (h : Issues cfg op args r) (l : List Seg) (hl : SegsOk l) (hne : l ≠ [])
    (hpath : Template.parse (segsText l) = .ok op.path)
    (auth : Str) (b : List Str) (hb : BaseOk b) (hauth : ∀ c ∈ auth, c ≠ '#' ∧ c ≠ '?')
    (hbase : cfg.baseurl = auth ++ joinSegs b)
    (hguard : ∀ n pre post t, Seg.par n pre post ∈ l → PathArg op.params args n t →
      '\\' ∉ t ∧ pre ++ t ++ post ≠ ['.'] ∧ pre ++ t ++ post ≠ ['.', '.'])
    (qs : List (List (Str × Str)))
    (hqs : Forall₂ (fun a ps => Means a.1 a.2 ps) (queryArgs op.params args) qs) :
    r.method = op.method ∧
    (∃ (tail : Str) (v : Str → Str), r.url = auth ++ tail ∧
      (∀ n ∈ pars l, PathArg op.params args n (v n)) ∧
      (parseUrlTail tail).segments.map percentDecode =
        b.map percentDecode ++ expectedSegs (fun n => utf8 (v n)) l) ∧
    formDecode (r.query.getD []) = qs.flatten.map (fun p => (utf8 p.1, utf8 p.2)) ∧
    (r.query = none ↔ qs.flatten = []) := by
  obtain ⟨c, env, o, hc, hbd, _, ho, h⟩ := issues_parts h
  obtain ⟨hm, label, body, q, _, _, _, h4, rfl⟩ := buildWith_request.mp h
  obtain ⟨_, hcu, _, _, _, _, hmeth, _⟩ := methodSigBody_ok hc
  obtain ⟨_, hoq, _⟩ := operands_some hc hbd ho
  obtain ⟨ident, value, hid, harg, hfmt⟩ := operands_url hc hbd ho
  have hnames : Template.names op.path = pars l := by
    rw [C02_names _ _ hpath, braceGroups_segs l hl]
  have hw := wellFormed_segs l hl hne
  obtain ⟨e, he, hf⟩ := C03_url_partial (segsText l) cfg.baseurl op.path (urlRenames op.params) ident value hw hpath
    (by intro n hn; exact hid n (by rw [hnames, ← braceGroups_segs l hl]; exact hn))
  rw [hcu] at he
  cases he
  rw [hfmt] at hf
  simp only [Option.some.injEq] at hf
  rw [Template.collapse_eq, collapse_segs l hl, substGroups_segs _ l hl, hbase] at hf
  -- the same URL with `some` as renaming
  let v : Str → Str := fun n => value (ident n)
  have hv : ∀ n ∈ pars l, PathArg op.params args n (v n) := fun n hn => harg n (hnames ▸ hn)
  obtain ⟨p, e, tail, hp, he, hf2, _, _, hseg⟩ := C05_confined_partial l hl hne auth b hb v
    (fun n pre post hn => hguard n pre post _ hn (hv n (mem_pars.mpr ⟨pre, post, hn⟩)))
  obtain ⟨p', e', hp', he', hf'⟩ := segs_url l hl hne (auth ++ joinSegs b) v
  rw [hp] at hp'; cases hp'
  rw [he] at he'; cases he'
  rw [hf2] at hf'
  simp only [Option.some.injEq] at hf'
  have hurl : o.url = auth ++ tail := by rw [hf']; exact hf
  have hchars : ∀ c ∈ o.url, c ≠ '#' ∧ c ≠ '?' := by
    rw [hf]
    intro c hc'
    rw [List.append_assoc] at hc'
    rcases List.mem_append.mp hc' with hc' | hc'
    · exact hauth c hc'
    rcases List.mem_append.mp hc' with hc' | hc'
    · simp only [joinSegs, List.mem_flatMap, List.mem_cons] at hc'
      obtain ⟨s, hs, rfl | hc'⟩ := hc'
      · decide
      · have := List.all_eq_true.1 (hb s hs).1 c hc'
        simp [plainChar] at this; simp [this]
    · exact segsUrl_chars l hl v c hc'
  obtain ⟨hu, hq⟩ := takeWhile_noSpecial hchars
  refine ⟨hmeth, ⟨tail, v, ?_, hv, hseg⟩, ?_⟩
  · dsimp only; rw [hu, hurl]
  · dsimp only
    rw [hq] at h4
    rw [hoq] at h4
    obtain ⟨ps, hps, hd, hn⟩ := C12_decode _ q h4
    have : ps = qs := forall₂_determined (fun a b c h1 h2 => by
      exact C11_nothing_else h2 h1) hps hqs
    subst this
    exact ⟨hd, hn⟩

/-- C20 fails as stated: with the argument `..` the template cannot be recognised in the
request path. -/
theorem C20_roundtrip_fails : ∃ (args : List Value) (r : Request),
    Issues exCfg exOp args r ∧
    (parseUrlTail (r.url.drop "http://h".toList.length)).segments.map percentDecode ≠
      expectedSegs (fun _ => utf8 "..".toList) [.lit "v1".toList, .par "id".toList] :=
  ⟨[.plain (txt ".."), .plain (txt "x"), .opt none],
    { method := .get, url := "http://h/v1/..".toList, query := some "q=x".toList,
      headers := [(Hdr.apiVersion, utf8 "1.0".toList)], body := none }, ⟨_, _, rfl, rfl, rfl⟩, by decide⟩

example : Template.parse (segsText [.lit "v1".toList, .par "id".toList]) = .ok exOp.path := rfl
example : exCfg.baseurl = "http://h".toList ++ joinSegs [] := rfl
example : Forall₂ (fun (a : Str × Ser) ps => Means a.1 a.2 ps)
    (queryArgs exOp.params [.plain (txt "a/b"), .plain (txt "x y"), .opt (some (txt "t"))])
    [[("q".toList, "x y".toList)]] := .cons (.item _ _ (.scalar _ _ (.str _))) .nil

/-! ## C21 -/

/-- The event is a request being sent. -/
def Event.isSend : Event → Bool
  | .send _ => true
  | _ => false

/-- The number of requests sent. -/
def sends (l : List Event) : Nat := (l.filter Event.isSend).length

theorem sends_append (a b : List Event) : sends (a ++ b) = sends a + sends b := by simp [sends]

theorem finish_events (hooks : Hooks) (w : World) (decode : TypeId → Bytes → Except P V) (d : Resp.Dispatch)
    (hist : List Event) (reply : Reply) :
    (finish hooks w decode d hist reply).2 =
      hist ++ ((if hooks.post then [.postHook reply] else []) ++
        (if hooks.postAsync then [.postHookAsync reply] else [])) := by
  unfold finish
  dsimp only
  by_cases h1 : hooks.post = true <;> by_cases h2 : hooks.postAsync = true <;>
    simp only [h1, h2, if_true, if_false, Bool.false_eq_true] <;> (try split) <;> simp

theorem perform_events (hooks : Hooks) (w : World) (decode : TypeId → Bytes → Except P V) (d : Resp.Dispatch)
    (hist : List Event) (r : Request) :
    let pre : List Event := if hooks.pre then [.preHook r] else []
    let post : Reply → List Event := fun reply => (if hooks.post then [.postHook reply] else []) ++
      (if hooks.postAsync then [.postHookAsync reply] else [])
    (perform hooks w decode d hist r).2 = hist ++ (pre ++
      (if hooks.preAsync then .preHookAsync r ::
        match w.preAsync (hist ++ pre) r with
        | .error _ => []
        | .ok r' => .send r' :: post (w.server (hist ++ pre ++ [.preHookAsync r]) r')
      else .send r :: post (w.server (hist ++ pre) r))) := by
  intro pre post
  have hpre : (if hooks.pre then hist ++ [.preHook r] else hist) = hist ++ pre := by
    simp only [pre]; split <;> simp
  unfold perform
  rw [hpre]
  dsimp only
  cases hooks.preAsync with
  | false =>
    simp only [Bool.false_eq_true, if_false]
    rw [finish_events]; simp [post]
  | true =>
    simp only [if_true]
    cases w.preAsync (hist ++ pre) r with
    | error e => simp
    | ok r' =>
      dsimp only
      rw [finish_events]; simp [post]

/-- C21: a call sends at most one request. -/
theorem C21_at_most_one (cfg : Config) (hooks : Hooks) (w : World) (decode : TypeId → Bytes → Except P V)
    (params : List Param) (c : Code) (hist : List Event) (args : List Value) :
    ∃ evs, (call cfg hooks w decode params c hist args).2 = hist ++ evs ∧ sends evs ≤ 1 := by
  unfold call
  split
  · exact ⟨[], by simp, by simp [sends]⟩
  unfold run
  split
  · exact ⟨[], by simp, by simp [sends]⟩
  · exact ⟨[], by simp, by simp [sends]⟩
  · exact ⟨[], by simp, by simp [sends]⟩
  · exact ⟨[], by simp, by simp [sends]⟩
  · rename_i r _
    refine ⟨_, perform_events hooks w decode c.dispatch hist r, ?_⟩
    obtain ⟨a, b, c', d'⟩ := hooks
    cases a <;> cases b <;> cases c' <;> cases d' <;>
      simp only [if_true, if_false, Bool.false_eq_true, sends] <;> (try split) <;> simp [List.filter, Event.isSend]

/-- C21: exactly when a request is sent: it could be built, and no async pre-hook refused it. -/
theorem C21_sent_iff (cfg : Config) (hooks : Hooks) (w : World) (decode : TypeId → Bytes → Except P V)
    (params : List Param) (c : Code) (hist : List Event) (args : List Value) :
    ∃ evs, (call cfg hooks w decode params c hist args).2 = hist ++ evs ∧
      (sends evs = 1 ↔ ∃ env r, bindArgs params args = some env ∧ build cfg c env = .request r ∧
        (hooks.preAsync = true →
          ∃ r', w.preAsync (hist ++ if hooks.pre then [.preHook r] else []) r = .ok r')) := by
  unfold call
  split
  · rename_i hb
    refine ⟨[], by simp, by simp [sends], ?_⟩
    rintro ⟨env, r, h, _⟩
    rw [hb] at h; cases h
  rename_i env hb
  unfold run
  split
  · rename_i h
    refine ⟨[], by simp, by simp [sends], ?_⟩
    rintro ⟨env', r, h1, h2, _⟩
    rw [hb] at h1; cases h1
    rw [h] at h2; cases h2
  · rename_i h
    refine ⟨[], by simp, by simp [sends], ?_⟩
    rintro ⟨env', r, h1, h2, _⟩
    rw [hb] at h1; cases h1
    rw [h] at h2; cases h2
  · rename_i h
    refine ⟨[], by simp, by simp [sends], ?_⟩
    rintro ⟨env', r, h1, h2, _⟩
    rw [hb] at h1; cases h1
    rw [h] at h2; cases h2
  · rename_i h
    refine ⟨[], by simp, by simp [sends], ?_⟩
    rintro ⟨env', r, h1, h2, _⟩
    rw [hb] at h1; cases h1
    rw [h] at h2; cases h2
  · rename_i r h
    refine ⟨_, perform_events hooks w decode c.dispatch hist r, ?_⟩
    constructor
    · intro hs
      refine ⟨env, r, hb, h, ?_⟩
      intro hp
      simp only [hp, if_true] at hs
      cases hx : w.preAsync (hist ++ if hooks.pre then [.preHook r] else []) r with
      | ok r' => exact ⟨r', rfl⟩
      | error e =>
        rw [hx] at hs
        dsimp only at hs
        exfalso
        cases hpre : hooks.pre <;> simp [sends, List.filter, Event.isSend, hpre] at hs
    · rintro ⟨env', r', he, h', hp⟩
      rw [hb] at he; cases he
      rw [h] at h'; cases h'
      obtain ⟨a, b, c', d'⟩ := hooks
      cases b with
      | false => cases a <;> cases c' <;> cases d' <;> simp [sends, List.filter, Event.isSend]
      | true =>
        obtain ⟨r', hr'⟩ := hp rfl
        dsimp only at hr' ⊢
        rw [hr']
        cases a <;> cases c' <;> cases d' <;> simp [sends, List.filter, Event.isSend]

/-- C21: a call that fails locally has no effect at all: no hook runs, nothing is sent. -/
theorem C21_local_failure (cfg : Config) (hooks : Hooks) (w : World) (decode : TypeId → Bytes → Except P V)
    (params : List Param) (c : Code) (hist : List Event) (args : List Value)
    (h : ∀ env r, bindArgs params args = some env → build cfg c env ≠ .request r) :
    (call cfg hooks w decode params c hist args).2 = hist ∧
    ∀ rv, (call cfg hooks w decode params c hist args).1 ≠ .returned (.ok rv) := by
  unfold call
  split
  · exact ⟨rfl, by simp⟩
  rename_i env hb
  unfold run
  split
  · exact ⟨rfl, by simp⟩
  · exact ⟨rfl, by simp⟩
  · exact ⟨rfl, by simp⟩
  · exact ⟨rfl, by simp⟩
  · rename_i r hr; exact absurd hr (h env r hb)

/-- C21: an unserializable query argument is such a local failure. -/
theorem C21_bad_query (cfg : Config) (op : OperationMethod) (c : Code) (args : List Value)
    (hc : methodSigBody op = .ok c)
    (hq : ∃ p ∈ queryArgs op.params args, queryPairs p.1 p.2 = .error ()) :
    ∀ env r, bindArgs op.params args = some env → build cfg c env ≠ .request r := by
  intro env r hb h
  obtain ⟨c', env', o, hc', hb', _, ho, h⟩ := issues_parts ⟨c, env, hc, hb, h⟩
  rw [hc] at hc'; cases hc'
  rw [hb] at hb'; cases hb'
  obtain ⟨hm, label, body, q, _, _, _, h4, _⟩ := buildWith_request.mp h
  obtain ⟨_, hoq, _⟩ := operands_some hc hb ho
  rw [hoq] at h4
  have key : ∀ (l : List (Str × Ser)) q0 q, addQueries (.ok q0) l = .ok q →
      ∀ p ∈ l, queryPairs p.1 p.2 ≠ .error () := by
    intro l
    induction l with
    | nil => intro _ _ _ p hp; cases hp
    | cons x l ih =>
      obtain ⟨n, s⟩ := x
      intro q0 q hq p hp he
      simp only [addQueries] at hq
      cases ha : addQuery (.ok q0) n s with
      | error e =>
        rw [ha] at hq
        have : ∀ l, addQueries (.error e) l = .error e := by
          intro l
          induction l with
          | nil => rfl
          | cons x l ih => obtain ⟨n, v⟩ := x; exact ih
        rw [this] at hq; cases hq
      | ok q1 =>
        rw [ha] at hq
        rcases List.mem_cons.mp hp with rfl | hp
        · dsimp only at he
          simp only [addQuery, he] at ha
          cases ha
        · exact ih q1 q hq p hp he
  obtain ⟨p, hp, he⟩ := hq
  exact key _ _ _ h4 p hp he

example : ∃ p ∈ queryArgs exOp.params
      [.plain (txt "a"), .plain ⟨[], .newtypeStruct [] (.str ['x'])⟩, .opt none],
    queryPairs p.1 p.2 = .error () := ⟨_, List.mem_cons_self, rfl⟩

/-! ## C22 -/

/-- The steps of a call, in the order in which they must occur. -/
inductive Step where
  | pre | preAsync | request | post | postAsync
  deriving DecidableEq, Repr

def Event.step : Event → Step
  | .preHook _ => .pre
  | .preHookAsync _ => .preAsync
  | .send _ => .request
  | .postHook _ => .post
  | .postHookAsync _ => .postAsync

/-- The configured steps. -/
def configured (hooks : Hooks) : List Step :=
  [Step.pre, .preAsync, .request, .post, .postAsync].filter fun
    | .pre => hooks.pre
    | .preAsync => hooks.preAsync
    | .request => true
    | .post => hooks.post
    | .postAsync => hooks.postAsync

/-- C22: once the request is built the configured steps happen, in order, each once; all of
them, or, if the async pre-hook fails, those up to it. -/
theorem C22_order (hooks : Hooks) (w : World) (decode : TypeId → Bytes → Except P V) (d : Resp.Dispatch)
    (hist : List Event) (r : Request) :
    ∃ evs, (perform hooks w decode d hist r).2 = hist ++ evs ∧
      (evs.map Event.step = configured hooks ∨
        (hooks.preAsync = true ∧ (∃ e, (perform hooks w decode d hist r).1 = .returned (.error (.preHookError e))) ∧
          evs.map Event.step = (configured hooks).takeWhile (· ≠ .request))) := by
  refine ⟨_, perform_events hooks w decode d hist r, ?_⟩
  obtain ⟨a, b, c', d'⟩ := hooks
  cases b with
  | false => left; cases a <;> cases c' <;> cases d' <;> rfl
  | true =>
    dsimp only
    cases hx : w.preAsync (hist ++ if a = true then [.preHook r] else []) r with
    | ok r' => left; cases a <;> cases c' <;> cases d' <;> rfl
    | error e =>
      right
      refine ⟨rfl, ⟨e, ?_⟩, ?_⟩
      · cases a
        · simp only [Bool.false_eq_true, if_false, List.append_nil] at hx
          simp [perform, hx]
        · simp only [if_true] at hx
          simp [perform, hx]
      · cases a <;> cases c' <;> cases d' <;> rfl

/-- C22: what each step sees: the pre-hooks see the request that was built, the server gets
what the async pre-hook left of it, the post-hooks see the server's reply, and the result is the
async post-hook's error or else the answer decoded from the reply. -/
theorem C22_data (hooks : Hooks) (w : World) (decode : TypeId → Bytes → Except P V) (d : Resp.Dispatch)
    (hist : List Event) (r r' : Request)
    (hpre : if hooks.preAsync then
        w.preAsync (hist ++ if hooks.pre then [.preHook r] else []) r = .ok r' else r' = r) :
    ∃ before reply after,
      (perform hooks w decode d hist r).2 = hist ++ before ++ [.send r'] ++ after ∧
      reply = w.server (hist ++ before) r' ∧
      (∀ e ∈ before, e = .preHook r ∨ e = .preHookAsync r) ∧
      (∀ e ∈ after, e = .postHook reply ∨ e = .postHookAsync reply) ∧
      (∀ err, hooks.postAsync = true →
        w.postAsync (hist ++ before ++ [.send r'] ++ if hooks.post then [.postHook reply] else []) reply = .error err →
        (perform hooks w decode d hist r).1 = .returned (.error (.postHookError err))) ∧
      ((hooks.postAsync = true →
        w.postAsync (hist ++ before ++ [.send r'] ++ if hooks.post then [.postHook reply] else []) reply = .ok ()) →
        (perform hooks w decode d hist r).1 =
          match Resp.handle decode d reply with
          | none => .noCompile
          | some o => .returned o) := by
  have hfin : ∀ (h : List Event) (reply : Reply),
      (∀ err, hooks.postAsync = true →
        w.postAsync (h ++ if hooks.post then [.postHook reply] else []) reply = .error err →
        (finish hooks w decode d h reply).1 = .returned (.error (.postHookError err))) ∧
      ((hooks.postAsync = true →
        w.postAsync (h ++ if hooks.post then [.postHook reply] else []) reply = .ok ()) →
        (finish hooks w decode d h reply).1 =
          match Resp.handle decode d reply with
          | none => .noCompile
          | some o => .returned o) := by
    intro h reply
    have e : (if hooks.post then h ++ [.postHook reply] else h) =
        h ++ if hooks.post then [.postHook reply] else [] := by split <;> simp
    unfold finish
    rw [e]
    dsimp only
    constructor
    · intro err h1 h2
      rw [h1, h2]; rfl
    · intro h1
      by_cases h2 : hooks.postAsync = true
      · rw [h2, h1 h2]; rfl
      · rw [Bool.not_eq_true] at h2
        rw [h2]; rfl
  have hafter : ∀ reply, ∀ e ∈ ((if hooks.post then [Event.postHook reply] else []) ++
      (if hooks.postAsync then [Event.postHookAsync reply] else [])),
      e = .postHook reply ∨ e = .postHookAsync reply := by
    intro reply e he
    rcases List.mem_append.mp he with he | he
    · split at he
      · exact .inl (List.mem_singleton.mp he)
      · cases he
    · split at he
      · exact .inr (List.mem_singleton.mp he)
      · cases he
  have e : (if hooks.pre then hist ++ [.preHook r] else hist) =
      hist ++ if hooks.pre then [.preHook r] else [] := by split <;> simp
  cases hp : hooks.preAsync with
  | false =>
    rw [hp] at hpre
    simp only [Bool.false_eq_true, if_false] at hpre
    subst hpre
    have hperf : perform hooks w decode d hist r' =
        finish hooks w decode d (hist ++ (if hooks.pre then [.preHook r'] else []) ++ [.send r'])
          (w.server (hist ++ if hooks.pre then [.preHook r'] else []) r') := by
      unfold perform
      rw [e, hp]
      simp
    refine ⟨if hooks.pre then [.preHook r'] else [], _, _, ?_, rfl, ?_, hafter _, ?_, ?_⟩
    · rw [hperf, finish_events]
    · intro e he
      split at he
      · exact .inl (List.mem_singleton.mp he)
      · cases he
    · rw [hperf]; exact (hfin _ _).1
    · rw [hperf]; exact (hfin _ _).2
  | true =>
    rw [hp] at hpre
    simp only [if_true] at hpre
    have hperf : perform hooks w decode d hist r =
        finish hooks w decode d (hist ++ ((if hooks.pre then [.preHook r] else []) ++ [.preHookAsync r]) ++ [.send r'])
          (w.server (hist ++ ((if hooks.pre then [.preHook r] else []) ++ [.preHookAsync r])) r') := by
      unfold perform
      rw [e, hp]
      simp only [if_true, hpre]
      simp
    refine ⟨(if hooks.pre then [.preHook r] else []) ++ [.preHookAsync r], _, _, ?_, rfl, ?_, hafter _, ?_, ?_⟩
    · rw [hperf, finish_events]
    · intro e he
      rcases List.mem_append.mp he with he | he
      · split at he
        · exact .inl (List.mem_singleton.mp he)
        · cases he
      · exact .inr (List.mem_singleton.mp he)
    · rw [hperf]; exact (hfin _ _).1
    · rw [hperf]; exact (hfin _ _).2

/-- C22: a call that gets as far as a request is such a run. -/
theorem C22_call (cfg : Config) (hooks : Hooks) (w : World) (decode : TypeId → Bytes → Except P V)
    (op : OperationMethod) (c : Code) (hist : List Event) (args : List Value) (r : Request)
    (hc : methodSigBody op = .ok c) (h : Issues cfg op args r) :
    call cfg hooks w decode op.params c hist args = perform hooks w decode c.dispatch hist r := by
  obtain ⟨c', env, hc', hb, hbuild⟩ := h
  rw [hc] at hc'; cases hc'
  unfold call
  rw [hb]
  dsimp only [run]
  rw [hbuild]

example : configured ⟨true, true, false, true⟩ = [.pre, .preAsync, .request, .postAsync] := by decide
example : (configured ⟨true, true, false, true⟩).takeWhile (· ≠ .request) = [.pre, .preAsync] := by decide

end Progenitor.Props

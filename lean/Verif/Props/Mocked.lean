import Verif.Props.Mock
import Verif.Props.Reply

/-!
# C75: calls against mock servers
-/

namespace Progenitor.Props

open Progenitor Progenitor.Params Progenitor.Client Progenitor.Query Progenitor.Exec Progenitor.Spec Progenitor.Mock
open Progenitor.Template (PathTemplate Component render names)

/-- The guards: the template and base URL are left alone by URL and regular expression syntax, the expectations `fs` can be
written, path values given to the mock or the call need no encoding, query arguments are scalars, names are used once. -/
structure Mockable [JsonLib] (enc : Char → Str) (cfg : Config) (op : OperationMethod) (args : List Value) (r : Request)
    (fs : List (Param × Value)) : Prop where
  encoder : PathEncoder enc
  safe : SafeConsts op.path
  plain : PlainConsts op.path
  start : ∃ c t, op.path = .const ('/' :: c) :: t
  base : ∀ c ∈ cfg.baseurl, c ≠ '#' ∧ c ≠ '?'
  normal : ∀ tail, r.url = cfg.baseurl ++ tail → Normal tail
  expressible : ∀ p v, (p, v) ∈ fs → Expressible op.path p v
  known : ∀ p v, (p, v) ∈ fs → p ∈ op.params
  given : ∀ p a, (p, .plain a) ∈ fs → p.kind = .path → encodePath a.display = a.display ∧ ∀ c ∈ a.display, urlSafe c = true
  queries : ∀ p v b, (p, v) ∈ op.params.zip args → p.kind = .query b → SimpleArg v
  unique : ∀ p p', p ∈ op.params → p' ∈ op.params → p.apiName = p'.apiName →
    (p.kind = .path ∧ p'.kind = .path) ∨ (∃ b b', p.kind = .query b ∧ p'.kind = .query b') → p = p'

/-- What it means that the value `v`, given to a mock, is that of the argument `x`. -/
inductive Tells [JsonLib] (toJson : Ser → Except Unit Bytes) (p : Param) : Value → Value → Prop
  | path (v x) : p.kind = .path → argText v = argText x → Tells toJson p v x
  | query (v x b) : p.kind = .query b → argText v = argText x → Tells toJson p v x
  | json (a x ct b) : p.kind = .body ct → Encodes toJson ct x b → SameJson a.ser b → Tells toJson p (.plain a) x
  | text (m b) : p.kind = .body (.text m) → Tells toJson p (.raw b) (.raw b)

theorem instance_exists {ok : Str → Str → Prop} {t : PathTemplate} : ∀ {p : Str}, Instance ok t p → ∀ n ∈ names t, ∃ v, ok n v := by
  induction t with
  | nil => intro p _ n hn; simp [names] at hn
  | cons x t ih =>
    intro p h n hn
    cases x with
    | const s =>
      obtain ⟨r, rfl, h⟩ := h
      exact ih h n (by simpa [names] using hn)
    | param m =>
      obtain ⟨v, r, rfl, hv, h⟩ := h
      simp only [names, List.filterMap_cons, List.mem_cons] at hn
      rcases hn with rfl | hn
      · exact ⟨v, hv⟩
      · exact ih h n hn

theorem instance_of_render {ok : Str → Str → Prop} {t : PathTemplate} (ht : Separated t) {f : Str → Str}
    (hf : ∀ n ∈ names t, '/' ∉ f n) (h : Instance (fun n v => ok n v ∧ '/' ∉ v) t (render f t)) : ∀ n ∈ names t, ok n (f n) := by
  have h2 : Instance (fun n v => v = f n ∧ '/' ∉ v) t (render f t) := Regex.instance_render _ _ _ fun n hn => ⟨rfl, hf n hn⟩
  have := (Regex.instance_and ht).mp ⟨h, h2⟩
  intro n hn
  obtain ⟨v, ⟨h1, h2⟩, _⟩ := instance_exists this n hn
  exact h2 ▸ h1

theorem flatMap_id {g : Char → Str} : ∀ {l : Str}, (∀ c ∈ l, g c = [c]) → l.flatMap g = l := by
  intro l
  induction l with
  | nil => intro _; rfl
  | cons c l ih => intro h; rw [List.flatMap_cons, h c (by simp), ih fun d hd => h d (by simp [hd])]; rfl

/-- C49, guarded: if a mock restricted to values matches the request of a call, then the call was made with these values. -/
theorem C49_tells_partial [JsonLib] {cfg : Config} {op : OperationMethod} {args : List Value} {r : Request} {s : Seen}
    {enc : Char → Str} {fs : List (Param × Value)} (hm : Mockable enc cfg op args r fs) (hsep : Separated op.path)
    (hbn : BodyNamed op.params) (h : Issues cfg op args r) (hs : ServerSees enc cfg.baseurl r s)
    (hsame : ∀ p v t, (p, v) ∈ op.params.zip args → p.kind = .path → argText v = some t →
      encodePath t = t ∧ ∀ c ∈ t, urlSafe c = true)
    {w : When} (hw : whenAll op fs = .when w) (hmatch : w.Matches s) :
    ∀ p v, (p, v) ∈ fs → ∃ x, (p, x) ∈ op.params.zip args ∧ Tells cfg.toJson p v x := by
  obtain ⟨w', h1, h2⟩ := whenAll_spec op fs hm.plain hm.expressible
  rw [hw] at h1
  cases h1
  obtain ⟨⟨_, hinst⟩, hfil⟩ := (h2 s).mp hmatch
  obtain ⟨f, hf, hp, _, q, hq, hsq⟩ := seen_path hm.encoder h hm.safe hm.start hm.base hm.normal hs
  have hpair := seen_query hq hsq hm.queries
  have hbody := fun p v ct hpv hk => C19_body cfg op args r hbn h p v ct hpv hk
  obtain ⟨c, env, hc, hb, _⟩ := h
  obtain ⟨_, hlen, htyped, hlook⟩ := bindArgs_some hb
  obtain ⟨_, _, _, _, _, hsb⟩ := hs
  intro p v hpv
  have hpm := hm.known p v hpv
  obtain ⟨x, hx⟩ := mem_zip_of_left hlen hpm
  have hval : ∀ x', (p, x') ∈ op.params.zip args → x' = x := by
    intro x' hx'
    have := (hlook p x' hx').symm.trans (hlook p x hx)
    exact Option.some.inj this
  refine ⟨x, hx, ?_⟩
  have hF := hfil p v hpv
  have hE := hm.expressible p v hpv
  obtain ⟨name, api, typ, kind⟩ := p
  cases kind with
  | path =>
    cases v with
    | plain a =>
      obtain ⟨hcount, _⟩ := hE
      have hn : api ∈ names op.path := List.count_pos_iff.mp (by simp only at hcount; omega)
      have hF : Instance (fun m x => if m = api then x = a.display else '\n' ∉ x) op.path s.path := hF
      have hI := Regex.instance_and_slash.mp ⟨hinst, hF⟩
      rw [hp] at hI
      have := instance_of_render hsep (fun n _ => encoded_no_slash hm.encoder _) hI api hn
      rw [if_pos rfl] at this
      obtain ⟨p', x', hpx', hk', hn', ht⟩ := hf api hn
      have hpp := hm.unique p' ⟨name, api, typ, .path⟩ (List.of_mem_zip hpx').1 hpm hn' (.inl ⟨hk', rfl⟩)
      subst hpp
      have := hval x' hpx'
      subst this
      obtain ⟨he1, he2⟩ := hsame _ _ _ hx rfl ht
      refine .path _ _ rfl ?_
      rw [ht]
      show some a.display = some (f api)
      rw [he1, flatMap_id] at this
      · rw [this]
      · intro ch hch
        unfold encPath
        split
        · rename_i e; rw [e]
        · exact hm.encoder.safe ch (he2 ch hch)
    | opt a => exact hE.elim
    | raw b => exact hE.elim
    | internal => exact hE.elim
  | query b =>
    have hq' : ∀ t, (utf8 api, utf8 t) ∈ s.query → argText x = some t := by
      intro t ht
      obtain ⟨p', x', b', u, hpx', hk', hn', hu, e⟩ := (hpair _ _).mp ht
      have hpp := hm.unique p' ⟨name, api, typ, .query b⟩ (List.of_mem_zip hpx').1 hpm hn' (.inr ⟨_, _, hk', rfl⟩)
      subst hpp
      have := hval x' hpx'
      subst this
      rw [hu, utf8_injective e]
    refine .query _ _ b rfl ?_
    cases b with
    | true =>
      cases v with
      | plain a => exact (hq' _ hF).symm
      | opt a => exact hE.elim
      | raw b => exact hE.elim
      | internal => exact hE.elim
    | false =>
      cases v with
      | plain a => exact hE.elim
      | opt o =>
        cases o with
        | some a => exact (hq' _ hF).symm
        | none =>
          show none = _
          cases ht : argText x with
          | none => rfl
          | some u => exact absurd ((hpair _ _).mpr ⟨_, x, false, u, hx, rfl, rfl, ht, rfl⟩) (hF (utf8 u))
      | raw b => exact hE.elim
      | internal => exact hE.elim
  | header b => exact hE.elim
  | body ct =>
    obtain ⟨b, hrb, henc⟩ := hbody _ x ct hx rfl
    rw [hrb, Option.getD_some] at hsb
    cases v with
    | plain a =>
      have hF : SameJson a.ser s.body := hF
      rw [hsb] at hF
      exact .json a x ct b rfl henc hF
    | raw b' =>
      have hF : s.body = b' := hF
      rw [hsb] at hF
      subst hF
      cases typ with
      | type i => exact hE.elim
      | rawBody =>
        cases ct with
        | text m =>
          cases henc
          exact .text m b rfl
        | json => exact hE.elim
        | form => exact hE.elim
        | octetStream => exact hE.elim
    | opt o => cases typ <;> cases ct <;> exact hE.elim
    | internal => cases typ <;> cases ct <;> exact hE.elim

/-- The server of the world is a mock server at the base URL. -/
def MockServer [JsonLib] (enc : Char → Str) (auth : Str) (ms : List Mocked) (w : World) : Prop :=
  ∀ hist r s, ServerSees enc auth r s → ∃ answer, w.server hist r = .ok answer ∧ Answers ms s answer

/-- The answer set up by a call of a method of `Then`. -/
def SetUp (out : Nat × List (Str × Bytes) × Bytes) (answer : HttpResponse) : Prop :=
  answer.status = out.1 ∧ (∀ h ∈ out.2.1, h ∈ answer.headers) ∧ answer.body = .ok out.2.2

theorem then_covers {u : Names.Unicode} {x : Resp.Response} {m : ThenMethod} (hm : thenMethod u x = .ok m) {st : Nat} {body : Bytes}
    {out} (hout : m.call st body = some out) (hd : x.status ≠ .default) : Covers x.status out.1 := by
  match hst : x.status with
  | .code c =>
    obtain ⟨o, h3, h4⟩ := (C50_code u x m hm st body).1 c hst
    rw [hout] at h3; cases h3
    exact h4
  | .range k => rw [← hst]; exact ((C50_class u x m k hst hm st body).2 out hout).2
  | .default => exact absurd hst hd

/-- What the client makes of an answer with the status of a documented response. -/
theorem mock_delivered {P V : Type} (decode : TypeId → Bytes → Except P V) {ws df codes rs d}
    (h1 : Resp.processResponses ws df codes = .ok rs) (h2 : Resp.genMatch rs = .ok d) {x : Resp.Response} (hx : x ∈ rs)
    (hk : x.kind ≠ .upgrade) (answer : HttpResponse)
    (hc : x.status ≠ .default → Covers x.status answer.status)
    (hd : x.status = .default → ∀ y ∈ rs, y.status ≠ .default → ¬ Covers y.status answer.status)
    (hs : (200 ≤ answer.status ∧ answer.status < 300) ∨ (400 ≤ answer.status ∧ answer.status < 600)) :
    ∃ o, Resp.handle decode d (.ok answer) = some o ∧ Delivered decode answer x.kind o := by
  have hnone : x.status = .default → ∀ y ∈ rs, ¬ DocumentsSuccess y answer.status ∧ ¬ DocumentsError y answer.status := by
    intro h y hy
    by_cases hyd : y.status = .default
    · constructor
      · rintro ⟨hcov, _⟩; rw [hyd] at hcov; exact hcov
      · rintro ⟨hcov, _⟩; rw [hyd] at hcov; exact hcov
    · exact ⟨fun hh => hd h y hy hyd hh.1, fun hh => hd h y hy hyd hh.1⟩
  rcases hs with hs | hs
  · have : Resp.dispatch d.arms answer.status = some (.ok x.kind) := by
      refine (C23_classified h1 h2 _ _).mpr ?_
      by_cases h : x.status = .default
      · exact .successByDefault x hx h hs.1 hs.2 fun y hy => (hnone h y hy).1
      · exact .success x hx ⟨hc h, .inl hs⟩
    exact ⟨_, by simp only [Resp.handle, this]; rfl, .ok _ hs.1 hs.2 (perform_success decode _ _)⟩
  · have : Resp.dispatch d.arms answer.status = some (.err x.kind) := by
      refine (C23_classified h1 h2 _ _).mpr ?_
      by_cases h : x.status = .default
      · exact .errorByDefault x hx h (by omega) (hnone h) hk
      · exact .error x hx ⟨hc h, hs⟩
    exact ⟨_, by simp only [Resp.handle, this]; rfl, .error _ hs.1 hs.2 (perform_err decode _ hk)⟩

/-- C75, guarded: against a mock server on which a mock of the operation expects values of the call, the call sends one request,
the mock matches it, and the caller gets the answer of the mock: a success or an error response, by its status, with the value given to
the method of `Then`. -/
theorem C75_mocked_partial [JsonLib] {P V : Type} {san types path method d pr c} (hp : processOperation san types path method d = .ok pr)
    (hc : methodSigBody pr.op = .ok c) {enc : Char → Str} {cfg : Config} {args : List Value} {r : Request}
    {fs : List (Param × Value)} (hm : Mockable enc cfg pr.op args r fs) (h : Issues cfg pr.op args r)
    (hfs : ∀ p v, (p, v) ∈ fs → ∃ x, (p, x) ∈ pr.op.params.zip args ∧ Stands cfg p v x)
    {u : Names.Unicode} {x : Resp.Response} (hx : x ∈ pr.op.responses) (hk : x.kind ≠ .upgrade) {t : ThenMethod}
    (ht : thenMethod u x = .ok t) {st : Nat} {body : Bytes} {out} (hout : t.call st body = some out)
    (hd : x.status = .default → ∀ y ∈ pr.op.responses, y.status ≠ .default → ¬ Covers y.status out.1)
    (hs : (200 ≤ out.1 ∧ out.1 < 300) ∨ (400 ≤ out.1 ∧ out.1 < 600))
    {answer : HttpResponse} (hset : SetUp out answer)
    (hooks : Hooks) (w : World) (hlook : LooksOn hooks w) (decode : TypeId → Bytes → Except P V) (hist : List Event) :
    ∃ wh, whenAll pr.op fs = .when wh ∧ ∀ others,
      (∀ o ∈ others, ∀ s, ServerSees enc cfg.baseurl r s → ¬ o.when.Matches s) →
      MockServer enc cfg.baseurl (⟨wh, answer⟩ :: others) w →
      ∃ result, (call cfg hooks w decode pr.op.params c hist args).1 = .returned result ∧ Delivered decode answer x.kind result ∧
        ∃ before after, (call cfg hooks w decode pr.op.params c hist args).2 = hist ++ before ++ .send r :: after ∧
          sends before = 0 ∧ sends after = 0 := by
  obtain ⟨hbn, _, _, hrs, _⟩ := processOperation_inv hp
  obtain ⟨_, _, _, hgen, _⟩ := methodSigBody_ok hc
  obtain ⟨v, hv, hurl, _⟩ := request_parts h hm.safe hm.base
  obtain ⟨s, hsees⟩ : ∃ s, ServerSees enc cfg.baseurl r s := ⟨⟨r.method, _, _, _⟩, _, hurl, rfl, rfl, rfl, rfl⟩
  obtain ⟨wh, hw, hmatch⟩ := C49_request_partial hm.encoder h hm.safe hm.plain hm.start hm.base hm.normal hsees hbn fs hfs
    hm.expressible hm.given hm.queries hm.unique
  refine ⟨wh, hw, fun others hothers hserver => ?_⟩
  have hanswer : ∀ hist, w.server hist r = .ok answer := by
    intro hist
    obtain ⟨a, ha, hans⟩ := hserver hist r s hsees
    cases hans with
    | hit m hmem hm' =>
      rcases List.mem_cons.mp hmem with rfl | hmem
      · exact ha
      · exact absurd hm' (hothers m hmem s hsees)
    | miss _ hno => exact absurd hmatch (hno _ List.mem_cons_self)
  obtain ⟨o, ho, hdel⟩ := mock_delivered decode hrs hgen hx hk answer
    (fun hne => by rw [hset.1]; exact then_covers ht hout hne) (fun he y hy hyd => by rw [hset.1]; exact hd he y hy hyd)
    (by rw [hset.1]; exact hs)
  refine ⟨o, ?_, hdel, ?_⟩
  · rw [call_reply hc h hlook, hanswer, ho]
  · rw [C22_call cfg hooks w decode pr.op c hist args r hc h, perform_events]
    have hpost : ∀ reply : Reply, sends ((if hooks.post then [.postHook reply] else []) ++
        (if hooks.postAsync then [.postHookAsync reply] else [])) = 0 := by
      intro reply
      rw [sends_append]
      split <;> split <;> rfl
    cases hpre : hooks.preAsync with
    | false =>
      exact ⟨if hooks.pre then [.preHook r] else [], _, by
        simp only [Bool.false_eq_true, if_false, List.append_assoc]; rfl, by split <;> rfl, hpost _⟩
    | true =>
      exact ⟨(if hooks.pre then [.preHook r] else []) ++ [.preHookAsync r], _, by
        simp only [if_true, hlook.1 hpre, List.append_assoc, List.cons_append, List.nil_append]; rfl, by
        rw [sends_append]; split <;> rfl, hpost _⟩

/-- C75 fails as stated: with an expectation on a query parameter that is renamed, the call that has the value does not get the
answer of the mock but status 404. -/
theorem C75_renamed_fails [JsonLib] {P V : Type} (decode : TypeId → Bytes → Except P V) (hist : List Event) : ∃ w c,
    whenAll renamedOp [(⟨"page_size".toList, "pageSize".toList, .type 0, .query true⟩, .plain (txt "7"))] = .when w ∧
    methodSigBody renamedOp = .ok c ∧ ∀ answer world, MockServer exEnc exCfg.baseurl [⟨w, answer⟩] world →
      ∃ r, r.status = 404 ∧ (call exCfg ⟨false, false, false, false⟩ world decode renamedOp.params c hist [.plain (txt "7")]).1 =
        .returned (.error (.unexpectedResponse r)) := by
  obtain ⟨w, r, s, hw, h, hs, hm⟩ := C49_renamed_fails
  obtain ⟨c, hc⟩ : ∃ c, methodSigBody renamedOp = .ok c := ⟨_, rfl⟩
  refine ⟨w, c, hw, hc, fun answer world hserver => ?_⟩
  rw [call_reply hc h ⟨fun h => (by cases h), fun h => (by cases h)⟩]
  obtain ⟨a, ha, hans⟩ := hserver (hist ++ beforeSend ⟨false, false, false, false⟩ r) r s hs
  cases hans with
  | hit m hmem hm' =>
    cases List.mem_singleton.mp hmem
    exact absurd hm' hm
  | miss _ _ h404 =>
    refine ⟨a, h404, ?_⟩
    rw [ha]
    have : Resp.dispatch c.dispatch.arms a.status = some .unexpected := by
      rw [h404]
      have hc' : methodSigBody renamedOp = .ok _ := rfl
      rw [hc'] at hc
      cases hc
      rfl
    simp only [Resp.handle, this]
    rfl

/-! ## Examples -/

/-- The part of JSON that has strings without escapes. -/
@[instance_reducible] noncomputable def toyJson : JsonLib where
  J := Bytes
  value
    | .str s => some (utf8 ('"' :: s ++ ['"']))
    | _ => none
  parse b := open Classical in if ∃ t : Str, b = utf8 ('"' :: t) then some b else none

theorem toyJson_texts : @JsonTexts toyJson := by
  refine @JsonTexts.mk toyJson ?_ ?_
  · refine if_neg ?_
    rintro ⟨t, h⟩
    have : ([] : Str) = '"' :: t := utf8_injective h
    cases this
  · intro t _ hq
    refine if_neg ?_
    rintro ⟨t', h⟩
    rw [utf8_injective h] at hq
    simp at hq

theorem toyJson_same (s : Str) : @SameJson toyJson (.str s) (utf8 ('"' :: s ++ ['"'])) :=
  ⟨_, rfl, if_pos ⟨_, rfl⟩⟩

/-- A method with a body of this kind. -/
def putOp (typ : PType) (ct : ContentType) : OperationMethod where
  operationId := "put".toList
  tags := []
  method := .put
  path := [.const "/v1".toList]
  params := [⟨"body".toList, "body".toList, typ, .body ct⟩]
  responses := [⟨.code 200, .none⟩]
  websocket := false

theorem putOp_named (typ : PType) (ct : ContentType) : BodyNamed (putOp typ ct).params := by
  intro p hp ct hk
  simp only [putOp, List.mem_cons, List.not_mem_nil, or_false] at hp
  rw [hp]

def toyCfg : Config := { exCfg with toJson := fun
  | .str s => .ok (utf8 ('"' :: s ++ ['"']))
  | _ => .error () }

def bodyReq (mime : Str) (b : Bytes) : Request where
  method := .put
  url := "http://h/v1".toList
  query := none
  headers := [(Hdr.contentType, utf8 mime), (Hdr.apiVersion, utf8 "1.0".toList)]
  body := some b

theorem const_consts {P : Char → Prop} {t : Str} (h : ∀ c ∈ t, P c) : ∀ s, .const s ∈ ([.const t] : PathTemplate) → ∀ c ∈ s, P c := by
  intro s hs c hc
  simp only [List.mem_cons, Component.const.injEq, List.not_mem_nil, or_false] at hs
  subst hs
  exact h c hc

theorem body_normal (mime : Str) (b : Bytes) : ∀ tail, (bodyReq mime b).url = toyCfg.baseurl ++ tail → Normal tail := by
  intro tail h
  have : tail = "/v1".toList := (List.append_cancel_left (as := toyCfg.baseurl) (by rw [← h]; show "http://h".toList ++ _ = "http://h/v1".toList; decide)).symm
  subst this
  exact ⟨by decide, by decide⟩

/-- A mock with an expectation on a JSON body matches the request with that body. -/
example : ∃ w, @whenAll toyJson (putOp (.type 0) .json) [(⟨"body".toList, "body".toList, .type 0, .body .json⟩, .plain (txt "hi"))] =
      .when w ∧ @When.Matches toyJson w ⟨.put, "/v1".toList, [], utf8 "\"hi\"".toList⟩ := by
  refine @C49_request_partial toyJson toyCfg (putOp (.type 0) .json) [.plain (txt "hi")] (bodyReq Mime.json (utf8 "\"hi\"".toList)) _
    exEnc exEnc_ok ⟨_, _, rfl, rfl, rfl⟩ (const_consts (by decide)) (const_consts (by decide)) ⟨_, _, rfl⟩ (by decide)
    (body_normal _ _) ⟨"/v1".toList, rfl, rfl, by decide +kernel, by decide +kernel, rfl⟩ (putOp_named _ _) _ ?_ ?_ ?_ ?_ ?_
  · intro p v h
    simp only [List.mem_cons, List.not_mem_nil, or_false, Prod.mk.injEq] at h
    obtain ⟨rfl, rfl⟩ := h
    refine ⟨_, List.mem_cons_self, @Stands.json toyJson _ _ _ rfl ?_⟩
    intro b hb
    cases hb
    exact toyJson_same _
  · intro p v h
    simp only [List.mem_cons, List.not_mem_nil, or_false, Prod.mk.injEq] at h
    obtain ⟨rfl, rfl⟩ := h
    exact nofun
  · intro p a h hk
    simp only [List.mem_cons, List.not_mem_nil, or_false, Prod.mk.injEq] at h
    obtain ⟨rfl, _⟩ := h
    cases hk
  · intro p v b h hk
    simp only [putOp, List.zip_cons_cons, List.zip_nil_right, List.mem_cons, List.not_mem_nil, or_false, Prod.mk.injEq] at h
    obtain ⟨rfl, _⟩ := h
    cases hk
  · intro p p' hp hp' _ _
    simp only [putOp, List.mem_cons, List.not_mem_nil, or_false] at hp hp'
    rw [hp, hp']

def formArg : Arg := ⟨[], .struct "T".toList [("a".toList, .str "x".toList)]⟩

/-- A mock with an expectation on a form (that compiles and has a JSON value) misses the request with that form. -/
example : Issues toyCfg (putOp (.type 0) .form) [.plain formArg] (bodyReq Mime.form (utf8 "a=x".toList)) := ⟨_, _, rfl, rfl, rfl⟩

example : ∃ w, @whenAll toyJson (putOp (.type 0) .form) [(⟨"body".toList, "body".toList, .type 0, .body .form⟩, .plain (txt "a"))] = .when w ∧
    ¬ @When.Matches toyJson w ⟨.put, "/v1".toList, [], utf8 "a=x".toList⟩ := by
  obtain ⟨w, hw⟩ : ∃ w, @whenAll toyJson (putOp (.type 0) .form)
      [(⟨"body".toList, "body".toList, .type 0, .body .form⟩, .plain (txt "a"))] = .when w := ⟨_, rfl⟩
  exact ⟨w, hw, @C49_form_fails toyJson toyJson_texts toyCfg _ [.plain formArg] (bodyReq Mime.form (utf8 "a=x".toList)) _ exEnc
    ⟨_, _, rfl, rfl, rfl⟩ ⟨"/v1".toList, rfl, rfl, by decide +kernel, by decide +kernel, rfl⟩ (putOp_named _ _) _ List.mem_cons_self rfl
    _ _ List.mem_cons_self _ hw⟩

/-- Values given to a mock of `wireOp`. -/
def wireFilters : List (Param × Value) :=
  [(⟨"id".toList, "id".toList, .type 0, .path⟩, .plain (txt "x")), (⟨"q".toList, "q".toList, .type 1, .query true⟩, .plain (txt "a&b"))]

theorem wireMockable [JsonLib] : Mockable exEnc exCfg wireOp (wireArgs "x") (wireReq "x") wireFilters where
  encoder := exEnc_ok
  safe := by
    intro s hs c hc
    simp only [wireOp, List.mem_cons, Component.const.injEq, reduceCtorEq, List.not_mem_nil, or_false] at hs
    subst hs
    revert c
    decide
  plain := by
    intro s hs c hc
    simp only [wireOp, List.mem_cons, Component.const.injEq, reduceCtorEq, List.not_mem_nil, or_false] at hs
    subst hs
    revert c
    decide
  start := ⟨_, _, rfl⟩
  base := by decide
  normal := by
    intro tail h
    have : tail = "/v1/x".toList := (List.append_cancel_left (as := exCfg.baseurl) (by rw [← h]; decide)).symm
    subst this
    exact ⟨by decide, by decide⟩
  expressible := by
    intro p v h
    simp only [wireFilters, List.mem_cons, List.not_mem_nil, or_false, Prod.mk.injEq] at h
    rcases h with ⟨rfl, rfl⟩ | ⟨rfl, rfl⟩
    · exact ⟨by decide, by decide⟩
    · rfl
  known := by
    intro p v h
    simp only [wireFilters, List.mem_cons, List.not_mem_nil, or_false, Prod.mk.injEq] at h
    rcases h with ⟨rfl, rfl⟩ | ⟨rfl, rfl⟩ <;> simp [wireOp]
  given := by
    intro p a h hk
    simp only [wireFilters, List.mem_cons, List.not_mem_nil, or_false, Prod.mk.injEq] at h
    rcases h with ⟨rfl, h⟩ | ⟨rfl, _⟩
    · cases h; exact ⟨by decide +kernel, by decide⟩
    · cases hk
  queries := by
    intro p v b h hk
    simp only [wireOp, wireArgs, List.zip_cons_cons, List.zip_nil_right, List.mem_cons, List.not_mem_nil, or_false, Prod.mk.injEq] at h
    rcases h with ⟨rfl, rfl⟩ | ⟨rfl, rfl⟩ | ⟨rfl, rfl⟩
    · cases hk
    · exact .str _
    · cases hk
  unique := by
    intro p p' hp hp' hn hk
    simp only [wireOp, List.mem_cons, List.not_mem_nil, or_false] at hp hp'
    rcases hp with rfl | rfl | rfl <;> rcases hp' with rfl | rfl | rfl <;> first | rfl | (revert hn; decide)

theorem wireStands [JsonLib] : ∀ p v, (p, v) ∈ wireFilters → ∃ x, (p, x) ∈ wireOp.params.zip (wireArgs "x") ∧ Stands exCfg p v x := by
  intro p v h
  simp only [wireFilters, List.mem_cons, List.not_mem_nil, or_false, Prod.mk.injEq] at h
  rcases h with ⟨rfl, rfl⟩ | ⟨rfl, rfl⟩
  · exact ⟨_, by simp [wireOp, wireArgs], .same _ (by simp)⟩
  · exact ⟨_, by simp [wireOp, wireArgs], .same _ (by simp)⟩

/-- The hypotheses of `C49_tells_partial` can be met: for the mock and call above. -/
example [JsonLib] {w : When} {s : Seen} (hw : whenAll wireOp wireFilters = .when w) (hs : ServerSees exEnc exCfg.baseurl (wireReq "x") s)
    (hm : w.Matches s) : ∀ p v, (p, v) ∈ wireFilters → ∃ x, (p, x) ∈ wireOp.params.zip (wireArgs "x") ∧ Tells exCfg.toJson p v x := by
  refine C49_tells_partial wireMockable (by simp [wireOp, Separated]) ?_ (wireIssues "x" (by simp)) hs ?_ hw hm
  · intro p hp ct hk
    simp only [wireOp, List.mem_cons, List.not_mem_nil, or_false] at hp
    rcases hp with rfl | rfl | rfl <;> cases hk
  · intro p v t h hk ht
    simp only [wireOp, wireArgs, List.zip_cons_cons, List.zip_nil_right, List.mem_cons, List.not_mem_nil, or_false, Prod.mk.injEq] at h
    rcases h with ⟨rfl, rfl⟩ | ⟨rfl, rfl⟩ | ⟨rfl, rfl⟩
    · cases ht; exact ⟨by decide +kernel, by decide⟩
    · cases hk
    · cases hk

/-- What a mock server with one mock answers. -/
noncomputable def oneMock [JsonLib] (enc : Char → Str) (auth : Str) (m : Mocked) : World where
  preAsync _ r := .ok r
  server _ r := open Classical in
    if ∃ s, ServerSees enc auth r s ∧ m.when.Matches s then .ok m.answer else .ok ⟨404, [], .ok [], .ok 0⟩
  postAsync _ _ := .ok ()

theorem sees_unique {enc : Char → Str} {auth : Str} {r : Request} {s s' : Seen} (h : ServerSees enc auth r s)
    (h' : ServerSees enc auth r s') : s = s' := by
  obtain ⟨t, h1, h2, h3, h4, h5⟩ := h
  obtain ⟨t', h1', h2', h3', h4', h5'⟩ := h'
  have : t = t' := List.append_cancel_left (h1.symm.trans h1')
  subst this
  cases s; cases s'
  simp_all

theorem oneMock_server [JsonLib] (enc : Char → Str) (auth : Str) (m : Mocked) : MockServer enc auth [m] (oneMock enc auth m) := by
  intro hist r s hs
  by_cases hm : m.when.Matches s
  · exact ⟨_, if_pos ⟨s, hs, hm⟩, .hit m List.mem_cons_self hm⟩
  · refine ⟨_, if_neg ?_, .miss _ (fun m' hm' => ?_) rfl⟩
    · rintro ⟨s', hs', h⟩
      exact hm (sees_unique hs hs' ▸ h)
    · cases List.mem_singleton.mp hm'
      exact hm

/-- The call of `wireOp` against the mock of `wireOp` with these values gets the answer of the mock. -/
example [JsonLib] {c} (hc : methodSigBody wireOp = .ok c) (decode : TypeId → Bytes → Except Unit Nat) (hist : List Event) :
    ∃ wh, whenAll wireOp wireFilters = .when wh ∧ ∃ result,
      (call exCfg ⟨true, true, true, true⟩ (oneMock exEnc exCfg.baseurl ⟨wh, ⟨200, [], .ok [], .ok 0⟩⟩) decode wireOp.params c hist
        (wireArgs "x")).1 = .returned result ∧ Delivered decode ⟨200, [], .ok [], .ok 0⟩ .none result := by
  obtain ⟨wh, hw, _⟩ := whenAll_spec wireOp wireFilters wireMockable.plain wireMockable.expressible
  refine ⟨wh, hw, ?_⟩
  obtain ⟨wh', hw', h⟩ := C75_mocked_partial (u := exUnicode) (x := ⟨.code 200, .none⟩) (st := 0) (body := []) wireProcessed hc
    wireMockable (wireIssues "x" (by simp)) wireStands (List.mem_cons_self) (by simp) (t := ⟨"ok".toList, .fixed 200, false⟩)
    (by decide +kernel) (out := (200, [], [])) rfl (by simp) (by simp) (answer := ⟨200, [], .ok [], .ok 0⟩) ⟨rfl, by simp, rfl⟩
    ⟨true, true, true, true⟩ (oneMock exEnc exCfg.baseurl ⟨wh, ⟨200, [], .ok [], .ok 0⟩⟩) ⟨fun _ _ _ => rfl, fun _ _ _ => rfl⟩ decode hist
  rw [hw] at hw'
  cases hw'
  obtain ⟨result, h1, h2, _⟩ := h [] (by simp) (oneMock_server _ _ _)
  exact ⟨result, h1, h2⟩

end Progenitor.Props

import Verif.Spec.Paging
import Verif.Props.ListWords
import Verif.Props.Reply

/-!
# C84: a list that a server provides in pages arrives whole
-/

namespace Progenitor.Props

open Progenitor Progenitor.Params Progenitor.Client Progenitor.Query Progenitor.Exec Progenitor.Builder Progenitor.Cli Progenitor.Stream
open Progenitor.Spec

variable {Q E I B H P V : Type}

/-! ## Runs of streams -/

variable {σ : Type} {step : σ → Progenitor.Stream.Step Q (Answer E I) (Except E I) σ} {init : σ} {first : Q} {later : Str → Q}
  {answer : H → Q → Option (Answer E I × H)} {h0 : H}

/-- Whatever was received is given out. -/
theorem stream_drains (hst : PageStream B E I Q σ step init first later) (answer : H → Q → Option (Answer E I × H)) :
    ∀ (m k : Nat) (r : List (Act Q (Answer E I) (Except E I)) × σ × H) (rest : List (Except E I)),
      runFor step answer k init h0 = some r → elements (answers r.1) = yields r.1 ++ rest → rest.length = m →
      ∃ k' r', runFor step answer k' init h0 = some r' ∧ answers r'.1 = answers r.1 ∧ yields r'.1 = elements (answers r.1) ∧
        r'.2.2 = r.2.2
  | 0, k, r, rest, hr, he, hm => by
    rw [List.length_eq_zero_iff.mp hm, List.append_nil] at he
    exact ⟨k, r, hr, rfl, he.symm, rfl⟩
  | m + 1, k, r, rest, hr, he, hm => by
    have ht : Trace step init r.1 r.2.1 := by simpa using run_trace k .start hr
    obtain ⟨rest', s1, he', htaus, hnext⟩ := C32_progress hst ht
    rw [he] at he'
    have := List.append_cancel_left he'
    subst this
    cases rest with
    | nil => cases hm
    | cons x rest =>
      obtain ⟨s2, hs⟩ := hnext
      obtain ⟨k1, hk1⟩ := run_taus (answer := answer) htaus r.2.2
      have hk := run_add k k1 hr
      rw [hk1] at hk
      simp only [Option.map_some, List.append_nil] at hk
      have h2 := run_add (k + k1) 1 hk
      simp only [run_emit answer hs, Option.map_some] at h2
      have ha : answers (r.1 ++ [.emitted x]) = answers r.1 := by simp [answers]
      obtain ⟨k', r', h3, h4, h5, h6⟩ := stream_drains hst answer m _ _ rest h2 (by
        rw [ha, he, acts_yields]; simp [yields]) (by simpa using hm)
      exact ⟨k', r', h3, h4.trans ha, by rw [h5, ha], h6⟩

/-- What the answers to the calls are, arrives. -/
theorem stream_arrives (hst : PageStream B E I Q σ step init first later) {rs : List (Answer E I)} {h1 : H}
    (hf : Followed answer first later h0 rs h1) :
    ∃ k r, runFor step answer k init h0 = some r ∧ answers r.1 = rs ∧ yields r.1 = elements rs ∧ r.2.2 = h1 := by
  induction hf with
  | none => exact ⟨0, ([], init, h0), rfl, rfl, rfl, rfl⟩
  | next rs h1 h2 q a _ hq ha ih =>
    obtain ⟨k, r, hr, hra, hry, hrh⟩ := ih
    have ht : Trace step init r.1 r.2.1 := by simpa using run_trace k .start hr
    obtain ⟨rest, s1, he, htaus, hnext⟩ := C32_progress hst ht
    rw [hra, hry] at he
    have : rest = [] := by simpa using he
    subst this
    rw [hra, hq] at hnext
    obtain ⟨f, hs⟩ := hnext
    obtain ⟨k1, hk1⟩ := run_taus (answer := answer) htaus r.2.2
    have hk := run_add k k1 hr
    rw [hk1] at hk
    simp only [Option.map_some, List.append_nil] at hk
    have h3 := run_add (k + k1) 1 hk
    rw [hrh] at h3
    simp only [run_ask hs ha, Option.map_some] at h3
    have hans : answers (r.1 ++ [.asked q a]) = rs ++ [a] := by rw [acts_answers, hra]; rfl
    obtain ⟨rest, hp⟩ := C32_prefix hst (by simpa using run_trace _ .start h3)
    obtain ⟨k', r', h4, h5, h6, h7⟩ := stream_drains hst answer _ _ _ rest h3 hp rfl
    exact ⟨k', r', h4, h5.trans hans, by rw [h6, hans], h7⟩

/-- After the last answer, the stream ends. -/
theorem stream_ends (hst : PageStream B E I Q σ step init first later) {rs : List (Answer E I)} {h1 : H}
    (hf : Followed answer first later h0 rs h1) (hlast : nextCall first later rs = none) :
    ∃ k r, runFor step answer k init h0 = some r ∧ answers r.1 = rs ∧ yields r.1 = elements rs ∧ r.2.2 = h1 ∧ .ended ∈ r.1 := by
  obtain ⟨k, r, hr, hra, hry, hrh⟩ := stream_arrives hst hf
  have ht : Trace step init r.1 r.2.1 := by simpa using run_trace k .start hr
  obtain ⟨rest, s1, he, htaus, hnext⟩ := C32_progress hst ht
  rw [hra, hry] at he
  have : rest = [] := by simpa using he
  subst this
  rw [hra, hlast] at hnext
  obtain ⟨s2, hs⟩ := hnext
  obtain ⟨k1, hk1⟩ := run_taus (answer := answer) htaus r.2.2
  have hk := run_add k k1 hr
  rw [hk1] at hk
  simp only [Option.map_some, List.append_nil] at hk
  have h3 := run_add (k + k1) 1 hk
  have hdone : runFor step answer 1 s1 r.2.2 = some ([.ended], s2, r.2.2) := by
    unfold runFor
    rw [hs]
    rfl
  simp only [hdone, Option.map_some] at h3
  exact ⟨_, _, h3, by rw [acts_answers, hra]; simp [answers], by rw [acts_yields, hry]; simp [yields], hrh, by simp⟩

/-! ## Following tokens -/

theorem whole_last {first : Q} {later : Str → Q} {as : List (Answer E I)} : Whole as ↔ nextCall first later as = none := by
  unfold Whole nextCall
  rcases List.eq_nil_or_concat as with rfl | ⟨pre, a, rfl⟩
  · simp
  · simp only [List.concat_eq_append, List.getLast?_concat]
    constructor
    · rintro ⟨pre', a', he, h⟩
      obtain ⟨-, he⟩ := List.append_inj' he rfl
      cases he
      cases a with
      | ok page => simp [h page rfl]
      | error e => rfl
    · intro h
      refine ⟨pre, a, rfl, ?_⟩
      rintro page rfl
      simpa using h

theorem chain_followed {callOf : Option Str → Q} {pg : Option Str → Answer E I} {R : H → H → Nat → Prop}
    (hR : ∀ h h1 h2 n, R h h1 n → R h1 h2 1 → R h h2 (n + 1))
    (ha : ∀ h t, ∃ h', answer h (callOf t) = some (pg t, h') ∧ R h h' 1) {t : Option Str} {as : List (Answer E I)}
    (hc : Chain pg t as) {rs : List (Answer E I)} {h1 : H}
    (hf : Followed answer (callOf none) (fun t => callOf (some t)) h0 rs h1)
    (hn : nextCall (callOf none) (fun t => callOf (some t)) rs = some (callOf t)) (hr : R h0 h1 rs.length) :
    ∃ h2, Followed answer (callOf none) (fun t => callOf (some t)) h0 (rs ++ as) h2 ∧ R h0 h2 (rs ++ as).length := by
  induction hc generalizing rs h1 with
  | stop t => exact ⟨h1, by simpa using hf, by simpa using hr⟩
  | last t _ =>
    obtain ⟨h2, h3, h4⟩ := ha h1 t
    exact ⟨h2, .next _ _ _ _ _ hf hn h3, by simpa using hR _ _ _ _ hr h4⟩
  | more t page t' as hp hnext _ ih =>
    obtain ⟨h2, h3, h4⟩ := ha h1 t
    have := ih (.next _ _ _ _ _ hf hn h3) (by simp [nextCall, hp, hnext]) (by simpa using hR _ _ _ _ hr h4)
    simpa using this

/-! ## The requests for later pages exist -/

theorem mapM?_eq {α β : Type} {f g : α → Option β} {l : List α} (h : ∀ x ∈ l, f x = g x) : mapM? f l = mapM? g l := by
  induction l with
  | nil => rfl
  | cons x l ih => simp only [mapM?, h x (by simp), ih fun y hy => h y (by simp [hy])]

/-- With other query arguments, the other operands are the same. -/
theorem operands_again {op : OperationMethod} {c : Code} {vs ws : List Value} {env env' : Env} {base : Str} {o : Operands}
    (hw : BodyNamed op.params) (hty : NonBodyTyped op.params) (hc : methodSigBody op = .ok c) (hb : bindArgs op.params vs = some env)
    (hb' : bindArgs op.params ws = some env') (ho : operands c base env = some o)
    (hsame : ∀ p v w, (p, v) ∈ op.params.zip vs → (p, w) ∈ op.params.zip ws → (∀ r, p.kind ≠ .query r) → v = w) :
    ∃ qs, operands c base env' = some ⟨o.url, o.headers, qs, o.body⟩ := by
  obtain ⟨hnd, hlen, htyp, hlook⟩ := bindArgs_some hb
  obtain ⟨-, hlen', htyp', hlook'⟩ := bindArgs_some hb'
  obtain ⟨hvars, hcu, ⟨bs, hbs, hbs'⟩, _, _, _, _, hhs, hqs⟩ := methodSigBody_ok hc
  have hsl : ∀ p ∈ op.params, (∀ r, p.kind ≠ .query r) → lookup env p.name = lookup env' p.name := by
    intro p hp hk
    obtain ⟨v, hv⟩ := mem_zip_of_left hlen hp
    obtain ⟨w, hw⟩ := mem_zip_of_left hlen' hp
    rw [hlook p v hv, hlook' p w hw, hsame p v w hv hw hk]
  have hin : ∀ x, lookup env x = lookup env' x → lookup ((c.vars.headerMap, .internal) :: (c.vars.url, .internal) :: env) x =
      lookup ((c.vars.headerMap, .internal) :: (c.vars.url, .internal) :: env') x := by
    intro x hx
    unfold lookup at hx ⊢
    by_cases h1 : c.vars.headerMap = x
    · simp [h1]
    · by_cases h2 : c.vars.url = x
      · simp [h1, h2]
      · simpa [List.find?_cons, h1, h2] using hx
  have hargs : Template.compileArgs (urlRenames op.params) op.path = .ok c.url.args := by
    unfold Template.compile at hcu
    split at hcu
    · rename_i is his; rw [← Res.ok.inj hcu]; exact his
    · cases hcu
    · cases hcu
  have hmapeq := (Template.compileArgs_ok _ _ _).mp hargs
  have hdisp : mapM? (evalDisplay env) c.url.args = mapM? (evalDisplay env') c.url.args := by
    refine mapM?_eq fun i hi => ?_
    have : some i ∈ (Template.names op.path).map (urlRenames op.params) := hmapeq ▸ List.mem_map_of_mem hi
    obtain ⟨n, _, hn⟩ := List.mem_map.mp this
    obtain ⟨p, hp, hk, _, rfl⟩ := urlRenames_some hn
    unfold evalDisplay
    rw [hsl p hp (by rw [hk]; intro r h; cases h)]
  have hhead : mapM? (evalHeader ((c.vars.headerMap, .internal) :: (c.vars.url, .internal) :: env)) c.headers =
      mapM? (evalHeader ((c.vars.headerMap, .internal) :: (c.vars.url, .internal) :: env')) c.headers := by
    refine mapM?_eq fun s hs => ?_
    rw [hhs] at hs
    obtain ⟨p, hp, hps⟩ := List.mem_filterMap.mp hs
    split at hps
    · rename_i rq hk
      cases hps
      have := hin p.name (hsl p hp (by rw [hk]; intro r h; cases h))
      unfold evalHeader evalDisplay evalOptDisplay
      rw [this]
    · cases hps
  have hvis : encodeVisible c env = encodeVisible c env' := by
    rw [Bool.eq_iff_iff, encodeVisible_iff hb, encodeVisible_iff hb']
  unfold operands evalUrl at ho ⊢
  rw [← hvis, ← hdisp]
  split at ho
  · cases ho
  rename_i ds hds
  split at ho
  · cases ho
  rename_i url hurl
  dsimp only at ho ⊢
  rw [← hhead]
  split at ho
  · rename_i hs qs hhs' hqs'
    have hq : ∃ qs', mapM? (fun q : Str × Str => (evalSer ((c.vars.headerMap, .internal) :: (c.vars.url, .internal) :: env') q.2).map
        fun v => (q.1, v)) c.queries = some qs' := by
      refine mapM?_of fun s hs => ?_
      have hs' := hs
      rw [hqs] at hs
      obtain ⟨p, hp, hps⟩ := List.mem_filterMap.mp hs
      split at hps
      · rename_i rq hk
        cases hps
        have hm := mapM?_some hqs'
        have hmem := List.mem_map_of_mem (f := fun q : Str × Str => (evalSer ((c.vars.headerMap, .internal) :: (c.vars.url, .internal) ::
          env) q.2).map fun v => (q.1, v)) hs'
        rw [hm] at hmem
        obtain ⟨y, -, hy⟩ := List.mem_map.mp hmem
        obtain ⟨sv, hsv, -⟩ := Option.map_eq_some_iff.mp hy.symm
        obtain ⟨v', hv', hni, -⟩ := evalSer_some hsv
        have hne : c.vars.headerMap ≠ p.name ∧ c.vars.url ≠ p.name := by
          unfold lookup at hv'
          refine ⟨fun h => ?_, fun h => ?_⟩
          · simp [h] at hv'
            exact hni hv'.symm
          · by_cases h1 : c.vars.headerMap = p.name
            · simp [h1] at hv'
              exact hni hv'.symm
            · simp [h, h1] at hv'
              exact hni hv'.symm
        obtain ⟨w, hw⟩ := mem_zip_of_left hlen' hp
        have hl := lookup_internal_ne (env := env') hne.1 hne.2
        rw [hlook' p w hw] at hl
        obtain ⟨t, htt⟩ := hty p hp (by rw [hk]; intro ct h; cases h)
        rcases typed_plain (htyp' p w hw) htt with ⟨a, rfl⟩ | ⟨_, a, rfl⟩
        · exact ⟨_, by simp only [evalSer, hl, Option.map_some]; rfl⟩
        · cases a with
          | none => exact ⟨_, by simp only [evalSer, hl, Option.map_some]; rfl⟩
          | some a => exact ⟨_, by simp only [evalSer, hl, Option.map_some]; rfl⟩
      · cases hps
    obtain ⟨qs', hqs2⟩ := hq
    rw [hhs', hqs2]
    dsimp only
    split at ho
    · rename_i hbody
      cases ho
      exact ⟨qs', rfl⟩
    · rename_i b hbody
      obtain ⟨v, hv, rfl⟩ := Option.map_eq_some_iff.mp ho
      have hbl : lookup env "body".toList = lookup env' "body".toList := by
        have hne : ∃ p ∈ op.params, ∃ ct, p.kind = .body ct := by
          have : b ∈ op.params.filterMap bodyFn := by
            rw [← bodyFuncs_ok hbs, hbs', hbody]
            simp
          obtain ⟨p, hp, hpb⟩ := List.mem_filterMap.mp this
          unfold bodyFn at hpb
          refine ⟨p, hp, ?_⟩
          split at hpb
          · rename_i h; exact ⟨_, h⟩
          · rename_i h; exact ⟨_, h⟩
          · rename_i h; exact ⟨_, h⟩
          · rename_i h; exact ⟨_, h⟩
          · cases hpb
        obtain ⟨p, hp, ct, hk⟩ := hne
        have := hsl p hp (by rw [hk]; intro r h; cases h)
        rwa [hw p hp ct hk] at this
      have := hin _ hbl
      refine ⟨qs', ?_⟩
      have hbe : evalBody ((c.vars.headerMap, .internal) :: (c.vars.url, .internal) :: env) b =
          evalBody ((c.vars.headerMap, .internal) :: (c.vars.url, .internal) :: env') b := by
        cases b <;> simp only [evalBody, evalSer, this]
      rw [← hbe, hv]
      rfl
  · cases ho

theorem addQueries_total {l : List (Str × Ser)} : ∀ (q : Option Str), (∀ e ∈ l, ∃ ps, queryPairs e.1 e.2 = .ok ps) →
    ∃ q', addQueries (.ok q) l = .ok q' := by
  induction l with
  | nil => intro q _; exact ⟨q, rfl⟩
  | cons e l ih =>
    obtain ⟨n, v⟩ := e
    intro q h
    obtain ⟨ps, hps⟩ := h (n, v) (by simp)
    simp only [addQueries, addQuery]
    simp only at hps
    rw [hps]
    exact ih _ fun e he => h e (by simp [he])

theorem addQueries_each {l : List (Str × Ser)} : ∀ {q q' : Option Str}, addQueries (.ok q) l = .ok q' →
    ∀ e ∈ l, ∃ ps, queryPairs e.1 e.2 = .ok ps := by
  induction l with
  | nil => intro _ _ _ e he; cases he
  | cons e l ih =>
    obtain ⟨n, v⟩ := e
    intro q q' h
    simp only [addQueries, addQuery] at h
    cases hps : queryPairs n v with
    | error x =>
      rw [hps] at h
      have : ∀ l, addQueries (.error x) l = .error x := by
        intro l
        induction l with
        | nil => rfl
        | cons y l ih => obtain ⟨a, b⟩ := y; simp [addQueries, addQuery, ih]
      simp only [this] at h
      cases h
    | ok ps =>
      rw [hps] at h
      intro e he
      rcases List.mem_cons.mp he with rfl | he'
      · exact ⟨ps, hps⟩
      · exact ih h e he'

/-- A call that gets as far as a request for the first page does so for every other page. -/
theorem issues_later {cfg : Config} {op : OperationMethod} {vs : List Value} {r : Request} (h : Issues cfg op vs r)
    (hw : BodyNamed op.params) (hty : NonBodyTyped op.params) (hopt : ∀ p ∈ op.params, p.kind ≠ .query true)
    (htok : ∀ p ∈ op.params, p.apiName = "page_token".toList → p.kind = .query false) (t : Str) :
    ∃ r', Issues cfg op (List.zipWith (laterValue t) op.params vs) r' := by
  obtain ⟨c, env, o, hc, hb, hm, ho, hbw⟩ := issues_parts h
  obtain ⟨hnd, hlen, htyp, hlook⟩ := bindArgs_some hb
  have hb' := bindArgs_retype (ws := List.zipWith (laterValue t) op.params vs) hb (by simp [hlen]) (by
    intro p w hpw
    obtain ⟨v, hv, rfl⟩ := mem_zip_later hpw
    have hp := (List.of_mem_zip hv).1
    have hq : ∀ r, p.kind = .query r → ∀ a, typed p (.opt a) = true := by
      intro r hr a
      obtain ⟨ty, hty'⟩ := hty p hp (by rw [hr]; intro ct h; cases h)
      cases r with
      | true => exact absurd hr (hopt p hp)
      | false => simp [typed, hty', hr]
    unfold laterValue
    split
    · rename_i ha
      exact hq _ (htok p hp ha) _
    · split
      · rename_i h2
        obtain ⟨-, r, hr⟩ := h2
        exact hq r hr _
      · exact htyp p v hv)
  obtain ⟨qs, hqs⟩ := operands_again (base := cfg.baseurl) hw hty hc hb hb' ho (by
    intro p v w hv hw' hk
    obtain ⟨v', hv', rfl⟩ := mem_zip_later hw'
    have : v' = v := zip_functional hnd hv' hv
    subst this
    unfold laterValue
    rw [if_neg fun ha => hk _ (htok p (List.of_mem_zip hv).1 ha), if_neg fun h => hk _ h.2.choose_spec])
  have hoq := (operands_some hc hb' hqs).2.1
  dsimp only at hoq
  obtain ⟨hmap, label, body, q, h1, h2, h3, h4, -⟩ := buildWith_request.mp hbw
  rw [(operands_some hc hb ho).2.1] at h4
  have hold := addQueries_each h4
  obtain ⟨q', hq'⟩ := addQueries_total (l := qs) (initialQuery o.url) (by
    rw [hoq]
    intro e he
    obtain ⟨⟨p, w⟩, hpw, hs⟩ := List.mem_filterMap.mp he
    obtain ⟨v, hv, rfl⟩ := mem_zip_later hpw
    dsimp only at hs
    split at hs
    · rename_i rq hk
      obtain ⟨s, hs1, rfl⟩ := Option.map_eq_some_iff.mp hs
      unfold laterValue at hs1
      split at hs1
      · cases hs1
        exact ⟨_, rfl⟩
      · split at hs1
        · cases hs1
          exact ⟨_, rfl⟩
        · refine hold _ (List.mem_filterMap.mpr ⟨(p, v), hv, ?_⟩)
          simp only [hk, hs1]
          rfl
    · cases hs)
  have hbuilt := (buildWith_request (cfg := cfg) (c := c) (o := ⟨o.url, o.headers, qs, o.body⟩)).mpr
    ⟨hmap, label, body, q', h1, h2, h3, hq', rfl⟩
  have hb2 : ∃ r', build cfg c ((op.params.map Param.name).zip (List.zipWith (laterValue t) op.params vs)) = .request r' := by
    unfold build
    rw [(methodSigBody_ok hc).2.2.2.2.2.2.1, hm, hqs]
    exact ⟨_, hbuilt⟩
  obtain ⟨r', hb2⟩ := hb2
  exact ⟨r', c, _, hc, hb', hb2⟩

/-! ## Servers -/

/-- A reply to a paginated operation is, for the document, this page or this error. -/
inductive Shows (d : DocOperation) (decode : TypeId → Bytes → Except P V) (pageOf : V → Page I) :
    Reply → Answer (Error P (Resp.Inner V)) I → Prop
  | page (r act v st hs) : Treats d.websocket d.default d.codes r.status act → Gets decode r act (.ok ⟨.value v, st, hs⟩) →
      Shows d decode pageOf (.ok r) (.ok (pageOf v))
  | refused (r act e) : Treats d.websocket d.default d.codes r.status act → Gets decode r act (.error e) →
      Shows d decode pageOf (.ok r) (.error e)
  | lost (e) : Shows d decode pageOf (.error e) (.error (.communicationError e))

/-- A server provides the list `pg` when asked with the arguments `vs`: whenever it reads from a request the arguments for the page of
token `t`, it answers with that page (or fails to), whatever happened before. -/
def Provides (keys : Str → List Str) (segs : List Seg) (method : Str) (d : DocOperation) (params : List Param) (vs : List Value)
    (auth : Str) (base : List Str) (w : World) (decode : TypeId → Bytes → Except P V) (pageOf : V → Page I)
    (pg : Option Str → Answer (Error P (Resp.Inner V)) I) : Prop :=
  ∀ hist r t, Received keys segs method d.pathLevel d.opLevel (params.zip (pageValues params vs t)) auth base r →
    Shows d decode pageOf (w.server hist r) (pg t)

theorem gets_unique {decode : TypeId → Bytes → Except P V} {r : HttpResponse} {act : Resp.Act} {o o' : Resp.Outcome P V}
    (h : Gets decode r act o) (h' : Gets decode r act o') : o = o' := by
  cases h with
  | ok k o h => cases h' with | ok _ _ h' => cases h <;> cases h' <;> simp_all
  | error k o h => cases h' with | error _ _ h' => cases h <;> cases h' <;> simp_all
  | unexpected => cases h'; rfl

section
variable {u : Names.Unicode} {types : Types} {path method : Str} {d : DocOperation} {pr : Processed} {c : Code}

/-- The answer to the call for a page is what the server shows. -/
theorem page_answered (h : Lawful u) (hd : PropsDistinct types)
    (hp : processOperation (Names.sanitize u .snake) types path method d = .ok pr) {pd : Pagination} (hpg : pr.paginated = some pd)
    (hc : methodSigBody pr.op = .ok c)
    {segs : List Seg} (hpath : path = segsText segs) (hl : SegsOk segs) (hne : segs ≠ [])
    (hdp : NoDuplicates d.pathLevel) (hdo : NoDuplicates d.opLevel) (hun : NamesUnambiguous (d.pathLevel ++ d.opLevel))
    (hh : HeadersApart d.pathLevel d.opLevel)
    {cfg : Config} {auth : Str} {base : List Str} (hbase : BaseUrl cfg auth base)
    {hooks : Hooks} {w : World} {decode : TypeId → Bytes → Except P V} {pageOf : V → Page I} (hk : LooksOn hooks w)
    {keys : Str → List Str} (hkey : "page_token".toList ∈ keys "page_token".toList)
    {vs : List Value} (hrec : Recoverable keys segs pr.op.params vs) {r : Request} (hi : Issues cfg pr.op vs r)
    {pg : Option Str → Answer (Error P (Resp.Inner V)) I}
    (hserve : Provides keys segs method d pr.op.params vs auth base w decode pageOf pg) (hist : List Event) (t : Option Str) :
    ∃ hist', answerOf pageOf (fun h q => call cfg hooks w decode pr.op.params c h q) hist (pageValues pr.op.params vs t) =
      some (pg t, hist') ∧ ∃ evs, hist' = hist ++ evs ∧ sends evs = 1 := by
  have hnd := (bindArgs_some hi.choose_spec.choose_spec.2.1).1
  obtain ⟨-, htok⟩ := tokenNamed_of_document h hd hp hpg hnd
  obtain ⟨hbn, hnty, _, hrs, _⟩ := processOperation_inv hp
  obtain ⟨item, req⟩ := pd
  obtain ⟨-, -, -, hopt, -⟩ := (C37_paginated hd hp item req).mp hpg
  have hrec' : Recoverable keys segs pr.op.params (pageValues pr.op.params vs t) := by
    cases t with
    | none => exact hrec
    | some t => exact recoverable_later hrec htok hkey t
  have hi' : ∃ r', Issues cfg pr.op (pageValues pr.op.params vs t) r' := by
    cases t with
    | none => exact ⟨r, hi⟩
    | some t => exact issues_later hi hbn hnty hopt htok t
  obtain ⟨r', hi'⟩ := hi'
  have hrcv := C70_received_partial hp hpath hl hne hdp hdo hun hh hbase hi' hrec'
  have hsh := hserve (hist ++ beforeSend hooks r') r' t hrcv
  have hcall := call_reply (P := P) (V := V) (decode := decode) (hist := hist) hc hi' hk
  obtain ⟨_, _, _, hgen, _⟩ := methodSigBody_ok hc
  have hacc : Accepted d.websocket d.default d.codes c.dispatch := ⟨_, hrs, hgen⟩
  have hout : ∃ out, (call cfg hooks w decode pr.op.params c hist (pageValues pr.op.params vs t)).1 = .returned out ∧
      toAnswer pageOf out = some (pg t) := by
    rw [hcall]
    generalize w.server (hist ++ beforeSend hooks r') r' = reply at hsh
    have hget : ∀ r act o, Treats d.websocket d.default d.codes r.status act → Gets decode r act o →
        Resp.handle decode c.dispatch (.ok r) = some o := by
      intro r act o h1 h2
      obtain ⟨act', out, h3, h4, h5⟩ := C72_every_status decode hacc r
      have := C72_one_treatment hacc h1 h3
      subst this
      rw [h5, gets_unique h2 h4]
    generalize pg t = a at hsh
    cases hsh with
    | page r act v st hs h1 h2 => exact ⟨_, by rw [hget r act _ h1 h2], rfl⟩
    | refused r act e h1 h2 => exact ⟨_, by rw [hget r act _ h1 h2], rfl⟩
    | lost e => exact ⟨_, rfl, rfl⟩
  obtain ⟨out, ho1, ho2⟩ := hout
  obtain ⟨evs, hev, hs⟩ := C21_sent_iff cfg hooks w decode pr.op.params c hist (pageValues pr.op.params vs t)
  refine ⟨hist ++ evs, ?_, evs, rfl, hs.mpr ?_⟩
  · have : call cfg hooks w decode pr.op.params c hist (pageValues pr.op.params vs t) = (.returned out, hist ++ evs) :=
      Prod.ext ho1 hev
    simp only [answerOf, this, ho2, Option.map_some]
  · obtain ⟨c', env, hc', hb, hbuild⟩ := hi'
    rw [hc] at hc'
    cases hc'
    exact ⟨env, r', hb, hbuild, fun hpre => ⟨r', hk.1 hpre _ _⟩⟩

/-- C84, guarded: following the tokens from the first page on gives the answers that the server provides, with one request for each. -/
theorem C84_followed_partial (h : Lawful u) (hd : PropsDistinct types)
    (hp : processOperation (Names.sanitize u .snake) types path method d = .ok pr) {pd : Pagination} (hpg : pr.paginated = some pd)
    (hc : methodSigBody pr.op = .ok c)
    {segs : List Seg} (hpath : path = segsText segs) (hl : SegsOk segs) (hne : segs ≠ [])
    (hdp : NoDuplicates d.pathLevel) (hdo : NoDuplicates d.opLevel) (hun : NamesUnambiguous (d.pathLevel ++ d.opLevel))
    (hh : HeadersApart d.pathLevel d.opLevel)
    {cfg : Config} {auth : Str} {base : List Str} (hbase : BaseUrl cfg auth base)
    {hooks : Hooks} {w : World} {decode : TypeId → Bytes → Except P V} {pageOf : V → Page I} (hk : LooksOn hooks w)
    {keys : Str → List Str} (hkey : "page_token".toList ∈ keys "page_token".toList)
    {vs : List Value} (hrec : Recoverable keys segs pr.op.params vs) {r : Request} (hi : Issues cfg pr.op vs r)
    {pg : Option Str → Answer (Error P (Resp.Inner V)) I}
    (hserve : Provides keys segs method d pr.op.params vs auth base w decode pageOf pg) (hist : List Event)
    {as : List (Answer (Error P (Resp.Inner V)) I)} (hchain : Chain pg none as) :
    ∃ evs, Followed (answerOf pageOf fun h q => call cfg hooks w decode pr.op.params c h q) vs
      (fun t => List.zipWith (laterValue t) pr.op.params vs) hist as (hist ++ evs) ∧ sends evs = as.length := by
  obtain ⟨h2, h3, evs, rfl, h4⟩ := chain_followed (callOf := pageValues pr.op.params vs) (h0 := hist)
    (answer := answerOf pageOf fun h q => call cfg hooks w decode pr.op.params c h q)
    (R := fun h h' n => ∃ evs, h' = h ++ evs ∧ sends evs = n)
    (by
      rintro h h1 h2 n ⟨e1, rfl, s1⟩ ⟨e2, rfl, s2⟩
      exact ⟨e1 ++ e2, by simp, by rw [sends_append, s1, s2]⟩)
    (fun hist t => page_answered h hd hp hpg hc hpath hl hne hdp hdo hun hh hbase hk hkey hrec hi hserve hist t)
    hchain (rs := []) .none rfl ⟨[], by simp, rfl⟩
  exact ⟨evs, h3, h4⟩

/-- C84, guarded: the stream of the positional interface gives out the list that the server provides: the items of the pages in
order, up to the first error, which is last; then it ends.  It sends one request for each page. -/
theorem C84_positional_partial (h : Lawful u) (hd : PropsDistinct types)
    (hp : processOperation (Names.sanitize u .snake) types path method d = .ok pr) {pd : Pagination} (hpg : pr.paginated = some pd)
    (hc : methodSigBody pr.op = .ok c)
    {segs : List Seg} (hpath : path = segsText segs) (hl : SegsOk segs) (hne : segs ≠ [])
    (hdp : NoDuplicates d.pathLevel) (hdo : NoDuplicates d.opLevel) (hun : NamesUnambiguous (d.pathLevel ++ d.opLevel))
    (hh : HeadersApart d.pathLevel d.opLevel)
    {cfg : Config} {auth : Str} {base : List Str} (hbase : BaseUrl cfg auth base)
    {hooks : Hooks} {w : World} {decode : TypeId → Bytes → Except P V} {pageOf : V → Page I} (hk : LooksOn hooks w)
    {keys : Str → List Str} (hkey : "page_token".toList ∈ keys "page_token".toList)
    {vs : List Value} (hrec : Recoverable keys segs pr.op.params vs) {r : Request} (hi : Issues cfg pr.op vs r)
    (hfirst : ∀ p v, (p, v) ∈ pr.op.params.zip vs → p.apiName = "page_token".toList → v = .opt none)
    {a : List Value × (Str → List Value)} (ha : positionalArgs types pr.op.params (streamArgs pr.op.params vs) = some a)
    {pg : Option Str → Answer (Error P (Resp.Inner V)) I}
    (hserve : Provides keys segs method d pr.op.params vs auth base w decode pageOf pg) (hist : List Event)
    {as : List (Answer (Error P (Resp.Inner V)) I)} (hchain : Chain pg none as) :
    ∃ k tr st evs, runFor (posStep a) (answerOf pageOf fun h q => call cfg hooks w decode pr.op.params c h q) k (posInit a) hist =
        some (tr, st, hist ++ evs) ∧
      yields tr = elements as ∧ sends evs = as.length ∧ (Whole as → .ended ∈ tr) := by
  obtain ⟨evs, hf, hs⟩ := C84_followed_partial h hd hp hpg hc hpath hl hne hdp hdo hun hh hbase hk hkey hrec hi hserve hist hchain
  have hb := hi.choose_spec.choose_spec.2.1
  obtain ⟨hnd, hlen, -⟩ := bindArgs_some hb
  obtain ⟨htn, -⟩ := tokenNamed_of_document h hd hp hpg hnd
  obtain ⟨fa, la⟩ := a
  obtain ⟨rfl, hla⟩ := positional_values htn
    (fun p v hpv hn => hfirst p v hpv ((htn p (List.of_mem_zip hpv).1).mpr hn)) hlen ha
  have hla' : la = fun t => List.zipWith (laterValue t) pr.op.params fa := funext hla
  subst hla'
  by_cases hw : Whole as
  · obtain ⟨k, ⟨tr, st, h'⟩, h1, -, h2, rfl, h3⟩ := stream_ends (B := Unit) (.positional _ _) hf (whole_last.mp hw)
    exact ⟨k, tr, st, evs, h1, h2, hs, fun _ => h3⟩
  · obtain ⟨k, ⟨tr, st, h'⟩, h1, -, h2, rfl⟩ := stream_arrives (B := Unit) (.positional _ _) hf
    exact ⟨k, tr, st, evs, h1, h2, hs, fun h => absurd h hw⟩

/-- C84, guarded: so does the stream of the builder interface. -/
theorem C84_builder_partial (h : Lawful u) (hd : PropsDistinct types)
    (hp : processOperation (Names.sanitize u .snake) types path method d = .ok pr) {pd : Pagination} (hpg : pr.paginated = some pd)
    (hc : methodSigBody pr.op = .ok c)
    {segs : List Seg} (hpath : path = segsText segs) (hl : SegsOk segs) (hne : segs ≠ [])
    (hdp : NoDuplicates d.pathLevel) (hdo : NoDuplicates d.opLevel) (hun : NamesUnambiguous (d.pathLevel ++ d.opLevel))
    (hh : HeadersApart d.pathLevel d.opLevel)
    {cfg : Config} {auth : Str} {base : List Str} (hbase : BaseUrl cfg auth base)
    {hooks : Hooks} {w : World} {decode : TypeId → Bytes → Except P V} {pageOf : V → Page I} (hk : LooksOn hooks w)
    {keys : Str → List Str} (hkey : "page_token".toList ∈ keys "page_token".toList)
    {vs : List Value} (hrec : Recoverable keys segs pr.op.params vs) {r : Request} (hi : Issues cfg pr.op vs r)
    {tt : TypeTable B} {calls : List (Builder.Call B)} {s : State B} (hb : builderStream tt types pr.op.params calls = some s)
    (hv : Forall₂ (fun p v => Outcome tt p (inputsFor calls p.name) (.ok v)) pr.op.params vs)
    {pg : Option Str → Answer (Error P (Resp.Inner V)) I}
    (hserve : Provides keys segs method d pr.op.params vs auth base w decode pageOf pg) (hist : List Event)
    {as : List (Answer (Error P (Resp.Inner V)) I)} (hchain : Chain pg none as) :
    ∃ k tr st evs, runFor bldStep (answerOf pageOf fun h q => send cfg hooks w decode tt c h q) k (bldInit s) hist =
        some (tr, st, hist ++ evs) ∧
      yields tr = elements as ∧ sends evs = as.length ∧ (Whole as → .ended ∈ tr) := by
  obtain ⟨evs, hf, hs⟩ := C84_followed_partial h hd hp hpg hc hpath hl hne hdp hdo hun hh hbase hk hkey hrec hi hserve hist hchain
  obtain ⟨hnd, -⟩ := bindArgs_some hi.choose_spec.choose_spec.2.1
  obtain ⟨htn, -⟩ := tokenNamed_of_document h hd hp hpg hnd
  have hf' := followed_congr (answer' := answerOf pageOf fun h q => send cfg hooks w decode tt c h q) (first' := s)
    (later' := fun t => withToken t (nextTemplate s))
    (fun h => answerOf_congr pageOf (C33_builder_args cfg hooks w decode tt types pr.op.params c h calls s hb htn vs hv).1.symm)
    (fun h t => answerOf_congr pageOf ((C33_builder_args cfg hooks w decode tt types pr.op.params c h calls s hb htn vs hv).2 t).symm) hf
  by_cases hw : Whole as
  · obtain ⟨k, ⟨tr, st, h'⟩, h1, -, h2, rfl, h3⟩ := stream_ends (B := B) (.builder s) hf' (whole_last.mp hw)
    exact ⟨k, tr, st, evs, h1, h2, hs, fun _ => h3⟩
  · obtain ⟨k, ⟨tr, st, h'⟩, h1, -, h2, rfl⟩ := stream_arrives (B := B) (.builder s) hf'
    exact ⟨k, tr, st, evs, h1, h2, hs, fun h => absurd h hw⟩


theorem followed_snoc {Q E I H : Type} {answer : H → Q → Option (Answer E I × H)} {first : Q} {later : Str → Q} {h0 : H}
    {rs : List (Answer E I)} {r : Answer E I} {h : H} (hf : Followed answer first later h0 (rs ++ [r]) h) :
    ∃ h1 q, Followed answer first later h0 rs h1 ∧ nextCall first later rs = some q ∧ answer h1 q = some (r, h) := by
  generalize hx : rs ++ [r] = x at hf
  cases hf with
  | none => simp at hx
  | next rs' h1 h2 q r' hf hq ha =>
    obtain ⟨rfl, hr⟩ := List.append_inj' hx rfl
    cases hr
    exact ⟨h1, q, hf, hq, ha⟩

/-- Answers obtained by following tokens are the same, as far as they go. -/
theorem followed_compare {Q E I H : Type} {answer : H → Q → Option (Answer E I × H)} {first : Q} {later : Str → Q} {h0 : H}
    {rs rs' : List (Answer E I)} {h1 h2 : H} (h : Followed answer first later h0 rs h1) (h' : Followed answer first later h0 rs' h2) :
    rs <+: rs' ∨ rs' <+: rs := by
  induction h with
  | none => exact .inl (List.nil_prefix)
  | next rs h1 h3 q r hf hq ha ih =>
    rcases ih with ⟨b, rfl⟩ | hp
    · cases b with
      | nil => right; simp
      | cons r' b =>
        left
        obtain ⟨h4, h5, q', hf', hq', ha'⟩ := followed_prefix h'
        rw [hq] at hq'
        cases hq'
        rw [followed_unique hf hf', ha'] at ha
        cases ha
        exact ⟨b, by simp⟩
    · exact .inr (hp.trans (List.prefix_append _ _))

theorem followed_whole {Q E I H : Type} {answer : H → Q → Option (Answer E I × H)} {first : Q} {later : Str → Q} {h0 : H}
    {rs rs' : List (Answer E I)} {h2 : H} (h' : Followed answer first later h0 rs' h2) (hp : rs <+: rs')
    (hn : nextCall first later rs = none) : rs' = rs := by
  obtain ⟨b, rfl⟩ := hp
  cases b with
  | nil => simp
  | cons r b =>
    obtain ⟨_, _, q, _, hq, _⟩ := followed_prefix h'
    rw [hn] at hq
    cases hq

/-- What a command reports that returned with `o`, for the elements `es`: the items up to the first error, if there is one, and the end. -/
def Told (es : List (Except E I)) (reports : List (ListReport E I)) (o : Option E) : Prop :=
  ∃ is, es = is.map .ok ++ (o.map Except.error).toList ∧ reports = listReports is (some o)

/-- A list command whose answers are `as`, or as many of them as provide `n` elements. -/
theorem list_told {Q σ H : Type} {step : σ → Progenitor.Stream.Step Q (Answer E I) (Except E I) σ} {init : σ} {first : Q} {later : Str → Q}
    {answer : H → Q → Option (Answer E I × H)} {h0 h1 : H} {n : Nat} {as : List (Answer E I)}
    (hst : PageStream B E I Q σ step init first later) (hf : Followed answer first later h0 as h1)
    (hw : nextCall first later as = none ∨ n ≤ (elements as).length) :
    ∃ k tr h' o, runFor (cliStep true step) answer k (listInit n init) h0 = some (tr, .over o, h') ∧
      Told ((elements as).take n) (yields tr) o := by
  obtain ⟨k, ⟨tr, st, h'⟩, o, hr, ho⟩ := C81_ends (B := B) hst hf hw
  have hst' : st = .over o := by
    cases st <;> simp_all [listResult]
  subst hst'
  refine ⟨k, tr, h', o, hr, ?_⟩
  have ht := run_trace k .start hr
  have hf2 := run_followed (B := B) hst k .start .none hr
  rw [List.nil_append] at ht hf2
  have hls := listSays_of (B := B) hst ht first later
  dsimp only [endOf] at hf2 hls
  -- the elements are those of the list
  have same : (elements (answers tr)).length ≥ n ∨ nextCall first later (answers tr) = none →
      (elements (answers tr)).take n = (elements as).take n := by
    intro hx
    rcases followed_compare hf2 hf with hpre | hpre
    · rcases hx with hx | hx
      · obtain ⟨b, rfl⟩ := hpre
        rw [elements_append, List.take_append_of_le_length hx]
      · rw [followed_whole hf hpre hx]
    · rcases hw with hw | hw
      · rw [followed_whole hf2 hpre hw]
      · obtain ⟨b, hb⟩ := hpre
        rw [← hb, elements_append, List.take_append_of_le_length hw]
  unfold Told
  cases o with
  | none =>
    obtain ⟨is, h5, h6, h7⟩ := hls
    refine ⟨is, ?_, h5⟩
    rw [← same (h7.imp (fun h8 => ?_) id), h6]
    · simp
    · have := congrArg List.length h6
      simp at this
      omega
  | some e =>
    obtain ⟨is, h5, h6⟩ := hls
    refine ⟨is, ?_, h5⟩
    rw [← same ?_, h6]
    · simp
    · -- an error is the last answer
      have hmem : .error e ∈ elements (answers tr) := by
        have : .error e ∈ (elements (answers tr)).take n := by rw [h6]; simp
        exact List.mem_of_mem_take this
      right
      unfold elements at hmem
      obtain ⟨a, ha, hae⟩ := List.mem_flatMap.mp hmem
      cases a with
      | ok page => simp at hae
      | error e' =>
        obtain ⟨x, y, hxy⟩ := List.append_of_mem ha
        rcases List.eq_nil_or_concat y with rfl | ⟨y', z, rfl⟩
        · rw [hxy]; simp [nextCall]
        · exfalso
          rw [hxy, List.concat_eq_append] at hf2
          cases y' with
          | nil =>
            rw [show x ++ .error e' :: ([] ++ [z]) = (x ++ [.error e']) ++ [z] by simp] at hf2
            obtain ⟨_, q, _, hq, _⟩ := followed_snoc hf2
            simp [nextCall] at hq
          | cons y0 y' =>
            rw [show x ++ .error e' :: (y0 :: y' ++ [z]) = (x ++ [.error e']) ++ y0 :: (y' ++ [z]) by simp] at hf2
            obtain ⟨_, _, q, _, hq, _⟩ := followed_prefix hf2
            simp [nextCall] at hq

/-- C84, guarded: a list command prints the list that the server provides: the first elements, as many as `--limit` says, or all, up to
the first error; then it returns. -/
theorem C84_command_partial {ct : CliTypes} (h : Lawful u) (hd : PropsDistinct types)
    (hp : processOperation (Names.sanitize u .snake) types path method d = .ok pr) {pd : Pagination} (hpg : pr.paginated = some pd)
    (hc : methodSigBody pr.op = .ok c)
    {segs : List Seg} (hpath : path = segsText segs) (hl : SegsOk segs) (hne : segs ≠ [])
    (hdp : NoDuplicates d.pathLevel) (hdo : NoDuplicates d.opLevel) (hun : NamesUnambiguous (d.pathLevel ++ d.opLevel))
    (hh : HeadersApart d.pathLevel d.opLevel)
    {cfg : Config} {auth : Str} {base : List Str} (hbase : BaseUrl cfg auth base)
    {hooks : Hooks} {w : World} {decode : TypeId → Bytes → Except P V} {pageOf : V → Page I} (hk : LooksOn hooks w)
    {keys : Str → List Str} (hkey : "page_token".toList ∈ keys "page_token".toList)
    {vs : List Value} (hrec : Recoverable keys segs pr.op.params vs) {r : Request} (hi : Issues cfg pr.op vs r)
    {args : Args} {s e : Resp.Kind} (hm : cliMethod u ct pr.paginated pr.op = .ok (args, s, e)) (hn : Named u pr.op.params)
    {set : Str → Arg → B → B} {tt : TypeTable B} (hst : structOk tt pr.op.params true = true)
    (hbs : builderStreamOk types pr.op.params = true) (hcc : cliCompiles ct tt pr.op.params args = true)
    (hlaw : ∀ p ∈ pr.op.params, ∀ tb, HasBuilder tt p tb → ∀ a, tb.finish (tb.ofValue a) = .ok a)
    (hek : (∃ t, e = .type t) ∨ e = .none)
    (hlim : ∀ p ∈ pr.op.params, p.apiName = "limit".toList → ∀ t, p.typ = .type t → ct.nonZeroU32 t ≠ none)
    {ps : Parsers} {ws : List Str} {line : Line} (hmatch : matchesOf ps args (Cli.bodyType pr.op.params) ws = .ok line)
    (hj : line.json ≠ some none) (hv : Forall₂ (LineArg u tt set pr.paginated args line) pr.op.params vs) (max : Nat)
    {pg : Option Str → Answer (Error P (Resp.Inner V)) I}
    (hserve : Provides keys segs method d pr.op.params vs auth base w decode pageOf pg) (hist : List Event)
    {as : List (Answer (Error P (Resp.Inner V)) I)} (hchain : Chain pg none as) :
    ∃ n, LimitOf ct pr.op.params max line n ∧ (Whole as ∨ n ≤ (elements as).length →
      ∃ k tr hist' o, runList ps noOverride cfg hooks w decode pageOf max ct tt types set pr.op.params c (args, s, e) k hist ws =
        .ok (some (tr, .returned o, hist')) ∧ Told ((elements as).take n) (yields tr) o) := by
  obtain ⟨evs, hf, hs⟩ := C84_followed_partial h hd hp hpg hc hpath hl hne hdp hdo hun hh hbase hk hkey hrec hi hserve hist hchain
  obtain ⟨n, st, h1, h2, h3⟩ := list_running (P := P) (V := V) (I := I) h hd hp hpg hm hn hst hbs hcc hlaw hlim hmatch hj hv max
  refine ⟨n, h1, fun hw => ?_⟩
  have hf' := followed_congr (answer' := answerOf pageOf fun h q => send cfg hooks w decode tt c h q) (first' := st)
    (later' := fun t => withToken t (nextTemplate st)) (fun h => answerOf_congr pageOf (h2 cfg hooks w decode c h).1.symm)
    (fun h t => answerOf_congr pageOf ((h2 cfg hooks w decode c h).2 t).symm) hf
  obtain ⟨k, tr, hist', o, h4, h5⟩ := list_told (B := B) (.builder st) hf' (hw.imp whole_last.mp id)
  refine ⟨k, tr, hist', o, ?_, h5⟩
  rw [h3, reportable_of hek]
  unfold reportList
  rw [h4]
  rfl

/-- C81 fails for operations whose errors are not reported: if an error is among the elements wanted, the command panics after the items
before it; `list_end_error` is not called. -/
theorem C81_raw_fails {ct : CliTypes} (h : Lawful u) {types path method d pr} (hd : PropsDistinct types)
    (hp : processOperation (Names.sanitize u .snake) types path method d = .ok pr) {pd : Pagination} (hpg : pr.paginated = some pd)
    {args : Args} {s e : Resp.Kind} (hm : cliMethod u ct pr.paginated pr.op = .ok (args, s, e)) (hn : Named u pr.op.params)
    {set : Str → Arg → B → B} {tt : TypeTable B} (hst : structOk tt pr.op.params true = true)
    (hbs : builderStreamOk types pr.op.params = true) (hcc : cliCompiles ct tt pr.op.params args = true)
    (hlaw : ∀ p ∈ pr.op.params, ∀ tb, HasBuilder tt p tb → ∀ a, tb.finish (tb.ofValue a) = .ok a)
    (hek : e = .raw ∨ e = .upgrade)
    (hlim : ∀ p ∈ pr.op.params, p.apiName = "limit".toList → ∀ t, p.typ = .type t → ct.nonZeroU32 t ≠ none)
    {ps : Parsers} {ws : List Str} {line : Line} (hmatch : matchesOf ps args (Cli.bodyType pr.op.params) ws = .ok line)
    (hj : line.json ≠ some none) {vs : List Value} (hv : Forall₂ (LineArg u tt set pr.paginated args line) pr.op.params vs) (max : Nat) :
    ∃ n, LimitOf ct pr.op.params max line n ∧
      ∀ (cfg : Config) (hooks : Hooks) (w : World) (decode : TypeId → Bytes → Except P V) (pageOf : V → Page I) (c : Code)
        (hist : List Event) rs hist', Followed (answerOf pageOf fun h q => call cfg hooks w decode pr.op.params c h q) vs
            (fun t => List.zipWith (laterValue t) pr.op.params vs) hist rs hist' →
          nextCall vs (fun t => List.zipWith (laterValue t) pr.op.params vs) rs = none →
          ∀ is err, (elements rs).take n = is.map .ok ++ [.error err] →
          ∃ k tr hist'', runList ps noOverride cfg hooks w decode pageOf max ct tt types set pr.op.params c (args, s, e) k hist ws =
            .ok (some (tr, .panicked, hist'')) ∧ yields tr = listReports is none := by
  obtain ⟨n, st, h1, h2, h3⟩ := list_running (P := P) (V := V) (I := I) h hd hp hpg hm hn hst hbs hcc hlaw hlim hmatch hj hv max
  refine ⟨n, h1, fun cfg hooks w decode pageOf c hist rs hist' hf hlast is err hes => ?_⟩
  have hf' := followed_congr (answer' := answerOf pageOf fun h q => send cfg hooks w decode tt c h q) (first' := st)
    (later' := fun t => withToken t (nextTemplate st)) (fun h => answerOf_congr pageOf (h2 cfg hooks w decode c h).1.symm)
    (fun h t => answerOf_congr pageOf ((h2 cfg hooks w decode c h).2 t).symm) hf
  obtain ⟨k, tr, h'', o, h4, is', h5, h6⟩ := list_told (B := B) (.builder st) hf' (.inl (nextCall_none _ _ hlast))
  rw [hes] at h5
  have ho : o = some err ∧ is' = is := by
    cases o with
    | none =>
      exfalso
      have hmem : (.error err : Except (Error P (Resp.Inner V)) I) ∈ is.map .ok ++ [.error err] := by simp
      rw [h5] at hmem
      simp at hmem
    | some e' =>
      obtain ⟨h7, h8⟩ := List.append_inj' h5 rfl
      cases h8
      exact ⟨rfl, ((List.map_inj_right fun _ _ h => by cases h; rfl).mp h7).symm⟩
  obtain ⟨rfl, rfl⟩ := ho
  refine ⟨k, tr.filter quiet, h'', ?_, ?_⟩
  · rw [h3, show reportable e = false by rcases hek with rfl | rfl <;> rfl, reportList_raw]
    unfold reportList
    rw [h4]
    rfl
  · rw [yields_quiet, h6]
    simp [listReports, List.filter_append]

end

/-! ## Examples -/

def tokenDoc : DocParam := ⟨"page_token".toList, .query true none, false, true, 14⟩

/-- A server with two pages: the second one for any token. -/
def pageWorld : World where
  preAsync _ r := .ok r
  server _ r := .ok ⟨200, [], .ok (if reads ownKey "http://h".toList [] wirePath r tokenDoc = [] then [] else [0]), .ok 0⟩
  postAsync _ _ := .ok ()

theorem pageShows (b : Bytes) : Shows (P := Unit) (V := Nat) walkDoc (fun _ b => .ok b.length) walkPage (.ok ⟨200, [], .ok b, .ok 0⟩)
    (.ok (walkPage b.length)) := by
  refine .page _ (.ok (.type 10)) b.length 200 [] ?_ (.ok _ _ (.typed rfl rfl))
  refine .success (.code 200, [("application/json".toList, ⟨true, some 10⟩)]) _ (by simp [walkDoc, pageDoc]) ?_ ⟨?_, ?_⟩ ?_
  · rfl
  · exact Nat.le_refl 200
  · show 200 < 300; decide
  · exact .json [] _ _ [] 10 (by simp) (.inl rfl) rfl rfl

def pageLength : TypeId → Bytes → Except Unit Nat := fun _ b => .ok b.length

def pageOfToken : Option Str → Answer (Error Unit (Resp.Inner Nat)) Nat
  | none => .ok (walkPage 0)
  | some _ => .ok (walkPage 1)

theorem means_none {n : Str} {ps : List (Str × Str)} (h : Means n .none ps) : ps = [] := by
  generalize hx : Ser.none = v at h
  cases h with
  | item v t h =>
    subst hx
    cases h with
    | scalar _ _ h => cases h
    | none => rfl
  | _ => cases hx

theorem means_str {n t : Str} {ps : List (Str × Str)} (h : Means n (.some (.str t)) ps) : ps = [(n, t)] := by
  have hi : ∀ {t'}, Item (.str t) t' → t' = some t := by
    intro t' h
    generalize hx : Ser.str t = v at h
    cases h with
    | scalar v _ h => subst hx; cases h; rfl
    | _ => cases hx
  generalize hx : Ser.some (Ser.str t) = v at h
  cases h with
  | item v t' h =>
    subst hx
    cases h with
    | scalar _ _ h =>
      cases h with
      | some _ _ h => rw [Option.some.inj (hi (.scalar _ _ h))]; rfl
    | some _ _ h => rw [hi h]; rfl
  | some v ps h =>
    cases hx
    generalize hy : Ser.str t = v at h
    cases h with
    | item v t' h => subst hy; rw [hi h]; rfl
    | _ => cases hy
  | _ => cases hx

theorem pageProvides : Provides ownKey wirePath "get".toList walkDoc walkOp.params walkValues "http://h".toList [] pageWorld pageLength
    walkPage pageOfToken := by
  intro hist r t hr
  have hex : Effective walkDoc.pathLevel walkDoc.opLevel tokenDoc := .inl List.mem_cons_self
  obtain ⟨a, v, hav, hda, -, hexp⟩ := hr.received tokenDoc hex
  have hval : v = .opt (t.map fun t => ⟨t, .str t⟩) := by
    have hapi : a.apiName = "page_token".toList := hda.1
    cases t with
    | none =>
      simp only [pageValues, walkOp, walkValues, List.zip_cons_cons, List.zip_nil_right, List.mem_cons, List.not_mem_nil, or_false,
        Prod.mk.injEq] at hav
      rcases hav with ⟨rfl, rfl⟩ | ⟨rfl, rfl⟩ | ⟨rfl, rfl⟩
      · exact absurd hapi (by decide)
      · exact absurd hapi (by decide)
      · rfl
    | some t =>
      obtain ⟨v', -, rfl⟩ := mem_zip_later hav
      simp only [laterValue, hapi, if_pos]
      rfl
  generalize hreads : reads ownKey "http://h".toList [] wirePath r tokenDoc = rd at hexp
  cases hexp with
  | path _ _ hk => cases hk
  | header hk => cases hk
  | query k m s ps hk hs hm =>
    cases t with
    | none =>
      subst hval
      cases hs
      have := means_none hm
      subst this
      have : pageWorld.server hist r = .ok ⟨200, [], .ok [], .ok 0⟩ := by
        simp only [pageWorld, hreads, List.map_nil, if_pos]
      rw [this]
      exact pageShows []
    | some t =>
      subst hval
      cases hs
      have := means_str hm
      subst this
      have : pageWorld.server hist r = .ok ⟨200, [], .ok [0], .ok 0⟩ := by
        unfold pageWorld
        dsimp only
        rw [hreads, List.map_cons, if_neg (List.cons_ne_nil _ _)]
      rw [this]
      exact pageShows [0]

theorem pageChain : Chain pageOfToken none [.ok (walkPage 0), .ok (walkPage 1)] :=
  .more none (walkPage 0) "a".toList _ rfl rfl (.last (some "a".toList) (by intro page h; cases h; rfl))

theorem pageIssues : ∃ r, Issues exCfg walkOp walkValues r := ⟨_, _, _, rfl, rfl, rfl⟩

section
theorem pageGuards : NoDuplicates walkDoc.pathLevel ∧ NoDuplicates walkDoc.opLevel ∧
    NamesUnambiguous (walkDoc.pathLevel ++ walkDoc.opLevel) ∧ HeadersApart walkDoc.pathLevel walkDoc.opLevel := by
  refine ⟨by simp [NoDuplicates, walkDoc], by simp [NoDuplicates, walkDoc, pageDoc, SameParam],
    by simp [NamesUnambiguous, walkDoc, pageDoc], ?_⟩
  intro p hp hk
  simp [Effective, walkDoc, pageDoc] at hp
  rcases hp with (rfl | rfl) | ⟨rfl, _⟩ <;> cases hk

/- The positional stream gives out the items of both pages and ends. -/
example {c : Code} (hc : methodSigBody walkOp = .ok c) (hist : List Event) {a}
    (ha : positionalArgs pageTypes walkOp.params (streamArgs walkOp.params walkValues) = some a) :=
  C84_positional_partial exUnicode_lawful pageTypes_distinct walkProcessed rfl hc rfl wireReady.segs wireReady.nonempty
    pageGuards.1 pageGuards.2.1 pageGuards.2.2.1 pageGuards.2.2.2 wireBase (hooks := ⟨true, true, false, true⟩)
    ⟨fun _ _ _ => rfl, fun _ _ _ => rfl⟩ (by simp [ownKey]) walkRecoverable pageIssues.choose_spec (by
      intro p v hpv hn
      simp only [walkOp, walkValues, List.zip_cons_cons, List.zip_nil_right, List.mem_cons, List.not_mem_nil, or_false,
        Prod.mk.injEq] at hpv
      rcases hpv with ⟨rfl, rfl⟩ | ⟨rfl, rfl⟩ | ⟨rfl, rfl⟩
      · exact absurd hn (by decide)
      · exact absurd hn (by decide)
      · rfl) ha pageProvides hist pageChain

example : (positionalArgs pageTypes walkOp.params (streamArgs walkOp.params walkValues)).isSome = true := by decide +kernel

example : elements (E := Error Unit (Resp.Inner Nat)) [.ok (walkPage 0), .ok (walkPage 1)] = [.ok 1, .ok 2, .ok 3] := rfl

example : Whole (E := Error Unit (Resp.Inner Nat)) [.ok (walkPage 0), .ok (walkPage 1)] :=
  ⟨[.ok (walkPage 0)], .ok (walkPage 1), rfl, fun page h => by cases h; rfl⟩

def pageCalls : List (Builder.Call Unit) := [("limit".toList, .value (.ok (txt "2"))), ("id".toList, .value (.ok (txt "x")))]

theorem pageBuilt : ∃ s, builderStream walkTable pageTypes walkOp.params pageCalls = some s := ⟨_, rfl⟩

theorem pageOutcomes : Forall₂ (fun p v => Outcome walkTable p (inputsFor pageCalls p.name) (.ok v)) walkOp.params walkValues := by
  have no : ∀ p ∈ walkOp.params, ∀ tb, ¬ HasBuilder walkTable p tb := by
    intro p hp tb h
    obtain ⟨_, _, _, h, h'⟩ := h
    cases h'
  refine .cons ?_ (.cons ?_ (.cons ?_ .nil))
  · exact .given [] [] _ ⟨0, rfl, rfl, no _ (by simp [walkOp])⟩ (by simp [Optional])
  · exact .givenOptional [] [] _ ⟨0, rfl, rfl, no _ (by simp [walkOp])⟩ (.inl rfl)
  · exact .absent [] ⟨14, rfl, rfl, no _ (by simp [walkOp])⟩ (.inl rfl)

/- So does the builder's. -/
example {c : Code} (hc : methodSigBody walkOp = .ok c) (hist : List Event) :=
  C84_builder_partial exUnicode_lawful pageTypes_distinct walkProcessed rfl hc rfl wireReady.segs wireReady.nonempty
    pageGuards.1 pageGuards.2.1 pageGuards.2.2.1 pageGuards.2.2.2 wireBase (hooks := ⟨true, true, false, true⟩)
    ⟨fun _ _ _ => rfl, fun _ _ _ => rfl⟩ (by simp [ownKey]) walkRecoverable pageIssues.choose_spec pageBuilt.choose_spec pageOutcomes
    pageProvides hist pageChain

/- And the command, up to the limit of two. -/
example {c : Code} (hc : methodSigBody walkOp = .ok c) (hist : List Event) :=
  C84_command_partial (set := fun _ _ b => b) (tt := walkTable) exUnicode_lawful pageTypes_distinct walkProcessed rfl hc rfl
    wireReady.segs wireReady.nonempty pageGuards.1 pageGuards.2.1 pageGuards.2.2.1 pageGuards.2.2.2 wireBase
    (hooks := ⟨true, true, false, true⟩) ⟨fun _ _ _ => rfl, fun _ _ _ => rfl⟩ (by simp [ownKey]) walkRecoverable pageIssues.choose_spec
    walkMethod walkNamed (by decide +kernel) (by decide +kernel) (by decide +kernel) (by rintro p hp tb ⟨t, ct, h1, h2, h3⟩; cases h3)
    (.inr rfl) (by intro p _ _ t _ h; cases h) walkMatches (by intro h; cases h) walkLineArgs 1000 pageProvides hist pageChain

/- An operation whose errors are not reported: a server that cannot be reached. -/
def rawDoc : DocOperation := { walkDoc with codes := walkDoc.codes ++ [(.range 5, [("text/plain".toList, ⟨true, some 0⟩)])] }

def rawOp : OperationMethod := { walkOp with responses := [⟨.code 200, .type 10⟩, ⟨.range 5, .raw⟩] }

theorem rawProcessed : processOperation (Names.sanitize exUnicode .snake) pageTypes (segsText wirePath) "get".toList rawDoc =
    .ok ⟨rawOp, some ⟨13, []⟩⟩ := rfl

theorem rawMethod : cliMethod exUnicode walkTypes (some ⟨13, []⟩) rawOp = .ok (walkArgs, .type 10, .raw) := by decide +kernel

example :=
  C81_raw_fails (P := Unit) (V := Nat) (I := Nat) (set := fun _ _ b => b) (tt := walkTable) exUnicode_lawful pageTypes_distinct
    rawProcessed rfl rawMethod walkNamed (by decide +kernel) (by decide +kernel) (by decide +kernel)
    (by rintro p hp tb ⟨t, ct, h1, h2, h3⟩; cases h3) (.inl rfl) (by intro p _ _ t _ h; cases h) walkMatches (by intro h; cases h)
    walkLineArgs 1000

example : (elements (E := Nat) (I := Nat) [.ok ⟨[1], some []⟩, .error 7]).take 2 = [1].map .ok ++ [.error 7] := rfl

end

end Progenitor.Props

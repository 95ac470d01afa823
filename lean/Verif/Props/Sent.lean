import Verif.Props.CompilesDoc
import Verif.Props.FormExact

/-!
# C101: the calls that send nothing
-/

namespace Progenitor.Props

open Progenitor Progenitor.Params Progenitor.Client Progenitor.Query Progenitor.Exec Progenitor.Spec

/-! ## What is said about a call -/

/-- The header is not given, or has a name and a value that can be sent. -/
def HeaderFine (e : Str × Option Str) : Prop := ∀ t, e.2 = some t → LegalValue t ∧ LegalName e.1

/-- The first header, in the order of the signature, that cannot be sent. -/
def FirstBad (hs : List (Str × Option Str)) (n t : Str) : Prop :=
  ∃ pre post, hs = pre ++ (n, some t) :: post ∧ (∀ e ∈ pre, HeaderFine e) ∧ ¬ (LegalValue t ∧ LegalName n)

/-- `x` is the argument for the body, with content type `ct`. -/
def BodyArg (params : List Param) (args : List Value) (ct : ContentType) (x : Ser) : Prop :=
  ∃ p v, (p, v) ∈ params.zip args ∧ p.kind = .body ct ∧ argSer v = some x

/-- The URL of a call: the base URL, and the path with arguments for parameters. -/
def UrlOf (base route : Str) (params : List Param) (args : List Value) (url : Str) : Prop :=
  ∃ v : Str → Str, (∀ n ∈ braceGroups route, PathArg params args n (v n)) ∧
    url = base ++ substGroups (fun n => encodePath (v n)) (collapse route)

/-- The argument for the body is not one that can be sent as a form. -/
def BadForm (params : List Param) (args : List Value) : Prop := ∃ x, BodyArg params args .form x ∧ ∀ ps, ¬ FormOf x ps

/-- There is no such URL, an argument cannot be sent in the query, or that for the body has no JSON. -/
def BadParts (cfg : Config) (url : Str) (params : List Param) (args : List Value) : Prop :=
  cfg.validUrl url = false ∨ (∃ a ∈ queryArgs params args, ∀ ps, ¬ QueryOf a.1 a.2 ps) ∨
    ∃ x, BodyArg params args .json x ∧ cfg.toJson x = .error ()

/-! ## Lemmas -/

theorem runHeaders_bad {acc : Headers} {hs : List (Str × Option Str)} {n t : Str} (h : FirstBad hs n t) :
    (¬ LegalValue t → runHeaders acc hs = .invalid) ∧ (LegalValue t → runHeaders acc hs = .panicked) := by
  obtain ⟨pre, post, rfl, hpre, hbad⟩ := h
  induction pre generalizing acc with
  | nil =>
    simp only [List.nil_append, runHeaders]
    refine ⟨fun hv => ?_, fun hv => ?_⟩
    · rw [if_neg (by rwa [legalValue_iff])]
    · rw [if_pos ((legalValue_iff t).mpr hv), if_neg (by rw [legalName_iff]; exact fun hn => hbad ⟨hv, hn⟩)]
  | cons e pre ih =>
    have ih' := fun acc => ih (acc := acc) fun e he => hpre e (List.mem_cons_of_mem _ he)
    obtain ⟨m, o⟩ := e
    cases o with
    | none => simp only [List.cons_append, runHeaders]; exact ih' acc
    | some s =>
      obtain ⟨h1, h2⟩ := hpre (m, some s) (List.mem_cons_self ..) s rfl
      simp only [List.cons_append, runHeaders]
      rw [if_pos ((legalValue_iff s).mpr h1), if_pos ((legalName_iff m).mpr h2)]
      exact ih' _

theorem addQueries_isOk {l : List (Str × Ser)} (q0 : Option Str) (h : ∀ p ∈ l, ∃ ps, queryPairs p.1 p.2 = .ok ps) :
    ∃ q, addQueries (.ok q0) l = .ok q := by
  induction l generalizing q0 with
  | nil => exact ⟨q0, rfl⟩
  | cons x l ih =>
    obtain ⟨ps, hps⟩ := h x (List.mem_cons_self ..)
    simp only [addQueries, addQuery, hps]
    exact ih _ fun p hp => h p (List.mem_cons_of_mem _ hp)

theorem addQueries_notOk {l : List (Str × Ser)} {q0 q : Option Str} (h : addQueries (.ok q0) l = .ok q) :
    ∀ p ∈ l, ∃ ps, queryPairs p.1 p.2 = .ok ps := by
  induction l generalizing q0 with
  | nil => intro p hp; cases hp
  | cons x l ih =>
    simp only [addQueries, addQuery] at h
    cases hx : queryPairs x.1 x.2 with
    | error e =>
      rw [hx] at h
      have : ∀ l : List (Str × Ser), addQueries (.error e) l = .error e := by
        intro l
        induction l with
        | nil => rfl
        | cons y l ih => exact ih
      rw [this] at h
      cases h
    | ok ps =>
      rw [hx] at h
      intro p hp
      rcases List.mem_cons.mp hp with rfl | hp
      · exact ⟨ps, hx⟩
      · exact ih h p hp

/-- Once the headers are made and the body is written, there is a request, or the error of `reqwest`. -/
theorem buildWith_cases {cfg : Config} {c : Code} {o : Operands} {hm : Headers} (hh : buildHeaders cfg o.headers = .ok hm) :
    (∀ x, o.body = some (.form x) → top x = .error () → buildWith cfg c o = .invalidRequest "failed to serialize body".toList) ∧
    ((∀ x, o.body = some (.form x) → ∃ ps, top x = .ok ps) →
      buildWith cfg c o = .communicationError ∨ ∃ r, buildWith cfg c o = .request r) := by
  unfold buildWith
  rw [hh]
  dsimp only
  refine ⟨fun x hx ht => ?_, fun hx => ?_⟩
  · simp only [hx, applyBody, formBody, ht]
  · have : ∃ rb, applyBody cfg (if c.accept = true then (RB.start cfg c.method o.url).header Hdr.accept Mime.json
        else RB.start cfg c.method o.url) o.body = .ok rb := by
      cases hb : o.body with
      | none => exact ⟨_, rfl⟩
      | some b =>
        cases b with
        | raw ct b => exact ⟨_, rfl⟩
        | json v => exact ⟨_, rfl⟩
        | form v =>
          obtain ⟨ps, hps⟩ := hx v hb
          simp only [applyBody, formBody, hps]
          exact ⟨_, rfl⟩
    obtain ⟨rb, hrb⟩ := this
    rw [hrb]
    dsimp only
    split
    · exact .inl rfl
    · exact .inr ⟨_, rfl⟩

variable {P V : Type}

/-- A call that compiles has operands. -/
theorem call_operands {cfg : Config} {hooks : Hooks} {w : World} {decode : Params.TypeId → Bytes → Except P V} {params : List Param}
    {c : Code} {hist : List Event} {args : List Value} (h : (call cfg hooks w decode params c hist args).1 ≠ .noCompile) :
    ∃ env o, bindArgs params args = some env ∧ clientHas c.method = true ∧ operands c cfg.baseurl env = some o ∧
      build cfg c env = buildWith cfg c o := by
  unfold call run at h
  cases hb : bindArgs params args with
  | none => rw [hb] at h; exact absurd rfl h
  | some env =>
    rw [hb] at h
    dsimp only at h
    cases hm : clientHas c.method with
    | false =>
      have : build cfg c env = .noCompile := by unfold build; rw [hm]; rfl
      rw [this] at h
      exact absurd rfl h
    | true =>
      cases ho : operands c cfg.baseurl env with
      | none => rw [build_none ho] at h; exact absurd rfl h
      | some o => exact ⟨env, o, rfl, rfl, ho, by unfold build; rw [hm, ho]; rfl⟩

/-- The URL among the operands. -/
theorem operands_urlOf {op : OperationMethod} {c : Code} {args : List Value} {env : Env} {base route : Str} {o : Operands}
    (hw : WellFormedPath route) (hpath : Template.parse route = .ok op.path) (hc : methodSigBody op = .ok c)
    (hb : bindArgs op.params args = some env) (ho : operands c base env = some o) : UrlOf base route op.params args o.url := by
  obtain ⟨ident, value, hid, harg, hfmt⟩ := operands_url hc hb ho
  have hnames : Template.names op.path = braceGroups route := C02_names _ _ hpath
  rw [hnames] at hid harg
  obtain ⟨e, he, hf⟩ := C03_url_partial route base op.path (urlRenames op.params) ident value hw hpath hid
  obtain ⟨_, hcu, _⟩ := methodSigBody_ok hc
  rw [hcu] at he
  cases he
  rw [hfmt] at hf
  exact ⟨fun n => value (ident n), harg, Option.some.inj hf⟩

theorem named_unique {l : List Param} (hnd : (l.map Param.name).Nodup) {p q : Param} (hp : p ∈ l) (hq : q ∈ l) (e : p.name = q.name) :
    p = q := by
  induction l with
  | nil => cases hp
  | cons y l ih =>
    rw [List.map_cons, List.nodup_cons] at hnd
    rcases List.mem_cons.mp hp with h | hp
    · rcases List.mem_cons.mp hq with h' | hq
      · rw [h, h']
      · exact absurd (List.mem_map.mpr ⟨q, hq, by rw [← e, h]⟩) hnd.1
    · rcases List.mem_cons.mp hq with h' | hq
      · exact absurd (List.mem_map.mpr ⟨p, hp, by rw [e, h']⟩) hnd.1
      · exact ih hnd.2 hp hq

/-- The body among the operands. -/
theorem operands_bodyArg {op : OperationMethod} {c : Code} {args : List Value} {env : Env} {base : Str} {o : Operands}
    (hw : BodyNamed op.params) (hc : methodSigBody op = .ok c) (hb : bindArgs op.params args = some env)
    (ho : operands c base env = some o) (x : Ser) :
    (o.body = some (.form x) ↔ BodyArg op.params args .form x) ∧ (o.body = some (.json x) ↔ BodyArg op.params args .json x) := by
  obtain ⟨hnd, hlen, _, hlook⟩ := bindArgs_some hb
  have huniq : ∀ p v p' v' ct ct', (p, v) ∈ op.params.zip args → (p', v') ∈ op.params.zip args → p.kind = .body ct →
      p'.kind = .body ct' → v = v' ∧ p.kind = p'.kind := by
    intro p v p' v' ct ct' h h' hk hk'
    have e : p.name = p'.name := by
      rw [hw p (List.of_mem_zip h).1 ct hk, hw p' (List.of_mem_zip h').1 ct' hk']
    have h1 := hlook _ _ h
    have h2 := hlook _ _ h'
    rw [e, h2] at h1
    refine ⟨(Option.some.inj h1).symm, ?_⟩
    rw [named_unique hnd (List.of_mem_zip h).1 (List.of_mem_zip h').1 e]
  rcases operands_body hw hc hb ho with ⟨hob, hnb⟩ | ⟨p, v, ct, hpv, hk, _, hcase⟩
  · rw [hob]
    refine ⟨⟨fun h => (by cases h), ?_⟩, ⟨fun h => (by cases h), ?_⟩⟩ <;>
    · rintro ⟨p, v, hpv, hk, _⟩
      exact absurd hk (hnb p (List.of_mem_zip hpv).1 _)
  · refine ⟨⟨fun h => ?_, ?_⟩, ⟨fun h => ?_, ?_⟩⟩
    · cases ct with
      | octetStream => obtain ⟨b, _, hb⟩ := hcase; rw [hb] at h; cases h
      | text m => obtain ⟨b, _, hb⟩ := hcase; rw [hb] at h; cases h
      | json => obtain ⟨s, _, hb⟩ := hcase; rw [hb] at h; cases h
      | form => obtain ⟨s, hs, hb⟩ := hcase; rw [hb] at h; cases h; exact ⟨p, v, hpv, hk, hs⟩
    · rintro ⟨p', v', hpv', hk', hs'⟩
      obtain ⟨rfl, he⟩ := huniq _ _ _ _ _ _ hpv hpv' hk hk'
      rw [hk, hk'] at he
      cases he
      obtain ⟨s, hs, hb⟩ := hcase
      rw [hs] at hs'
      cases hs'
      exact hb
    · cases ct with
      | octetStream => obtain ⟨b, _, hb⟩ := hcase; rw [hb] at h; cases h
      | text m => obtain ⟨b, _, hb⟩ := hcase; rw [hb] at h; cases h
      | form => obtain ⟨s, _, hb⟩ := hcase; rw [hb] at h; cases h
      | json => obtain ⟨s, hs, hb⟩ := hcase; rw [hb] at h; cases h; exact ⟨p, v, hpv, hk, hs⟩
    · rintro ⟨p', v', hpv', hk', hs'⟩
      obtain ⟨rfl, he⟩ := huniq _ _ _ _ _ _ hpv hpv' hk hk'
      rw [hk, hk'] at he
      cases he
      obtain ⟨s, hs, hb⟩ := hcase
      rw [hs] at hs'
      cases hs'
      exact hb

/-- There is only one argument for a parameter in the path. -/
theorem pathArg_one {san types path method d pr} (hp : processOperation san types path method d = .ok pr)
    {args : List Value} {env : Env} (hb : bindArgs pr.op.params args = some env) {n t t' : Str}
    (h : PathArg pr.op.params args n t) (h' : PathArg pr.op.params args n t') : t = t' := by
  obtain ⟨_, _, _, hlook⟩ := bindArgs_some hb
  obtain ⟨p, v, hpv, hk, hn, ht⟩ := h
  obtain ⟨p', v', hpv', hk', hn', ht'⟩ := h'
  have key : ∀ q ∈ pr.op.params, q.kind = .path → q.name = san q.apiName := by
    intro q hq hqk
    rcases param_counts hp hq with ⟨x, _, hd, hnx, _⟩ | ⟨e, _, hbody⟩
    · rw [hnx, hd.1]
    · rcases (C19_declared_iff _ _).mp hbody with ⟨h, _⟩ | ⟨_, _, _, _, _, _, _, _, _, heq⟩
      · cases h
      · cases heq; cases hqk
  have e : p.name = p'.name := by
    rw [key p (List.of_mem_zip hpv).1 hk, key p' (List.of_mem_zip hpv').1 hk', hn, hn']
  have h1 := hlook _ _ hpv
  rw [e, hlook _ _ hpv'] at h1
  cases h1
  rw [ht] at ht'
  exact Option.some.inj ht'

theorem urlOf_unique {san types path method d pr} (hp : processOperation san types path method d = .ok pr) (hw : WellFormedPath path)
    {args : List Value} {env : Env} (hb : bindArgs pr.op.params args = some env) {base url url' : Str}
    (h : UrlOf base path pr.op.params args url) (h' : UrlOf base path pr.op.params args url') : url = url' := by
  obtain ⟨v, hv, rfl⟩ := h
  obtain ⟨v', hv', rfl⟩ := h'
  have hpath := (processOperation_inv hp).2.2.1
  obtain ⟨e, he, h1⟩ := C03_url_partial path base pr.op.path some id v hw hpath fun _ _ => rfl
  obtain ⟨e', he', h2⟩ := C03_url_partial path base pr.op.path some id v' hw hpath fun _ _ => rfl
  rw [he] at he'
  cases he'
  have hargs : ∀ i ∈ e.args, i ∈ braceGroups path := by
    have := (Template.compileArgs_ok _ _ _).mp (compile_args he)
    intro i hi
    rw [← C02_names path _ hpath]
    have hi' : some i ∈ (Template.names pr.op.path).map some := by rw [this]; exact List.mem_map.mpr ⟨i, hi, rfl⟩
    obtain ⟨k, hk, e⟩ := List.mem_map.mp hi'
    cases e
    exact hk
  have hm : (e.args.map fun i => encodePath (v i)) = e.args.map fun i => encodePath (v' i) :=
    List.map_congr_left fun i hi => by rw [pathArg_one hp hb (hv i (hargs i hi)) (hv' i (hargs i hi))]
  rw [hm, h2] at h1
  exact (Option.some.inj h1).symm

/-! ## The theorems -/

/-- C101: what becomes of a call, for every operation, all arguments and all settings.  If the version of the API is no header value,
it panics.  Else the first header that cannot be sent decides: if its value is illegal the call returns that error, if its name is
illegal it panics.  Else a value that cannot be sent as a form is an error.  Else it is the error of `reqwest` if the URL, the query or the JSON
cannot be made.  In all those cases nothing is sent and no hook runs.  Otherwise there is a request, which goes to the hooks and
the server. -/
theorem C101_outcome {san types path method d pr c} (hp : processOperation san types path method d = .ok pr)
    (hc : methodSigBody pr.op = .ok c) (hs : MethodSound san path method d) (cfg : Config) (hooks : Hooks) (w : World)
    (decode : Params.TypeId → Bytes → Except P V) (hist : List Event) (args : List Value)
    (hlen : pr.op.params.length = args.length) (htyp : ∀ p v, (p, v) ∈ pr.op.params.zip args → typed p v = true) :
    ∃ url, UrlOf cfg.baseurl path pr.op.params args url ∧
      (¬ StaticValue cfg.apiVersion → call cfg hooks w decode pr.op.params c hist args = (.panicked, hist)) ∧
      (StaticValue cfg.apiVersion →
        (∀ n t, FirstBad (headerArgs pr.op.params args) n t →
          (¬ LegalValue t → call cfg hooks w decode pr.op.params c hist args =
            (.returned (.error (.invalidRequest "failed to parse header value".toList)), hist)) ∧
          (LegalValue t → call cfg hooks w decode pr.op.params c hist args = (.panicked, hist))) ∧
        ((∀ e ∈ headerArgs pr.op.params args, HeaderFine e) →
          (BadForm pr.op.params args → call cfg hooks w decode pr.op.params c hist args =
            (.returned (.error (.invalidRequest "failed to serialize body".toList)), hist)) ∧
          (¬ BadForm pr.op.params args → BadParts cfg url pr.op.params args →
            ∃ e, call cfg hooks w decode pr.op.params c hist args = (.returned (.error (.communicationError e)), hist)) ∧
          (¬ BadForm pr.op.params args → ¬ BadParts cfg url pr.op.params args →
            ∃ r, Issues cfg pr.op args r ∧
              call cfg hooks w decode pr.op.params c hist args = perform hooks w decode c.dispatch hist r))) := by
  obtain ⟨hbn, _, hpath, _⟩ := processOperation_inv hp
  have hne := (C86_method_iff hp hc cfg hooks w decode hist args).mpr ⟨hs, hlen, htyp⟩
  obtain ⟨env, o, hb, hcl, ho, hbuild⟩ := call_operands hne
  obtain ⟨hoh, hoq, _⟩ := operands_some hc hb ho
  have hbody := operands_bodyArg hbn hc hb ho
  have hcall : call cfg hooks w decode pr.op.params c hist args = run cfg hooks w decode c hist env := by
    unfold call; rw [hb]
  rw [hcall]
  unfold run
  rw [hbuild]
  refine ⟨o.url, operands_urlOf hs.path hpath hc hb ho, fun hv => ?_, fun hv => ⟨fun n t hbad => ?_, fun hfine => ?_⟩⟩
  · have : buildHeaders cfg o.headers = .panicked := by
      unfold buildHeaders
      rw [if_neg (by rwa [staticValue_iff])]
    unfold buildWith
    rw [this]
  · rw [← hoh] at hbad
    have hh : buildHeaders cfg o.headers = runHeaders [(Hdr.apiVersion, utf8 cfg.apiVersion)] o.headers := by
      unfold buildHeaders
      rw [if_pos ((staticValue_iff _).mpr hv)]
    unfold buildWith
    rw [hh]
    refine ⟨fun h => ?_, fun h => ?_⟩
    · rw [(runHeaders_bad hbad).1 h]
    · rw [(runHeaders_bad hbad).2 h]
  · obtain ⟨hm, hh⟩ : ∃ hm, buildHeaders cfg o.headers = .ok hm := by
      refine ⟨_, buildHeaders_ok.mpr ⟨(staticValue_iff _).mpr hv, rfl, fun n t hnt => ?_⟩⟩
      rw [hoh] at hnt
      obtain ⟨h1, h2⟩ := hfine _ hnt t rfl
      exact ⟨(legalValue_iff t).mpr h1, (legalName_iff n).mpr h2⟩
    obtain ⟨hform, hrest⟩ := buildWith_cases (c := c) hh
    have hgood : ¬ BadForm pr.op.params args → ∀ x, o.body = some (.form x) → ∃ ps, top x = .ok ps := by
      intro hnf x hx
      have hx' := (hbody x).1.mp hx
      cases ht : top x with
      | ok ps => exact ⟨ps, rfl⟩
      | error e => exact absurd ⟨x, hx', fun ps h => by rw [form_top h] at ht; cases ht⟩ hnf
    refine ⟨?_, fun hnf hbp => ?_, fun hnf hbp => ?_⟩
    · rintro ⟨x, hx, hbur⟩
      cases ht : top x with
      | ok ps => exact absurd (top_form x ps ht) (hbur ps)
      | error e => rw [hform x ((hbody x).1.mpr hx) ht]
    · rcases hrest (hgood hnf) with h | ⟨r, h⟩
      · rw [h]; exact ⟨_, rfl⟩
      · exfalso
        obtain ⟨hm', label, body, q, _, h2, h3, h4, _⟩ := buildWith_request.mp h
        rcases hbp with hu | ⟨a, ha, hun⟩ | ⟨x, hx, hj⟩
        · rw [hu] at h2; cases h2
        · rw [hoq] at h4
          obtain ⟨ps, hps⟩ := addQueries_notOk h4 a ha
          exact hun ps (((C11_sent_iff _ _).1 ps).mp hps)
        · rw [(hbody x).2.mpr hx] at h3
          simp [bodyParts, hj, Except.map] at h3
    · have hreq : ∃ r, buildWith cfg c o = .request r := by
        have hu : cfg.validUrl o.url = true := by
          cases hv : cfg.validUrl o.url with
          | true => rfl
          | false => exact absurd (.inl hv) hbp
        have hq : ∃ q, addQueries (.ok (initialQuery o.url)) o.queries = .ok q := by
          rw [hoq]
          refine addQueries_isOk _ fun a ha => ?_
          cases hx : queryPairs a.1 a.2 with
          | ok qs => exact ⟨qs, rfl⟩
          | error e => exact absurd (.inr (.inl ⟨a, ha, (C11_sent_iff _ _).2.mp hx⟩)) hbp
        obtain ⟨q, hq⟩ := hq
        have hbd : ∃ label body, bodyParts cfg o.body = .ok (label, body) := by
          cases hob : o.body with
          | none => exact ⟨_, _, rfl⟩
          | some b =>
            cases b with
            | raw ct b => exact ⟨_, _, rfl⟩
            | json x =>
              cases hj : cfg.toJson x with
              | ok b => simp only [bodyParts, hj]; exact ⟨_, _, rfl⟩
              | error e => exact absurd (.inr (.inr ⟨x, (hbody x).2.mp hob, hj⟩)) hbp
            | form x =>
              obtain ⟨ps, hps⟩ := hgood hnf x hob
              simp only [bodyParts, formBody, hps]
              exact ⟨_, _, rfl⟩
        obtain ⟨label, body, hbd⟩ := hbd
        exact ⟨_, buildWith_request.mpr ⟨hm, label, body, q, hh, hu, hbd, hq, rfl⟩⟩
      obtain ⟨r, hr⟩ := hreq
      exact ⟨r, ⟨c, env, hc, hb, by rw [hbuild, hr]⟩, by rw [hr]⟩

/-- C101: exactly the calls that have a request to send. -/
theorem C101_sent_iff {san types path method d pr c} (hp : processOperation san types path method d = .ok pr)
    (hc : methodSigBody pr.op = .ok c) (cfg : Config) (args : List Value) :
    (∃ r, Issues cfg pr.op args r) ↔
      MethodSound san path method d ∧ pr.op.params.length = args.length ∧
      (∀ p v, (p, v) ∈ pr.op.params.zip args → typed p v = true) ∧ StaticValue cfg.apiVersion ∧
      (∀ e ∈ headerArgs pr.op.params args, HeaderFine e) ∧ ¬ BadForm pr.op.params args ∧
      ∃ url, UrlOf cfg.baseurl path pr.op.params args url ∧ ¬ BadParts cfg url pr.op.params args := by
  constructor
  · rintro ⟨r, hr⟩
    obtain ⟨c', env, o, hc', hb, hcl, ho, hbw⟩ := issues_parts hr
    rw [hc] at hc'
    cases hc'
    obtain ⟨_, hlen, htyp, _⟩ := bindArgs_some hb
    -- any hooks, world and decoder do
    let w : World := ⟨fun _ r => .ok r, fun _ _ => .error builderError, fun _ _ => .ok ()⟩
    have hrun : ∀ hist, call (P := Unit) (V := Unit) cfg ⟨false, false, false, false⟩ w (fun _ _ => .ok ()) pr.op.params c hist args =
        perform ⟨false, false, false, false⟩ w (fun _ _ => .ok ()) c.dispatch hist r := by
      intro hist
      have hbuild : build cfg c env = .request r := by
        unfold build
        rw [(methodSigBody_ok hc).2.2.2.2.2.2.1, hcl, ho]
        exact hbw
      unfold call run
      rw [hb]
      dsimp only
      rw [hbuild]
    have hsent : (call (P := Unit) (V := Unit) cfg ⟨false, false, false, false⟩ w (fun _ _ => .ok ()) pr.op.params c [] args).2 ≠ [] := by
      rw [hrun]
      unfold perform finish
      simp
    have hne : (call (P := Unit) (V := Unit) cfg ⟨false, false, false, false⟩ w (fun _ _ => .ok ()) pr.op.params c [] args).1 ≠
        .noCompile := by
      rw [hrun]
      have : Resp.handle (P := Unit) (V := Unit) (fun _ _ => .ok ()) c.dispatch (.error builderError) ≠ none := by
        simp [Resp.handle]
      unfold perform finish
      simp only [Bool.false_eq_true, if_false]
      split
      · rename_i h; exact absurd h this
      · simp
    obtain ⟨hs, -, -⟩ := (C86_method_iff hp hc _ _ _ _ _ _).mp hne
    obtain ⟨url, hurl, h1, h2⟩ := C101_outcome hp hc hs cfg ⟨false, false, false, false⟩ w (fun _ _ => .ok ()) [] args hlen htyp
    have hv : StaticValue cfg.apiVersion := Classical.byContradiction fun h => hsent (by rw [h1 h])
    obtain ⟨h3, h4⟩ := h2 hv
    have hfine : ∀ e ∈ headerArgs pr.op.params args, HeaderFine e := by
      obtain ⟨hoh, _⟩ := operands_some hc hb ho
      obtain ⟨hm, _, _, _, hbh, _⟩ := buildWith_request.mp hbw
      obtain ⟨_, _, hall⟩ := buildHeaders_ok.mp hbh
      intro e he t ht
      obtain ⟨n, x⟩ := e
      cases ht
      rw [← hoh] at he
      obtain ⟨h5, h6⟩ := hall n t he
      exact ⟨(legalValue_iff t).mp h5, (legalName_iff n).mp h6⟩
    obtain ⟨h5, h6, -⟩ := h4 hfine
    have hnf : ¬ BadForm pr.op.params args := fun h => hsent (by rw [h5 h])
    refine ⟨hs, hlen, htyp, hv, hfine, hnf, url, hurl, fun hbp => ?_⟩
    obtain ⟨e, he⟩ := h6 hnf hbp
    exact hsent (by rw [he])
  · rintro ⟨hs, hlen, htyp, hv, hfine, hnf, url, hurl, hbp⟩
    let w : World := ⟨fun _ r => .ok r, fun _ _ => .error builderError, fun _ _ => .ok ()⟩
    obtain ⟨url', hurl', -, h2⟩ := C101_outcome (P := Unit) (V := Unit) hp hc hs cfg ⟨false, false, false, false⟩ w
      (fun _ _ => .ok ()) [] args hlen htyp
    have hb : ∃ env, bindArgs pr.op.params args = some env := by
      have hne := (C86_method_iff (P := Unit) (V := Unit) hp hc cfg ⟨false, false, false, false⟩ w (fun _ _ => .ok ()) [] args).mpr
        ⟨hs, hlen, htyp⟩
      obtain ⟨env, _, hb, _⟩ := call_operands hne
      exact ⟨env, hb⟩
    obtain ⟨env, hb⟩ := hb
    cases urlOf_unique hp hs.path hb hurl hurl'
    obtain ⟨r, hr, _⟩ := ((h2 hv).2 hfine).2.2 hnf hbp
    exact ⟨r, hr⟩

/-! ## Builders -/

section
open Progenitor.Builder
variable {B : Type}

/-- The first parameter, in the order of the signature, for which the calls leave no value, and why. -/
def FirstUnset (tt : TypeTable B) (params : List Param) (calls : List (Call B)) (m : Str) : Prop :=
  ∃ pre p post, params = pre ++ p :: post ∧ (∀ q ∈ pre, ∃ v, Outcome tt q (inputsFor calls q.name) (.ok v)) ∧
    Outcome tt p (inputsFor calls p.name) (.error m)

/-- The values that the calls leave for the parameters. -/
def ValuesSet (tt : TypeTable B) (params : List Param) (calls : List (Call B)) (vs : List Value) : Prop :=
  Forall₂ (fun p v => Outcome tt p (inputsFor calls p.name) (.ok v)) params vs

/-- C101: a builder reports the first parameter without a value before anything else, even before the reasons of `C101_outcome`; if all
parameters have values, it does what the method does with them.  One of the two is the case. -/
theorem C101_builder (cfg : Config) (hooks : Hooks) (w : World) (decode : Params.TypeId → Bytes → Except P V)
    (tt : TypeTable B) (params : List Param) (paginated : Bool) (c : Code) (hist : List Event)
    (calls : List (Call B)) (hs : structOk tt params paginated = true) (hc : ∀ c ∈ calls, CallOk tt params c) :
    (∃ m, FirstUnset tt params calls m ∧ (∀ m', FirstUnset tt params calls m' → m' = m) ∧ (∀ vs, ¬ ValuesSet tt params calls vs) ∧
      callBuilder cfg hooks w decode tt params paginated c hist calls = (.returned (.error (.invalidRequest m)), hist)) ∨
    ∃ vs, ValuesSet tt params calls vs ∧ (∀ vs', ValuesSet tt params calls vs' → vs' = vs) ∧ (∀ m, ¬ FirstUnset tt params calls m) ∧
      callBuilder cfg hooks w decode tt params paginated c hist calls = call cfg hooks w decode params c hist vs := by
  have hn := structOk_nodup hs
  have htot : ∀ p ∈ params, ∃ o, Outcome tt p (inputsFor calls p.name) o := fun p hp =>
    (C30_total tt params calls hn hc p hp).imp fun _ h => h.1
  have hsplit : (∃ m, FirstUnset tt params calls m) ∨ ∃ vs, ValuesSet tt params calls vs := by
    clear hs hc hn
    induction params with
    | nil => exact .inr ⟨[], .nil⟩
    | cons p ps ih =>
      obtain ⟨o, ho⟩ := htot p (by simp)
      cases o with
      | error m => exact .inl ⟨m, [], p, ps, rfl, by simp, ho⟩
      | ok v =>
        rcases ih fun q hq => htot q (by simp [hq]) with ⟨m, pre, q, post, he, hpre, hq⟩ | ⟨vs, hvs⟩
        · refine .inl ⟨m, p :: pre, q, post, by rw [he]; rfl, ?_, hq⟩
          intro x hx
          rcases List.mem_cons.mp hx with rfl | hx
          · exact ⟨v, ho⟩
          · exact hpre x hx
        · exact .inr ⟨v :: vs, .cons ho hvs⟩
  have hexcl : ∀ m vs, FirstUnset tt params calls m → ¬ ValuesSet tt params calls vs := by
    rintro m vs ⟨pre, p, post, he, _, hp⟩ hvs
    obtain ⟨v, _, hv⟩ := forall₂_left hvs p (by rw [he]; simp)
    have := outcome_unique hp hv rfl
    cases this
  rcases hsplit with ⟨m, hm⟩ | ⟨vs, hvs⟩
  · left
    have hrun : ∀ m, FirstUnset tt params calls m →
        callBuilder cfg hooks w decode tt params paginated c hist calls = (.returned (.error (.invalidRequest m)), hist) := by
      rintro m ⟨pre, p, post, he, hpre, hp⟩
      exact C30_invalid cfg hooks w decode tt params paginated c hist calls hs hc pre p post m he hpre hp
    refine ⟨m, hm, fun m' hm' => ?_, fun vs => hexcl m vs hm, hrun m hm⟩
    have := (hrun m hm).symm.trans (hrun m' hm')
    cases this
    rfl
  · right
    refine ⟨vs, hvs, fun vs' hvs' => ?_, fun m hm => hexcl m vs hm hvs,
      C31_values cfg hooks w decode tt params paginated c hist calls hs hc vs hvs⟩
    clear hexcl htot hn hc hs
    induction hvs generalizing vs' with
    | nil => cases hvs'; rfl
    | cons h _ ih =>
      cases hvs' with
      | cons h' t =>
        have := outcome_unique h h' rfl
        cases this
        rw [ih _ t]

end

/-! ## Examples: an operation with a parameter in each place, and a form -/

namespace SentExample

def tagDoc : DocOperation :=
  { plainDoc with
    pathLevel := [⟨"id".toList, .path true, true, true, 0⟩]
    opLevel := [⟨"q".toList, .query true none, false, true, 0⟩, ⟨"X-Tag".toList, .header, true, true, 0⟩]
    body := some [("application/x-www-form-urlencoded".toList, ⟨some ⟨false, false, 1⟩, true⟩)] }

/-- Arguments: a tag, what goes into the query, and the form. -/
def tagArgs (tag : String) (q form : Ser) : List Value :=
  [.plain (txt "1"), .opt (some ⟨[], q⟩), .plain (txt tag), .plain ⟨[], form⟩]

def tagForm : Ser := .struct "F".toList [("a".toList, .str "x".toList)]

/-- A string in a newtype. -/
def tagWrapped : Ser := .newtypeStruct "N".toList (.str "x".toList)

theorem sent_made : ∃ pr c, processOperation id typesNone "/v/{id}".toList "put".toList tagDoc = .ok pr ∧ methodSigBody pr.op = .ok c ∧
    pr.op.params = [⟨"id".toList, "id".toList, .type 0, .path⟩, ⟨"q".toList, "q".toList, .type 0, .query false⟩,
      ⟨"X-Tag".toList, "X-Tag".toList, .type 0, .header true⟩, ⟨"body".toList, "body".toList, .type 1, .body .form⟩] :=
  ⟨_, _, rfl, rfl, rfl⟩

theorem sent_sound : MethodSound id "/v/{id}".toList "put".toList tagDoc where
  path := ⟨_, rfl, .char _ _ (by decide) (by decide) <| .char _ _ (by decide) (by decide) <| .param "id".toList [] (by decide) .nil⟩
  method := by decide
  distinct := fun _ _ _ _ h => h
  body := by
    intro e _ p hp
    obtain ⟨pr, _, hpr, _, hps⟩ := sent_made
    obtain ⟨a, ha, hd, hn, _⟩ := counts_param hpr hp
    rw [hps] at ha
    intro h
    revert hd
    simp only [List.mem_cons, List.not_mem_nil, or_false] at ha
    rcases ha with rfl | rfl | rfl | rfl
    · exact absurd (hn.trans h) (by decide)
    · exact absurd (hn.trans h) (by decide)
    · exact absurd (hn.trans h) (by decide)
    · intro hd; exact absurd rfl (counts_not_body hd .form)
  headerMap := by
    intro p hp _ h
    obtain ⟨pr, _, hpr, _, hps⟩ := sent_made
    obtain ⟨a, ha, _, hn, _⟩ := counts_param hpr hp
    rw [hps] at ha
    simp only [List.mem_cons, List.not_mem_nil, or_false] at ha
    rcases ha with rfl | rfl | rfl | rfl <;> exact absurd (hn.trans h) (by decide)
  encode := by
    intro _ p hp h
    obtain ⟨pr, _, hpr, _, hps⟩ := sent_made
    obtain ⟨a, ha, _, hn, _⟩ := counts_param hpr hp
    rw [hps] at ha
    simp only [List.mem_cons, List.not_mem_nil, or_false] at ha
    rcases ha with rfl | rfl | rfl | rfl <;> exact absurd (hn.trans h) (by decide)

end SentExample

open SentExample

/-- The hypotheses of `C101_outcome` hold for a call that succeeds, one with an illegal header, one with a string in a newtype in the
query, and one with a form that is no object; and these are their outcomes. -/
example (hooks : Hooks) (w : World) (decode : Params.TypeId → Bytes → Except P V) (hist : List Event) :
    ∃ pr c, processOperation id typesNone "/v/{id}".toList "put".toList tagDoc = .ok pr ∧ methodSigBody pr.op = .ok c ∧
      (∃ r, call exCfg hooks w decode pr.op.params c hist (tagArgs "t" (.int 1) tagForm) = perform hooks w decode c.dispatch hist r) ∧
      call exCfg hooks w decode pr.op.params c hist (tagArgs "\n" (.int 1) tagForm) =
        (.returned (.error (.invalidRequest "failed to parse header value".toList)), hist) ∧
      call exCfg hooks w decode pr.op.params c hist (tagArgs "t" tagWrapped tagForm) =
        (.returned (.error (.communicationError builderError)), hist) ∧
      call exCfg hooks w decode pr.op.params c hist (tagArgs "t" (.int 1) tagWrapped) =
        (.returned (.error (.invalidRequest "failed to serialize body".toList)), hist) := by
  exact ⟨_, _, rfl, rfl, ⟨_, rfl⟩, rfl, rfl, rfl⟩

/-- What can and cannot be sent in these calls. -/
example : QueryOf "q".toList (.some (.int 1)) [("q".toList, "1".toList)] ∧ (∀ ps, ¬ QueryOf "q".toList (.some tagWrapped) ps) ∧
    FormOf tagForm [("a".toList, "x".toList)] ∧ ∀ ps, ¬ FormOf tagWrapped ps :=
  ⟨((C11_sent_iff _ _).1 _).mp rfl, (C11_sent_iff _ _).2.mp rfl, top_form _ _ rfl, fun ps h => by cases form_top h⟩

open Progenitor.Builder in
/-- A builder with a value that could not be converted, and one with all values. -/
example : FirstUnset exTypes bodyOp.params (exCalls.take 2) "conversion to `String` for id failed".toList ∧
    ∃ vs, ValuesSet exTypes bodyOp.params exCalls vs := by
  have no : ∀ tb, ¬ HasBuilder exTypes ⟨"id".toList, "id".toList, .type 0, .path⟩ tb := by
    rintro tb ⟨_, _, _, h, _⟩; cases h
  have no' : ∀ tb, ¬ HasBuilder exTypes ⟨"q".toList, "q".toList, .type 0, .query false⟩ tb := by
    rintro tb ⟨_, _, _, h, _⟩; cases h
  refine ⟨⟨[], _, _, rfl, by simp, .failed "String".toList [] "bad".toList ⟨0, rfl, rfl, no⟩⟩,
    [.plain (txt "i"), .opt none, .plain ⟨"b!".toList, .str "b".toList⟩], .cons ?_ (.cons ?_ (.cons ?_ .nil))⟩
  · exact .given "String".toList [.value (.error "bad".toList)] (txt "i") ⟨0, rfl, rfl, no⟩ (by simp [Optional])
  · exact .absent "String".toList ⟨0, rfl, rfl, no'⟩ (.inl rfl)
  · exact .built 1 _ _ ⟨"b!".toList, .str "b".toList⟩ _ rfl ⟨1, .json, rfl, rfl, rfl⟩
      (.mapped [.value (.ok (txt "b"))] _ (txt "b") (.body [] (txt "b"))) rfl

end Progenitor.Props

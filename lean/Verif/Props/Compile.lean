import Verif.Props.Exec
import Verif.Props.Response
import Verif.Model.Operation

/-!
# C37, C58, C60: which operations are paginated, tables, well-formed method bodies
-/

namespace Progenitor.Props

open Progenitor Progenitor.Params Progenitor.Client Progenitor.Query Progenitor.Exec Progenitor.Spec

/-! ## Facts about `process_operation` -/

/-- Parameters that are not bodies have a type. -/
def NonBodyTyped (params : List Param) : Prop :=
  ∀ p ∈ params, (∀ ct, p.kind ≠ .body ct) → ∃ t, p.typ = .type t

theorem convert_typed {san p a} (h : convert san p = .ok a) :
    (∃ t, a.typ = .type t) ∧ ∀ ct, a.kind ≠ .body ct := by
  unfold convert at h
  split at h
  · split at h
    · split at h
      · cases h; exact ⟨⟨_, rfl⟩, fun _ h => by cases h⟩
      · cases h
    · cases h
  · split at h
    · split at h <;> (cases h; exact ⟨⟨_, rfl⟩, fun _ h => by cases h⟩)
    · cases h
  · split at h
    · cases h; exact ⟨⟨_, rfl⟩, fun _ h => by cases h⟩
    · cases h
  · cases h
  · cases h
  · cases h

theorem convertAll_typed {san ps as} (h : convertAll san ps = .ok as) :
    ∀ a ∈ as, (∃ t, a.typ = .type t) ∧ ∀ ct, a.kind ≠ .body ct := by
  induction ps generalizing as with
  | nil => cases h; intro a ha; cases ha
  | cons p ps ih =>
    simp only [convertAll] at h
    obtain ⟨q, hq, h⟩ := bind_ok_inv h
    obtain ⟨qs, hqs, h⟩ := bind_ok_inv h
    cases h
    intro a ha
    rcases List.mem_cons.mp ha with rfl | ha
    · exact convert_typed hq
    · exact ih hqs a ha

theorem getBodyParam_some {body p} (h : getBodyParam body = .ok (some p)) :
    p.name = "body".toList ∧ ∃ ct, p.kind = .body ct := by
  match body, h with
  | none, h => cases h
  | some [], h => cases h
  | some [(ct, m)], h =>
    obtain ⟨s, c, typ, _, _, _, rfl⟩ := (C19_declared ct m p).mp h
    exact ⟨rfl, c, rfl⟩
  | some (_ :: _ :: _), h => cases h

theorem processOperation_inv {san types path method d pr} (h : processOperation san types path method d = .ok pr) :
    BodyNamed pr.op.params ∧ NonBodyTyped pr.op.params ∧ Template.parse path = .ok pr.op.path ∧
    Resp.processResponses d.websocket d.default d.codes = .ok pr.op.responses ∧
    HttpMethod.parse method = .ok pr.op.method ∧ pr.op.websocket = d.websocket ∧
    pr.op.operationId = san d.operationId ∧ pr.op.tags = d.tags ∧
    pr.paginated = paginationData types d.pagination pr.op.params pr.op.responses ∧
    ¬ (d.websocket = true ∧ pr.paginated.isSome = true) := by
  unfold processOperation at h
  obtain ⟨ps, hps, h⟩ := bind_ok_inv h
  obtain ⟨b, hb, h⟩ := bind_ok_inv h
  obtain ⟨tmp, htmp, h⟩ := bind_ok_inv h
  obtain ⟨sps, hsps, h⟩ := bind_ok_inv h
  obtain ⟨rs, hrs, h⟩ := bind_ok_inv h
  obtain ⟨_, hnc, h⟩ := bind_ok_inv h
  obtain ⟨m, hm, h⟩ := bind_ok_inv h
  cases h
  have hperm : ∀ p, p ∈ sps → p ∈ ps ++ b.toList := by
    intro p hp
    have := sortLoop_perm hsps
    simpa using this.mem_iff.mp hp
  have hcases : ∀ p ∈ sps, ((∃ t, p.typ = .type t) ∧ ∀ ct, p.kind ≠ .body ct) ∨
      (p.name = "body".toList ∧ ∃ ct, p.kind = .body ct) := by
    intro p hp
    rcases List.mem_append.mp (hperm p hp) with hp | hp
    · exact .inl (convertAll_typed hps p hp)
    · cases b with
      | none => cases hp
      | some q => simp at hp; subst hp; exact .inr (getBodyParam_some hb)
  refine ⟨?_, ?_, ?_, hrs, hm, rfl, rfl, rfl, rfl, ?_⟩
  · intro p hp ct hk
    rcases hcases p hp with ⟨_, h⟩ | ⟨h, _⟩
    · exact absurd hk (h ct)
    · exact h
  · intro p hp hk
    rcases hcases p hp with ⟨h, _⟩ | ⟨_, ct, h⟩
    · exact h
    · exact absurd h (hk ct)
  · unfold parseTemplate at htmp
    split at htmp
    · rename_i t ht; cases htmp; exact ht
    · cases htmp
  · intro hc
    unfold noConflict at hnc
    rw [if_pos hc] at hnc
    cases hnc

/-! ## C60 -/

theorem typed_plain {p : Param} {v : Value} {t : TypeId} (h : typed p v = true) (ht : p.typ = .type t) :
    (∃ a, v = .plain a) ∨ ((p.kind = .query false ∨ p.kind = .header false) ∧ ∃ a, v = .opt a) := by
  obtain ⟨n, a, typ, k⟩ := p
  subst ht
  cases k with
  | path => cases v <;> simp_all [typed]
  | body ct => cases v <;> simp_all [typed]
  | query r => cases r <;> cases v <;> simp_all [typed]
  | header r => cases r <;> cases v <;> simp_all [typed]

theorem operands_total {op : OperationMethod} {c : Code} {args : List Value} {env : Env} (base path : Str)
    (hw : BodyNamed op.params) (hty : NonBodyTyped op.params) (hpath : Template.parse path = .ok op.path)
    (hwf : WellFormedPath path)
    (hm : ∀ p ∈ op.params, p.kind ≠ .path → p.name ≠ "header_map".toList)
    (he : braceGroups path ≠ [] → ∀ p ∈ op.params, p.name ≠ "encode_path".toList)
    (hc : methodSigBody op = .ok c) (hb : bindArgs op.params args = some env) :
    ∃ o, operands c base env = some o := by
  obtain ⟨hnd, hlen, htyp, hlook⟩ := bindArgs_some hb
  obtain ⟨hvars, hcu, ⟨bs, hbs, hbs'⟩, _, _, _, _, hhs, hqs⟩ := methodSigBody_ok hc
  have hval : ∀ p ∈ op.params, ∃ v, lookup env p.name = some v ∧ typed p v = true := by
    intro p hp
    obtain ⟨v, hv⟩ := mem_zip_of_left hlen hp
    exact ⟨v, hlook p v hv, htyp p v hv⟩
  -- URL arguments
  have hargs : Template.compileArgs (urlRenames op.params) op.path = .ok c.url.args ∧
      c.url.fmt = Template.compileFmt op.path := by
    unfold Template.compile at hcu
    split at hcu
    · rename_i is his; rw [← Res.ok.inj hcu]; exact ⟨his, rfl⟩
    · cases hcu
    · cases hcu
  have hmapeq := (Template.compileArgs_ok _ _ _).mp hargs.1
  have hdisp : ∀ i ∈ c.url.args, ∃ t, evalDisplay env i = some t := by
    intro i hi
    have : some i ∈ (Template.names op.path).map (urlRenames op.params) := hmapeq ▸ List.mem_map_of_mem hi
    obtain ⟨n, _, hn⟩ := List.mem_map.mp this
    obtain ⟨p, hp, hk, _, rfl⟩ := urlRenames_some hn
    obtain ⟨v, hl, ht⟩ := hval p hp
    obtain ⟨t, htt⟩ := hty p hp (by rw [hk]; intro ct h; cases h)
    rcases typed_plain ht htt with ⟨a, rfl⟩ | ⟨h | h, _⟩
    · exact ⟨a.display, by simp [evalDisplay, hl]⟩
    · rw [hk] at h; cases h
    · rw [hk] at h; cases h
  obtain ⟨ds, hds⟩ := mapM?_of hdisp
  have hfmt : ∃ u, Template.rustFormat c.url.fmt (base :: ds.map encodePath) = some u := by
    obtain ⟨e, he, hf⟩ := C03_url_partial path base op.path (urlRenames op.params)
      (fun n => (urlRenames op.params n).getD []) (fun i => (evalDisplay env i).getD []) hwf hpath (by
        intro n hn
        rw [← C02_names path _ hpath] at hn
        have : urlRenames op.params n ∈ c.url.args.map some := hmapeq ▸ List.mem_map_of_mem hn
        obtain ⟨i, _, hi⟩ := List.mem_map.mp this
        rw [← hi]; rfl)
    rw [hcu] at he
    cases he
    refine ⟨base ++ substGroups (fun n => encodePath ((evalDisplay env ((urlRenames op.params n).getD [])).getD [])) (collapse path), ?_⟩
    · rw [← hf]
      congr 2
      have : c.url.args.map (fun i => encodePath ((evalDisplay env i).getD [])) =
          (c.url.args.map (evalDisplay env)).map (fun x => encodePath (x.getD [])) := by
        rw [List.map_map]; rfl
      rw [this, mapM?_some hds, List.map_map]
      rfl
  obtain ⟨u, hu⟩ := hfmt
  -- names in the inner scope
  have hlk : ∀ p ∈ op.params, p.kind ≠ .path →
      lookup ((c.vars.headerMap, .internal) :: (c.vars.url, .internal) :: env) p.name = lookup env p.name := by
    intro p hp hk
    apply lookup_internal_ne
    · rw [hvars]; exact (hm p hp hk).symm
    · rw [hvars]
      intro h
      have h1 : uniqueIdent "url".toList (op.params.map Param.name) ∉ op.params.map Param.name := (C16_search _ _).2.2.1
      exact h1 (List.mem_map.mpr ⟨p, hp, h.symm⟩)
  have hev : encodeVisible c env = true := by
    refine (encodeVisible_iff hb c).mpr fun hn => he ?_
    rw [← C02_names path _ hpath]
    intro h0
    rw [h0] at hmapeq
    exact hn (List.map_eq_nil_iff.mp hmapeq.symm)
  unfold operands evalUrl
  rw [if_pos hev, hds]
  dsimp only
  rw [hu]
  dsimp only
  have hH : ∃ hs, mapM? (evalHeader ((c.vars.headerMap, .internal) :: (c.vars.url, .internal) :: env)) c.headers = some hs := by
    apply mapM?_of
    intro s hs
    rw [hhs] at hs
    obtain ⟨p, hp, hps⟩ := List.mem_filterMap.mp hs
    split at hps
    · rename_i rq hk
      cases hps
      obtain ⟨v, hl, ht⟩ := hval p hp
      obtain ⟨t, htt⟩ := hty p hp (by rw [hk]; intro ct h; cases h)
      have hlk' := hlk p hp (by rw [hk]; intro h; cases h)
      rw [hl] at hlk'
      cases rq with
      | true =>
        rcases typed_plain ht htt with ⟨a, rfl⟩ | ⟨h | h, _⟩
        · exact ⟨_, by simp only [evalHeader, evalDisplay, hlk', if_true, Option.map_some]; rfl⟩
        · rw [hk] at h; cases h
        · rw [hk] at h; cases h
      | false =>
        rcases typed_plain ht htt with ⟨a, rfl⟩ | ⟨_, a, rfl⟩
        · exfalso
          obtain ⟨_, _, _, _⟩ := p
          dsimp only at htt hk
          subst htt hk
          simp [typed] at ht
        · exact ⟨_, by simp only [evalHeader, evalOptDisplay, hlk', Bool.false_eq_true, if_false, Option.map_some]; rfl⟩
    · cases hps
  have hQ : ∃ qs, mapM? (fun q : Str × Str =>
      (evalSer ((c.vars.headerMap, .internal) :: (c.vars.url, .internal) :: env) q.2).map fun v => (q.1, v)) c.queries = some qs := by
    apply mapM?_of
    intro s hs
    rw [hqs] at hs
    obtain ⟨p, hp, hps⟩ := List.mem_filterMap.mp hs
    split at hps
    · rename_i rq hk
      cases hps
      obtain ⟨v, hl, ht⟩ := hval p hp
      obtain ⟨t, htt⟩ := hty p hp (by rw [hk]; intro ct h; cases h)
      have hlk' := hlk p hp (by rw [hk]; intro h; cases h)
      rw [hl] at hlk'
      rcases typed_plain ht htt with ⟨a, rfl⟩ | ⟨_, a, rfl⟩
      · exact ⟨_, by simp only [evalSer, hlk', Option.map_some]; rfl⟩
      · cases a with
        | none => exact ⟨_, by simp only [evalSer, hlk', Option.map_some]; rfl⟩
        | some a => exact ⟨_, by simp only [evalSer, hlk', Option.map_some]; rfl⟩
    · cases hps
  obtain ⟨hs, hhs'⟩ := hH
  obtain ⟨qs, hqs'⟩ := hQ
  rw [hhs', hqs']
  dsimp only
  cases hcb : c.body with
  | none => exact ⟨_, rfl⟩
  | some bf =>
    have hbf := bodyFuncs_ok hbs
    rw [hbs', hcb] at hbf
    have hmem : bf ∈ op.params.filterMap bodyFn := by rw [← hbf]; simp
    obtain ⟨p, hp, hpb⟩ := List.mem_filterMap.mp hmem
    have hk : ∃ ct, p.kind = .body ct := by
      unfold bodyFn at hpb
      split at hpb
      · exact ⟨_, by assumption⟩
      · exact ⟨_, by assumption⟩
      · exact ⟨_, by assumption⟩
      · exact ⟨_, by assumption⟩
      · cases hpb
    obtain ⟨ct, hk⟩ := hk
    obtain ⟨v, hl, ht⟩ := hval p hp
    have hlk' := hlk p hp (by rw [hk]; intro h; cases h)
    rw [hl, hw p hp ct hk] at hlk'
    have htp : ∀ l bs, p ∈ l → bodyFuncs l = .ok bs → (match ct with
        | .octetStream => p.typ = .rawBody
        | .text _ => p.typ = .rawBody
        | _ => ∃ t, p.typ = .type t) := by
      intro l bs hp h
      induction l generalizing bs with
      | nil => cases hp
      | cons x l ih =>
        simp only [bodyFuncs] at h
        obtain ⟨rest, hrest, h⟩ := bind_ok_inv h
        rcases List.mem_cons.mp hp with rfl | hp
        · obtain ⟨_, _, typ, _⟩ := p
          dsimp only at hk
          subst hk
          cases ct <;> cases typ <;> first | rfl | exact ⟨_, rfl⟩ | cases h
        · exact ih _ hp hrest
    have htp := htp _ _ hp hbs
    simp only [bodyFn, hk] at hpb
    have hser : ∀ t, p.typ = .type t → ∃ s, evalSer ((c.vars.headerMap, .internal) :: (c.vars.url, .internal) :: env) "body".toList = some s := by
      intro t htt
      rcases typed_plain ht htt with ⟨a, rfl⟩ | ⟨h | h, _⟩
      · exact ⟨a.ser, by simp only [evalSer, hlk']⟩
      · rw [hk] at h; cases h
      · rw [hk] at h; cases h
    have hraw : p.typ = .rawBody → ∃ b, v = .raw b := by
      intro htt
      obtain ⟨_, _, _, _⟩ := p
      dsimp only at htt
      subst htt
      cases v with
      | raw b => exact ⟨b, rfl⟩
      | _ => simp [typed] at ht
    cases ct with
    | octetStream =>
      cases hpb
      obtain ⟨b, rfl⟩ := hraw htp
      exact ⟨_, by simp only [evalBody, hlk', Option.map_some]; rfl⟩
    | text m =>
      cases hpb
      obtain ⟨b, rfl⟩ := hraw htp
      exact ⟨_, by simp only [evalBody, hlk', Option.map_some]; rfl⟩
    | json =>
      cases hpb
      obtain ⟨t, htt⟩ := htp
      obtain ⟨s, hs⟩ := hser t htt
      exact ⟨_, by simp only [evalBody, hs, Option.map_some]; rfl⟩
    | form =>
      cases hpb
      obtain ⟨t, htt⟩ := htp
      obtain ⟨s, hs⟩ := hser t htt
      exact ⟨_, by simp only [evalBody, hs, Option.map_some]; rfl⟩

theorem buildWith_compiles (cfg : Config) (c : Code) (o : Operands) : buildWith cfg c o ≠ .noCompile := by
  unfold buildWith
  split
  · intro h; cases h
  · intro h; cases h
  · dsimp only
    split
    · intro h; cases h
    · split <;> (intro h; cases h)

variable {P V : Type}

theorem finish_compiles {hooks : Hooks} {w : World} {decode : TypeId → Bytes → Except P V} {d : Resp.Dispatch}
    {hist : List Event} {reply : Reply} (h : ∀ s, ∃ act, Resp.dispatch d.arms s = some act) :
    (finish hooks w decode d hist reply).1 ≠ .noCompile := by
  have hh : ∃ o, Resp.handle decode d reply = some o := by
    cases reply with
    | error e => exact ⟨_, rfl⟩
    | ok r =>
      obtain ⟨act, ha⟩ := h r.status
      exact ⟨Resp.perform decode act r, by simp only [Resp.handle, ha, Option.map_some]⟩
  obtain ⟨o, ho⟩ := hh
  unfold finish
  simp only [ho]
  split
  · split <;> (intro h; cases h)
  · intro h; cases h

theorem perform_compiles {hooks : Hooks} {w : World} {decode : TypeId → Bytes → Except P V} {d : Resp.Dispatch}
    {hist : List Event} {r : Request} (h : ∀ s, ∃ act, Resp.dispatch d.arms s = some act) :
    (Exec.perform hooks w decode d hist r).1 ≠ .noCompile := by
  unfold Exec.perform
  dsimp only
  split
  · split
    · intro h; cases h
    · exact finish_compiles h
  · exact finish_compiles h

theorem bindArgs_of {params : List Param} {args : List Value} (hnd : (params.map Param.name).Nodup)
    (hlen : params.length = args.length) (ht : ∀ p v, (p, v) ∈ params.zip args → typed p v = true) :
    ∃ env, bindArgs params args = some env := by
  refine ⟨_, if_pos ⟨hnd, hlen, ?_⟩⟩
  rw [List.all_eq_true]
  intro pv hpv
  exact ht pv.1 pv.2 hpv

/-- C60: for every operation the generator accepts, with a well-formed path, distinct argument
names, no argument called `header_map` or (with arguments in the path) `encode_path`, and a method that `reqwest::Client` has, every
call with arguments of the declared types has a meaning: every name is bound to an operand of
the right type, the format string fits and the `match` on the status is exhaustive. -/
theorem C60_compiles_partial {san types path method d pr c} (hp : processOperation san types path method d = .ok pr)
    (hc : methodSigBody pr.op = .ok c) (hwf : WellFormedPath path)
    (hmeth : method ≠ "options".toList ∧ method ≠ "trace".toList)
    (hnd : (pr.op.params.map Param.name).Nodup)
    (hm : ∀ p ∈ pr.op.params, p.kind ≠ .path → p.name ≠ "header_map".toList)
    (he : braceGroups path ≠ [] → ∀ p ∈ pr.op.params, p.name ≠ "encode_path".toList)
    (cfg : Config) (hooks : Hooks) (w : World) (decode : TypeId → Bytes → Except P V) (hist : List Event)
    (args : List Value) (hlen : pr.op.params.length = args.length)
    (ht : ∀ p v, (p, v) ∈ pr.op.params.zip args → typed p v = true) :
    (call cfg hooks w decode pr.op.params c hist args).1 ≠ .noCompile := by
  obtain ⟨hw, hty, hpath, hrs, hmt, _⟩ := processOperation_inv hp
  obtain ⟨env, hb⟩ := bindArgs_of hnd hlen ht
  obtain ⟨o, ho⟩ := operands_total cfg.baseurl path hw hty hpath hwf hm he hc hb
  obtain ⟨_, _, _, hgen, _, _, hcm, _⟩ := methodSigBody_ok hc
  have hhas : clientHas c.method = true := by
    rw [hcm]
    unfold HttpMethod.parse at hmt
    rw [if_neg hmeth.1, if_neg hmeth.2] at hmt
    repeat' split at hmt
    all_goals first | (have := Res.ok.inj hmt; rw [← this]; rfl) | cases hmt
  have hall : ∀ s, ∃ act, Resp.dispatch c.dispatch.arms s = some act := by
    intro s
    exact C23_total ⟨_, hrs, hgen⟩ s
  simp only [call, hb, run, build, hhas, if_true, ho]
  split
  · rename_i h; exact absurd h (buildWith_compiles _ _ _)
  · intro h; cases h
  · intro h; cases h
  · intro h; cases h
  · exact perform_compiles hall

/-- A document operation without any parameter, body or tag. -/
def plainDoc : DocOperation where
  operationId := "op".toList
  tags := []
  pathLevel := []
  opLevel := []
  body := none
  default := none
  codes := [(.code 200, [])]
  websocket := false
  pagination := none

def typesNone : Types := fun _ => none

/-- Accepted by the generator, but some call with arguments of the declared types has no meaning. -/
def Broken (path method : Str) (d : DocOperation) (args : List Value) : Prop :=
  ∃ pr c, processOperation id typesNone path method d = .ok pr ∧ methodSigBody pr.op = .ok c ∧
    pr.op.params.length = args.length ∧ (∀ p v, (p, v) ∈ pr.op.params.zip args → typed p v = true) ∧
    ∀ (hooks : Hooks) (w : World) (decode : TypeId → Bytes → Except Unit Unit) (hist : List Event),
      (call exCfg hooks w decode pr.op.params c hist args).1 = .noCompile

/-- C60 does not hold without guards: a parameter called `header_map` is shadowed by a local
variable, `reqwest::Client` has no `options` and no `trace`, a parameter called `body` clashes
with the body argument, and one called `encode_path` hides the function for arguments in the path. -/
theorem C60_compiles_fails :
    Broken "/a".toList "get".toList
      { plainDoc with opLevel := [⟨"header_map".toList, .header, true, true, 0⟩] } [.plain (txt "x")] ∧
    Broken "/a".toList "options".toList plainDoc [] ∧
    Broken "/a".toList "trace".toList plainDoc [] ∧
    Broken "/a".toList "put".toList
      { plainDoc with
        opLevel := [⟨"body".toList, .query true none, true, true, 0⟩],
        body := some [("application/json".toList, ⟨some ⟨false, false, 1⟩, true⟩)] }
      [.plain (txt "x"), .plain (txt "y")] ∧
    Broken "/a/{encode_path}".toList "get".toList
      { plainDoc with opLevel := [⟨"encode_path".toList, .path true, true, true, 0⟩] } [.plain (txt "x")] := by
  refine ⟨⟨_, _, rfl, rfl, rfl, ?_, ?_⟩, ⟨_, _, rfl, rfl, rfl, ?_, ?_⟩, ⟨_, _, rfl, rfl, rfl, ?_, ?_⟩,
    ⟨_, _, rfl, rfl, rfl, ?_, ?_⟩, ⟨_, _, rfl, rfl, rfl, ?_, ?_⟩⟩
  · intro p v h
    rcases List.mem_cons.mp h with h | h
    · cases h; rfl
    · cases h
  · intros; rfl
  · intro p v h; cases h
  · intros; rfl
  · intro p v h; cases h
  · intros; rfl
  · intro p v h
    rcases List.mem_cons.mp h with h | h
    · cases h; rfl
    · rcases List.mem_cons.mp h with h | h
      · cases h; rfl
      · cases h
  · intros; rfl
  · intro p v h
    rcases List.mem_cons.mp h with h | h
    · cases h; rfl
    · cases h
  · intros; rfl

/-- An operation of each parameter kind. -/
def fullDoc : DocOperation :=
  { plainDoc with
    pathLevel := [⟨"id".toList, .path true, true, true, 0⟩]
    opLevel := [⟨"q".toList, .query true none, false, true, 0⟩, ⟨"X-Tag".toList, .header, true, true, 0⟩]
    body := some [("application/json".toList, ⟨some ⟨false, false, 1⟩, true⟩)] }

example : ∃ pr c, processOperation id typesNone "/v/{id}".toList "put".toList fullDoc = .ok pr ∧
    methodSigBody pr.op = .ok c ∧ WellFormedPath "/v/{id}".toList ∧
    pr.op.params.map Param.name = ["id".toList, "q".toList, "X-Tag".toList, "body".toList] ∧
    pr.op.params.length = [Value.plain (txt "1"), .opt none, .plain (txt "2"), .plain (txt "3")].length := by
  refine ⟨_, _, rfl, rfl, ?_, rfl, rfl⟩
  exact ⟨_, rfl, .char _ _ (by decide) (by decide) <| .char _ _ (by decide) (by decide) <|
    .param "id".toList [] (by decide) .nil⟩

/-! ## C37 -/

/-- `t` is a page of `item`: a struct with exactly `next_page`, an optional string, and `items`,
an array of `item`. -/
def PageOf (types : Types) (t item : TypeId) : Prop :=
  ∃ props np o it, types t = some (.struct props) ∧
    props.Perm [("next_page".toList, np), ("items".toList, it)] ∧
    types np = some (.option o) ∧ types o = some .string ∧ types it = some (.vec item)

/-- A documented success response with a JSON type. -/
def TypedSuccess (r : Resp.Response) (t : TypeId) : Prop :=
  r.kind = .type t ∧ ((∃ c, r.status = .code c ∧ 200 ≤ c ∧ c ≤ 299) ∨ r.status = .range 2)

/-- Structs do not have two properties of the same name. -/
def PropsDistinct (types : Types) : Prop :=
  ∀ t props, types t = some (.struct props) → (props.map Prod.fst).Nodup

theorem filterMap_singleton {α β} {f : α → Option β} {l : List α} {b : β} :
    l.filterMap f = [b] ↔ ∃ pre a post, l = pre ++ a :: post ∧ f a = some b ∧
      ∀ x ∈ pre ++ post, f x = none := by
  constructor
  · intro h
    induction l with
    | nil => cases h
    | cons x l ih =>
      rw [List.filterMap_cons] at h
      cases hx : f x with
      | none =>
        rw [hx] at h
        obtain ⟨pre, a, post, rfl, ha, hr⟩ := ih h
        refine ⟨x :: pre, a, post, rfl, ha, ?_⟩
        intro y hy
        rcases List.mem_cons.mp hy with rfl | hy
        · exact hx
        · exact hr y hy
      | some y =>
        rw [hx] at h
        have := List.cons.inj h
        refine ⟨[], x, l, rfl, by rw [hx, this.1], ?_⟩
        intro y hy
        exact (List.filterMap_eq_nil_iff.mp this.2) y hy
  · rintro ⟨pre, a, post, rfl, ha, hr⟩
    have h1 : pre.filterMap f = [] := List.filterMap_eq_nil_iff.mpr fun x hx => hr x (by simp [hx])
    have h2 : post.filterMap f = [] := List.filterMap_eq_nil_iff.mpr fun x hx => hr x (by simp [hx])
    simp [List.filterMap_append, List.filterMap_cons, h1, h2, ha]

theorem successType_some (r : Resp.Response) (t : TypeId) : successType r = some t ↔ TypedSuccess r t := by
  obtain ⟨st, k⟩ := r
  unfold TypedSuccess successType
  cases st with
  | code c =>
    cases k with
    | type t' => by_cases h : 200 ≤ c ∧ c ≤ 299 <;> simp [h]
    | _ => simp
  | range n =>
    cases k with
    | type t' =>
      by_cases h : n = 2
      · subst h; simp
      · simp [h]
    | _ => simp
  | default => cases k <;> simp

theorem successTypes_one {rs : List Resp.Response} {t : TypeId} :
    successTypes rs = [t] ↔ ∃ pre r post, rs = pre ++ r :: post ∧ TypedSuccess r t ∧
      ∀ r' ∈ pre ++ post, ∀ t', ¬ TypedSuccess r' t' := by
  unfold successTypes
  rw [filterMap_singleton]
  constructor
  · rintro ⟨pre, r, post, h, hr, ho⟩
    refine ⟨pre, r, post, h, (successType_some r t).mp hr, ?_⟩
    intro r' hr' t' ht'
    have := (successType_some r' t').mpr ht'
    rw [ho r' hr'] at this
    cases this
  · rintro ⟨pre, r, post, h, hr, ho⟩
    refine ⟨pre, r, post, h, (successType_some r t).mpr hr, ?_⟩
    intro r' hr'
    cases hx : successType r' with
    | none => rfl
    | some t' => exact absurd ((successType_some r' t').mp hx) (ho r' hr' t')

theorem next_ne_items : ("next_page".toList : Str) ≠ "items".toList := by decide

theorem perm_pair {V} {l : List (Str × V)} {k k' : Str} {v v' : V} (hl : l.length = 2) (hne : k ≠ k')
    (h : (k, v) ∈ l) (h' : (k', v') ∈ l) : l.Perm [(k, v), (k', v')] := by
  match l, hl with
  | [x, y], _ =>
    simp only [List.mem_cons, List.not_mem_nil, or_false] at h h'
    rcases h with rfl | rfl <;> rcases h' with h' | h'
    · cases h'; exact absurd rfl hne
    · subst h'; exact .refl _
    · subst h'; exact .swap _ _ _
    · cases h'; exact absurd rfl hne

theorem pageType_iff {types : Types} (hd : PropsDistinct types) (t item : TypeId) :
    pageType types t = some item ↔ PageOf types t item := by
  have hperm : ∀ props, types t = some (.struct props) → (BTree.insertAll [] props).Perm props := by
    intro props h
    have := BTree.insertAll_perm (m := []) (hd t props h) (by simp)
    simpa using this
  have hs : ∀ props : List (Str × TypeId), BTree.Sorted (BTree.insertAll [] props) :=
    fun props => BTree.insertAll_sorted .nil props
  constructor
  · intro h
    unfold pageType at h
    split at h
    · rename_i props hp
      dsimp only at h
      split at h
      · cases h
      · rename_i hlen
        split at h
        · cases h
        · rename_i np hnp
          split at h
          · rename_i o ho
            split at h
            · rename_i hstr
              split at h
              · cases h
              · rename_i it hit
                split at h
                · rename_i item' hv
                  cases h
                  refine ⟨props, np, o, it, hp, ?_, ho, hstr, hv⟩
                  refine (hperm props hp).symm.trans (perm_pair (by omega) next_ne_items ?_ ?_)
                  · exact BTree.mem_of_get hnp
                  · exact BTree.mem_of_get hit
                · cases h
            · cases h
          · cases h
    · cases h
  · rintro ⟨props, np, o, it, hp, hpm, ho, hstr, hv⟩
    have hq := (hperm props hp).trans hpm
    have hlen : (BTree.insertAll [] props).length = 2 := hq.length_eq
    have h1 : BTree.get "next_page".toList (BTree.insertAll [] props) = some np :=
      BTree.get_of_mem (hs props) (hq.mem_iff.mpr (by simp))
    have h2 : BTree.get "items".toList (BTree.insertAll [] props) = some it :=
      BTree.get_of_mem (hs props) (hq.mem_iff.mpr (by simp))
    simp only [pageType, hp, hlen, ne_eq, not_true_eq_false, if_false, h1, ho, hstr, if_true, h2, hv]

theorem combined_names_nodup (pl ol : List DocParam) :
    ((BTree.values (combined pl ol)).map DocParam.name).Nodup := by
  have hs : BTree.Sorted (combined pl ol) := BTree.insertAll_sorted (BTree.insertAll_sorted .nil _) _
  have hk : ∀ e ∈ combined pl ol, e.2.name = e.1 := by
    intro e he
    have key : ∀ l : List DocParam, e ∈ l.map (fun p => (p.name, p)) → e.2.name = e.1 := by
      intro l h
      obtain ⟨p, _, rfl⟩ := List.mem_map.mp h
      rfl
    rcases BTree.mem_insertAll he with h | h
    · exact key _ h
    · rcases BTree.mem_insertAll h with h | h
      · exact key _ h
      · cases h
  have : (BTree.values (combined pl ol)).map DocParam.name = (combined pl ol).map Prod.fst := by
    rw [BTree.values, List.map_map]
    exact List.map_congr_left hk
  rw [this]
  exact BTree.values_nodup_keys hs

theorem forall₂_map {α β γ} {f : α → γ} {g : β → γ} {xs : List α} {ys : List β}
    (h : Spec.Forall₂ (fun a b => g b = f a) xs ys) : ys.map g = xs.map f := by
  induction h with
  | nil => rfl
  | cons h _ ih => rw [List.map_cons, List.map_cons, h, ih]

/-- API names of the parameters that come from the document are distinct. -/
theorem processOperation_apiNames {san types path method d pr}
    (h : processOperation san types path method d = .ok pr) :
    ((pr.op.params.filter fun p => location p.kind ≠ .body).map Param.apiName).Nodup := by
  unfold processOperation at h
  obtain ⟨ps, hps, h⟩ := bind_ok_inv h
  obtain ⟨b, hb, h⟩ := bind_ok_inv h
  obtain ⟨tmp, htmp, h⟩ := bind_ok_inv h
  obtain ⟨sps, hsps, h⟩ := bind_ok_inv h
  obtain ⟨rs, hrs, h⟩ := bind_ok_inv h
  obtain ⟨_, hnc, h⟩ := bind_ok_inv h
  obtain ⟨m, hm, h⟩ := bind_ok_inv h
  cases h
  have hperm : sps.Perm (ps ++ b.toList) := by simpa using sortLoop_perm hsps
  have hf := convertAll_forall₂ hps
  have hnb : ∀ p ∈ ps, location p.kind ≠ .body :=
    forall₂_right (P := fun p => location p.kind ≠ .body) (fun h => convert_not_body h) hf
  have hnames : ps.map Param.apiName = (BTree.values (combined d.pathLevel d.opLevel)).map DocParam.name :=
    forall₂_map (forall₂_imp (fun h => (convert_describes h).1.1) hf)
  have hbody : b.toList.filter (fun p => decide (location p.kind ≠ .body)) = [] := by
    cases b with
    | none => rfl
    | some q =>
      obtain ⟨_, ct, hk⟩ := getBodyParam_some hb
      simp [hk, location]
  have hps' : ps.filter (fun p => decide (location p.kind ≠ .body)) = ps :=
    List.filter_eq_self.mpr fun p hp => by simpa using hnb p hp
  have := ((hperm.filter fun p => decide (location p.kind ≠ .body)).map Param.apiName)
  rw [List.filter_append, hps', hbody, List.append_nil, hnames] at this
  exact this.nodup_iff.mpr (combined_names_nodup _ _)

theorem pageParam_iff (p : Param) : isPageParam p = true ↔
    p.kind = .query false ∧ (p.apiName = "page_token".toList ∨ p.apiName = "limit".toList) := by
  unfold isPageParam
  simp only [Bool.decide_or, Bool.or_eq_true, decide_eq_true_eq]
  constructor
  · rintro (⟨a, b⟩ | ⟨a, b⟩)
    · exact ⟨b, .inl a⟩
    · exact ⟨b, .inr a⟩
  · rintro ⟨b, a | a⟩
    · exact .inl ⟨a, b⟩
    · exact .inr ⟨a, b⟩

theorem token_ne_limit : ("page_token".toList : Str) ≠ "limit".toList := by decide

/-- Two page parameters are `page_token` and `limit`. -/
theorem two_pageParams {l : List Param} (hn : ((l.filter fun p => location p.kind ≠ .body).map Param.apiName).Nodup) :
    (l.filter isPageParam).length = 2 ↔
      (∃ p ∈ l, p.apiName = "page_token".toList ∧ p.kind = .query false) ∧
      (∃ p ∈ l, p.apiName = "limit".toList ∧ p.kind = .query false) := by
  have hsub : ((l.filter isPageParam).map Param.apiName).Nodup := by
    refine List.Nodup.sublist (List.Sublist.map _ ?_) hn
    have : l.filter isPageParam = (l.filter fun p => location p.kind ≠ .body).filter isPageParam := by
      rw [List.filter_filter]
      apply List.filter_congr
      intro p _
      cases h : isPageParam p with
      | false => rfl
      | true =>
        have := ((pageParam_iff p).mp h).1
        simp [this, location]
    rw [this]
    exact List.filter_sublist
  generalize hfl : l.filter isPageParam = fl at hsub
  have hmem : ∀ p, p ∈ fl ↔ p ∈ l ∧ p.kind = .query false ∧
      (p.apiName = "page_token".toList ∨ p.apiName = "limit".toList) := by
    intro p; rw [← hfl, List.mem_filter, pageParam_iff]
  constructor
  · intro hlen
    match fl, hlen with
    | [x, y], _ =>
      have hx := (hmem x).mp (by simp)
      have hy := (hmem y).mp (by simp)
      have hne : x.apiName ≠ y.apiName := by
        simpa using hsub
      rcases hx.2.2 with h | h <;> rcases hy.2.2 with h' | h'
      · exact absurd (h.trans h'.symm) hne
      · exact ⟨⟨x, hx.1, h, hx.2.1⟩, ⟨y, hy.1, h', hy.2.1⟩⟩
      · exact ⟨⟨y, hy.1, h', hy.2.1⟩, ⟨x, hx.1, h, hx.2.1⟩⟩
      · exact absurd (h.trans h'.symm) hne
  · rintro ⟨⟨p, hp, h, hk⟩, ⟨q, hq, h', hk'⟩⟩
    have hp' := (hmem p).mpr ⟨hp, hk, .inl h⟩
    have hq' := (hmem q).mpr ⟨hq, hk', .inr h'⟩
    have h1 : (fl.map Param.apiName).Perm ["page_token".toList, "limit".toList] := by
      apply (List.perm_ext_iff_of_nodup hsub (by decide)).mpr
      intro n
      simp only [List.mem_map, List.mem_cons, List.not_mem_nil, or_false]
      constructor
      · rintro ⟨r, hr, rfl⟩; exact ((hmem r).mp hr).2.2
      · rintro (rfl | rfl)
        · exact ⟨p, hp', h⟩
        · exact ⟨q, hq', h'⟩
    simpa using h1.length_eq

theorem paginationData_iff {types : Types} (hd : PropsDistinct types) {ext : Option (List Str)} {ps : List Param} {rs : List Resp.Response}
    (hn : ((ps.filter fun p => location p.kind ≠ .body).map Param.apiName).Nodup) (item : TypeId) (req : List Str) :
    paginationData types ext ps rs = some ⟨item, req⟩ ↔
      ext = some req ∧
      (∃ p ∈ ps, p.apiName = "page_token".toList ∧ p.kind = .query false) ∧
      (∃ p ∈ ps, p.apiName = "limit".toList ∧ p.kind = .query false) ∧
      (∀ p ∈ ps, p.kind ≠ .query true) ∧
      (∀ p ∈ ps, p.typ ≠ .rawBody) ∧
      ∃ t, PageOf types t item ∧ ∃ pre r post, rs = pre ++ r :: post ∧ TypedSuccess r t ∧
        ∀ r' ∈ pre ++ post, ∀ t', ¬ TypedSuccess r' t' := by
  have hq : ∀ p : Param, queryOptional p = true ↔ p.kind ≠ .query true := by
    intro p
    unfold queryOptional
    cases p.kind with
    | query r => cases r <;> simp
    | _ => simp
  have hall : (ps.all queryOptional = true) ↔ ∀ p ∈ ps, p.kind ≠ .query true := by
    rw [List.all_eq_true]
    exact ⟨fun h p hp => (hq p).mp (h p hp), fun h p hp => (hq p).mpr (h p hp)⟩
  have hraw : (ps.any fun p => p.typ = .rawBody) = false ↔ ∀ p ∈ ps, p.typ ≠ .rawBody := by
    simp
  constructor
  · intro he
    unfold paginationData at he
    split at he
    · cases he
    · rename_i required hext
      split at he
      · cases he
      · rename_i hlen
        split at he
        · cases he
        · rename_i hao
          split at he
          · cases he
          · rename_i hr
            split at he
            · rename_i t ht
              obtain ⟨it, hit, he⟩ := Option.map_eq_some_iff.mp he
              cases he
              have h2 := (two_pageParams hn).mp (by omega)
              refine ⟨rfl, h2.1, h2.2, hall.mp (by simpa using hao), hraw.mp (by simpa using hr), t, ?_, ?_⟩
              · exact (pageType_iff hd t _).mp hit
              · exact successTypes_one.mp ht
            · cases he
  · rintro ⟨hext, h1, h2, h3, h4, t, ht, hs⟩
    unfold paginationData
    have hlen := (two_pageParams hn).mpr ⟨h1, h2⟩
    have e := successTypes_one.mpr hs
    rw [hext]
    simp only [hlen, hall.mpr h3, hraw.mpr h4, e, (pageType_iff hd t item).mpr ht]
    simp

/-- C37: exactly the conforming operations are paginated. -/
theorem C37_paginated {san types path method d pr} (hd : PropsDistinct types)
    (h : processOperation san types path method d = .ok pr) (item : TypeId) (req : List Str) :
    pr.paginated = some ⟨item, req⟩ ↔
      d.pagination = some req ∧
      (∃ p ∈ pr.op.params, p.apiName = "page_token".toList ∧ p.kind = .query false) ∧
      (∃ p ∈ pr.op.params, p.apiName = "limit".toList ∧ p.kind = .query false) ∧
      (∀ p ∈ pr.op.params, p.kind ≠ .query true) ∧
      (∀ p ∈ pr.op.params, p.typ ≠ .rawBody) ∧
      ∃ t, PageOf types t item ∧ ∃ pre r post, pr.op.responses = pre ++ r :: post ∧ TypedSuccess r t ∧
        ∀ r' ∈ pre ++ post, ∀ t', ¬ TypedSuccess r' t' := by
  obtain ⟨_, _, _, _, _, _, _, _, hpg, _⟩ := processOperation_inv h
  rw [hpg]
  exact paginationData_iff hd (processOperation_apiNames h) item req

/-- An operation listing `Nat`-numbered types: 10 is a page of 13. -/
def pageTypes : Types
  | 10 => some (.struct [("items".toList, 12), ("next_page".toList, 11)])
  | 11 => some (.option 14)
  | 12 => some (.vec 13)
  | 14 => some .string
  | _ => none

def pageDoc : DocOperation :=
  { plainDoc with
    opLevel := [⟨"page_token".toList, .query true none, false, true, 14⟩, ⟨"limit".toList, .query true none, false, true, 0⟩]
    codes := [(.code 200, [("application/json".toList, ⟨true, some 10⟩)])]
    pagination := some [] }

theorem pageTypes_distinct : PropsDistinct pageTypes := by
  intro t props h
  unfold pageTypes at h
  split at h <;> first | (cases h; decide) | cases h

example : ∃ pr, processOperation id pageTypes "/v".toList "get".toList pageDoc = .ok pr ∧
    pr.paginated = some ⟨13, []⟩ := ⟨_, rfl, rfl⟩

/-! ## C58 -/

/-- C58: parsing the printed form of a method gives it back. -/
theorem C58_method_roundtrip (m : HttpMethod) : HttpMethod.parse m.print = .ok m := by
  cases m <;> rfl

/-- C58: only printed forms of methods are accepted. -/
theorem C58_method_only (s : Str) (m : HttpMethod) : HttpMethod.parse s = .ok m ↔ s = m.print := by
  constructor
  · intro h
    unfold HttpMethod.parse at h
    repeat' split at h
    all_goals first | (cases h; assumption) | cases h
  · rintro rfl; exact C58_method_roundtrip m

/-- The media types without parameters that are accepted for bodies. -/
def bodyMediaTypes : List (Str × ContentType) :=
  [(Mime.octets, .octetStream), (Mime.json, .json), (Mime.form, .form),
   ("text/plain".toList, .text "text/plain".toList), ("text/x-markdown".toList, .text "text/x-markdown".toList)]

/-- C58: accepted media types are exactly the listed ones, optionally followed by parameters. -/
theorem C58_media_only (s : Str) (c : ContentType) : ContentType.parse s = .ok c ↔
    ∃ b, (b, c) ∈ bodyMediaTypes ∧ (s = b ∨ ∃ x, s = b ++ ';' :: x) := by
  have hsplit : s = beforeSemicolon s ∨ ∃ x, s = beforeSemicolon s ++ ';' :: x := by
    unfold beforeSemicolon
    induction s with
    | nil => exact .inl rfl
    | cons a s ih =>
      by_cases ha : a = ';'
      · subst ha; exact .inr ⟨s, by simp⟩
      · rw [List.takeWhile_cons, if_pos (by simpa using ha)]
        rcases ih with ih | ⟨x, ih⟩
        · exact .inl (congrArg _ ih)
        · exact .inr ⟨x, congrArg _ ih⟩
  have hbef : ∀ b c, (b, c) ∈ bodyMediaTypes → ';' ∉ b ∧ ContentType.parse b = .ok c := by
    intro b c h
    simp only [bodyMediaTypes, List.mem_cons, List.not_mem_nil, or_false, Prod.mk.injEq] at h
    rcases h with ⟨rfl, rfl⟩ | ⟨rfl, rfl⟩ | ⟨rfl, rfl⟩ | ⟨rfl, rfl⟩ | ⟨rfl, rfl⟩ <;> exact ⟨by decide, rfl⟩
  constructor
  · intro h
    refine ⟨beforeSemicolon s, ?_, hsplit⟩
    unfold ContentType.parse at h
    dsimp only at h
    simp only [bodyMediaTypes, List.mem_cons, List.not_mem_nil, or_false, Prod.mk.injEq]
    split at h
    · rename_i e; cases h; exact .inl ⟨e, rfl⟩
    · split at h
      · rename_i e; cases h; exact .inr (.inl ⟨e, rfl⟩)
      · split at h
        · rename_i e; cases h; exact .inr (.inr (.inl ⟨e, rfl⟩))
        · split at h
          · rename_i e
            cases h
            rcases e with e | e
            · exact .inr (.inr (.inr (.inl ⟨e, by rw [e]⟩)))
            · exact .inr (.inr (.inr (.inr ⟨e, by rw [e]⟩)))
          · cases h
  · rintro ⟨b, hb, rfl | ⟨x, rfl⟩⟩
    · exact (hbef _ _ hb).2
    · rw [C19_media_parameters b x (hbef _ _ hb).1 c]
      exact (hbef _ _ hb).2

/-- C58: parsing the printed form of an accepted content type gives it back. -/
theorem C58_media_roundtrip (s : Str) (c : ContentType) (h : ContentType.parse s = .ok c) :
    ContentType.parse c.print = .ok c := by
  obtain ⟨b, hb, _⟩ := (C58_media_only s c).mp h
  simp only [bodyMediaTypes, List.mem_cons, List.not_mem_nil, or_false, Prod.mk.injEq] at hb
  rcases hb with ⟨_, rfl⟩ | ⟨_, rfl⟩ | ⟨_, rfl⟩ | ⟨_, rfl⟩ | ⟨_, rfl⟩ <;> rfl

example : ContentType.parse "text/plain; charset=utf-8".toList = .ok (.text "text/plain".toList) := rfl

end Progenitor.Props

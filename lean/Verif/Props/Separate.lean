import Verif.Spec.Separate
import Verif.Props.Evolve
import Verif.Props.Paging
import Verif.Props.FormExact

/-!
# C92: each argument has its own place in the request
-/

namespace Progenitor.Props

open Progenitor Progenitor.Params Progenitor.Client Progenitor.Query Progenitor.Exec Progenitor.Spec

variable {cfg : Config} {op : OperationMethod} {args args' : List Value} {r r' : Request}

/-! ## Operands of two calls -/

theorem zip_congr {β : Type} {f : Param × Value → Option β} {params : List Param} {args args' : List Value}
    (hl : params.length = args.length) (hl' : params.length = args'.length)
    (h : ∀ p v v', (p, v) ∈ params.zip args → (p, v') ∈ params.zip args' → f (p, v) = f (p, v')) :
    (params.zip args).filterMap f = (params.zip args').filterMap f := by
  induction params generalizing args args' with
  | nil => rfl
  | cons p params ih =>
    cases args with
    | nil => simp at hl
    | cons v args =>
      cases args' with
      | nil => simp at hl'
      | cons v' args' =>
        simp only [List.zip_cons_cons, List.filterMap_cons]
        rw [h p v v' (by simp) (by simp), ih (by simpa using hl) (by simpa using hl')
          fun q w w' hq hq' => h q w w' (by simp [hq]) (by simp [hq'])]

theorem headerArgs_congr {params : List Param} (hl : params.length = args.length) (hl' : params.length = args'.length)
    (h : SameFor InHeader argText params args args') : headerArgs params args = headerArgs params args' := by
  refine zip_congr hl hl' fun p v v' hv hv' => ?_
  dsimp only
  split
  · rename_i k hk
    rw [h p v v' hv hv' ⟨_, hk⟩]
  · rfl

theorem queryArgs_congr {params : List Param} (hl : params.length = args.length) (hl' : params.length = args'.length)
    (h : SameFor InQuery argSer params args args') : queryArgs params args = queryArgs params args' := by
  refine zip_congr hl hl' fun p v v' hv hv' => ?_
  dsimp only
  split
  · rename_i k hk
    rw [h p v v' hv hv' ⟨_, hk⟩]
  · rfl

theorem urls_congr {c : Code} {env env' : Env} {base : Str} {o o' : Operands} (hc : methodSigBody op = .ok c)
    (hb : bindArgs op.params args = some env) (hb' : bindArgs op.params args' = some env')
    (ho : operands c base env = some o) (ho' : operands c base env' = some o')
    (h : SameFor InPath argText op.params args args') : o.url = o'.url := by
  obtain ⟨_, hlen, _, hlook⟩ := bindArgs_some hb
  obtain ⟨_, hlen', _, hlook'⟩ := bindArgs_some hb'
  obtain ⟨_, hcu, _⟩ := methodSigBody_ok hc
  obtain ⟨_, _, hu, ds, hds⟩ := operands_some hc hb ho
  obtain ⟨_, _, hu', ds', hds'⟩ := operands_some hc hb' ho'
  have hargs : Template.compileArgs (urlRenames op.params) op.path = .ok c.url.args := by
    unfold Template.compile at hcu
    split at hcu
    · rename_i is his; rw [← Res.ok.inj hcu]; exact his
    · cases hcu
    · cases hcu
  have hmapeq := (Template.compileArgs_ok _ _ _).mp hargs
  have hev : ∀ {env : Env} {ds : List Str}, mapM? (evalDisplay env) c.url.args = some ds → ∀ i ∈ c.url.args,
      ∃ d, evalDisplay env i = some d := by
    intro env ds hds i hi
    have : evalDisplay env i ∈ ds.map some := mapM?_some hds ▸ List.mem_map_of_mem hi
    obtain ⟨d, _, hd⟩ := List.mem_map.mp this
    exact ⟨d, hd.symm⟩
  have : mapM? (evalDisplay env) c.url.args = mapM? (evalDisplay env') c.url.args := by
    refine mapM?_eq fun i hi => ?_
    obtain ⟨d, hd⟩ := hev hds i hi
    obtain ⟨d', hd'⟩ := hev hds' i hi
    have : some i ∈ (Template.names op.path).map (urlRenames op.params) := hmapeq ▸ List.mem_map_of_mem hi
    obtain ⟨n, _, hn⟩ := List.mem_map.mp this
    obtain ⟨p, hp, hk, _, rfl⟩ := urlRenames_some hn
    obtain ⟨v, hv⟩ := mem_zip_of_left hlen hp
    obtain ⟨v', hv'⟩ := mem_zip_of_left hlen' hp
    have ha := h p v v' hv hv' hk
    unfold evalDisplay at hd hd' ⊢
    rw [hlook p v hv] at hd ⊢
    rw [hlook' p v' hv'] at hd' ⊢
    cases v <;> cases hd
    cases v' <;> cases hd'
    exact ha
  rw [this, hds'] at hds
  cases hds
  have := hu ds (this ▸ hds')
  rw [hu' ds hds'] at this
  exact (Option.some.inj this).symm

/-- What two calls of the same method have in common. -/
theorem issues_two (h : Issues cfg op args r) (h' : Issues cfg op args' r') :
    ∃ c env env' o o', methodSigBody op = .ok c ∧ bindArgs op.params args = some env ∧ bindArgs op.params args' = some env' ∧
      operands c cfg.baseurl env = some o ∧ operands c cfg.baseurl env' = some o' ∧
      buildWith cfg c o = .request r ∧ buildWith cfg c o' = .request r' := by
  obtain ⟨c, env, o, hc, hb, _, ho, h⟩ := issues_parts h
  obtain ⟨c', env', o', hc', hb', _, ho', h'⟩ := issues_parts h'
  rw [hc] at hc'
  cases hc'
  exact ⟨c, env, env', o, o', hc, hb, hb', ho, ho', h, h'⟩

theorem url_noQuery {c : Code} {env : Env} {o : Operands} (hc : methodSigBody op = .ok c)
    (hb : bindArgs op.params args = some env) (ho : operands c cfg.baseurl env = some o) (hn : NoQueryInUrl cfg op) :
    initialQuery o.url = none := by
  obtain ⟨ident, value, _, _, hf⟩ := operands_url hc hb ho
  obtain ⟨_, hcu, _⟩ := methodSigBody_ok hc
  have hq : '?' ∉ o.url := by
    intro hq
    rcases format_chars hf '?' hq with hq | ⟨a, ha, hq⟩
    · have hfmt : c.url.fmt = Template.compileFmt op.path := by
        unfold Template.compile at hcu
        split at hcu
        · rw [← Res.ok.inj hcu]
        · cases hcu
        · cases hcu
      rw [hfmt] at hq
      unfold Template.compileFmt at hq
      rcases List.mem_cons.mp hq with hq | hq
      · cases hq
      rcases List.mem_cons.mp hq with hq | hq
      · cases hq
      obtain ⟨x, hx, hq⟩ := List.mem_flatMap.mp hq
      cases x with
      | const t => exact hn.2 t hx hq
      | param n => exact absurd (show '?' ∈ ['{', '}'] from hq) (by decide)
    · rcases List.mem_cons.mp ha with rfl | ha
      · exact hn.1 hq
      · obtain ⟨x, _, rfl⟩ := List.mem_map.mp ha
        exact (C04_alphabet _ '?' hq).2.2 (by decide)
  unfold initialQuery
  have : (o.url.takeWhile (· ≠ '#')).dropWhile (· ≠ '?') = [] := by
    have key : ∀ l : Str, '?' ∉ l → l.dropWhile (· ≠ '?') = [] := by
      intro l
      induction l with
      | nil => intro _; rfl
      | cons a l ih =>
        intro h
        simp only [List.mem_cons, not_or] at h
        rw [List.dropWhile_cons_of_pos (p := fun x => decide (x ≠ '?')) (decide_eq_true (Ne.symm h.1)), ih h.2]
    exact key _ fun hx => hq ((List.takeWhile_sublist _).subset hx)
  rw [this]
  rfl

/-! ## One place for each kind of argument -/

/-- C92: where a request goes depends only on the texts of the path arguments. -/
theorem C92_url (h : Issues cfg op args r) (h' : Issues cfg op args' r') (ha : SameFor InPath argText op.params args args') :
    r.url = r'.url ∧ r.method = r'.method := by
  obtain ⟨c, env, env', o, o', hc, hb, hb', ho, ho', h, h'⟩ := issues_two h h'
  obtain ⟨_, _, _, _, _, _, _, _, rfl⟩ := buildWith_request.mp h
  obtain ⟨_, _, _, _, _, _, _, _, rfl⟩ := buildWith_request.mp h'
  dsimp only
  rw [urls_congr hc hb hb' ho ho' ha]
  exact ⟨rfl, rfl⟩

/-- C92: if neither the base URL nor the path has a question mark, the query depends only on the query arguments. -/
theorem C92_query_partial (h : Issues cfg op args r) (h' : Issues cfg op args' r') (hn : NoQueryInUrl cfg op)
    (ha : SameFor InQuery argSer op.params args args') : r.query = r'.query := by
  obtain ⟨c, env, env', o, o', hc, hb, hb', ho, ho', h, h'⟩ := issues_two h h'
  obtain ⟨_, _, _, q, _, _, _, hq, rfl⟩ := buildWith_request.mp h
  obtain ⟨_, _, _, q', _, _, _, hq', rfl⟩ := buildWith_request.mp h'
  obtain ⟨_, hlen, _⟩ := bindArgs_some hb
  obtain ⟨_, hlen', _⟩ := bindArgs_some hb'
  rw [url_noQuery hc hb ho hn, (operands_some hc hb ho).2.1, queryArgs_congr hlen hlen' ha] at hq
  rw [url_noQuery hc hb' ho' hn, (operands_some hc hb' ho').2.1, hq] at hq'
  exact Except.ok.inj hq'

/-- C92: in any case, the query depends only on path and query arguments. -/
theorem C92_query_any (h : Issues cfg op args r) (h' : Issues cfg op args' r')
    (hp : SameFor InPath argText op.params args args') (ha : SameFor InQuery argSer op.params args args') : r.query = r'.query := by
  obtain ⟨c, env, env', o, o', hc, hb, hb', ho, ho', h, h'⟩ := issues_two h h'
  obtain ⟨_, _, _, q, _, _, _, hq, rfl⟩ := buildWith_request.mp h
  obtain ⟨_, _, _, q', _, _, _, hq', rfl⟩ := buildWith_request.mp h'
  obtain ⟨_, hlen, _⟩ := bindArgs_some hb
  obtain ⟨_, hlen', _⟩ := bindArgs_some hb'
  rw [urls_congr hc hb hb' ho ho' hp, (operands_some hc hb ho).2.1, queryArgs_congr hlen hlen' ha] at hq
  rw [(operands_some hc hb' ho').2.1, hq] at hq'
  exact Except.ok.inj hq'

/-- C92: the headers depend only on the header arguments. -/
theorem C92_headers (hw : BodyNamed op.params) (h : Issues cfg op args r) (h' : Issues cfg op args' r')
    (ha : SameFor InHeader argText op.params args args') : ∀ n, values r.headers n = values r'.headers n := by
  intro n
  obtain ⟨d, hd, hv⟩ := C17_exact cfg op args r hw h
  obtain ⟨d', hd', hv'⟩ := C17_exact cfg op args' r' hw h'
  rw [hd] at hd'
  cases hd'
  obtain ⟨c, env, env', o, o', hc, hb, hb', ho, ho', h, h'⟩ := issues_two h h'
  obtain ⟨_, hlen, _⟩ := bindArgs_some hb
  obtain ⟨_, hlen', _⟩ := bindArgs_some hb'
  rw [hv n, hv' n]
  unfold explicitValues
  rw [headerArgs_congr hlen hlen' ha]

/-- C92: the body depends only on the body argument. -/
theorem C92_body (hw : BodyNamed op.params) (h : Issues cfg op args r) (h' : Issues cfg op args' r')
    (ha : SameFor InBody id op.params args args') : r.body = r'.body := by
  have hin := h
  have hin' := h'
  obtain ⟨c, env, env', o, o', hc, hb, hb', ho, ho', h, h'⟩ := issues_two h h'
  obtain ⟨_, hlen, _⟩ := bindArgs_some hb
  obtain ⟨_, hlen', _⟩ := bindArgs_some hb'
  by_cases hbody : ∃ p ∈ op.params, ∃ ct, p.kind = .body ct
  · obtain ⟨p, hp, ct, hk⟩ := hbody
    obtain ⟨v, hv⟩ := mem_zip_of_left hlen hp
    obtain ⟨v', hv'⟩ := mem_zip_of_left hlen' hp
    have e : v = v' := ha p v v' hv hv' ⟨_, hk⟩
    subst e
    obtain ⟨b, hb, he⟩ := C19_body cfg op args r hw hin p v ct hv hk
    obtain ⟨b', hb', he'⟩ := C19_body cfg op args' r' hw hin' p v ct hv' hk
    rw [hb, hb']
    cases he with
    | octets b => cases he'; rfl
    | text m b => cases he'; rfl
    | json v s b h1 h2 =>
      cases he' with
      | json _ s' _ h1' h2' =>
        rw [h1] at h1'; cases h1'
        rw [h2] at h2'; cases h2'
        rfl
    | form v s ps t h1 h2 h3 =>
      cases he' with
      | form _ s' ps' t' h1' h2' h3' =>
        rw [h1] at h1'; cases h1'
        rw [h2] at h2'; cases h2'
        rw [h3, h3']
  · have key : ∀ {args : List Value} {env : Env} {o : Operands} {r : Request}, bindArgs op.params args = some env →
        operands c cfg.baseurl env = some o → buildWith cfg c o = .request r → r.body = none := by
      intro args env o r hb ho h
      obtain ⟨_, _, _, _, _, _, h3, _, rfl⟩ := buildWith_request.mp h
      rcases operands_body hw hc hb ho with ⟨hn, _⟩ | ⟨p, _, ct, hpv, hk, _⟩
      · rw [hn] at h3
        cases h3
        rfl
      · exact absurd ⟨p, (List.of_mem_zip hpv).1, ct, hk⟩ hbody
    rw [key hb ho h, key hb' ho' h']

/-! ## One place for each argument -/

theorem zip_split {params : List Param} {p : Param} {v v' : Value} (hn : (params.map Param.name).Nodup)
    (hv : (p, v) ∈ params.zip args) (hv' : (p, v') ∈ params.zip args') :
    ∃ pre post as cs as' cs', params = pre ++ p :: post ∧ args = as ++ v :: cs ∧ args' = as' ++ v' :: cs' ∧
      pre.length = as.length ∧ pre.length = as'.length ∧ p ∉ pre ∧ p ∉ post := by
  induction params generalizing args args' with
  | nil => cases hv
  | cons q params ih =>
    rw [List.map_cons, List.nodup_cons] at hn
    cases args with
    | nil => cases hv
    | cons w args =>
      cases args' with
      | nil => cases hv'
      | cons w' args' =>
        rw [List.zip_cons_cons, List.mem_cons] at hv hv'
        by_cases hq : q = p
        · subst hq
          have hno : ∀ {x} {l : List Value}, (q, x) ∉ params.zip l := fun h =>
            hn.1 (List.mem_map.mpr ⟨q, (List.of_mem_zip h).1, rfl⟩)
          rcases hv with e | hv
          · rcases hv' with e' | hv'
            · cases e; cases e'
              exact ⟨[], params, [], args, [], args', rfl, rfl, rfl, rfl, rfl, by simp,
                fun h => hn.1 (List.mem_map.mpr ⟨q, h, rfl⟩)⟩
            · exact absurd hv' hno
          · exact absurd hv hno
        · rcases hv with e | hv
          · cases e; exact absurd rfl hq
          rcases hv' with e' | hv'
          · cases e'; exact absurd rfl hq
          obtain ⟨pre, post, as, cs, as', cs', h1, h2, h3, h4, h5, h6, h7⟩ := ih hn.2 hv hv'
          refine ⟨q :: pre, post, w :: as, cs, w' :: as', cs', by rw [h1]; rfl, by rw [h2]; rfl, by rw [h3]; rfl,
            by simp [h4], by simp [h5], ?_, h7⟩
          simp only [List.mem_cons, not_or]
          exact ⟨fun e => hq e.symm, h6⟩

theorem queryArgs_append {pre post : List Param} {as cs : List Value} (h : pre.length = as.length) :
    queryArgs (pre ++ post) (as ++ cs) = queryArgs pre as ++ queryArgs post cs := by
  unfold queryArgs
  rw [List.zip_append h, List.filterMap_append]

theorem forall₂_append_left {α β : Type} {R : α → β → Prop} {l m : List α} {ps : List β} (h : Forall₂ R (l ++ m) ps) :
    ∃ qs rs, ps = qs ++ rs ∧ Forall₂ R l qs ∧ Forall₂ R m rs := by
  induction l generalizing ps with
  | nil => exact ⟨[], ps, rfl, .nil, h⟩
  | cons a l ih =>
    cases h with
    | cons h ht =>
      obtain ⟨qs, rs, rfl, h1, h2⟩ := ih ht
      exact ⟨_ :: qs, rs, rfl, .cons h h1, h2⟩

theorem pairs_unique {l : List (Str × Ser)} {ps qs : List (List (Str × Str))}
    (h : Forall₂ (fun a b => queryPairs a.1 a.2 = .ok b) l ps) (h' : Forall₂ (fun a b => queryPairs a.1 a.2 = .ok b) l qs) : ps = qs := by
  induction h generalizing qs with
  | nil => cases h'; rfl
  | cons h _ ih =>
    cases h' with
    | cons h1 h2 =>
      rw [h] at h1
      cases h1
      rw [ih h2]

/-- C92: if two calls differ, as far as the query is concerned, only in one argument, then the pairs in the query differ
only in those of that argument, which are in the same place: exactly those its value is sent as, none if it is absent. -/
theorem C92_query_one_partial (h : Issues cfg op args r) (h' : Issues cfg op args' r') (hn : NoQueryInUrl cfg op)
    {p : Param} {v v' : Value} (hv : (p, v) ∈ op.params.zip args) (hv' : (p, v') ∈ op.params.zip args') (hk : InQuery p)
    (ha : SameFor (fun q => InQuery q ∧ q ≠ p) argSer op.params args args') :
    ∃ A B B' C, queryOfRequest r = A ++ B ++ C ∧ queryOfRequest r' = A ++ B' ++ C ∧
      ArgPairs p.apiName (argSer v) B ∧ ArgPairs p.apiName (argSer v') B' := by
  obtain ⟨c, env, env', o, o', hc, hb, hb', ho, ho', h, h'⟩ := issues_two h h'
  obtain ⟨_, _, _, q, _, _, _, hq, rfl⟩ := buildWith_request.mp h
  obtain ⟨_, _, _, q', _, _, _, hq', rfl⟩ := buildWith_request.mp h'
  obtain ⟨hnd, hlen, _⟩ := bindArgs_some hb
  obtain ⟨_, hlen', _⟩ := bindArgs_some hb'
  rw [url_noQuery hc hb ho hn, (operands_some hc hb ho).2.1] at hq
  rw [url_noQuery hc hb' ho' hn, (operands_some hc hb' ho').2.1] at hq'
  obtain ⟨pre, post, as, cs, as', cs', h1, h2, h3, h4, h5, h6, h7⟩ := zip_split hnd hv hv'
  rw [h1, h2] at hq
  rw [h1, h3] at hq'
  rw [h1] at ha hlen hlen'
  rw [h2] at ha hlen
  rw [h3] at ha hlen'
  have hpre : queryArgs pre as = queryArgs pre as' := by
    refine queryArgs_congr h4 h5 fun x w w' hw hw' hx => ha x w w' ?_ ?_ ⟨hx, fun e => h6 (e ▸ (List.of_mem_zip hw).1)⟩
    · rw [List.zip_append h4]; exact List.mem_append_left _ hw
    · rw [List.zip_append h5]; exact List.mem_append_left _ hw'
  have hpost : queryArgs post cs = queryArgs post cs' := by
    refine queryArgs_congr (by simp at hlen; omega) (by simp at hlen'; omega) fun x w w' hw hw' hx =>
      ha x w w' ?_ ?_ ⟨hx, fun e => h7 (e ▸ (List.of_mem_zip hw).1)⟩
    · rw [List.zip_append h4]; exact List.mem_append_right _ (List.mem_cons_of_mem _ hw)
    · rw [List.zip_append h5]; exact List.mem_append_right _ (List.mem_cons_of_mem _ hw')
  have hone : ∀ (w : Value) (cs : List Value), queryArgs (p :: post) (w :: cs) =
      ((argSer w).map fun s => (p.apiName, s)).toList ++ queryArgs post cs := by
    intro w cs
    obtain ⟨k, hk⟩ := hk
    unfold queryArgs
    rw [List.zip_cons_cons, List.filterMap_cons]
    simp only [hk]
    cases argSer w <;> rfl
  rw [queryArgs_append h4, hone, hpre] at hq
  rw [queryArgs_append h5, hone, ← hpost] at hq'
  have key : ∀ {w : Value} {q : Option Str}, addQueries (.ok none)
        (queryArgs pre as' ++ (((argSer w).map fun s => (p.apiName, s)).toList ++ queryArgs post cs)) = .ok q →
      ∃ A B C, Forall₂ (fun a b => queryPairs a.1 a.2 = .ok b) (queryArgs pre as') A ∧
        Forall₂ (fun a b => queryPairs a.1 a.2 = .ok b) (queryArgs post cs) C ∧
        formDecode (q.getD []) = (A.flatten.map fun e => (utf8 e.1, utf8 e.2)) ++ B ++ C.flatten.map (fun e => (utf8 e.1, utf8 e.2)) ∧
        ArgPairs p.apiName (argSer w) B := by
    intro w q hq
    obtain ⟨ps, hps, hd, _⟩ := C12_decode _ _ hq
    obtain ⟨A, R, rfl, hA, hR⟩ := forall₂_append_left hps
    obtain ⟨B, C, rfl, hB, hC⟩ := forall₂_append_left hR
    refine ⟨A, B.flatten.map fun e => (utf8 e.1, utf8 e.2), C, hA, hC, by rw [hd]; simp, ?_⟩
    generalize argSer w = a at hB
    cases a with
    | none =>
      cases hB
      rfl
    | some s =>
      cases hB with
      | cons hB ht =>
        cases ht
        exact ⟨_, ((C11_sent_iff _ _).1 _).mp hB, by simp⟩
  obtain ⟨A, B, C, hA, hC, hd, hB⟩ := key hq
  obtain ⟨A', B', C', hA', hC', hd', hB'⟩ := key hq'
  cases pairs_unique hA hA'
  cases pairs_unique hC hC'
  exact ⟨_, B, B', _, hd, hd', hB, hB'⟩

/-- C92: if two calls differ, as far as headers are concerned, only in one argument, then all headers of other names are
the same. -/
theorem C92_header_one (hw : BodyNamed op.params) (h : Issues cfg op args r) (h' : Issues cfg op args' r') {p : Param}
    (ha : SameFor (fun q => InHeader q ∧ q ≠ p) argText op.params args args') :
    ∀ n, n ≠ lowerName p.apiName → values r.headers n = values r'.headers n := by
  intro n hne
  obtain ⟨d, hd, hv⟩ := C17_exact cfg op args r hw h
  obtain ⟨d', hd', hv'⟩ := C17_exact cfg op args' r' hw h'
  rw [hd] at hd'
  cases hd'
  obtain ⟨c, env, env', o, o', hc, hb, hb', ho, ho', h, h'⟩ := issues_two h h'
  obtain ⟨_, hlen, _⟩ := bindArgs_some hb
  obtain ⟨_, hlen', _⟩ := bindArgs_some hb'
  rw [hv n, hv' n]
  have : explicitValues cfg.apiVersion op.params args n = explicitValues cfg.apiVersion op.params args' n := by
    unfold explicitValues headerArgs
    rw [List.filterMap_filterMap, List.filterMap_filterMap]
    congr 1
    refine zip_congr hlen hlen' fun q w w' hq hq' => ?_
    dsimp only
    by_cases e : q = p
    · subst e
      split
      · simp [Ne.symm hne]
      · rfl
    · split
      · rename_i k hk
        simp only [ha q w w' hq hq' ⟨⟨_, hk⟩, e⟩]
      · rfl
  rw [this]

/-- C92: if two calls differ only in one argument, then everything is the same that is for arguments of other kinds. -/
theorem C92_others (hw : BodyNamed op.params) (h : Issues cfg op args r) (h' : Issues cfg op args' r') {p : Param}
    (ha : SameFor (fun q => q ≠ p) id op.params args args') :
    r.method = r'.method ∧ (¬ InPath p → r.url = r'.url) ∧
    (¬ InQuery p → ¬ InPath p ∨ NoQueryInUrl cfg op → r.query = r'.query) ∧
    (¬ InHeader p → ∀ n, values r.headers n = values r'.headers n) ∧ (¬ InBody p → r.body = r'.body) := by
  have key : ∀ {α : Type} {K : Param → Prop} {f : Value → α}, ¬ K p → SameFor K f op.params args args' := by
    intro α K f hk q v v' hv hv' hq
    have : v = v' := ha q v v' hv hv' fun e => hk (e ▸ hq)
    rw [this]
  refine ⟨?_, fun hp => (C92_url h h' (key hp)).1, fun hp hq => ?_, fun hp => C92_headers hw h h' (key hp), fun hp => C92_body hw h h' (key hp)⟩
  · obtain ⟨c, env, env', o, o', hc, hb, hb', ho, ho', h, h'⟩ := issues_two h h'
    obtain ⟨_, _, _, _, _, _, _, _, rfl⟩ := buildWith_request.mp h
    obtain ⟨_, _, _, _, _, _, _, _, rfl⟩ := buildWith_request.mp h'
    rfl
  · rcases hq with hq | hq
    · exact C92_query_any h h' (key hq) (key hp)
    · exact C92_query_partial h h' hq (key hp)

theorem expectedSegs_get (v : Str → Bytes) (l : List Seg) (i : Nat) :
    (expectedSegs v l)[i]? = l[i]?.map fun s => match s with
      | .lit s => percentDecode s
      | .par n pre post => percentDecode pre ++ v n ++ percentDecode post := by
  induction l generalizing i with
  | nil => simp [expectedSegs]
  | cons s l ih =>
    cases i with
    | zero => cases s <;> simp [expectedSegs]
    | succ i => cases s <;> simp [expectedSegs, ih]

/-- C92, guarded: if two calls differ, as far as the path is concerned, only in one argument, then the segments of the path that
are not for that argument are the same. Missing for the full claim: arguments with backslashes and dot segments. -/
theorem C92_segments_partial (h : Issues cfg op args r) (h' : Issues cfg op args' r') {l : List Seg} (hl : SegsOk l) (hne : l ≠ [])
    (hpath : Template.parse (segsText l) = .ok op.path) {auth : Str} {base : List Str} (hbase : BaseUrl cfg auth base)
    (hd : ApiDistinct op.params) (hrec : PathRecoverable l op.params args) (hrec' : PathRecoverable l op.params args') {p : Param}
    (ha : SameFor (fun q => InPath q ∧ q ≠ p) argText op.params args args') :
    (tailSegments auth base r).length = l.length ∧ (tailSegments auth base r').length = l.length ∧
    ∀ (i : Nat) (s : Seg), l[i]? = some s → (∀ n pre post, s = .par n pre post → n ≠ p.apiName) →
      (tailSegments auth base r)[i]? = (tailSegments auth base r')[i]? := by
  obtain ⟨_, v, hv, _, hs⟩ := issues_segments h hl hne hpath hbase hrec
  obtain ⟨_, v', hv', _, hs'⟩ := issues_segments h' hl hne hpath hbase hrec'
  have hlen : ∀ (v : Str → Bytes) (l : List Seg), (expectedSegs v l).length = l.length := by
    intro v l
    induction l with
    | nil => rfl
    | cons s l ih => cases s <;> simp [expectedSegs, ih]
  rw [hs, hs']
  refine ⟨hlen _ _, hlen _ _, fun i s hi hn => ?_⟩
  rw [expectedSegs_get, expectedSegs_get, hi]
  cases s with
  | lit t => rfl
  | par n pre post =>
    have hmem : n ∈ pars l := mem_pars.mpr ⟨pre, post, List.mem_of_getElem? hi⟩
    obtain ⟨q, w, hqw, hk, hqn, ht⟩ := hv n hmem
    obtain ⟨q', w', hqw', hk', hqn', ht'⟩ := hv' n hmem
    have hq : q = q' := pairwise_unique hd
      (List.mem_filter.mpr ⟨(List.of_mem_zip hqw).1, by simp [hk, location]⟩)
      (List.mem_filter.mpr ⟨(List.of_mem_zip hqw').1, by simp [hk', location]⟩) (hqn.trans hqn'.symm)
    subst hq
    have := ha q w w' hqw hqw' ⟨hk, fun e => hn n pre post rfl (e ▸ hqn.symm)⟩
    rw [ht, ht'] at this
    simp only [Option.map_some, Option.some.inj this]

/-! ## Where it fails -/

/-- `GET /v1?x={y}`. -/
def inlineOp : OperationMethod where
  operationId := "get_it".toList
  tags := []
  method := .get
  path := [.const "/v1?x=".toList, .param "y".toList]
  params := [⟨"y".toList, "y".toList, .type 0, .path⟩]
  responses := [⟨.code 200, .none⟩]
  websocket := false

/-- C92 fails as stated: with a question mark in the path, a path argument is in the query. -/
theorem C92_query_fails : ∃ args args' r r', Issues exCfg inlineOp args r ∧ Issues exCfg inlineOp args' r' ∧
    SameFor InQuery argSer inlineOp.params args args' ∧ r.query ≠ r'.query := by
  refine ⟨[.plain (txt "a")], [.plain (txt "b")],
    { method := .get, url := "http://h/v1".toList, query := some "x=a".toList,
      headers := [(Hdr.apiVersion, utf8 "1.0".toList)], body := none },
    { method := .get, url := "http://h/v1".toList, query := some "x=b".toList,
      headers := [(Hdr.apiVersion, utf8 "1.0".toList)], body := none }, ⟨_, _, rfl, rfl, rfl⟩, ⟨_, _, rfl, rfl, rfl⟩, ?_, by decide⟩
  rintro p v v' hv _ ⟨k, hk⟩
  simp only [inlineOp, List.zip_cons_cons, List.zip_nil_right, List.mem_singleton, Prod.mk.injEq] at hv
  rw [hv.1] at hk
  cases hk

/-- C92 fails as stated: the argument `..` takes away a segment that is not its own. -/
theorem C92_segments_fails : ∃ args args' r r', Issues exCfg exOp args r ∧ Issues exCfg exOp args' r' ∧
    SameFor (fun q => q.apiName ≠ "id".toList) id exOp.params args args' ∧
    (tailSegments "http://h".toList [] r)[0]? = some (utf8 "v1".toList) ∧
    (tailSegments "http://h".toList [] r')[0]? ≠ some (utf8 "v1".toList) := by
  refine ⟨[.plain (txt "a"), .plain (txt "x"), .opt none], [.plain (txt ".."), .plain (txt "x"), .opt none],
    { method := .get, url := "http://h/v1/a".toList, query := some "q=x".toList,
      headers := [(Hdr.apiVersion, utf8 "1.0".toList)], body := none },
    { method := .get, url := "http://h/v1/..".toList, query := some "q=x".toList,
      headers := [(Hdr.apiVersion, utf8 "1.0".toList)], body := none }, ⟨_, _, rfl, rfl, rfl⟩, ⟨_, _, rfl, rfl, rfl⟩, ?_,
      by decide +kernel, by decide +kernel⟩
  intro p v v' hv hv' hp
  simp only [exOp, List.zip_cons_cons, List.zip_nil_right, List.mem_cons, List.not_mem_nil, or_false, Prod.mk.injEq] at hv hv'
  rcases hv with ⟨rfl, rfl⟩ | ⟨rfl, rfl⟩ | ⟨rfl, rfl⟩
  · exact absurd rfl hp
  · rcases hv' with ⟨e, _⟩ | ⟨_, rfl⟩ | ⟨e, _⟩
    · cases e
    · rfl
    · cases e
  · rcases hv' with ⟨e, _⟩ | ⟨e, _⟩ | ⟨_, rfl⟩
    · cases e
    · cases e
    · rfl

/-! ## Examples -/

theorem sepIssues : Issues exCfg exOp [.plain (txt "a/b"), .plain (txt "z"), .opt none]
    { exReq with query := some "q=z".toList, headers := [(Hdr.apiVersion, utf8 "1.0".toList)] } := ⟨_, _, rfl, rfl, rfl⟩

theorem exNamed : BodyNamed exOp.params := by
  intro p hp ct hk
  simp only [exOp, List.mem_cons, List.not_mem_nil, or_false] at hp
  rcases hp with rfl | rfl | rfl <;> cases hk

theorem exNoQuery : NoQueryInUrl exCfg exOp := by
  refine ⟨by decide +kernel, fun t ht => ?_⟩
  simp only [exOp, List.mem_cons, List.not_mem_nil, or_false, Template.Component.const.injEq, reduceCtorEq] at ht
  rw [ht]
  decide +kernel

/-- Two calls with other query and header arguments go to the same place. -/
example : exReq.url = "http://h/v1/a%2Fb".toList ∧ SameFor InPath argText exOp.params
    [.plain (txt "a/b"), .plain (txt "x y"), .opt (some (txt "t"))] [.plain (txt "a/b"), .plain (txt "z"), .opt none] := by
  refine ⟨rfl, fun p v v' hv hv' hk => ?_⟩
  simp only [exOp, List.zip_cons_cons, List.zip_nil_right, List.mem_cons, List.not_mem_nil, or_false, Prod.mk.injEq] at hv hv'
  rcases hv with ⟨rfl, rfl⟩ | ⟨rfl, rfl⟩ | ⟨rfl, rfl⟩
  · rcases hv' with ⟨_, rfl⟩ | ⟨e, _⟩ | ⟨e, _⟩
    · rfl
    · cases e
    · cases e
  · cases hk
  · cases hk

theorem sepOnlyTag : SameFor (fun q => q ≠ ⟨"x_tag".toList, "X-Tag".toList, .type 0, .header false⟩) id exOp.params
    [.plain (txt "a/b"), .plain (txt "x y"), .opt (some (txt "t"))] [.plain (txt "a/b"), .plain (txt "x y"), .opt none] := by
  intro p v v' hv hv' hk
  simp only [exOp, List.zip_cons_cons, List.zip_nil_right, List.mem_cons, List.not_mem_nil, or_false, Prod.mk.injEq] at hv hv'
  rcases hv with ⟨rfl, rfl⟩ | ⟨rfl, rfl⟩ | ⟨rfl, rfl⟩
  · rcases hv' with ⟨_, rfl⟩ | ⟨e, _⟩ | ⟨e, _⟩
    · rfl
    · cases e
    · cases e
  · rcases hv' with ⟨e, _⟩ | ⟨_, rfl⟩ | ⟨e, _⟩
    · cases e
    · rfl
    · cases e
  · exact absurd rfl hk

/-- Leaving out the header argument changes that header and nothing else. -/
example (r' : Request) (h' : Issues exCfg exOp [.plain (txt "a/b"), .plain (txt "x y"), .opt none] r') :
    r'.url = exReq.url ∧ r'.query = exReq.query ∧ r'.body = exReq.body ∧
    ∀ n, n ≠ "x-tag".toList → values r'.headers n = values exReq.headers n := by
  obtain ⟨_, h1, h2, _, h4⟩ := C92_others exNamed exIssues h' sepOnlyTag
  have hp : ¬ InPath ⟨"x_tag".toList, "X-Tag".toList, .type 0, .header false⟩ := fun h => by cases h
  refine ⟨(h1 hp).symm, (h2 (fun ⟨_, h⟩ => by cases h) (.inl hp)).symm, (h4 fun ⟨_, h⟩ => by cases h).symm, fun n hn => ?_⟩
  refine (C92_header_one exNamed exIssues h' (p := ⟨"x_tag".toList, "X-Tag".toList, .type 0, .header false⟩) ?_ n ?_).symm
  · intro q v v' hv hv' hq
    rw [show v = v' from sepOnlyTag q v v' hv hv' hq.2]
  · rw [show lowerName "X-Tag".toList = "x-tag".toList by decide +kernel]
    exact hn

/-- The pairs in the query of two calls with other query arguments. -/
example : ∃ A B B' C, queryOfRequest exReq = A ++ B ++ C ∧
    queryOfRequest { exReq with query := some "q=z".toList, headers := [(Hdr.apiVersion, utf8 "1.0".toList)] } = A ++ B' ++ C ∧
    B = [(utf8 "q".toList, utf8 "x y".toList)] ∧ B' = [(utf8 "q".toList, utf8 "z".toList)] := by
  obtain ⟨A, B, B', C, h1, h2, h3, h4⟩ := C92_query_one_partial exIssues sepIssues exNoQuery
    (p := ⟨"q".toList, "q".toList, .type 0, .query true⟩) (v := .plain (txt "x y")) (v' := .plain (txt "z"))
    (List.mem_cons_of_mem _ List.mem_cons_self) (List.mem_cons_of_mem _ List.mem_cons_self) ⟨true, rfl⟩ (by
      rintro p v v' hv hv' ⟨⟨k, hk⟩, hne⟩
      simp only [exOp, List.zip_cons_cons, List.zip_nil_right, List.mem_cons, List.not_mem_nil, or_false, Prod.mk.injEq] at hv
      rcases hv with ⟨rfl, rfl⟩ | ⟨rfl, rfl⟩ | ⟨rfl, rfl⟩
      · cases hk
      · exact absurd rfl hne
      · cases hk)
  have one : ∀ (t : String) B, ArgPairs "q".toList (argSer (.plain (txt t))) B → B = [(utf8 "q".toList, utf8 t.toList)] := by
    rintro t B ⟨ps, hps, rfl⟩
    have := ((C11_sent_iff _ _).1 ps).mpr hps
    cases this
    rfl
  exact ⟨A, B, B', C, h1, h2, one _ _ h3, one _ _ h4⟩

/-- C11: the pairs in the query of every request are exactly those of the query arguments of the call, in signature order,
and nothing else. -/
theorem C11_request_partial (h : Issues cfg op args r) (hn : NoQueryInUrl cfg op) :
    ∃ pss, Forall₂ (fun (a : Str × Ser) ps => QueryOf a.1 a.2 ps) (queryArgs op.params args) pss ∧
      queryOfRequest r = pss.flatten.map fun e => (utf8 e.1, utf8 e.2) := by
  obtain ⟨c, env, _, o, _, hc, hb, _, ho, _, h, _⟩ := issues_two h h
  obtain ⟨_, _, _, q, _, _, _, hq, rfl⟩ := buildWith_request.mp h
  rw [url_noQuery hc hb ho hn, (operands_some hc hb ho).2.1] at hq
  obtain ⟨ps, hps, hd, _⟩ := C12_decode _ _ hq
  exact ⟨ps, forall₂_imp (fun h => ((C11_sent_iff _ _).1 _).mp h) hps, hd⟩

example : ∃ pss, Forall₂ (fun (a : Str × Ser) ps => QueryOf a.1 a.2 ps) [("q".toList, txt "x y" |>.ser)] pss ∧
    queryOfRequest exReq = pss.flatten.map fun e => (utf8 e.1, utf8 e.2) :=
  C11_request_partial exIssues exNoQuery

/-- Two calls for which the segments can be compared. -/
example : PathRecoverable wirePath wireOp.params (wireArgs "x") ∧ PathRecoverable wirePath wireOp.params (wireArgs "") ∧
    ApiDistinct wireOp.params :=
  ⟨recoverable_path (wireRecoverable "x" (by decide) (by decide) (by decide)),
   recoverable_path (wireRecoverable "" (by decide) (by decide) (by decide)), by simp [ApiDistinct, wireOp, location]⟩

end Progenitor.Props

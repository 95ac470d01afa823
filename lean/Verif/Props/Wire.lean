import Verif.Spec.Wire
import Verif.Props.Exec
import Verif.Props.Generate

/-!
# Theorems about requests and the documents they follow
-/

namespace Progenitor.Props

open Progenitor Progenitor.Params Progenitor.Exec Progenitor.Query Progenitor.Spec Progenitor.Client

/-! ## Query arguments -/

/-- The pairs with the keys of one argument are those it stands for, if arguments have different keys. -/
theorem readQuery_aux {keys : Str → List Str} {qa : List (Str × Ser)} {qs : List (List (Str × Str))}
    (h : Forall₂ (fun a ps => Means a.1 a.2 ps ∧ ∀ e ∈ ps, e.1 ∈ keys a.1) qa qs)
    (hd : qa.Pairwise fun a b => ∀ k ∈ keys a.1, k ∉ keys b.1) :
    (∀ n, (∀ a ∈ qa, ∀ k ∈ keys a.1, k ∉ keys n) →
      (qs.flatten.map fun p => (utf8 p.1, utf8 p.2)).filter (fun e => e.1 ∈ (keys n).map utf8) = []) ∧
    ∀ n s, (n, s) ∈ qa → ∃ ps, Means n s ps ∧
      (qs.flatten.map fun p => (utf8 p.1, utf8 p.2)).filter (fun e => e.1 ∈ (keys n).map utf8) =
        ps.map fun p => (utf8 p.1, utf8 p.2) := by
  have hmem : ∀ k n, utf8 k ∈ (keys n).map utf8 → k ∈ keys n := by
    intro k n h
    obtain ⟨k', hk, e⟩ := List.mem_map.mp h
    rw [← utf8_injective e]; exact hk
  have hnone : ∀ (ps : List (Str × Str)) n, (∀ e ∈ ps, e.1 ∉ keys n) →
      (ps.map fun p => (utf8 p.1, utf8 p.2)).filter (fun e => e.1 ∈ (keys n).map utf8) = [] := by
    intro ps n h
    rw [List.filter_eq_nil_iff]
    intro e he
    obtain ⟨p, hp, rfl⟩ := List.mem_map.mp he
    simp only [decide_eq_true_eq]
    exact fun hc => h p hp (hmem _ _ hc)
  induction h with
  | nil => exact ⟨fun n _ => rfl, fun n s hm => by cases hm⟩
  | @cons a ps l m hat _ ih =>
    obtain ⟨h2, h3⟩ := ih (List.pairwise_cons.mp hd).2
    have hd1 := (List.pairwise_cons.mp hd).1
    refine ⟨fun n hn => ?_, fun n s hm => ?_⟩
    · rw [List.flatten_cons, List.map_append, List.filter_append, h2 n fun b hb => hn b (by simp [hb]), List.append_nil]
      exact hnone ps n fun e he => hn a (by simp) _ (hat.2 e he)
    · rw [List.flatten_cons, List.map_append, List.filter_append]
      rcases List.mem_cons.mp hm with e | hm
      · subst e
        refine ⟨ps, hat.1, ?_⟩
        rw [h2 n fun b hb k hk hc => hd1 b hb k hc hk, List.append_nil, List.filter_eq_self]
        intro e he
        obtain ⟨p, hp, rfl⟩ := List.mem_map.mp he
        simp only [decide_eq_true_eq]
        exact List.mem_map_of_mem (hat.2 p hp)
      · rw [hnone ps n fun e he => hd1 _ hm _ (hat.2 e he), List.nil_append]
        exact h3 n s hm

/-! ## Parameters of the document and arguments -/

theorem processOperation_params {san types path method d pr} (h : processOperation san types path method d = .ok pr) :
    ∃ body, (∀ b ∈ body, location b.kind = .body) ∧
      processParams san (Template.names pr.op.path) d.pathLevel d.opLevel body = .ok pr.op.params := by
  unfold processOperation at h
  obtain ⟨ps, hps, h⟩ := bind_ok_inv h
  obtain ⟨b, hb, h⟩ := bind_ok_inv h
  obtain ⟨tmp, htmp, h⟩ := bind_ok_inv h
  obtain ⟨sps, hsps, h⟩ := bind_ok_inv h
  obtain ⟨rs, hrs, h⟩ := bind_ok_inv h
  obtain ⟨_, hnc, h⟩ := bind_ok_inv h
  obtain ⟨m, hm, h⟩ := bind_ok_inv h
  cases h
  refine ⟨b, ?_, ?_⟩
  · intro q hq
    cases b with
    | none => cases hq
    | some p =>
      cases hq
      obtain ⟨_, c, hc⟩ := getBodyParam_some hb
      rw [hc]; rfl
  · unfold processParams
    rw [hps, Res.bind_ok]
    exact hsps

/-- C19: operations are only generated for bodies with at most one media type. -/
theorem C19_operation {san types path method d pr} (h : processOperation san types path method d = .ok pr) :
    d.body = none ∨ d.body = some [] ∨ ∃ ct m, d.body = some [(ct, m)] := by
  unfold processOperation at h
  obtain ⟨ps, hps, h⟩ := bind_ok_inv h
  obtain ⟨b, hb, h⟩ := bind_ok_inv h
  rcases (C19_declared_iff _ _).mp hb with ⟨_, h | h⟩ | ⟨ct, m, _, _, _, h, _⟩
  · exact .inl h
  · exact .inr (.inl h)
  · exact .inr (.inr ⟨ct, m, h⟩)

/-- Parameters other than the body have different API names. -/
def ApiDistinct (params : List Param) : Prop :=
  (params.filter fun a => location a.kind ≠ .body).Pairwise fun a b => a.apiName ≠ b.apiName

theorem queryArgs_distinct {params : List Param} (h : ApiDistinct params) (args : List Value) :
    (queryArgs params args).Pairwise fun a b => a.1 ≠ b.1 := by
  unfold ApiDistinct at h
  induction params generalizing args with
  | nil => exact .nil
  | cons p params ih =>
    cases args with
    | nil => exact .nil
    | cons v args =>
      unfold queryArgs
      rw [List.zip_cons_cons]
      have hrest : (params.filter fun a => location a.kind ≠ .body).Pairwise fun a b => a.apiName ≠ b.apiName := by
        by_cases hb : location p.kind = .body
        · simpa [List.filter_cons, hb] using h
        · rw [List.filter_cons_of_pos (by simpa using hb)] at h
          exact (List.pairwise_cons.mp h).2
      rw [List.filterMap_cons]
      split
      · exact ih hrest args
      · rename_i b hb
        refine List.pairwise_cons.mpr ⟨?_, ih hrest args⟩
        dsimp only at hb
        split at hb
        · rename_i rq hk
          intro e he
          obtain ⟨⟨q, w⟩, hq, hs⟩ := List.mem_filterMap.mp he
          dsimp only at hs
          split at hs
          · rename_i rq' hk'
            rw [List.filter_cons_of_pos (by simp [hk, location])] at h
            have := (List.pairwise_cons.mp h).1 q (List.mem_filter.mpr ⟨(List.of_mem_zip hq).1, by simp [hk', location]⟩)
            cases hx : argSer v with
            | none => simp [hx] at hb
            | some x =>
              cases hy : argSer w with
              | none => simp [hy] at hs
              | some y =>
                simp only [hx, Option.map_some, Option.some.injEq] at hb
                simp only [hy, Option.map_some, Option.some.injEq] at hs
                subst hb hs
                exact this
          · cases hs
        · cases hb

/-- Two members of a list with pairwise different images are the same if their images are. -/
theorem pairwise_unique {α β : Type} {f : α → β} {l : List α} (h : l.Pairwise fun a b => f a ≠ f b) {a b : α}
    (ha : a ∈ l) (hb : b ∈ l) (e : f a = f b) : a = b := by
  induction h with
  | nil => cases ha
  | cons hx _ ih =>
    rcases List.mem_cons.mp ha with rfl | ha' <;> rcases List.mem_cons.mp hb with rfl | hb'
    · rfl
    · exact absurd e (hx _ hb')
    · exact absurd e.symm (hx _ ha')
    · exact ih ha' hb'

/-! ## Headers -/

/-- Header names that requests contain by themselves. -/
def automaticNames : List Str :=
  [Hdr.apiVersion, Hdr.accept, Hdr.contentType, Hdr.connection, Hdr.upgrade, Hdr.wsVersion, Hdr.wsKey]

theorem filterMap_one {α β : Type} {f : α → Option β} {l : List α} {a : α} (ha : a ∈ l) (hn : l.Nodup)
    (hu : ∀ b ∈ l, b ≠ a → f b = none) : l.filterMap f = (f a).toList := by
  induction l with
  | nil => cases ha
  | cons x l ih =>
    rw [List.nodup_cons] at hn
    rcases List.mem_cons.mp ha with rfl | ha
    · have : l.filterMap f = [] := by
        rw [List.filterMap_eq_nil_iff]
        exact fun b hb => hu b (by simp [hb]) fun e => hn.1 (e ▸ hb)
      rw [List.filterMap_cons, this]
      cases f a <;> rfl
    · rw [List.filterMap_cons, hu x (by simp) fun e => hn.1 (e ▸ ha)]
      exact ih ha hn.2 fun b hb => hu b (by simp [hb])

theorem zip_filterMap_one {params : List Param} {args : List Value} {β : Type} {f : Param × Value → Option β} {p : Param} {v : Value}
    (hpv : (p, v) ∈ params.zip args) (hn : (params.map Param.name).Nodup)
    (hu : ∀ q w, (q, w) ∈ params.zip args → q ≠ p → f (q, w) = none) : (params.zip args).filterMap f = (f (p, v)).toList := by
  induction params generalizing args with
  | nil => cases hpv
  | cons a params ih =>
    cases args with
    | nil => cases hpv
    | cons w args =>
      rw [List.zip_cons_cons] at hpv hu ⊢
      rw [List.map_cons, List.nodup_cons] at hn
      rcases List.mem_cons.mp hpv with e | hpv
      · cases e
        have : (params.zip args).filterMap f = [] := by
          rw [List.filterMap_eq_nil_iff]
          rintro ⟨q, w⟩ hq
          refine hu q w (by simp [hq]) fun e => hn.1 ?_
          rw [← e]; exact List.mem_map_of_mem (List.of_mem_zip hq).1
        rw [List.filterMap_cons, this]
        cases f (p, v) <;> rfl
      · rw [List.filterMap_cons, hu a w (by simp) fun e => hn.1 (e ▸ List.mem_map_of_mem (List.of_mem_zip hpv).1)]
        exact ih hpv hn.2 fun q w hq => hu q w (by simp [hq])

theorem readHeader_arg {cfg : Config} {op : OperationMethod} {args : List Value} {r : Request}
    (hw : BodyNamed op.params) (h : Issues cfg op args r) {p : Param} {v : Value} {rq : Bool}
    (hpv : (p, v) ∈ op.params.zip args) (hk : p.kind = .header rq)
    (hauto : lowerName p.apiName ∉ automaticNames)
    (hdist : ∀ q ∈ op.params, ∀ rq', q.kind = .header rq' → lowerName q.apiName = lowerName p.apiName → q = p) :
    readHeader r p.apiName = (argText v).toList.map utf8 := by
  obtain ⟨d, _, hx⟩ := C17_exact cfg op args r hw h
  obtain ⟨c, env, o, hc, hb, _, ho, _⟩ := issues_parts h
  obtain ⟨hnd, _, _, _⟩ := bindArgs_some hb
  unfold readHeader
  rw [hx]
  simp only [automaticNames, List.mem_cons, List.not_mem_nil, or_false, not_or] at hauto
  obtain ⟨h1, h2, h3, h4, h5, h6, h7⟩ := hauto
  have he : explicitValues cfg.apiVersion op.params args (lowerName p.apiName) = (argText v).toList.map utf8 := by
    unfold explicitValues headerArgs
    rw [if_neg h1, List.nil_append, List.filterMap_filterMap]
    rw [zip_filterMap_one hpv hnd]
    · simp only [hk, Option.bind_some, if_true]
      cases argText v <;> rfl
    · intro q w hq hne
      dsimp only
      split
      · rename_i rq' hk'
        simp only [Option.bind_some]
        rw [if_neg]
        exact fun e => hne (hdist q (List.of_mem_zip hq).1 rq' hk' e)
      · rfl
  have ha : automaticValues (Resp.acceptJson d) (bodyLabels op.params) (lowerName p.apiName) = [] := by
    simp [automaticValues, h2, h3]
  have hs : values ((handshake cfg.wsKey).map fun e => (e.1, utf8 e.2)) (lowerName p.apiName) = [] := by
    simp [handshake, values, Ne.symm h4, Ne.symm h5, Ne.symm h6, Ne.symm h7]
  rw [he, ha, hs]
  simp only [ite_self, List.append_nil]
  split
  · rename_i e; rw [e]
  · rfl

/-! ## Paths -/

theorem between_around (pre post : Str) (y : Bytes) : between pre post (percentDecode pre ++ (y ++ percentDecode post)) = y := by
  unfold between
  rw [List.drop_left, List.length_append, List.length_append,
    show (percentDecode pre).length + (y.length + (percentDecode post).length) - ((percentDecode pre).length + (percentDecode post).length) = y.length by omega,
    List.take_left]

theorem readPath_expected (f : Str → Bytes) (l : List Seg) (n : Str) :
    readPath l (expectedSegs f l) n = (l.filter (Seg.holds n)).map fun _ => f n := by
  unfold readPath
  induction l with
  | nil => rfl
  | cons s l ih =>
    cases s with
    | lit t => simpa [expectedSegs, Seg.holds] using ih
    | par m pre post =>
      by_cases e : m = n
      · subst e; simpa [expectedSegs, Seg.holds, Seg.value, between_around] using ih
      · simpa [expectedSegs, Seg.holds, e] using ih

theorem routed_expected (f : Str → Bytes) (l : List Seg) : Routed l (expectedSegs f l) := by
  induction l with
  | nil => exact .nil
  | cons s l ih =>
    cases s with
    | lit t => exact .cons rfl ih
    | par m pre post => exact .cons ⟨f m, rfl⟩ ih

theorem readPath_absent {l : List Seg} {n : Str} (h : n ∉ pars l) : l.filter (Seg.holds n) = [] := by
  induction l with
  | nil => rfl
  | cons s l ih =>
    cases s with
    | lit t => simpa [pars, Seg.holds] using ih (by simpa [pars] using h)
    | par m pre post =>
      simp only [pars, List.mem_cons, not_or] at h
      simpa [Seg.holds, Ne.symm h.1] using ih h.2

/-! ## C70 -/

/-- The arguments of a call that a server can recover: path arguments without backslashes that do not make
their segment `.` or `..`, and query arguments that mean something under the keys of their parameters, which have different keys. -/
structure Recoverable (keys : Str → List Str) (l : List Seg) (params : List Param) (args : List Value) : Prop where
  path : ∀ p v, (p, v) ∈ params.zip args → p.kind = .path → ∀ t, argText v = some t → ∀ pre post, Seg.par p.apiName pre post ∈ l →
    '\\' ∉ t ∧ pre ++ t ++ post ≠ ['.'] ∧ pre ++ t ++ post ≠ ['.', '.']
  query : ∀ p v, (p, v) ∈ params.zip args → ∀ k, p.kind = .query k →
    ∃ s ps, argSer v = some s ∧ Means p.apiName s ps ∧ ∀ e ∈ ps, e.1 ∈ keys p.apiName
  apart : ∀ p ∈ params, ∀ q ∈ params, ∀ k k', p.kind = .query k → q.kind = .query k' → p.apiName ≠ q.apiName →
    ∀ x ∈ keys p.apiName, x ∉ keys q.apiName

/-- The keys of query parameters that are no objects. -/
def ownKey (n : Str) : List Str := [n]

/-- Header parameters have different names, also without regard to case, and none of them is a
header that requests contain anyway. -/
def HeadersApart (pathLevel opLevel : List DocParam) : Prop :=
  ∀ p, Effective pathLevel opLevel p → p.kind = .header → lowerName p.name ∉ automaticNames ∧
    ∀ q, Effective pathLevel opLevel q → q.kind = .header → lowerName q.name = lowerName p.name → q.name = p.name

/-- The base URL consists of an authority and plain segments. -/
structure BaseUrl (cfg : Config) (auth : Str) (base : List Str) : Prop where
  plain : BaseOk base
  noSpecial : ∀ c ∈ auth, c ≠ '#' ∧ c ≠ '?'
  eq : cfg.baseurl = auth ++ joinSegs base

theorem means_queries {keys : Str → List Str} {l : List Seg} {params : List Param} {args : List Value} (h : Recoverable keys l params args) :
    ∃ qs, Forall₂ (fun (a : Str × Ser) ps => Means a.1 a.2 ps ∧ ∀ e ∈ ps, e.1 ∈ keys a.1) (queryArgs params args) qs := by
  have : ∀ a ∈ queryArgs params args, ∃ ps, Means a.1 a.2 ps ∧ ∀ e ∈ ps, e.1 ∈ keys a.1 := by
    intro a ha
    obtain ⟨⟨p, v⟩, hpv, hs⟩ := List.mem_filterMap.mp ha
    dsimp only at hs
    split at hs
    · rename_i k hk
      obtain ⟨s, ps, h1, h2⟩ := h.query p v hpv k hk
      rw [h1] at hs
      cases hs
      exact ⟨ps, h2⟩
    · cases hs
  revert this
  generalize queryArgs params args = qa
  intro this
  induction qa with
  | nil => exact ⟨[], .nil⟩
  | cons a qa ih =>
    obtain ⟨ts, h1⟩ := this a (by simp)
    obtain ⟨tss, h2⟩ := ih fun b hb => this b (by simp [hb])
    exact ⟨ts :: tss, .cons h1 h2⟩

theorem queryArgs_param {params : List Param} {args : List Value} {a : Str × Ser} (h : a ∈ queryArgs params args) :
    ∃ p ∈ params, (∃ k, p.kind = .query k) ∧ p.apiName = a.1 := by
  obtain ⟨⟨p, v⟩, hpv, hs⟩ := List.mem_filterMap.mp h
  dsimp only at hs
  split at hs
  · rename_i k hk
    refine ⟨p, (List.of_mem_zip hpv).1, ⟨k, hk⟩, ?_⟩
    cases hv : argSer v with
    | none => rw [hv] at hs; cases hs
    | some s => rw [hv] at hs; cases hs; rfl
  · cases hs

theorem queries_apart {keys : Str → List Str} {l : List Seg} {params : List Param} {args : List Value} (h : Recoverable keys l params args)
    (hd : (queryArgs params args).Pairwise fun a b => a.1 ≠ b.1) :
    (queryArgs params args).Pairwise fun a b => ∀ k ∈ keys a.1, k ∉ keys b.1 := by
  refine hd.imp_of_mem fun ha hb hne => ?_
  obtain ⟨p, hp, ⟨k, hk⟩, e⟩ := queryArgs_param ha
  obtain ⟨q, hq, ⟨k', hk'⟩, e'⟩ := queryArgs_param hb
  rw [← e, ← e'] at hne ⊢
  exact h.apart p hp q hq k k' hk hk' hne

theorem zip_unique {params : List Param} {args : List Value} (hn : (params.map Param.name).Nodup) {p : Param} {v w : Value}
    (h1 : (p, v) ∈ params.zip args) (h2 : (p, w) ∈ params.zip args) : v = w := by
  have := zip_filterMap_one (f := fun e : Param × Value => if e.1 = p then some e.2 else none) h1 hn
    (fun q w _ hne => by simp [hne])
  have this' := zip_filterMap_one (f := fun e : Param × Value => if e.1 = p then some e.2 else none) h2 hn
    (fun q w _ hne => by simp [hne])
  rw [this] at this'
  simpa using this'

/-- C70, guarded: whenever a method generated for an operation of a document sends a request, a server
that implements the document accepts it for that operation, and reads for every parameter of the
operation exactly what the corresponding argument says. -/
theorem C70_received_partial {san types path method d pr} (hp : processOperation san types path method d = .ok pr)
    {l : List Seg} (hpath : path = segsText l) (hl : SegsOk l) (hne : l ≠ [])
    (hdp : NoDuplicates d.pathLevel) (hdo : NoDuplicates d.opLevel) (hun : NamesUnambiguous (d.pathLevel ++ d.opLevel))
    (hh : HeadersApart d.pathLevel d.opLevel)
    {cfg : Config} {auth : Str} {base : List Str} (hbase : BaseUrl cfg auth base)
    {args : List Value} {r : Request} (h : Issues cfg pr.op args r) (hrec : Recoverable keys l pr.op.params args) :
    Received keys l method d.pathLevel d.opLevel (pr.op.params.zip args) auth base r := by
  subst hpath
  obtain ⟨body, hbody, hps⟩ := processOperation_params hp
  obtain ⟨hbn, hnty, hparse, _, hmeth, _⟩ := processOperation_inv hp
  obtain ⟨hex, hall, hdist⟩ := C13_override_partial _ _ _ _ _ _ hdp hdo hun hbody hps
  obtain ⟨c, env, o, hc, hb, _, ho, _⟩ := issues_parts h
  obtain ⟨hnd, hlen, htyped, _⟩ := bindArgs_some hb
  obtain ⟨qs, hqs⟩ := means_queries hrec
  obtain ⟨_, hread⟩ := readQuery_aux hqs (queries_apart hrec (queryArgs_distinct hdist args))
  obtain ⟨hm, ⟨tail, f, hurl, hf, hseg⟩, hdec, _⟩ := C20_roundtrip_partial cfg pr.op args r h l hl hne hparse auth base
    hbase.plain hbase.noSpecial hbase.eq
    (fun n pre post t hn ⟨p, v, hpv, hk, hpn, ht⟩ => hrec.path p v hpv hk t ht pre post (hpn ▸ hn)) qs (forall₂_imp (fun h => h.1) hqs)
  have hdrop : r.url.drop auth.length = tail := by rw [hurl]; simp
  have htail : tailSegments auth base r = expectedSegs (fun n => utf8 (f n)) l := by
    unfold tailSegments
    rw [hdrop, hseg, List.drop_append_of_le_length (by simp)]
    simp
  -- arguments with the same API name are the same
  have huniq : ∀ a ∈ pr.op.params, ∀ b ∈ pr.op.params, location a.kind ≠ .body → location b.kind ≠ .body →
      a.apiName = b.apiName → a = b := fun a ha b hb' h1 h2 e =>
    pairwise_unique hdist (List.mem_filter.mpr ⟨ha, by simpa using h1⟩) (List.mem_filter.mpr ⟨hb', by simpa using h2⟩) e
  have hnb : ∀ (p : DocParam) (a : Param), Describes p a → location a.kind ≠ .body := by
    intro p a hd
    rw [hd.2.1]
    cases p.kind <;> simp [docLocation]
  refine ⟨?_, ?_, ?_, ?_⟩
  · rw [hm]; exact ((C58_method_only _ _).mp hmeth).symm
  · rw [hdrop, hseg, List.take_append_of_le_length (by simp), List.take_of_length_le (by simp)]
  · rw [htail]; exact routed_expected _ l
  · intro p hpe
    obtain ⟨a, ha, hda⟩ := hex p hpe
    obtain ⟨v, hv⟩ : ∃ v, (a, v) ∈ pr.op.params.zip args := by
      obtain ⟨i, hi, hia⟩ := List.mem_iff_getElem.mp ha
      refine ⟨args[i]'(hlen ▸ hi), ?_⟩
      rw [← hia]
      refine List.mem_iff_getElem.mpr ⟨i, by simp [← hlen, hi], by simp⟩
    refine ⟨a, v, hv, hda, ?_, ?_⟩
    · intro a' v' hv' hd'
      have := huniq a' (List.of_mem_zip hv').1 a ha (hnb p a' hd') (hnb p a hda) (hd'.1.trans hda.1.symm)
      subst this
      exact ⟨rfl, zip_unique hnd hv' hv⟩
    · have hloc := hda.2.1
      unfold reads
      cases hk : p.kind with
      | path k =>
        have hka : a.kind = .path := by
          rw [hk] at hloc
          cases hka : a.kind <;> simp [hka, location, docLocation] at hloc; rfl
        dsimp only
        rw [htail, readPath_expected, List.map_map]
        by_cases hin : p.name ∈ pars l
        · obtain ⟨a', v', hv', hk', hn', ht'⟩ := hf p.name hin
          have : a' = a := huniq a' (List.of_mem_zip hv').1 a ha (by simp [hk', location]) (hnb p a hda) (hn'.trans hda.1.symm)
          subst this
          rw [zip_unique hnd hv' hv] at ht'
          exact .path k _ hk ht'
        · obtain ⟨x, hx⟩ := hnty a ha (by intro c; rw [hka]; simp)
          have hty := htyped a v hv
          rw [readPath_absent hin]
          cases v with
          | plain x =>
            have := Expected.path (l := l) (p := p) (v := .plain x) k x.display hk rfl
            rwa [readPath_absent hin] at this
          | _ => simp [typed, hx, hka] at hty
      | query k m =>
        dsimp only
        obtain ⟨kr, hka⟩ : ∃ kr, a.kind = .query kr := by
          rw [hk] at hloc
          cases hka : a.kind <;> simp [hka, location, docLocation] at hloc
          exact ⟨_, rfl⟩
        obtain ⟨s, _, hs, _⟩ := hrec.query a v hv kr hka
        obtain ⟨ps, hps', hr⟩ := hread p.name s (by
          refine List.mem_filterMap.mpr ⟨(a, v), hv, ?_⟩
          simp [hka, hs, hda.1])
        unfold readQuery
        rw [hdec, hr]
        exact .query k m s ps hk hs hps'
      | header =>
        dsimp only
        obtain ⟨kr, hka⟩ : ∃ kr, a.kind = .header kr := by
          rw [hk] at hloc
          cases hka : a.kind <;> simp [hka, location, docLocation] at hloc
          exact ⟨_, rfl⟩
        obtain ⟨h1, h2⟩ := hh p hpe hk
        rw [← hda.1] at h1 ⊢
        rw [readHeader_arg hbn h hv hka h1]
        · rw [List.map_map, hda.1]
          exact .header hk
        · intro q hq rq' hqk e
          obtain ⟨p', hpe', hd'⟩ := hall q hq (by simp [hqk, location])
          have hk' : p'.kind = .header := by
            have := hd'.2.1
            rw [hqk] at this
            cases hk' : p'.kind <;> simp [hk', location, docLocation] at this
            rfl
          refine huniq q hq a ha (by simp [hqk, location]) (by simp [hka, location]) ?_
          have := h2 p' hpe' hk' (by rw [← hd'.1, ← hda.1]; exact e)
          rw [hd'.1, hda.1, this]
      | cookie =>
        have := hda.2.2
        rw [hk] at this
        cases a.kind <;> exact this.elim

/-- C70, guarded: an operation with a request body sends the encoded body argument, labelled with
the media type of the document; an operation without one sends neither. -/
theorem C70_body_partial {san types path method d pr} (hp : processOperation san types path method d = .ok pr)
    (hdp : NoDuplicates d.pathLevel) (hdo : NoDuplicates d.opLevel) (hun : NamesUnambiguous (d.pathLevel ++ d.opLevel))
    (hh : HeadersApart d.pathLevel d.opLevel)
    {cfg : Config} {args : List Value} {r : Request} (h : Issues cfg pr.op args r) :
    (∀ ct m, d.body = some [(ct, m)] → ∃ a v c b, (a, v) ∈ pr.op.params.zip args ∧ a.kind = .body c ∧
      ContentType.parse ct = .ok c ∧ r.body = some b ∧ Encodes cfg.toJson c v b ∧
      readHeader r Hdr.contentType = [utf8 c.print]) ∧
    (d.body = none ∨ d.body = some [] → r.body = none ∧ readHeader r Hdr.contentType = []) := by
  obtain ⟨body, hbody, hps⟩ := processOperation_params hp
  obtain ⟨hbn, _⟩ := processOperation_inv hp
  obtain ⟨hex, hall, hdist⟩ := C13_override_partial _ _ _ _ _ _ hdp hdo hun hbody hps
  obtain ⟨c, env, o, hc, hb, _, ho, _⟩ := issues_parts h
  obtain ⟨hnd, hlen, _, _⟩ := bindArgs_some hb
  have hlabel := C19_label_partial cfg pr.op args r hbn h (by
    intro q w rq hq hk e
    obtain ⟨p', hpe', hd'⟩ := hall q (List.of_mem_zip hq).1 (by simp [hk, location])
    have hk' : p'.kind = .header := by
      have := hd'.2.1
      rw [hk] at this
      cases hk' : p'.kind <;> simp [hk', location, docLocation] at this
      rfl
    have := (hh p' hpe' hk').1
    rw [← hd'.1, e] at this
    exact absurd (by decide) this)
  have hct : readHeader r Hdr.contentType = (bodyLabels pr.op.params).map utf8 := by
    unfold readHeader
    rw [show lowerName Hdr.contentType = Hdr.contentType by decide]
    exact hlabel.1
  unfold processOperation at hp
  obtain ⟨ps, hps', hp⟩ := bind_ok_inv hp
  obtain ⟨b, hgb, hp⟩ := bind_ok_inv hp
  obtain ⟨tmp, htmp, hp⟩ := bind_ok_inv hp
  obtain ⟨sps, hsps, hp⟩ := bind_ok_inv hp
  obtain ⟨rs, hrs, hp⟩ := bind_ok_inv hp
  obtain ⟨_, hnc, hp⟩ := bind_ok_inv hp
  obtain ⟨m', hm', hp⟩ := bind_ok_inv hp
  cases hp
  have hperm : sps.Perm (ps ++ b.toList) := by simpa using sortLoop_perm hsps
  dsimp only at hbn h hct hlabel hlen ⊢
  refine ⟨?_, ?_⟩
  · intro ct m hd
    rw [hd] at hgb
    cases b with
    | none =>
      exfalso
      simp only [getBodyParam] at hgb
      split at hgb
      · cases hgb
      · obtain ⟨_, _, hgb⟩ := bind_ok_inv hgb
        obtain ⟨_, _, hgb⟩ := bind_ok_inv hgb
        cases hgb
    | some a =>
      obtain ⟨s, c', typ, _, hc', _, ha⟩ := (C19_declared ct m a).mp hgb
      have hmem : a ∈ sps := hperm.mem_iff.mpr (by simp)
      have hk : a.kind = .body c' := by rw [ha]
      obtain ⟨v, hv⟩ : ∃ v, (a, v) ∈ sps.zip args := by
        obtain ⟨i, hi, hia⟩ := List.mem_iff_getElem.mp hmem
        refine ⟨args[i]'(hlen ▸ hi), ?_⟩
        rw [← hia]
        refine List.mem_iff_getElem.mpr ⟨i, by simp [← hlen, hi], by simp⟩
      obtain ⟨x, hx, henc⟩ := C19_body cfg _ args r hbn h a v c' hv hk
      refine ⟨a, v, c', x, hv, hk, hc', hx, henc, ?_⟩
      rw [hct, hlabel.2 a hmem c' hk]
      rfl
  · intro hd
    have hb0 : b = none := by
      rcases hd with hd | hd <;> (rw [hd] at hgb; cases hgb; rfl)
    subst hb0
    have hnob : ∀ p ∈ sps, ∀ ct, p.kind ≠ .body ct := fun p hp =>
      (convertAll_typed hps' p (by simpa using hperm.mem_iff.mp hp)).2
    refine ⟨C19_no_body cfg _ args r hbn h hnob, ?_⟩
    rw [hct]
    have : bodyLabels sps = [] := by
      unfold bodyLabels
      rw [List.filterMap_eq_nil_iff]
      intro p hp
      have := hnob p hp
      cases hk : p.kind with
      | body c => exact absurd hk (this c)
      | _ => rfl
    rw [this]; rfl

/-- What is assumed about an operation of the document: the path has at most one parameter per segment, no
parameter is declared twice, no name is used in two locations, header names are apart. -/
structure WireReady (o : Str × Str × Doc.RawOperation) (l : List Seg) : Prop where
  path : o.1 = segsText l
  segs : SegsOk l
  nonempty : l ≠ []
  pathLevel : NoDuplicates o.2.2.op.pathLevel
  opLevel : NoDuplicates o.2.2.op.opLevel
  names : NamesUnambiguous (o.2.2.op.pathLevel ++ o.2.2.op.opLevel)
  headers : HeadersApart o.2.2.op.pathLevel o.2.2.op.opLevel

theorem processAll_operation {u : Names.Unicode} {types : Types} {os : List (Str × Str × Doc.RawOperation)} {ps : List Processed}
    (h : Doc.processAll u types os = .ok ps) : Forall₂ (fun o p => ∃ id,
      processOperation (Names.sanitize u .snake) types o.1 o.2.1 { o.2.2.op with operationId := id } = .ok p) os ps := by
  induction os generalizing ps with
  | nil => cases h; exact .nil
  | cons o os ih =>
    obtain ⟨p, h1, h⟩ := bind_ok_inv h
    obtain ⟨ps', h2, h⟩ := bind_ok_inv h
    cases h
    refine .cons ?_ (ih h2)
    obtain ⟨path, m, o⟩ := o
    cases hid : o.id with
    | none => simp only [Doc.processOne, hid] at h1; cases h1
    | some id => simp only [Doc.processOne, hid] at h1; exact ⟨id, h1⟩

theorem generate_operation {B : Type} {u : Names.Unicode} {types : Types} {tt : Builder.TypeTable B} {i : Doc.Interface}
    {t : Doc.TagStyle} {d : Doc.Document} {ms : List Processed} {cs : List Code} (hg : Doc.generate u types tt i t d = .ok (ms, cs)) :
    Forall₂ (fun o p => ∃ id,
      processOperation (Names.sanitize u .snake) types o.1 o.2.1 { o.2.2.op with operationId := id } = .ok p) (Doc.operations d) ms := by
  obtain ⟨ms', h1, h⟩ := bind_ok_inv hg
  obtain ⟨cs', h2, h⟩ := bind_ok_inv h
  cases h
  exact processAll_operation (rawMethods_ok h1).2

theorem sent_issues {P V : Type} {cfg : Config} {hooks : Hooks} {w : World} {decode : TypeId → Bytes → Except P V}
    {op : OperationMethod} {c : Code} {hist evs : List Event} {args : List Value} {r : Request} (hc : methodSigBody op = .ok c)
    (hpre : Keeps hooks w) (he : (call cfg hooks w decode op.params c hist args).2 = hist ++ evs)
    (hr : .send r ∈ evs) : Issues cfg op args r := by
  unfold call at he
  split at he
  · simp at he; rw [he] at hr; cases hr
  · rename_i env hb
    unfold run at he
    split at he
    · simp at he; rw [he] at hr; cases hr
    · simp at he; rw [he] at hr; cases hr
    · simp at he; rw [he] at hr; cases hr
    · simp at he; rw [he] at hr; cases hr
    · rename_i r' hr'
      rw [perform_events] at he
      have he := List.append_cancel_left he
      rw [← he] at hr
      have : r = r' := by
        cases hp : hooks.preAsync with
        | false =>
          simp only [hp, Bool.false_eq_true, if_false, List.mem_append, List.mem_cons] at hr
          rcases hr with hr | hr | hr
          · split at hr <;> simp at hr
          · simpa using hr
          · rcases hr with hr | hr <;> (split at hr <;> simp at hr)
        | true =>
          simp only [hp, if_true, List.mem_append, List.mem_cons] at hr
          rcases hr with hr | hr | hr
          · split at hr <;> simp at hr
          · simp at hr
          · split at hr
            · simp at hr
            · rename_i r'' hr''
              have := hpre hp _ _ _ hr''
              subst this
              simp only [List.mem_cons, List.mem_append] at hr
              rcases hr with hr | hr | hr
              · simpa using hr
              · split at hr <;> simp at hr
              · split at hr <;> simp at hr
      subst this
      exact ⟨c, env, hc, hb, hr'⟩

/-- C70, guarded, for a whole document: every request that a generated method sends, in either interface
style, is understood by a server that implements the document as the call that was made. -/
theorem C70_document_partial {B P V : Type} {u : Names.Unicode} {types : Types} {tt : Builder.TypeTable B} {i : Doc.Interface} {t : Doc.TagStyle}
    {d : Doc.Document} {ms : List Processed} {cs : List Code} (hg : Doc.generate u types tt i t d = .ok (ms, cs)) :
    Forall₂ (fun o (pc : Processed × Code) => ∀ l, WireReady o l →
      ∀ (keys : Str → List Str) (cfg : Config) (auth : Str) (base : List Str), BaseUrl cfg auth base →
      ∀ (hooks : Hooks) (w : World) (decode : TypeId → Bytes → Except P V) (hist : List Event) (args : List Value),
        Keeps hooks w → Recoverable keys l pc.1.op.params args →
        ∃ evs, (call cfg hooks w decode pc.1.op.params pc.2 hist args).2 = hist ++ evs ∧ sends evs ≤ 1 ∧
          ∀ r, .send r ∈ evs →
            Received keys l o.2.1 o.2.2.op.pathLevel o.2.2.op.opLevel (pc.1.op.params.zip args) auth base r)
      (routes d) (ms.zip cs) := by
  have hcodes := C66_code hg
  have hops := generate_operation hg
  rw [← routes_eq]
  clear hg
  revert hops hcodes
  generalize Doc.operations d = os
  intro hcodes hops
  induction hops generalizing cs with
  | nil => cases hcodes; exact .nil
  | @cons o p os ps hop _ ih =>
    cases hcodes with
    | @cons _ c _ cs hc hcodes =>
      refine .cons ?_ (ih hcodes)
      intro l hl keys cfg auth base hbase hooks w decode hist args hpre hrec
      obtain ⟨id, hop⟩ := hop
      obtain ⟨evs, he, hs⟩ := C21_at_most_one cfg hooks w decode p.op.params c hist args
      refine ⟨evs, he, hs, fun r hr => ?_⟩
      exact C70_received_partial hop hl.path hl.segs hl.nonempty hl.pathLevel hl.opLevel hl.names hl.headers hbase
        (sent_issues hc hpre he hr) hrec

/-! ## C71 -/

/-- Two arguments that a server cannot tell apart. -/
inductive Alike (toJson : Ser → Except Unit Bytes) (a : Param) (v w : Value) : Prop
  | text (t) : (a.kind = .path ∨ ∃ k, a.kind = .header k) → argText v = t → argText w = t → Alike toJson a v w
  | query (k s s' ps) : a.kind = .query k → argSer v = some s → argSer w = some s' → Means a.apiName s ps → Means a.apiName s' ps →
      Alike toJson a v w
  | body (c b) : a.kind = .body c → Encodes toJson c v b → Encodes toJson c w b → Alike toJson a v w

theorem expected_alike {toJson : Ser → Except Unit Bytes} {l : List Seg} {p : DocParam} {a : Param} {v w : Value} {xs : List (Bytes × Bytes)}
    (hd : Describes p a) (hin : a.kind = .path → a.apiName ∈ pars l)
    (h1 : Expected l p v xs) (h2 : Expected l p w xs) : Alike toJson a v w := by
  have hloc := hd.2.1
  cases h1 with
  | path k t hk ht =>
    have hka : a.kind = .path := by
      rw [hk] at hloc
      cases hka : a.kind <;> simp [hka, location, docLocation] at hloc; rfl
    generalize hxs : ((l.filter (Seg.holds p.name)).map fun _ => (utf8 p.name, utf8 t)) = xs at h2
    cases h2 with
    | path k' t' hk' ht' =>
      obtain ⟨pre, post, hmem⟩ : ∃ pre post, Seg.par p.name pre post ∈ l.filter (Seg.holds p.name) := by
        have := hin hka
        rw [hd.1] at this
        obtain ⟨pre, post, h⟩ := mem_pars.mp this
        exact ⟨pre, post, List.mem_filter.mpr ⟨h, by simp [Seg.holds]⟩⟩
      cases hf : l.filter (Seg.holds p.name) with
      | nil => rw [hf] at hmem; cases hmem
      | cons s m =>
        rw [hf] at hxs
        simp only [List.map_cons, List.cons.injEq, Prod.mk.injEq, true_and] at hxs
        have := utf8_injective hxs.1
        subst this
        exact .text (some t) (.inl hka) ht ht'
    | query k' m s ts hk' => rw [hk] at hk'; cases hk'
    | header hk' => rw [hk] at hk'; cases hk'
  | query k m s ts hk hs hts =>
    generalize hxs : ts.map (fun e => (utf8 e.1, utf8 e.2)) = xs at h2
    cases h2 with
    | path k' t' hk' => rw [hk] at hk'; cases hk'
    | header hk' => rw [hk] at hk'; cases hk'
    | query k' m' s' ts' hk' hs' hts' =>
      have : ts = ts' := by
        refine (List.map_inj_right (fun a b e => ?_)).mp hxs
        simp only [Prod.mk.injEq] at e
        exact Prod.ext (utf8_injective e.1) (utf8_injective e.2)
      subst this
      obtain ⟨kr, hka⟩ : ∃ kr, a.kind = .query kr := by
        rw [hk] at hloc
        cases hka : a.kind <;> simp [hka, location, docLocation] at hloc
        exact ⟨_, rfl⟩
      exact .query kr s s' ts hka hs hs' (hd.1 ▸ hts) (hd.1 ▸ hts')
  | header hk =>
    generalize hxs : (argText v).toList.map (fun t => (utf8 p.name, utf8 t)) = xs at h2
    cases h2 with
    | path k' t' hk' => rw [hk] at hk'; cases hk'
    | query k' m s ts hk' => rw [hk] at hk'; cases hk'
    | header _ =>
      obtain ⟨kr, hka⟩ : ∃ kr, a.kind = .header kr := by
        rw [hk] at hloc
        cases hka : a.kind <;> simp [hka, location, docLocation] at hloc
        exact ⟨_, rfl⟩
      refine .text (argText w) (.inr ⟨kr, hka⟩) ?_ rfl
      cases hv : argText v <;> cases hw : argText w <;> simp [hv, hw] at hxs ⊢
      exact utf8_injective hxs

/-- C71, guarded: calls that send the same request have arguments with the same texts, for each
path parameter of the template, query parameter and header; and with the same encoding, for the body. -/
theorem C71_determined_partial {san types path method d pr} (hp : processOperation san types path method d = .ok pr)
    {l : List Seg} (hpath : path = segsText l) (hl : SegsOk l) (hne : l ≠ [])
    (hdp : NoDuplicates d.pathLevel) (hdo : NoDuplicates d.opLevel) (hun : NamesUnambiguous (d.pathLevel ++ d.opLevel))
    (hh : HeadersApart d.pathLevel d.opLevel)
    {cfg : Config} {auth : Str} {base : List Str} (hbase : BaseUrl cfg auth base)
    {args args' : List Value} {r r' : Request} (h : Issues cfg pr.op args r) (h' : Issues cfg pr.op args' r')
    (hrec : Recoverable keys l pr.op.params args) (hrec' : Recoverable keys l pr.op.params args')
    (hurl : parseUrlTail (r.url.drop auth.length) = parseUrlTail (r'.url.drop auth.length))
    (hquery : r.query = r'.query) (hheaders : ∀ n, values r.headers n = values r'.headers n) (hbody : r.body = r'.body)
    {a : Param} {v w : Value} (hv : (a, v) ∈ pr.op.params.zip args) (hw : (a, w) ∈ pr.op.params.zip args')
    (hin : a.kind = .path → a.apiName ∈ pars l) : Alike cfg.toJson a v w := by
  obtain ⟨body, hbk, hps⟩ := processOperation_params hp
  obtain ⟨hbn, _⟩ := processOperation_inv hp
  obtain ⟨_, hall, _⟩ := C13_override_partial _ _ _ _ _ _ hdp hdo hun hbk hps
  obtain ⟨c, env, o, hc, hb, _, ho, _⟩ := issues_parts h
  obtain ⟨hnd, _⟩ := bindArgs_some hb
  by_cases hloc : location a.kind = .body
  · obtain ⟨ct, hk⟩ : ∃ ct, a.kind = .body ct := by
      cases hk : a.kind <;> simp [hk, location] at hloc
      exact ⟨_, rfl⟩
    obtain ⟨b, hb1, he⟩ := C19_body cfg _ args r hbn h a v ct hv hk
    obtain ⟨b', hb2, he'⟩ := C19_body cfg _ args' r' hbn h' a w ct hw hk
    rw [hbody, hb2] at hb1
    cases hb1
    exact .body ct b hk he he'
  · obtain ⟨p, hpe, hd⟩ := hall a (List.of_mem_zip hv).1 hloc
    obtain ⟨_, _, _, hread⟩ := C70_received_partial hp hpath hl hne hdp hdo hun hh hbase h hrec
    obtain ⟨_, _, _, hread'⟩ := C70_received_partial hp hpath hl hne hdp hdo hun hh hbase h' hrec'
    obtain ⟨a1, v1, hv1, hd1, hu1, he1⟩ := hread p hpe
    obtain ⟨a2, v2, hv2, hd2, hu2, he2⟩ := hread' p hpe
    obtain ⟨rfl, rfl⟩ := hu1 a v hv hd
    obtain ⟨rfl, rfl⟩ := hu2 a w hw hd
    have : reads keys auth base l r p = reads keys auth base l r' p := by
      unfold reads tailSegments readQuery readHeader
      rw [hurl, hquery, hheaders]
    rw [← this] at he2
    exact expected_alike hd hin he1 he2

/-! ## Examples and counterexamples -/

def wirePath : List Seg := [.lit "v1".toList, .par "id".toList]

def wireDoc : DocOperation := { plainDoc with
  pathLevel := [⟨"id".toList, .path true, true, true, 0⟩],
  opLevel := [⟨"q".toList, .query true none, true, true, 1⟩, ⟨"X-Tok".toList, .header, false, true, 2⟩] }

def wireOp : OperationMethod where
  operationId := "op".toList
  tags := []
  method := .get
  path := [.const "/v1/".toList, .param "id".toList]
  params := [⟨"id".toList, "id".toList, .type 0, .path⟩, ⟨"q".toList, "q".toList, .type 1, .query true⟩,
    ⟨"X-Tok".toList, "X-Tok".toList, .type 2, .header false⟩]
  responses := [⟨.code 200, .none⟩]
  websocket := false

theorem wireProcessed : processOperation id typesNone (segsText wirePath) "get".toList wireDoc = .ok ⟨wireOp, none⟩ := rfl

def wireArgs (s : String) : List Value := [.plain (txt s), .plain (txt "a&b"), .opt (some (txt "t"))]

def wireReq (s : String) : Request where
  method := .get
  url := "http://h/v1/".toList ++ s.toList
  query := some "q=a%26b".toList
  headers := [(Hdr.apiVersion, utf8 "1.0".toList), ("x-tok".toList, utf8 "t".toList)]
  body := none

theorem wireIssues (s : String) (h : s = "" ∨ s = "." ∨ s = ".." ∨ s = "x") : Issues exCfg wireOp (wireArgs s) (wireReq s) := by
  rcases h with rfl | rfl | rfl | rfl <;> exact ⟨_, _, rfl, rfl, rfl⟩

theorem wireBase : BaseUrl exCfg "http://h".toList [] :=
  ⟨fun s hs => (by cases hs), (by decide), rfl⟩

theorem wireReady : WireReady (segsText wirePath, "get".toList, ⟨some "op".toList, wireDoc⟩) wirePath where
  path := rfl
  segs := by simp [wirePath, SegsOk]; decide
  nonempty := by simp [wirePath]
  pathLevel := by simp [NoDuplicates, wireDoc]
  opLevel := by simp [NoDuplicates, wireDoc, SameParam]
  names := by simp [NamesUnambiguous, wireDoc]
  headers := by
    intro p hp hk
    have hx : p.name = "X-Tok".toList := by
      simp [Effective, wireDoc] at hp
      rcases hp with (rfl | rfl) | ⟨rfl, _⟩
      · cases hk
      · rfl
      · cases hk
    rw [hx]
    refine ⟨by decide, fun q hq hk' _ => ?_⟩
    simp [Effective, wireDoc] at hq
    rcases hq with (rfl | rfl) | ⟨rfl, _⟩
    · cases hk'
    · rfl
    · cases hk'

theorem wireRecoverable (s : String) (h1 : '\\' ∉ s.toList) (h2 : s.toList ≠ ['.']) (h3 : s.toList ≠ ['.', '.']) :
    Recoverable ownKey wirePath wireOp.params (wireArgs s) where
  path := by
    intro p v hpv hk t ht pre post hmem
    simp only [wirePath, List.mem_cons, reduceCtorEq, Seg.par.injEq, List.not_mem_nil, or_false, false_or] at hmem
    obtain ⟨_, rfl, rfl⟩ := hmem
    simp only [List.nil_append, List.append_nil]
    simp only [wireOp, wireArgs, List.zip_cons_cons, List.zip_nil_right, List.mem_cons, List.not_mem_nil, or_false,
      Prod.mk.injEq] at hpv
    rcases hpv with ⟨rfl, rfl⟩ | ⟨rfl, rfl⟩ | ⟨rfl, rfl⟩
    · simp only [argText, txt, Option.some.injEq] at ht
      rw [← ht]; exact ⟨h1, h2, h3⟩
    · cases hk
    · cases hk
  query := by
    intro p v hpv k hk
    simp only [wireOp, wireArgs, List.zip_cons_cons, List.zip_nil_right, List.mem_cons, List.not_mem_nil, or_false,
      Prod.mk.injEq] at hpv
    rcases hpv with ⟨rfl, rfl⟩ | ⟨rfl, rfl⟩ | ⟨rfl, rfl⟩
    · cases hk
    · exact ⟨_, _, rfl, .item _ _ (.scalar _ _ (.str _)), by simp [ownKey]⟩
    · cases hk
  apart := by
    intro p _ q _ _ _ _ _ hne x hx hx'
    simp only [ownKey, List.mem_singleton] at hx hx'
    exact hne (hx.symm.trans hx')

example : Received ownKey wirePath "get".toList wireDoc.pathLevel wireDoc.opLevel (wireOp.params.zip (wireArgs "x"))
    "http://h".toList [] (wireReq "x") :=
  C70_received_partial wireProcessed rfl wireReady.segs wireReady.nonempty wireReady.pathLevel wireReady.opLevel
    wireReady.names wireReady.headers wireBase (wireIssues "x" (by simp)) (wireRecoverable "x" (by decide) (by decide) (by decide))

/-! An object as query argument -/

def objSer : Ser := .struct "Q".toList [("a".toList, .int 1), ("b".toList, .none), ("c".toList, .newtypeStruct "T".toList (.str "x y".toList))]

def objArgs : List Value := [.plain (txt "x"), .plain ⟨[], objSer⟩, .opt none]

def objReq : Request where
  method := .get
  url := "http://h/v1/x".toList
  query := some "a=1&c=x+y".toList
  headers := [(Hdr.apiVersion, utf8 "1.0".toList)]
  body := none

theorem objIssues : Issues exCfg wireOp objArgs objReq := ⟨_, _, rfl, rfl, rfl⟩

theorem objMeans : Means "q".toList objSer [("a".toList, "1".toList), ("c".toList, "x y".toList)] :=
  .struct _ _ [("a".toList, some "1".toList), ("b".toList, none), ("c".toList, some "x y".toList)]
    (.cons ⟨rfl, .scalar _ _ (.nat 1)⟩ (.cons ⟨rfl, .none⟩ (.cons ⟨rfl, .newtype _ _ _ (.scalar _ _ (.str _))⟩ .nil)))

theorem objRecoverable : Recoverable (fun _ => ["a".toList, "b".toList, "c".toList]) wirePath wireOp.params objArgs where
  path := by
    intro p v hpv hk t ht pre post hmem
    simp only [wirePath, List.mem_cons, reduceCtorEq, Seg.par.injEq, List.not_mem_nil, or_false, false_or] at hmem
    obtain ⟨_, rfl, rfl⟩ := hmem
    simp only [List.nil_append, List.append_nil]
    simp only [wireOp, objArgs, List.zip_cons_cons, List.zip_nil_right, List.mem_cons, List.not_mem_nil, or_false,
      Prod.mk.injEq] at hpv
    rcases hpv with ⟨rfl, rfl⟩ | ⟨rfl, rfl⟩ | ⟨rfl, rfl⟩
    · simp only [argText, txt, Option.some.injEq] at ht
      rw [← ht]; decide
    · cases hk
    · cases hk
  query := by
    intro p v hpv k hk
    simp only [wireOp, objArgs, List.zip_cons_cons, List.zip_nil_right, List.mem_cons, List.not_mem_nil, or_false,
      Prod.mk.injEq] at hpv
    rcases hpv with ⟨rfl, rfl⟩ | ⟨rfl, rfl⟩ | ⟨rfl, rfl⟩
    · cases hk
    · exact ⟨_, _, rfl, objMeans, by simp⟩
    · cases hk
  apart := by
    intro p hp q hq k k' hk hk' hne
    simp only [wireOp, List.mem_cons, List.not_mem_nil, or_false] at hp hq
    rcases hp with rfl | rfl | rfl <;> rcases hq with rfl | rfl | rfl <;> first | (cases hk; done) | (cases hk'; done) | exact absurd rfl hne

example : Received (fun _ => ["a".toList, "b".toList, "c".toList]) wirePath "get".toList wireDoc.pathLevel wireDoc.opLevel
    (wireOp.params.zip objArgs) "http://h".toList [] objReq :=
  C70_received_partial wireProcessed rfl wireReady.segs wireReady.nonempty wireReady.pathLevel wireReady.opLevel
    wireReady.names wireReady.headers wireBase objIssues objRecoverable

/-- C70 fails without the guard on path arguments: a server does not accept the request of a call
with the path argument `..` for the operation. -/
theorem C70_received_fails : ∃ (args : List Value) (r : Request), Issues exCfg wireOp args r ∧
    ¬ Routed wirePath (tailSegments "http://h".toList [] r) := by
  refine ⟨wireArgs "..", wireReq "..", wireIssues _ (by simp), ?_⟩
  rw [show tailSegments "http://h".toList [] (wireReq "..") = [[]] by decide]
  intro h
  cases h with
  | cons _ h => cases h

/-- C71 fails without the guard on path arguments: calls with the arguments `.` and the empty text
send the same request. -/
theorem C71_determined_fails : ∃ (args args' : List Value) (r r' : Request),
    Issues exCfg wireOp args r ∧ Issues exCfg wireOp args' r' ∧
    parseUrlTail (r.url.drop "http://h".toList.length) = parseUrlTail (r'.url.drop "http://h".toList.length) ∧
    r.method = r'.method ∧ r.query = r'.query ∧ r.headers = r'.headers ∧ r.body = r'.body ∧
    args.map argText ≠ args'.map argText :=
  ⟨wireArgs ".", wireArgs "", wireReq ".", wireReq "", wireIssues _ (by simp), wireIssues _ (by simp),
    by decide, rfl, rfl, rfl, rfl, by decide⟩

end Progenitor.Props

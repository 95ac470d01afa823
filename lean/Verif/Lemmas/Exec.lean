import Verif.Spec.Exec
import Verif.Lemmas.Response
import Verif.Lemmas.Query
import Verif.Lemmas.Template

/-! # Lemmas on the generated method body -/

namespace Progenitor.Exec

open Progenitor Progenitor.Params Progenitor.Client Progenitor.Query Progenitor.Spec

/-! ## Names -/

theorem lookup_zip {names : List Str} {args : List Value} (hn : names.Nodup) {x : Str} {v : Value}
    (h : (x, v) ∈ names.zip args) : lookup (names.zip args) x = some v := by
  induction names generalizing args with
  | nil => simp at h
  | cons n ns ih =>
    cases args with
    | nil => simp at h
    | cons a as =>
      simp only [List.zip_cons_cons, List.mem_cons, Prod.mk.injEq] at h
      simp only [lookup, List.zip_cons_cons, List.find?_cons]
      rcases h with ⟨rfl, rfl⟩ | h
      · simp
      · have hx : x ∈ ns := (List.of_mem_zip h).1
        have hne : n ≠ x := by rintro rfl; exact (List.nodup_cons.mp hn).1 hx
        simp only [hne, decide_false]
        exact ih (List.nodup_cons.mp hn).2 h

theorem bindArgs_some {params : List Param} {args : List Value} {env : Env}
    (h : bindArgs params args = some env) :
    (params.map Param.name).Nodup ∧ params.length = args.length ∧
    (∀ p v, (p, v) ∈ params.zip args → typed p v = true) ∧
    (∀ p v, (p, v) ∈ params.zip args → lookup env p.name = some v) := by
  unfold bindArgs at h
  split at h
  · rename_i hc
    obtain ⟨h1, h2, h3⟩ := hc
    cases h
    refine ⟨h1, h2, ?_, ?_⟩
    · intro p v hpv
      exact List.all_eq_true.mp h3 (p, v) hpv
    · intro p v hpv
      apply lookup_zip h1
      rw [List.zip_map_left]
      exact List.mem_map.mpr ⟨(p, v), hpv, rfl⟩
  · cases h

theorem lookup_of_internal {env : Env} {a b x : Str} {v : Value}
    (h : lookup ((a, .internal) :: (b, .internal) :: env) x = some v) (hv : v ≠ .internal) :
    lookup env x = some v := by
  simp only [lookup, List.find?_cons] at h
  split at h
  · simp at h; exact absurd h.symm hv
  · split at h
    · simp at h; exact absurd h.symm hv
    · exact h

/-- Without shadowing names are found as before. -/
theorem lookup_internal_ne {env : Env} {a b x : Str} (ha : a ≠ x) (hb : b ≠ x) :
    lookup ((a, .internal) :: (b, .internal) :: env) x = lookup env x := by
  simp only [lookup, List.find?_cons, ha, hb, decide_false]

theorem mapM?_filterMap {α β γ : Type} {f : α → Option β} {g : γ → Option α} {k : γ → Option β}
    {l : List γ} {ys : List β}
    (hk : ∀ x ∈ l, (g x = none → k x = none) ∧ ∀ a b, g x = some a → f a = some b → k x = some b)
    (h : mapM? f (l.filterMap g) = some ys) : ys = l.filterMap k := by
  induction l generalizing ys with
  | nil => cases h; rfl
  | cons x l ih =>
    have hx := hk x (by simp)
    have ih := fun {ys} => ih (ys := ys) fun y hy => hk y (by simp [hy])
    cases hg : g x with
    | none =>
      rw [List.filterMap_cons_none hg] at h
      rw [List.filterMap_cons_none (hx.1 hg)]
      exact ih h
    | some a =>
      rw [List.filterMap_cons_some hg] at h
      simp only [mapM?] at h
      split at h
      · rename_i y ys' hfa hrest
        cases h
        rw [List.filterMap_cons_some (hx.2 a y hg hfa), ih hrest]
      · cases h

theorem mapM?_some {α β : Type} {f : α → Option β} {l : List α} {ys : List β} (h : mapM? f l = some ys) :
    l.map f = ys.map some := by
  induction l generalizing ys with
  | nil => cases h; rfl
  | cons x l ih =>
    simp only [mapM?] at h
    split at h
    · rename_i y ys' h1 h2
      cases h
      simp [h1, ih h2]
    · cases h

theorem mapM?_of {α β : Type} {f : α → Option β} {l : List α} (h : ∀ x ∈ l, ∃ y, f x = some y) :
    ∃ ys, mapM? f l = some ys := by
  induction l with
  | nil => exact ⟨[], rfl⟩
  | cons x l ih =>
    obtain ⟨y, hy⟩ := h x (by simp)
    obtain ⟨ys, hys⟩ := ih fun z hz => h z (by simp [hz])
    exact ⟨y :: ys, by simp only [mapM?, hy, hys]⟩

theorem evalHeader_some {env : Env} {s : HeaderStmt} {r : Str × Option Str} (h : evalHeader env s = some r) :
    ∃ v, lookup env s.ident = some v ∧ v ≠ .internal ∧ r = (s.apiName, argText v) := by
  unfold evalHeader at h
  split at h
  · unfold evalDisplay at h
    split at h
    · rename_i a ha; simp at h; exact ⟨_, ha, by simp, by simp [argText, ← h]⟩
    · cases h
  · unfold evalOptDisplay at h
    split at h
    · rename_i a ha; simp at h; exact ⟨_, ha, by simp, by simp [argText, ← h]⟩
    · cases h

theorem evalSer_some {env : Env} {x : Str} {s : Ser} (h : evalSer env x = some s) :
    ∃ v, lookup env x = some v ∧ v ≠ .internal ∧ argSer v = some s := by
  unfold evalSer at h
  split at h
  · rename_i a ha; cases h; exact ⟨_, ha, by simp, rfl⟩
  · rename_i ha; cases h; exact ⟨_, ha, by simp, rfl⟩
  · rename_i a ha; cases h; exact ⟨_, ha, by simp, rfl⟩
  · cases h

theorem filterMap_zip_left {α β γ : Type} (g : α → Option γ) {l : List α} {m : List β} (h : l.length = m.length) :
    l.filterMap g = (l.zip m).filterMap fun x => g x.1 := by
  induction l generalizing m with
  | nil => rfl
  | cons a l ih =>
    cases m with
    | nil => simp at h
    | cons b m => simp only [List.zip_cons_cons, List.filterMap_cons]; rw [ih (by simpa using h)]

theorem evalUrl_some {c : Code} {env : Env} {ds : List Str} (h : evalUrl c env = some ds) :
    encodeVisible c env = true ∧ mapM? (evalDisplay env) c.url.args = some ds := by
  unfold evalUrl at h
  split at h
  · exact ⟨by assumption, h⟩
  · cases h

/-- The names that are bound. -/
theorem lookup_zip_isNone {params : List Param} {args : List Value} (hlen : params.length = args.length) (x : Str) :
    (lookup ((params.map Param.name).zip args) x).isNone = true ↔ ∀ p ∈ params, p.name ≠ x := by
  unfold lookup
  rw [Option.isNone_map, Option.isNone_iff_eq_none]
  induction params generalizing args with
  | nil => simp
  | cons q ps ih =>
    cases args with
    | nil => cases hlen
    | cons a as =>
      have ih := ih (args := as) (by simpa using hlen)
      rw [List.map_cons, List.zip_cons_cons, List.find?_cons]
      by_cases h : q.name = x
      · simp [h]
      · simp only [h, decide_false]
        rw [ih]
        simp [h]

theorem bindArgs_isNone {params : List Param} {args : List Value} {env : Env} (h : bindArgs params args = some env) (x : Str) :
    (lookup env x).isNone = true ↔ ∀ p ∈ params, p.name ≠ x := by
  unfold bindArgs at h
  split at h
  · rename_i hh
    cases h
    exact lookup_zip_isNone hh.2.1 x
  · cases h

/-- Is the function for arguments in the path visible? -/
theorem encodeVisible_iff {params : List Param} {args : List Value} {env : Env} (h : bindArgs params args = some env) (c : Code) :
    encodeVisible c env = true ↔ (c.url.args ≠ [] → ∀ p ∈ params, p.name ≠ "encode_path".toList) := by
  unfold encodeVisible
  rw [Bool.or_eq_true, bindArgs_isNone h, List.isEmpty_iff]
  constructor
  · rintro (h | h) hn
    · exact absurd h hn
    · exact h
  · intro h
    by_cases hn : c.url.args = []
    · exact .inl hn
    · exact .inr (h hn)

/-- The operands are the arguments. -/
theorem operands_some {op : OperationMethod} {c : Code} {args : List Value} {env : Env} {base : Str}
    {o : Operands} (hc : methodSigBody op = .ok c) (hb : bindArgs op.params args = some env)
    (ho : operands c base env = some o) :
    o.headers = headerArgs op.params args ∧ o.queries = queryArgs op.params args ∧
    (∀ ds, mapM? (evalDisplay env) c.url.args = some ds →
      Template.rustFormat c.url.fmt (base :: ds.map encodePath) = some o.url) ∧
    (∃ ds, mapM? (evalDisplay env) c.url.args = some ds) := by
  obtain ⟨hnd, hlen, htyp, hlook⟩ := bindArgs_some hb
  have hch : c.headers = headerStmts op.params ∧ c.queries = queryStmts op.params := by
    simp only [methodSigBody] at hc
    obtain ⟨_, _, hc⟩ := bind_ok_inv hc
    obtain ⟨_, _, hc⟩ := bind_ok_inv hc
    obtain ⟨_, _, hc⟩ := bind_ok_inv hc
    obtain ⟨_, _, hc⟩ := bind_ok_inv hc
    cases hc; exact ⟨rfl, rfl⟩
  unfold operands at ho
  split at ho
  · cases ho
  rename_i ds hds
  replace hds := (evalUrl_some hds).2
  split at ho
  · cases ho
  rename_i url hurl
  dsimp only at ho
  split at ho
  · rename_i hs qs hhs hqs
    have h1 : hs = headerArgs op.params args := by
      rw [hch.1] at hhs
      unfold headerStmts at hhs
      rw [filterMap_zip_left _ hlen] at hhs
      refine mapM?_filterMap ?_ hhs
      rintro ⟨p, v⟩ hpv
      constructor
      · dsimp only; intro h; split at h <;> simp_all
      · intro s r hs hr
        dsimp only at hs ⊢
        split at hs
        · rename_i rq hk
          cases hs
          obtain ⟨v', hv', hni, rfl⟩ := evalHeader_some hr
          have := lookup_of_internal hv' hni
          rw [hlook p v hpv] at this
          cases this
          simp [hk]
        · cases hs
    have h2 : qs = queryArgs op.params args := by
      rw [hch.2] at hqs
      unfold queryStmts at hqs
      rw [filterMap_zip_left _ hlen] at hqs
      refine mapM?_filterMap ?_ hqs
      rintro ⟨p, v⟩ hpv
      constructor
      · dsimp only; intro h; split at h <;> simp_all
      · intro s r hs hr
        dsimp only at hs ⊢
        split at hs
        · rename_i rq hk
          cases hs
          simp only [Option.map_eq_some_iff] at hr
          obtain ⟨sv, hsv, rfl⟩ := hr
          obtain ⟨v', hv', hni, ha⟩ := evalSer_some hsv
          have := lookup_of_internal hv' hni
          rw [hlook p v hpv] at this
          cases this
          simp [hk, ha]
        · cases hs
    have hu : ∀ ds', mapM? (evalDisplay env) c.url.args = some ds' →
        Template.rustFormat c.url.fmt (base :: ds'.map encodePath) = some url := by
      intro ds' hds'
      rw [hds] at hds'; cases hds'; exact hurl
    split at ho
    · cases ho
      exact ⟨h1, h2, hu, ds, hds⟩
    · simp only [Option.map_eq_some_iff] at ho
      obtain ⟨bv, _, rfl⟩ := ho
      exact ⟨h1, h2, hu, ds, hds⟩
  · cases ho

/-- Shape of the generated code. -/
theorem methodSigBody_ok {op : OperationMethod} {c : Code} (hc : methodSigBody op = .ok c) :
    c.vars = locals (op.params.map Param.name) ∧
    Template.compile op.path (urlRenames op.params) = .ok c.url ∧
    (∃ bs, bodyFuncs op.params = .ok bs ∧ bs = c.body.toList) ∧
    Resp.genMatch op.responses = .ok c.dispatch ∧ c.accept = Resp.acceptJson c.dispatch ∧
    c.websocket = op.websocket ∧ c.method = op.method ∧
    c.headers = headerStmts op.params ∧ c.queries = queryStmts op.params := by
  simp only [methodSigBody] at hc
  obtain ⟨u, hu, hc⟩ := bind_ok_inv hc
  obtain ⟨bs, hbs, hc⟩ := bind_ok_inv hc
  obtain ⟨b, hb, hc⟩ := bind_ok_inv hc
  obtain ⟨d, hd, hc⟩ := bind_ok_inv hc
  cases hc
  refine ⟨rfl, hu, ⟨bs, hbs, ?_⟩, hd, rfl, rfl, rfl, rfl, rfl⟩
  unfold oneBody at hb
  split at hb
  · cases hb; rfl
  · cases hb; rfl
  · cases hb

/-- The body call for a body parameter. -/
def bodyFn (p : Param) : Option BodyFunc :=
  match p.kind with
  | .body .octetStream => some (.raw Mime.octets)
  | .body (.text m) => some (.raw m)
  | .body .json => some .json
  | .body .form => some .form
  | _ => none

theorem bodyFuncs_ok {params : List Param} {bs : List BodyFunc} (h : bodyFuncs params = .ok bs) :
    bs = params.filterMap bodyFn := by
  induction params generalizing bs with
  | nil => cases h; rfl
  | cons p ps ih =>
    simp only [bodyFuncs] at h
    obtain ⟨rest, hrest, h⟩ := bind_ok_inv h
    have ih := ih hrest
    subst ih
    rw [List.filterMap_cons]
    obtain ⟨n, a, typ, k⟩ := p
    cases k with
    | path => cases h; rfl
    | query r => cases h; rfl
    | header r => cases h; rfl
    | body ct => cases ct <;> cases typ <;> first | (cases h; rfl) | cases h

/-- The document parameters never are bodies, and the body parameter is called `body`. -/
def BodyNamed (params : List Param) : Prop :=
  ∀ p ∈ params, ∀ ct, p.kind = .body ct → p.name = "body".toList

theorem mem_zip_of_left {α β : Type} {l : List α} {m : List β} (h : l.length = m.length) {a : α} (ha : a ∈ l) :
    ∃ b, (a, b) ∈ l.zip m := by
  induction l generalizing m with
  | nil => cases ha
  | cons x l ih =>
    cases m with
    | nil => simp at h
    | cons y m =>
      rcases List.mem_cons.mp ha with rfl | ha
      · exact ⟨y, by simp⟩
      · obtain ⟨b, hb⟩ := ih (by simpa using h) ha
        exact ⟨b, by simp [hb]⟩

/-- What the body operand is. -/
theorem operands_body {op : OperationMethod} {c : Code} {args : List Value} {env : Env} {base : Str}
    {o : Operands} (hw : BodyNamed op.params) (hc : methodSigBody op = .ok c)
    (hb : bindArgs op.params args = some env) (ho : operands c base env = some o) :
    (o.body = none ∧ ∀ p ∈ op.params, ∀ ct, p.kind ≠ .body ct) ∨
    (∃ p v ct, (p, v) ∈ op.params.zip args ∧ p.kind = .body ct ∧ bodyLabels op.params = [ct.print] ∧
      (match ct with
       | .octetStream => ∃ b, v = .raw b ∧ o.body = some (.raw Mime.octets b)
       | .text m => ∃ b, v = .raw b ∧ o.body = some (.raw m b)
       | .json => ∃ s, argSer v = some s ∧ o.body = some (.json s)
       | .form => ∃ s, argSer v = some s ∧ o.body = some (.form s))) := by
  obtain ⟨hnd, hlen, htyp, hlook⟩ := bindArgs_some hb
  obtain ⟨_, _, ⟨bs, hbs, hbs'⟩, _⟩ := methodSigBody_ok hc
  have hbf := bodyFuncs_ok hbs
  unfold operands at ho
  split at ho
  · cases ho
  split at ho
  · cases ho
  dsimp only at ho
  split at ho
  · split at ho
    · rename_i hcb
      cases ho
      left
      refine ⟨rfl, ?_⟩
      intro p hp ct hk
      rw [hbs', hcb] at hbf
      have : ∀ x, bodyFn p ≠ some x := by
        intro x hx
        have : x ∈ op.params.filterMap bodyFn := List.mem_filterMap.mpr ⟨p, hp, hx⟩
        rw [← hbf] at this; cases this
      cases ct <;> exact this _ (by simp only [bodyFn, hk]; rfl)
    · rename_i bf hcb
      right
      simp only [Option.map_eq_some_iff] at ho
      obtain ⟨bv, hbv, rfl⟩ := ho
      rw [hbs', hcb] at hbf
      have hmem : bf ∈ op.params.filterMap bodyFn := by rw [← hbf]; simp
      obtain ⟨p, hp, hpb⟩ := List.mem_filterMap.mp hmem
      obtain ⟨v, hv⟩ := mem_zip_of_left hlen hp
      have hk : ∃ ct, p.kind = .body ct := by
        unfold bodyFn at hpb
        split at hpb
        · exact ⟨_, by assumption⟩
        · exact ⟨_, by assumption⟩
        · exact ⟨_, by assumption⟩
        · exact ⟨_, by assumption⟩
        · cases hpb
      obtain ⟨ct, hk⟩ := hk
      have hname := hw p hp ct hk
      have hlk := hlook p v hv
      rw [hname] at hlk
      refine ⟨p, v, ct, hv, hk, ?_, ?_⟩
      · have key : bodyLabels op.params = (op.params.filterMap bodyFn).map fun
            | .raw m => m | .json => Mime.json | .form => Mime.form := by
          unfold bodyLabels
          rw [List.map_filterMap]
          congr 1
          funext q
          obtain ⟨_, _, _, k⟩ := q
          cases k with
          | body ct => cases ct <;> rfl
          | _ => rfl
        rw [key, ← hbf]
        simp only [bodyFn, hk] at hpb
        cases ct <;> (cases hpb; rfl)
      · simp only [bodyFn, hk] at hpb
        cases ct with
        | octetStream =>
          cases hpb
          simp only [evalBody] at hbv
          split at hbv
          · rename_i b hb'
            cases hbv
            have := lookup_of_internal hb' (by simp)
            rw [hlk] at this; cases this
            exact ⟨b, rfl, rfl⟩
          · cases hbv
        | text m =>
          cases hpb
          simp only [evalBody] at hbv
          split at hbv
          · rename_i b hb'
            cases hbv
            have := lookup_of_internal hb' (by simp)
            rw [hlk] at this; cases this
            exact ⟨b, rfl, rfl⟩
          · cases hbv
        | json =>
          cases hpb
          simp only [evalBody, Option.map_eq_some_iff] at hbv
          obtain ⟨s, hs, rfl⟩ := hbv
          obtain ⟨v', hv', hni, ha⟩ := evalSer_some hs
          have := lookup_of_internal hv' hni
          rw [hlk] at this; cases this
          exact ⟨s, ha, rfl⟩
        | form =>
          cases hpb
          simp only [evalBody, Option.map_eq_some_iff] at hbv
          obtain ⟨s, hs, rfl⟩ := hbv
          obtain ⟨v', hv', hni, ha⟩ := evalSer_some hs
          have := lookup_of_internal hv' hni
          rw [hlk] at this; cases this
          exact ⟨s, ha, rfl⟩
  · cases ho

theorem urlRenames_some {params : List Param} {n i : Str} (h : urlRenames params n = some i) :
    ∃ p ∈ params, p.kind = .path ∧ p.apiName = n ∧ p.name = i := by
  simp only [urlRenames, Option.map_eq_some_iff] at h
  obtain ⟨p, hp, rfl⟩ := h
  have h1 := List.find?_some hp
  have h2 := List.mem_of_find?_eq_some hp
  simp only [List.mem_reverse, List.mem_filter, decide_eq_true_eq] at h1 h2
  exact ⟨p, h2.1, h2.2, h1, rfl⟩

/-- What the URL operand is. -/
theorem operands_url {op : OperationMethod} {c : Code} {args : List Value} {env : Env} {base : Str}
    {o : Operands} (hc : methodSigBody op = .ok c)
    (hb : bindArgs op.params args = some env) (ho : operands c base env = some o) :
    ∃ (ident : Str → Str) (value : Str → Str),
      (∀ n ∈ Template.names op.path, urlRenames op.params n = some (ident n)) ∧
      (∀ n ∈ Template.names op.path, PathArg op.params args n (value (ident n))) ∧
      Template.rustFormat c.url.fmt (base :: c.url.args.map fun i => encodePath (value i)) = some o.url := by
  obtain ⟨hnd, hlen, htyp, hlook⟩ := bindArgs_some hb
  obtain ⟨_, _, hu, ds, hds⟩ := operands_some hc hb ho
  have hu := hu ds hds
  have hmap := mapM?_some hds
  obtain ⟨_, hcu, _⟩ := methodSigBody_ok hc
  have hargs : Template.compileArgs (urlRenames op.params) op.path = .ok c.url.args := by
    unfold Template.compile at hcu
    split at hcu
    · rename_i is his; rw [← Res.ok.inj hcu]; exact his
    · cases hcu
    · cases hcu
  rw [Template.compileArgs_ok] at hargs
  have hren : ∀ n ∈ Template.names op.path, ∃ i ∈ c.url.args, urlRenames op.params n = some i := by
    intro n hn
    have : urlRenames op.params n ∈ c.url.args.map some := hargs ▸ List.mem_map_of_mem hn
    obtain ⟨i, hi, he⟩ := List.mem_map.mp this
    exact ⟨i, hi, he.symm⟩
  refine ⟨fun n => (urlRenames op.params n).getD [], fun i => (evalDisplay env i).getD [], ?_, ?_, ?_⟩
  · intro n hn
    obtain ⟨i, _, hi⟩ := hren n hn
    simp [hi]
  · intro n hn
    obtain ⟨i, hi, he⟩ := hren n hn
    obtain ⟨p, hp, hk, hn', hi'⟩ := urlRenames_some he
    obtain ⟨v, hv⟩ := mem_zip_of_left hlen hp
    have hl := hlook p v hv
    have : evalDisplay env i ∈ ds.map some := hmap ▸ List.mem_map_of_mem hi
    obtain ⟨t, _, ht⟩ := List.mem_map.mp this
    refine ⟨p, v, hv, hk, hn', ?_⟩
    dsimp only
    rw [he]
    simp only [Option.getD_some]
    rw [← ht]
    simp only [Option.getD_some]
    have ht := ht.symm
    unfold evalDisplay at ht
    rw [← hi', hl] at ht
    split at ht
    · rename_i a ha; cases ha; cases ht; rfl
    · cases ht
  · have : c.url.args.map (fun i => encodePath ((evalDisplay env i).getD [])) = ds.map encodePath := by
      have : c.url.args.map (fun i => encodePath ((evalDisplay env i).getD [])) =
          (c.url.args.map (evalDisplay env)).map (fun x => encodePath (x.getD [])) := by
        rw [List.map_map]; rfl
      rw [this, hmap, List.map_map]
      rfl
    rw [this]
    exact hu

/-! ## Headers -/

/-- The headers that are sent. -/
def present (hs : List (Str × Option Str)) : Headers :=
  hs.filterMap fun e => e.2.map fun t => (lowerName e.1, utf8 t)

theorem runHeaders_ok {acc : Headers} {hs : List (Str × Option Str)} {h : Headers} :
    runHeaders acc hs = .ok h ↔ h = acc ++ present hs ∧
      ∀ n t, (n, some t) ∈ hs → headerValueOk t = true ∧ headerNameOk n = true := by
  induction hs generalizing acc with
  | nil =>
    simp only [runHeaders, present, List.filterMap_nil, List.append_nil, List.not_mem_nil, false_imp_iff, implies_true, and_true, HeaderResult.ok.injEq]
    exact eq_comm
  | cons e hs ih =>
    obtain ⟨n, t⟩ := e
    cases t with
    | none =>
      simp only [runHeaders, ih]
      simp [present]
    | some t =>
      simp only [runHeaders]
      split
      · rename_i hv
        split
        · rename_i hn
          rw [ih]
          simp only [present, List.filterMap_cons, Option.map_some, List.append_assoc, List.singleton_append]
          constructor
          · rintro ⟨h1, h2⟩
            refine ⟨h1, ?_⟩
            intro n' t' hm
            rcases List.mem_cons.mp hm with hm | hm
            · cases hm; exact ⟨hv, hn⟩
            · exact h2 n' t' hm
          · rintro ⟨h1, h2⟩
            exact ⟨h1, fun n' t' hm => h2 n' t' (by simp [hm])⟩
        · rename_i hn
          simp only [reduceCtorEq, false_iff]
          rintro ⟨_, h2⟩
          exact hn (h2 n t (by simp)).2
      · rename_i hv
        simp only [reduceCtorEq, false_iff]
        rintro ⟨_, h2⟩
        exact hv (h2 n t (by simp)).1

theorem runHeaders_invalid {acc : Headers} {hs : List (Str × Option Str)}
    (hn : ∀ n t, (n, some t) ∈ hs → headerNameOk n = true)
    (hb : ∃ n t, (n, some t) ∈ hs ∧ headerValueOk t = false) : runHeaders acc hs = .invalid := by
  induction hs generalizing acc with
  | nil => obtain ⟨_, _, h, _⟩ := hb; cases h
  | cons e hs ih =>
    obtain ⟨n, t⟩ := e
    obtain ⟨n', t', hm, hv⟩ := hb
    cases t with
    | none =>
      simp only [runHeaders]
      refine ih (fun n t h => hn n t (by simp [h])) ⟨n', t', ?_, hv⟩
      simpa using hm
    | some t =>
      simp only [runHeaders]
      split
      · rename_i hvt
        rw [if_pos (hn n t (by simp))]
        refine ih (fun n t h => hn n t (by simp [h])) ⟨n', t', ?_, hv⟩
        rcases List.mem_cons.mp hm with h | h
        · cases h; rw [hv] at hvt; cases hvt
        · exact h
      · rfl

/-! ## The request -/

/-- Content type and bytes contributed by the body. -/
def bodyParts (cfg : Config) : Option BodyVal → Except Unit (List (Str × Bytes) × Option Bytes)
  | none => .ok ([], none)
  | some (.raw ct b) => .ok ([(Hdr.contentType, utf8 ct)], some b)
  | some (.json v) => (cfg.toJson v).map fun b =>
      ([(Hdr.contentType, utf8 Mime.json)], some b)
  | some (.form v) => (formBody v).map fun b =>
      ([(Hdr.contentType, utf8 Mime.form)], some b)

theorem RB.queries_error (e : Unit) (l : List (Str × Ser)) : RB.queries (.error e) l = .error e := by
  induction l with
  | nil => rfl
  | cons x l ih => obtain ⟨n, v⟩ := x; exact ih

theorem RB.queries_ok (r : Request) (l : List (Str × Ser)) :
    RB.queries (.ok r) l = (addQueries (.ok r.query) l).map fun q => { r with query := q } := by
  induction l generalizing r with
  | nil => rfl
  | cons x l ih =>
    obtain ⟨n, v⟩ := x
    simp only [RB.queries, addQueries, RB.query]
    cases h : addQuery (.ok r.query) n v with
    | error e =>
      dsimp only
      rw [RB.queries_error]
      have : ∀ l, addQueries (.error e) l = .error e := by
        intro l
        induction l with
        | nil => rfl
        | cons x l ih => obtain ⟨n, v⟩ := x; exact ih
      rw [this]; rfl
    | ok q =>
      dsimp only
      rw [ih]

def initialQuery (url : Str) : Option Str := ((url.takeWhile (· ≠ '#')).dropWhile (· ≠ '?')).tail?
def initialUrl (url : Str) : Str := (url.takeWhile (· ≠ '#')).takeWhile (· ≠ '?')

/-- The headers the method adds on its own. -/
def autoHeaders (c : Code) (label : List (Str × Bytes)) : Headers :=
  (if c.accept then [(Hdr.accept, utf8 Mime.json)] else []) ++ label

def wsHeaders (cfg : Config) (c : Code) : Headers :=
  if c.websocket then (handshake cfg.wsKey).map fun e => (e.1, utf8 e.2) else []

theorem accept_ne : Hdr.accept ≠ Hdr.contentType := by decide

/-- Full description of a request. -/
theorem buildWith_request {cfg : Config} {c : Code} {o : Operands} {r : Request} :
    buildWith cfg c o = .request r ↔
      ∃ hm label body q, buildHeaders cfg o.headers = .ok hm ∧ cfg.validUrl o.url = true ∧
        bodyParts cfg o.body = .ok (label, body) ∧
        addQueries (.ok (initialQuery o.url)) o.queries = .ok q ∧
        r = { method := c.method, url := initialUrl o.url, query := q, body := body,
              headers := (autoHeaders c label).filter (fun h => !hm.any fun e => e.1 = h.1) ++ hm ++
                wsHeaders cfg c } := by
  unfold buildWith
  cases hh : buildHeaders cfg o.headers with
  | panicked => simp
  | invalid => simp
  | ok hm =>
    dsimp only
    cases hv : cfg.validUrl o.url with
    | false =>
      have hst : RB.start cfg c.method o.url = .error () := by simp [RB.start, hv]
      have h1 : (if c.accept then (RB.start cfg c.method o.url).header Hdr.accept Mime.json
          else RB.start cfg c.method o.url) = .error () := by rw [hst]; split <;> rfl
      rw [h1]
      constructor
      · intro h
        exfalso
        have : ∀ rb, applyBody cfg (.error ()) o.body = .ok rb → rb = .error () := by
          intro rb hrb
          unfold applyBody at hrb
          split at hrb
          · cases hrb; rfl
          · cases hrb; rfl
          · cases hrb; rfl
          · split at hrb <;> cases hrb; rfl
        cases ha : applyBody cfg (.error ()) o.body with
        | error m => rw [ha] at h; cases h
        | ok rb =>
          rw [ha, this rb ha] at h
          dsimp only at h
          rw [RB.queries_error] at h
          split at h
          · cases h
          · rename_i r' heq
            split at heq <;> cases heq
      · rintro ⟨_, _, _, _, _, h, _⟩; cases h
    | true =>
      have hst : RB.start cfg c.method o.url =
          .ok { method := c.method, url := initialUrl o.url, query := initialQuery o.url, headers := [], body := none } := by
        simp [RB.start, hv, initialUrl, initialQuery]
      rw [hst]
      have h1 : (if c.accept then RB.header (.ok { method := c.method, url := initialUrl o.url, query := initialQuery o.url, headers := [], body := none }) Hdr.accept Mime.json
          else .ok { method := c.method, url := initialUrl o.url, query := initialQuery o.url, headers := [], body := none }) =
          (.ok { method := c.method, url := initialUrl o.url, query := initialQuery o.url, headers := autoHeaders c [], body := none } : RB) := by
        unfold autoHeaders
        split <;> simp [RB.header, Except.map]
      rw [h1]
      have hnoct : (autoHeaders c []).any (fun h => decide (h.1 = Hdr.contentType)) = false := by
        unfold autoHeaders
        split <;> simp [accept_ne]
      have h2 : ∀ label body, bodyParts cfg o.body = .ok (label, body) →
          applyBody cfg (.ok { method := c.method, url := initialUrl o.url, query := initialQuery o.url, headers := autoHeaders c [], body := none }) o.body =
          .ok (.ok { method := c.method, url := initialUrl o.url, query := initialQuery o.url, headers := autoHeaders c label, body := body }) := by
        intro label body hbp
        cases hb : o.body with
        | none => rw [hb] at hbp; cases hbp; rfl
        | some bv =>
          rw [hb] at hbp
          cases bv with
          | raw ct b => cases hbp; simp [applyBody, RB.header, RB.setBody, Except.map, autoHeaders]
          | json v =>
            simp only [bodyParts] at hbp
            cases hj : cfg.toJson v with
            | error e => rw [hj] at hbp; cases hbp
            | ok b =>
              rw [hj] at hbp; cases hbp
              simp only [applyBody, RB.json, hj, hnoct, Bool.false_eq_true, if_false]
              simp [autoHeaders]
          | form v =>
            simp only [bodyParts] at hbp
            cases hj : formBody v with
            | error e => rw [hj] at hbp; cases hbp
            | ok b =>
              rw [hj] at hbp; cases hbp
              simp only [applyBody, hj]
              simp [RB.header, RB.setBody, Except.map, autoHeaders]
      have h3 : ∀ e, bodyParts cfg o.body = .error e →
          (∃ m, applyBody cfg (.ok { method := c.method, url := initialUrl o.url, query := initialQuery o.url, headers := autoHeaders c [], body := none }) o.body = .error m) ∨
          applyBody cfg (.ok { method := c.method, url := initialUrl o.url, query := initialQuery o.url, headers := autoHeaders c [], body := none }) o.body = .ok (.error ()) := by
        intro e hbp
        cases hb : o.body with
        | none => rw [hb] at hbp; cases hbp
        | some bv =>
          rw [hb] at hbp
          cases bv with
          | raw ct b => cases hbp
          | json v =>
            simp only [bodyParts] at hbp
            cases hj : cfg.toJson v with
            | error e => right; simp only [applyBody, RB.json, hj]
            | ok b => rw [hj] at hbp; cases hbp
          | form v =>
            simp only [bodyParts] at hbp
            cases hj : formBody v with
            | error e => left; exact ⟨_, by simp only [applyBody, hj]; rfl⟩
            | ok b => rw [hj] at hbp; cases hbp
      cases hbp : bodyParts cfg o.body with
      | error e =>
        constructor
        · intro h
          exfalso
          rcases h3 e hbp with ⟨m, hm⟩ | hm
          · rw [hm] at h; cases h
          · rw [hm] at h
            dsimp only at h
            rw [RB.queries_error] at h
            split at h
            · cases h
            · rename_i r' heq
              split at heq <;> cases heq
        · rintro ⟨_, _, _, _, _, _, h, _⟩; cases h
      | ok lb =>
        obtain ⟨label, body⟩ := lb
        rw [h2 label body hbp]
        dsimp only
        rw [RB.queries_ok]
        dsimp only
        cases hq : addQueries (.ok (initialQuery o.url)) o.queries with
        | error e =>
          constructor
          · intro h
            exfalso
            split at h
            · cases h
            · rename_i r' heq
              split at heq <;> cases heq
          · rintro ⟨_, _, _, _, _, _, _, h, _⟩; cases h
        | ok q =>
          have hfin : (if c.websocket then websocketHeaders cfg (RB.headers (Except.map (fun q => { method := c.method, url := initialUrl o.url, query := q, headers := autoHeaders c label, body := body }) (.ok q)) hm)
              else RB.headers (Except.map (fun q => { method := c.method, url := initialUrl o.url, query := q, headers := autoHeaders c label, body := body }) (.ok q)) hm) =
              (.ok { method := c.method, url := initialUrl o.url, query := q, body := body,
                     headers := (autoHeaders c label).filter (fun h => !hm.any fun e => e.1 = h.1) ++ hm ++
                       wsHeaders cfg c } : RB) := by
            unfold wsHeaders
            split <;> simp [websocketHeaders, RB.headers, RB.header, Except.map, handshake]
          rw [hfin]
          dsimp only
          constructor
          · intro h; cases h
            exact ⟨hm, label, body, q, rfl, rfl, rfl, rfl, rfl⟩
          · rintro ⟨hm', label', body', q', e1, _, e2, e3, e4⟩
            cases e1; cases e2; cases e3
            rw [e4]

theorem buildHeaders_ok {cfg : Config} {hs : List (Str × Option Str)} {hm : Headers} :
    buildHeaders cfg hs = .ok hm ↔
      (utf8 cfg.apiVersion).all visibleAscii = true ∧
      hm = (Hdr.apiVersion, utf8 cfg.apiVersion) :: present hs ∧
      ∀ n t, (n, some t) ∈ hs → headerValueOk t = true ∧ headerNameOk n = true := by
  unfold buildHeaders
  split
  · rename_i hv
    rw [runHeaders_ok]
    simp [hv]
  · rename_i hv
    simp [hv]

end Progenitor.Exec

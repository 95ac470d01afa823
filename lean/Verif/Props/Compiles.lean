import Verif.Spec.Compiles
import Verif.Props.Accepted
import Verif.Props.Compile
import Verif.Props.Stream
import Verif.Props.ListWords

/-!
# C86: the documents whose client compiles
-/

namespace Progenitor.Props

open Progenitor Progenitor.Params Progenitor.Exec Progenitor.Spec Progenitor.Builder Progenitor.Doc Progenitor.Names Progenitor.Stream

/-! ## Parameters of the document and of the method -/

theorem op_shape {san types path method d P} (h : processOperation san types path method d = .ok P) :
    ∃ conv body, Spec.Forall₂ (fun p a => convert san p = .ok a) (BTree.values (combined d.pathLevel d.opLevel)) conv ∧
      getBodyParam d.body = .ok body ∧ P.op.params.Perm (conv ++ body.toList) := by
  unfold processOperation at h
  obtain ⟨conv, hconv, h⟩ := bind_ok_inv h
  obtain ⟨body, hbody, h⟩ := bind_ok_inv h
  obtain ⟨tmp, htmp, h⟩ := bind_ok_inv h
  obtain ⟨ps, hps, h⟩ := bind_ok_inv h
  obtain ⟨rs, hrs, h⟩ := bind_ok_inv h
  obtain ⟨_, _, h⟩ := bind_ok_inv h
  obtain ⟨m, hm, h⟩ := bind_ok_inv h
  cases h
  exact ⟨conv, body, convertAll_forall₂ hconv, hbody, by simpa using sortLoop_perm hps⟩

/-- The parameter of the method for a parameter of the document. -/
theorem counts_param {san types path method d P} (h : processOperation san types path method d = .ok P) {p : DocParam}
    (hp : Counts d p) : ∃ a ∈ P.op.params, Describes p a ∧ a.name = san p.name ∧ a.typ = .type (argType p) := by
  obtain ⟨conv, body, hf, _, hperm⟩ := op_shape h
  obtain ⟨a, ha, hpa⟩ := forall₂_left hf p ((counts_iff d p).mpr hp)
  obtain ⟨hd, hn⟩ := convert_describes hpa
  exact ⟨a, hperm.mem_iff.mpr (by simp [ha]), hd, hn, convert_type hpa⟩

/-- A parameter of the method is that of the document, or the body. -/
theorem param_counts {san types path method d P} (h : processOperation san types path method d = .ok P) {a : Param}
    (ha : a ∈ P.op.params) : (∃ p, Counts d p ∧ Describes p a ∧ a.name = san p.name ∧ a.typ = .type (argType p)) ∨
      ∃ e, d.body = some [e] ∧ getBodyParam d.body = .ok (some a) := by
  obtain ⟨conv, body, hf, hb, hperm⟩ := op_shape h
  rcases List.mem_append.mp (hperm.mem_iff.mp ha) with ha | ha
  · left
    obtain ⟨p, hp, hpa⟩ := forall₂_right hf a ha
    obtain ⟨hd, hn⟩ := convert_describes hpa
    exact ⟨p, (counts_iff d p).mp hp, hd, hn, convert_type hpa⟩
  · right
    have ha : body = some a := by simpa using ha
    subst ha
    rcases (C19_declared_iff _ _).mp hb with ⟨h, _⟩ | ⟨ct, m, s, c, typ, h, _⟩
    · cases h
    · exact ⟨_, h, hb⟩

theorem body_param {san types path method d P} (h : processOperation san types path method d = .ok P) {e : Str × BodyMedia}
    (he : d.body = some [e]) : ∃ a ∈ P.op.params, getBodyParam d.body = .ok (some a) := by
  obtain ⟨conv, body, hf, hb, hperm⟩ := op_shape h
  rcases (C19_declared_iff _ _).mp hb with ⟨_, h | h⟩ | ⟨ct, m, s, c, typ, _, _, _, _, rfl⟩
  · rw [he] at h; cases h
  · rw [he] at h; cases h
  · exact ⟨_, hperm.mem_iff.mpr (by simp), hb⟩

theorem map_nodup_iff {α β γ} {f : α → β} {g : α → γ} {l : List α} (hg : (l.map g).Nodup) :
    (l.map f).Nodup ↔ ∀ a ∈ l, ∀ b ∈ l, f a = f b → g a = g b := by
  constructor
  · intro h a ha b hb e
    rw [nodup_inj h ha hb e]
  · intro h
    induction l with
    | nil => simp
    | cons x l ih =>
      rw [List.map_cons, List.nodup_cons] at hg ⊢
      refine ⟨fun hm => ?_, ih hg.2 fun a ha b hb => h a (by simp [ha]) b (by simp [hb])⟩
      obtain ⟨y, hy, e⟩ := List.mem_map.mp hm
      exact hg.1 (by rw [← h y (by simp [hy]) x (by simp) e]; exact List.mem_map_of_mem hy)

/-- When the names of the arguments differ. -/
theorem names_iff {san types path method d P} (h : processOperation san types path method d = .ok P) :
    (P.op.params.map Param.name).Nodup ↔
      (∀ p q, Counts d p → Counts d q → san p.name = san q.name → p.name = q.name) ∧
      ∀ e, d.body = some [e] → ∀ p, Counts d p → san p.name ≠ "body".toList := by
  obtain ⟨conv, body, hf, hb, hperm⟩ := op_shape h
  have hmap : conv.map Param.name = (BTree.values (combined d.pathLevel d.opLevel)).map fun p => san p.name := by
    clear hperm
    generalize BTree.values (combined d.pathLevel d.opLevel) = vs at hf ⊢
    induction hf with
    | nil => rfl
    | cons hpa _ ih => rw [List.map_cons, List.map_cons, ih, (convert_describes hpa).2]
  rw [(hperm.map Param.name).nodup_iff, List.map_append, hmap, List.nodup_append,
    map_nodup_iff (values_names d.pathLevel d.opLevel)]
  simp only [counts_iff]
  constructor
  · rintro ⟨h1, _, h3⟩
    refine ⟨fun p q hp hq => h1 p hp q hq, fun e he p hp hn => ?_⟩
    rcases (C19_declared_iff _ _).mp hb with ⟨_, h | h⟩ | ⟨ct, m, s, c, typ, _, _, _, _, rfl⟩
    · rw [he] at h; cases h
    · rw [he] at h; cases h
    · exact h3 _ (List.mem_map.mpr ⟨p, (counts_iff d p).mpr hp, rfl⟩) "body".toList (by simp) hn
  · rintro ⟨h1, h2⟩
    refine ⟨fun p hp q hq => h1 p q hp hq, by cases body <;> simp, fun x hx y hy e => ?_⟩
    obtain ⟨p, hp, rfl⟩ := List.mem_map.mp hx
    rcases (C19_declared_iff _ _).mp hb with ⟨rfl, _⟩ | ⟨ct, m, s, c, typ, he, _, _, _, rfl⟩
    · simp at hy
    · simp only [Option.toList_some, List.map_cons, List.map_nil, List.mem_singleton] at hy
      exact h2 _ he p ((counts_iff d p).mp hp) (e.trans hy)

/-! ## Methods -/

variable {P V : Type}

theorem mapM?_none {α β} {f : α → Option β} {l : List α} {a : α} (ha : a ∈ l) (hf : f a = none) : mapM? f l = none := by
  induction l with
  | nil => cases ha
  | cons x l ih =>
    unfold mapM?
    rcases List.mem_cons.mp ha with rfl | ha
    · rw [hf]
    · rw [ih ha]
      cases f x <;> rfl

theorem call_noCompile {cfg : Config} {hooks : Hooks} {w : World} {decode : Params.TypeId → Bytes → Except P V} {params : List Param}
    {c : Code} {hist : List Event} {args : List Value} (h : ∀ env, build cfg c env = .noCompile) :
    (call cfg hooks w decode params c hist args).1 = .noCompile := by
  unfold call run
  split
  · rfl
  · rw [h]

theorem build_none {cfg : Config} {c : Code} {env : Env} (h : operands c cfg.baseurl env = none) : build cfg c env = .noCompile := by
  unfold build
  rw [h]
  split <;> rfl

theorem compile_args {t : Template.PathTemplate} {rename : Str → Option Str} {e : Template.UrlExpr}
    (h : Template.compile t rename = .ok e) : Template.compileArgs rename t = .ok e.args := by
  unfold Template.compile at h
  split at h
  · rename_i is his; rw [← Res.ok.inj h]; exact his
  · cases h
  · cases h

/-- C86: a call of the method for an operation compiles exactly if the arguments are of the declared types and the operation is
sound. -/
theorem C86_method_iff {san types path method d pr c} (hp : processOperation san types path method d = .ok pr)
    (hc : methodSigBody pr.op = .ok c) (cfg : Config) (hooks : Hooks) (w : World)
    (decode : Params.TypeId → Bytes → Except P V) (hist : List Event) (args : List Value) :
    (call cfg hooks w decode pr.op.params c hist args).1 ≠ .noCompile ↔
      MethodSound san path method d ∧ pr.op.params.length = args.length ∧
        ∀ p v, (p, v) ∈ pr.op.params.zip args → typed p v = true := by
  obtain ⟨hw, hty, hpath, hrs, hmt, _⟩ := processOperation_inv hp
  obtain ⟨hvars, hcu, _, hgen, _, _, hcm, hhs, hqs⟩ := methodSigBody_ok hc
  constructor
  · intro h
    have hbind : ∃ env, bindArgs pr.op.params args = some env := by
      cases hb : bindArgs pr.op.params args with
      | none => exact absurd (by unfold call; rw [hb]) h
      | some env => exact ⟨env, rfl⟩
    obtain ⟨env, hb⟩ := hbind
    obtain ⟨hnd, hlen, htyp, _⟩ := bindArgs_some hb
    have hnames := (names_iff hp).mp hnd
    refine ⟨⟨?_, ?_, hnames.1, hnames.2, ?_, ?_⟩, hlen, htyp⟩
    · by_cases hwf : WellFormedPath path
      · exact hwf
      · refine absurd (call_noCompile fun env => ?_) h
        have hno := C03_stray_brace_never_compiles path _ _ _ hpath hwf hcu
        refine build_none ?_
        unfold operands
        split
        · rfl
        · rw [hno]
    · by_cases hm : method ≠ "options".toList ∧ method ≠ "trace".toList
      · exact hm
      · refine absurd (call_noCompile fun env => ?_) h
        have hh : clientHas c.method = false := by
          rw [hcm]
          by_cases h1 : method = "options".toList
          · subst h1; rw [← Res.ok.inj hmt]; rfl
          · by_cases h2 : method = "trace".toList
            · subst h2; rw [← Res.ok.inj hmt]; rfl
            · exact absurd ⟨h1, h2⟩ hm
        unfold build
        rw [hh]
        rfl
    · intro p hpc hk hn
      obtain ⟨a, ha, hd, han, hat⟩ := counts_param hp hpc
      refine h (call_noCompile fun env => ?_)
      have hlk : lookup ((c.vars.headerMap, Value.internal) :: (c.vars.url, .internal) :: env) a.name = some .internal := by
        rw [hvars, han, hn]
        rfl
      have hnone : (mapM? (evalHeader ((c.vars.headerMap, Value.internal) :: (c.vars.url, .internal) :: env)) c.headers = none) ∨
          (mapM? (fun q : Str × Str => (evalSer ((c.vars.headerMap, Value.internal) :: (c.vars.url, .internal) :: env) q.2).map
            fun v => (q.1, v)) c.queries = none) := by
        have hloc := hd.2.1
        cases hak : a.kind with
        | path => rw [hak] at hloc; exact absurd hloc.symm hk
        | body ct =>
          have := hd.2.2
          rw [hak] at this
          cases hpk : p.kind <;> simp [hpk] at this
        | header r =>
          left
          refine mapM?_none (a := ⟨a.apiName, a.name, r⟩) ?_ ?_
          · rw [hhs]
            exact List.mem_filterMap.mpr ⟨a, ha, by rw [hak]⟩
          · unfold evalHeader
            cases r <;> simp only [evalDisplay, evalOptDisplay, hlk] <;> rfl
        | query r =>
          right
          refine mapM?_none (a := (a.apiName, a.name)) ?_ ?_
          · rw [hqs]
            exact List.mem_filterMap.mpr ⟨a, ha, by rw [hak]⟩
          · simp only [evalSer, hlk]
            rfl
      refine build_none ?_
      unfold operands
      split
      · rfl
      · split
        · rfl
        · dsimp only
          rcases hnone with hn | hn
          · rw [hn]
          · rw [hn]
            split
            · rename_i h; cases h
            · rfl
    · intro hg p hpc hn
      obtain ⟨a, ha, _, han, _⟩ := counts_param hp hpc
      refine h ?_
      have hev : ¬ encodeVisible c env = true := by
        rw [encodeVisible_iff hb]
        intro hv
        refine hv ?_ a ha (han.trans hn)
        intro h0
        refine hg ?_
        rw [← C02_names path _ hpath]
        have := (Template.compileArgs_ok _ _ _).mp (compile_args hcu)
        rw [h0] at this
        exact List.map_eq_nil_iff.mp this
      have hno : build cfg c env = .noCompile := build_none (by unfold operands evalUrl; rw [if_neg hev])
      unfold call run
      rw [hb]
      dsimp only
      rw [hno]
  · rintro ⟨hs, hlen, htyp⟩
    refine C60_compiles_partial hp hc hs.path hs.method ((names_iff hp).mpr ⟨hs.distinct, hs.body⟩) ?_ ?_ cfg hooks w decode hist args
      hlen htyp
    · intro a ha hk hn
      rcases param_counts hp ha with ⟨p, hpc, hd, han, _⟩ | ⟨e, he, hb⟩
      · exact hs.headerMap p hpc (fun hl => hk ((path_kind hd).mpr hl)) (han.symm.trans hn)
      · have := (body_shape hb a rfl).1
        rw [this] at hn
        exact absurd hn (by decide)
    · intro hg a ha hn
      rcases param_counts hp ha with ⟨p, hpc, hd, han, _⟩ | ⟨e, he, hb⟩
      · exact hs.encode hg p hpc (han.symm.trans hn)
      · have := (body_shape hb a rfl).1
        rw [this] at hn
        exact absurd hn (by decide)

/-! ## Builders -/

variable {B : Type}

theorem counts_not_body {p : DocParam} {a : Param} (h : Describes p a) : ∀ ct, a.kind ≠ .body ct := by
  intro ct hk
  have := h.2.2
  rw [hk] at this
  cases hpk : p.kind <;> simp [hpk] at this

theorem body_struct_iff {san types path method d pr} (hp : processOperation san types path method d = .ok pr) (tt : TypeTable B) :
    (∃ q ∈ pr.op.params, ∃ tb, HasBuilder tt q tb) ↔ BodyStruct tt d := by
  constructor
  · rintro ⟨q, hq, tb, t, ct, ht, hk, htb⟩
    rcases param_counts hp hq with ⟨p, _, hd, _, _⟩ | ⟨e, he, hb⟩
    · exact absurd hk (counts_not_body hd ct)
    · rcases (C19_declared_iff _ _).mp hb with ⟨h, _⟩ | ⟨cts, m, s, c, typ, hbody, hs, hc, hbt, heq⟩
      · cases h
      · cases heq
        dsimp only at ht
        subst ht
        obtain ⟨base, hbase, h⟩ := (mediaType_iff _ _).mp hc
        rcases h with ⟨rfl, _⟩ | ⟨rfl, h⟩ | ⟨rfl, h⟩ | ⟨rfl, _⟩
        · simp only [bodyType] at hbt; split at hbt <;> cases hbt
        · simp only [bodyType] at hbt
          split at hbt
          · cases hbt; exact ⟨cts, m, s, base, tb, hbody, hs, hbase, .inl h, htb⟩
          · cases hbt
        · simp only [bodyType] at hbt
          split at hbt
          · cases hbt; exact ⟨cts, m, s, base, tb, hbody, hs, hbase, .inr h, htb⟩
          · cases hbt
        · simp only [bodyType] at hbt; split at hbt <;> cases hbt
  · rintro ⟨cts, m, s, base, tb, hbody, hs, hbase, hj, htb⟩
    obtain ⟨a, ha, hb⟩ := body_param hp hbody
    refine ⟨a, ha, tb, ?_⟩
    rcases (C19_declared_iff _ _).mp hb with ⟨h, _⟩ | ⟨cts', m', s', c, typ, hbody', hs', hc, hbt, heq⟩
    · cases h
    · cases heq
      rw [hbody] at hbody'
      cases hbody'
      rw [hs] at hs'
      cases hs'
      have hc' : c = .json ∨ c = .form := by
        rcases hj with h | h
        · have := (mediaType_iff cts .json).mpr ⟨base, hbase, .inr (.inl ⟨rfl, h⟩)⟩
          rw [this] at hc; cases hc; exact .inl rfl
        · have := (mediaType_iff cts .form).mpr ⟨base, hbase, .inr (.inr (.inl ⟨rfl, h⟩))⟩
          rw [this] at hc; cases hc; exact .inr rfl
      have : typ = .type s.ty := by
        rcases hc' with rfl | rfl
        · simp only [bodyType] at hbt
          split at hbt
          · cases hbt; rfl
          · cases hbt
        · simp only [bodyType] at hbt
          split at hbt
          · cases hbt; rfl
          · cases hbt
      subst this
      exact ⟨s.ty, c, rfl, rfl, htb⟩

theorem noClash_iff {san types path method d pr} (hp : processOperation san types path method d = .ok pr) (tt : TypeTable B)
    (paged : Bool) : NoClash tt pr.op.params paged ↔ (pr.op.params.map Param.name).Nodup ∧ BuilderSound san tt (paged = true) d := by
  unfold NoClash
  refine and_congr_right fun _ => ?_
  constructor
  · rintro ⟨h1, h2⟩
    have key : ∀ p, Counts d p → ∃ a ∈ pr.op.params, a.name = san p.name := fun p hpc => by
      obtain ⟨a, ha, _, hn, _⟩ := counts_param hp hpc
      exact ⟨a, ha, hn⟩
    refine ⟨?_, ?_, ?_, ?_, ?_, ?_⟩
    · intro p hpc; obtain ⟨a, ha, hn⟩ := key p hpc; rw [← hn]; exact (h1 a ha).1
    · intro p hpc; obtain ⟨a, ha, hn⟩ := key p hpc; rw [← hn]; exact (h1 a ha).2.1
    · intro hpg p hpc; obtain ⟨a, ha, hn⟩ := key p hpc; rw [← hn]; exact ((h1 a ha).2.2.1 hpg).1
    · intro hpg p hpc; obtain ⟨a, ha, hn⟩ := key p hpc; rw [← hn]; exact ((h1 a ha).2.2.1 hpg).2
    · intro hbs p hpc
      obtain ⟨q, hq, tb, htb⟩ := (body_struct_iff hp tt).mpr hbs
      obtain ⟨a, ha, hn⟩ := key p hpc
      rw [← hn]
      exact (h1 a ha).2.2.2 q hq tb htb
    · intro p hpc
      obtain ⟨a, ha, hd, _, ht⟩ := counts_param hp hpc
      cases hb : tt.builder (argType p) with
      | none => rfl
      | some tb =>
        obtain ⟨ct, hk⟩ := h2 a ha _ tb ht hb
        exact absurd hk (counts_not_body hd ct)
  · rintro ⟨h1, h2, h3, h3', h4, h5⟩
    refine ⟨fun a ha => ?_, fun a ha t tb ht hb => ?_⟩
    · rcases param_counts hp ha with ⟨p, hpc, _, hn, _⟩ | ⟨e, _, hb⟩
      · rw [hn]
        exact ⟨h1 p hpc, h2 p hpc, fun hpg => ⟨h3 hpg p hpc, h3' hpg p hpc⟩, fun q hq tb htb => h4 ((body_struct_iff hp tt).mp ⟨q, hq, tb, htb⟩) p hpc⟩
      · rw [(body_shape hb a rfl).1]
        exact ⟨by decide, by decide, fun _ => ⟨by decide, by decide⟩, fun _ _ _ _ => by decide⟩
    · rcases param_counts hp ha with ⟨p, hpc, _, _, hat⟩ | ⟨e, _, hbp⟩
      · rw [hat] at ht
        cases ht
        rw [h5 p hpc] at hb
        cases hb
      · rcases (body_shape hbp a rfl).2 with ⟨c, _, hk, _⟩ | ⟨c, _, _, hk, _⟩ <;> exact ⟨c, hk⟩

/-- Some value for every parameter, and the calls that set them. -/
theorem some_values (params : List Param) (tt : TypeTable B) (hn : (params.map Param.name).Nodup) :
    ∃ (args : List Value) (calls : List (Call B)), (∀ x ∈ calls, CallOk tt params x) ∧
      (∃ env, bindArgs params args = some env) ∧ Forall₂ (fun p v => SetTo (inputsFor calls p.name) v) params args := by
  let a0 : Arg := ⟨[], .none⟩
  let val : Param → Value := fun p => match p.typ with
    | .rawBody => .raw []
    | .type _ => if isRequired p.kind then .plain a0 else .opt (some a0)
  let inp : Param → Input B := fun p => match p.typ with
    | .rawBody => .raw (.ok [])
    | .type _ => .value (.ok a0)
  refine ⟨params.map val, params.map fun p => (p.name, inp p), ?_, ⟨(params.map Param.name).zip (params.map val), if_pos ⟨hn, by simp, ?_⟩⟩, ?_⟩
  · intro x hx
    obtain ⟨p, hp, rfl⟩ := List.mem_map.mp hx
    refine ⟨p, hp, rfl, ?_⟩
    dsimp only [inp]
    cases ht : p.typ with
    | rawBody => exact rfl
    | type t => exact ⟨t, rfl⟩
  rotate_left
  · rw [List.all_eq_true]
    rintro ⟨p, v⟩ hpv
    have hv : v = val p := by
      rw [List.zip_map_right, List.mem_map] at hpv
      obtain ⟨⟨q, q'⟩, hq, e⟩ := hpv
      have := List.of_mem_zip hq
      cases e
      have : q = q' := by
        clear this
        induction params with
        | nil => cases hq
        | cons x l ih =>
          rw [List.zip_cons_cons] at hq
          rcases List.mem_cons.mp hq with h | h
          · cases h; rfl
          · exact ih (by simp at hn; simp [hn]) h
      rw [this]; rfl
    subst hv
    obtain ⟨pn, pa, pt, pk⟩ := p
    cases pt with
    | rawBody => rfl
    | type t =>
      cases pk with
      | query r => cases r <;> rfl
      | header r => cases r <;> rfl
      | path => rfl
      | body _ => rfl
  · have key : ∀ p ∈ params, inputsFor (params.map fun p => (p.name, inp p)) p.name = [inp p] := by
      intro p hp
      unfold inputsFor
      induction params with
      | nil => cases hp
      | cons x l ih =>
        rw [List.map_cons, List.nodup_cons] at hn
        rcases List.mem_cons.mp hp with rfl | hp
        · rw [List.map_cons, List.filter_cons_of_pos (by simp)]
          have : (l.map fun p => (p.name, inp p)).filter (fun c => decide (c.1 = p.name)) = [] := by
            rw [List.filter_eq_nil_iff]
            intro y hy
            obtain ⟨q, hq, rfl⟩ := List.mem_map.mp hy
            simp only [decide_eq_true_eq]
            exact fun e => hn.1 (by rw [← e]; exact List.mem_map_of_mem hq)
          rw [this]
          rfl
        · rw [List.map_cons, List.filter_cons_of_neg]
          · exact ih hn.2 hp
          · simp only [decide_eq_true_eq]
            exact fun e => hn.1 (by rw [e]; exact List.mem_map_of_mem hp)
    have gen : ∀ l : List Param, (∀ p ∈ l, p ∈ params) →
        Forall₂ (fun p v => SetTo (inputsFor (params.map fun p => (p.name, inp p)) p.name) v) l (l.map val) := by
      intro l hl
      induction l with
      | nil => exact .nil
      | cons p l ih =>
        refine .cons ?_ (ih fun q hq => hl q (by simp [hq]))
        rw [key p (hl p (by simp))]
        dsimp only [inp, val]
        cases p.typ with
        | rawBody => exact ⟨[], rfl⟩
        | type t => dsimp only; split <;> exact ⟨[], rfl⟩
    exact gen params fun p hp => hp

/-- C86: every use of the builder for an operation compiles exactly if the operation is sound. -/
theorem C86_builder_iff {san types path method d pr c} (hp : processOperation san types path method d = .ok pr)
    (tt : TypeTable B) (hc : builderStruct tt pr.op = .ok c)
    (hlaw : ∀ p ∈ pr.op.params, ∀ tb, HasBuilder tt p tb → ∀ a, tb.finish (tb.ofValue a) = .ok a)
    (cfg : Config) (hooks : Hooks) (w : World) (decode : Params.TypeId → Bytes → Except P V) (hist : List Event) :
    (∀ calls, (∀ x ∈ calls, CallOk tt pr.op.params x) →
      (callBuilder cfg hooks w decode tt pr.op.params pr.paginated.isSome c hist calls).1 ≠ .noCompile) ↔
      MethodSound san path method d ∧ BuilderSound san tt (pr.paginated ≠ none) d := by
  unfold builderStruct at hc
  obtain ⟨_, hg, hc⟩ := bind_ok_inv hc
  have hpg : (pr.paginated.isSome = true) = (pr.paginated ≠ none) := by
    cases pr.paginated <;> simp
  have hst := C62_struct tt pr.op.params pr.paginated.isSome hg
  rw [noClash_iff hp, hpg] at hst
  constructor
  · intro h
    have hs : structOk tt pr.op.params pr.paginated.isSome = true := by
      cases hs : structOk tt pr.op.params pr.paginated.isSome with
      | true => rfl
      | false =>
        refine absurd ?_ (h [] (by simp))
        unfold callBuilder
        rw [hs]
        rfl
    obtain ⟨hn, hbs⟩ := hst.mp hs
    refine ⟨?_, hbs⟩
    obtain ⟨args, calls, hok, ⟨env, hb⟩, hset⟩ := some_values pr.op.params tt hn
    have := h calls hok
    rw [C31_agree cfg hooks w decode tt pr.op.params _ c hist calls hs hok hlaw args env hb hset, C86_method_iff hp hc] at this
    exact this.1
  · rintro ⟨hm, hbs⟩ calls hok
    have hn := (names_iff hp).mpr ⟨hm.distinct, hm.body⟩
    have hs := hst.mpr ⟨hn, hbs⟩
    by_cases hall : ∀ p ∈ pr.op.params, ∃ v, Outcome tt p (inputsFor calls p.name) (.ok v)
    · obtain ⟨vs, hvs⟩ : ∃ vs, Forall₂ (fun p v => Outcome tt p (inputsFor calls p.name) (.ok v)) pr.op.params vs := by
        generalize pr.op.params = l at hall
        induction l with
        | nil => exact ⟨[], .nil⟩
        | cons p l ih =>
          obtain ⟨v, hv⟩ := hall p (by simp)
          obtain ⟨vs, hvs⟩ := ih fun q hq => hall q (by simp [hq])
          exact ⟨v :: vs, .cons hv hvs⟩
      rw [C31_values cfg hooks w decode tt pr.op.params _ c hist calls hs hok vs hvs, C86_method_iff hp hc]
      refine ⟨hm, (forall₂_zip hvs).1, fun p v hpv => outcome_typed ((forall₂_zip hvs).2 p v hpv)⟩
    · obtain ⟨pre, p, post, m, he, hpre, hpm⟩ : ∃ pre p post m, pr.op.params = pre ++ p :: post ∧
          (∀ q ∈ pre, ∃ v, Outcome tt q (inputsFor calls q.name) (.ok v)) ∧ Outcome tt p (inputsFor calls p.name) (.error m) := by
        have htot := C30_total tt pr.op.params calls hn hok
        generalize pr.op.params = l at hall htot
        induction l with
        | nil => exact absurd (by simp) hall
        | cons p l ih =>
          obtain ⟨o, ho, _⟩ := htot p (by simp)
          cases o with
          | error m => exact ⟨[], p, l, m, rfl, by simp, ho⟩
          | ok v =>
            have : ¬ ∀ q ∈ l, ∃ v, Outcome tt q (inputsFor calls q.name) (.ok v) := fun hl =>
              hall fun q hq => by
                rcases List.mem_cons.mp hq with rfl | hq
                · exact ⟨v, ho⟩
                · exact hl q hq
            obtain ⟨pre, p', post, m, rfl, hpre, hpm⟩ := ih this fun q hq => htot q (by simp [hq])
            refine ⟨p :: pre, p', post, m, rfl, ?_, hpm⟩
            intro q hq
            rcases List.mem_cons.mp hq with rfl | hq
            · exact ⟨v, ho⟩
            · exact hpre q hq
      rw [C30_invalid cfg hooks w decode tt pr.op.params _ c hist calls hs hok pre p post m he hpre hpm]
      intro h
      cases h

/-! ## Streams -/

variable {u : Unicode}

theorem positional_some {types : Types} {params : List Param} {args : List Value} (h : positionalArgs types params args ≠ none) :
    (params.map Param.name).Nodup ∧ (streamParams params).length = args.length ∧
      ∀ p v, (p, v) ∈ (streamParams params).zip args → typed p v = true := by
  unfold positionalArgs at h
  split at h
  · exact absurd rfl h
  · rename_i env hb
    split at h
    · split at h
      · rename_i hc
        obtain ⟨e, he⟩ := Option.isSome_iff_exists.mp hc.2.2.1
        obtain ⟨_, hlen, htyp, _⟩ := bindArgs_some hb
        exact ⟨(bindArgs_some he).1, hlen, htyp⟩
      · exact absurd rfl h
    · exact absurd rfl h

/-- C86: a call of the stream of a paginated operation compiles exactly if the arguments are of the declared types, names differ, the
token is a string and no parameter hides behind a local variable. -/
theorem C86_stream_iff (h : Lawful u) {types path method d pr} (hd : PropsDistinct types)
    (hp : processOperation (sanitize u .snake) types path method d = .ok pr) {pd : Pagination} (hpg : pr.paginated = some pd)
    (args : List Value) :
    positionalArgs types pr.op.params args ≠ none ↔
      (∀ p q, Counts d p → Counts d q → sanitize u .snake p.name = sanitize u .snake q.name → p.name = q.name) ∧
      (∀ e, d.body = some [e] → ∀ p, Counts d p → sanitize u .snake p.name ≠ "body".toList) ∧
      TokenSound types d ∧ CaptureSound (sanitize u .snake) d ∧
      (streamParams pr.op.params).length = args.length ∧
        ∀ p v, (p, v) ∈ (streamParams pr.op.params).zip args → typed p v = true := by
  obtain ⟨item, req⟩ := pd
  obtain ⟨_, _, _, hq, hraw, _⟩ := (C37_paginated hd hp item req).mp hpg
  constructor
  · intro hs
    obtain ⟨hn, hlen, htyp⟩ := positional_some hs
    obtain ⟨htok, hkind⟩ := tokenNamed_of_document h hd hp hpg hn
    obtain ⟨h1, h2⟩ := (names_iff hp).mp hn
    refine ⟨h1, h2, ?_, ?_, hlen, htyp⟩
    · intro p hpc hname
      obtain ⟨a, ha, hda, _, hat⟩ := counts_param hp hpc
      exact Classical.byContradiction fun hne =>
        hs (C63_token_fails types pr.op.params args a ha (hda.1.trans hname) _ hat hne).1
    · intro p hpc hk
      obtain ⟨a, ha, hda, han, _⟩ := counts_param hp hpc
      have hnq : ∀ r, a.kind ≠ .query r := fun r hr => hk (by rw [← hda.2.1, hr]; rfl)
      have : ¬ (a.name = "state".toList ∨ a.name = "first".toList ∨ a.name = "page".toList) := fun hname =>
        hs (C63_captured_fails types pr.op.params args a ha (fun ⟨_, r, hr⟩ => hnq r hr)
          (fun hapi => hnq false (hkind a ha hapi)) hname)
      rw [← han]
      exact ⟨fun e => this (.inl e), fun e => this (.inr (.inl e)), fun e => this (.inr (.inr e))⟩
  · rintro ⟨h1, h2, htk, hcap, hlen, htyp⟩
    have hn := (names_iff hp).mpr ⟨h1, h2⟩
    obtain ⟨htok, hkind⟩ := tokenNamed_of_document h hd hp hpg hn
    obtain ⟨env, hb⟩ := bindArgs_of (hn.sublist (List.filter_sublist.map _)) hlen htyp
    refine Option.ne_none_iff_exists'.mpr (C63_positional_partial types pr.op.params args hn htok ?_ hq hraw ?_ env hb)
    · intro a ha hapi
      refine ⟨hkind a ha hapi, ?_⟩
      rcases param_counts hp ha with ⟨p, hpc, hda, _, hat⟩ | ⟨e, _, hbp⟩
      · exact ⟨_, hat, htk p hpc (hda.1.symm.trans hapi)⟩
      · have hk := hkind a ha hapi
        rcases (body_shape hbp a rfl).2 with ⟨c, _, hk', _⟩ | ⟨c, _, _, hk', _⟩ <;> (rw [hk] at hk'; cases hk')
    · intro a ha hu
      rcases param_counts hp ha with ⟨p, hpc, hda, han, hat⟩ | ⟨e, _, hbp⟩
      · by_cases hk : docLocation p.kind = .query
        · have hlim : a.apiName = "limit".toList := Classical.byContradiction fun hl => hu ⟨hl, by
            have := hda.2.1
            rw [hk] at this
            cases hak : a.kind with
            | query r => exact ⟨r, rfl⟩
            | _ => rw [hak] at this; cases this⟩
          rw [han, ← hda.1, hlim, limit_sanitized h]
          exact ⟨by decide, by decide, by decide⟩
        · rw [han]; exact hcap p hpc hk
      · rw [(body_shape hbp a rfl).1]
        exact ⟨by decide, by decide, by decide⟩

/-- C86: the stream of the builder compiles exactly if the setters do, the builder is sound and the token is a string. -/
theorem C86_builder_stream_iff (h : Lawful u) {types path method d pr} (hd : PropsDistinct types)
    (hp : processOperation (sanitize u .snake) types path method d = .ok pr) {pd : Pagination} (hpg : pr.paginated = some pd)
    (tt : TypeTable B) (hg : genParams tt pr.op.params = .ok ()) (calls : List (Call B)) :
    builderStream tt types pr.op.params calls ≠ none ↔
      (∀ p q, Counts d p → Counts d q → sanitize u .snake p.name = sanitize u .snake q.name → p.name = q.name) ∧
      (∀ e, d.body = some [e] → ∀ p, Counts d p → sanitize u .snake p.name ≠ "body".toList) ∧
      BuilderSound (sanitize u .snake) tt True d ∧ TokenSound types d ∧ ∀ x ∈ calls, CallOk tt pr.op.params x := by
  obtain ⟨item, req⟩ := pd
  obtain ⟨_, ⟨t, ht, htapi, htk⟩, _, hq, hraw, _⟩ := (C37_paginated hd hp item req).mp hpg
  have hst := C62_struct tt pr.op.params true hg
  rw [noClash_iff hp, eq_self_iff_true] at hst
  unfold builderStream
  constructor
  · intro hs
    split at hs
    · rename_i hc
      rw [Bool.and_eq_true] at hc
      obtain ⟨hn, hbs⟩ := hst.mp hc.1
      obtain ⟨h1, h2⟩ := (names_iff hp).mp hn
      refine ⟨h1, h2, hbs, ?_, ?_⟩
      · intro p hpc hname
        obtain ⟨a, ha, hda, _, hat⟩ := counts_param hp hpc
        have h3 := hc.2
        unfold builderStreamOk tokenTyped at h3
        simp only [Bool.and_eq_true, List.all_eq_true] at h3
        have := h3.1.1.1 a ha
        rw [Bool.or_eq_true, hat] at this
        rcases this with h | h
        · exact absurd (hda.1.trans hname) (of_decide_eq_true h)
        · exact of_decide_eq_true h
      · refine (calls_compile tt pr.op.params calls hn).mp ?_
        exact Option.ne_none_iff_exists'.mp hs
    · exact absurd rfl hs
  · rintro ⟨h1, h2, hbs, htok, hok⟩
    have hn := (names_iff hp).mpr ⟨h1, h2⟩
    obtain ⟨hnamed, _⟩ := tokenNamed_of_document h hd hp hpg hn
    have hso : builderStreamOk types pr.op.params = true := by
      unfold builderStreamOk tokenTyped copied
      simp only [Bool.and_eq_true, List.all_eq_true, List.any_eq_true]
      refine ⟨⟨⟨?_, t, ht, decide_eq_true ((hnamed t ht).mp htapi), decide_eq_true htk⟩, ?_⟩, fun a ha => decide_eq_true (hraw a ha)⟩
      · intro a ha
        rw [Bool.or_eq_true]
        by_cases hapi : a.apiName = "page_token".toList
        · right
          rcases param_counts hp ha with ⟨p, hpc, hda, _, hat⟩ | ⟨e, _, hbp⟩
          · rw [hat]; exact decide_eq_true (htok p hpc (hda.1.symm.trans hapi))
          · have hnm := (hnamed a ha).mp hapi
            rw [(body_shape hbp a rfl).1] at hnm
            exact absurd hnm (by decide)
        · exact .inl (decide_eq_true hapi)
      · intro a ha
        have := hq a ha
        unfold queryOptional
        cases hk : a.kind with
        | query r => cases r with
          | true => exact absurd hk this
          | false => rfl
        | _ => rfl
    rw [hst.mpr ⟨hn, hbs⟩, hso]
    obtain ⟨s, hs⟩ := (calls_compile tt pr.op.params calls hn).mpr hok
    simp [hs]

end Progenitor.Props

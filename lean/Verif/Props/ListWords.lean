import Verif.Model.ListWords
import Verif.Spec.ListWords
import Verif.Props.Argv

/-!
# C81: list commands given as text
-/

namespace Progenitor.Props

open Progenitor Progenitor.Params Progenitor.Client Progenitor.Exec Progenitor.Builder Progenitor.Cli Progenitor.Stream
open Progenitor.Spec

variable {Q R E I B X H : Type}

/-! ## Runs -/

theorem run_trace {σ : Type} {step : σ → Progenitor.Stream.Step Q R X σ} {answer : H → Q → Option (R × H)} {s0 : σ} :
    ∀ (k : Nat) {tr : List (Act Q R X)} {s : σ} {h : H} {r : List (Act Q R X) × σ × H}, Trace step s0 tr s →
      runFor step answer k s h = some r → Trace step s0 (tr ++ r.1) r.2.1
  | 0, tr, s, h, r, ht, hr => by
    cases hr
    simpa using ht
  | k + 1, tr, s, h, r, ht, hr => by
    unfold runFor at hr
    split at hr
    · rename_i s' hs
      exact run_trace k (.tau _ _ _ ht hs) hr
    · rename_i x s' hs
      obtain ⟨r', hr', rfl⟩ := Option.map_eq_some_iff.mp hr
      have := run_trace k (.emit _ _ _ _ ht hs) hr'
      simpa using this
    · rename_i s' hs
      obtain ⟨r', hr', rfl⟩ := Option.map_eq_some_iff.mp hr
      have := run_trace k (.done _ _ _ ht hs) hr'
      simpa using this
    · rename_i q f hs
      split at hr
      · cases hr
      · rename_i a h' _
        obtain ⟨r', hr', rfl⟩ := Option.map_eq_some_iff.mp hr
        have := run_trace k (.ask _ _ _ _ a ht hs) hr'
        simpa using this

theorem run_succ {σ : Type} (step : σ → Progenitor.Stream.Step Q R X σ) (answer : H → Q → Option (R × H)) (k : Nat) (s : σ) (h : H) :
    runFor step answer (k + 1) s h = match step s with
      | .tau s' => runFor step answer k s' h
      | .emit x s' => (runFor step answer k s' h).map fun r => (.emitted x :: r.1, r.2)
      | .done s' => (runFor step answer k s' h).map fun r => (.ended :: r.1, r.2)
      | .ask q f => match answer h q with
        | none => none
        | some (r, h') => (runFor step answer k (f r) h').map fun x => (.asked q r :: x.1, x.2) := rfl

theorem run_add {σ : Type} {step : σ → Progenitor.Stream.Step Q R X σ} {answer : H → Q → Option (R × H)} :
    ∀ (k : Nat) {s : σ} {h : H} {r : List (Act Q R X) × σ × H} (m : Nat), runFor step answer k s h = some r →
      runFor step answer (k + m) s h = (runFor step answer m r.2.1 r.2.2).map fun x => (r.1 ++ x.1, x.2)
  | 0, s, h, r, m, hr => by
    cases hr
    rw [Nat.zero_add]
    cases runFor step answer m s h <;> simp
  | k + 1, s, h, r, m, hr => by
    rw [Nat.add_right_comm, run_succ]
    rw [run_succ] at hr
    cases hs : step s with
    | tau s' =>
      rw [hs] at hr
      exact run_add k m hr
    | emit x s' =>
      rw [hs] at hr
      obtain ⟨r', hr', rfl⟩ := Option.map_eq_some_iff.mp hr
      simp only [run_add k m hr', Option.map_map, Function.comp_def, List.cons_append]
    | done s' =>
      rw [hs] at hr
      obtain ⟨r', hr', rfl⟩ := Option.map_eq_some_iff.mp hr
      simp only [run_add k m hr', Option.map_map, Function.comp_def, List.cons_append]
    | ask q f =>
      rw [hs] at hr
      simp only at hr ⊢
      cases ha : answer h q with
      | none => rw [ha] at hr; cases hr
      | some a =>
        rw [ha] at hr
        obtain ⟨r', hr', rfl⟩ := Option.map_eq_some_iff.mp hr
        simp only [run_add k m hr', Option.map_map, Function.comp_def, List.cons_append]

theorem run_emit {σ : Type} {step : σ → Progenitor.Stream.Step Q R X σ} (answer : H → Q → Option (R × H)) {s s' : σ} {x : X}
    (hs : step s = .emit x s') (h : H) : runFor step answer 1 s h = some ([.emitted x], s', h) := by
  rw [run_succ, hs]; rfl

theorem run_ask {σ : Type} {step : σ → Progenitor.Stream.Step Q R X σ} {answer : H → Q → Option (R × H)} {s : σ} {q : Q} {f : R → σ}
    (hs : step s = .ask q f) {h h' : H} {r : R} (ha : answer h q = some (r, h')) :
    runFor step answer 1 s h = some ([.asked q r], f r, h') := by
  rw [run_succ, hs]; simp only [ha]; rfl

theorem run_taus {σ : Type} {step : σ → Progenitor.Stream.Step Q R X σ} {answer : H → Q → Option (R × H)} {s s' : σ} (ht : Taus step s s')
    (h : H) : ∃ k, runFor step answer k s h = some ([], s', h) := by
  induction ht with
  | refl s => exact ⟨0, rfl⟩
  | next a b c hs _ ih =>
    obtain ⟨k, hk⟩ := ih
    refine ⟨k + 1, ?_⟩
    unfold runFor
    rw [hs]
    exact hk

theorem acts_answers (a b : List (Act Q R X)) : answers (a ++ b) = answers a ++ answers b := by simp [answers]

theorem acts_yields (a b : List (Act Q R X)) : yields (a ++ b) = yields a ++ yields b := by simp [yields]

variable {σ : Type} {step : σ → Progenitor.Stream.Step Q (Answer E I) (Except E I) σ} {init : σ} {first : Q} {later : Str → Q} {n : Nat}
  {answer : H → Q → Option (Answer E I × H)} {h0 : H}

/-- The calls of a list command follow the tokens. -/
theorem run_followed (hst : PageStream B E I Q σ step init first later) :
    ∀ (k : Nat) {tr : List (Act Q (Answer E I) (ListReport E I))} {st : ListState E (Nat × σ)} {h : H}
      {r : List (Act Q (Answer E I) (ListReport E I)) × ListState E (Nat × σ) × H},
      Trace (cliStep true step) (listInit n init) tr st → Followed answer first later h0 (answers tr) h →
      runFor (cliStep true step) answer k st h = some r → Followed answer first later h0 (answers (tr ++ r.1)) r.2.2
  | 0, tr, st, h, r, ht, hf, hr => by
    cases hr
    simpa using hf
  | k + 1, tr, st, h, r, ht, hf, hr => by
    unfold runFor at hr
    split at hr
    · rename_i s' hs
      exact run_followed hst k (.tau _ _ _ ht hs) hf hr
    · rename_i x s' hs
      obtain ⟨r', hr', rfl⟩ := Option.map_eq_some_iff.mp hr
      have := run_followed hst k (.emit _ _ _ _ ht hs) (by simpa [answers] using hf) hr'
      simpa using this
    · rename_i s' hs
      obtain ⟨r', hr', rfl⟩ := Option.map_eq_some_iff.mp hr
      have := run_followed hst k (.done _ _ _ ht hs) (by simpa [answers] using hf) hr'
      simpa using this
    · rename_i q f hs
      split at hr
      · cases hr
      · rename_i a h' ha
        obtain ⟨r', hr', rfl⟩ := Option.map_eq_some_iff.mp hr
        have ht' := Trace.ask _ _ _ _ a ht hs
        have hq := (C38_calls hst ht' tr [] q a rfl).1
        have := run_followed hst k ht' (by
          rw [acts_answers]
          exact .next _ _ _ _ _ hf hq ha) hr'
        simpa using this

theorem nextCall_none {Q' : Type} (first' : Q') (later' : Str → Q') {rs : List (Answer E I)} (h : nextCall first later rs = none) :
    nextCall first' later' rs = none := by
  unfold nextCall at h ⊢
  split at h
  · cases h
  · rw [Option.map_eq_none_iff.mp h]; rfl
  · rfl

theorem followed_congr {Q' : Type} {answer' : H → Q' → Option (Answer E I × H)} {first' : Q'} {later' : Str → Q'}
    (hf : ∀ h, answer h first = answer' h first') (hl : ∀ h t, answer h (later t) = answer' h (later' t)) {rs : List (Answer E I)} {h1 : H}
    (h : Followed answer first later h0 rs h1) : Followed answer' first' later' h0 rs h1 := by
  induction h with
  | none => exact .none
  | next rs h1 h2 q r _ hq ha ih =>
    have key : ∃ q', nextCall first' later' rs = some q' ∧ answer h1 q = answer' h1 q' := by
      unfold nextCall at hq ⊢
      split at hq
      · rename_i he
        cases hq
        exact ⟨first', rfl, hf h1⟩
      · rename_i page he
        obtain ⟨t, ht, rfl⟩ := Option.map_eq_some_iff.mp hq
        exact ⟨later' t, by rw [ht]; rfl, hl h1 t⟩
      · cases hq
    obtain ⟨q', h3, h4⟩ := key
    exact .next _ _ _ _ _ ih h3 (by rw [← h4, ha])

theorem followed_prefix {a b : List (Answer E I)} {r : Answer E I} {h1 : H} (h : Followed answer first later h0 (a ++ r :: b) h1) :
    ∃ ha h2 q, Followed answer first later h0 a ha ∧ nextCall first later a = some q ∧ answer ha q = some (r, h2) := by
  generalize hx : a ++ r :: b = x at h
  induction h generalizing b with
  | none => simp at hx
  | next rs h1 h2 q r' hf hq ha ih =>
    rcases List.eq_nil_or_concat b with rfl | ⟨b', z, rfl⟩
    · have := List.append_inj' hx rfl
      obtain ⟨rfl, hr⟩ := this
      cases hr
      exact ⟨h1, h2, q, hf, hq, ha⟩
    · rw [List.concat_eq_append, ← List.cons_append, ← List.append_assoc] at hx
      exact ih (List.append_inj' hx rfl).1

theorem followed_unique {rs : List (Answer E I)} {h1 h2 : H} (h : Followed answer first later h0 rs h1)
    (h' : Followed answer first later h0 rs h2) : h1 = h2 := by
  induction h generalizing h2 with
  | none =>
    generalize hx : ([] : List (Answer E I)) = x at h'
    cases h' with
    | none => rfl
    | next => simp at hx
  | next rs h1 h3 q r hf hq ha ih =>
    generalize hx : rs ++ [r] = x at h'
    cases h' with
    | none => simp at hx
    | next rs' h1' h3' q' r' hf' hq' ha' =>
      obtain ⟨rfl, hr⟩ := List.append_inj' hx rfl
      cases hr
      rw [hq] at hq'
      cases hq'
      rw [ih hf', ha'] at ha
      exact (Prod.mk.inj (Option.some.inj ha)).2.symm

/-- C81: a list command ends if following the tokens ends, or provides as many elements as wanted: after finitely many steps it has
returned. -/
theorem C81_ends (hst : PageStream B E I Q σ step init first later) {rs : List (Answer E I)} {h1 : H}
    (hf : Followed answer first later h0 rs h1) (hlast : nextCall first later rs = none ∨ n ≤ (elements rs).length) :
    ∃ k r e, runFor (cliStep true step) answer k (listInit n init) h0 = some r ∧ listResult r.2.1 = some e := by
  have key : ∀ (fuel k : Nat) (r : List (Act Q (Answer E I) (ListReport E I)) × ListState E (Nat × σ) × H) (post : List (Answer E I)),
      runFor (cliStep true step) answer k (listInit n init) h0 = some r → rs = answers r.1 ++ post →
      post.length + (n + 3 - (yields r.1).length) ≤ fuel →
      ∃ k r e, runFor (cliStep true step) answer k (listInit n init) h0 = some r ∧ listResult r.2.1 = some e := by
    intro fuel
    induction fuel with
    | zero =>
      intro k r post hr hp hm
      have ht : Trace (cliStep true step) (listInit n init) r.1 r.2.1 := by simpa using run_trace k .start hr
      have hl := C38_list hst ht
      cases hres : listResult r.2.1 with
      | some e => exact ⟨k, r, e, hr, hres⟩
      | none =>
        rw [hres] at hl
        rcases hl with hl | ⟨is, rest, hl, hl2⟩
        · rw [hl] at hm
          simp at hm
        · have : is.length ≤ n := by
            have := congrArg List.length hl2
            simp at this
            omega
          rw [hl] at hm
          simp [listReports] at hm
          omega
    | succ fuel ih =>
      intro k r post hr hp hm
      have ht : Trace (cliStep true step) (listInit n init) r.1 r.2.1 := by simpa using run_trace k .start hr
      have hfol : Followed answer first later h0 (answers r.1) r.2.2 := by
        simpa using run_followed hst k (h := h0) .start .none hr
      cases hres : listResult r.2.1 with
      | some e => exact ⟨k, r, e, hr, hres⟩
      | none =>
        have hl := C38_list hst ht
        rw [hres] at hl
        have hbound : (yields r.1).length ≤ n + 1 := by
          rcases hl with hl | ⟨is, rest, hl, hl2⟩
          · rw [hl]; simp
          · have := congrArg List.length hl2
            simp at this
            rw [hl]
            simp [listReports]
            omega
        obtain ⟨s1, htaus, hnext⟩ := C38_progress hst ht hres
        obtain ⟨k1, hk1⟩ := run_taus (answer := answer) htaus r.2.2
        have hk := run_add k k1 hr
        rw [hk1] at hk
        simp only [Option.map_some, List.append_nil] at hk
        rcases hnext with ⟨x, s2, hs⟩ | ⟨q, f, hs⟩
        · have h2 := run_add (k + k1) 1 hk
          simp only [run_emit answer hs, Option.map_some] at h2
          refine ih _ _ post h2 ?_ ?_
          · rw [acts_answers]; simpa [answers] using hp
          · rw [acts_yields]
            simp [yields] at hbound hm ⊢
            omega
        · have ht2 : Trace (cliStep true step) (listInit n init) (r.1) s1 := by simpa using run_trace _ .start hk
          have hask : ∀ a : Answer E I, nextCall first later (answers r.1) = some q ∧ (elements (answers r.1)).length < n := by
            intro a
            have := C38_calls hst (Trace.ask _ _ _ _ a ht2 hs) r.1 [] q a rfl
            obtain ⟨h3, is, -, h4, h5⟩ := this
            exact ⟨h3, by rw [h4]; simpa using h5⟩
          cases post with
          | nil =>
            exfalso
            rw [List.append_nil] at hp
            have hne : ∃ a : Answer E I, True := ⟨.ok ⟨[], none⟩, trivial⟩
            obtain ⟨a, -⟩ := hne
            obtain ⟨h3, h4⟩ := hask a
            rw [← hp] at h3 h4
            rcases hlast with hlast | hlast
            · rw [hlast] at h3; cases h3
            · omega
          | cons a post =>
            obtain ⟨h3, -⟩ := hask a
            rw [hp] at hf
            obtain ⟨ha, h5, q', hfa, hqa, haa⟩ := followed_prefix hf
            rw [h3] at hqa
            cases hqa
            rw [followed_unique hfa hfol] at haa
            have h2 := run_add (k + k1) 1 hk
            simp only [run_ask hs haa, Option.map_some] at h2
            refine ih _ _ post h2 ?_ ?_
            · rw [acts_answers]; simpa [answers] using hp
            · rw [acts_yields]
              simp [yields] at hm ⊢
              omega
  exact key _ 0 ([], listInit n init, h0) rs rfl rfl (Nat.le_refl _)

/-! ## Names -/

variable {u : Names.Unicode} {ct : CliTypes} {pg : Option Pagination} {P V : Type}

theorem token_sanitized (h : Lawful u) : Names.sanitize u .snake "page_token".toList = "page_token".toList := by
  rw [sanitize_agree h exUnicode_lawful _ (by unfold Ascii; decide)]; rfl

theorem getBodyParam_apiName {body p} (h : getBodyParam body = .ok (some p)) : p.apiName = "body".toList := by
  match body, h with
  | none, h => cases h
  | some [], h => cases h
  | some [(ct, m)], h =>
    obtain ⟨s, c, typ, _, _, _, rfl⟩ := (C19_declared ct m p).mp h
    rfl
  | some (_ :: _ :: _), h => cases h

theorem processOperation_body {san types path method d pr} (h : processOperation san types path method d = .ok pr) :
    ∀ p ∈ pr.op.params, ∀ c, p.kind = .body c → p.apiName = "body".toList := by
  unfold processOperation at h
  obtain ⟨ps, hps, h⟩ := bind_ok_inv h
  obtain ⟨b, hb, h⟩ := bind_ok_inv h
  obtain ⟨tmp, htmp, h⟩ := bind_ok_inv h
  obtain ⟨sps, hsps, h⟩ := bind_ok_inv h
  obtain ⟨rs, hrs, h⟩ := bind_ok_inv h
  obtain ⟨_, hnc, h⟩ := bind_ok_inv h
  obtain ⟨m, hm, h⟩ := bind_ok_inv h
  cases h
  intro p hp c hc
  have hp : p ∈ ps ++ b.toList := by
    have := sortLoop_perm hsps
    simpa using this.mem_iff.mp hp
  rcases List.mem_append.mp hp with hp | hp
  · exact absurd hc ((convertAll_typed hps p hp).2 c)
  · cases b with
    | none => cases hp
    | some q => simp at hp; subst hp; exact getBodyParam_apiName hb

/-- In paginated operations of documents, the token is what the emitted code takes for it. -/
theorem tokenNamed_of_document (h : Lawful u) {types path method d pr} (hd : PropsDistinct types)
    (hp : processOperation (Names.sanitize u .snake) types path method d = .ok pr) {pd : Pagination} (hpg : pr.paginated = some pd)
    (hn : (pr.op.params.map Param.name).Nodup) :
    TokenNamed pr.op.params ∧ ∀ p ∈ pr.op.params, p.apiName = "page_token".toList → p.kind = .query false := by
  obtain ⟨item, req⟩ := pd
  obtain ⟨-, ⟨t, ht, hapi, hk⟩, -⟩ := (C37_paginated hd hp item req).mp hpg
  have htn : t.name = "page_token".toList := by
    rcases processOperation_names hp t ht with ⟨h1, -⟩ | ⟨-, c, hc⟩
    · rw [h1, hapi, token_sanitized h]
    · rw [hc] at hk; cases hk
  have fwd : ∀ p ∈ pr.op.params, p.apiName = "page_token".toList → p.name = "page_token".toList := by
    intro p hpm ha
    rcases processOperation_names hp p hpm with ⟨h1, -⟩ | ⟨-, c, hc⟩
    · rw [h1, ha, token_sanitized h]
    · have := processOperation_body hp p hpm c hc
      rw [ha] at this
      exact absurd this (by decide)
  refine ⟨fun p hpm => ⟨fwd p hpm, fun hx => ?_⟩, fun p hpm ha => ?_⟩
  · rw [name_inj hn hpm ht (hx.trans htn.symm), hapi]
  · rw [name_inj hn hpm ht ((fwd p hpm ha).trans htn.symm), hk]

/-! ## Commands -/

theorem reportable_of {e : Resp.Kind} (h : (∃ t, e = .type t) ∨ e = .none) : reportable e = true := by
  rcases h with ⟨t, rfl⟩ | rfl <;> rfl

/-- The program for an accepted command line, before its first step. -/
theorem list_running (h : Lawful u) {types path method d pr} (hd : PropsDistinct types)
    (hp : processOperation (Names.sanitize u .snake) types path method d = .ok pr) {pd : Pagination} (hpg : pr.paginated = some pd)
    {args : Args} {s e : Resp.Kind} (hm : cliMethod u ct pr.paginated pr.op = .ok (args, s, e)) (hn : Named u pr.op.params)
    {set : Str → Arg → B → B} {tt : TypeTable B} (hst : structOk tt pr.op.params true = true)
    (hbs : builderStreamOk types pr.op.params = true) (hcc : cliCompiles ct tt pr.op.params args = true)
    (hlaw : ∀ p ∈ pr.op.params, ∀ tb, HasBuilder tt p tb → ∀ a, tb.finish (tb.ofValue a) = .ok a)
    (hlim : ∀ p ∈ pr.op.params, p.apiName = "limit".toList → ∀ t, p.typ = .type t → ct.nonZeroU32 t ≠ none)
    {ps : Parsers} {ws : List Str} {line : Line} (hmatch : matchesOf ps args (Cli.bodyType pr.op.params) ws = .ok line)
    (hj : line.json ≠ some none) {vs : List Value} (hv : Forall₂ (LineArg u tt set pr.paginated args line) pr.op.params vs) (max : Nat) :
    ∃ n st, LimitOf ct pr.op.params max line n ∧
      (∀ (cfg : Config) (hooks : Hooks) (w : World) (decode : TypeId → Bytes → Except P V) (c : Code) (hist : List Event),
        send cfg hooks w decode tt c hist st = call cfg hooks w decode pr.op.params c hist vs ∧
        ∀ t, send cfg hooks w decode tt c hist (withToken t (nextTemplate st)) =
          call cfg hooks w decode pr.op.params c hist (List.zipWith (laterValue t) pr.op.params vs)) ∧
      ∀ (cfg : Config) (hooks : Hooks) (w : World) (decode : TypeId → Bytes → Except P V) (pageOf : V → Page I) (c : Code) (k : Nat)
        (hist : List Event), runList ps noOverride cfg hooks w decode pageOf max ct tt types set pr.op.params c (args, s, e) k hist ws =
          .ok (reportList cfg hooks w decode pageOf tt c (reportable e) n k hist st) := by
  obtain ⟨args', ha, hm'⟩ := bind_ok_inv hm
  obtain ⟨ks, hks, hm'⟩ := bind_ok_inv hm'
  have e1 : args' = args := (Prod.mk.inj (Res.ok.inj hm')).1
  subst e1
  obtain ⟨l, -, -, hlf, hcomp⟩ := (C79_words_iff ha ps _ ws line).mp hmatch
  have hacc := (accepts_iff (lineFor_none hlf)).mpr hcomp
  have hl : ∃ calls, lineCalls set args' line = some calls := by
    unfold lineCalls
    rcases hx : line.json with _ | _ | a
    · cases args'.body <;> exact ⟨_, rfl⟩
    · exact absurd hx hj
    · cases args'.body <;> exact ⟨_, rfl⟩
  obtain ⟨calls, hl⟩ := hl
  obtain ⟨st, hset⟩ := (calls_compile tt pr.op.params calls (structOk_nodup hst)).mpr (calls_ok hn ha hl hcc)
  have hbld : builderStream tt types pr.op.params calls = some st := by
    unfold builderStream
    rw [hst, hbs]
    exact hset
  have hout := C40_outcomes hn ha hacc hl hlaw (fun _ p hpm ht => by
    obtain ⟨_, t, ht'⟩ := (builderStream_inv hbld).2.2.2.2 p hpm
    rw [ht] at ht'
    cases ht') hv
  obtain ⟨htok, -⟩ := tokenNamed_of_document h hd hp hpg hn.nodup
  obtain ⟨p, hpm, t, h1, h2, h3, h4⟩ := C38_limit h hd hp hpg ha max line
  have hlimit : ∃ n, listLimit max ct args' line = some n ∧ LimitOf ct pr.op.params max line n := by
    rw [h4]
    unfold LimitOf
    cases hg : line.get "limit".toList with
    | none => exact ⟨max, rfl, rfl⟩
    | some a =>
      cases hz : ct.nonZeroU32 t with
      | none => exact absurd hz (hlim p hpm h1 t h3)
      | some f => exact ⟨f a, rfl, p, hpm, t, f, h1, h3, hz, rfl⟩
  obtain ⟨n, hn1, hn2⟩ := hlimit
  refine ⟨n, st, hn2, fun cfg hooks w decode c hist => ?_, fun cfg hooks w decode pageOf c k hist => ?_⟩
  · exact C33_builder_args cfg hooks w decode tt types pr.op.params c hist calls st hbld htok vs hout
  · unfold runList
    simp only [hmatch, Clap.bind]
    unfold executeList
    simp only [hcc, hst, hbs, Bool.and_self, if_true, hl, hset, noOverride, hn1]

theorem answerOf_congr {Q' : Type} (pageOf : V → Page I) {f : List Event → Q → Result P V × List Event}
    {g : List Event → Q' → Result P V × List Event} {h : List Event} {q : Q} {q' : Q'} (he : f h q = g h q') :
    answerOf pageOf f h q = answerOf pageOf g h q' := by
  unfold answerOf
  rw [he]

theorem listSays_of {tr : List (Act Q (Answer E I) (ListReport E I))} {st : ListState E (Nat × σ)}
    (hst : PageStream B E I Q σ step init first later) (h : Trace (cliStep true step) (listInit n init) tr st)
    {Q' : Type} (first' : Q') (later' : Str → Q') : ListSays n first' later' (answers tr) (yields tr) (endOf st) := by
  have hl := C38_list hst h
  cases st with
  | init x => exact hl
  | loop x => exact hl
  | panicked =>
    obtain ⟨_, _, _, _, h3⟩ := list_inv h
    exact h3.elim
  | over r =>
    cases r with
    | none =>
      obtain ⟨is, h1, h2, h3⟩ := hl
      exact ⟨is, h1, h2, h3.imp id (nextCall_none first' later')⟩
    | some e => exact hl

/-- C81, guarded: a list command given as text.  It calls the operation with the arguments of the command line, then for the token of
each page, with the token, the same limit and no other query argument; it reports the first elements of the pages received, at most
as many as `--limit` says; and returns after all of them, or after the first error. -/
theorem C81_list_partial (h : Lawful u) {types path method d pr} (hd : PropsDistinct types)
    (hp : processOperation (Names.sanitize u .snake) types path method d = .ok pr) {pd : Pagination} (hpg : pr.paginated = some pd)
    {args : Args} {s e : Resp.Kind} (hm : cliMethod u ct pr.paginated pr.op = .ok (args, s, e)) (hn : Named u pr.op.params)
    {set : Str → Arg → B → B} {tt : TypeTable B} (hst : structOk tt pr.op.params true = true)
    (hbs : builderStreamOk types pr.op.params = true) (hcc : cliCompiles ct tt pr.op.params args = true)
    (hlaw : ∀ p ∈ pr.op.params, ∀ tb, HasBuilder tt p tb → ∀ a, tb.finish (tb.ofValue a) = .ok a)
    (hek : (∃ t, e = .type t) ∨ e = .none)
    (hlim : ∀ p ∈ pr.op.params, p.apiName = "limit".toList → ∀ t, p.typ = .type t → ct.nonZeroU32 t ≠ none)
    {ps : Parsers} {ws : List Str} {line : Line} (hmatch : matchesOf ps args (Cli.bodyType pr.op.params) ws = .ok line)
    (hj : line.json ≠ some none) {vs : List Value} (hv : Forall₂ (LineArg u tt set pr.paginated args line) pr.op.params vs) (max : Nat) :
    ∃ n, LimitOf ct pr.op.params max line n ∧
      ∀ (cfg : Config) (hooks : Hooks) (w : World) (decode : TypeId → Bytes → Except P V) (pageOf : V → Page I) (c : Code)
        (hist : List Event),
        (∀ k, ∃ res, runList ps noOverride cfg hooks w decode pageOf max ct tt types set pr.op.params c (args, s, e) k hist ws = .ok res ∧
          ∀ r, res = some r →
            Followed (answerOf pageOf fun h q => call cfg hooks w decode pr.op.params c h q) vs
              (fun t => List.zipWith (laterValue t) pr.op.params vs) hist (answers r.1) r.2.2 ∧
            ListSays n vs (fun t => List.zipWith (laterValue t) pr.op.params vs) (answers r.1) (yields r.1) r.2.1) ∧
        ∀ rs hist', Followed (answerOf pageOf fun h q => call cfg hooks w decode pr.op.params c h q) vs
            (fun t => List.zipWith (laterValue t) pr.op.params vs) hist rs hist' →
          nextCall vs (fun t => List.zipWith (laterValue t) pr.op.params vs) rs = none ∨ n ≤ (elements rs).length →
          ∃ k r o, runList ps noOverride cfg hooks w decode pageOf max ct tt types set pr.op.params c (args, s, e) k hist ws =
            .ok (some r) ∧ r.2.1 = .returned o := by
  obtain ⟨n, st, h1, h2, h3⟩ := list_running (P := P) (V := V) (I := I) h hd hp hpg hm hn hst hbs hcc hlaw hlim hmatch hj hv max
  rw [reportable_of hek] at h3
  refine ⟨n, h1, fun cfg hooks w decode pageOf c hist => ⟨fun k => ⟨_, h3 cfg hooks w decode pageOf c k hist, fun r hr => ?_⟩, ?_⟩⟩
  · unfold reportList at hr
    obtain ⟨r', hr', rfl⟩ := Option.map_eq_some_iff.mp hr
    have ht := run_trace k .start hr'
    have hf := run_followed (B := B) (.builder st) k .start .none hr'
    rw [List.nil_append] at ht hf
    refine ⟨followed_congr (fun h => ?_) (fun h t => ?_) hf, listSays_of (B := B) (.builder st) ht _ _⟩
    · exact answerOf_congr pageOf (h2 cfg hooks w decode c h).1
    · exact answerOf_congr pageOf ((h2 cfg hooks w decode c h).2 t)
  · intro rs hist' hf hlast
    have hf' := followed_congr (answer' := answerOf pageOf fun h q => send cfg hooks w decode tt c h q) (first' := st)
      (later' := fun t => withToken t (nextTemplate st)) (fun h => answerOf_congr pageOf (h2 cfg hooks w decode c h).1.symm)
      (fun h t => answerOf_congr pageOf ((h2 cfg hooks w decode c h).2 t).symm) hf
    obtain ⟨k, r, o, h4, h5⟩ := C81_ends (B := B) (.builder st) hf' (hlast.imp (nextCall_none _ _) id)
    refine ⟨k, (r.1, endOf r.2.1, r.2.2), o, ?_, ?_⟩
    · rw [h3]
      unfold reportList
      rw [h4]
      rfl
    · show endOf r.2.1 = _
      cases hx : r.2.1 <;> rw [hx] at h5 <;> cases h5
      rfl

/-- C81: words that are not accepted do not start a list command. -/
theorem C81_rejected (ps : Parsers) (over : Override B) (cfg : Config) (hooks : Hooks) (w : World)
    (decode : TypeId → Bytes → Except P V) (pageOf : V → Page I) (max : Nat) (tt : TypeTable B) (types : Types) (set : Str → Arg → B → B)
    (params : List Param) (c : Code) (m : Args × Resp.Kind × Resp.Kind) (k : Nat) (hist : List Event) (ws : List Str)
    (hno : ∀ line, matchesOf ps m.1 (Cli.bodyType params) ws ≠ .ok line) :
    ∀ r, runList ps over cfg hooks w decode pageOf max ct tt types set params c m k hist ws ≠ .ok r := by
  unfold runList
  cases hm : matchesOf ps m.1 (Cli.bodyType params) ws with
  | ok line => exact absurd hm (hno line)
  | rejected => simp [Clap.bind]
  | panicked => simp [Clap.bind]

/-- C81: an override function sees the request before anything is reported or sent.  If it fails, nothing is; otherwise the list is that of
the request it leaves. -/
theorem C81_override {types : Types} {params : List Param} {args : Args} {pg : Option Pagination} (ha : cliArgs u ct pg params = .ok args)
    (hn : Named u params) {set : Str → Arg → B → B} {tt : TypeTable B} (hst : structOk tt params true = true)
    (hbs : builderStreamOk types params = true) (hcc : cliCompiles ct tt params args = true)
    {ps : Parsers} {ws : List Str} {line : Line} (hmatch : matchesOf ps args (Cli.bodyType params) ws = .ok line)
    (hj : line.json ≠ some none) (max : Nat) (ks : Resp.Kind × Resp.Kind) :
    ∃ calls st, lineCalls set args line = some calls ∧ setAll tt (new tt params) calls = some st ∧
      ∀ (over : Override B) (cfg : Config) (hooks : Hooks) (w : World) (decode : TypeId → Bytes → Except P V) (pageOf : V → Page I) (c : Code)
        (k : Nat) (hist : List Event),
        (over line st = none →
          runList ps over cfg hooks w decode pageOf max ct tt types set params c (args, ks) k hist ws = .ok (some ([], .refused, hist))) ∧
        ∀ st' n, over line st = some st' → listLimit max ct args line = some n →
          runList ps over cfg hooks w decode pageOf max ct tt types set params c (args, ks) k hist ws =
            .ok (reportList cfg hooks w decode pageOf tt c (reportable ks.2) n k hist st') := by
  have hl : ∃ calls, lineCalls set args line = some calls := by
    unfold lineCalls
    rcases hx : line.json with _ | _ | a
    · cases args.body <;> exact ⟨_, rfl⟩
    · exact absurd hx hj
    · cases args.body <;> exact ⟨_, rfl⟩
  obtain ⟨calls, hl⟩ := hl
  obtain ⟨st, hset⟩ := (calls_compile tt params calls (structOk_nodup hst)).mpr (calls_ok hn ha hl hcc)
  refine ⟨calls, st, hl, hset, fun over cfg hooks w decode pageOf c k hist => ⟨fun ho => ?_, fun st' n ho hlim => ?_⟩⟩
  · unfold runList
    simp only [hmatch, Clap.bind]
    unfold executeList
    simp only [hcc, hst, hbs, Bool.and_self, if_true, hl, hset, ho]
  · unfold runList
    simp only [hmatch, Clap.bind]
    unfold executeList
    simp only [hcc, hst, hbs, Bool.and_self, if_true, hl, hset, ho, hlim]

/-- C81 fails if the limit is not a `NonZeroU32`: with `--limit`, the command reports the start of a list and panics; nothing is sent. -/
theorem C81_limit_fails (h : Lawful u) {types path method d pr} (hd : PropsDistinct types)
    (hp : processOperation (Names.sanitize u .snake) types path method d = .ok pr) {pd : Pagination} (hpg : pr.paginated = some pd)
    {args : Args} (ha : cliArgs u ct pr.paginated pr.op.params = .ok args) (hn : Named u pr.op.params)
    {set : Str → Arg → B → B} {tt : TypeTable B} (hst : structOk tt pr.op.params true = true)
    (hbs : builderStreamOk types pr.op.params = true) (hcc : cliCompiles ct tt pr.op.params args = true)
    (hlim : ∀ p ∈ pr.op.params, p.apiName = "limit".toList → ∀ t, p.typ = .type t → ct.nonZeroU32 t = none)
    {ps : Parsers} {ws : List Str} {line : Line} (hmatch : matchesOf ps args (Cli.bodyType pr.op.params) ws = .ok line)
    (hj : line.json ≠ some none) (hg : ∃ a, line.get "limit".toList = some a) (max : Nat) (ks : Resp.Kind × Resp.Kind)
    (cfg : Config) (hooks : Hooks) (w : World) (decode : TypeId → Bytes → Except P V) (pageOf : V → Page I) (c : Code) (k : Nat)
    (hist : List Event) :
    runList ps noOverride cfg hooks w decode pageOf max ct tt types set pr.op.params c (args, ks) k hist ws =
      .ok (some ([.emitted .start], .panicked, hist)) := by
  have hno := (C38_limit_fails h hd hp hpg ha max line hlim).mpr hg
  obtain ⟨calls, st, hl, hset, -⟩ := C81_override (P := P) (V := V) (I := I) ha hn (set := set) hst hbs hcc hmatch hj max ks
  unfold runList
  simp only [hmatch, Clap.bind]
  unfold executeList
  simp only [hcc, hst, hbs, Bool.and_self, if_true, hl, hset, noOverride, hno]

/-- C81 fails for a body that cannot be read: the command panics; nothing is reported or sent. -/
theorem C81_body_fails {types : Types} {params : List Param} {args : Args} {set : Str → Arg → B → B} {tt : TypeTable B}
    (hst : structOk tt params true = true) (hbs : builderStreamOk types params = true) (hcc : cliCompiles ct tt params args = true)
    {ps : Parsers} {ws : List Str} {line : Line} (hmatch : matchesOf ps args (Cli.bodyType params) ws = .ok line)
    (hb : args.body ≠ .none) (hj : line.json = some none) (over : Override B) (max : Nat) (ks : Resp.Kind × Resp.Kind)
    (cfg : Config) (hooks : Hooks) (w : World) (decode : TypeId → Bytes → Except P V) (pageOf : V → Page I) (c : Code) (k : Nat)
    (hist : List Event) :
    runList ps over cfg hooks w decode pageOf max ct tt types set params c (args, ks) k hist ws = .ok (some ([], .panicked, hist)) := by
  have hl : lineCalls set args line = none := by
    unfold lineCalls
    rw [hj]
    cases hx : args.body <;> first | rfl | exact absurd hx hb
  unfold runList
  simp only [hmatch, Clap.bind]
  unfold executeList
  simp only [hcc, hst, hbs, Bool.and_self, if_true, hl]

/-- C81 fails if the builder has no stream that compiles, whatever is set: then there is no command. -/
theorem C81_no_stream_fails {types : Types} {params : List Param} {args : Args} {set : Str → Arg → B → B} {tt : TypeTable B}
    (hno : ∀ calls, builderStream tt types params calls = none)
    {ps : Parsers} {ws : List Str} {line : Line} (hmatch : matchesOf ps args (Cli.bodyType params) ws = .ok line)
    (over : Override B) (max : Nat) (ks : Resp.Kind × Resp.Kind) (cfg : Config) (hooks : Hooks) (w : World)
    (decode : TypeId → Bytes → Except P V) (pageOf : V → Page I) (c : Code) (k : Nat) (hist : List Event) :
    runList ps over cfg hooks w decode pageOf max ct tt types set params c (args, ks) k hist ws = .ok (some ([], .noCompile, hist)) := by
  have h : (structOk tt params true && builderStreamOk types params) = false := by
    have := hno []
    unfold builderStream at this
    cases hx : (structOk tt params true && builderStreamOk types params) with
    | false => rfl
    | true =>
      rw [hx, if_pos rfl] at this
      cases this
  unfold runList
  simp only [hmatch, Clap.bind]
  unfold executeList
  rw [h, Bool.and_false, if_neg (by decide)]

/-! ## Errors that are not reported -/

/-- All but calls of `list_end_error`. -/
def quiet : Act Q R (ListReport E I) → Bool
  | .emitted (.endError _) => false
  | _ => true

def crashed : ListState E σ → ListState E σ
  | .over (some _) => .panicked
  | s => s

/-- Without the branch for errors: where an error is reported with it, there is a panic. -/
theorem run_raw {σ R : Type} {step : σ → Progenitor.Stream.Step Q R (Except E I) σ} {answer : H → Q → Option (R × H)} (k : Nat) (s : ListState E σ) (h : H) :
    runFor (listStep false step) answer k (crashed s) h =
      (runFor (listStep true step) answer k s h).map fun r => (r.1.filter quiet, crashed r.2.1, r.2.2) := by
  induction k generalizing s h with
  | zero => rfl
  | succ k ih =>
    cases s with
    | init x =>
      have := ih (.loop x) h
      simp only [crashed] at this
      simp only [runFor, crashed, listStep, this]
      simp [Option.map_map, Function.comp_def, quiet, List.filter_cons]
    | over o =>
      have := ih (.over o) h
      cases o <;> simp only [crashed] at this <;> simp only [runFor, crashed, listStep, this] <;>
        simp [Option.map_map, Function.comp_def, quiet, List.filter_cons]
    | panicked =>
      have := ih .panicked h
      simp only [crashed] at this
      simp only [runFor, crashed, listStep, this]
      simp [Option.map_map, Function.comp_def, quiet, List.filter_cons]
    | loop x =>
      simp only [runFor, crashed, listStep]
      cases hx : step x with
      | tau s' => exact ih (.loop s') h
      | done s' =>
        have := ih (.over none) h
        simp only [crashed] at this
        simp only [this]
        simp [Option.map_map, Function.comp_def, quiet, List.filter_cons]
      | ask q f =>
        simp only
        cases ha : answer h q with
        | none => rfl
        | some a =>
          have := ih (.loop (f a.1)) a.2
          simp only [crashed] at this
          simp only [this]
          simp [Option.map_map, Function.comp_def, quiet, List.filter_cons]
      | emit y s' =>
        cases y with
        | ok i =>
          have := ih (.loop s') h
          simp only [crashed] at this
          simp only [this]
          simp [Option.map_map, Function.comp_def, quiet, List.filter_cons]
        | error e =>
          have := ih (.over (some e)) h
          simp only [crashed] at this
          simp only [this, if_true, Bool.false_eq_true, if_false]
          simp [Option.map_map, Function.comp_def, quiet]

def crashEnd : ListEnd E → ListEnd E
  | .returned (some _) => .panicked
  | x => x

theorem reportList_raw (cfg : Config) (hooks : Hooks) (w : World) (decode : TypeId → Bytes → Except P V) (pageOf : V → Page I)
    (tt : TypeTable B) (c : Code) (n k : Nat) (hist : List Event) (s : State B) :
    reportList cfg hooks w decode pageOf tt c false n k hist s =
      (reportList cfg hooks w decode pageOf tt c true n k hist s).map fun r => (r.1.filter quiet, crashEnd r.2.1, r.2.2) := by
  unfold reportList cliStep
  have := run_raw (step := takeStep (bldStep (B := B) (E := Error P (Resp.Inner V)) (I := I)))
    (answer := answerOf pageOf fun h q => send cfg hooks w decode tt c h q) k (listInit n (bldInit s)) hist
  rw [show crashed (listInit n (bldInit s)) = listInit n (bldInit s) from rfl] at this
  rw [this]
  simp only [Option.map_map]
  congr 1
  funext r
  obtain ⟨tr, st, h⟩ := r
  simp only [Function.comp_def, Prod.mk.injEq, true_and, and_true]
  cases st with
  | over o => cases o <;> rfl
  | _ => rfl

theorem yields_quiet (tr : List (Act Q R (ListReport E I))) :
    yields (tr.filter quiet) = (yields tr).filter fun x => match x with | .endError _ => false | _ => true := by
  induction tr with
  | nil => rfl
  | cons a tr ih =>
    cases a with
    | emitted x => cases x <;> simp_all [yields, quiet, List.filter_cons]
    | _ => simp_all [yields, quiet, List.filter_cons]

/-! ## Requests -/

theorem mem_zip_later {t : Str} {params : List Param} {vs : List Value} {p : Param} {v : Value}
    (h : (p, v) ∈ params.zip (List.zipWith (laterValue t) params vs)) : ∃ v', (p, v') ∈ params.zip vs ∧ v = laterValue t p v' := by
  induction params generalizing vs with
  | nil => simp at h
  | cons q ps ih =>
    cases vs with
    | nil => simp at h
    | cons x vs =>
      simp only [List.zipWith_cons_cons, List.zip_cons_cons, List.mem_cons, Prod.mk.injEq] at h ⊢
      rcases h with ⟨rfl, rfl⟩ | h
      · exact ⟨x, .inl ⟨rfl, rfl⟩, rfl⟩
      · obtain ⟨v', h1, h2⟩ := ih h
        exact ⟨v', .inr h1, h2⟩

theorem recoverable_later {keys : Str → List Str} {l : List Seg} {params : List Param} {vs : List Value} (h : Recoverable keys l params vs)
    (ht : ∀ p ∈ params, p.apiName = "page_token".toList → p.kind = .query false)
    (hkey : "page_token".toList ∈ keys "page_token".toList) (t : Str) :
    Recoverable keys l params (List.zipWith (laterValue t) params vs) where
  path := by
    intro p v hpv hk
    obtain ⟨v', hv', rfl⟩ := mem_zip_later hpv
    unfold laterValue
    split
    · rename_i ha
      rw [ht p (List.of_mem_zip hv').1 ha] at hk
      cases hk
    · split
      · rename_i hq
        obtain ⟨-, r, hr⟩ := hq
        rw [hr] at hk
        cases hk
      · exact h.path p v' hv' hk
  query := by
    intro p v hpv k hk
    obtain ⟨v', hv', rfl⟩ := mem_zip_later hpv
    unfold laterValue
    split
    · rename_i ha
      refine ⟨_, _, rfl, .item _ _ (.some _ _ (.scalar _ _ (.str t))), ?_⟩
      simp only [Option.toList_some, List.map_cons, List.map_nil, List.mem_singleton]
      rintro e rfl
      rw [ha]; exact hkey
    · split
      · exact ⟨_, _, rfl, .item _ _ .none, by simp⟩
      · exact h.query p v' hv' k hk
  apart := h.apart

theorem nextCall_mem {first q : Q} {later : Str → Q} {rs : List (Answer E I)} (h : nextCall first later rs = some q) :
    q = first ∨ ∃ t, q = later t := by
  unfold nextCall at h
  split at h
  · exact .inl (Option.some.inj h).symm
  · obtain ⟨t, -, rfl⟩ := Option.map_eq_some_iff.mp h
    exact .inr ⟨t, rfl⟩
  · cases h

/-- C81, guarded: while tokens are followed, a server that implements the document reads from each request what is meant: from the
first the arguments given; from every other one the token of the page before, the same limit, no other query argument, and the
arguments given elsewhere.  At most one request is sent for each page. -/
theorem C81_requests_partial (h : Lawful u) {types path method d pr c} (hd : PropsDistinct types)
    (hp : processOperation (Names.sanitize u .snake) types path method d = .ok pr) {pd : Pagination} (hpg : pr.paginated = some pd)
    (hnd : (pr.op.params.map Param.name).Nodup) (hc : methodSigBody pr.op = .ok c)
    {segs : List Seg} (hpath : path = segsText segs) (hl : SegsOk segs) (hne : segs ≠ [])
    (hdp : NoDuplicates d.pathLevel) (hdo : NoDuplicates d.opLevel) (hun : NamesUnambiguous (d.pathLevel ++ d.opLevel))
    (hh : HeadersApart d.pathLevel d.opLevel)
    {cfg : Config} {auth : Str} {base : List Str} (hbase : BaseUrl cfg auth base)
    (hooks : Hooks) (w : World) (decode : TypeId → Bytes → Except P V) (pageOf : V → Page I) (hk : Keeps hooks w)
    {keys : Str → List Str} (hkey : "page_token".toList ∈ keys "page_token".toList)
    {vs : List Value} (hrec : Recoverable keys segs pr.op.params vs) {hist hist' : List Event} {rs : List (Answer (Error P (Resp.Inner V)) I)}
    (hf : Followed (answerOf pageOf fun h q => call cfg hooks w decode pr.op.params c h q) vs
      (fun t => List.zipWith (laterValue t) pr.op.params vs) hist rs hist') :
    ∃ evss : List (List Event), hist' = hist ++ evss.flatten ∧ evss.length = rs.length ∧
      ∀ i evs, evss[i]? = some evs → sends evs ≤ 1 ∧ ∃ vs',
        nextCall vs (fun t => List.zipWith (laterValue t) pr.op.params vs) (rs.take i) = some vs' ∧
        ∀ r, .send r ∈ evs → Received keys segs method d.pathLevel d.opLevel (pr.op.params.zip vs') auth base r := by
  obtain ⟨-, htok⟩ := tokenNamed_of_document h hd hp hpg hnd
  induction hf with
  | none => exact ⟨[], by simp, rfl, fun i evs hi => by simp at hi⟩
  | next rs h1 h2 q r hf hq ha ih =>
    obtain ⟨evss, he, hlen, hall⟩ := ih
    obtain ⟨evs, hev, hs⟩ := C21_at_most_one cfg hooks w decode pr.op.params c h1 q
    have h2eq : h2 = h1 ++ evs := by
      rw [← hev]
      unfold answerOf at ha
      simp only at ha
      split at ha
      · rename_i o h' hx
        obtain ⟨a, -, hy⟩ := Option.map_eq_some_iff.mp ha
        rw [hx, (Prod.mk.inj hy).2.symm]
      · cases ha
    refine ⟨evss ++ [evs], by rw [h2eq, he]; simp, by simp [hlen], fun i evs' hi => ?_⟩
    have hrecq : Recoverable keys segs pr.op.params q := by
      rcases nextCall_mem hq with rfl | ⟨t, rfl⟩
      · exact hrec
      · exact recoverable_later hrec htok hkey t
    rcases Nat.lt_trichotomy i evss.length with hlt | heq | hgt
    · rw [List.getElem?_append_left hlt] at hi
      have := hall i evs' hi
      rw [List.take_append_of_le_length (by omega)]
      exact this
    · subst heq
      simp only [List.getElem?_concat_length, Option.some.injEq] at hi
      subst hi
      refine ⟨hs, q, ?_, fun r' hr' => ?_⟩
      · rw [hlen, List.take_append_of_le_length (Nat.le_refl _), List.take_length]
        exact hq
      · exact C70_received_partial hp hpath hl hne hdp hdo hun hh hbase (sent_issues hc hk hev hr') hrecq
    · rw [List.getElem?_eq_none (by simp; omega)] at hi
      cases hi

/-! ## Examples -/

/-- `GET /v1/{id}?limit&page_token`. -/
def walkDoc : DocOperation := { pageDoc with pathLevel := [⟨"id".toList, .path true, true, true, 0⟩] }

def walkOp : OperationMethod where
  operationId := "op".toList
  tags := []
  method := .get
  path := [.const "/v1/".toList, .param "id".toList]
  params := [⟨"id".toList, "id".toList, .type 0, .path⟩, ⟨"limit".toList, "limit".toList, .type 0, .query false⟩,
    ⟨"page_token".toList, "page_token".toList, .type 14, .query false⟩]
  responses := [⟨.code 200, .type 10⟩]
  websocket := false

theorem walkProcessed : processOperation (Names.sanitize exUnicode .snake) pageTypes (segsText wirePath) "get".toList walkDoc =
    .ok ⟨walkOp, some ⟨13, []⟩⟩ := rfl

def walkTypes : CliTypes :=
  ⟨fun _ => none, fun _ => none, fun _ => true, fun _ => true, fun _ => some fun a => a.display.foldl (fun n c => 10 * n + (c.toNat - 48)) 0⟩

def walkArgs : Args where
  flags := [("id".toList, ⟨0, .required, .param "id".toList⟩), ("limit".toList, ⟨0, .optional, .param "limit".toList⟩)]
  body := .none

theorem walkMethod : cliMethod exUnicode walkTypes (some ⟨13, []⟩) walkOp = .ok (walkArgs, .type 10, .none) := by decide +kernel

def walkTable : TypeTable Unit := ⟨fun _ => none, fun _ => []⟩

/-- Two pages. -/
def walkPage : Nat → Page Nat
  | 0 => ⟨[1, 2], some "a".toList⟩
  | _ => ⟨[3], none⟩

/-- The body of an answer is as long as requests were sent before. -/
def walkWorld : World :=
  ⟨fun _ r => .ok r, fun hist _ => .ok ⟨200, [], .ok (List.replicate (sends hist) 0), .ok 0⟩, fun _ _ => .ok ()⟩

def walkRun (ws : List String) : Option (List Nat × Option Bool × Nat) :=
  match methodSigBody walkOp with
  | .ok c =>
    match runList exParsers noOverride exCfg ⟨false, false, false, false⟩ walkWorld (fun _ b => (.ok b.length : Except Unit Nat)) walkPage 1000
      walkTypes walkTable pageTypes (fun _ _ b => b) walkOp.params c (walkArgs, .type 10, .none) 40 [] (ws.map String.toList) with
    | .ok (some r) => some ((yields r.1).map fun
        | .start => 100
        | .item i => i
        | .endSuccess => 200
        | .endError _ => 300, (match r.2.1 with | .returned e => some e.isNone | _ => none), sends r.2.2)
    | _ => none
  | _ => none

/- The command lists all pages; with a limit, only the first is requested. -/
example : walkRun ["--id", "x"] = some ([100, 1, 2, 3, 200], some true, 2) := by decide +kernel
example : walkRun ["--id", "x", "--limit=1"] = some ([100, 1, 200], some true, 1) := by decide +kernel
example : walkRun ["--limit=1"] = none := by decide +kernel

def walkWords : List Str := ["--id".toList, "x".toList, "--limit=2".toList]

def walkGiven : List (Str × Cli.Given) := [("id".toList, .value (txt "x")), ("limit".toList, .value (txt "2"))]

def walkLine : Line := lineOf exParsers (Cli.bodyType walkOp.params) walkGiven

theorem walkMatches : matchesOf exParsers walkArgs (Cli.bodyType walkOp.params) walkWords = .ok walkLine := by
  have h : readWords exParsers walkArgs [] walkWords = .ok walkGiven := by
    refine (readWords_iff _ _ _ _).mpr ⟨[("id".toList, some "x".toList), ("limit".toList, some "2".toList)], ?_, ?_, by decide⟩
    · exact .apart "id".toList "x".toList (by decide) (by decide) (.inr fun s h => absurd (List.cons.inj h).1 (by decide))
        (.attached "limit".toList "2".toList (by decide) .nil)
    · exact .cons ⟨rfl, .typed 0, by decide +kernel, by decide, rfl⟩ (.cons ⟨rfl, .typed 0, by decide +kernel, by decide, rfl⟩ .nil)
  unfold matchesOf
  rw [h]
  simp only [Clap.bind]
  rw [if_pos (by decide +kernel)]
  rfl

def walkValues : List Value := [.plain (txt "x"), .opt (some (txt "2")), .opt none]

theorem walkNamed : Named exUnicode walkOp.params := by
  refine ⟨by decide, by decide +kernel, ?_⟩
  intro p hp ⟨c, hc⟩
  simp only [walkOp, List.mem_cons, List.not_mem_nil, or_false] at hp
  rcases hp with rfl | rfl | rfl <;> cases hc

theorem walkLineArgs : Forall₂ (LineArg exUnicode walkTable (fun _ _ b => b) (some ⟨13, []⟩) walkArgs walkLine) walkOp.params walkValues :=
  .cons (.inl ⟨⟨by simp, by decide⟩, .inr ⟨by simp [Optional], txt "x", by rfl, rfl⟩⟩)
    (.cons (.inl ⟨⟨by simp, by decide⟩, .inl ⟨.inl rfl, by rfl⟩⟩)
    (.cons (.inr (.inr ⟨by simp, by decide, .inl rfl, rfl⟩)) .nil))

/- What `--limit 2` gives, for every server. -/
example :=
  C81_list_partial (P := Unit) (V := Nat) (I := Nat) (set := fun _ _ b => b) (tt := walkTable) exUnicode_lawful pageTypes_distinct
    walkProcessed rfl walkMethod walkNamed (by decide +kernel) (by decide +kernel) (by decide +kernel)
    (by rintro p hp tb ⟨t, ct, h1, h2, h3⟩; cases h3) (.inr rfl) (by intro p _ _ t _ h; cases h) walkMatches (by intro h; cases h) walkLineArgs 1000

example : LimitOf walkTypes walkOp.params 1000 walkLine 2 :=
  ⟨⟨"limit".toList, "limit".toList, .type 0, .query false⟩, by simp [walkOp], 0, _, rfl, rfl, rfl, by decide⟩

theorem walkRecoverable : Recoverable ownKey wirePath walkOp.params walkValues where
  path := by
    intro p v hpv hk t ht pre post hmem
    simp only [wirePath, List.mem_cons, reduceCtorEq, Seg.par.injEq, List.not_mem_nil, or_false, false_or] at hmem
    obtain ⟨_, rfl, rfl⟩ := hmem
    simp only [List.nil_append, List.append_nil]
    simp only [walkOp, walkValues, List.zip_cons_cons, List.zip_nil_right, List.mem_cons, List.not_mem_nil, or_false, Prod.mk.injEq] at hpv
    rcases hpv with ⟨rfl, rfl⟩ | ⟨rfl, rfl⟩ | ⟨rfl, rfl⟩
    · simp only [argText, txt, Option.some.injEq] at ht
      rw [← ht]; decide
    · cases hk
    · cases hk
  query := by
    intro p v hpv k hk
    simp only [walkOp, walkValues, List.zip_cons_cons, List.zip_nil_right, List.mem_cons, List.not_mem_nil, or_false, Prod.mk.injEq] at hpv
    rcases hpv with ⟨rfl, rfl⟩ | ⟨rfl, rfl⟩ | ⟨rfl, rfl⟩
    · cases hk
    · exact ⟨_, _, rfl, .item _ _ (.some _ _ (.scalar _ _ (.str _))), by simp [ownKey]⟩
    · exact ⟨_, _, rfl, .item _ _ .none, by simp⟩
  apart := by
    intro p _ q _ _ _ _ _ hne x hx hx'
    simp only [ownKey, List.mem_singleton] at hx hx'
    exact hne (hx.symm.trans hx')

example {c} (hc : methodSigBody walkOp = .ok c) (hist hist' : List Event) (decode : TypeId → Bytes → Except Unit Nat)
    (rs : List (Answer (Error Unit (Resp.Inner Nat)) Nat))
    (hf : Followed (answerOf walkPage fun h q => call exCfg ⟨true, true, false, true⟩ walkWorld decode walkOp.params c h q) walkValues
      (fun t => List.zipWith (laterValue t) walkOp.params walkValues) hist rs hist') :=
  C81_requests_partial exUnicode_lawful pageTypes_distinct walkProcessed rfl walkNamed.nodup hc rfl wireReady.segs wireReady.nonempty
    (by simp [NoDuplicates, walkDoc]) (by simp [NoDuplicates, walkDoc, pageDoc, SameParam])
    (by simp [NamesUnambiguous, walkDoc, pageDoc]) (by
      intro p hp hk
      simp [Effective, walkDoc, pageDoc] at hp
      rcases hp with (rfl | rfl) | ⟨rfl, _⟩ <;> cases hk) wireBase _ _ decode walkPage (by intro _ _ r r' h; cases h; rfl)
    (by simp [ownKey]) walkRecoverable hf

/- The values for the second page. -/
example : List.zipWith (laterValue "a".toList) walkOp.params walkValues =
    [.plain (txt "x"), .opt (some (txt "2")), .opt (some ⟨"a".toList, .str "a".toList⟩)] := by
  simp [walkOp, walkValues, laterValue]

/- A limit that is not a `NonZeroU32`. -/
def walkTypes' : CliTypes := { walkTypes with nonZeroU32 := fun _ => none }

theorem walkFlags : cliArgs exUnicode walkTypes' (some ⟨13, []⟩) walkOp.params = .ok walkArgs := by decide +kernel

example :=
  C81_limit_fails (P := Unit) (V := Nat) (I := Nat) (ct := walkTypes') (set := fun _ _ b => b) (tt := walkTable) exUnicode_lawful
    pageTypes_distinct walkProcessed rfl walkFlags walkNamed (by decide +kernel) (by decide +kernel) (by decide +kernel)
    (fun _ _ _ _ _ => rfl) walkMatches (by intro h; cases h) ⟨txt "2", by rfl⟩ 1000

example :=
  C81_override (P := Unit) (V := Nat) (I := Nat) (ct := walkTypes') (types := pageTypes) (set := fun _ _ b => b) (tt := walkTable) walkFlags
    walkNamed (by decide +kernel) (by decide +kernel) (by decide +kernel) walkMatches (by intro h; cases h) 1000 (.type 10, .none)

/- A body whose file is missing. -/
def sentParams : List Param := walkOp.params ++ [⟨"body".toList, "body".toList, .type 20, .body .json⟩]

def sentArgs : Args := { walkArgs with body := .optional }

def sentGiven : List (Str × Given) := [("id".toList, .value (txt "x")), ("json-body".toList, .path "gone.json".toList)]

theorem sentMatches : matchesOf exParsers sentArgs (Cli.bodyType sentParams) ["--id=x".toList, "--json-body=gone.json".toList] =
    .ok (lineOf exParsers (Cli.bodyType sentParams) sentGiven) := by
  have h : readWords exParsers sentArgs [] ["--id=x".toList, "--json-body=gone.json".toList] = .ok sentGiven := by
    refine (readWords_iff _ _ _ _).mpr ⟨[("id".toList, some "x".toList), ("json-body".toList, some "gone.json".toList)], ?_, ?_, by decide⟩
    · exact .attached "id".toList "x".toList (by decide) (.attached "json-body".toList "gone.json".toList (by decide) .nil)
    · exact .cons ⟨rfl, .typed 0, by decide +kernel, by decide, rfl⟩ (.cons ⟨rfl, .path, by decide +kernel, by decide, rfl⟩ .nil)
  unfold matchesOf
  rw [h]
  simp only [Clap.bind]
  rw [if_pos (by decide +kernel)]

example :=
  C81_body_fails (P := Unit) (V := Nat) (I := Nat) (ct := walkTypes) (types := pageTypes) (set := fun _ _ b => b) (tt := walkTable)
    (by decide +kernel) (by decide +kernel) (by decide +kernel) sentMatches (by decide) rfl

/- A parameter `filter` that is required and that `next` must leave out. -/
example :=
  C81_no_stream_fails (P := Unit) (V := Nat) (I := Nat) (ct := walkTypes) (types := pageTypes) (set := fun _ _ b => b) (tt := walkTable)
    (params := ⟨"filter".toList, "filter".toList, .type 0, .query true⟩ :: walkOp.params) (fun calls => by
      unfold builderStream
      rw [if_neg (by decide +kernel)]) walkMatches

end Progenitor.Props

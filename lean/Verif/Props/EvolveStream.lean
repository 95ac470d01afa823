import Verif.Props.Evolve
import Verif.Props.ListWords

/-!
# C91: documents can grow without changes for users of streams
-/

namespace Progenitor.Props

open Progenitor Progenitor.Params Progenitor.Spec Progenitor.Names Progenitor.Doc
open Progenitor.Client Progenitor.Exec Progenitor.Builder Progenitor.Stream Progenitor.Cli

/-! ## Streams that make related calls -/

section Related

variable {Q Q' R X A A' E I S S' σ σ' τ τ' H : Type}

def FutRel (Rq : Q → Q' → Prop) (Ra : A → A' → Prop) : Fut Q R A → Fut Q' R A' → Prop
  | .ready a, .ready a' => Ra a a'
  | .call q k, .call q' k' => Rq q q' ∧ ∀ r, Ra (k r) (k' r)
  | _, _ => False

def ExRel (Ra : A → A' → Prop) : Except E A → Except E A' → Prop
  | .ok a, .ok a' => Ra a a'
  | .error e, .error e' => e = e'
  | _, _ => False

def StepRel (Rq : Q → Q' → Prop) (Rs : σ → σ' → Prop) : Stream.Step Q R X σ → Stream.Step Q' R X σ' → Prop
  | .emit x s, .emit x' s' => x = x' ∧ Rs s s'
  | .done s, .done s' => Rs s s'
  | .tau s, .tau s' => Rs s s'
  | .ask q k, .ask q' k' => Rq q q' ∧ ∀ r, Rs (k r) (k' r)
  | _, _ => False

/-- What a closure of `try_unfold` returns. -/
def SeedRel (Rs : S → S' → Prop) : Option (σ × S) → Option (σ × S') → Prop
  | none, none => True
  | some x, some y => x.1 = y.1 ∧ Rs x.2 y.2
  | _, _ => False

def UnfoldRel (Rq : Q → Q' → Prop) (Rs : S → S' → Prop) : Unfold Q R E S σ → Unfold Q' R E S' σ → Prop
  | .state s, .state s' => Rs s s'
  | .fut f, .fut f' => FutRel Rq (ExRel (SeedRel Rs)) f f'
  | .none, .none => True
  | _, _ => False

theorem unfold_rel {Rq : Q → Q' → Prop} {Rs : S → S' → Prop} {f : S → Fut Q R (Except E (Option (σ × S)))}
    {f' : S' → Fut Q' R (Except E (Option (σ × S')))} (hf : ∀ s s', Rs s s' → FutRel Rq (ExRel (SeedRel Rs)) (f s) (f' s'))
    {x : Unfold Q R E S σ} {x' : Unfold Q' R E S' σ} (h : UnfoldRel Rq Rs x x') :
    StepRel Rq (UnfoldRel (R := R) (E := E) (σ := σ) Rq Rs) (unfoldStep f x) (unfoldStep f' x') := by
  match x, x', h with
  | .state s, .state s', h => exact hf s s' h
  | .none, .none, _ => exact trivial
  | .fut (.call q k), .fut (.call q' k'), h => exact ⟨h.1, fun r => h.2 r⟩
  | .fut (.ready (.ok (some (a, s)))), .fut (.ready (.ok (some (a', s')))), h =>
    obtain ⟨h1, h2⟩ : a = a' ∧ Rs s s' := h
    exact ⟨congrArg _ h1, h2⟩
  | .fut (.ready (.ok none)), .fut (.ready (.ok none)), _ => exact trivial
  | .fut (.ready (.error e)), .fut (.ready (.error e')), h =>
    have h : e = e' := h
    exact ⟨congrArg _ h, trivial⟩
  | .fut (.ready (.ok (some _))), .fut (.ready (.ok none)), h => exact h.elim
  | .fut (.ready (.ok none)), .fut (.ready (.ok (some _))), h => exact h.elim
  | .fut (.ready (.ok _)), .fut (.ready (.error _)), h => exact h.elim
  | .fut (.ready (.error _)), .fut (.ready (.ok _)), h => exact h.elim
  | .fut (.ready _), .fut (.call _ _), h => exact h.elim
  | .fut (.call _ _), .fut (.ready _), h => exact h.elim

/-- The first component is the same. -/
def SndRel (Rs : τ → τ' → Prop) (x : A × τ) (y : A × τ') : Prop := x.1 = y.1 ∧ Rs x.2 y.2

theorem flatten_rel {Rq : Q → Q' → Prop} {Rs : τ → τ' → Prop} {outer : τ → Stream.Step Q R (Except E (List I)) τ}
    {outer' : τ' → Stream.Step Q' R (Except E (List I)) τ'} (ho : ∀ s s', Rs s s' → StepRel Rq Rs (outer s) (outer' s'))
    {x : Option (List I) × τ} {x' : Option (List I) × τ'} (h : SndRel Rs x x') :
    StepRel Rq (SndRel Rs) (flattenStep iterStep outer x) (flattenStep iterStep outer' x') := by
  obtain ⟨i, o⟩ := x
  obtain ⟨i', o'⟩ := x'
  obtain ⟨rfl, h⟩ : i = i' ∧ Rs o o' := h
  match i with
  | some [] => exact ⟨rfl, h⟩
  | some (x :: xs) => exact ⟨rfl, rfl, h⟩
  | none =>
    have := ho o o' h
    simp only [flattenStep]
    match hs : outer o, hs' : outer' o', this with
    | .emit (.ok i) s, .emit x' s', h =>
      obtain ⟨rfl, h⟩ : _ = x' ∧ _ := h
      exact ⟨rfl, h⟩
    | .emit (.error e) s, .emit x' s', h =>
      obtain ⟨rfl, h⟩ : _ = x' ∧ _ := h
      exact ⟨rfl, rfl, h⟩
    | .done s, .done s', h => exact ⟨rfl, h⟩
    | .tau s, .tau s', h => exact ⟨rfl, h⟩
    | .ask q k, .ask q' k', h => exact ⟨h.1, fun r => ⟨rfl, h.2 r⟩⟩

theorem chain_rel {Rq : Q → Q' → Prop} {Rs : τ → τ' → Prop} {second : τ → Stream.Step Q R (Except E I) τ}
    {second' : τ' → Stream.Step Q' R (Except E I) τ'} (ho : ∀ s s', Rs s s' → StepRel Rq Rs (second s) (second' s'))
    {x : Option (List I) × τ} {x' : Option (List I) × τ'} (h : SndRel Rs x x') :
    StepRel Rq (SndRel Rs) (chainStep iterStep second x) (chainStep iterStep second' x') := by
  obtain ⟨i, o⟩ := x
  obtain ⟨i', o'⟩ := x'
  obtain ⟨rfl, h⟩ : i = i' ∧ Rs o o' := h
  match i with
  | some [] => exact ⟨rfl, h⟩
  | some (x :: xs) => exact ⟨rfl, rfl, h⟩
  | none =>
    have := ho o o' h
    simp only [chainStep]
    match hs : second o, hs' : second' o', this with
    | .emit x s, .emit x' s', h => exact ⟨h.1, rfl, h.2⟩
    | .done s, .done s', h => exact ⟨rfl, h⟩
    | .tau s, .tau s', h => exact ⟨rfl, h⟩
    | .ask q k, .ask q' k', h => exact ⟨h.1, fun r => ⟨rfl, h.2 r⟩⟩

def FlatFutRel (Rq : Q → Q' → Prop) (Rs : σ → σ' → Prop) : FlatFut Q R E σ → FlatFut Q' R E σ' → Prop
  | .first f, .first f' => FutRel Rq (ExRel Rs) f f'
  | .second s, .second s' => Rs s s'
  | .empty, .empty => True
  | _, _ => False

theorem flatFut_rel {Rq : Q → Q' → Prop} {Rs : σ → σ' → Prop} {inner : σ → Stream.Step Q R (Except E I) σ}
    {inner' : σ' → Stream.Step Q' R (Except E I) σ'} (ho : ∀ s s', Rs s s' → StepRel Rq Rs (inner s) (inner' s'))
    {x : FlatFut Q R E σ} {x' : FlatFut Q' R E σ'} (h : FlatFutRel Rq Rs x x') :
    StepRel Rq (FlatFutRel Rq Rs) (flatFutStep inner x) (flatFutStep inner' x') := by
  match x, x', h with
  | .empty, .empty, _ => exact trivial
  | .first (.call q k), .first (.call q' k'), h => exact ⟨h.1, fun r => h.2 r⟩
  | .first (.ready (.ok s)), .first (.ready (.ok s')), h => exact h
  | .first (.ready (.error e)), .first (.ready (.error e')), h =>
    have h : e = e' := h
    exact ⟨congrArg _ h, trivial⟩
  | .second s, .second s', h =>
    have := ho s s' h
    simp only [flatFutStep]
    match hs : inner s, hs' : inner' s', this with
    | .emit x s, .emit x' s', h => exact ⟨h.1, h.2⟩
    | .done s, .done s', h => exact h
    | .tau s, .tau s', h => exact h
    | .ask q k, .ask q' k', h => exact ⟨h.1, fun r => h.2 r⟩
  | .first (.ready (.ok _)), .first (.ready (.error _)), h => exact h.elim
  | .first (.ready (.error _)), .first (.ready (.ok _)), h => exact h.elim
  | .first (.ready _), .first (.call _ _), h => exact h.elim
  | .first (.call _ _), .first (.ready _), h => exact h.elim

/-- States of streams of pages. -/
def PRel (Rq : Q → Q' → Prop) (Rs : S → S' → Prop) : PState Q E I S → PState Q' E I S' → Prop :=
  FlatFutRel Rq (SndRel (SndRel (UnfoldRel Rq Rs)))

theorem page_rel {Rq : Q → Q' → Prop} {Rs : S → S' → Prop} {f : S → Fut Q (Answer E I) (Except E (Option (List I × S)))}
    {f' : S' → Fut Q' (Answer E I) (Except E (Option (List I × S')))}
    (hf : ∀ s s', Rs s s' → FutRel Rq (ExRel (SeedRel Rs)) (f s) (f' s')) {x : PState Q E I S} {x' : PState Q' E I S'}
    (h : PRel Rq Rs x x') : StepRel Rq (PRel Rq Rs) (pageStep f x) (pageStep f' x') :=
  flatFut_rel (fun _ _ h => chain_rel (fun _ _ h => flatten_rel (fun _ _ h => unfold_rel hf h) h) h) h

theorem init_rel {Rq : Q → Q' → Prop} {Rs : S → S' → Prop} {q : Q} {q' : Q'} (hq : Rq q q') {seed : Option Str → S}
    {seed' : Option Str → S'} (hs : ∀ t, Rs (seed t) (seed' t)) : PRel (E := E) (I := I) Rq Rs (pageInit q seed) (pageInit q' seed') := by
  refine ⟨hq, fun r => ?_⟩
  cases r with
  | error e => exact rfl
  | ok page => exact ⟨rfl, rfl, hs _⟩

theorem take_rel {Rq : Q → Q' → Prop} {Rs : σ → σ' → Prop} {step : σ → Stream.Step Q R X σ} {step' : σ' → Stream.Step Q' R X σ'}
    (ho : ∀ s s', Rs s s' → StepRel Rq Rs (step s) (step' s')) {x : Nat × σ} {x' : Nat × σ'} (h : SndRel Rs x x') :
    StepRel Rq (SndRel Rs) (takeStep step x) (takeStep step' x') := by
  obtain ⟨n, s⟩ := x
  obtain ⟨n', s'⟩ := x'
  obtain ⟨rfl, h⟩ : n = n' ∧ Rs s s' := h
  match n with
  | 0 => exact ⟨rfl, h⟩
  | n + 1 =>
    have := ho s s' h
    simp only [takeStep]
    match hs : step s, hs' : step' s', this with
    | .emit x s, .emit x' s', h => exact ⟨h.1, rfl, h.2⟩
    | .done s, .done s', h => exact ⟨rfl, h⟩
    | .tau s, .tau s', h => exact ⟨rfl, h⟩
    | .ask q k, .ask q' k', h => exact ⟨h.1, fun r => ⟨rfl, h.2 r⟩⟩

def ListRel (Rs : σ → σ' → Prop) : ListState E σ → ListState E σ' → Prop
  | .init s, .init s' => Rs s s'
  | .loop s, .loop s' => Rs s s'
  | .over r, .over r' => r = r'
  | .panicked, .panicked => True
  | _, _ => False

theorem list_rel {Rq : Q → Q' → Prop} {Rs : σ → σ' → Prop} {step : σ → Stream.Step Q R (Except E I) σ} {step' : σ' → Stream.Step Q' R (Except E I) σ'}
    (ho : ∀ s s', Rs s s' → StepRel Rq Rs (step s) (step' s')) (rep : Bool) {x : ListState E σ} {x' : ListState E σ'}
    (h : ListRel Rs x x') : StepRel Rq (ListRel Rs) (listStep rep step x) (listStep rep step' x') := by
  match x, x', h with
  | .init s, .init s', h => exact ⟨rfl, h⟩
  | .over r, .over r', h => exact h
  | .panicked, .panicked, _ => exact trivial
  | .loop s, .loop s', h =>
    have := ho s s' h
    simp only [listStep]
    match hs : step s, hs' : step' s', this with
    | .emit (.ok i) s, .emit x' s', h =>
      obtain ⟨rfl, h⟩ : _ = x' ∧ _ := h
      exact ⟨rfl, h⟩
    | .emit (.error e) s, .emit x' s', h =>
      obtain ⟨rfl, h⟩ : _ = x' ∧ _ := h
      cases rep with
      | true => exact ⟨rfl, rfl⟩
      | false => exact trivial
    | .done s, .done s', h => exact ⟨rfl, rfl⟩
    | .tau s, .tau s', h => exact h
    | .ask q k, .ask q' k', h => exact ⟨h.1, fun r => h.2 r⟩

/-- Executions: the same can be observed, and the same was sent. -/
def RunRel (Rs : σ → σ' → Prop) : Option (List (Act Q R X) × σ × H) → Option (List (Act Q' R X) × σ' × H) → Prop
  | none, none => True
  | some x, some y => observable x.1 = observable y.1 ∧ Rs x.2.1 y.2.1 ∧ x.2.2 = y.2.2
  | _, _ => False

theorem runRel_map {Rs : σ → σ' → Prop} {x : Option (List (Act Q R X) × σ × H)} {y : Option (List (Act Q' R X) × σ' × H)}
    (h : RunRel Rs x y) {a : Act Q R X} {a' : Act Q' R X} (ha : observable [a] = observable [a']) :
    RunRel Rs (x.map fun r => (a :: r.1, r.2)) (y.map fun r => (a' :: r.1, r.2)) := by
  match x, y, h with
  | none, none, _ => exact trivial
  | some x, some y, h =>
    refine ⟨?_, h.2⟩
    have : ∀ {Q : Type} (b : Act Q R X) (l : List (Act Q R X)), observable (b :: l) = observable [b] ++ observable l := fun _ _ => rfl
    show observable (a :: x.1) = observable (a' :: y.1)
    rw [this a x.1, this a' y.1, ha, h.1]

theorem run_rel {Rq : Q → Q' → Prop} {Rs : σ → σ' → Prop} {step : σ → Stream.Step Q R X σ} {step' : σ' → Stream.Step Q' R X σ'}
    (ho : ∀ s s', Rs s s' → StepRel Rq Rs (step s) (step' s')) {answer : H → Q → Option (R × H)} {answer' : H → Q' → Option (R × H)}
    (ha : ∀ h q q', Rq q q' → answer h q = answer' h q') (n : Nat) {s : σ} {s' : σ'} (h : Rs s s') (hist : H) :
    RunRel Rs (runFor step answer n s hist) (runFor step' answer' n s' hist) := by
  induction n generalizing s s' hist with
  | zero => exact ⟨rfl, h, rfl⟩
  | succ n ih =>
    have := ho s s' h
    simp only [runFor]
    match hs : step s, hs' : step' s', this with
    | .emit x s, .emit x' s', h =>
      obtain ⟨rfl, h⟩ : x = x' ∧ _ := h
      exact runRel_map (ih h hist) rfl
    | .done s, .done s', h => exact runRel_map (ih h hist) rfl
    | .tau s, .tau s', h => exact ih h hist
    | .ask q k, .ask q' k', h =>
      simp only [ha hist q q' h.1]
      cases answer' hist q' with
      | none => exact trivial
      | some r => exact runRel_map (ih (h.2 r.1) r.2) rfl

theorem runRel_view {Rs : σ → σ' → Prop} {x : Option (List (Act Q R X) × σ × H)} {y : Option (List (Act Q' R X) × σ' × H)}
    (h : RunRel Rs x y) : x.map (fun r => (observable r.1, r.2.2)) = y.map (fun r => (observable r.1, r.2.2)) := by
  match x, y, h with
  | none, none, _ => rfl
  | some x, some y, h =>
    show some (observable x.1, x.2.2) = some (observable y.1, y.2.2)
    rw [h.1, h.2.2]

end Related

/-! ## Builders -/

variable {B P V I : Type}

theorem growth_send {old : Param → Bool} {op op' : OperationMethod} (h : Growth old op op') {c c' : Code}
    (hc : methodSigBody op = .ok c) (hc' : methodSigBody op' = .ok c') {cfg : Config} (hq : NoBareQuery cfg c.url) (tt : TypeTable B)
    (hooks : Hooks) (w : World) (decode : Params.TypeId → Bytes → Except P V) (hist : List Event) {s s' : State B}
    (hs : SparseState old s s') (hk : s'.map Prod.fst = op'.params) :
    send cfg hooks w decode tt c' hist s' = send cfg hooks w decode tt c hist s := by
  unfold send
  rcases sparse_finalize (tt := tt) (N := Growth.added old op') hs (by
    intro p hp
    rw [hk] at hp
    exact h.added_iff hp) with ⟨m, h3, h4⟩ | ⟨env, env', h3, h4, h5, h6⟩
  · rw [h3, h4]
  · rw [h3, h4]
    refine growth_run h hc hc' hq h5 ?_ hooks w decode hist
    rw [h6, ← hk, List.map_map]
    rfl

/-- A builder for more parameters, none of which is set. -/
def Spread (old : Param → Bool) (ps' : List Param) (s s' : State B) : Prop := SparseState old s s' ∧ s'.map Prod.fst = ps'

theorem sparse_map {old : Param → Bool} {f : Param × Field B → Param × Field B} (hf : ∀ x, (f x).1 = x.1) {s s' : State B}
    (h : SparseState old s s') (hn : ∀ p ∈ s'.map Prod.fst, old p = false → f (p, .opt (.ok none)) = (p, .opt (.ok none))) :
    SparseState old (s.map f) (s'.map f) := by
  induction h with
  | nil => exact .nil
  | @keep p g s s' ho _ ih =>
    have e : f (p, g) = (p, (f (p, g)).2) := Prod.ext (hf _) rfl
    rw [List.map_cons, List.map_cons, e]
    exact .keep ho (ih fun q hq => hn q (by simp only [List.map_cons, List.mem_cons]; exact .inr hq))
  | @skip p s s' ho _ ih =>
    rw [List.map_cons, hn p (by simp) ho]
    exact .skip ho (ih fun q hq => hn q (by simp only [List.map_cons, List.mem_cons]; exact .inr hq))

theorem spread_map {old : Param → Bool} {ps' : List Param} {f : Param × Field B → Param × Field B} (hf : ∀ x, (f x).1 = x.1)
    {s s' : State B} (h : Spread old ps' s s') (hn : ∀ p ∈ ps', old p = false → f (p, .opt (.ok none)) = (p, .opt (.ok none))) :
    Spread old ps' (s.map f) (s'.map f) := by
  refine ⟨sparse_map hf h.1 (by rw [h.2]; exact hn), ?_⟩
  rw [List.map_map, ← h.2]
  exact List.map_congr_left fun x _ => hf x

theorem nextField_fst (x : Param × Field B) : (nextField x).1 = x.1 := by
  unfold nextField
  split <;> rfl

theorem spread_next {old : Param → Bool} {ps' : List Param} {s s' : State B} (h : Spread old ps' s s') :
    Spread old ps' (nextTemplate s) (nextTemplate s') := by
  refine spread_map nextField_fst h fun p _ _ => ?_
  unfold nextField
  split <;> rfl

theorem spread_token {old : Param → Bool} {ps' : List Param} {s s' : State B} (h : Spread old ps' s s')
    (hn : ∀ p ∈ ps', old p = false → p.name ≠ "page_token".toList) (t : Str) :
    Spread old ps' (withToken t s) (withToken t s') := by
  refine spread_map (fun x => ?_) h fun p hp ho => ?_
  · split <;> rfl
  · rw [if_neg (hn p hp ho)]

/-- The streams of the two builders make the same requests and give the same elements. -/
theorem growth_stream {old : Param → Bool} {op op' : OperationMethod} (h : Growth old op op') {c c' : Code}
    (hc : methodSigBody op = .ok c) (hc' : methodSigBody op' = .ok c') {cfg : Config} (hq : NoBareQuery cfg c.url) (tt : TypeTable B)
    (hooks : Hooks) (w : World) (decode : Params.TypeId → Bytes → Except P V) (pageOf : V → Page I) {s s' : State B}
    (hs : Spread old op'.params s s') (hn : ∀ p ∈ op'.params, old p = false → p.name ≠ "page_token".toList) :
    ∃ Rs : BldState B (Error P (Resp.Inner V)) I → BldState B (Error P (Resp.Inner V)) I → Prop, Rs (bldInit s) (bldInit s') ∧
      (∀ x x', Rs x x' → StepRel (Spread old op'.params) Rs (bldStep x) (bldStep x')) ∧
      ∀ hist q q', Spread old op'.params q q' →
        answerOf pageOf (fun h q => send cfg hooks w decode tt c h q) hist q =
          answerOf pageOf (fun h q => send cfg hooks w decode tt c' h q) hist q' := by
  refine ⟨PRel (Spread old op'.params) (SndRel (Spread old op'.params)), init_rel hs fun t => ⟨rfl, spread_next hs⟩,
    fun x x' hx => page_rel ?_ hx, fun hist q q' hqq => ?_⟩
  · rintro ⟨t, next⟩ ⟨t', next'⟩ ⟨e, hn'⟩
    have e : t = t' := e
    subst e
    cases t with
    | none => exact trivial
    | some t =>
      refine ⟨spread_token hn' hn t, fun r => ?_⟩
      cases r with
      | error e => exact rfl
      | ok page => exact ⟨rfl, rfl, hn'⟩
  · unfold answerOf
    simp only [growth_send h hc hc' hq tt hooks w decode hist hqq.1 hqq.2]

/-- A paginated operation remains one. -/
theorem grown_paged {old : Str → Bool} {d d' : DocOperation} (h : Grown old d d') {san types path method pr pr'} (hd : PropsDistinct types)
    (hp : processOperation san types path method d = .ok pr) (hp' : processOperation san types path method d' = .ok pr')
    (hm' : MethodSound san path method d') {pd : Pagination} (hpg : pr.paginated = some pd) :
    pr'.paginated = some pd ∧ old "page_token".toList = true ∧ old "limit".toList = true := by
  have hG := grown_growth h hp hp' hm'
  obtain ⟨item, req⟩ := pd
  obtain ⟨h1, ⟨p, hpp, hpn, hpk⟩, ⟨q, hqp, hqn, hqk⟩, h4, h5, h6⟩ := (C37_paginated hd hp item req).mp hpg
  have hnew : ∀ a ∈ pr'.op.params, a ∉ pr.op.params → Omissible a := by
    intro a ha hna
    refine hG.optional a ha ?_
    cases ho : oldParam old a with
    | true => rw [hG.params] at hna; exact absurd (List.mem_filter.mpr ⟨ha, ho⟩) hna
    | false => rfl
  have hold : ∀ a ∈ pr.op.params, a.kind = .query false → old a.apiName = true := by
    intro a ha hk
    rw [hG.params] at ha
    have := (List.mem_filter.mp ha).2
    unfold oldParam at this
    rw [hk] at this
    simpa [location] using this
  have hsub : ∀ a ∈ pr.op.params, a ∈ pr'.op.params := by
    intro a ha
    rw [hG.params] at ha
    exact (List.mem_filter.mp ha).1
  refine ⟨(C37_paginated hd hp' item req).mpr ⟨?_, ⟨p, hsub p hpp, hpn, hpk⟩, ⟨q, hsub q hqp, hqn, hqk⟩, ?_, ?_, ?_⟩, ?_, ?_⟩
  · rw [← h1, h.same]
  · intro a ha
    by_cases hm : a ∈ pr.op.params
    · exact h4 a hm
    · rcases (hnew a ha hm).1 with e | e <;> rw [e] <;> simp
  · intro a ha
    by_cases hm : a ∈ pr.op.params
    · exact h5 a hm
    · obtain ⟨t, ht⟩ := (hnew a ha hm).2
      rw [ht]
      simp
  · have e : pr.op.responses = pr'.op.responses := by rw [hG.rest]
    rw [← e]
    exact h6
  · rw [← hpn]; exact hold p hpp hpk
  · rw [← hqn]; exact hold q hqp hqk

theorem new_api {old : Str → Bool} {a : Param} (ho : oldParam old a = false) {n : Str} (hn : old n = true) : a.apiName ≠ n := by
  rintro rfl
  unfold oldParam at ho
  rw [hn, Bool.or_true] at ho
  cases ho

/-- The stream of the new builder compiles. -/
theorem grown_streamOk {old : Param → Bool} {op op' : OperationMethod} (h : Growth old op op')
    (hn : ∀ p ∈ op'.params, old p = false → p.apiName ≠ "page_token".toList) {types : Types}
    (hs : builderStreamOk types op.params = true) :
    builderStreamOk types op'.params = true ∧ ∀ p ∈ op'.params, old p = false → p.name ≠ "page_token".toList := by
  unfold builderStreamOk tokenTyped copied at hs ⊢
  simp only [Bool.and_eq_true, List.all_eq_true, List.any_eq_true] at hs ⊢
  obtain ⟨⟨⟨h1, q, hq, h2⟩, h3⟩, h4⟩ := hs
  have hsub : ∀ a ∈ op.params, a ∈ op'.params := by
    intro a ha
    rw [h.params] at ha
    exact (List.mem_filter.mp ha).1
  have hmem : ∀ a ∈ op'.params, old a = true → a ∈ op.params := by
    intro a ha ho
    rw [h.params]
    exact List.mem_filter.mpr ⟨ha, ho⟩
  refine ⟨⟨⟨⟨fun a ha => ?_, q, hsub q hq, h2⟩, fun a ha => ?_⟩, fun a ha => ?_⟩, fun a ha ho e => ?_⟩
  · cases ho : old a with
    | true => exact h1 a (hmem a ha ho)
    | false =>
      rw [decide_eq_true (hn a ha ho)]
      rfl
  · cases ho : old a with
    | true => exact h3 a (hmem a ha ho)
    | false =>
      unfold queryOptional
      rcases (h.optional a ha ho).1 with e | e <;> rw [e] <;> rfl
  · cases ho : old a with
    | true => exact h4 a (hmem a ha ho)
    | false =>
      obtain ⟨t, ht⟩ := (h.optional a ha ho).2
      rw [ht]
      exact decide_eq_true (by simp)
  · have h2 := of_decide_eq_true h2.1
    have : a = q := nodup_inj h.distinct ha (hsub q hq) (e.trans h2.symm)
    subst this
    rw [h.params] at hq
    rw [(List.mem_filter.mp hq).2] at ho
    cases ho

/-- The builder of the new client with the same calls. -/
theorem growth_spread {old : Param → Bool} {op op' : OperationMethod} (h : Growth old op op') {tt : TypeTable B} {calls : List (Builder.Call B)}
    {s : State B} (hs : setAll tt (new tt op.params) calls = some s) :
    ∃ s', setAll tt (new tt op'.params) calls = some s' ∧ Spread old op'.params s s' := by
  have hst := sparse_start (tt := tt) h.optional
  rw [← h.params] at hst
  obtain ⟨t', ht', h1, h2⟩ := sparse_setAll hst (by
    intro x hx p hp ho e
    obtain ⟨q, hq, e'⟩ := setAll_named hs x hx
    rw [new_params] at hq hp
    rw [h.params, List.mem_filter] at hq
    have := nodup_inj h.distinct hp hq.1 (e.trans e'.symm)
    subst this
    rw [ho] at hq
    cases hq.2) hs
  rw [new_params] at h2
  exact ⟨t', ht', h1, h2⟩

/-- C91: streams of builders give the same with the client for a document with further parameters. -/
theorem C91_builder {old : Str → Bool} {d d' : DocOperation} (h : Grown old d d') {san types path method pr pr'} (hd : PropsDistinct types)
    (hp : processOperation san types path method d = .ok pr) (hp' : processOperation san types path method d' = .ok pr')
    {pd : Pagination} (hpg : pr.paginated = some pd)
    (tt : TypeTable B) {c c' : Code} (hc : builderStruct tt pr.op = .ok c) (hc' : builderStruct tt pr'.op = .ok c')
    (hm' : MethodSound san path method d') (hb' : BuilderSound san tt (pr'.paginated ≠ none) d')
    {cfg : Config} (hq : NoBareQuery cfg c.url) (hooks : Hooks) (w : World) (decode : Params.TypeId → Bytes → Except P V)
    (pageOf : V → Page I) {calls : List (Builder.Call B)} {s : State B} (hs : builderStream tt types pr.op.params calls = some s) :
    pr'.paginated = some pd ∧ ∃ s', builderStream tt types pr'.op.params calls = some s' ∧ ∀ n hist,
      (runFor bldStep (answerOf pageOf fun h q => send cfg hooks w decode tt c h q) n (bldInit s) hist).map
          (fun r => (observable r.1, r.2.2)) =
        (runFor bldStep (answerOf pageOf fun h q => send cfg hooks w decode tt c' h q) n (bldInit s') hist).map
          (fun r => (observable r.1, r.2.2)) := by
  obtain ⟨hpg', ht, _⟩ := grown_paged h hd hp hp' hm' hpg
  refine ⟨hpg', ?_⟩
  have hG := grown_growth h hp hp' hm'
  unfold builderStruct at hc hc'
  obtain ⟨_, _, hc⟩ := bind_ok_inv hc
  obtain ⟨_, hg', hc'⟩ := bind_ok_inv hc'
  unfold builderStream at hs ⊢
  split at hs
  · rename_i hok
    rw [Bool.and_eq_true] at hok
    obtain ⟨hok', hn⟩ := grown_streamOk hG (fun p _ ho => new_api ho ht) hok.2
    have hst : structOk tt pr'.op.params true = true := by
      refine (C62_struct tt _ _ hg').mpr ((noClash_iff hp' tt _).mpr ⟨hG.distinct, ?_⟩)
      refine (builderSound_congr ?_).mp hb'
      rw [hpg']
      simp
    rw [if_pos (by rw [hst, hok']; rfl)]
    obtain ⟨s', hs', hsp⟩ := growth_spread hG hs
    obtain ⟨Rs, h1, h2, h3⟩ := growth_stream hG hc hc' hq tt hooks w decode pageOf hsp hn
    exact ⟨s', hs', fun n hist => runRel_view (run_rel h2 h3 n h1 hist)⟩
  · cases hs

/-! ## Methods -/

theorem oldParam_keep {old : Str → Bool} {p : Param} (ho : old p.apiName = true ∨ location p.kind = .body) : oldParam old p = true := by
  unfold oldParam
  rcases ho with ho | ho
  · rw [ho, Bool.or_true]
  · rw [decide_eq_true ho, Bool.true_or]

theorem oldParam_iff {old : Str → Bool} {p : Param} : oldParam old p = true ↔ old p.apiName = true ∨ location p.kind = .body := by
  unfold oldParam
  rw [Bool.or_eq_true, decide_eq_true_eq]
  exact Or.comm

theorem argsGrown_zip {old : Str → Bool} {ps : List Param} {args args' : List Value} (h : ArgsGrown old ps args args') :
    (∀ p v, (p, v) ∈ (ps.filter (oldParam old)).zip args → (p, v) ∈ ps.zip args') ∧
    ∀ p v, (p, v) ∈ ps.zip args' → oldParam old p = false → v = .opt none := by
  induction h with
  | nil => exact ⟨by simp, by simp⟩
  | @keep p ps v args args' ho _ ih =>
    have ho := oldParam_keep ho
    rw [List.filter_cons_of_pos (by exact ho)]
    constructor
    · intro q x hq
      rw [List.zip_cons_cons, List.mem_cons] at hq ⊢
      exact hq.imp id (ih.1 q x)
    · intro q x hq hqo
      rw [List.zip_cons_cons, List.mem_cons] at hq
      rcases hq with e | hq
      · cases e; rw [ho] at hqo; cases hqo
      · exact ih.2 q x hq hqo
  | @none p ps args args' ho hb _ ih =>
    have ho : oldParam old p = false := by
      unfold oldParam
      rw [ho, decide_eq_false hb, Bool.or_false]
    rw [List.filter_cons_of_neg (by simp [ho])]
    constructor
    · intro q x hq
      rw [List.zip_cons_cons, List.mem_cons]
      exact .inr (ih.1 q x hq)
    · intro q x hq hqo
      rw [List.zip_cons_cons, List.mem_cons] at hq
      rcases hq with e | hq
      · cases e; rfl
      · exact ih.2 q x hq hqo

theorem argsGrown_of {old : Str → Bool} {ps : List Param} {R R' : Param → Value → Prop} {q q' : List Value}
    (h : Forall₂ R (ps.filter (oldParam old)) q) (h' : Forall₂ R' ps q')
    (hs : ∀ p ∈ ps, ∀ v v', oldParam old p = true → R p v → R' p v' → v = v')
    (hn : ∀ p ∈ ps, ∀ v, oldParam old p = false → R' p v → v = .opt none) : ArgsGrown old ps q q' := by
  induction ps generalizing q q' with
  | nil =>
    cases h
    cases h'
    exact .nil
  | cons p ps ih =>
    cases h' with
    | cons hp h' =>
      cases ho : oldParam old p with
      | true =>
        rw [List.filter_cons_of_pos ho] at h
        cases h with
        | cons hp0 h =>
          rw [hs p (by simp) _ _ ho hp0 hp]
          exact .keep (oldParam_iff.mp ho) (ih h h' (fun x hx => hs x (by simp [hx])) fun x hx => hn x (by simp [hx]))
      | false =>
        rw [List.filter_cons_of_neg (by simp [ho])] at h
        rw [hn p (by simp) _ ho hp]
        have ho' := ho
        unfold oldParam at ho'
        rw [Bool.or_eq_false_iff, decide_eq_false_iff_not] at ho'
        exact .none ho'.2 ho'.1 (ih h h' (fun x hx => hs x (by simp [hx])) fun x hx => hn x (by simp [hx]))

/-- C91: streams of methods give the same, with `None` for the new parameters, if both compile. -/
theorem C91_positional {old : Str → Bool} {d d' : DocOperation} (h : Grown old d d') {san types path method pr pr'} (hd : PropsDistinct types)
    (hp : processOperation san types path method d = .ok pr) (hp' : processOperation san types path method d' = .ok pr')
    {pd : Pagination} (hpg : pr.paginated = some pd)
    {c c' : Code} (hc : methodSigBody pr.op = .ok c) (hc' : methodSigBody pr'.op = .ok c')
    (hm' : MethodSound san path method d')
    {cfg : Config} (hq : NoBareQuery cfg c.url) (hooks : Hooks) (w : World) (decode : Params.TypeId → Bytes → Except P V)
    (pageOf : V → Page I) {args args' : List Value} (ha : ArgsGrown old (streamParams pr'.op.params) args args')
    {a a' : List Value × (Str → List Value)} (hs : positionalArgs types pr.op.params args = some a)
    (hs' : positionalArgs types pr'.op.params args' = some a') (n : Nat) (hist : List Event) :
    (runFor (posStep a) (answerOf pageOf fun h q => call cfg hooks w decode pr.op.params c h q) n (posInit a) hist).map
        (fun r => (observable r.1, r.2.2)) =
      (runFor (posStep a') (answerOf pageOf fun h q => call cfg hooks w decode pr'.op.params c' h q) n (posInit a') hist).map
        (fun r => (observable r.1, r.2.2)) := by
  obtain ⟨_, ht, _⟩ := grown_paged h hd hp hp' hm' hpg
  have hG := grown_growth h hp hp' hm'
  obtain ⟨fa, la⟩ := a
  obtain ⟨fa', la'⟩ := a'
  obtain ⟨h1, h2, h3, -, -⟩ := positionalArgs_inv hs
  obtain ⟨h1', h2', h3', -, -⟩ := positionalArgs_inv hs'
  have hsp : streamParams pr.op.params = (streamParams pr'.op.params).filter (oldParam old) := by
    unfold streamParams
    rw [hG.params, List.filter_filter, List.filter_filter]
    congr 1
    funext p
    exact Bool.and_comm _ _
  have hnd : ((streamParams pr'.op.params).map Param.name).Nodup := by
    exact hG.distinct.sublist (List.filter_sublist.map _)
  obtain ⟨z1, z2⟩ := argsGrown_zip ha
  have hold : ∀ p v v', Given pr.op.params args p v → Given pr'.op.params args' p v' → v = v' := by
    intro p v v' hv hv'
    refine zip_functional hnd (z1 p v ?_) hv'
    rw [← hsp]
    exact hv
  have hnew : ∀ p v, oldParam old p = false → Given pr'.op.params args' p v → v = .opt none := fun p v ho hv => z2 p v hv ho
  have gr1 : ArgsGrown old pr'.op.params fa fa' := by
    refine argsGrown_of (R := FirstPage pr.op.params args) (by rw [← hG.params]; exact h1) h1' ?_ ?_
    · intro p _ v v' _ hv hv'
      unfold FirstPage at hv hv'
      split at hv
      · rename_i e; rw [if_pos e] at hv'; rw [hv, hv']
      · rename_i e; rw [if_neg e] at hv'; exact hold p v v' hv hv'
    · intro p _ v ho hv
      unfold FirstPage at hv
      rw [if_neg (new_api ho ht)] at hv
      exact hnew p v ho hv
  have gr2 : ∀ t, ArgsGrown old pr'.op.params (la t) (la' t) := by
    intro t
    refine argsGrown_of (R := LaterPage pr.op.params args t) (by rw [← hG.params]; exact h2 t) (h2' t) ?_ ?_
    · intro p _ v v' _ hv hv'
      unfold LaterPage at hv hv'
      split at hv
      · rename_i e; rw [if_pos e] at hv'; rw [hv, hv']
      · rename_i e
        rw [if_neg e] at hv'
        split at hv
        · rename_i e; rw [if_pos e] at hv'; rw [hv, hv']
        · rename_i e; rw [if_neg e] at hv'; exact hold p v v' hv hv'
    · intro p _ v ho hv
      unfold LaterPage at hv
      rw [if_neg (new_api ho ht)] at hv
      split at hv
      · exact hv
      · exact hnew p v ho hv
  have hcall : ∀ q q' : List Value, ArgsGrown old pr'.op.params q q' → ∀ hist,
      call cfg hooks w decode pr.op.params c hist q = call cfg hooks w decode pr'.op.params c' hist q' :=
    fun q q' hqq hist => (C90_positional h hp hp' hc hc' hm' hq hooks w decode hist q q' hqq).symm
  refine runRel_view (run_rel (Rq := ArgsGrown old pr'.op.params) (Rs := PRel (ArgsGrown old pr'.op.params) Eq) ?_ ?_ n ?_ hist)
  · refine fun x x' hx => page_rel ?_ hx
    rintro t _ rfl
    cases t with
    | none => exact trivial
    | some t =>
      refine ⟨gr2 t, fun r => ?_⟩
      cases r with
      | error e => exact rfl
      | ok page => exact ⟨rfl, rfl⟩
  · intro hist q q' hqq
    unfold answerOf
    simp only [hcall q q' hqq hist]
  · exact init_rel gr1 fun t => rfl

/-! ## Examples -/

namespace EvolveExample

open CompileExample

/-- The list in pages with a further parameter. -/
def wide (names : List Str) : DocOperation :=
  { CompileExample.listed with opLevel := CompileExample.listed.opLevel ++ [⟨"q".toList, .query true none, false, true, 1⟩], pagination := some names }

end EvolveExample

open EvolveExample CompileExample

theorem wide_grown (names : List Str) : Grown isOld (before (wide names)) (wide names) := by
  refine ⟨rfl, counts_all _ ?_⟩
  intro p hp ho
  obtain ⟨h1, h2⟩ := show docLocation p.kind = .query ∧ p.required = false from by
    revert p
    exact (by decide +kernel : ∀ p ∈ BTree.values (combined (wide []).pathLevel (wide []).opLevel), isOld p.name = false →
      docLocation p.kind = .query ∧ p.required = false)
  exact ⟨.inl h1, .inl h2⟩

example : before (wide []) = CompileExample.listed := rfl

theorem wide_method (names : List Str) : MethodSound (sanitize exUnicode .snake) "/things".toList "get".toList (wide names) := by
  have h : MethodSound (sanitize exUnicode .snake) "/things".toList "get".toList (wide []) := by
    refine ⟨good_paths.1, by decide, ?_, fun e he => (by cases he), counts_all _ (by decide +kernel),
      fun _ => counts_all _ (by decide +kernel)⟩
    intro p q hp hq
    exact counts_all (Q := fun p => ∀ q ∈ BTree.values (combined (wide []).pathLevel (wide []).opLevel),
      sanitize exUnicode .snake p.name = sanitize exUnicode .snake q.name → p.name = q.name) _ (by decide +kernel) p hp q
      ((counts_iff _ q).mpr hq)
  obtain ⟨h1, h2, h3, h4, h5, h6⟩ := h
  exact ⟨h1, h2, h3, h4, h5, h6⟩

theorem wide_builder (names : List Str) {a : Prop} : BuilderSound (sanitize exUnicode .snake) table a (wide names) := by
  have h : BuilderSound (sanitize exUnicode .snake) table a (wide []) := by
    refine ⟨counts_all _ ?_, counts_all _ ?_, fun _ => counts_all _ ?_, fun _ => counts_all _ ?_, fun _ => counts_all _ ?_, counts_all _ ?_⟩
    · decide +kernel
    · decide +kernel
    · decide +kernel
    · decide +kernel
    · decide +kernel
    · simp only [← Option.isNone_iff_eq_none]
      decide +kernel
  exact ⟨h.new, h.send, h.stream, h.clone, h.map, h.plain⟩

/-- All that C91 needs is the case here, for both kinds of clients. -/
example (cfg : Config) (hb : '?' ∉ cfg.baseurl) : ∃ pr pr' c c' cp cp',
    processOperation (sanitize exUnicode .snake) pageTypes "/things".toList "get".toList CompileExample.listed = .ok pr ∧
    processOperation (sanitize exUnicode .snake) pageTypes "/things".toList "get".toList (wide []) = .ok pr' ∧
    pr.paginated = some ⟨13, []⟩ ∧ builderStruct table pr.op = .ok c ∧ builderStruct table pr'.op = .ok c' ∧
    methodSigBody pr.op = .ok cp ∧ methodSigBody pr'.op = .ok cp' ∧ NoBareQuery cfg c.url ∧ NoBareQuery cfg cp.url ∧
    (∃ s, builderStream table pageTypes pr.op.params [] = some s) ∧
    ArgsGrown isOld (streamParams pr'.op.params) [.opt none] [.opt none, .opt none] ∧
    (∃ a, positionalArgs pageTypes pr.op.params [.opt none] = some a) ∧
    ∃ a, positionalArgs pageTypes pr'.op.params [.opt none, .opt none] = some a := by
  have gen : ∀ (d : DocOperation) (args : List Value) (ps : List Param),
      (do let pr ← processOperation (sanitize exUnicode .snake) pageTypes "/things".toList "get".toList d
          let _ ← builderStruct table pr.op
          let _ ← methodSigBody pr.op
          pure ((pr.paginated, (builderStream table pageTypes pr.op.params []).isSome),
            (positionalArgs pageTypes pr.op.params args).isSome, streamParams pr.op.params)) = .ok ((some ⟨13, []⟩, true), true, ps) →
      ∃ pr c cp, processOperation (sanitize exUnicode .snake) pageTypes "/things".toList "get".toList d = .ok pr ∧
        builderStruct table pr.op = .ok c ∧ methodSigBody pr.op = .ok cp ∧ pr.paginated = some ⟨13, []⟩ ∧
        (∃ s, builderStream table pageTypes pr.op.params [] = some s) ∧ (∃ a, positionalArgs pageTypes pr.op.params args = some a) ∧
        streamParams pr.op.params = ps := by
    intro d args ps h
    obtain ⟨pr, hp, h⟩ := bind_ok_inv h
    obtain ⟨c, hc, h⟩ := bind_ok_inv h
    obtain ⟨cp, hcp, h⟩ := bind_ok_inv h
    have h := Res.ok.inj h
    rw [Prod.mk.injEq, Prod.mk.injEq, Prod.mk.injEq] at h
    exact ⟨pr, c, cp, hp, hc, hcp, h.1.1, Option.isSome_iff_exists.mp h.1.2, Option.isSome_iff_exists.mp h.2.1, h.2.2⟩
  obtain ⟨pr, c, cp, hp, hc, hcp, hpg, hs, ha, _⟩ := gen CompileExample.listed [.opt none] [⟨"limit".toList, "limit".toList, .type 0, .query false⟩]
    (by decide +kernel)
  obtain ⟨pr', c', cp', hp', hc', hcp', _, _, ha', hsp⟩ := gen (wide []) [.opt none, .opt none]
    [⟨"limit".toList, "limit".toList, .type 0, .query false⟩, ⟨"q".toList, "q".toList, .type 1, .query false⟩] (by decide +kernel)
  refine ⟨pr, pr', c, c', cp, cp', hp, hp', hpg, hc, hc', hcp, hcp', ?_, ?_, hs, ?_, ha, ha'⟩
  · unfold builderStruct at hc
    obtain ⟨_, _, hc⟩ := bind_ok_inv hc
    exact C90_clean hp hc hb (by decide)
  · unfold methodSigBody at hcp
    exact C90_clean hp hcp hb (by decide)
  · rw [hsp]
    exact .keep (.inl (by decide)) (.none (by decide) (by decide) .nil)

end Progenitor.Props

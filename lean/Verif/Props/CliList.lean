import Verif.Spec.Cli
import Verif.Props.Stream

/-!
# C38: lists of the command line interface
-/

namespace Progenitor.Props

open Progenitor Progenitor.Params Progenitor.Client Progenitor.Exec Progenitor.Builder Progenitor.Stream Progenitor.Cli
open Progenitor.Spec (answers calls yields elements nextCall listReports listResult)

variable {Q R E I B : Type}

/-- Calls with their answers. -/
def exchanges {X : Type} (tr : List (Act Q R X)) : List (Q × R) :=
  tr.filterMap fun a => match a with
    | .asked q r => some (q, r)
    | _ => none

theorem answers_exchanges {X : Type} (tr : List (Act Q R X)) : answers tr = (exchanges tr).map Prod.snd := by
  induction tr with
  | nil => rfl
  | cons a tr ih => cases a <;> simp_all [answers, exchanges]

theorem calls_exchanges {X : Type} (tr : List (Act Q R X)) : calls tr = (exchanges tr).map Prod.fst := by
  induction tr with
  | nil => rfl
  | cons a tr ih => cases a <;> simp_all [calls, exchanges]

theorem yields_snoc {X : Type} (tr : List (Act Q R X)) (a : Act Q R X) :
    yields (tr ++ [a]) = yields tr ++ match a with | .emitted x => [x] | _ => [] := by
  cases a <;> simp [yields]

theorem exchanges_snoc {X : Type} (tr : List (Act Q R X)) (a : Act Q R X) :
    exchanges (tr ++ [a]) = exchanges tr ++ match a with | .asked q r => [(q, r)] | _ => [] := by
  cases a <;> simp [exchanges]

/-- What the state of a list command stands for. -/
def ListInv {σ : Type} (n : Nat) (s0 : σ) (reports : List (ListReport E I)) (tr' : List (Act Q R (Except E I))) (s' : σ) :
    ListState E (Nat × σ) → Prop
  | .init x => x = (n, s0) ∧ reports = [] ∧ tr' = [] ∧ s' = s0
  | .loop (m, s) => s = s' ∧ ∃ is : List I, reports = listReports is none ∧ yields tr' = is.map .ok ∧ is.length + m = n
  | .over none => ∃ is : List I, reports = listReports is (some none) ∧ yields tr' = is.map .ok ∧
      (is.length = n ∨ (is.length < n ∧ ∃ pre, tr' = pre ++ [.ended]))
  | .over (some e) => ∃ is : List I, reports = listReports is (some (some e)) ∧ yields tr' = is.map .ok ++ [.error e] ∧
      is.length < n
  | .panicked => False

theorem list_inv {σ : Type} {step : σ → Progenitor.Stream.Step Q R (Except E I) σ} {n : Nat} {s0 : σ}
    {tr : List (Act Q R (ListReport E I))} {st : ListState E (Nat × σ)} (h : Trace (cliStep true step) (listInit n s0) tr st) :
    ∃ tr' s', Trace step s0 tr' s' ∧ exchanges tr' = exchanges tr ∧ ListInv n s0 (yields tr) tr' s' st := by
  induction h with
  | start => exact ⟨[], s0, .start, rfl, rfl, rfl, rfl, rfl⟩
  | tau tr s s' ht hs ih =>
    obtain ⟨tr', t', h1, h2, h3⟩ := ih
    cases s with
    | init x => simp [cliStep, listStep] at hs
    | over r => simp [cliStep, listStep] at hs
    | panicked => simp [cliStep, listStep] at hs
    | loop x =>
      obtain ⟨m, s⟩ := x
      obtain ⟨rfl, is, h3, h4, h5⟩ := h3
      cases m with
      | zero => simp [cliStep, listStep, takeStep] at hs
      | succ m =>
        cases hst : step s with
        | emit x s1 => simp only [cliStep, listStep, takeStep, hst] at hs; cases x <;> simp at hs
        | done s1 => simp [cliStep, listStep, takeStep, hst] at hs
        | ask q k => simp [cliStep, listStep, takeStep, hst] at hs
        | tau s1 =>
          simp only [cliStep, listStep, takeStep, hst, Stream.Step.tau.injEq] at hs
          subst hs
          exact ⟨tr', s1, .tau _ _ _ h1 hst, h2, rfl, is, h3, h4, h5⟩
  | emit tr s x s' ht hs ih =>
    obtain ⟨tr', t', h1, h2, h3⟩ := ih
    cases s with
    | init y =>
      obtain ⟨rfl, h3, rfl, rfl⟩ := h3
      simp only [cliStep, listStep, Stream.Step.emit.injEq] at hs
      obtain ⟨rfl, rfl⟩ := hs
      exact ⟨[], t', h1, by rw [exchanges_snoc, h2]; simp, rfl, [], by rw [yields_snoc, h3]; rfl, rfl, by simp⟩
    | over r => simp [cliStep, listStep] at hs
    | panicked => simp [cliStep, listStep] at hs
    | loop y =>
      obtain ⟨m, s⟩ := y
      obtain ⟨rfl, is, h3, h4, h5⟩ := h3
      cases m with
      | zero =>
        simp only [cliStep, listStep, takeStep, Stream.Step.emit.injEq] at hs
        obtain ⟨rfl, rfl⟩ := hs
        exact ⟨tr', s, h1, by rw [exchanges_snoc, h2]; simp, is, by rw [yields_snoc, h3]; simp [listReports], h4, .inl (by omega)⟩
      | succ m =>
        cases hst : step s with
        | tau s1 => simp [cliStep, listStep, takeStep, hst] at hs
        | ask q k => simp [cliStep, listStep, takeStep, hst] at hs
        | done s1 =>
          simp only [cliStep, listStep, takeStep, hst, Stream.Step.emit.injEq] at hs
          obtain ⟨rfl, rfl⟩ := hs
          refine ⟨tr' ++ [.ended], s1, .done _ _ _ h1 hst, by rw [exchanges_snoc, exchanges_snoc, h2], is,
            by rw [yields_snoc, h3]; simp [listReports], by rw [yields_snoc, h4]; simp, .inr ⟨by omega, tr', rfl⟩⟩
        | emit z s1 =>
          cases z with
          | error e =>
            simp only [cliStep, listStep, takeStep, hst, if_true, Stream.Step.emit.injEq] at hs
            obtain ⟨rfl, rfl⟩ := hs
            refine ⟨tr' ++ [.emitted (.error e)], s1, .emit _ _ _ _ h1 hst, by rw [exchanges_snoc, exchanges_snoc, h2], is,
              by rw [yields_snoc, h3]; simp [listReports], by rw [yields_snoc, h4], by omega⟩
          | ok i =>
            simp only [cliStep, listStep, takeStep, hst, Stream.Step.emit.injEq] at hs
            obtain ⟨rfl, rfl⟩ := hs
            refine ⟨tr' ++ [.emitted (.ok i)], s1, .emit _ _ _ _ h1 hst, by rw [exchanges_snoc, exchanges_snoc, h2], rfl,
              is ++ [i], by rw [yields_snoc, h3]; simp [listReports], by rw [yields_snoc, h4]; simp, by simp; omega⟩
  | ask tr s q k r ht hs ih =>
    obtain ⟨tr', t', h1, h2, h3⟩ := ih
    cases s with
    | init x => simp [cliStep, listStep] at hs
    | over r => simp [cliStep, listStep] at hs
    | panicked => simp [cliStep, listStep] at hs
    | loop x =>
      obtain ⟨m, s⟩ := x
      obtain ⟨rfl, is, h3, h4, h5⟩ := h3
      cases m with
      | zero => simp [cliStep, listStep, takeStep] at hs
      | succ m =>
        cases hst : step s with
        | emit x s1 => simp only [cliStep, listStep, takeStep, hst] at hs; cases x <;> simp at hs
        | done s1 => simp [cliStep, listStep, takeStep, hst] at hs
        | tau s1 => simp [cliStep, listStep, takeStep, hst] at hs
        | ask q' k' =>
          simp only [cliStep, listStep, takeStep, hst, Stream.Step.ask.injEq] at hs
          obtain ⟨rfl, rfl⟩ := hs
          exact ⟨tr' ++ [.asked q' r], k' r, .ask _ _ _ _ _ h1 hst, by rw [exchanges_snoc, exchanges_snoc, h2], rfl, is,
            by rw [yields_snoc, h3]; simp, by rw [yields_snoc, h4]; simp, h5⟩
  | done tr s s' ht hs ih =>
    obtain ⟨tr', t', h1, h2, h3⟩ := ih
    cases s with
    | init x => simp [cliStep, listStep] at hs
    | loop x =>
      obtain ⟨m, s⟩ := x
      cases m with
      | zero => simp [cliStep, listStep, takeStep] at hs
      | succ m =>
        cases hst : step s with
        | emit x s1 => simp only [cliStep, listStep, takeStep, hst] at hs; cases x <;> simp at hs
        | done s1 => simp [cliStep, listStep, takeStep, hst] at hs
        | tau s1 => simp [cliStep, listStep, takeStep, hst] at hs
        | ask q' k' => simp [cliStep, listStep, takeStep, hst] at hs
    | panicked => exact h3.elim
    | over r =>
      simp only [cliStep, listStep, Stream.Step.done.injEq] at hs
      subst hs
      refine ⟨tr', t', h1, by rw [exchanges_snoc, h2]; simp, ?_⟩
      cases r with
      | none =>
        obtain ⟨is, h3, h4, h5⟩ := h3
        exact ⟨is, by rw [yields_snoc, h3]; simp, h4, h5⟩
      | some e =>
        obtain ⟨is, h3, h4, h5⟩ := h3
        exact ⟨is, by rw [yields_snoc, h3]; simp, h4, h5⟩

variable {σ : Type} {step : σ → Progenitor.Stream.Step Q (Answer E I) (Except E I) σ} {init : σ} {first : Q} {later : Str → Q}
  {tr : List (Act Q (Answer E I) (ListReport E I))} {st : ListState E (Nat × σ)} {n : Nat}

/-- C38: the reports of a list command with limit `n`, in every execution: nothing at first; then `list_start` and items, which are
the first elements of the pages received.  It returns success after `list_end_success`, when the first `n` elements were reported or
there are fewer and no further page; and an error after `list_end_error`, when the error is among the first `n` elements. -/
theorem C38_list (hst : PageStream B E I Q σ step init first later) (h : Trace (cliStep true step) (listInit n init) tr st) :
    match listResult st with
    | none => yields tr = [] ∨ ∃ is rest, yields tr = listReports is none ∧ (elements (answers tr)).take n = is.map .ok ++ rest
    | some none => ∃ is, yields tr = listReports is (some none) ∧ (elements (answers tr)).take n = is.map .ok ∧
        (is.length = n ∨ nextCall first later (answers tr) = none)
    | some (some e) => ∃ is, yields tr = listReports is (some (some e)) ∧
        (elements (answers tr)).take n = is.map .ok ++ [.error e] := by
  obtain ⟨tr', s', h1, h2, h3⟩ := list_inv h
  have ha : answers tr' = answers tr := by rw [answers_exchanges, answers_exchanges, h2]
  obtain ⟨rest, hp⟩ := C32_prefix hst h1
  rw [ha] at hp
  cases st with
  | init x => exact .inl h3.2.1
  | panicked => exact h3.elim
  | loop x =>
    obtain ⟨m, s⟩ := x
    obtain ⟨_, is, h4, h5, h6⟩ := h3
    exact .inr ⟨is, rest.take m, h4, by rw [hp, h5, List.take_append, List.take_of_length_le (by simp; omega)]; simp [← h6]⟩
  | over r =>
    cases r with
    | none =>
      obtain ⟨is, h4, h5, h6⟩ := h3
      refine ⟨is, h4, ?_⟩
      rcases h6 with h6 | ⟨h6, pre, rfl⟩
      · exact ⟨by rw [hp, h5, List.take_append, List.take_of_length_le (by simp; omega)]; simp [h6], .inl h6⟩
      · have hc := C32_complete hst h1 pre [] rfl
        have ha' : answers pre = answers tr := by rw [← ha]; simp [answers]
        rw [ha'] at hc
        have hy : yields pre = is.map .ok := by rw [← h5]; simp [yields]
        exact ⟨by rw [← hc.1, hy, List.take_of_length_le (by simp; omega)], .inr hc.2⟩
    | some e =>
      obtain ⟨is, h4, h5, h6⟩ := h3
      refine ⟨is, h4, ?_⟩
      have he := C34_error_last hst h1 (is.map .ok) [] e h5
      obtain ⟨_, _, rs, hr1, hr2⟩ := he
      rw [ha] at hr1
      have : elements (answers tr) = is.map .ok ++ [.error e] := by
        rw [hr1, elements_append, hr2]; simp [elements]
      rw [this, List.take_of_length_le (by simp; omega)]

/-- C38: a page is requested only while fewer than `n` elements have been reported, and all elements of the pages before have. -/
theorem C38_calls (hst : PageStream B E I Q σ step init first later) (h : Trace (cliStep true step) (listInit n init) tr st)
    (pre post : List (Act Q (Answer E I) (ListReport E I))) (q : Q) (r : Answer E I) (he : tr = pre ++ .asked q r :: post) :
    nextCall first later (answers pre) = some q ∧
      ∃ is, yields pre = listReports is none ∧ elements (answers pre) = is.map .ok ∧ is.length < n := by
  obtain ⟨s1, h1, k, hk⟩ := trace_prefix h pre _ post he
  obtain ⟨tr', s', h2, h3, h4⟩ := list_inv h1
  have ha : answers tr' = answers pre := by rw [answers_exchanges, answers_exchanges, h3]
  cases s1 with
  | init x => simp [cliStep, listStep] at hk
  | over x => simp [cliStep, listStep] at hk
  | panicked => exact h4.elim
  | loop x =>
    obtain ⟨m, s⟩ := x
    obtain ⟨rfl, is, h5, h6, h7⟩ := h4
    cases m with
    | zero => simp [cliStep, listStep, takeStep] at hk
    | succ m =>
      cases hs : step s with
      | emit x s1 => simp only [cliStep, listStep, takeStep, hs] at hk; cases x <;> simp at hk
      | done s1 => simp [cliStep, listStep, takeStep, hs] at hk
      | tau s1 => simp [cliStep, listStep, takeStep, hs] at hk
      | ask q' k' =>
        simp only [cliStep, listStep, takeStep, hs, Stream.Step.ask.injEq] at hk
        obtain ⟨rfl, _⟩ := hk
        have hx : nextCall first later (answers tr') = some q' ∧ elements (answers tr') = yields tr' := by
          have ht := Trace.ask _ _ _ _ r h2 hs
          cases hst with
          | positional first later => exact (at_action (pos_unfolds _) ht _ _ _ rfl).symm
          | builder b => exact (at_action (bld_unfolds _) ht _ _ _ rfl).symm
        rw [ha, h6] at hx
        exact ⟨hx.1, is, h5, hx.2, by omega⟩

theorem loop_taus {σ : Type} {step : σ → Progenitor.Stream.Step Q R (Except E I) σ} (m : Nat) {s s1 : σ} (ht : Taus step s s1) :
    Taus (cliStep true step) (.loop (m + 1, s) : ListState E (Nat × σ)) (.loop (m + 1, s1)) := by
  induction ht with
  | refl s => exact .refl _
  | next a b c hs _ ih => exact .next _ (.loop (m + 1, b)) _ (by simp [cliStep, listStep, takeStep, hs]) ih

/-- C38: a list command makes progress: until it has returned there is, after finitely many internal steps, a report or a call. -/
theorem C38_progress (hst : PageStream B E I Q σ step init first later) (h : Trace (cliStep true step) (listInit n init) tr st)
    (hr : listResult st = none) :
    ∃ st1, Taus (cliStep true step) st st1 ∧ ((∃ x st2, cliStep true step st1 = .emit x st2) ∨ ∃ q k, cliStep true step st1 = .ask q k) := by
  obtain ⟨tr', s', h2, h3, h4⟩ := list_inv h
  cases st with
  | init x => exact ⟨_, .refl _, .inl ⟨_, _, rfl⟩⟩
  | over x => simp [listResult] at hr
  | panicked => exact h4.elim
  | loop x =>
    obtain ⟨m, s⟩ := x
    obtain ⟨rfl, -⟩ := h4
    cases m with
    | zero => exact ⟨_, .refl _, .inl ⟨_, _, rfl⟩⟩
    | succ m =>
      obtain ⟨rest, s1, _, ht, hn⟩ := C32_progress hst h2
      refine ⟨_, loop_taus m ht, ?_⟩
      cases hs : step s1 with
      | emit x s2 =>
        cases x with
        | ok i => exact .inl ⟨.item i, .loop (m, s2), by simp [cliStep, listStep, takeStep, hs]⟩
        | error e => exact .inl ⟨.endError e, .over (some e), by simp [cliStep, listStep, takeStep, hs]⟩
      | done s2 => exact .inl ⟨.endSuccess, .over none, by simp [cliStep, listStep, takeStep, hs]⟩
      | ask q k => exact .inr ⟨q, fun r => .loop (m + 1, k r), by simp [cliStep, listStep, takeStep, hs]⟩
      | tau s2 =>
        cases hrest : rest with
        | nil =>
          rw [hrest] at hn
          cases hc : nextCall first later (answers tr') with
          | none => rw [hc] at hn; obtain ⟨_, hn⟩ := hn; rw [hs] at hn; cases hn
          | some q => rw [hc] at hn; obtain ⟨_, hn⟩ := hn; rw [hs] at hn; cases hn
        | cons x xs => rw [hrest] at hn; obtain ⟨_, hn⟩ := hn; rw [hs] at hn; cases hn

/- Three pages; with limit 2 the second and third are not requested, with limit 9 the error of the fourth is reported. -/
def exServer (h : Nat) (_ : List Value) : Option (Answer Nat Nat × Nat) :=
  some (match h with
    | 0 => (.ok ⟨[1, 2], some "a".toList⟩, 1)
    | 1 => (.ok ⟨[], some "b".toList⟩, 2)
    | 2 => (.ok ⟨[3], some "c".toList⟩, 3)
    | n => (.error n, n + 1))

def exPages : List Value × (Str → List Value) := (listArgs ++ [.opt none], fun t => [.opt (some ⟨t, .str t⟩)])

example : ((runFor (cliStep true (posStep (E := Nat) (I := Nat) exPages)) exServer 24 (listInit 2 (posInit exPages)) 0).map
      fun r => (yields r.1, listResult r.2.1, r.2.2)) = some ([.start, .item 1, .item 2, .endSuccess], some none, 1) := rfl
example : ((runFor (cliStep true (posStep (E := Nat) (I := Nat) exPages)) exServer 24 (listInit 9 (posInit exPages)) 0).map
      fun r => (yields r.1, listResult r.2.1, r.2.2)) = some ([.start, .item 1, .item 2, .item 3, .endError 3], some (some 3), 4) := rfl

/-! ## Errors that are not reported -/

/-- C38 fails for operations with raw error responses: an error within the limit ends in a panic, without `list_end_error`. -/
theorem C38_raw_error_fails {e : E} {s s' : σ} (m : Nat) (h : step s = .emit (.error e) s') :
    cliStep false step (.loop (m + 1, s)) = .tau .panicked := by
  simp [cliStep, listStep, takeStep, h]

/-- C38 fails for operations with raw error responses: `list_end_error` is never called. -/
theorem C38_raw_error_silent_fails (h : Trace (cliStep false step) (listInit n init) tr st) : ∀ e, ListReport.endError e ∉ yields tr := by
  intro e
  induction h with
  | start => simp [yields]
  | tau _ _ _ _ _ ih => exact ih
  | ask tr s q k r _ _ ih => rw [yields_snoc]; simpa using ih
  | done tr s s' _ _ ih => rw [yields_snoc]; simpa using ih
  | emit tr s x s' _ hs ih =>
    rw [yields_snoc]
    simp only [List.mem_append, List.mem_singleton]
    rintro (h | rfl)
    · exact ih h
    · cases s with
      | init y => simp [cliStep, listStep] at hs
      | over y => simp [cliStep, listStep] at hs
      | panicked => simp [cliStep, listStep] at hs
      | loop y =>
        simp only [cliStep, listStep] at hs
        split at hs
        · simp at hs
        · simp at hs
        · simp at hs
        · cases hs
        · cases hs

example : ((runFor (cliStep false (posStep (E := Nat) (I := Nat) exPages)) exServer 24 (listInit 9 (posInit exPages)) 0).map
      fun r => (yields r.1, match r.2.1 with | .panicked => true | _ => false)) = some ([.start, .item 1, .item 2, .item 3], true) := rfl

end Progenitor.Props

import Verif.Spec.Stream
import Verif.Props.Builder

/-!
# Paginated streams: C32 - C36
-/

namespace Progenitor.Props

open Progenitor Progenitor.Params Progenitor.Client Progenitor.Exec Progenitor.Builder Progenitor.Stream
open Progenitor.Spec (HasBuilder Optional laterValue observable Given FirstPage LaterPage queryArgs argSer Outcome CallOk inputsFor answers calls yields elements nextCall Forall₂)

variable {Q E I S : Type}

/-! ## The transition system against following tokens -/

/-- The closure of `try_unfold` for seeds made by `seed`. -/
structure Unfolds (f : S → Fut Q (Answer E I) (Except E (Option (List I × S)))) (seed : Option Str → S)
    (later : Str → Q) : Prop where
  stop : f (seed none) = .ready (.ok none)
  next : ∀ t, f (seed (some t)) = callMap (later t) fun page => some (page.items, seed page.next)

/-- What a state of the stream stands for: the elements not yet given out, and the call after them. -/
inductive Rel (first : Q) (later : Str → Q) (seed : Option Str → S) :
    PState Q E I S → List (Except E I) → Option Q → Prop
  | init : Rel first later seed (pageInit first seed) [] (some first)
  | firstOk (xs t) : Rel first later seed (.first (.ready (.ok (some xs, (none, .state (seed t))))))
      (xs.map .ok) (t.map later)
  | firstErr (e) : Rel first later seed (.first (.ready (.error e))) [.error e] none
  | empty : Rel first later seed .empty [] none
  | chain (xs t) : Rel first later seed (.second (some xs, (none, .state (seed t)))) (xs.map .ok) (t.map later)
  | rest (t) : Rel first later seed (.second (none, (none, .state (seed t)))) [] (t.map later)
  | call (t) : Rel first later seed
      (.second (none, (none, .fut (callMap (later t) fun page => some (page.items, seed page.next))))) [] (some (later t))
  | stop : Rel first later seed (.second (none, (none, .fut (.ready (.ok none))))) [] none
  | page (xs t) : Rel first later seed (.second (none, (none, .fut (.ready (.ok (some (xs, seed t)))))))
      (xs.map .ok) (t.map later)
  | err (e) : Rel first later seed (.second (none, (none, .fut (.ready (.error e))))) [.error e] none
  | inner (xs t) : Rel first later seed (.second (none, (some xs, .state (seed t)))) (xs.map .ok) (t.map later)
  | dead : Rel first later seed (.second (none, (none, .none))) [] none

/-- Internal steps left. -/
def rank : PState Q E I S → Nat
  | .first _ => 6
  | .second (some _, _) => 5
  | .second (none, (none, .fut (.ready (.ok (some _))))) => 5
  | .second (none, (some _, _)) => 4
  | .second (none, (none, .state _)) => 3
  | .second (none, (none, .fut (.call _ _))) => 2
  | _ => 0

/-- One step does what following tokens prescribes. -/
def Agrees (first : Q) (later : Str → Q) (seed : Option Str → S) (s : PState Q E I S) (p : List (Except E I))
    (n : Option Q) : Progenitor.Stream.Step Q (Answer E I) (Except E I) (PState Q E I S) → Prop
  | .tau s' => Rel first later seed s' p n ∧ rank s' < rank s
  | .emit x s' => ∃ p', p = x :: p' ∧ Rel first later seed s' p' n
  | .done s' => p = [] ∧ n = none ∧ Rel first later seed s' [] none
  | .ask q k => p = [] ∧ n = some q ∧ (∀ page, Rel first later seed (k (.ok page)) (page.items.map .ok) (page.next.map later)) ∧
      ∀ e, Rel first later seed (k (.error e)) [.error e] none

theorem sim {first : Q} {later : Str → Q} {seed : Option Str → S}
    {f : S → Fut Q (Answer E I) (Except E (Option (List I × S)))} (hf : Unfolds f seed later)
    {s : PState Q E I S} {p : List (Except E I)} {n : Option Q} (h : Rel first later seed s p n) :
    Agrees first later seed s p n (pageStep f s) := by
  cases h with
  | init => exact ⟨rfl, rfl, fun page => .firstOk _ _, fun e => .firstErr e⟩
  | firstOk xs t => exact ⟨.chain xs t, by show 5 < 6; decide⟩
  | firstErr e => exact ⟨[], rfl, .empty⟩
  | empty => exact ⟨rfl, rfl, .empty⟩
  | chain xs t =>
    cases xs with
    | nil => exact ⟨.rest t, by show 3 < 5; decide⟩
    | cons x xs => exact ⟨_, rfl, .chain xs t⟩
  | rest t =>
    cases t with
    | none =>
      have : pageStep f (.second (none, (none, .state (seed none)))) =
          .tau (.second (none, (none, .fut (f (seed none))))) := rfl
      rw [this, hf.stop]
      exact ⟨.stop, by show 0 < 3; decide⟩
    | some t =>
      have : pageStep f (.second (none, (none, .state (seed (some t))))) =
          .tau (.second (none, (none, .fut (f (seed (some t)))))) := rfl
      rw [this, hf.next]
      exact ⟨.call t, by show 2 < 3; decide⟩
  | call t => exact ⟨rfl, rfl, fun page => .page _ _, fun e => .err e⟩
  | stop => exact ⟨rfl, rfl, .dead⟩
  | page xs t => exact ⟨.inner xs t, by show 4 < 5; decide⟩
  | err e => exact ⟨[], rfl, .dead⟩
  | inner xs t =>
    cases xs with
    | nil => exact ⟨.rest t, by show 3 < 4; decide⟩
    | cons x xs => exact ⟨_, rfl, .inner xs t⟩
  | dead => exact ⟨rfl, rfl, .dead⟩

theorem yields_append (a b : List (Act Q (Answer E I) (Except E I))) : yields (a ++ b) = yields a ++ yields b := by
  simp [yields]

theorem answers_append (a b : List (Act Q (Answer E I) (Except E I))) : answers (a ++ b) = answers a ++ answers b := by
  simp [answers]

theorem elements_append (a b : List (Answer E I)) : elements (a ++ b) = elements a ++ elements b := by
  simp [elements]

/-- Where an execution has got to. -/
theorem trace_rel {first : Q} {later : Str → Q} {seed : Option Str → S}
    {f : S → Fut Q (Answer E I) (Except E (Option (List I × S)))} (hf : Unfolds f seed later)
    {tr : List (Act Q (Answer E I) (Except E I))} {s : PState Q E I S} (h : Trace (pageStep f) (pageInit first seed) tr s) :
    ∃ p, Rel first later seed s p (nextCall first later (answers tr)) ∧
      elements (answers tr) = yields tr ++ p := by
  induction h with
  | start => exact ⟨[], .init, rfl⟩
  | tau tr s s' _ hs ih =>
    obtain ⟨p, hr, he⟩ := ih
    have := sim hf hr
    rw [hs] at this
    exact ⟨p, this.1, he⟩
  | emit tr s x s' _ hs ih =>
    obtain ⟨p, hr, he⟩ := ih
    have := sim hf hr
    rw [hs] at this
    obtain ⟨p', rfl, hr'⟩ := this
    refine ⟨p', ?_, ?_⟩
    · simpa [answers] using hr'
    · rw [answers_append, elements_append, yields_append, he]
      simp [answers, elements, yields]
  | ask tr s q k r _ hs ih =>
    obtain ⟨p, hr, he⟩ := ih
    have := sim hf hr
    rw [hs] at this
    obtain ⟨rfl, hn, hok, herr⟩ := this
    rw [List.append_nil] at he
    cases r with
    | ok page =>
      refine ⟨_, by simpa [answers, nextCall] using hok page, ?_⟩
      rw [answers_append, elements_append, yields_append, he]
      simp [answers, elements, yields]
    | error e =>
      refine ⟨_, by simpa [answers, nextCall] using herr e, ?_⟩
      rw [answers_append, elements_append, yields_append, he]
      simp [answers, elements, yields]
  | done tr s s' _ hs ih =>
    obtain ⟨p, hr, he⟩ := ih
    have := sim hf hr
    rw [hs] at this
    obtain ⟨rfl, hn, hr'⟩ := this
    refine ⟨[], ?_, ?_⟩
    · rw [answers_append]
      simpa [answers, ← hn] using (by simpa [answers] using hn ▸ hr' : Rel first later seed s' [] (nextCall first later (answers tr)))
    · rw [answers_append, yields_append, elements_append, he]
      simp [answers, elements, yields]

/-- A prefix of an execution is an execution. -/
theorem trace_prefix {σ R X : Type} {step : σ → Progenitor.Stream.Step Q R X σ} {s0 s : σ} {tr : List (Act Q R X)}
    (h : Trace step s0 tr s) : ∀ pre a post, tr = pre ++ a :: post → ∃ s1, Trace step s0 pre s1 ∧
      match a with
      | .emitted x => ∃ s', step s1 = .emit x s'
      | .asked q _ => ∃ k, step s1 = .ask q k
      | .ended => ∃ s', step s1 = .done s' := by
  induction h with
  | start => intro pre a post h; simp at h
  | tau tr s s' _ _ ih => exact ih
  | emit tr s x s' h hs ih =>
    intro pre a post he
    rcases List.eq_nil_or_concat post with rfl | ⟨post, y, rfl⟩
    · obtain ⟨rfl, rfl⟩ := snoc_inj he
      exact ⟨s, h, s', hs⟩
    · rw [List.concat_eq_append, ← List.cons_append, ← List.append_assoc] at he
      obtain ⟨rfl, _⟩ := snoc_inj he
      exact ih pre a post rfl
  | ask tr s q k r h hs ih =>
    intro pre a post he
    rcases List.eq_nil_or_concat post with rfl | ⟨post, y, rfl⟩
    · obtain ⟨rfl, rfl⟩ := snoc_inj he
      exact ⟨s, h, k, hs⟩
    · rw [List.concat_eq_append, ← List.cons_append, ← List.append_assoc] at he
      obtain ⟨rfl, _⟩ := snoc_inj he
      exact ih pre a post rfl
  | done tr s s' h hs ih =>
    intro pre a post he
    rcases List.eq_nil_or_concat post with rfl | ⟨post, y, rfl⟩
    · obtain ⟨rfl, rfl⟩ := snoc_inj he
      exact ⟨s, h, s', hs⟩
    · rw [List.concat_eq_append, ← List.cons_append, ← List.append_assoc] at he
      obtain ⟨rfl, _⟩ := snoc_inj he
      exact ih pre a post rfl

/-- At each observable action: what was pending. -/
theorem at_action {first : Q} {later : Str → Q} {seed : Option Str → S}
    {f : S → Fut Q (Answer E I) (Except E (Option (List I × S)))} (hf : Unfolds f seed later)
    {tr : List (Act Q (Answer E I) (Except E I))} {s : PState Q E I S} (h : Trace (pageStep f) (pageInit first seed) tr s)
    (pre : List (Act Q (Answer E I) (Except E I))) (a : Act Q (Answer E I) (Except E I)) (post : List (Act Q (Answer E I) (Except E I)))
    (he : tr = pre ++ a :: post) : match a with
      | .emitted x => ∃ p, elements (answers pre) = yields pre ++ x :: p
      | .asked q _ => elements (answers pre) = yields pre ∧ nextCall first later (answers pre) = some q
      | .ended => elements (answers pre) = yields pre ∧ nextCall first later (answers pre) = none := by
  obtain ⟨s1, h1, ha⟩ := trace_prefix h pre a post he
  obtain ⟨p, hr, hp⟩ := trace_rel hf h1
  have hs := sim hf hr
  cases a with
  | emitted x =>
    obtain ⟨s', ha⟩ := ha
    rw [ha] at hs
    obtain ⟨p', rfl, _⟩ := hs
    exact ⟨p', hp⟩
  | asked q r =>
    obtain ⟨k, ha⟩ := ha
    rw [ha] at hs
    obtain ⟨rfl, hn, _⟩ := hs
    exact ⟨by simpa using hp, hn⟩
  | ended =>
    obtain ⟨k, ha⟩ := ha
    rw [ha] at hs
    obtain ⟨rfl, hn, _⟩ := hs
    exact ⟨by simpa using hp, hn⟩

/-- Internal steps. -/
inductive Taus {σ R X : Type} (step : σ → Progenitor.Stream.Step Q R X σ) : σ → σ → Prop
  | refl (s) : Taus step s s
  | next (s s' s'') : step s = .tau s' → Taus step s' s'' → Taus step s s''

/-- The next observable step: an element if one is pending, else a call if there is one to make, else the
end. -/
def NextAction {σ R X : Type} (step : σ → Progenitor.Stream.Step Q R X σ) (s : σ) : List X → Option Q → Prop
  | x :: _, _ => ∃ s', step s = .emit x s'
  | [], some q => ∃ k, step s = .ask q k
  | [], none => ∃ s', step s = .done s'

theorem progress {first : Q} {later : Str → Q} {seed : Option Str → S}
    {f : S → Fut Q (Answer E I) (Except E (Option (List I × S)))} (hf : Unfolds f seed later) (m : Nat)
    {s : PState Q E I S} {p : List (Except E I)} {n : Option Q} (hm : rank s ≤ m) (h : Rel first later seed s p n) :
    ∃ s1, Taus (pageStep f) s s1 ∧ NextAction (pageStep f) s1 p n := by
  induction m generalizing s with
  | zero =>
    have hs := sim hf h
    refine ⟨s, .refl s, ?_⟩
    cases hst : pageStep f s with
    | tau s' => rw [hst] at hs; have := hs.2; omega
    | emit x s' => rw [hst] at hs; obtain ⟨p', rfl, _⟩ := hs; exact ⟨s', hst⟩
    | ask q k => rw [hst] at hs; obtain ⟨rfl, rfl, _⟩ := hs; exact ⟨k, hst⟩
    | done s' => rw [hst] at hs; obtain ⟨rfl, rfl, _⟩ := hs; exact ⟨s', hst⟩
  | succ m ih =>
    have hs := sim hf h
    cases hst : pageStep f s with
    | tau s' =>
      rw [hst] at hs
      obtain ⟨s1, ht, h1⟩ := ih (by have := hs.2; omega) hs.1
      exact ⟨s1, .next _ _ _ hst ht, h1⟩
    | emit x s' => rw [hst] at hs; obtain ⟨p', rfl, _⟩ := hs; exact ⟨s, .refl s, s', hst⟩
    | ask q k => rw [hst] at hs; obtain ⟨rfl, rfl, _⟩ := hs; exact ⟨s, .refl s, k, hst⟩
    | done s' => rw [hst] at hs; obtain ⟨rfl, rfl, _⟩ := hs; exact ⟨s, .refl s, s', hst⟩

/-! ## The two kinds of streams -/

variable {B : Type}

theorem pos_unfolds (step : Str → List Value) :
    Unfolds (E := E) (I := I) (positionalUnfold step) id step := ⟨rfl, fun _ => rfl⟩

theorem bld_unfolds (next : State B) :
    Unfolds (E := E) (I := I) builderUnfold (fun t => (t, next)) (fun t => withToken t next) := ⟨rfl, fun _ => rfl⟩

/-- The streams that are generated, with the call for the first page and the calls for tokens. -/
inductive PageStream (B E I : Type) : (Q σ : Type) → (σ → Progenitor.Stream.Step Q (Answer E I) (Except E I) σ) → σ →
    Q → (Str → Q) → Prop
  | positional (first : List Value) (later : Str → List Value) :
      PageStream B E I _ _ (posStep (first, later)) (posInit (first, later)) first later
  | builder (s : State B) : PageStream B E I _ _ bldStep (bldInit s) s fun t => withToken t (nextTemplate s)

variable {σ : Type} {step : σ → Progenitor.Stream.Step Q (Answer E I) (Except E I) σ} {init s : σ} {first : Q} {later : Str → Q}
  {tr : List (Act Q (Answer E I) (Except E I))}

/-- C32: in every execution the elements obtained are the items (and the error) of the pages received, in
order, up to those not yet asked for. -/
theorem C32_prefix (hst : PageStream B E I Q σ step init first later) (h : Trace step init tr s) :
    ∃ rest, elements (answers tr) = yields tr ++ rest := by
  cases hst with
  | positional first later => obtain ⟨p, _, hp⟩ := trace_rel (pos_unfolds _) h; exact ⟨p, hp⟩
  | builder b => obtain ⟨p, _, hp⟩ := trace_rel (bld_unfolds _) h; exact ⟨p, hp⟩

/-- C32: when the stream ends, everything was given out, and there was no further page. -/
theorem C32_complete (hst : PageStream B E I Q σ step init first later) (h : Trace step init tr s)
    (pre post : List (Act Q (Answer E I) (Except E I))) (he : tr = pre ++ .ended :: post) :
    yields pre = elements (answers pre) ∧ nextCall first later (answers pre) = none := by
  cases hst with
  | positional first later => have := at_action (pos_unfolds _) h _ _ _ he; exact ⟨this.1.symm, this.2⟩
  | builder b => have := at_action (bld_unfolds _) h _ _ _ he; exact ⟨this.1.symm, this.2⟩

/-- C32: the stream makes progress: after finitely many internal steps it gives out the next item if there is
one, else it makes the next call if there is one, else it ends. -/
theorem C32_progress (hst : PageStream B E I Q σ step init first later) (h : Trace step init tr s) :
    ∃ rest s1, elements (answers tr) = yields tr ++ rest ∧ Taus step s s1 ∧
      NextAction step s1 rest (nextCall first later (answers tr)) := by
  cases hst with
  | positional first later =>
    obtain ⟨p, hr, hp⟩ := trace_rel (pos_unfolds _) h
    obtain ⟨s1, ht, h1⟩ := progress (pos_unfolds _) _ (Nat.le_refl _) hr
    exact ⟨p, s1, hp, ht, h1⟩
  | builder b =>
    obtain ⟨p, hr, hp⟩ := trace_rel (bld_unfolds _) h
    obtain ⟨s1, ht, h1⟩ := progress (bld_unfolds _) _ (Nat.le_refl _) hr
    exact ⟨p, s1, hp, ht, h1⟩

/-- C33: each call is the one that following tokens prescribes. -/
theorem C33_calls (hst : PageStream B E I Q σ step init first later) (h : Trace step init tr s)
    (pre post : List (Act Q (Answer E I) (Except E I))) (q : Q) (r : Answer E I) (he : tr = pre ++ .asked q r :: post) :
    nextCall first later (answers pre) = some q := by
  cases hst with
  | positional first later => exact (at_action (pos_unfolds _) h _ _ _ he).2
  | builder b => exact (at_action (bld_unfolds _) h _ _ _ he).2

/-- C34: after a page without token, or an error, no call is made. -/
theorem C34_no_more_calls (hst : PageStream B E I Q σ step init first later) (h : Trace step init tr s)
    (pre post : List (Act Q (Answer E I) (Except E I))) (q : Q) (r : Answer E I) (he : tr = pre ++ .asked q r :: post)
    (hr : (∃ e, r = .error e) ∨ ∃ page, r = .ok page ∧ page.next = none) : calls post = [] := by
  cases hc : calls post with
  | nil => rfl
  | cons q' qs =>
    exfalso
    have : ∃ mid r' post', post = mid ++ .asked q' r' :: post' ∧ calls mid = [] := by
      clear he
      induction post with
      | nil => simp [calls] at hc
      | cons a post ih =>
        cases a with
        | asked q1 r1 =>
          have : q1 = q' := by simp [calls] at hc; exact hc.1
          subst this
          exact ⟨[], r1, post, rfl, rfl⟩
        | emitted x =>
          obtain ⟨mid, r', post', h1, h2⟩ := ih (by simpa [calls] using hc)
          exact ⟨.emitted x :: mid, r', post', by rw [h1]; rfl, by simpa [calls] using h2⟩
        | ended =>
          obtain ⟨mid, r', post', h1, h2⟩ := ih (by simpa [calls] using hc)
          exact ⟨.ended :: mid, r', post', by rw [h1]; rfl, by simpa [calls] using h2⟩
    obtain ⟨mid, r', post', rfl, hmid⟩ := this
    have h1 := C33_calls hst h (pre ++ .asked q r :: mid) post' q' r' (by rw [he]; simp)
    have ha : answers mid = [] := by
      clear hc he h1
      induction mid with
      | nil => rfl
      | cons a mid ih =>
        cases a with
        | asked q1 r1 => simp [calls] at hmid
        | emitted x => simpa [answers] using ih (by simpa [calls] using hmid)
        | ended => simpa [answers] using ih (by simpa [calls] using hmid)
    have : answers (pre ++ .asked q r :: mid) = answers pre ++ [r] := by
      rw [answers_append]
      have : answers (.asked q r :: mid) = r :: answers mid := rfl
      rw [this, ha]
    rw [this] at h1
    unfold nextCall at h1
    rw [List.getLast?_concat] at h1
    rcases hr with ⟨e, rfl⟩ | ⟨page, rfl, hp⟩
    · cases h1
    · simp [hp] at h1

/-- Errors among answers come last. -/
theorem answers_error (hst : PageStream B E I Q σ step init first later) (h : Trace step init tr s)
    (rs rs' : List (Answer E I)) (e : E) (he : answers tr = rs ++ .error e :: rs') : rs' = [] := by
  have : ∃ pre q post, tr = pre ++ .asked q (.error e) :: post ∧ answers post = rs' := by
    clear h hst
    induction tr generalizing rs with
    | nil => simp [answers] at he
    | cons a tr ih =>
      have cons : (∃ pre q post, tr = pre ++ .asked q (.error e) :: post ∧ answers post = rs') →
          ∃ pre q post, a :: tr = pre ++ .asked q (.error e) :: post ∧ answers post = rs' := by
        rintro ⟨pre, q, post, h1, h2⟩
        exact ⟨a :: pre, q, post, by rw [h1]; rfl, h2⟩
      cases a with
      | asked q r =>
        have : answers (.asked q r :: tr) = r :: answers tr := rfl
        rw [this] at he
        cases rs with
        | nil =>
          simp only [List.nil_append, List.cons.injEq] at he
          exact ⟨[], q, tr, by rw [he.1]; rfl, he.2⟩
        | cons r0 rs =>
          simp only [List.cons_append, List.cons.injEq] at he
          exact cons (ih rs he.2)
      | emitted x => exact cons (ih rs (by simpa [answers] using he))
      | ended => exact cons (ih rs (by simpa [answers] using he))
  obtain ⟨pre, q, post, h1, h2⟩ := this
  have := C34_no_more_calls hst h pre post q _ h1 (.inl ⟨e, rfl⟩)
  rw [← h2]
  clear h1 h2
  induction post with
  | nil => rfl
  | cons a post ih =>
    cases a with
    | asked q1 r1 => simp [calls] at this
    | emitted x => simpa [answers] using ih (by simpa [calls] using this)
    | ended => simpa [answers] using ih (by simpa [calls] using this)

/-- C34: an error is given out once and last: what was given out is items, then possibly one error, which
is then the answer to the last call. -/
theorem C34_error_last (hst : PageStream B E I Q σ step init first later) (h : Trace step init tr s)
    (xs ys : List (Except E I)) (e : E) (he : yields tr = xs ++ .error e :: ys) :
    ys = [] ∧ (∀ x ∈ xs, ∃ i, x = .ok i) ∧ ∃ rs, answers tr = rs ++ [.error e] ∧ elements rs = xs := by
  obtain ⟨rest, hp⟩ := C32_prefix hst h
  have key : ∀ (rs : List (Answer E I)), (∀ a b e', rs = a ++ .error e' :: b → b = []) →
      ∀ zs, elements rs = xs ++ .error e :: zs →
      zs = [] ∧ (∀ x ∈ xs, ∃ i, x = .ok i) ∧ ∃ rs', rs = rs' ++ [.error e] ∧ elements rs' = xs := by
    clear hp he h hst
    intro rs
    induction rs generalizing xs with
    | nil => intro _ zs h; simp [elements] at h
    | cons r rs ih =>
      intro hlast zs h
      have hcons : elements (r :: rs) = elements [r] ++ elements rs := elements_append [r] rs
      rw [hcons] at h
      cases r with
      | error e' =>
        have := hlast [] rs e' rfl
        subst this
        have e1 : elements ([.error e'] : List (Answer E I)) = [.error e'] := rfl
        have e2 : elements ([] : List (Answer E I)) = [] := rfl
        rw [e1, e2] at h
        cases xs with
        | nil =>
          simp only [List.nil_append, List.append_nil, List.cons.injEq] at h
          cases h.1
          exact ⟨h.2.symm, by simp, [], rfl, rfl⟩
        | cons x xs =>
          simp at h
      | ok page =>
        have e1 : elements ([.ok page] : List (Answer E I)) = page.items.map .ok := by simp [elements]
        rw [e1] at h
        rcases List.append_eq_append_iff.mp h with ⟨as, h1, h2⟩ | ⟨bs, h1, h2⟩
        · obtain ⟨r1, r2, rs', r3, r4⟩ := ih as (fun a b e' hab => hlast (.ok page :: a) b e' (by rw [hab]; rfl)) zs h2
          refine ⟨r1, ?_, .ok page :: rs', by rw [r3]; rfl, ?_⟩
          · intro x hx
            rw [h1, List.mem_append] at hx
            rcases hx with hx | hx
            · obtain ⟨i, _, rfl⟩ := List.mem_map.mp hx
              exact ⟨i, rfl⟩
            · exact r2 x hx
          · have : elements (.ok page :: rs') = elements [.ok page] ++ elements rs' := elements_append [.ok page] rs'
            rw [this, e1, r4, h1]
        · cases bs with
          | nil =>
            simp only [List.nil_append] at h2
            obtain ⟨r1, r2, rs', r3, r4⟩ := ih [] (fun a b e' hab => hlast (.ok page :: a) b e' (by rw [hab]; rfl)) zs h2.symm
            refine ⟨r1, ?_, .ok page :: rs', by rw [r3]; rfl, ?_⟩
            · intro x hx
              rw [List.append_nil] at h1
              rw [← h1] at hx
              obtain ⟨i, _, rfl⟩ := List.mem_map.mp hx
              exact ⟨i, rfl⟩
            · have : elements (.ok page :: rs') = elements [.ok page] ++ elements rs' := elements_append [.ok page] rs'
              rw [this, e1, r4, h1]
              simp
          | cons b bs =>
            simp only [List.cons_append, List.cons.injEq] at h2
            have : (Except.error e : Except E I) ∈ page.items.map .ok := by rw [h1, h2.1]; simp
            obtain ⟨i, _, hi⟩ := List.mem_map.mp this
            cases hi
  rw [he] at hp
  obtain ⟨h1, h2, h3⟩ := key (answers tr) (fun a b e' hab => answers_error hst h a b e' hab) (ys ++ rest) (by rw [hp]; simp)
  exact ⟨(List.append_eq_nil_iff.mp h1).1, h2, h3⟩

/-- C35: creating a stream makes no call. -/
theorem C35_nothing_at_start (hst : PageStream B E I Q σ step init first later) :
    ∃ k, step init = .ask first k ∧ Trace step init [] init := by
  cases hst with
  | positional first later => exact ⟨_, rfl, .start⟩
  | builder b => exact ⟨_, rfl, .start⟩

/-- C35: a call is made only when everything received so far was given out. -/
theorem C35_on_demand (hst : PageStream B E I Q σ step init first later) (h : Trace step init tr s)
    (pre post : List (Act Q (Answer E I) (Except E I))) (q : Q) (r : Answer E I) (he : tr = pre ++ .asked q r :: post) :
    yields pre = elements (answers pre) := by
  cases hst with
  | positional first later => exact (at_action (pos_unfolds _) h _ _ _ he).1.symm
  | builder b => exact (at_action (bld_unfolds _) h _ _ _ he).1.symm

/-- C35: an execution that stops at its `n`-th element has made no call beyond the one that supplied it: the
answers but the last do not contain `n` elements. -/
theorem C35_no_page_beyond (hst : PageStream B E I Q σ step init first later) (x : Except E I)
    (h : Trace step init (tr ++ [.emitted x]) s) (rs : List (Answer E I)) (r : Answer E I)
    (hrs : answers (tr ++ [.emitted x]) = rs ++ [r]) :
    (elements rs).length < (yields (tr ++ [.emitted x])).length := by
  have : ∃ pre q post, tr = pre ++ .asked q r :: post ∧ answers pre = rs := by
    have hrs : answers tr = rs ++ [r] := by simpa [answers] using hrs
    clear h hst
    induction tr generalizing rs with
    | nil => simp [answers] at hrs
    | cons a tr ih =>
      cases a with
      | asked q r' =>
        have hc : answers (.asked q r' :: tr) = r' :: answers tr := rfl
        rw [hc] at hrs
        cases rs with
        | nil =>
          simp only [List.nil_append, List.cons.injEq] at hrs
          exact ⟨[], q, tr, by rw [hrs.1]; rfl, rfl⟩
        | cons r0 rs =>
          simp only [List.cons_append, List.cons.injEq] at hrs
          obtain ⟨pre, q', post, h1, h2⟩ := ih rs (by simpa [answers] using hrs.2) hrs.2
          refine ⟨.asked q r' :: pre, q', post, by rw [h1]; rfl, ?_⟩
          have : answers (.asked q r' :: pre) = r' :: answers pre := rfl
          rw [this, h2, hrs.1]
      | emitted x' =>
        have hrs' : answers tr = rs ++ [r] := by simpa [answers] using hrs
        obtain ⟨pre, q', post, h1, h2⟩ := ih rs (by simpa [answers] using hrs') hrs'
        exact ⟨.emitted x' :: pre, q', post, by rw [h1]; rfl, by simpa [answers] using h2⟩
      | ended =>
        have hrs' : answers tr = rs ++ [r] := by simpa [answers] using hrs
        obtain ⟨pre, q', post, h1, h2⟩ := ih rs (by simpa [answers] using hrs') hrs'
        exact ⟨.ended :: pre, q', post, by rw [h1]; rfl, by simpa [answers] using h2⟩
  obtain ⟨pre, q, post, h1, h2⟩ := this
  have h3 := C35_on_demand hst h pre (post ++ [.emitted x]) q r (by rw [h1]; simp)
  rw [← h2, ← h3, h1, yields_append, yields_append, List.length_append, List.length_append]
  have : (yields ([.emitted x] : List (Act Q (Answer E I) (Except E I)))).length = 1 := rfl
  omega

/-! ## Arguments of the calls -/

theorem mapM?_forall₂ {α β : Type} {f : α → Option β} {l : List α} {ys : List β} :
    mapM? f l = some ys ↔ Forall₂ (fun x y => f x = some y) l ys := by
  constructor
  · intro h
    induction l generalizing ys with
    | nil => cases h; exact .nil
    | cons x l ih =>
      simp only [mapM?] at h
      split at h
      · rename_i y ys' h1 h2
        cases h
        exact .cons h1 (ih h2)
      · cases h
  · intro h
    induction h with
    | nil => rfl
    | cons h1 _ ih => simp [mapM?, h1, ih]

theorem forall₂_zip {α β} {R : α → β → Prop} {xs : List α} {ys : List β} (h : Forall₂ R xs ys) :
    xs.length = ys.length ∧ ∀ x y, (x, y) ∈ xs.zip ys → R x y := by
  induction h with
  | nil => simp
  | @cons a b xs ys h1 _ ih =>
    refine ⟨by simp [ih.1], ?_⟩
    intro x y hxy
    simp only [List.zip_cons_cons, List.mem_cons, Prod.mk.injEq] at hxy
    rcases hxy with ⟨rfl, rfl⟩ | hxy
    · exact h1
    · exact ih.2 x y hxy

theorem forall₂_of_zip {α β} {R : α → β → Prop} {xs : List α} {ys : List β} (hl : xs.length = ys.length)
    (h : ∀ x y, (x, y) ∈ xs.zip ys → R x y) : Forall₂ R xs ys := by
  induction xs generalizing ys with
  | nil => cases ys with
    | nil => exact .nil
    | cons _ _ => simp at hl
  | cons x xs ih => cases ys with
    | nil => simp at hl
    | cons y ys =>
      exact .cons (h x y (by simp)) (ih (by simpa using hl) fun a b hab => h a b (by simp [hab]))

theorem mem_zip_left {α β} {xs : List α} {ys : List β} (hl : xs.length = ys.length) {x : α} (hx : x ∈ xs) :
    ∃ y, (x, y) ∈ xs.zip ys := by
  induction xs generalizing ys with
  | nil => cases hx
  | cons a xs ih => cases ys with
    | nil => cases hl
    | cons b ys =>
      rcases List.mem_cons.mp hx with h | h
      · exact ⟨b, by rw [h]; exact List.mem_cons_self⟩
      · obtain ⟨y, hy⟩ := ih (Nat.succ.inj hl) h
        exact ⟨y, List.mem_cons_of_mem _ hy⟩

theorem lookup_mem {env : Env} {x : Str} {v : Value} (h : lookup env x = some v) : (x, v) ∈ env := by
  unfold lookup at h
  cases hf : env.find? (fun e => e.1 = x) with
  | none => rw [hf] at h; cases h
  | some e =>
    rw [hf] at h
    cases h
    have := List.find?_some hf
    simp only [decide_eq_true_eq] at this
    rw [← this]
    exact List.mem_of_find?_eq_some hf

theorem lookup_stepEnv {env : Env} {x : Str} {v : Value} (h : lookup (stepEnv env) x = some v) (hv : v ≠ .internal) :
    lookup env x = some v := by
  unfold stepEnv lookup at h
  simp only [List.find?_cons] at h
  repeat' split at h
  all_goals first
    | (simp at h; exact absurd h.symm hv)
    | exact h

/-- Without capture names are found as before. -/
theorem lookup_stepEnv_ne {env : Env} {x : Str} (h1 : x ≠ "state".toList) (h2 : x ≠ "first".toList)
    (h3 : x ≠ "page".toList) : lookup (stepEnv env) x = lookup env x := by
  unfold stepEnv lookup
  rw [List.find?_cons_of_neg (by simpa using fun h => h1 h.symm), List.find?_cons_of_neg (by simpa using fun h => h2 h.symm),
    List.find?_cons_of_neg (by simpa using fun h => h3 h.symm)]

theorem name_inj {params : List Param} (hn : (params.map Param.name).Nodup) {p q : Param} (hp : p ∈ params)
    (hq : q ∈ params) (h : p.name = q.name) : p = q := by
  induction params with
  | nil => simp at hp
  | cons r rs ih =>
    simp only [List.map_cons, List.nodup_cons] at hn
    rcases List.mem_cons.mp hp with h1 | h1 <;> rcases List.mem_cons.mp hq with h2 | h2
    · rw [h1, h2]
    · exact absurd (List.mem_map.mpr ⟨q, h2, by rw [← h, h1]⟩) hn.1
    · exact absurd (List.mem_map.mpr ⟨p, h1, by rw [h, h2]⟩) hn.1
    · exact ih hn.2 h1 h2

theorem bindArgs_eq {params : List Param} {args : List Value} {env : Env} (h : bindArgs params args = some env) :
    env = (params.map Param.name).zip args := by
  unfold bindArgs at h
  split at h
  · cases h; rfl
  · cases h

theorem lookup_given {params : List Param} {args : List Value} {env : Env} (hn : (params.map Param.name).Nodup)
    (hb : bindArgs (streamParams params) args = some env) {p : Param} (hp : p ∈ params) {v : Value}
    (h : lookup env p.name = some v) : Given params args p v := by
  have hm := lookup_mem h
  rw [bindArgs_eq hb, List.zip_map_left] at hm
  obtain ⟨⟨q, v'⟩, hqv, he⟩ := List.mem_map.mp hm
  simp only [Prod.map_apply, id_eq, Prod.mk.injEq] at he
  obtain ⟨h1, rfl⟩ := he
  have hq : q ∈ params := (List.mem_filter.mp (List.of_mem_zip hqv).1).1
  have := name_inj hn hq hp h1
  subst this
  exact hqv

theorem typed_internal (p : Param) : typed p .internal = false := by
  unfold typed
  cases p.typ <;> cases p.kind <;> try rfl
  all_goals (rename_i b; cases b <;> rfl)

theorem typed_token {p : Param} {a b : Arg} (h : typed p (.opt (some a)) = true) : typed p (.opt (some b)) = true := by
  unfold typed at h ⊢
  cases ht : p.typ <;> cases hk : p.kind <;> simp_all
  all_goals (rename_i r; cases r <;> simp_all)

theorem isQuery_iff (k : Kind) : isQuery k = true ↔ ∃ r, k = .query r := by
  cases k <;> simp [isQuery]

theorem bindArgs_retype {params : List Param} {vs ws : List Value} {env : Env} (h : bindArgs params vs = some env)
    (hl : params.length = ws.length) (ht : ∀ p w, (p, w) ∈ params.zip ws → typed p w = true) :
    bindArgs params ws = some ((params.map Param.name).zip ws) := by
  have := bindArgs_some h
  unfold bindArgs
  rw [if_pos ⟨this.1, hl, List.all_eq_true.mpr fun x hx => ht x.1 x.2 hx⟩]

theorem positionalArgs_inv {types : Types} {params : List Param} {args fa : List Value} {la : Str → List Value}
    (h : positionalArgs types params args = some (fa, la)) :
    Forall₂ (FirstPage params args) params fa ∧ (∀ t, Forall₂ (LaterPage params args t) params (la t)) ∧
    bindArgs params fa = some ((params.map Param.name).zip fa) ∧
    (∀ t, bindArgs params (la t) = some ((params.map Param.name).zip (la t))) ∧
    tokenTyped types params = true := by
  unfold positionalArgs at h
  split at h
  case h_1 => cases h
  rename_i env hb
  split at h
  case h_2 => cases h
  rename_i fa' sa hfa hsa
  split at h
  case isFalse => cases h
  rename_i hc
  cases h
  obtain ⟨htok, _, hc1, hc2⟩ := hc
  obtain ⟨env1, hb1⟩ := Option.isSome_iff_exists.mp hc1
  obtain ⟨env2, hb2⟩ := Option.isSome_iff_exists.mp hc2
  have hn := (bindArgs_some hb1).1
  have h1 := mapM?_forall₂.mp hfa
  have h2 := mapM?_forall₂.mp hsa
  have typed2 := (bindArgs_some hb2).2.2.1
  -- the later arguments exist for every token
  have hlater : ∀ t, Forall₂ (fun p v => stepArg env t p = some v ∧ typed p v = true) params
      ((mapM? (stepArg env t) params).getD []) := by
    intro t
    have hex : ∀ x ∈ params, ∃ y, stepArg env t x = some y := by
      intro p hp
      unfold stepArg
      split
      · exact ⟨_, rfl⟩
      · rename_i hpt
        have : ∃ v, stepArg env [] p = some v := by
          have hm := mapM?_some hsa
          have : stepArg env [] p ∈ params.map (stepArg env []) := List.mem_map.mpr ⟨p, hp, rfl⟩
          rw [hm] at this
          obtain ⟨v, _, hv⟩ := List.mem_map.mp this
          exact ⟨v, hv.symm⟩
        unfold stepArg at this
        rw [if_neg hpt] at this
        exact this
    obtain ⟨ys, hys⟩ := mapM?_of hex
    rw [hys]
    have hys := mapM?_forall₂.mp hys
    simp only [Option.getD_some]
    have : ∀ (ps : List Param) (ys sa : List Value), Forall₂ (fun p v => stepArg env t p = some v) ps ys →
        Forall₂ (fun p v => stepArg env [] p = some v) ps sa → (∀ p v, (p, v) ∈ ps.zip sa → typed p v = true) →
        Forall₂ (fun p v => stepArg env t p = some v ∧ typed p v = true) ps ys := by
      intro ps ys sa hy hs ht
      induction hy generalizing sa with
      | nil => exact .nil
      | @cons p v ps ys hv _ ih =>
        cases hs with
        | @cons _ w _ ws hw hs =>
          refine .cons ⟨hv, ?_⟩ (ih ws hs fun q u hq => ht q u (by simp [hq]))
          have hwt := ht p w (by simp)
          unfold stepArg at hv hw
          by_cases hpt : p.apiName = "page_token".toList
          · rw [if_pos hpt] at hv hw
            cases hv; cases hw
            exact typed_token hwt
          · rw [if_neg hpt] at hv hw
            rw [hv] at hw
            cases hw
            exact hwt
    exact this params ys sa hys h2 typed2
  refine ⟨?_, ?_, ?_, ?_, htok⟩
  · refine forall₂_imp_mem (fun p hp v hv => ?_) h1
    unfold firstArg at hv
    unfold FirstPage
    split
    · rename_i hpt
      rw [if_pos hpt] at hv
      exact (Option.some.inj hv).symm
    · rename_i hpt
      rw [if_neg hpt] at hv
      exact lookup_given hn hb hp hv
  · intro t
    refine forall₂_imp_mem (fun p hp v hv => ?_) (hlater t)
    obtain ⟨hv, hty⟩ := hv
    unfold stepArg at hv
    unfold LaterPage
    split
    · rename_i hpt
      rw [if_pos hpt] at hv
      exact (Option.some.inj hv).symm
    · rename_i hpt
      rw [if_neg hpt] at hv
      simp only [Bool.and_eq_true, decide_eq_true_eq, isQuery_iff] at hv
      split
      · rename_i hq
        rw [if_pos hq] at hv
        exact (Option.some.inj hv).symm
      · rename_i hq
        rw [if_neg hq] at hv
        refine lookup_given hn hb hp (lookup_stepEnv hv ?_)
        rintro rfl
        rw [typed_internal] at hty
        cases hty
  · rw [hb1, bindArgs_eq hb1]
  · intro t
    have := forall₂_zip (hlater t)
    exact bindArgs_retype hb1 this.1 fun p w hpw => (this.2 p w hpw).2

/-- C33 (positional): the first page is requested with the arguments given and no token; the page of token `t`
with that token, the limit and the arguments that are not in the query as given, and no other
query argument. -/
theorem C33_positional_args (types : Types) (params : List Param) (args fa : List Value) (la : Str → List Value)
    (h : positionalArgs types params args = some (fa, la)) :
    Forall₂ (FirstPage params args) params fa ∧ ∀ t, Forall₂ (LaterPage params args t) params (la t) :=
  ⟨(positionalArgs_inv h).1, (positionalArgs_inv h).2.1⟩

/-- C33: the query arguments of a later page other than the limit are the token. -/
theorem C33_query (types : Types) (params : List Param) (args fa : List Value) (la : Str → List Value) (t : Str)
    (h : positionalArgs types params args = some (fa, la)) (n : Str) (v : Query.Ser)
    (hq : (n, v) ∈ queryArgs params (la t)) :
    if n = "page_token".toList then v = .some (.str t) else n ≠ "limit".toList → v = .none := by
  have h1 := (forall₂_zip ((positionalArgs_inv h).2.1 t)).2
  obtain ⟨⟨p, w⟩, hpw, he⟩ := List.mem_filterMap.mp hq
  have hl := h1 p w hpw
  unfold LaterPage at hl
  simp only at he
  split at he
  · rename_i r hk
    cases hw : argSer w with
    | none => rw [hw] at he; cases he
    | some s =>
      rw [hw] at he
      simp only [Option.map_some, Option.some.injEq, Prod.mk.injEq] at he
      obtain ⟨rfl, rfl⟩ := he
      by_cases hpt : p.apiName = "page_token".toList
      · rw [if_pos hpt] at hl ⊢
        subst hl
        cases hw
        rfl
      · rw [if_neg hpt] at hl ⊢
        intro hlim
        rw [if_pos ⟨hlim, r, hk⟩] at hl
        subst hl
        cases hw
        rfl
  · cases he

variable {P V : Type}

/-- The rust name of the token parameter is `page_token`, and of no other. -/
def TokenNamed (params : List Param) : Prop :=
  ∀ p ∈ params, p.apiName = "page_token".toList ↔ p.name = "page_token".toList

theorem builderStream_inv {tt : TypeTable B} {types : Types} {params : List Param} {calls : List (Call B)} {s : State B}
    (h : builderStream tt types params calls = some s) :
    structOk tt params true = true ∧ setAll tt (new tt params) calls = some s ∧ tokenTyped types params = true ∧
    (∃ p ∈ params, p.name = "page_token".toList ∧ p.kind = .query false) ∧
    ∀ p ∈ params, p.kind ≠ .query true ∧ ∃ t, p.typ = .type t := by
  unfold builderStream at h
  split at h
  case isFalse => cases h
  rename_i hc
  unfold builderStreamOk copied at hc
  simp only [Bool.and_eq_true, List.any_eq_true, List.all_eq_true, decide_eq_true_eq] at hc
  refine ⟨hc.1, h, hc.2.1.1.1, hc.2.1.1.2, fun p hp => ?_⟩
  constructor
  · intro hk
    have := hc.2.1.2 p hp
    simp [queryOptional, hk] at this
  · cases ht : p.typ with
    | type t => exact ⟨t, rfl⟩
    | rawBody => exact absurd ht (hc.2.2 p hp)

theorem forall₂_zipWith {α β γ} {R : α → β → Prop} {T : α → γ → Prop} {f : α → β → γ} {xs : List α} {ys : List β}
    (h : Forall₂ R xs ys) (hf : ∀ x ∈ xs, ∀ y, R x y → T x (f x y)) : Forall₂ T xs (List.zipWith f xs ys) := by
  induction h with
  | nil => exact .nil
  | @cons x y xs ys h1 _ ih => exact .cons (hf x (by simp) y h1) (ih fun x hx => hf x (by simp [hx]))

theorem forall₂_map_right {α β γ} {R : α → γ → Prop} {f : β → γ} {xs : List α} {ys : List β}
    (h : Forall₂ (fun x y => R x (f y)) xs ys) : Forall₂ R xs (ys.map f) := by
  induction h with
  | nil => exact .nil
  | cons h1 _ ih => exact .cons h1 ih

/-- The outcome for a parameter in the builder for the page of token `t`. -/
def LaterOutcome (R : Param → Except Str Value → Prop) (t : Str) (p : Param) (o : Except Str Value) : Prop :=
  if p.name = "page_token".toList then o = .ok (.opt (some ⟨t, .str t⟩))
  else if p.apiName ≠ "limit".toList ∧ ∃ r, p.kind = .query r then o = .ok (.opt none)
  else R p o

theorem later_outcome {tt : TypeTable B} {params : List Param} {s : State B} {R : Param → Except Str Value → Prop}
    (t : Str) (h : Forall₂ (fun p x => x.1 = p ∧ R p (finalize tt p x.2)) params s) :
    Forall₂ (fun p x => x.1 = p ∧ LaterOutcome R t p (finalize tt p x.2)) params (withToken t (nextTemplate s)) := by
  unfold withToken nextTemplate
  refine forall₂_map_right (forall₂_map_right (forall₂_imp ?_ h))
  rintro p ⟨q, f⟩ ⟨rfl, hr⟩
  unfold nextField LaterOutcome
  simp only [Bool.and_eq_true, decide_eq_true_eq, isQuery_iff] at hr ⊢
  by_cases h1 : q.name = "page_token".toList
  · by_cases h2 : q.apiName ≠ "limit".toList ∧ ∃ r, q.kind = .query r
    · simp only [if_pos h2, if_pos h1]; exact ⟨trivial, rfl⟩
    · simp only [if_neg h2, if_pos h1]; exact ⟨trivial, rfl⟩
  · by_cases h2 : q.apiName ≠ "limit".toList ∧ ∃ r, q.kind = .query r
    · simp only [if_pos h2, if_neg h1]; exact ⟨trivial, rfl⟩
    · simp only [if_neg h2, if_neg h1]; exact ⟨trivial, hr⟩

theorem bind_of_typed {params : List Param} {vs : List Value} (hn : (params.map Param.name).Nodup)
    (h : Forall₂ (fun p v => typed p v = true) params vs) :
    bindArgs params vs = some ((params.map Param.name).zip vs) := by
  have := forall₂_zip h
  unfold bindArgs
  rw [if_pos ⟨hn, this.1, List.all_eq_true.mpr fun x hx => this.2 x.1 x.2 hx⟩]

/-- C33 (builder): the first page is requested as `send` would with the values set, the page of token `t` with
that token, the same limit and the same arguments outside the query, and no other query argument. -/
theorem C33_builder_args (cfg : Config) (hooks : Hooks) (w : World) (decode : TypeId → Bytes → Except P V)
    (tt : TypeTable B) (types : Types) (params : List Param) (c : Code) (hist : List Event) (calls : List (Call B))
    (s : State B) (hs : builderStream tt types params calls = some s) (htok : TokenNamed params)
    (vs : List Value) (hv : Forall₂ (fun p v => Outcome tt p (inputsFor calls p.name) (.ok v)) params vs) :
    send cfg hooks w decode tt c hist s = call cfg hooks w decode params c hist vs ∧
    ∀ t, send cfg hooks w decode tt c hist (withToken t (nextTemplate s)) =
      call cfg hooks w decode params c hist (List.zipWith (laterValue t) params vs) := by
  obtain ⟨hok, hset, _, ⟨pt, hpt, hptn, hptk⟩, hall⟩ := builderStream_inv hs
  have hn := structOk_nodup hok
  have r := setAll_new tt params calls s hn hset
  have huniq : ∀ p o o', Outcome tt p (inputsFor calls p.name) o → Outcome tt p (inputsFor calls p.name) o' → o = o' :=
    fun p o o' h h' => outcome_unique h h' rfl
  constructor
  · unfold send call
    rw [finalizeAll_ok tt huniq r vs hv, bind_of_typed hn (forall₂_imp (fun h => outcome_typed h) hv)]
  · intro t
    have r' := later_outcome t r
    have huniq' : ∀ p o o', LaterOutcome (fun p o => Outcome tt p (inputsFor calls p.name) o) t p o →
        LaterOutcome (fun p o => Outcome tt p (inputsFor calls p.name) o) t p o' → o = o' := by
      intro p o o' h h'
      unfold LaterOutcome at h h'
      split at h
      · rename_i hc; rw [if_pos hc] at h'; rw [h, h']
      · rename_i hc
        rw [if_neg hc] at h'
        split at h
        · rename_i hc2; rw [if_pos hc2] at h'; rw [h, h']
        · rename_i hc2; rw [if_neg hc2] at h'; exact huniq p o o' h h'
    have hws : Forall₂ (fun p v => LaterOutcome (fun p o => Outcome tt p (inputsFor calls p.name) o) t p (.ok v))
        params (List.zipWith (laterValue t) params vs) := by
      refine forall₂_zipWith hv fun p hp v hpv => ?_
      unfold LaterOutcome laterValue
      by_cases h1 : p.name = "page_token".toList
      · rw [if_pos h1, if_pos ((htok p hp).mpr h1)]
      · rw [if_neg h1, if_neg fun h => h1 ((htok p hp).mp h)]
        split
        · rfl
        · exact hpv
    have hty : Forall₂ (fun p v => typed p v = true) params (List.zipWith (laterValue t) params vs) := by
      refine forall₂_zipWith hv fun p hp v hpv => ?_
      obtain ⟨hq, ty, hty⟩ := hall p hp
      unfold laterValue
      split
      · rename_i h1
        have : p = pt := name_inj hn hp hpt (by rw [hptn, (htok p hp).mp h1])
        subst this
        simp [typed, hty, hptk]
      · split
        · rename_i h2
          obtain ⟨_, b, hb⟩ := h2
          cases b with
          | true => exact absurd hb hq
          | false => simp [typed, hty, hb]
        · exact outcome_typed hpv
    unfold send call
    rw [finalizeAll_ok tt huniq' r' _ hws, bind_of_typed hn hty]

/-! ## Streams in lockstep -/

/-- States of two streams at the same point. -/
inductive Lock {Q1 Q2 S1 S2 : Type} (f1 : Q1) (l1 : Str → Q1) (s1 : Option Str → S1) (f2 : Q2) (l2 : Str → Q2)
    (s2 : Option Str → S2) : PState Q1 E I S1 → PState Q2 E I S2 → Prop
  | init : Lock f1 l1 s1 f2 l2 s2 (pageInit f1 s1) (pageInit f2 s2)
  | firstOk (xs t) : Lock f1 l1 s1 f2 l2 s2 (.first (.ready (.ok (some xs, (none, .state (s1 t))))))
      (.first (.ready (.ok (some xs, (none, .state (s2 t))))))
  | firstErr (e) : Lock f1 l1 s1 f2 l2 s2 (.first (.ready (.error e))) (.first (.ready (.error e)))
  | empty : Lock f1 l1 s1 f2 l2 s2 .empty .empty
  | chain (xs t) : Lock f1 l1 s1 f2 l2 s2 (.second (some xs, (none, .state (s1 t)))) (.second (some xs, (none, .state (s2 t))))
  | rest (t) : Lock f1 l1 s1 f2 l2 s2 (.second (none, (none, .state (s1 t)))) (.second (none, (none, .state (s2 t))))
  | call (t) : Lock f1 l1 s1 f2 l2 s2
      (.second (none, (none, .fut (callMap (l1 t) fun page => some (page.items, s1 page.next)))))
      (.second (none, (none, .fut (callMap (l2 t) fun page => some (page.items, s2 page.next)))))
  | stop : Lock f1 l1 s1 f2 l2 s2 (.second (none, (none, .fut (.ready (.ok none)))))
      (.second (none, (none, .fut (.ready (.ok none)))))
  | page (xs t) : Lock f1 l1 s1 f2 l2 s2 (.second (none, (none, .fut (.ready (.ok (some (xs, s1 t)))))))
      (.second (none, (none, .fut (.ready (.ok (some (xs, s2 t)))))))
  | err (e) : Lock f1 l1 s1 f2 l2 s2 (.second (none, (none, .fut (.ready (.error e)))))
      (.second (none, (none, .fut (.ready (.error e)))))
  | inner (xs t) : Lock f1 l1 s1 f2 l2 s2 (.second (none, (some xs, .state (s1 t)))) (.second (none, (some xs, .state (s2 t))))
  | dead : Lock f1 l1 s1 f2 l2 s2 (.second (none, (none, .none))) (.second (none, (none, .none)))

variable {Q1 Q2 S1 S2 : Type}

/-- Steps of two streams that do the same. -/
inductive LockStep (f1 : Q1) (l1 : Str → Q1) (s1 : Option Str → S1) (f2 : Q2) (l2 : Str → Q2) (s2 : Option Str → S2) :
    Progenitor.Stream.Step Q1 (Answer E I) (Except E I) (PState Q1 E I S1) →
    Progenitor.Stream.Step Q2 (Answer E I) (Except E I) (PState Q2 E I S2) → Prop
  | tau (a b) : Lock f1 l1 s1 f2 l2 s2 a b → LockStep f1 l1 s1 f2 l2 s2 (.tau a) (.tau b)
  | emit (x a b) : Lock f1 l1 s1 f2 l2 s2 a b → LockStep f1 l1 s1 f2 l2 s2 (.emit x a) (.emit x b)
  | done (a b) : Lock f1 l1 s1 f2 l2 s2 a b → LockStep f1 l1 s1 f2 l2 s2 (.done a) (.done b)
  | askFirst (k k') : (∀ r, Lock f1 l1 s1 f2 l2 s2 (k r) (k' r)) → LockStep f1 l1 s1 f2 l2 s2 (.ask f1 k) (.ask f2 k')
  | askLater (t k k') : (∀ r, Lock f1 l1 s1 f2 l2 s2 (k r) (k' r)) →
      LockStep f1 l1 s1 f2 l2 s2 (.ask (l1 t) k) (.ask (l2 t) k')

theorem lock_sim {f1 : Q1} {l1 : Str → Q1} {s1 : Option Str → S1} {f2 : Q2} {l2 : Str → Q2} {s2 : Option Str → S2}
    {g1 : S1 → Fut Q1 (Answer E I) (Except E (Option (List I × S1)))}
    {g2 : S2 → Fut Q2 (Answer E I) (Except E (Option (List I × S2)))}
    (h1 : Unfolds g1 s1 l1) (h2 : Unfolds g2 s2 l2) {a : PState Q1 E I S1} {b : PState Q2 E I S2}
    (h : Lock f1 l1 s1 f2 l2 s2 a b) : LockStep f1 l1 s1 f2 l2 s2 (pageStep g1 a) (pageStep g2 b) := by
  cases h with
  | init =>
    refine .askFirst _ _ fun r => ?_
    cases r with
    | ok page => exact .firstOk _ _
    | error e => exact .firstErr e
  | firstOk xs t => exact .tau _ _ (.chain xs t)
  | firstErr e => exact .emit _ _ _ .empty
  | empty => exact .done _ _ .empty
  | chain xs t =>
    cases xs with
    | nil => exact .tau _ _ (.rest t)
    | cons x xs => exact .emit _ _ _ (.chain xs t)
  | rest t =>
    have e1 : pageStep g1 (.second (none, (none, .state (s1 t)))) = .tau (.second (none, (none, .fut (g1 (s1 t))))) := rfl
    have e2 : pageStep g2 (.second (none, (none, .state (s2 t)))) = .tau (.second (none, (none, .fut (g2 (s2 t))))) := rfl
    rw [e1, e2]
    cases t with
    | none => rw [h1.stop, h2.stop]; exact .tau _ _ .stop
    | some t => rw [h1.next, h2.next]; exact .tau _ _ (.call t)
  | call t =>
    refine .askLater t _ _ fun r => ?_
    cases r with
    | ok page => exact .page _ _
    | error e => exact .err e
  | stop => exact .done _ _ .dead
  | page xs t => exact .tau _ _ (.inner xs t)
  | err e => exact .emit _ _ _ .dead
  | inner xs t =>
    cases xs with
    | nil => exact .tau _ _ (.rest t)
    | cons x xs => exact .emit _ _ _ (.inner xs t)
  | dead => exact .done _ _ .dead

variable {H : Type}

theorem lock_run {f1 : Q1} {l1 : Str → Q1} {s1 : Option Str → S1} {f2 : Q2} {l2 : Str → Q2} {s2 : Option Str → S2}
    {g1 : S1 → Fut Q1 (Answer E I) (Except E (Option (List I × S1)))}
    {g2 : S2 → Fut Q2 (Answer E I) (Except E (Option (List I × S2)))}
    (h1 : Unfolds g1 s1 l1) (h2 : Unfolds g2 s2 l2) (a1 : H → Q1 → Option (Answer E I × H))
    (a2 : H → Q2 → Option (Answer E I × H)) (hf : ∀ h, a1 h f1 = a2 h f2) (hl : ∀ h t, a1 h (l1 t) = a2 h (l2 t))
    (n : Nat) (a : PState Q1 E I S1) (b : PState Q2 E I S2) (hab : Lock f1 l1 s1 f2 l2 s2 a b) (h : H) :
    (runFor (pageStep g1) a1 n a h).map (fun r => (observable r.1, r.2.2)) =
      (runFor (pageStep g2) a2 n b h).map (fun r => (observable r.1, r.2.2)) := by
  induction n generalizing a b h with
  | zero => rfl
  | succ n ih =>
    have hs := lock_sim h1 h2 hab
    unfold runFor
    generalize pageStep g1 a = x at hs
    generalize pageStep g2 b = y at hs
    cases hs with
    | tau a b hab => exact ih a b hab h
    | emit x a b hab =>
      have := ih a b hab h
      simp only [Option.map_map, Function.comp_def]
      generalize runFor (pageStep g1) a1 n a h = r1 at this
      generalize runFor (pageStep g2) a2 n b h = r2 at this
      cases r1 <;> cases r2 <;> simp_all [observable]
    | done a b hab =>
      have := ih a b hab h
      simp only [Option.map_map, Function.comp_def]
      generalize runFor (pageStep g1) a1 n a h = r1 at this
      generalize runFor (pageStep g2) a2 n b h = r2 at this
      cases r1 <;> cases r2 <;> simp_all [observable]
    | askFirst k k' hk =>
      simp only [hf]
      cases a2 h f2 with
      | none => rfl
      | some rh =>
        obtain ⟨r, h'⟩ := rh
        have := ih _ _ (hk r) h'
        simp only [Option.map_map, Function.comp_def]
        generalize runFor (pageStep g1) a1 n (k r) h' = r1 at this
        generalize runFor (pageStep g2) a2 n (k' r) h' = r2 at this
        cases r1 <;> cases r2 <;> simp_all [observable]
    | askLater t k k' hk =>
      simp only [hl]
      cases a2 h (l2 t) with
      | none => rfl
      | some rh =>
        obtain ⟨r, h'⟩ := rh
        have := ih _ _ (hk r) h'
        simp only [Option.map_map, Function.comp_def]
        generalize runFor (pageStep g1) a1 n (k r) h' = r1 at this
        generalize runFor (pageStep g2) a2 n (k' r) h' = r2 at this
        cases r1 <;> cases r2 <;> simp_all [observable]

/-- The arguments of the positional stream that correspond to values of all parameters. -/
def streamArgs (params : List Param) (vs : List Value) : List Value :=
  ((params.zip vs).filter fun x => x.1.name ≠ "page_token".toList).map Prod.snd

theorem zip_streamArgs (params : List Param) (vs : List Value) (hl : params.length = vs.length) :
    (params.filter fun p => p.name ≠ "page_token".toList).zip (streamArgs params vs) =
      (params.zip vs).filter fun x => x.1.name ≠ "page_token".toList := by
  unfold streamArgs
  induction params generalizing vs with
  | nil => rfl
  | cons p ps ih =>
    cases vs with
    | nil => simp at hl
    | cons v vs =>
      have := ih vs (by simpa using hl)
      by_cases h : p.name = "page_token".toList
      · simp only [List.zip_cons_cons, List.filter_cons, h, ne_eq, not_true_eq_false, decide_false]
        exact this
      · simp only [List.zip_cons_cons, List.filter_cons, h, ne_eq, not_false_eq_true, decide_true, if_true, List.map_cons,
          List.zip_cons_cons]
        rw [this]

theorem eq_of_forall₂ {α β} {R : α → β → Prop} {xs : List α} {ys zs : List β} (h : Forall₂ R xs ys)
    (hl : xs.length = zs.length) (hu : ∀ x y z, (x, z) ∈ xs.zip zs → R x y → y = z) : ys = zs := by
  induction h generalizing zs with
  | nil => cases zs with
    | nil => rfl
    | cons _ _ => simp at hl
  | @cons x y xs ys h1 _ ih => cases zs with
    | nil => simp at hl
    | cons z zs =>
      rw [hu x y z (by simp) h1, ih (by simpa using hl) fun a b c hac => hu a b c (by simp [hac])]

theorem zip_functional {α β} {f : α → Str} {xs : List α} {ys : List β} (hn : (xs.map f).Nodup) {x : α} {y z : β}
    (h1 : (x, y) ∈ xs.zip ys) (h2 : (x, z) ∈ xs.zip ys) : y = z := by
  induction xs generalizing ys with
  | nil => simp at h1
  | cons a xs ih =>
    cases ys with
    | nil => simp at h1
    | cons b ys =>
      simp only [List.map_cons, List.nodup_cons] at hn
      have no : ∀ w, (a, w) ∉ xs.zip ys := fun w hw => hn.1 (List.mem_map.mpr ⟨a, (List.of_mem_zip hw).1, rfl⟩)
      simp only [List.zip_cons_cons, List.mem_cons, Prod.mk.injEq] at h1 h2
      rcases h1 with ⟨e1, e2⟩ | h1 <;> rcases h2 with ⟨e3, e4⟩ | h2
      · rw [e2, e4]
      · subst e1; exact absurd h2 (no z)
      · subst e3; exact absurd h1 (no y)
      · exact ih hn.2 h1 h2

/-- The arguments of the positional stream. -/
theorem positional_values {types : Types} {params : List Param} {vs fa : List Value} {la : Str → List Value}
    (htok : TokenNamed params) (hnone : ∀ p v, (p, v) ∈ params.zip vs → p.name = "page_token".toList → v = .opt none)
    (hlen : params.length = vs.length)
    (h : positionalArgs types params (streamArgs params vs) = some (fa, la)) :
    fa = vs ∧ ∀ t, la t = List.zipWith (laterValue t) params vs := by
  obtain ⟨h1, h2, h3, -, -⟩ := positionalArgs_inv h
  have hn := (bindArgs_some h3).1
  have hg : ∀ p v, Given params (streamArgs params vs) p v → (p, v) ∈ params.zip vs := by
    intro p v hpv
    unfold Given at hpv
    rw [zip_streamArgs params vs hlen] at hpv
    exact (List.mem_filter.mp hpv).1
  constructor
  · refine eq_of_forall₂ h1 hlen fun p y z hz hy => ?_
    unfold FirstPage at hy
    split at hy
    · rename_i hpt
      rw [hy, hnone p z hz ((htok p (List.of_mem_zip hz).1).mp hpt)]
    · exact zip_functional hn (hg p y hy) hz
  · intro t
    refine eq_of_forall₂ (h2 t) (by simp [hlen]) fun p y z hz hy => ?_
    have : ∃ v, (p, v) ∈ params.zip vs ∧ z = laterValue t p v := by
      clear h1 h2 h3 hg hnone h htok hn hy
      induction params generalizing vs with
      | nil => simp at hz
      | cons q qs ih =>
        cases vs with
        | nil => simp at hz
        | cons v vs =>
          simp only [List.zipWith_cons_cons, List.zip_cons_cons, List.mem_cons, Prod.mk.injEq] at hz
          rcases hz with ⟨rfl, rfl⟩ | hz
          · exact ⟨v, by simp, rfl⟩
          · obtain ⟨v', h1, h2⟩ := ih (by simpa using hlen) hz
            exact ⟨v', by simp [h1], h2⟩
    obtain ⟨v, hv, rfl⟩ := this
    unfold LaterPage at hy
    unfold laterValue
    split at hy
    · rename_i hc; rw [if_pos hc, hy]
    · rename_i hc
      rw [if_neg hc]
      split at hy
      · rename_i hc2; rw [if_pos hc2, hy]
      · rename_i hc2; rw [if_neg hc2]; exact zip_functional hn (hg p y hy) hv

/-- C36: for every server (every world), if no page token was set and the values set in the builder are the
arguments of the positional stream, the two streams do the same step by step: the same elements, the
same ends, the same calls answered the same way, and the same requests (the histories
of events are equal). -/
theorem C36_agree (cfg : Config) (hooks : Hooks) (w : World) (decode : TypeId → Bytes → Except P V)
    (pageOf : V → Page I) (tt : TypeTable B) (types : Types) (params : List Param) (c : Code) (calls : List (Call B))
    (s : State B) (hs : builderStream tt types params calls = some s) (htok : TokenNamed params)
    (vs : List Value) (hv : Forall₂ (fun p v => Outcome tt p (inputsFor calls p.name) (.ok v)) params vs)
    (hnone : inputsFor calls "page_token".toList = [])
    (a : List Value × (Str → List Value)) (ha : positionalArgs types params (streamArgs params vs) = some a)
    (n : Nat) (hist : List Event) :
    (runFor (posStep a) (answerOf pageOf fun h q => call cfg hooks w decode params c h q) n (posInit a) hist).map
        (fun r => (observable r.1, r.2.2)) =
      (runFor bldStep (answerOf pageOf fun h q => send cfg hooks w decode tt c h q) n (bldInit s) hist).map
        (fun r => (observable r.1, r.2.2)) := by
  obtain ⟨fa, la⟩ := a
  have hlen := (forall₂_zip hv).1
  obtain ⟨_, _, _, ⟨pt, hpt, hptn, hptk⟩, hall⟩ := builderStream_inv hs
  have hn := structOk_nodup (builderStream_inv hs).1
  have hno : ∀ p v, (p, v) ∈ params.zip vs → p.name = "page_token".toList → v = .opt none := by
    intro p v hpv hp
    have h1 := (forall₂_zip hv).2 p v hpv
    have : p = pt := name_inj hn (List.of_mem_zip hpv).1 hpt (by rw [hp, hptn])
    subst this
    rw [hp, hnone] at h1
    obtain ⟨ty, hty⟩ := (hall p hpt).2
    have ho : Outcome tt p [] (.ok (.opt none)) :=
      .absent (tt.name ty) ⟨ty, hty, rfl, by rintro tb ⟨_, _, _, h, _⟩; rw [hptk] at h; cases h⟩ (.inl hptk)
    exact Except.ok.inj (outcome_unique h1 ho rfl)
  obtain ⟨rfl, hla⟩ := positional_values htok hno hlen ha
  refine lock_run (pos_unfolds la) (bld_unfolds _) _ _ ?_ ?_ n _ _ .init hist
  · intro h
    simp only [answerOf]
    rw [(C33_builder_args cfg hooks w decode tt types params c h calls s hs htok fa hv).1]
  · intro h t
    simp only [answerOf]
    rw [(C33_builder_args cfg hooks w decode tt types params c h calls s hs htok fa hv).2 t, hla]

/-! ## When the streams compile -/

/-- The parameters used after the first page. -/
def UsedLater (p : Param) : Prop := ¬ (p.apiName ≠ "limit".toList ∧ ∃ r, p.kind = .query r)

theorem mapM?_exists {α β : Type} {f : α → Option β} {l : List α} (h : ∀ x ∈ l, ∃ y, f x = some y) :
    ∃ ys, Forall₂ (fun x y => f x = some y) l ys := by
  induction l with
  | nil => exact ⟨[], .nil⟩
  | cons x l ih =>
    obtain ⟨y, hy⟩ := h x (by simp)
    obtain ⟨ys, hys⟩ := ih fun z hz => h z (by simp [hz])
    exact ⟨y :: ys, .cons hy hys⟩

/-- C63: the positional stream compiles for all well-typed arguments if the token is a string, the query
parameters are optional, there is no raw body, and no parameter used after the first page is
called `state`, `first` or `page`. -/
theorem C63_positional_partial (types : Types) (params : List Param) (args : List Value)
    (hn : (params.map Param.name).Nodup) (htok : TokenNamed params)
    (hstr : ∀ p ∈ params, p.apiName = "page_token".toList → p.kind = .query false ∧ ∃ t, p.typ = .type t ∧ types t = some .string)
    (hq : ∀ p ∈ params, p.kind ≠ .query true) (hraw : ∀ p ∈ params, p.typ ≠ .rawBody)
    (hcap : ∀ p ∈ params, UsedLater p → p.name ≠ "state".toList ∧ p.name ≠ "first".toList ∧ p.name ≠ "page".toList)
    (env : Env) (hb : bindArgs (streamParams params) args = some env) :
    ∃ a, positionalArgs types params args = some a := by
  obtain ⟨_, hlen, htyp, hlook⟩ := bindArgs_some hb
  have given : ∀ p ∈ params, p.apiName ≠ "page_token".toList →
      ∃ v, lookup env p.name = some v ∧ typed p v = true := by
    intro p hp hpt
    have hm : p ∈ streamParams params :=
      List.mem_filter.mpr ⟨hp, decide_eq_true fun h => hpt ((htok p hp).mpr h)⟩
    obtain ⟨v, hz⟩ := mem_zip_left hlen hm
    exact ⟨_, hlook _ _ hz, htyp _ _ hz⟩
  have tokTyped : ∀ p ∈ params, p.apiName = "page_token".toList → ∀ x, typed p (.opt x) = true := by
    intro p hp hpt x
    obtain ⟨hk, t, ht, _⟩ := hstr p hp hpt
    cases x <;> simp [typed, ht, hk]
  have hfirst : ∀ p ∈ params, ∃ v, firstArg env p = some v ∧ typed p v = true := by
    intro p hp
    unfold firstArg
    split
    · rename_i h; exact ⟨_, rfl, tokTyped p hp h _⟩
    · rename_i h; exact given p hp h
  have hstep : ∀ p ∈ params, ∃ v, stepArg env [] p = some v ∧ typed p v = true := by
    intro p hp
    unfold stepArg
    split
    · rename_i h; exact ⟨_, rfl, tokTyped p hp h _⟩
    · rename_i h
      simp only [Bool.and_eq_true, decide_eq_true_eq, isQuery_iff]
      split
      · rename_i h2
        refine ⟨_, rfl, ?_⟩
        obtain ⟨_, b, hb⟩ := h2
        cases b with
        | true => exact absurd hb (hq p hp)
        | false =>
          cases ht : p.typ with
          | type t => simp [typed, ht, hb]
          | rawBody => exact absurd ht (hraw p hp)
      · rename_i h2
        obtain ⟨c1, c2, c3⟩ := hcap p hp h2
        rw [lookup_stepEnv_ne c1 c2 c3]
        exact given p hp h
  have build : ∀ f : Param → Option Value, (∀ p ∈ params, ∃ v, f p = some v ∧ typed p v = true) →
      ∃ vs, mapM? f params = some vs ∧ (bindArgs params vs).isSome = true := by
    intro f hf
    obtain ⟨vs, hvs⟩ := mapM?_exists (f := f) (l := params) fun p hp => let ⟨v, h, _⟩ := hf p hp; ⟨v, h⟩
    refine ⟨vs, mapM?_forall₂.mpr hvs, ?_⟩
    rw [bind_of_typed hn (forall₂_imp_mem (fun p hp v hv => ?_) hvs)]
    · rfl
    · obtain ⟨v', h1, h2⟩ := hf p hp
      rw [h1] at hv
      cases hv
      exact h2
  obtain ⟨fa, hfa, hfb⟩ := build _ hfirst
  obtain ⟨sa, hsa, hsb⟩ := build _ hstep
  have ht : tokenTyped types params = true := by
    unfold tokenTyped
    refine List.all_eq_true.mpr fun p hp => ?_
    by_cases h : p.apiName = "page_token".toList
    · obtain ⟨_, t, h1, h2⟩ := hstr p hp h
      exact Bool.or_eq_true_iff.mpr (.inr (by rw [h1]; exact decide_eq_true h2))
    · exact Bool.or_eq_true_iff.mpr (.inl (decide_eq_true h))
  have hc : copied params = true := List.all_eq_true.mpr fun p hp => decide_eq_true (hraw p hp)
  unfold positionalArgs
  rw [hb]
  simp only [hfa, hsa, ht, hc, hfb, hsb, and_self, if_true]
  exact ⟨_, rfl⟩

/-- C63: with a parameter that is used after the first page and called `state` (or `first`, `page`), the
positional stream compiles for no arguments. -/
theorem C63_captured_fails (types : Types) (params : List Param) (args : List Value) (p : Param) (hp : p ∈ params)
    (hu : UsedLater p) (hpt : p.apiName ≠ "page_token".toList)
    (hname : p.name = "state".toList ∨ p.name = "first".toList ∨ p.name = "page".toList) :
    positionalArgs types params args = none := by
  cases h : positionalArgs types params args with
  | none => rfl
  | some a =>
    exfalso
    unfold positionalArgs at h
    split at h
    case h_1 => cases h
    rename_i env hb
    split at h
    case h_2 => cases h
    rename_i fa sa hfa hsa
    split at h
    case isFalse => cases h
    rename_i hc
    obtain ⟨env2, hb2⟩ := Option.isSome_iff_exists.mp hc.2.2.2
    have hf := mapM?_forall₂.mp hsa
    obtain ⟨v, hv1, hv2⟩ : ∃ v, (p, v) ∈ params.zip sa ∧ stepArg env [] p = some v := by
      obtain ⟨_, hz⟩ := mem_zip_left (forall₂_zip hf).1 hp
      exact ⟨_, hz, (forall₂_zip hf).2 _ _ hz⟩
    have hty := (bindArgs_some hb2).2.2.1 p v hv1
    unfold stepArg at hv2
    simp only [if_neg hpt, Bool.and_eq_true, decide_eq_true_eq, isQuery_iff] at hv2
    rw [if_neg hu] at hv2
    have : v = .internal := by
      unfold stepEnv lookup at hv2
      rcases hname with hn | hn | hn <;> rw [hn] at hv2 <;> simp at hv2 <;> exact hv2.symm
    rw [this, typed_internal] at hty
    cases hty

/-- C63: nor if the token is not a string: the state of the stream is passed as `Option<&str>`. -/
theorem C63_token_fails (types : Types) (params : List Param) (args : List Value) (p : Param) (hp : p ∈ params)
    (hpt : p.apiName = "page_token".toList) (t : TypeId) (ht : p.typ = .type t) (hs : types t ≠ some .string) :
    positionalArgs types params args = none ∧ ∀ (B : Type) (tt : TypeTable B) calls, builderStream tt types params calls = none := by
  have hf : tokenTyped types params = false := by
    unfold tokenTyped
    refine List.all_eq_false.mpr ⟨p, hp, ?_⟩
    intro h
    rcases Bool.or_eq_true_iff.mp h with h | h
    · exact of_decide_eq_true h hpt
    · rw [ht] at h
      exact hs (of_decide_eq_true h)
  constructor
  · unfold positionalArgs
    simp only [hf]
    repeat' split
    all_goals first | rfl | simp_all
  · intro B tt calls
    unfold builderStream builderStreamOk
    simp [hf]

/-! ## Examples -/

/-- `GET /{project}?filter&limit&page_token`. -/
def listParams : List Param :=
  [⟨"project".toList, "project".toList, .type 0, .path⟩, ⟨"filter".toList, "filter".toList, .type 0, .query false⟩,
   ⟨"limit".toList, "limit".toList, .type 0, .query false⟩, ⟨"page_token".toList, "page_token".toList, .type 0, .query false⟩]

def listTypes : Types := fun _ => some .string

def listArgs : List Value := [.plain (txt "p"), .opt (some (txt "f")), .opt (some (txt "2"))]

def listCalls : List (Call Arg) :=
  [("limit".toList, .value (.ok (txt "2"))), ("filter".toList, .value (.ok (txt "f"))),
   ("project".toList, .value (.ok (txt "p")))]

example : TokenNamed listParams := by
  intro p hp
  simp only [listParams, List.mem_cons, List.not_mem_nil, or_false] at hp
  rcases hp with rfl | rfl | rfl | rfl <;> decide

theorem list_compiles : positionalArgs listTypes listParams listArgs =
    some (listArgs ++ [.opt none], fun t => [.plain (txt "p"), .opt none, .opt (some (txt "2")), .opt (some ⟨t, .str t⟩)]) := rfl

example : ∃ s, builderStream exTypes listTypes listParams listCalls = some s := ⟨_, rfl⟩
example : streamArgs listParams (listArgs ++ [.opt none]) = listArgs := rfl
example : inputsFor listCalls "page_token".toList = [] := rfl
example : Forall₂ (fun p v => Outcome exTypes p (inputsFor listCalls p.name) (.ok v)) listParams (listArgs ++ [.opt none]) := by
  have no : ∀ p ∈ listParams, ∀ tb, ¬ HasBuilder exTypes p tb := by
    intro p hp tb h
    obtain ⟨_, _, _, h, _⟩ := h
    simp only [listParams, List.mem_cons, List.not_mem_nil, or_false] at hp
    rcases hp with rfl | rfl | rfl | rfl <;> cases h
  refine .cons ?_ (.cons ?_ (.cons ?_ (.cons ?_ .nil)))
  · exact .given "String".toList [] _ ⟨0, rfl, rfl, no _ (by simp [listParams])⟩ (by simp [Optional])
  · exact .givenOptional "String".toList [] _ ⟨0, rfl, rfl, no _ (by simp [listParams])⟩ (.inl rfl)
  · exact .givenOptional "String".toList [] _ ⟨0, rfl, rfl, no _ (by simp [listParams])⟩ (.inl rfl)
  · exact .absent "String".toList ⟨0, rfl, rfl, no _ (by simp [listParams])⟩ (.inl rfl)

/- A server with an empty page between two others, then an error: the elements obtained in 24 steps. -/
example : ((runFor (posStep (E := Nat) (I := Nat) (listArgs ++ [.opt none], fun t => [.opt (some ⟨t, .str t⟩)]))
    (fun (h : Nat) _ => some (match h with
      | 0 => (.ok ⟨[1, 2], some "a".toList⟩, 1)
      | 1 => (.ok ⟨[], some "b".toList⟩, 2)
      | 2 => (.ok ⟨[3], some "c".toList⟩, 3)
      | n => (.error n, n + 1))) 24 (posInit (listArgs ++ [.opt none], fun t => [.opt (some ⟨t, .str t⟩)])) 0).map
      fun r => (yields r.1, r.2.2)) = some ([.ok 1, .ok 2, .ok 3, .error 3], 4) := rfl

/- The hypotheses of C63: a path parameter called `state`. -/
example : positionalArgs listTypes (⟨"state".toList, "state".toList, .type 0, .path⟩ :: listParams)
    (.plain (txt "ca") :: listArgs) = none := rfl
example : (bindArgs (streamParams (⟨"state".toList, "state".toList, .type 0, .path⟩ :: listParams))
    (.plain (txt "ca") :: listArgs)).isSome = true := rfl

end Progenitor.Props

import Verif.Model.Tasks
import Verif.Props.Exec

/-!
# C78: concurrent calls do not disturb each other, and dropped calls stop
-/

namespace Progenitor.Props

open Progenitor Progenitor.Params Progenitor.Client Progenitor.Exec Progenitor.Tasks

variable {P V : Type}

/-- What is observed of call `i`, in order. -/
def seen (i : Nat) (tr : List (Nat × Obs)) : List Obs := (tr.filter fun x => x.1 = i).map Prod.snd

def Obs.event? : Obs → Option Event
  | .effect e => some e
  | _ => none

/-- The effects among observations. -/
def effectsOf (l : List Obs) : List Event := l.filterMap Obs.event?

/-- Surroundings that always answer the same. -/
def steady (pre : Except Str Request) (reply : Reply) (post : Except Str Unit) : World :=
  ⟨fun _ _ => pre, fun _ _ => reply, fun _ _ => post⟩

/-- All answers that are observed are these. -/
def Answers (pre : Except Str Request) (reply : Reply) (post : Except Str Unit) (l : List Obs) : Prop :=
  (∀ a, Obs.prepared a ∈ l → a = pre) ∧ (∀ a, Obs.replied a ∈ l → a = reply) ∧ (∀ a, Obs.reviewed a ∈ l → a = post)

/-- A call on its own, without others: result and effects, given what hooks and server answer. -/
def alone (t : Task P V) (pre : Except Str Request) (reply : Reply) (post : Except Str Unit) : Result P V × List Event :=
  Exec.call t.method.cfg t.method.hooks (steady pre reply post) t.method.decode t.method.params t.method.code [] t.args

/-! ## The rest of a call -/

def after (evs : List Event) (x : Result P V × List Event) : Result P V × List Event := (x.1, evs ++ x.2)

section
variable (pre : Except Str Request) (reply : Reply) (post : Except Str Unit) (m : Method P V)

def restReading (x : Reply) : Result P V × List Event := (m.read x, [])

def restReviewing (x : Reply) : Result P V × List Event :=
  match post with
  | .error e => (.returned (.error (.postHookError e)), [])
  | .ok _ => restReading m x

def restExecuting : Result P V × List Event :=
  after (m.replied reply).1 (if m.hooks.postAsync then restReviewing post m reply else restReading m reply)

def restPreparing : Result P V × List Event :=
  match pre with
  | .error e => (.returned (.error (.preHookError e)), [])
  | .ok r => after [.send r] (restExecuting reply post m)

def rest : Phase P V → Result P V × List Event
  | .created env => run m.cfg m.hooks (steady pre reply post) m.decode m.code [] env
  | .preparing _ => restPreparing pre reply post m
  | .executing _ => restExecuting reply post m
  | .reviewing x => restReviewing post m x
  | .reading x => restReading m x
  | .completed x => (x, [])

end

theorem effectsOf_append (l k : List Obs) : effectsOf (l ++ k) = effectsOf l ++ effectsOf k := List.filterMap_append

theorem effectsOf_effects (l : List Event) : effectsOf (l.map .effect) = l := by
  unfold effectsOf
  rw [List.filterMap_map]
  exact List.filterMap_some

theorem finish_rest (m : Method P V) (pre : Except Str Request) (reply : Reply) (post : Except Str Unit) (hist : List Event) :
    finish m.hooks (steady pre reply post) m.decode m.code.dispatch hist reply =
      after hist (restExecuting reply post m) := by
  unfold finish restExecuting Method.replied restReviewing restReading Method.read after steady
  dsimp only
  generalize Resp.handle m.decode m.code.dispatch reply = x
  cases x <;> cases m.hooks.postAsync <;> cases m.hooks.post <;> cases post <;> simp

theorem perform_rest (m : Method P V) (pre : Except Str Request) (reply : Reply) (post : Except Str Unit) (env : Env) (r : Request)
    (h : build m.cfg m.code env = .request r) :
    Exec.perform m.hooks (steady pre reply post) m.decode m.code.dispatch [] r =
      after (m.first env).1 (rest pre reply post m (m.first env).2) := by
  unfold Exec.perform Method.first
  rw [h]
  dsimp only
  cases hp : m.hooks.preAsync with
  | false =>
    rw [if_neg Bool.false_ne_true, if_neg Bool.false_ne_true]
    rw [show (steady pre reply post).server = fun _ _ => reply from rfl]
    rw [finish_rest]
    simp only [rest]
    split <;> rfl
  | true =>
    rw [if_pos rfl, if_pos rfl]
    simp only [rest, restPreparing]
    rw [show (steady pre reply post).preAsync = fun _ _ => pre from rfl]
    cases pre with
    | error e => simp [after]
    | ok r' =>
      dsimp only
      rw [show (steady (.ok r') reply post).server = fun _ _ => reply from rfl]
      rw [finish_rest]
      simp [after]

theorem poll_rest {m : Method P V} {ph ph' : Phase P V} {obs : List Obs} (h : Poll m ph obs ph') (pre : Except Str Request)
    (reply : Reply) (post : Except Str Unit) (ha : Answers pre reply post obs) :
    rest pre reply post m ph = after (effectsOf obs) (rest pre reply post m ph') := by
  cases h with
  | first env =>
    rw [effectsOf_effects]
    simp only [rest]
    unfold run
    cases hb : build m.cfg m.code env with
    | request r => exact perform_rest m pre reply post env r hb
    | _ => simp [Method.first, hb, after]
  | prepared r a =>
    have := ha.1 a (.head _)
    subst this
    cases a with
    | error e => rfl
    | ok r => rfl
  | replied r a =>
    have := ha.2.1 a (.head _)
    subst this
    simp only [rest, restExecuting]
    rw [show effectsOf (.replied a :: (m.replied a).1.map .effect) = (m.replied a).1 from effectsOf_effects _]
    unfold Method.replied
    split <;> rfl
  | reviewed x a =>
    have := ha.2.2 a (.head _)
    subst this
    cases a <;> rfl
  | read x => rfl

/-! ## Invariant -/

/-- What has been observed of a call in a given phase. -/
def Shape (m : Method P V) (l : List Obs) : Phase P V → Prop
  | .created _ => l = []
  | .preparing _ => ∀ o ∈ l, ∃ e, o = .effect e
  | .executing r => (∀ o ∈ l, (∃ e, o = .effect e) ∨ ∃ a, o = .prepared a) ∧ ∃ l', l = l' ++ [.effect (.send r)]
  | .reviewing x => (∀ a, Obs.reviewed a ∉ l) ∧ ∃ r l₁ l₂, l = l₁ ++ .effect (.send r) :: .replied x :: l₂
  | .reading x => ∃ r l₁ l₂, l = l₁ ++ .effect (.send r) :: .replied x :: l₂
  | .completed x => ∀ rv, x = .returned (.ok rv) → ∃ r a l₁ l₂, l = l₁ ++ .effect (.send r) :: .replied a :: l₂ ∧
      Resp.handle m.decode m.code.dispatch a = some (.ok rv)

/-- The invariant for a call in phase `ph`. -/
structure Inv (t : Task P V) (l : List Obs) (ph : Phase P V) : Prop where
  shape : Shape t.method l ph
  known : ∃ pre reply post, Answers pre reply post l
  same : ∀ pre reply post, Answers pre reply post l →
    alone t pre reply post = after (effectsOf l) (rest pre reply post t.method ph)

theorem observed_append {pre reply post} {l k : List Obs} :
    Answers pre reply post (l ++ k) ↔ Answers pre reply post l ∧ Answers pre reply post k := by
  unfold Answers
  simp only [List.mem_append]
  grind

theorem inv_start {m : Method P V} {args : List Value} {ph : Phase P V} (h : Method.start m args = some ph) (po : Option (Phase P V)) :
    Inv ⟨m, args, po⟩ [] ph := by
  unfold Method.start at h
  cases hb : bindArgs m.params args with
  | none => rw [hb] at h; cases h
  | some env =>
    rw [hb] at h
    cases h
    refine ⟨rfl, ⟨.error [], .error builderError, .ok (), nofun, nofun, nofun⟩, ?_⟩
    intro pre reply post _
    unfold alone Exec.call
    rw [hb]
    rfl

theorem inv_poll {t : Task P V} {l obs : List Obs} {ph ph' : Phase P V} (hi : Inv t l ph) (h : Poll t.method ph obs ph') :
    Inv t (l ++ obs) ph' := by
  have hsame : ∀ pre reply post, Answers pre reply post (l ++ obs) →
      alone t pre reply post = after (effectsOf (l ++ obs)) (rest pre reply post t.method ph') := by
    intro pre reply post ha
    rw [observed_append] at ha
    rw [hi.same pre reply post ha.1, poll_rest h pre reply post ha.2, effectsOf_append]
    simp [after]
  obtain ⟨pre, reply, post, hk⟩ := hi.known
  have hs := hi.shape
  cases h with
  | first env =>
    have hl : l = [] := hs
    subst hl
    refine ⟨?_, ?_, hsame⟩
    · unfold Method.first
      split
      · exact nofun
      · exact nofun
      · exact nofun
      · exact nofun
      · split
        · intro o ho
          simp only [List.nil_append, List.mem_map] at ho
          obtain ⟨e, _, rfl⟩ := ho
          exact ⟨e, rfl⟩
        · refine ⟨?_, ?_⟩
          · intro o ho
            simp only [List.nil_append, List.mem_map] at ho
            obtain ⟨e, _, rfl⟩ := ho
            exact .inl ⟨e, rfl⟩
          · exact ⟨_, by rw [List.nil_append, List.map_append]; rfl⟩
    · exact ⟨.error [], .error builderError, .ok (), by simp [Answers]⟩
  | prepared r a =>
    have hs : ∀ o ∈ l, ∃ e, o = .effect e := hs
    refine ⟨?_, ⟨a, reply, post, ?_⟩, hsame⟩
    · cases a with
      | error e => exact nofun
      | ok r' =>
        refine ⟨?_, l ++ [.prepared (.ok r')], by simp [Method.prepared]⟩
        intro o ho
        rw [List.mem_append] at ho
        rcases ho with ho | ho
        · exact .inl (hs o ho)
        · rcases List.mem_cons.mp ho with rfl | ho
          · exact .inr ⟨_, rfl⟩
          · obtain ⟨e, _, rfl⟩ := List.mem_map.mp ho
            exact .inl ⟨e, rfl⟩
    · refine ⟨?_, ?_, ?_⟩ <;>
      · intro b hb
        rw [List.mem_append] at hb
        rcases hb with hb | hb
        · obtain ⟨e, he⟩ := hs _ hb
          cases he
        · simp at hb
          try exact hb
  | replied r a =>
    obtain ⟨hs, l', rfl⟩ := (show (∀ o ∈ l, (∃ e, o = Obs.effect e) ∨ ∃ a, o = .prepared a) ∧ ∃ l', l = l' ++ [.effect (.send r)] from hs)
    refine ⟨?_, ⟨pre, a, post, ?_⟩, hsame⟩
    · unfold Method.replied
      split
      · refine ⟨?_, r, l', _, by rw [List.append_assoc]; rfl⟩
        intro b hb
        rw [List.mem_append] at hb
        rcases hb with hb | hb
        · rcases hs _ hb with ⟨e, he⟩ | ⟨e, he⟩ <;> cases he
        · simp at hb
      · exact ⟨r, l', _, by rw [List.append_assoc]; rfl⟩
    · refine ⟨?_, ?_, ?_⟩
      · intro b hb
        rw [List.mem_append] at hb
        rcases hb with hb | hb
        · exact hk.1 b hb
        · simp at hb
      · intro b hb
        rw [List.mem_append] at hb
        rcases hb with hb | hb
        · rcases hs _ hb with ⟨e, he⟩ | ⟨e, he⟩ <;> cases he
        · simp at hb; exact hb
      · intro b hb
        rw [List.mem_append] at hb
        rcases hb with hb | hb
        · rcases hs _ hb with ⟨e, he⟩ | ⟨e, he⟩ <;> cases he
        · simp at hb
  | reviewed x a =>
    obtain ⟨hn, r, l₁, l₂, hl⟩ := (show (∀ a, Obs.reviewed a ∉ l) ∧ ∃ r l₁ l₂, l = l₁ ++ .effect (.send r) :: .replied x :: l₂ from hs)
    refine ⟨?_, ⟨pre, reply, a, ?_⟩, hsame⟩
    · cases a with
      | error e => exact nofun
      | ok u => exact ⟨r, l₁, l₂ ++ [.reviewed (.ok u)], by rw [hl]; simp⟩
    · refine ⟨?_, ?_, ?_⟩
      · intro b hb
        rw [List.mem_append] at hb
        rcases hb with hb | hb
        · exact hk.1 b hb
        · simp at hb
      · intro b hb
        rw [List.mem_append] at hb
        rcases hb with hb | hb
        · exact hk.2.1 b hb
        · simp at hb
      · intro b hb
        rw [List.mem_append] at hb
        rcases hb with hb | hb
        · exact absurd hb (hn b)
        · simp at hb; exact hb
  | read x =>
    obtain ⟨r, l₁, l₂, hl⟩ := (show ∃ r l₁ l₂, l = l₁ ++ .effect (.send r) :: .replied x :: l₂ from hs)
    refine ⟨?_, ⟨pre, reply, post, by rw [List.append_nil]; exact hk⟩, hsame⟩
    intro rv hrv
    refine ⟨r, x, l₁, l₂, by rw [List.append_nil]; exact hl, ?_⟩
    unfold Method.read at hrv
    split at hrv
    · cases hrv
    · rename_i o ho
      cases hrv
      exact ho

/-! ## Executions -/

theorem seen_append (i : Nat) (tr tr' : List (Nat × Obs)) : seen i (tr ++ tr') = seen i tr ++ seen i tr' := by simp [seen]

theorem seen_own (i : Nat) (l : List Obs) : seen i (l.map fun o => (i, o)) = l := by
  unfold seen
  rw [List.filter_map, List.map_map]
  simp [Function.comp_def]

theorem seen_other {i j : Nat} (h : i ≠ j) (l : List Obs) : seen j (l.map fun o => (i, o)) = [] := by
  unfold seen
  simp [List.filter_map, h]

theorem runs_inv {ts : List (Task P V)} {tr : List (Nat × Obs)} (h : Runs [] tr ts) :
    (∀ i t, ts[i]? = some t → ∃ ph, Inv t (seen i tr) ph ∧ ∀ ph', t.phase = some ph' → ph' = ph) ∧
    (∀ i, ts.length ≤ i → seen i tr = []) := by
  induction h with
  | here => exact ⟨fun i t h => by simp at h, fun _ _ => rfl⟩
  | step tr ts obs ts' hr hm ih =>
    obtain ⟨ih, ih'⟩ := ih
    cases hm with
    | call m args ph hs =>
      refine ⟨?_, ?_⟩
      · intro i t ht
        rw [List.append_nil]
        rw [List.getElem?_append] at ht
        split at ht
        · exact ih i t ht
        · rename_i hlt
          cases hi : i - ts.length with
          | zero =>
            rw [hi] at ht
            cases ht
            rw [ih' i (by omega)]
            exact ⟨ph, inv_start hs _, fun ph' h => by cases h; rfl⟩
          | succ n => rw [hi] at ht; cases ht
      · intro i hi
        rw [List.append_nil]
        exact ih' i (by simp at hi; omega)
    | poll i t ph obs ph' hi hph hp =>
      obtain ⟨ph₀, hinv, huniq⟩ := ih i t hi
      cases huniq ph hph
      refine ⟨?_, ?_⟩
      · intro j t' ht'
        rw [seen_append]
        by_cases hij : i = j
        · subst hij
          rw [List.getElem?_set_self (List.getElem?_eq_some_iff.mp hi).1] at ht'
          cases ht'
          rw [seen_own]
          have := inv_poll hinv hp
          exact ⟨ph', ⟨this.shape, this.known, this.same⟩, fun _ h => by cases h; rfl⟩
        · rw [List.getElem?_set_ne hij] at ht'
          rw [seen_other hij, List.append_nil]
          exact ih j t' ht'
      · intro j hj
        rw [List.length_set] at hj
        have : i ≠ j := by
          have := (List.getElem?_eq_some_iff.mp hi).1
          omega
        rw [seen_append, seen_other this, ih' j hj]
        rfl
    | drop i t hi =>
      refine ⟨?_, ?_⟩
      · intro j t' ht'
        rw [List.append_nil]
        by_cases hij : i = j
        · subst hij
          rw [List.getElem?_set_self (List.getElem?_eq_some_iff.mp hi).1] at ht'
          cases ht'
          obtain ⟨ph, hinv, _⟩ := ih i t hi
          exact ⟨ph, ⟨hinv.shape, hinv.known, hinv.same⟩, nofun⟩
        · rw [List.getElem?_set_ne hij] at ht'
          exact ih j t' ht'
      · intro j hj
        rw [List.length_set] at hj
        rw [List.append_nil]
        exact ih' j hj

/-- C78: making a call has no effect until the future is polled. -/
theorem C78_lazy {ts : List (Task P V)} {tr : List (Nat × Obs)} (h : Runs [] tr ts) (i : Nat) (t : Task P V) (env : Env)
    (ht : ts[i]? = some t) (hp : t.phase = some (.created env)) : seen i tr = [] := by
  obtain ⟨ph, hinv, hu⟩ := (runs_inv h).1 i t ht
  cases hu _ hp
  exact hinv.shape

/-- C78: whatever other calls do meanwhile, a call that completes has the result and the effects it would have on its own, given what its
own hooks and the server answered to it. -/
theorem C78_sequential {ts : List (Task P V)} {tr : List (Nat × Obs)} (h : Runs [] tr ts) (i : Nat) (t : Task P V) (x : Result P V)
    (ht : ts[i]? = some t) (hp : t.phase = some (.completed x)) :
    (∃ pre reply post, Answers pre reply post (seen i tr)) ∧
    ∀ pre reply post, Answers pre reply post (seen i tr) → alone t pre reply post = (x, effectsOf (seen i tr)) := by
  obtain ⟨ph, hinv, hu⟩ := (runs_inv h).1 i t ht
  cases hu _ hp
  refine ⟨hinv.known, fun pre reply post ha => ?_⟩
  rw [hinv.same pre reply post ha]
  simp [after, rest]

/-- C78: at any time, whether the call is in progress or was dropped, its effects are the first ones of what it would do on its own. -/
theorem C78_prefix {ts : List (Task P V)} {tr : List (Nat × Obs)} (h : Runs [] tr ts) (i : Nat) (t : Task P V)
    (ht : ts[i]? = some t) :
    (∃ pre reply post, Answers pre reply post (seen i tr)) ∧
    ∀ pre reply post, Answers pre reply post (seen i tr) → effectsOf (seen i tr) <+: (alone t pre reply post).2 := by
  obtain ⟨ph, hinv, hu⟩ := (runs_inv h).1 i t ht
  refine ⟨hinv.known, fun pre reply post ha => ?_⟩
  rw [hinv.same pre reply post ha]
  exact List.prefix_append _ _

/-- C78: a call never sends more than one request, also if it is dropped. -/
theorem C78_once {ts : List (Task P V)} {tr : List (Nat × Obs)} (h : Runs [] tr ts) (i : Nat) :
    sends (effectsOf (seen i tr)) ≤ 1 := by
  by_cases hi : i < ts.length
  · obtain ⟨⟨pre, reply, post, ha⟩, hx⟩ := C78_prefix h i ts[i] (List.getElem?_eq_getElem hi)
    obtain ⟨l, hl⟩ := hx pre reply post ha
    obtain ⟨evs, he, hs⟩ := C21_at_most_one ts[i].method.cfg ts[i].method.hooks (steady pre reply post) ts[i].method.decode
      ts[i].method.params ts[i].method.code [] ts[i].args
    unfold alone at hl
    rw [he, List.nil_append] at hl
    subst hl
    unfold sends at hs ⊢
    rw [List.filter_append, List.length_append] at hs
    omega
  · rw [(runs_inv h).2 i (by omega)]
    exact Nat.zero_le _

/-- C78: a value that a call returns was decoded from the reply to the request of that call. -/
theorem C78_own_reply {ts : List (Task P V)} {tr : List (Nat × Obs)} (h : Runs [] tr ts) (i : Nat) (t : Task P V)
    (rv : ResponseValue (Resp.Inner V)) (ht : ts[i]? = some t) (hp : t.phase = some (.completed (.returned (.ok rv)))) :
    ∃ r a l₁ l₂, seen i tr = l₁ ++ .effect (.send r) :: .replied a :: l₂ ∧
      Resp.handle t.method.decode t.method.code.dispatch a = some (.ok rv) := by
  obtain ⟨ph, hinv, hu⟩ := (runs_inv h).1 i t ht
  cases hu _ hp
  exact hinv.shape rv rfl

/-- C78: what happens to one call leaves all others as they are. -/
theorem C78_frame {ts ts' : List (Task P V)} {obs : List (Nat × Obs)} (h : Move ts obs ts') :
    ∃ i, (∀ j t, j ≠ i → ts[j]? = some t → ts'[j]? = some t) ∧ ∀ x ∈ obs, x.1 = i := by
  cases h with
  | call m args ph hs =>
    refine ⟨ts.length, ?_, nofun⟩
    intro j t _ hj
    rw [List.getElem?_append_left (List.getElem?_eq_some_iff.mp hj).1]
    exact hj
  | poll i t ph obs ph' hi hph hp =>
    refine ⟨i, ?_, ?_⟩
    · intro j t' hne hj
      rw [List.getElem?_set_ne (Ne.symm hne)]
      exact hj
    · intro x hx
      obtain ⟨o, _, rfl⟩ := List.mem_map.mp hx
      rfl
  | drop i t hi =>
    refine ⟨i, ?_, nofun⟩
    intro j t' hne hj
    rw [List.getElem?_set_ne (Ne.symm hne)]
    exact hj

/-- C78: a call that was dropped or has completed is over: it has no effects any more. -/
theorem C78_over {ts ts' : List (Task P V)} {tr : List (Nat × Obs)} (h : Runs ts tr ts') (i : Nat) (t : Task P V)
    (ht : ts[i]? = some t) (hp : t.phase = none ∨ ∃ x, t.phase = some (.completed x)) :
    seen i tr = [] ∧ ∃ t', ts'[i]? = some t' ∧ (t'.phase = t.phase ∨ t'.phase = none) := by
  induction h with
  | here => exact ⟨rfl, t, ht, .inl rfl⟩
  | step tr ts' obs ts'' hr hm ih =>
    obtain ⟨hs, t', ht', hp'⟩ := ih
    have hlt := (List.getElem?_eq_some_iff.mp ht').1
    rw [seen_append, hs]
    cases hm with
    | call m args ph hs =>
      exact ⟨rfl, t', by rw [List.getElem?_append_left hlt]; exact ht', hp'⟩
    | poll j u ph obs ph' hj hph hpoll =>
      by_cases hij : j = i
      · subst hij
        rw [ht'] at hj
        cases hj
        exfalso
        rcases hp' with h1 | h1
        · rw [h1] at hph
          rcases hp with h2 | ⟨x, h2⟩
          · rw [h2] at hph; cases hph
          · rw [h2] at hph; cases hph; cases hpoll
        · rw [h1] at hph; cases hph
      · rw [seen_other hij, List.getElem?_set_ne hij]
        exact ⟨rfl, t', ht', hp'⟩
    | drop j u hj =>
      by_cases hij : j = i
      · subst hij
        rw [List.getElem?_set_self hlt]
        exact ⟨rfl, _, rfl, .inr rfl⟩
      · rw [List.getElem?_set_ne hij]
        exact ⟨rfl, t', ht', hp'⟩

/-- How many answers a call still waits for at most. -/
def Phase.togo : Phase P V → Nat
  | .created _ => 5
  | .preparing _ => 4
  | .executing _ => 3
  | .reviewing _ => 2
  | .reading _ => 1
  | .completed _ => 0

/-- C78: calls do not wait for each other: a call that is neither dropped nor completed can go on whatever the others do, as soon as its own
hooks and the server answer, and whatever they answer; each time it goes on it comes closer to its end, which is at most five polls away. -/
theorem C78_progress (ts : List (Task P V)) (i : Nat) (t : Task P V) (ph : Phase P V) (ht : ts[i]? = some t) (hp : t.phase = some ph)
    (hc : ∀ x, ph ≠ .completed x) :
    (∀ pre reply post, ∃ obs ph', Answers pre reply post obs ∧
      Move ts (obs.map fun o => (i, o)) (ts.set i { t with phase := some ph' })) ∧
    (∀ obs ph', Poll t.method ph obs ph' → Phase.togo ph' < Phase.togo ph) ∧ Phase.togo ph ≤ 5 := by
  refine ⟨?_, ?_, ?_⟩
  · intro pre reply post
    have key : ∃ obs ph', Answers pre reply post obs ∧ Poll t.method ph obs ph' := by
      cases ph with
      | created env => exact ⟨_, _, by simp [Answers], .first env⟩
      | preparing r => exact ⟨_, _, by simp [Answers], .prepared r pre⟩
      | executing r => exact ⟨_, _, by simp [Answers], .replied r reply⟩
      | reviewing x => exact ⟨_, _, by simp [Answers], .reviewed x post⟩
      | reading x => exact ⟨_, _, by simp [Answers], .read x⟩
      | completed x => exact absurd rfl (hc x)
    obtain ⟨obs, ph', ha, h⟩ := key
    exact ⟨obs, ph', ha, .poll ts i t ph obs ph' ht hp h⟩
  · intro obs ph' h
    cases h with
    | first env =>
      unfold Method.first
      split
      · simp [Phase.togo]
      · simp [Phase.togo]
      · simp [Phase.togo]
      · simp [Phase.togo]
      · split <;> simp [Phase.togo]
    | prepared r a => cases a <;> simp [Method.prepared, Phase.togo]
    | replied r a => unfold Method.replied; split <;> simp [Phase.togo]
    | reviewed x a => cases a <;> simp [Method.reviewed, Phase.togo]
    | read x => simp [Phase.togo]
  · cases ph <;> simp [Phase.togo]

/-! ### Two calls: the second one completes first, the first one is dropped after its request was sent -/

def twoMethod (c : Code) : Method Unit Unit := ⟨exCfg, ⟨false, false, false, false⟩, fun _ _ => .ok (), exOp.params, c⟩

def twoArgs (s : String) : List Value := [.plain (txt s), .plain (txt "x y"), .opt none]

example : ∃ c tr ts t rv, methodSigBody exOp = .ok c ∧ Runs [] tr ts ∧ ts[1]? = some t ∧ t.method = twoMethod c ∧
    t.phase = some (.completed (.returned (.ok rv))) ∧ rv.status = 200 ∧ (seen 1 tr).length = 2 ∧
    ts[0]? = some ⟨twoMethod c, twoArgs "a", none⟩ ∧ sends (effectsOf (seen 0 tr)) = 1 :=
  ⟨_, _, _, _, _, rfl,
    .step _ _ _ _ (.step _ _ _ _ (.step _ _ _ _ (.step _ _ _ _ (.step _ _ _ _ (.step _ _ _ _ (.step _ _ _ _ .here
      (.call _ (twoMethod _) (twoArgs "a") _ rfl)) (.call _ (twoMethod _) (twoArgs "b") _ rfl))
      (.poll _ 0 _ _ _ _ rfl rfl (.first _))) (.poll _ 1 _ _ _ _ rfl rfl (.first _)))
      (.poll _ 1 _ _ _ _ rfl rfl (.replied _ (.ok { status := 200, headers := [], body := .ok [], upgrade := .error ⟨0, none⟩ }))))
      (.poll _ 1 _ _ _ _ rfl rfl (.read _))) (.drop _ 0 _ rfl),
    rfl, rfl, rfl, rfl, rfl, rfl, rfl⟩

end Progenitor.Props

import Verif.Model.Exec

/-!
# Calls as futures

Generated methods are `async fn`s (`/repo/progenitor-impl/src/method.rs:611-623`, `1646-1666`): a call returns a future, nothing happens
until it is polled, it can be left alone at every `.await` while others run, and it can be dropped.  The body between `await`s
(method.rs:1086-1144) is cut here into the pieces that run at one go.  What a hook or the network answers, and when, is up to the
environment.
-/

namespace Progenitor.Tasks

open Progenitor Progenitor.Params Progenitor.Client Progenitor.Exec

variable {P V : Type}

/-- A method of a client: what it depends on, its signature and its body, and how JSON is decoded. -/
structure Method (P V : Type) where
  cfg : Config
  hooks : Hooks
  decode : TypeId → Bytes → Except P V
  params : List Param
  code : Code

/-- The state of a future: not polled yet, suspended at one of the `await`s, or completed. -/
inductive Phase (P V : Type) where
  | created (env : Env)
  /-- in `pre_hook_async(..).await`, method.rs:1064-1069 -/
  | preparing (r : Request)
  /-- in `execute(..).await`, method.rs:1103-1105 -/
  | executing (r : Request)
  /-- in `post_hook_async(..).await`, method.rs:1078-1083 -/
  | reviewing (reply : Reply)
  /-- in an arm of the `match`, for instance `from_response(..).await`, method.rs:1111-1144 -/
  | reading (reply : Reply)
  | completed (x : Result P V)

/-- What is observed of a future: effects of the method, and answers of the environment. -/
inductive Obs where
  | effect (e : Event)
  | prepared (a : Except Str Request)
  | replied (a : Reply)
  | reviewed (a : Except Str Unit)

/-- The call itself: arguments are bound, nothing else. -/
def Method.start (m : Method P V) (args : List Value) : Option (Phase P V) := (bindArgs m.params args).map .created

/-- method.rs:1086-1105: from the first poll to the first `await`. -/
def Method.first (m : Method P V) (env : Env) : List Event × Phase P V :=
  match build m.cfg m.code env with
  | .noCompile => ([], .completed .noCompile)
  | .panicked => ([], .completed .panicked)
  | .invalidRequest msg => ([], .completed (.returned (.error (.invalidRequest msg))))
  | .communicationError => ([], .completed (.returned (.error (.communicationError builderError))))
  | .request r =>
    if m.hooks.preAsync then
      ((if m.hooks.pre then [.preHook r] else []) ++ [.preHookAsync r], .preparing r)
    else ((if m.hooks.pre then [.preHook r] else []) ++ [.send r], .executing r)

/-- method.rs:1064-1069, 1103: the asynchronous hook has answered. -/
def Method.prepared (_ : Method P V) (a : Except Str Request) : List Event × Phase P V :=
  match a with
  | .error e => ([], .completed (.returned (.error (.preHookError e))))
  | .ok r => ([.send r], .executing r)

/-- method.rs:1073-1083, 1106-1109: the reply has arrived. -/
def Method.replied (m : Method P V) (reply : Reply) : List Event × Phase P V :=
  if m.hooks.postAsync then
    ((if m.hooks.post then [.postHook reply] else []) ++ [.postHookAsync reply], .reviewing reply)
  else (if m.hooks.post then [.postHook reply] else [], .reading reply)

/-- method.rs:1078-1083: the asynchronous hook has answered. -/
def Method.reviewed (_ : Method P V) (reply : Reply) (a : Except Str Unit) : Phase P V :=
  match a with
  | .error e => .completed (.returned (.error (.postHookError e)))
  | .ok _ => .reading reply

/-- method.rs:1109-1144. -/
def Method.read (m : Method P V) (reply : Reply) : Result P V :=
  match Resp.handle m.decode m.code.dispatch reply with
  | none => .noCompile
  | some o => .returned o

/-- A poll that makes progress: what is observed, and the state afterwards.  Polls at which the environment has no answer yet change nothing and are left
out. -/
inductive Poll (m : Method P V) : Phase P V → List Obs → Phase P V → Prop
  | first (env) : Poll m (.created env) ((m.first env).1.map .effect) (m.first env).2
  | prepared (r a) : Poll m (.preparing r) (.prepared a :: (m.prepared a).1.map .effect) (m.prepared a).2
  | replied (r a) : Poll m (.executing r) (.replied a :: (m.replied a).1.map .effect) (m.replied a).2
  | reviewed (x a) : Poll m (.reviewing x) [.reviewed a] (m.reviewed x a)
  | read (x) : Poll m (.reading x) [] (.completed (m.read x))

/-- A call in progress. -/
structure Task (P V : Type) where
  method : Method P V
  args : List Value
  /-- `none`: the future was dropped -/
  phase : Option (Phase P V)

/-- One thing that happens in a program that makes calls: a call is made, a future is polled or dropped.  Observations carry the number of the call. -/
inductive Move : List (Task P V) → List (Nat × Obs) → List (Task P V) → Prop
  | call (ts m args ph) : Method.start m args = some ph → Move ts [] (ts ++ [⟨m, args, some ph⟩])
  | poll (ts i t ph obs ph') : ts[i]? = some t → t.phase = some ph → Poll t.method ph obs ph' →
      Move ts (obs.map fun o => (i, o)) (ts.set i { t with phase := some ph' })
  | drop (ts i t) : ts[i]? = some t → Move ts [] (ts.set i { t with phase := none })

/-- Executions: any number of calls, polled in any order. -/
inductive Runs (ts : List (Task P V)) : List (Nat × Obs) → List (Task P V) → Prop
  | here : Runs ts [] ts
  | step (tr ts' obs ts'') : Runs ts tr ts' → Move ts' obs ts'' → Runs ts (tr ++ obs) ts''

end Progenitor.Tasks

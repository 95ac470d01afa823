import Verif.Model.Builder

/-!
# Streams of paginated operations

Model of `/repo/progenitor-impl/src/method.rs:627-753` (positional `_stream` methods) and
`1677-1770` (builder `stream`).  The combinators of the `futures` crate are transition systems
that are driven by polling: a step emits an element, ends, asks (makes a call and awaits its
result), or is internal.  What a call returns is up to the environment.
-/

namespace Progenitor.Stream

open Progenitor Progenitor.Params Progenitor.Client Progenitor.Exec Progenitor.Builder

variable {Q R X : Type}

/-- One step of a stream in state `σ`: `Q` are calls, `R` their results, `X` elements. -/
inductive Step (Q R X σ : Type) where
  | emit (x : X) (s : σ)
  | done (s : σ)
  | tau (s : σ)
  | ask (q : Q) (k : R → σ)

/-- A future that makes at most one call. -/
inductive Fut (Q R A : Type) where
  | ready (a : A)
  | call (q : Q) (k : R → A)

variable {E I S σ τ : Type}

/-- `futures::stream::iter(items).map(Ok)`. -/
def iterStep : List I → Step Q R (Except E I) (List I)
  | [] => .done []
  | x :: xs => .emit (.ok x) xs

/-- `futures::stream::TryUnfold`: `state`, `fut`, or neither. -/
inductive Unfold (Q R E S σ : Type) where
  | state (s : S)
  | fut (f : Fut Q R (Except E (Option (σ × S))))
  | none

/-- `TryUnfold::poll_next`. -/
def unfoldStep (f : S → Fut Q R (Except E (Option (σ × S)))) :
    Unfold Q R E S σ → Step Q R (Except E σ) (Unfold Q R E S σ)
  | .state s => .tau (.fut (f s))
  | .fut (.call q k) => .ask q fun r => .fut (.ready (k r))
  | .fut (.ready (.ok (some (a, s)))) => .emit (.ok a) (.state s)
  | .fut (.ready (.ok none)) => .done .none
  | .fut (.ready (.error e)) => .emit (.error e) .none
  | .none => .done .none

/-- `TryFlatten::poll_next` (streams of streams): the current inner stream, and the outer one. -/
def flattenStep (inner : σ → Step Q R (Except E I) σ) (outer : τ → Step Q R (Except E σ) τ) :
    Option σ × τ → Step Q R (Except E I) (Option σ × τ)
  | (some i, o) => match inner i with
    | .emit x i' => .emit x (some i', o)
    | .done _ => .tau (none, o)
    | .tau i' => .tau (some i', o)
    | .ask q k => .ask q fun r => (some (k r), o)
  | (none, o) => match outer o with
    | .emit (.ok i) o' => .tau (some i, o')
    | .emit (.error e) o' => .emit (.error e) (none, o')
    | .done o' => .done (none, o')
    | .tau o' => .tau (none, o')
    | .ask q k => .ask q fun r => (none, k r)

/-- `Chain::poll_next`. -/
def chainStep (first : σ → Step Q R X σ) (second : τ → Step Q R X τ) :
    Option σ × τ → Step Q R X (Option σ × τ)
  | (some a, b) => match first a with
    | .emit x a' => .emit x (some a', b)
    | .done _ => .tau (none, b)
    | .tau a' => .tau (some a', b)
    | .ask q k => .ask q fun r => (some (k r), b)
  | (none, b) => match second b with
    | .emit x b' => .emit x (none, b')
    | .done b' => .done (none, b')
    | .tau b' => .tau (none, b')
    | .ask q k => .ask q fun r => (none, k r)

/-- `futures::future::TryFlatten` as a stream: `First`, `Second`, `Empty`. -/
inductive FlatFut (Q R E σ : Type) where
  | first (f : Fut Q R (Except E σ))
  | second (s : σ)
  | empty

/-- `TryFlattenStream::poll_next`. -/
def flatFutStep (inner : σ → Step Q R (Except E I) σ) :
    FlatFut Q R E σ → Step Q R (Except E I) (FlatFut Q R E σ)
  | .first (.call q k) => .ask q fun r => .first (.ready (k r))
  | .first (.ready (.ok s)) => .tau (.second s)
  | .first (.ready (.error e)) => .emit (.error e) .empty
  | .second s => match inner s with
    | .emit x s' => .emit x (.second s')
    | .done s' => .done (.second s')
    | .tau s' => .tau (.second s')
    | .ask q k => .ask q fun r => .second (k r)
  | .empty => .done .empty

/-- A page of the dropshot protocol. -/
structure Page (I : Type) where
  items : List I
  next : Option Str

/-- What a call of the paginated operation results in. -/
abbrev Answer (E I : Type) := Except E (Page I)

/-- `fut.map_ok(f)` for a call. -/
def callMap {A : Type} (q : Q) (f : Page I → A) : Fut Q (Answer E I) (Except E A) :=
  .call q fun r => r.map f

/-- State of the streams below: `first.chain(rest)` inside `try_flatten_stream()`. -/
abbrev PState (Q E I S : Type) :=
  FlatFut Q (Answer E I) E (Option (List I) × (Option (List I) × Unfold Q (Answer E I) E S (List I)))

/-- `rest` (method.rs:698-737, 1735-1761) and everything around it, given the function passed to
`try_unfold`. -/
def pageStep (f : S → Fut Q (Answer E I) (Except E (Option (List I × S)))) :
    PState Q E I S → Step Q (Answer E I) (Except E I) (PState Q E I S) :=
  flatFutStep (chainStep iterStep (flattenStep iterStep (unfoldStep f)))

/-- method.rs:688-738, 1728-1763: `map_ok(|page| ..)` and `try_flatten_stream()`; `seed` makes the seed
of `try_unfold` from the token of the first page. -/
def pageInit (q : Q) (seed : Option Str → S) : PState Q E I S :=
  .first (callMap q fun page => (some page.items, (none, .state (seed page.next))))

/-! ## Positional -/

/-- method.rs:700-734: the closure of `try_unfold`; `step t` are the arguments for token `t`. -/
def positionalUnfold (step : Str → Q) : Option Str → Fut Q (Answer E I) (Except E (Option (List I × Option Str)))
  | none => .ready (.ok none)
  | some t => callMap (step t) fun page => some (page.items, page.next)

/-- The value `Some(token)` of type `Option<&str>`. -/
def tokenValue (t : Str) : Value := .opt (some ⟨t, .str t⟩)

/-- method.rs:636-646 `stream_params`. -/
def streamParams (params : List Param) : List Param := params.filter fun p => p.name ≠ "page_token".toList

/-- method.rs:650-658 `first_params`. -/
def firstArg (env : Env) (p : Param) : Option Value :=
  if p.apiName = "page_token".toList then some (.opt none) else lookup env p.name

def isQuery : Kind → Bool
  | .query _ => true
  | _ => false

/-- The scope of the inner closure: `state`, and `first` and `page` of the outer one
(method.rs:688-700) hide parameters of that name. -/
def stepEnv (env : Env) : Env :=
  ("state".toList, .internal) :: ("first".toList, .internal) :: ("page".toList, .internal) :: env

/-- method.rs:664-683 `step_params`. -/
def stepArg (env : Env) (t : Str) (p : Param) : Option Value :=
  if p.apiName = "page_token".toList then some (tokenValue t)
  else if p.apiName ≠ "limit".toList && isQuery p.kind then some (.opt none)
  else lookup (stepEnv env) p.name

def isString (types : Types) : PType → Bool
  | .type t => types t = some .string
  | .rawBody => false

/-- `state.as_deref()` is an `Option<&str>`; the parameter must be of that type. -/
def tokenTyped (types : Types) (params : List Param) : Bool :=
  params.all fun p => p.apiName ≠ "page_token".toList || isString types p.typ

/-- Arguments are used for every page, so they must be `Copy`: references are, raw bodies are not. -/
def copied (params : List Param) : Bool := params.all fun p => p.typ ≠ .rawBody

/-- The arguments of the calls of `op_stream(args)`; `none`: it does not compile. -/
def positionalArgs (types : Types) (params : List Param) (args : List Value) :
    Option (List Value × (Str → List Value)) :=
  match bindArgs (streamParams params) args with
  | none => none
  | some env =>
    match mapM? (firstArg env) params, mapM? (stepArg env []) params with
    | some fa, some sa =>
      if tokenTyped types params ∧ copied params ∧ (bindArgs params fa).isSome ∧ (bindArgs params sa).isSome then
        some (fa, fun t => (mapM? (stepArg env t) params).getD [])
      else none
    | _, _ => none

/-- The stream of the positional method. -/
abbrev PosState (E I : Type) := PState (List Value) E I (Option Str)

def posInit (a : List Value × (Str → List Value)) : PosState E I := pageInit a.1 id

def posStep (a : List Value × (Str → List Value)) :
    PosState E I → Step (List Value) (Answer E I) (Except E I) (PosState E I) :=
  pageStep (positionalUnfold a.2)

/-! ## Builder -/

variable {B : Type}

/-- method.rs:1681-1696: fields of `next` that are set to `Ok(None)`. -/
def nextField (x : Param × Field B) : Param × Field B :=
  if x.1.apiName ≠ "limit".toList && isQuery x.1.kind then (x.1, .opt (.ok none)) else x

/-- method.rs:1716-1719: `Self { .., ..self.clone() }`. -/
def nextTemplate (s : State B) : State B := s.map nextField

/-- method.rs:1744-1747: `Self { page_token: Ok(next_page), ..next.clone() }`. -/
def withToken (t : Str) (s : State B) : State B :=
  s.map fun x => if x.1.name = "page_token".toList then (x.1, .opt (.ok (some ⟨t, .str t⟩))) else x

/-- method.rs:1735-1758: the closure of `try_unfold`. -/
def builderUnfold : Option Str × State B →
    Fut (State B) (Answer E I) (Except E (Option (List I × (Option Str × State B))))
  | (none, _) => .ready (.ok none)
  | (some t, next) => callMap (withToken t next) fun page => some (page.items, (page.next, next))

abbrev BldState (B E I : Type) := PState (State B) E I (Option Str × State B)

def bldInit (s : State B) : BldState B E I := pageInit s fun t => (t, nextTemplate s)

def bldStep : BldState B E I → Step (State B) (Answer E I) (Except E I) (BldState B E I) :=
  pageStep builderUnfold

/-- The struct has a field `page_token` of type `Option<String>`, no other field that `next` sets to
`None` is required, and it is `Clone` (no raw body). -/
def builderStreamOk (types : Types) (params : List Param) : Bool :=
  tokenTyped types params && params.any (fun p => p.name = "page_token".toList && p.kind = .query false) &&
  params.all queryOptional && copied params

/-- `client.op().a(..).b(..).stream()`: the state it starts from; `none`: it does not compile. -/
def builderStream (tt : TypeTable B) (types : Types) (params : List Param) (calls : List (Call B)) : Option (State B) :=
  if structOk tt params true && builderStreamOk types params then setAll tt (new tt params) calls else none

/-! ## Execution -/

/-- What can be observed of a stream. -/
inductive Act (Q R X : Type) where
  | asked (q : Q) (r : R)
  | emitted (x : X)
  | ended

/-- Executions: any number of steps, with any answers to the calls. -/
inductive Trace (step : σ → Step Q R X σ) (s0 : σ) : List (Act Q R X) → σ → Prop
  | start : Trace step s0 [] s0
  | tau (tr s s') : Trace step s0 tr s → step s = .tau s' → Trace step s0 tr s'
  | emit (tr s x s') : Trace step s0 tr s → step s = .emit x s' → Trace step s0 (tr ++ [.emitted x]) s'
  | ask (tr s q k r) : Trace step s0 tr s → step s = .ask q k → Trace step s0 (tr ++ [.asked q r]) (k r)
  | done (tr s s') : Trace step s0 tr s → step s = .done s' → Trace step s0 (tr ++ [.ended]) s'

variable {H : Type}

/-- `n` steps in an environment that answers calls depending on everything that happened before: the
observable actions, the state reached and the history.  `none`: a call does not return. -/
def runFor (step : σ → Step Q R X σ) (answer : H → Q → Option (R × H)) :
    Nat → σ → H → Option (List (Act Q R X) × σ × H)
  | 0, s, h => some ([], s, h)
  | n + 1, s, h => match step s with
    | .tau s' => runFor step answer n s' h
    | .emit x s' => (runFor step answer n s' h).map fun r => (.emitted x :: r.1, r.2)
    | .done s' => (runFor step answer n s' h).map fun r => (.ended :: r.1, r.2)
    | .ask q k => match answer h q with
      | none => none
      | some (r, h') => (runFor step answer n (k r) h').map fun x => (.asked q r :: x.1, x.2)

variable {P V : Type}

/-- `ResponseValue::into_inner` of a page; `pageOf` takes the struct apart. -/
def toAnswer (pageOf : V → Page I) : Resp.Outcome P V → Option (Answer (Error P (Resp.Inner V)) I)
  | .ok rv => match rv.inner with
    | .value v => some (.ok (pageOf v))
    | _ => none
  | .error e => some (.error e)

/-- Calls of the operation with given arguments, as the environment of a stream. -/
def answerOf (pageOf : V → Page I) (f : List Event → Q → Result P V × List Event) (h : List Event) (q : Q) :
    Option (Answer (Error P (Resp.Inner V)) I × List Event) :=
  match f h q with
  | (.returned o, h') => (toAnswer pageOf o).map fun a => (a, h')
  | _ => none

end Progenitor.Stream

import Verif.Model.Basic

/-!
# Path templates

Model of `/repo/progenitor-impl/src/template.rs`.
-/

namespace Progenitor.Template

open Progenitor

/-- template.rs:10-14 `enum Component`. -/
inductive Component where
  | const (s : Str)
  | param (name : Str)
  deriving DecidableEq, Repr

/-- template.rs:16-19 `struct PathTemplate { components }`. -/
abbrev PathTemplate := List Component

/-- template.rs:90-95 the local `enum State` of `parse`. -/
inductive PState where
  | start
  | constOrParam
  | param
  | const
  deriving DecidableEq, Repr

/-- template.rs:97-99 the local variables `s`, `a`, `components` of `parse`. -/
structure Loc where
  s : PState
  a : Str
  comps : List Component
  deriving DecidableEq, Repr

/-- `String::ends_with('/')`. -/
def endsWithSlash (a : Str) : Bool := a.getLast? == some '/'

/-- template.rs:101-149 one iteration of the loop over `t.chars()`. -/
def step (l : Loc) (c : Char) : Except Str Loc :=
  match l.s with
  | .start =>
    if c = '/' then .ok ⟨.const, [c], l.comps⟩
    else .error "path must start with a slash".toList
  | .constOrParam =>
    if c = '{' then .ok ⟨.param, [], l.comps⟩
    else .ok ⟨.const, [c], l.comps⟩
  | .const =>
    if c = '{' then .ok ⟨.param, [], l.comps ++ [.const l.a]⟩
    else if c = '}' then .error "unexpected }".toList
    else if c ≠ '/' ∨ endsWithSlash l.a = false then .ok ⟨.const, l.a ++ [c], l.comps⟩
    else .ok l
  | .param =>
    if c = '}' then
      if '/' ∈ l.a ∨ '{' ∈ l.a then .error "invalid parameter name".toList
      else .ok ⟨.constOrParam, [], l.comps ++ [.param l.a]⟩
    else .ok ⟨.param, l.a ++ [c], l.comps⟩

/-- template.rs:151-158 the final `match s`. -/
def finish (l : Loc) : Except Str PathTemplate :=
  match l.s with
  | .start => .error "empty path".toList
  | .constOrParam => .ok l.comps
  | .const => .ok (l.comps ++ [.const l.a])
  | .param => .error "unterminated parameter".toList

/-- The loop: template.rs:101-149. -/
def run : Loc → Str → Except Str Loc
  | l, [] => .ok l
  | l, c :: t => match step l c with
    | .ok l' => run l' t
    | .error e => .error e

/-- template.rs:89-159 `parse`.  The payload of `Error::InvalidPath` is kept,
except that the message for a bad parameter name omits the `{:?}` rendering of
the name. -/
def parse (t : Str) : Except Str PathTemplate :=
  match run ⟨.start, [], []⟩ t with
  | .ok l => finish l
  | .error e => .error e

/-- template.rs:161-171 one component of `to_string`. -/
def Component.toStr : Component → Str
  | .const s => s
  | .param n => '{' :: n ++ ['}']

/-- template.rs:161-171 `ToString for PathTemplate`. -/
def toString (p : PathTemplate) : Str := p.flatMap Component.toStr

/-- template.rs:53-61 `names`. -/
def names (p : PathTemplate) : List Str :=
  p.filterMap fun | .param n => some n | .const _ => none

/-- template.rs:23-30 the format string built by `compile`. -/
def compileFmt (p : PathTemplate) : Str :=
  '{' :: '}' :: p.flatMap fun | .const s => s | .param _ => ['{', '}']

/-- template.rs:32-46 the argument identifiers built by `compile`; `rename`
maps API names to Rust identifiers, a missing entry is the
`expect("missing path name mapping ..")` panic. -/
def compileArgs (rename : Str → Option Str) : PathTemplate → Res (List Str)
  | [] => .ok []
  | .const _ :: p => compileArgs rename p
  | .param n :: p =>
    match rename n with
    | none => .panic ("missing path name mapping ".toList ++ n)
    | some ident =>
      match compileArgs rename p with
      | .ok is => .ok (ident :: is)
      | .err m => .err m
      | .panic m => .panic m

/-- The tokens emitted by `compile` (template.rs:48-50):
`format!(fmt, client.baseurl, encode_path(&i0.to_string()), ...)`. -/
structure UrlExpr where
  fmt : Str
  args : List Str
  deriving DecidableEq, Repr

/-- template.rs:22-51 `compile`. -/
def compile (p : PathTemplate) (rename : Str → Option Str) : Res UrlExpr :=
  match compileArgs rename p with
  | .ok is => .ok ⟨compileFmt p, is⟩
  | .err m => .err m
  | .panic m => .panic m

/-- template.rs:63-73 `as_wildcard` (constants are not regex-escaped). -/
def asWildcard (p : PathTemplate) : Str :=
  '^' :: (p.flatMap fun | .const s => s | .param _ => "[^/]*".toList) ++ ['$']

/-- template.rs:75-86 `as_wildcard_param`. -/
def asWildcardParam (p : PathTemplate) (param : Str) : Str :=
  '^' :: (p.flatMap fun
    | .const s => s
    | .param q => if q = param then ['{', '}'] else ".*".toList) ++ ['$']

/-- Rust's `format!` restricted to what `compile` emits: literal text, the
escapes `{{` and `}}`, and `{}` placeholders consumed left to right.  `none`
stands for "does not compile" (unmatched brace, too few or unused arguments);
other placeholder forms do not occur in emitted strings and are `none`. -/
def rustFormat : Str → List Str → Option Str
  | [], [] => some []
  | [], _ :: _ => none
  | '{' :: '{' :: r, args => (rustFormat r args).map ('{' :: ·)
  | '{' :: '}' :: _, [] => none
  | '{' :: '}' :: r, x :: args => (rustFormat r args).map (x ++ ·)
  | '{' :: _, _ => none
  | '}' :: '}' :: r, args => (rustFormat r args).map ('}' :: ·)
  | '}' :: _, _ => none
  | c :: r, args => (rustFormat r args).map (c :: ·)

end Progenitor.Template

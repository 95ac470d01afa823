import Verif.Model.Argv

/-!
# Specification of command lines given as text
-/

namespace Progenitor.Spec

open Progenitor Progenitor.Params Progenitor.Exec Progenitor.Cli

/-- The words `ws` give the arguments `l`, in this order: names, and values if there are any. -/
inductive Writes : List (Str × Option Str) → List Str → Prop
  | nil : Writes [] []
  | dashes : Writes [] ["--".toList]
  /-- `--n=v`, for any `v`. -/
  | attached (n v : Str) {l ws} : '=' ∉ n → Writes l ws → Writes ((n, some v) :: l) (("--".toList ++ n ++ '=' :: v) :: ws)
  /-- `--n v`, unless `v` looks like an option. -/
  | apart (n v : Str) {l ws} : n ≠ [] → '=' ∉ n → (v = "-".toList ∨ ∀ s, v ≠ '-' :: s) → Writes l ws →
      Writes ((n, some v) :: l) (("--".toList ++ n) :: v :: ws)
  /-- `--n`. -/
  | switch (n : Str) {l ws} : n ≠ [] → '=' ∉ n → Writes l ws → Writes ((n, none) :: l) (("--".toList ++ n) :: ws)

/-- Text `s` stands for the value `a` of type `t`: for enums, it is the name of a variant. -/
def Parses (ps : Parsers) (t : TypeId) (s : Str) (a : Arg) : Prop :=
  (∃ names, ps.simple t = some names ∧ s ∈ names ∧ ps.tryFrom t s = some a) ∨ (ps.simple t = none ∧ ps.value t s = some a)

/-- `n` with text `s` is a flag of the command, and the value is `a`. -/
def FlagGiven (ps : Parsers) (args : Args) (n s : Str) (a : Arg) : Prop :=
  ∃ f, (n, f) ∈ args.flags ∧ Parses ps f.type s a

/-- `n` is an argument about files, and not a flag. -/
def FileArg (args : Args) (n name : Str) : Prop := n = name ∧ args.body ≠ .none ∧ ∀ f, (n, f) ∉ args.flags

/-- An argument of the command, with a value that can be read. -/
def Meant (ps : Parsers) (args : Args) : Str × Option Str → Prop
  | (n, some s) => (∃ a, FlagGiven ps args n s a) ∨ (FileArg args n "json-body".toList ∧ s ≠ [])
  | (n, none) => FileArg args n "json-body-template".toList

/-- Arguments of the command with values that can be read, each at most once. -/
structure Admissible (ps : Parsers) (args : Args) (l : List (Str × Option Str)) : Prop where
  once : (l.map Prod.fst).Nodup
  meant : ∀ x ∈ l, Meant ps args x

/-- The content of the file `p` is the value `a` of the body. -/
def FileBody (ps : Parsers) (body : Option TypeId) (p : Str) (a : Arg) : Prop :=
  ∃ t txt, body = some t ∧ ps.files p = some txt ∧ ps.fromJson t txt = some a

/-- The matches for the arguments `l`: flags have the values given; the file is that given. -/
structure LineFor (ps : Parsers) (args : Args) (body : Option TypeId) (l : List (Str × Option Str)) (line : Line) : Prop where
  value : ∀ n a, line.get n = some a ↔ ∃ s, (n, some s) ∈ l ∧ FlagGiven ps args n s a
  file : ∀ r, line.json = some r ↔
    ∃ p, ("json-body".toList, some p) ∈ l ∧ FileArg args "json-body".toList "json-body".toList ∧ ∀ a, r = some a ↔ FileBody ps body p a

/-- All that is required is there: required flags; the file; or one of the two. -/
structure Complete (args : Args) (line : Line) : Prop where
  flags : ∀ e ∈ args.flags, e.2.volition = .required → line.get e.1 ≠ none
  props : ∀ e ∈ args.flags, e.2.volition = .requiredIfNoBody → line.get e.1 ≠ none ∨ line.json ≠ none
  file : args.body = .required → line.json ≠ none

/-- The names of variants are read as values. -/
def EnumsRead (ps : Parsers) : Prop := ∀ t names, ps.simple t = some names → ∀ s ∈ names, ∃ a, ps.tryFrom t s = some a

end Progenitor.Spec

import Verif.Model.Macro
import Verif.Model.Doc

/-!
# Settings of the generator

Model of `/repo/progenitor-impl/src/lib.rs:58-305` (`GenerationSettings`, `Generator::new`) and
`/repo/progenitor-macro/src/lib.rs:119-398` (`generate_api!`).  Tokens, and the way `syn` and `serde_tokenstream` read one value, are
parameters; the settings of typify are a record of what was passed to them.
-/

namespace Progenitor.Settings

open Progenitor Progenitor.Doc Progenitor.Macro

/-! ## Hash maps -/

/-- Content of a `HashMap<String, _>`. -/
abbrev HashMap (X : Type) := Str → Option X

variable {X : Type}

def HashMap.insert (m : HashMap X) (k : Str) (x : X) : HashMap X := fun j => if j = k then some x else m j

/-- Insertion of entries, left to right. -/
def HashMap.ofList (l : List (Str × X)) : HashMap X := l.foldl (fun m e => m.insert e.1 e.2) fun _ => none

/-- A list of the entries in the order in which some iteration yields them: each once. -/
def Iter (m : HashMap X) (l : List (Str × X)) : Prop := (l.map Prod.fst).Nodup ∧ ∀ k x, (k, x) ∈ l ↔ m k = some x

/-! ## `GenerationSettings` -/

/-- typify `UnknownPolicy`; `Generate` is the default. -/
inductive Policy where
  | generate
  | allow
  | deny
  deriving DecidableEq, Repr

/-- typify `TypePatch`. -/
structure TypePatch where
  rename : Option Str
  derives : List Str
  deriving DecidableEq, Repr

/-- A replacement type with the traits it has. -/
abbrev Target := Str × List TypeImpl

/-- lib.rs:58-79 `GenerationSettings`.  Tokens are represented by their text.  `S` are JSON schemas, `V` versions. -/
structure Generation (S V : Type) where
  interface : Interface := .positional
  tag : TagStyle := .merged
  innerType : Option Str := none
  preHook : Option Str := none
  preHookAsync : Option Str := none
  postHook : Option Str := none
  postHookAsync : Option Str := none
  extraDerives : List Str := []
  mapType : Option Str := none
  unknownCrates : Policy := .generate
  crates : BTree.Map (CrateSpec V) := []
  patch : HashMap TypePatch := fun _ => none
  replace : HashMap Target := fun _ => none
  convert : List (S × Target) := []

/-- A call of one of the methods that change the settings. -/
inductive Setter (S V : Type) where
  | interface (i : Interface)
  | tag (t : TagStyle)
  | innerType (t : Str)
  | preHook (t : Str)
  | preHookAsync (t : Str)
  | postHook (t : Str)
  | postHookAsync (t : Str)
  | derive (d : Str)
  | patch (name : Str) (p : TypePatch)
  | replacement (name : Str) (t : Target)
  | conversion (schema : S) (t : Target)
  | unknownCrates (p : Policy)
  | crate (name : Str) (c : CrateSpec V)
  | mapType (t : Str)

variable {S V : Type}

/-- lib.rs:125-238: `with_interface`, .., `with_map_type`. -/
def Generation.call (g : Generation S V) : Setter S V → Generation S V
  | .interface i => { g with interface := i }
  | .tag t => { g with tag := t }
  | .innerType t => { g with innerType := some t }
  | .preHook t => { g with preHook := some t }
  | .preHookAsync t => { g with preHookAsync := some t }
  | .postHook t => { g with postHook := some t }
  | .postHookAsync t => { g with postHookAsync := some t }
  | .derive d => { g with extraDerives := g.extraDerives ++ [d] }
  | .patch n p => { g with patch := g.patch.insert n p }
  | .replacement n t => { g with replace := g.replace.insert n t }
  | .conversion s t => { g with convert := g.convert ++ [(s, t)] }
  | .unknownCrates p => { g with unknownCrates := p }
  | .crate n c => { g with crates := BTree.insert n c g.crates }
  | .mapType t => { g with mapType := some t }

def Generation.calls (g : Generation S V) (l : List (Setter S V)) : Generation S V := l.foldl Generation.call g

/-! ## `TypeSpaceSettings` -/

/-- typify `TypeSpaceSettings`. -/
structure Typify (S V : Type) where
  typeMod : Option Str := none
  structBuilder : Bool := false
  derives : List Str := []
  unknownCrates : Policy := .generate
  crates : HashMap (CrateSpec V) := fun _ => none
  patch : HashMap TypePatch := fun _ => none
  replace : HashMap Target := fun _ => none
  convert : List (S × Target) := []
  mapType : Option Str := none

inductive TypifySetter (S V : Type) where
  | typeMod (m : Str)
  | structBuilder (b : Bool)
  | derive (d : Str)
  | unknownCrates (p : Policy)
  | crate (name : Str) (c : CrateSpec V)
  | patch (name : Str) (p : TypePatch)
  | replacement (name : Str) (t : Target)
  | conversion (schema : S) (t : Target)
  | mapType (t : Str)

/-- What the methods of `TypeSpaceSettings` do. -/
def Typify.call (g : Typify S V) : TypifySetter S V → Typify S V
  | .typeMod m => { g with typeMod := some m }
  | .structBuilder b => { g with structBuilder := b }
  | .derive d => { g with derives := g.derives ++ [d] }
  | .unknownCrates p => { g with unknownCrates := p }
  | .crate n c => { g with crates := g.crates.insert n c }
  | .patch n p => { g with patch := g.patch.insert n p }
  | .replacement n t => { g with replace := g.replace.insert n t }
  | .conversion s t => { g with convert := g.convert ++ [(s, t)] }
  | .mapType t => { g with mapType := some t }

/-- lib.rs:253-296: the calls made by `Generator::new`; `ps`, `rs` are the entries of `patch` and `replace` as iterated. -/
def typifyCalls (g : Generation S V) (ps : List (Str × TypePatch)) (rs : List (Str × Target)) : List (TypifySetter S V) :=
  [.typeMod "types".toList, .structBuilder (decide (g.interface = .builder))] ++
  g.extraDerives.map .derive ++ [.unknownCrates g.unknownCrates] ++
  g.crates.map (fun e => .crate e.1 e.2) ++
  ps.map (fun e => .patch e.1 e.2) ++ rs.map (fun e => .replacement e.1 e.2) ++
  g.convert.map (fun e => .conversion e.1 e.2) ++ g.mapType.toList.map .mapType

/-- lib.rs:251-305 `Generator::new`: the settings of the type space. -/
def newTypify (g : Generation S V) (ps : List (Str × TypePatch)) (rs : List (Str × Target)) : Typify S V :=
  (typifyCalls g ps rs).foldl Typify.call {}

/-! ## `generate_api!` -/

/-- macro lib.rs:175-180 `MacroPatch`. -/
structure MacroPatch where
  rename : Option Str
  derives : List Str
  deriving DecidableEq, Repr

/-- macro lib.rs:182-193. -/
def MacroPatch.toPatch (a : MacroPatch) : TypePatch :=
  let s : TypePatch := ⟨none, []⟩
  let s := a.rename.toList.foldl (fun (s : TypePatch) r => { s with rename := some r }) s
  a.derives.foldl (fun (s : TypePatch) d => { s with derives := s.derives ++ [d] }) s

/-- macro lib.rs:127-159 `MacroSettings`. -/
structure MacroSettings (S V : Type) where
  spec : Str
  interface : Interface
  tags : TagStyle
  innerType : Option Str
  preHook : Option Str
  preHookAsync : Option Str
  postHook : Option Str
  postHookAsync : Option Str
  mapType : Option Str
  derives : List Str
  unknownCrates : Policy
  crates : HashMap (MacroCrateSpec V)
  patch : HashMap MacroPatch
  replace : HashMap (Str × List ImplTrait)
  convert : List (S × Str × List ImplTrait)

/-- How one value is read (`syn`, `serde_tokenstream`); maps are lists of entries as written. -/
structure Parsers (Tok S V : Type) where
  lit : Tok → Option Str
  interface : Tok → Option Interface
  tags : Tok → Option TagStyle
  type : Tok → Option Str
  hook : Tok → Option Str
  paths : Tok → Option (List Str)
  policy : Tok → Option Policy
  crates : Tok → Option (List (Str × MacroCrateSpec V))
  patch : Tok → Option (List (Str × MacroPatch))
  replace : Tok → Option (List (Str × Str × List ImplTrait))
  convert : Tok → Option (List (S × Str × List ImplTrait))

variable {Tok : Type}

/-- A field of a struct with derived `Deserialize`: absent, or present once and readable; otherwise (outer `none`) an error. -/
def field (es : List (Str × Tok)) (key : String) (parse : Tok → Option X) : Option (Option X) :=
  match es.filter fun e => e.1 = key.toList with
  | [] => some none
  | [e] => (parse e.2).map some
  | _ => none

/-- The names of the fields. -/
def fieldNames : List String :=
  ["spec", "interface", "tags", "inner_type", "pre_hook", "pre_hook_async", "post_hook", "post_hook_async", "map_type", "derives",
   "unknown_crates", "crates", "patch", "replace", "convert"]

/-- `serde_tokenstream::from_tokenstream::<MacroSettings>`; `strict`: whether unknown keys are errors. -/
def readSettings (P : Parsers Tok S V) (strict : Bool) (es : List (Str × Tok)) : Option (MacroSettings S V) := do
  let spec ← field es "spec" P.lit
  let spec ← spec
  let interface ← field es "interface" P.interface
  let tags ← field es "tags" P.tags
  let innerType ← field es "inner_type" P.type
  let preHook ← field es "pre_hook" P.hook
  let preHookAsync ← field es "pre_hook_async" P.hook
  let postHook ← field es "post_hook" P.hook
  let postHookAsync ← field es "post_hook_async" P.hook
  let mapType ← field es "map_type" P.type
  let derives ← field es "derives" P.paths
  let unknownCrates ← field es "unknown_crates" P.policy
  let crates ← field es "crates" P.crates
  let patch ← field es "patch" P.patch
  let replace ← field es "replace" P.replace
  let convert ← field es "convert" P.convert
  if strict && es.any (fun e => !(fieldNames.map String.toList).contains e.1) then none else
  pure { spec, interface := interface.getD .positional, tags := tags.getD .merged, innerType, preHook, preHookAsync, postHook,
         postHookAsync, mapType, derives := derives.getD [], unknownCrates := unknownCrates.getD .generate,
         crates := HashMap.ofList (crates.getD []), patch := HashMap.ofList (patch.getD []),
         replace := HashMap.ofList (replace.getD []), convert := convert.getD [] }

/-- The orders in which hash maps are iterated. -/
structure Orders (V : Type) where
  crates : List (Str × MacroCrateSpec V)
  patch : List (Str × MacroPatch)
  replace : List (Str × Str × List ImplTrait)
  patch' : List (Str × TypePatch)
  replace' : List (Str × Target)

/-- macro lib.rs:304-348: the calls made for the settings. -/
def macroCalls (m : MacroSettings S V) (o : Orders V) : List (Setter S V) :=
  [.interface m.interface, .tag m.tags] ++ m.innerType.toList.map .innerType ++ m.preHook.toList.map .preHook ++
  m.preHookAsync.toList.map .preHookAsync ++ m.postHook.toList.map .postHook ++ m.postHookAsync.toList.map .postHookAsync ++
  m.mapType.toList.map .mapType ++ [.unknownCrates m.unknownCrates] ++
  o.crates.map (fun e => .crate (crateEntry e).1 (crateEntry e).2) ++ m.derives.map .derive ++
  o.patch.map (fun e => .patch e.1 e.2.toPatch) ++ o.replace.map (fun e => .replacement e.1 (e.2.1, impls e.2.2)) ++
  m.convert.map (fun e => .conversion e.1 (e.2.1, impls e.2.2))

/-- The orders are possible for these settings of the macro and of the generator. -/
structure Orders.For (o : Orders V) (m : MacroSettings S V) (g : Generation S V) : Prop where
  crates : Iter m.crates o.crates
  patch : Iter m.patch o.patch
  replace : Iter m.replace o.replace
  patch' : Iter g.patch o.patch'
  replace' : Iter g.replace o.replace'

/-- The argument of the macro. -/
inductive Input (Tok : Type) where
  | literal (s : Str)
  | keyed (es : List (Str × Tok))

/-- macro lib.rs:296-350: the path of the document and the settings, those of typify included.  A relation, since the order of
iteration is not determined; `none`: a compile error. -/
inductive Configures (P : Parsers Tok S V) (strict : Bool) : Input Tok → Option (Str × Generation S V × Typify S V) → Prop
  | literal (s) : Configures P strict (.literal s) (some (s, {}, newTypify {} [] []))
  | invalid (es) : readSettings P strict es = none → Configures P strict (.keyed es) none
  | keyed (es m o) : readSettings P strict es = some m → o.For m (Generation.calls {} (macroCalls m o)) →
      Configures P strict (.keyed es)
        (some (m.spec, Generation.calls {} (macroCalls m o), newTypify (Generation.calls {} (macroCalls m o)) o.patch' o.replace'))

/-! ## Reading the document -/

/-- `Path::join` on Unix. -/
def join (dir p : Str) : Str :=
  if p.head? = some '/' then p
  else if dir.getLast? = some '/' ∨ dir = [] then dir ++ p else dir ++ '/' :: p

/-- The environment of the compiler: `CARGO_MANIFEST_DIR`, the current directory (which may be inaccessible), and files. -/
structure Env where
  manifestDir : Option Str
  cwd : Option Str
  files : Str → Option Str

/-- What the macro expands to: the code of the generator and a reference to the document. -/
structure Expansion (C : Type) where
  code : C
  rebuild : Str

/-- macro lib.rs:360-370: JSON, or else YAML. -/
def readDoc {D : Type} (json yaml : Str → Option D) (text : Str) : Option D :=
  match json text with
  | some d => some d
  | none => yaml text

/-- macro lib.rs:352-398, given path and settings.  `gen` is `generate_tokens` of a generator with these settings. -/
def expand {D C : Type} (json yaml : Str → Option D) (gen : Generation S V → Typify S V → D → Res C) (env : Env)
    (cfg : Option (Str × Generation S V × Typify S V)) : Res (Expansion C) :=
  match cfg with
  | none => .err "settings".toList
  | some (spec, g, t) =>
    match env.manifestDir.or env.cwd with
    | none => .panic "called `Result::unwrap()` on an `Err` value".toList
    | some dir =>
      match env.files (join dir spec) with
      | none => .err ("couldn't read file ".toList ++ join dir spec)
      | some text =>
        match readDoc json yaml text with
        | none => .err ("failed to parse ".toList ++ join dir spec)
        | some d =>
          match gen g t d with
          | .ok code => .ok ⟨code, join dir spec⟩
          | .err m => .err ("generation error for ".toList ++ spec ++ ": ".toList ++ m)
          | .panic m => .panic m

/-- Which hooks generated methods run: `/repo/progenitor-impl/src/method.rs:1057-1083`. -/
def hooksOf (g : Generation S V) : Exec.Hooks :=
  ⟨g.preHook.isSome, g.preHookAsync.isSome, g.postHook.isSome, g.postHookAsync.isSome⟩

end Progenitor.Settings

import Verif.Model.Doc
import Verif.Model.Space

/-!
# The crate written by `cargo progenitor`

Model of `/repo/cargo-progenitor/src/main.rs`.  Paths are lists of components.  Files are a function from paths to contents;
directories are not modelled, apart from the failure to create one.  The output on the terminal is not modelled.
-/

namespace Progenitor.Crate

open Progenitor

/-- main.rs:28-57 `Args`, as far as `main` itself uses them. -/
structure Args where
  input : List Str
  output : List Str
  name : Str
  version : Str
  registry : Option Str
  license : Str
  includeClient : Bool

/-- main.rs:150-157: the first part of `Cargo.toml`. -/
def package (a : Args) : Str :=
  "[package]\nname = \"".toList ++ a.name ++ "\"\nversion = \"".toList ++ a.version ++
    "\"\nedition = \"2021\"\nlicense = \"".toList ++ a.license ++ "\"\n".toList

/-- main.rs:158-160. -/
def publish (a : Args) : Str :=
  match a.registry with
  | some r => "publish = [\"".toList ++ r ++ "\"]\n".toList
  | none => []

/-- `join("\n")`. -/
def joinLines : List Str → Str
  | [] => []
  | [l] => l
  | l :: m :: ls => l ++ '\n' :: joinLines (m :: ls)

/-- main.rs:150-170: `Cargo.toml`. -/
def cargoToml (a : Args) (deps : List Str) : Str :=
  package a ++ publish a ++ ("\n[dependencies]\n".toList ++ joinLines deps ++ "\n\n".toList)

/-- Contents of files. -/
abbrev Files := List Str → Option Str

def Files.put (fs : Files) (p : List Str) (x : Option Str) : Files := fun q => if q = p then x else fs q

/-- What the operating system does: creating a directory succeeds or not; writing a file succeeds (`none`) or leaves something else
at its path. -/
structure Os where
  mkdir : Files → List Str → Bool
  write : Files → List Str → Str → Option (Option Str)

/-- main.rs:98-111 `save`. -/
def save (os : Os) (p : List Str) (data : Str) (fs : Files) : Res Unit × Files :=
  match os.write fs p data with
  | none => (.ok (), fs.put p (some data))
  | some left => (.err "io".toList, fs.put p left)

/-- Doing one thing after another, as long as there is no error. -/
def andThen (x : Res Unit × Files) (f : Files → Res Unit × Files) : Res Unit × Files :=
  match x with
  | (.ok (), fs) => f fs
  | (e, fs) => (e, fs)

def mkdir (os : Os) (p : List Str) (fs : Files) : Res Unit × Files :=
  if os.mkdir fs p then (.ok (), fs) else (.err "io".toList, fs)

/-- main.rs:301-314 `load_api`: JSON, or else YAML. -/
def loadApi {D : Type} (json yaml : Str → Option D) (fs : Files) (p : List Str) : Res D :=
  match fs p with
  | none => .err "io".toList
  | some text => match json text with
    | some d => .ok d
    | none => match yaml text with
      | some d => .ok d
      | none => .err "yaml".toList

/-- main.rs:180-184: the source before formatting. -/
def libSource (a : Args) (code : Str) : Str :=
  if a.includeClient then "mod progenitor_client;\n\n".toList ++ code else code

/-- main.rs:142-197: writing the crate.  `fmt` is rustfmt, which may fail. -/
def writeCrate (u : Names.Unicode) (os : Os) (fmt : Str → Option Str) (client : Str) (a : Args) (deps : List Str) (code : Str)
    (fs : Files) : Res Unit × Files :=
  andThen (mkdir os a.output fs) fun fs =>
  andThen (save os (a.output ++ ["Cargo.toml".toList]) (cargoToml a deps) fs) fun fs =>
  andThen (mkdir os (a.output ++ ["src".toList]) fs) fun fs =>
  match fmt (libSource a code) with
  | none => (.panic "rustfmt".toList, fs)
  | some formatted =>
    andThen (save os (a.output ++ ["src".toList, "lib.rs".toList]) (Space.spaceOut u formatted) fs) fun fs =>
    if a.includeClient then save os (a.output ++ ["src".toList, "progenitor_client.rs".toList]) client fs else (.ok (), fs)

/-- main.rs:113-207 `main`.  `gen` is `generate_tokens` and the features that the generator reports afterwards. -/
def main {D : Type} (u : Names.Unicode) (os : Os) (fmt : Str → Option Str) (client : Str) (json yaml : Str → Option D)
    (gen : D → Res (Str × Doc.Features)) (a : Args) (fs : Files) : Res Unit × Files :=
  match loadApi json yaml fs a.input with
  | .err m => (.err m, fs)
  | .panic m => (.panic m, fs)
  | .ok d => match gen d with
    | .err _ => (.err "generation experienced errors".toList, fs)
    | .panic m => (.panic m, fs)
    | .ok (code, f) => writeCrate u os fmt client a (Doc.dependencies { f with includeClient := a.includeClient }) code fs

end Progenitor.Crate

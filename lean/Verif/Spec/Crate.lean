import Verif.Spec.Toml
import Verif.Model.Crate

/-!
# What the manifest of a generated crate should say
-/

namespace Progenitor.Spec

open Progenitor Toml

/-- The pairs of the table `package`. -/
def wantedPackage (a : Crate.Args) : Toml.Pairs :=
  [("name".toList, .scalar (.str a.name)), ("version".toList, .scalar (.str a.version)), ("edition".toList, .scalar (.str "2021".toList)),
   ("license".toList, .scalar (.str a.license))] ++
  match a.registry with
  | some r => [("publish".toList, .scalar (.list [r]))]
  | none => []

/-- A dependency with a version only. -/
def plainDep (name version : String) : Str × Value := (name.toList, .scalar (.str version.toList))

/-- A dependency with features; `bare` if the default features are turned off. -/
def featureDep (name version : String) (bare : Bool) (features : List String) : Str × Value :=
  (name.toList, .table ([("version".toList, .str version.toList)] ++ (if bare then [("default-features".toList, .bool false)] else []) ++
    [("features".toList, .list (features.map String.toList))]))

/-- The dependencies for given features. -/
def wantedDeps (f : Doc.Features) : Toml.Pairs :=
  [plainDep "bytes" "1.9", plainDep "futures-core" "0.3", featureDep "reqwest" "0.12" true ["json", "stream"],
   featureDep "serde" "1.0" false ["derive"], plainDep "serde_urlencoded" "0.7"] ++
  (if f.includeClient then [plainDep "percent-encoding" "2.3"]
   else [("progenitor-client".toList, .scalar (.str f.clientVersion))]) ++
  (if f.regress then [plainDep "regress" "0.10"] else []) ++
  (if f.uuid then [featureDep "uuid" "1.0" false ["serde", "v4"]] else []) ++
  (if f.chrono then [featureDep "chrono" "0.4" true ["serde"]] else []) ++
  (if f.futures then [plainDep "futures" "0.3"] else []) ++
  (if f.websockets then [plainDep "base64" "0.22", plainDep "rand" "0.8"] else []) ++
  (if f.serdeJson || f.includeClient then [plainDep "serde_json" "1.0"] else [])

/-- The manifest says what was asked for. -/
def ManifestSays (a : Crate.Args) (f : Doc.Features) (text : Str) : Prop :=
  ∃ ds, Toml.read text = some ([], [("package".toList, wantedPackage a), ("dependencies".toList, ds)]) ∧ ds.Perm (wantedDeps f)

end Progenitor.Spec

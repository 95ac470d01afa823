import Verif.Model.Cli
import Verif.Model.Doc

/-!
# A command line for a document

Model of `/repo/progenitor-impl/src/cli.rs:26-168` (`Generator::cli`) and of what it takes for the emitted code to compile.  The path of
the client crate is taken to be one that `syn` parses, and the crate to be a client in the builder style.  That types have the traits
that the reports ask for (`Serialize`, `JsonSchema`, `Debug`) is left out.
-/

namespace Progenitor.Cli

open Progenitor Progenitor.Params Progenitor.Doc

/-- cli.rs:54-57. -/
def cliAll (u : Names.Unicode) (ct : CliTypes) : List Processed → Res (List (Args × Resp.Kind × Resp.Kind))
  | [] => .ok []
  | p :: ps => do
    let m ← cliMethod u ct p.paginated p.op
    let ms ← cliAll u ct ps
    pure (m :: ms)

/-- cli.rs:26-168 `cli`. -/
def cli (u : Names.Unicode) (types : Types) (ct : CliTypes) (d : Document) :
    Res (List Processed × List (Args × Resp.Kind × Resp.Kind)) := do
  let ms ← rawMethods u types d
  let as ← cliAll u ct ms
  pure (ms, as)

/-- lib.rs:534-619: the methods of the client, and those of its traits; `use client::*` (cli.rs:83) imports the traits. -/
def methodsOf (t : TagStyle) (ms : List Processed) : List Processed × BTree.Map (List Processed) :=
  match t with
  | .merged => (ms, [])
  | .separate => builderTags ms ([], [])

/-- cli.rs:201, 330: `self.client.operation()`. -/
def callee (inner : Bool) (t : TagStyle) (ms : List Processed) (p : Processed) : Callee :=
  resolve inner p.op.operationId (methodsOf t ms)

end Progenitor.Cli

import Verif.Model.Doc
import Verif.Spec.Names

/-!
# Specification: documents, names, tags, dependencies
-/

namespace Progenitor.Spec

open Progenitor Progenitor.Names Progenitor.Doc

/-- The version is `3.0.` and anything after blanks. -/
def Version30 (u : Unicode) (v : Str) : Prop :=
  ∃ pre rest, v = pre ++ "3.0.".toList ++ rest ∧ ∀ c ∈ pre, u.white c = true

/-- The operation objects of a document. -/
def opsOf (d : Document) : List RawOperation :=
  d.paths.flatMap fun p => (p.2.getD []).map Prod.snd

/-- The operations of a document in order, each with its path and method. -/
def routes (d : Document) : List (Str × Str × RawOperation) :=
  d.paths.flatMap fun p => (p.2.getD []).map fun e => (p.1, e.1, e.2)

/-- The method is for this operation: named after the operation id, with its HTTP method, path, tags and kind. -/
def MethodFor (u : Unicode) (o : Str × Str × RawOperation) (p : Processed) : Prop :=
  ∃ id, o.2.2.id = some id ∧ p.op.operationId = sanitize u .snake id ∧ o.2.1 = p.op.method.print ∧
    Template.parse o.1 = .ok p.op.path ∧ p.op.tags = o.2.2.op.tags ∧ p.op.websocket = o.2.2.op.websocket

/-- What validation stands for. -/
structure ValidDoc (u : Unicode) (d : Document) : Prop where
  version : Version30 u d.version
  noReference : ∀ p ∈ d.paths, p.2 ≠ none
  hasId : ∀ o ∈ opsOf d, o.id ≠ none
  distinct : ((opsOf d).map RawOperation.id).Nodup

/-- Lower case letters and digits, not empty. -/
def LowWord (w : Str) : Prop := w ≠ [] ∧ ∀ c ∈ w, c.isLower = true ∨ c.isDigit = true

/-- Words with `_` between them. -/
def withUnderscores : List Str → Str
  | [] => []
  | [w] => w
  | w :: ws => w ++ '_' :: withUnderscores ws

/-- `lower_case_1`: a name in snake case that can be used as it is. -/
def SnakeName (s : Str) : Prop :=
  (∃ ws : List Str, ws ≠ [] ∧ (∀ w ∈ ws, LowWord w) ∧ s = withUnderscores ws) ∧
  (∀ c, s.head? = some c → c.isDigit = false) ∧ ∀ k ∈ reserved, s ≠ k.toList

/-- A snake case name whose words start with letters. -/
def LetterName (s : Str) : Prop :=
  SnakeName s ∧
  ∃ ws : List Str, ws ≠ [] ∧ (∀ w ∈ ws, LowWord w ∧ ∀ c, w.head? = some c → c.isLower = true) ∧
    s = withUnderscores ws

/-- The crate that a line of `[dependencies]` is for. -/
def crateOf (line : Str) : Str := line.takeWhile (· ≠ ' ')

/-- Ascending order of texts, without repetition. -/
def Ascending : List Str → Prop
  | [] => True
  | [_] => True
  | a :: b :: rest => strCmp a b = .lt ∧ Ascending (b :: rest)

/-- The crates that generated code needs. -/
inductive Needs (f : Features) (ms : List Processed) : String → Prop
  | bytes : Needs f ms "bytes"
  | futuresCore : Needs f ms "futures-core"
  | reqwest : Needs f ms "reqwest"
  | serde : Needs f ms "serde"
  | serdeUrlencoded : Needs f ms "serde_urlencoded"
  | client : f.includeClient = false → Needs f ms "progenitor-client"
  | percent : f.includeClient = true → Needs f ms "percent-encoding"
  | clientJson : f.includeClient = true → Needs f ms "serde_json"
  | json : f.serdeJson = true → Needs f ms "serde_json"
  | regress : f.regress = true → Needs f ms "regress"
  | uuid : f.uuid = true → Needs f ms "uuid"
  | chrono : f.chrono = true → Needs f ms "chrono"
  | stream {p} : p ∈ ms → p.paginated ≠ none → Needs f ms "futures"
  | key {p} : p ∈ ms → p.op.websocket = true → Needs f ms "base64"
  | random {p} : p ∈ ms → p.op.websocket = true → Needs f ms "rand"

/-- The call reaches the operation. -/
def Reaches (c : Callee) (p : Processed) : Prop := c = .inherent p ∨ ∃ tag, c = .trait tag p

end Progenitor.Spec

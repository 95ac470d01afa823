import Verif.Model.Doc

/-!
# Documentation in the generated code

Model of `/repo/progenitor-impl/src/method.rs:2143-2224` (`make_doc_comment`, `make_stream_doc_comment`), `1644-1652`,
`1705-1712`, `1789-1841` (documentation of builders), `1863-1897` (`builder_helper`), and
`/repo/progenitor-impl/src/lib.rs:348-352, 390-406`, and of how descriptions of the document reach the
arguments (`method.rs:286-549`).
-/

namespace Progenitor.DocText

open Progenitor Progenitor.Params Progenitor.Names Progenitor.Doc

/-! ## From the document -/

/-- A parameter of the document and its `description`. -/
abbrev Described := DocParam × Option Str

/-- The texts of an operation object. -/
structure Texts where
  summary : Option Str
  description : Option Str
  /-- Descriptions of the parameters of the path item, and of those of the operation. -/
  pathLevel : List Described
  opLevel : List Described
  /-- The `description` of the request body. -/
  body : Option Str

/-- The operation without its texts. -/
def Texts.bare (t : Texts) (d : DocOperation) : DocOperation :=
  { d with pathLevel := t.pathLevel.map Prod.fst, opLevel := t.opLevel.map Prod.fst }

/-- method.rs:296-300, util.rs:45-52. -/
def combinedTexts (pathLevel opLevel : List Described) : BTree.Map Described :=
  BTree.insertAll (BTree.insertAll [] (pathLevel.map fun p => (p.1.name, p))) (opLevel.map fun p => (p.1.name, p))

/-- method.rs:304-405: each conversion keeps the description. -/
def convertTexts (san : Str → Str) : List Described → Res (List (Param × Option Str))
  | [] => .ok []
  | p :: ps => do
    let q ← convert san p.1
    let qs ← convertTexts san ps
    pure ((q, p.2) :: qs)

/-- method.rs:2226-2291. -/
def sortTexts (names : List Str) (l : List (Param × Option Str)) : Res (List (Param × Option Str)) :=
  sortLoop (fun a b => do pure ((← cmp names a.1 b.1) == .lt)) [] l

/-- method.rs:22-33 `struct OperationMethod`: the texts. -/
structure MethodTexts where
  summary : Option Str
  description : Option Str
  params : List (Param × Option Str)

/-- `.filter(|s| !s.is_empty())`. -/
def nonEmpty (s : Option Str) : Option Str := s.filter fun s => !s.isEmpty

/-- method.rs:286-549 `process_operation`, the texts. -/
def processTexts (san : Str → Str) (path : Str) (d : DocOperation) (t : Texts) : Res MethodTexts := do
  let params ← convertTexts san (BTree.values (combinedTexts t.pathLevel t.opLevel))
  let body ← getBodyParam d.body
  let tmp ← parseTemplate path
  let params ← sortTexts (Template.names tmp) (params ++ (body.map fun b => (b, t.body)).toList)
  pure ⟨nonEmpty t.summary, nonEmpty t.description, params⟩

/-! ## Comments of methods -/

/-- `trim_end_matches(['.', ','])`. -/
def trimEnd (s : Str) : Str := (s.reverse.dropWhile fun c => c = '.' || c = ',').reverse

/-- `as_str().to_ascii_uppercase()`. -/
def upperMethod (m : HttpMethod) : Str := m.print.map Char.toUpper

/-- method.rs:2166-2171: the item of one argument. -/
def argumentText (p : Param × Option Str) : Str :=
  "- `".toList ++ p.1.name ++ "`".toList ++
    (match p.2 with
      | some d => ": ".toList ++ d
      | none => []) ++ "\n".toList

/-- method.rs:2157-2174. -/
def argumentsText (ps : List (Param × Option Str)) : Str :=
  if (ps.filter fun p => p.2.isSome).length > 0 then "Arguments:\n".toList ++ ps.flatMap argumentText else []

/-- method.rs:2151-2155, 1644-1648: "Sends a `GET` request to `/path`". -/
def sendText (op : OperationMethod) : Str :=
  "Sends a `".toList ++ upperMethod op.method ++ "` request to `".toList ++ Template.toString op.path ++ "`".toList

/-- method.rs:2147-2150. -/
def descriptionText (d : Option Str) : Str :=
  match d with
  | some d => d ++ "\n\n".toList
  | none => []

/-- method.rs:2143-2180 `make_doc_comment`. -/
def docComment (op : OperationMethod) (t : MethodTexts) : Str :=
  (match t.summary with
    | some s => trimEnd s ++ "\n\n".toList
    | none => []) ++ descriptionText t.description ++ (sendText op ++ "\n\n".toList) ++ argumentsText t.params

/-- method.rs:2194-2198. -/
def repeatText (op : OperationMethod) : Str :=
  "Sends repeated `".toList ++ upperMethod op.method ++ "` requests to `".toList ++ Template.toString op.path ++
    "` until there are no more results.".toList

/-- method.rs:2182-2224 `make_stream_doc_comment`. -/
def streamDocComment (op : OperationMethod) (t : MethodTexts) : Str :=
  (match t.summary with
    | some s => trimEnd s ++ " as a Stream\n\n".toList
    | none => []) ++ descriptionText t.description ++ (repeatText op ++ "\n\n".toList) ++
    argumentsText (t.params.filter fun p => p.1.apiName ≠ "page_token".toList)

/-- method.rs:1705-1709: the comment of `stream` of a builder. -/
def streamText (op : OperationMethod) : Str :=
  "Streams `".toList ++ upperMethod op.method ++ "` requests to `".toList ++ Template.toString op.path ++ "`".toList

/-! ## Builders -/

/-- method.rs:1868-1881: the example. -/
def exampleText (op : OperationMethod) : Str :=
  "let response = client.".toList ++ op.operationId ++ "()".toList ++
    (op.params.flatMap fun p => "\n    .".toList ++ p.name ++ "(".toList ++ p.name ++ ")".toList) ++
    "\n    .send()\n    .await;".toList

/-- method.rs:1887: the comment of the method that makes a builder. -/
def builderDoc (op : OperationMethod) (t : MethodTexts) : Str :=
  docComment op t ++ ("```ignore\n".toList ++ exampleText op ++ "\n```".toList)

/-- `[..].join(sep)`. -/
def joinWith (sep : Str) : List Str → Str
  | [] => []
  | [x] => x
  | x :: y :: l => x ++ sep ++ joinWith sep (y :: l)

/-- "[`T`]: super::T". -/
def linkText (ty : Str) : Str := "[`".toList ++ ty ++ "`]: super::".toList ++ ty

/-- method.rs:1789-1841: the comment of the struct. -/
def structDoc (u : Unicode) (style : TagStyle) (op : OperationMethod) : Str :=
  let one := fun ty : Str => "Builder for [`".toList ++ ty ++ "`]\n\n".toList ++ linkText ty
  let via := fun tag : Str => traitName u tag ++ "::".toList ++ op.operationId
  match style, op.tags with
  | .merged, _ => one ("Client::".toList ++ op.operationId)
  | .separate, [] => one ("Client::".toList ++ op.operationId)
  | .separate, [tag] => one (via tag)
  | .separate, tags =>
    "Builder for `".toList ++ op.operationId ++ "` operation\n\nSee ".toList ++
      joinWith ", ".toList (tags.map fun tag => "[`".toList ++ via tag ++ "`]".toList) ++ "\n\n".toList ++
      joinWith "\n".toList (tags.map fun tag => linkText (via tag))

/-! ## Traits and the client -/

/-- lib.rs:348-352, method.rs:1968-1971: the comment of the trait of a tag; `tags` are the tag objects of the document: name and
description. -/
def traitDoc (tags : List (Str × Option Str)) (tag : Str) : Option Str :=
  (BTree.get tag (BTree.insertAll [] tags)).bind id

/-- The `info` object. -/
structure Info where
  title : Str
  description : Option Str
  terms : Option Str
  version : Str

/-- lib.rs:390-406: the comment of `struct Client`. -/
def clientDoc (i : Info) : Str :=
  "Client for ".toList ++ i.title ++
    (match i.description with
      | some s => "\n\n".toList ++ s
      | none => []) ++
    (match i.terms with
      | some s => "\n\n".toList ++ s
      | none => []) ++
    ("\n\nVersion: ".toList ++ i.version)

end Progenitor.DocText

import Verif.Model.DocText
import Verif.Model.Stream

/-!
# Specification: what a reader of the documentation understands

A comment is read line by line: the request is in the last line that says so, items of the list
of arguments follow it, an example is in a block of its own.
-/

namespace Progenitor.Spec

open Progenitor Progenitor.Params Progenitor.DocText

/-- The lines of a text. -/
def textLines : Str → List Str
  | [] => [[]]
  | c :: s => match textLines s with
    | [] => [[c]]
    | l :: ls => if c = '\n' then [] :: l :: ls else (c :: l) :: ls

/-- Lines put together again. -/
def unlines : List Str → Str
  | [] => []
  | [l] => l
  | l :: m :: ls => l ++ '\n' :: unlines (m :: ls)

/-- What follows a prefix. -/
def stripPre (p s : Str) : Option Str := if p.isPrefixOf s then some (s.drop p.length) else none

/-- What comes before a suffix. -/
def stripSuf (p s : Str) : Option Str := (stripPre p.reverse s.reverse).map List.reverse

/-- Text up to a character, and the rest from it on. -/
def upTo (c : Char) (s : Str) : Str × Str := (s.takeWhile (· ≠ c), s.dropWhile (· ≠ c))

/-- The last line of a kind, and the lines after it. -/
def afterLast (p : Str → Bool) : List Str → Option (Str × List Str)
  | [] => none
  | l :: ls => (afterLast p ls).or (if p l then some (l, ls) else none)

/-- How a comment announces requests. -/
structure Announces where
  before : Str
  between : Str
  after : Str

/-- "Sends a `GET` request to `/path`" -/
def sendsOne : Announces := ⟨"Sends a `".toList, "` request to `".toList, "`".toList⟩

/-- "Sends repeated `GET` requests to `/path` until there are no more results." -/
def sendsMany : Announces := ⟨"Sends repeated `".toList, "` requests to `".toList, "` until there are no more results.".toList⟩

/-- "Streams `GET` requests to `/path`" -/
def streamsMany : Announces := ⟨"Streams `".toList, "` requests to `".toList, "`".toList⟩

/-- The method and the path in a line that announces a request. -/
def readRequest (a : Announces) (line : Str) : Option (Str × Str) := do
  let s ← stripPre a.before line
  let (m, s) := upTo '`' s
  let s ← stripPre a.between s
  let p ← stripSuf a.after s
  pure (m, p)

def startsItem (l : Str) : Bool := "- `".toList.isPrefixOf l

/-- Items begin with "- `" and last until the next one. -/
def items : List Str → List Str × List (List Str)
  | [] => ([], [])
  | l :: ls =>
    if startsItem l then ([], (l :: (items ls).1) :: (items ls).2) else (l :: (items ls).1, (items ls).2)

/-- The name and the description in an item. -/
def readItem (ls : List Str) : Option (Str × Option Str) := do
  let s ← stripPre "- `".toList (unlines ls)
  let (n, s) := upTo '`' s
  let s ← stripPre "`".toList s
  if s.isEmpty then pure (n, none) else (stripPre ": ".toList s).map fun d => (n, some d)

/-- What a comment says: the request, and the arguments with their descriptions. -/
structure Says where
  method : Str
  path : Str
  arguments : List (Str × Option Str)
  deriving DecidableEq

/-- Reading the lines of a comment. -/
def readLinesOf (a : Announces) (ls : List Str) : Option Says := do
  let (line, rest) ← afterLast (fun l => a.before.isPrefixOf l) ls
  let (m, p) ← readRequest a line
  let args ← (items rest).2.mapM readItem
  pure ⟨m, p, args⟩

/-- Reading a comment, every line of which is ended. -/
def readComment (a : Announces) (s : Str) : Option Says := readLinesOf a (textLines s).dropLast

/-- A setter call in the example: "    .name(variable)". -/
def readCall (l : Str) : Option (Str × Str) := do
  let s ← stripPre "    .".toList l
  let (n, s) := upTo '(' s
  let s ← stripPre "(".toList s
  let (v, s) := upTo ')' s
  if s = ")".toList then pure (n, v) else none

/-- The setter calls up to `send`. -/
def readCalls : List Str → Option (List (Str × Str))
  | [] => none
  | l :: ls =>
    if l = "    .send()".toList then if ls = ["    .await;".toList, "```".toList] then some [] else none
    else do
      let c ← readCall l
      let cs ← readCalls ls
      pure (c :: cs)

/-- The method that makes the builder, and the setter calls: "let response = client.name()" and so on. -/
def readExample : List Str → Option (Str × List (Str × Str))
  | [] => none
  | l :: ls => do
    let s ← stripPre "let response = client.".toList l
    let n ← stripSuf "()".toList s
    let cs ← readCalls ls
    pure (n, cs)

/-- Reading a comment with an example. -/
def readBuilderDoc (s : Str) : Option (Says × Str × List (Str × Str)) := do
  let ls := textLines s
  let (_, ex) ← afterLast (fun l => l = "```ignore".toList) ls
  let says ← readLinesOf sendsOne (ls.take (ls.length - ex.length - 1))
  let e ← readExample ex
  pure (says, e)

/-- The target of a link definition: "[`T`]: super::T" stands for `T` of the enclosing module. -/
def readLink (l : Str) : Option Str := do
  let s ← stripPre "[`".toList l
  let (n, s) := upTo '`' s
  let t ← stripPre "`]: super::".toList s
  if t = n then pure n else none

/-- The targets of the links in a comment. -/
def linkTargets (s : Str) : List Str := (textLines s).filterMap readLink

/-! ## The other side -/

/-- Names of HTTP methods. -/
def httpName : HttpMethod → Str
  | .get => "GET".toList
  | .put => "PUT".toList
  | .post => "POST".toList
  | .delete => "DELETE".toList
  | .options => "OPTIONS".toList
  | .head => "HEAD".toList
  | .patch => "PATCH".toList
  | .trace => "TRACE".toList

/-- No line of a description but the first can be taken for an item or for an announcement. -/
def Quiet (a : Announces) (d : Str) : Prop :=
  ∀ l ∈ (textLines d).tail, startsItem l = false ∧ a.before.isPrefixOf l = false

/-- What a comment has to say about a method that takes these arguments: all of them as soon as one is described. -/
def listed (ps : List (Param × Option Str)) : List (Str × Option Str) :=
  if ∃ p ∈ ps, p.2 ≠ none then ps.map fun p => (p.1.name, p.2) else []

/-- The value that a variable holds as an argument of the positional method. -/
def Holds {B : Type} : Builder.Input B → Exec.Value → Prop
  | .value (.ok a), v => v = .plain a ∨ v = .opt (some a)
  | .raw (.ok b), v => v = .raw b
  | _, _ => False

/-- The last entry with a name. -/
def LastText (l : List Described) (n : Str) (t : Described) : Prop :=
  ∃ pre post, l = pre ++ t :: post ∧ t.1.name = n ∧ ∀ x ∈ post, x.1.name ≠ n

/-- The description of the last tag of a name. -/
def LastTag (tags : List (Str × Option Str)) (tag : Str) (d : Option Str) : Prop :=
  ∃ pre post, tags = pre ++ (tag, d) :: post ∧ ∀ x ∈ post, x.1 ≠ tag

end Progenitor.Spec

import Verif.Model.Basic

/-!
# A reader for TOML

The part of TOML that manifests use: bare keys; single-line basic strings, booleans, arrays of strings and inline tables of those;
tables with a bare name; comments.  Anything else is rejected.
-/

namespace Progenitor.Spec.Toml

open Progenitor

inductive Scalar where
  | str (s : Str)
  | bool (b : Bool)
  | list (l : List Str)
  deriving DecidableEq

inductive Value where
  | scalar (v : Scalar)
  | table (l : List (Str × Scalar))
  deriving DecidableEq

/-- A character that stands for itself in a basic string. -/
def basic (c : Char) : Bool := c == '\t' || (32 ≤ c.toNat && c != '"' && c != '\\' && c.toNat != 127)

/-- A text that can stand between quotes. -/
def Plain (s : Str) : Prop := ∀ c ∈ s, basic c = true

/-- The character of an escape sequence. -/
def escape : Char → Option Char
  | '"' => some '"'
  | '\\' => some '\\'
  | 'n' => some '\n'
  | 't' => some '\t'
  | 'r' => some '\r'
  | _ => none

/-- A string after its opening quote: the string and what follows it. -/
def readString : Str → Option (Str × Str)
  | [] => none
  | '"' :: rest => some ([], rest)
  | '\\' :: [] => none
  | '\\' :: c :: rest => match escape c with
    | some d => (readString rest).map fun (v, r) => (d :: v, r)
    | none => none
  | c :: rest => if basic c then (readString rest).map fun (v, r) => (c :: v, r) else none

def skip : Str → Str
  | ' ' :: s => skip s
  | '\t' :: s => skip s
  | s => s

def bare (c : Char) : Bool := c.isAlphanum || c == '-' || c == '_'

/-- A bare key. -/
def readKey (s : Str) : Option (Str × Str) :=
  match s.takeWhile bare with
  | [] => none
  | k => some (k, s.dropWhile bare)

/-- The elements of an array of strings, after the opening bracket or a comma (at most `n` elements). -/
def readList : Nat → Str → Option (List Str × Str)
  | 0, _ => none
  | n + 1, s => match skip s with
    | ']' :: r => some ([], r)
    | '"' :: r => match readString r with
      | none => none
      | some (v, r) => match skip r with
        | ']' :: r => some ([v], r)
        | ',' :: r => (readList n r).map fun (l, r) => (v :: l, r)
        | _ => none
    | _ => none

def readScalar (s : Str) : Option (Scalar × Str) :=
  match s with
  | '"' :: r => (readString r).map fun (v, r) => (.str v, r)
  | '[' :: r => (readList r.length r).map fun (l, r) => (.list l, r)
  | 't' :: 'r' :: 'u' :: 'e' :: r => some (.bool true, r)
  | 'f' :: 'a' :: 'l' :: 's' :: 'e' :: r => some (.bool false, r)
  | _ => none

/-- `key = `, and what follows. -/
def readAssign (s : Str) : Option (Str × Str) :=
  match readKey s with
  | none => none
  | some (k, r) => match skip r with
    | '=' :: r => some (k, skip r)
    | _ => none

/-- The entries of an inline table, after the opening brace or a comma (at most `n` entries). -/
def readEntries : Nat → Str → Option (List (Str × Scalar) × Str)
  | 0, _ => none
  | n + 1, s => match readAssign (skip s) with
    | none => none
    | some (k, r) => match readScalar r with
      | none => none
      | some (v, r) => match skip r with
        | '}' :: r => some ([(k, v)], r)
        | ',' :: r => (readEntries n r).map fun (l, r) => ((k, v) :: l, r)
        | _ => none

def readValue (s : Str) : Option (Value × Str) :=
  match s with
  | '{' :: r => (readEntries r.length r).map fun (l, r) => (.table l, r)
  | s => (readScalar s).map fun (v, r) => (.scalar v, r)

/-- The end of a line: blanks and a comment. -/
def ends (s : Str) : Bool :=
  match skip s with
  | [] => true
  | '#' :: _ => true
  | _ => false

inductive Line where
  | blank
  | header (name : Str)
  | pair (key : Str) (v : Value)
  deriving DecidableEq

def readLine (s : Str) : Option Line :=
  if ends s then some .blank
  else match skip s with
    | '[' :: r => match readKey r with
      | some (k, ']' :: r) => if ends r then some (.header k) else none
      | _ => none
    | r => match readAssign r with
      | none => none
      | some (k, r) => match readValue r with
        | none => none
        | some (v, r) => if ends r then some (.pair k v) else none

/-- The lines of a text. -/
def lines : Str → List Str
  | [] => [[]]
  | '\n' :: s => [] :: lines s
  | c :: s => match lines s with
    | [] => [[c]]
    | l :: ls => (c :: l) :: ls

abbrev Pairs := List (Str × Value)

/-- The pairs before the first header, and those of each table. -/
def tables : List Line → Pairs × List (Str × Pairs)
  | [] => ([], [])
  | .blank :: l => tables l
  | .pair k v :: l => ((k, v) :: (tables l).1, (tables l).2)
  | .header n :: l => ([], (n, (tables l).1) :: (tables l).2)

/-- No key is defined twice. -/
def distinct (t : Pairs × List (Str × Pairs)) : Bool :=
  decide (t.1.map Prod.fst).Nodup && decide (t.2.map Prod.fst).Nodup && t.2.all fun s => decide (s.2.map Prod.fst).Nodup

/-- All lines, if none is rejected. -/
def readLines : List Str → Option (List Line)
  | [] => some []
  | s :: ss => match readLine s with
    | none => none
    | some l => (readLines ss).map (l :: ·)

/-- What a text says: the pairs of the root table and the tables. -/
def read (s : Str) : Option (Pairs × List (Str × Pairs)) :=
  match readLines (lines s) with
  | none => none
  | some ls => if distinct (tables ls) then some (tables ls) else none

end Progenitor.Spec.Toml

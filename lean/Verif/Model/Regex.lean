import Verif.Model.Basic

/-!
# Regular expressions

Model of the part of the `regex` crate that the emitted mock code uses: syntax (without groups, alternatives, escapes, counted
repetition and nested classes, for which the result is `other`) and matching.  The code of `regex` is not in the repository; this
follows its documentation.
-/

namespace Progenitor.Regex

open Progenitor

/-- A set of characters. -/
inductive CharSet where
  | lit (c : Char)
  /-- `.` -/
  | dot
  /-- `[..]`, `[^..]` -/
  | cls (neg : Bool) (cs : List Char)
  deriving DecidableEq, Repr

def CharSet.has : CharSet → Char → Bool
  | .lit c, d => c == d
  | .dot, d => d != '\n'
  | .cls neg cs, d => cs.contains d != neg

inductive Quant where
  | one
  | opt
  | star
  | plus
  deriving DecidableEq, Repr

def Quant.allows : Quant → Nat → Bool
  | .one, n => n == 1
  | .opt, n => n ≤ 1
  | .star, _ => true
  | .plus, n => 1 ≤ n

inductive Item where
  /-- `^` -/
  | start
  /-- `$` -/
  | stop
  | chars (s : CharSet) (q : Quant)
  deriving DecidableEq, Repr

/-- The result of `Regex::new`. -/
inductive Parsed where
  | regex (l : List Item)
  | invalid
  /-- syntax that is not modelled -/
  | other
  deriving DecidableEq, Repr

inductive State where
  /-- at top level, after a set of characters (if any) that may be repeated -/
  | top (last : Option CharSet)
  /-- after `[` -/
  | open
  /-- in a class -/
  | cls (neg : Bool) (cs : List Char)
  deriving DecidableEq, Repr

def pending : Option CharSet → List Item
  | none => []
  | some s => [.chars s .one]

/-- A repetition operator. -/
def quantOf : Char → Option Quant
  | '?' => some .opt
  | '*' => some .star
  | '+' => some .plus
  | _ => none

/-- Characters whose meaning in a class is not modelled. -/
def classSpecial (c : Char) : Bool := ['[', '\\', '-', '&', '~', '^'].contains c

/-- Read a regular expression; `acc` is what was read before. -/
def parseFrom (acc : List Item) : State → Str → Parsed
  | .top last, [] => .regex (acc ++ pending last)
  | .top last, c :: r =>
    match quantOf c with
    | some q =>
      match last with
      | some s => parseFrom (acc ++ [.chars s q]) (.top none) r
      | none => if acc.isEmpty then .invalid else .other
    | none =>
      if c = '^' then parseFrom (acc ++ pending last ++ [.start]) (.top none) r
      else if c = '$' then parseFrom (acc ++ pending last ++ [.stop]) (.top none) r
      else if c = '[' then parseFrom (acc ++ pending last) .open r
      else if c = ')' then .invalid
      else if c = '(' ∨ c = '|' ∨ c = '\\' ∨ c = '{' then .other
      else parseFrom (acc ++ pending last) (.top (some (if c = '.' then .dot else .lit c))) r
  | .open, [] => .invalid
  | .open, c :: r =>
    if c = '^' then parseFrom acc (.cls true []) r
    else if c = ']' ∨ classSpecial c then .other
    else parseFrom acc (.cls false [c]) r
  | .cls _ _, [] => .invalid
  | .cls neg cs, c :: r =>
    if c = ']' then (if cs.isEmpty then .other else parseFrom acc (.top (some (.cls neg cs))) r)
    else if classSpecial c then .other
    else parseFrom acc (.cls neg (cs ++ [c])) r

/-- `Regex::new`. -/
def parse (t : Str) : Parsed := parseFrom [] (.top none) t

/-- The items match a text that starts with `post`, where `pre` precedes it. -/
def MatchFrom : List Item → Str → Str → Prop
  | [], _, _ => True
  | .start :: l, pre, post => pre = [] ∧ MatchFrom l pre post
  | .stop :: l, pre, post => post = [] ∧ MatchFrom l pre post
  | .chars s q :: l, pre, post => ∃ a b, post = a ++ b ∧ q.allows a.length = true ∧ (∀ c ∈ a, s.has c = true) ∧
      MatchFrom l (pre ++ a) b

/-- `Regex::is_match`: somewhere in the text. -/
def IsMatch (l : List Item) (text : Str) : Prop := ∃ pre post, text = pre ++ post ∧ MatchFrom l pre post

end Progenitor.Regex

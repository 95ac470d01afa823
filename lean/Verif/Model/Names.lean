import Verif.Model.Basic

/-!
# Names

Model of `/repo/progenitor-impl/src/util.rs:78-131` (`sanitize`; for `unique_ident_from` see `Params.lean`).

`heck` 0.5 (`to_snake_case`, `to_pascal_case`) is modelled from its documentation and published
source (`transform`, `lowercase`, `capitalize` of its `lib.rs`).  The Unicode tables behind `char`
methods and `unicode_ident` are a parameter; `syn::parse_str::<syn::Ident>` is the lexical rule for
identifiers and the keyword list of syn 2.0.
-/

namespace Progenitor.Names

open Progenitor

/-- Unicode tables: `char::is_alphanumeric`, `is_lowercase`, `is_uppercase`, `to_lowercase`,
`to_uppercase`, `is_whitespace`; `unicode_ident::is_xid_start`, `is_xid_continue`. -/
structure Unicode where
  alnum : Char → Bool
  lower : Char → Bool
  upper : Char → Bool
  toLower : Char → Str
  toUpper : Char → Str
  white : Char → Bool
  xidStart : Char → Bool
  xidCont : Char → Bool

variable (u : Unicode)

/-! ## heck -/

/-- `str::split(p)`: pieces between characters that satisfy `p`. -/
def splitOn (p : Char → Bool) : Str → List Str
  | [] => [[]]
  | c :: cs =>
    if p c then [] :: splitOn p cs
    else match splitOn p cs with
      | [] => [[c]]
      | w :: ws => (c :: w) :: ws

/-- heck `WordMode`. -/
inductive Mode where
  | boundary
  | lowercase
  | uppercase
  deriving DecidableEq, Repr

/-- The mode after `c`. -/
def nextMode (mode : Mode) (c : Char) : Mode :=
  if u.lower c then .lowercase else if u.upper c then .uppercase else mode

/-- The loop of heck's `transform` over one piece: `cur` are the characters since the last boundary. -/
def splitWord (cur : Str) (mode : Mode) : Str → List Str
  | [] => []
  | [c] => [cur ++ [c]]
  | c :: next :: rest =>
    if nextMode u mode c = .lowercase ∧ u.upper next then
      (cur ++ [c]) :: splitWord [] .boundary (next :: rest)
    else if mode = .uppercase ∧ u.upper c ∧ u.lower next then
      cur :: splitWord [c] .boundary (next :: rest)
    else splitWord (cur ++ [c]) (nextMode u mode c) (next :: rest)

/-- The words of a text. -/
def words (s : Str) : List Str :=
  (splitOn (fun c => !u.alnum c) s).flatMap (splitWord u [] .boundary)

/-- heck `lowercase`. -/
def lowercase : Str → Str
  | [] => []
  | [c] => if c = 'Σ' then ['ς'] else u.toLower c
  | c :: cs => u.toLower c ++ lowercase cs

/-- heck `capitalize`. -/
def capitalize : Str → Str
  | [] => []
  | c :: cs => u.toUpper c ++ lowercase u cs

/-- Words joined by `_`. -/
def joinWords : List Str → Str
  | [] => []
  | [w] => w
  | w :: ws => w ++ '_' :: joinWords ws

def toSnake (s : Str) : Str := joinWords ((words u s).map (lowercase u))

def toPascal (s : Str) : Str := (words u s).flatMap (capitalize u)

/-! ## Identifiers -/

/-- syn 2.0 `ident.rs`: words that are not accepted as `Ident`. -/
def keywords : List Str :=
  ["_", "abstract", "as", "async", "await", "become", "box", "break", "const", "continue", "crate", "do",
   "dyn", "else", "enum", "extern", "false", "final", "fn", "for", "if", "impl", "in", "let", "loop",
   "macro", "match", "mod", "move", "mut", "override", "priv", "pub", "ref", "return", "Self", "self",
   "static", "struct", "super", "trait", "true", "try", "type", "typeof", "unsafe", "unsized", "use",
   "virtual", "where", "while", "yield"].map String.toList

/-- The text is lexed as one identifier token. -/
def identText : Str → Bool
  | [] => false
  | c :: cs => (c = '_' || u.xidStart c) && cs.all u.xidCont

/-- `syn::parse_str::<syn::Ident>(s).is_ok()`. -/
def parsesIdent (s : Str) : Bool := identText u s && !keywords.contains s

/-- util.rs:78-81 `Case`. -/
inductive Case where
  | pascal
  | snake
  deriving DecidableEq, Repr

def toCase : Case → Str → Str
  | .pascal => toPascal u
  | .snake => toSnake u

/-- util.rs:93-97: `replace('\'', "")`, `replace(|c| !is_xid_continue(c), "-")`. -/
def clean (s : Str) : Str := (s.filter (· ≠ '\'')).map fun c => if u.xidCont c then c else '-'

/-- util.rs:90-98. -/
def cased (case : Case) (s : Str) : Str :=
  if s = "+1".toList then "plus1".toList
  else if s = "-1".toList then "minus1".toList
  else toCase u case (clean u s)

/-- util.rs:100-104. -/
def started (case : Case) : Str → Str
  | [] => toCase u case ['x']
  | c :: cs => if u.xidStart c then c :: cs else '_' :: c :: cs

/-- util.rs:106-111. -/
def finished (s : Str) : Str := if parsesIdent u s then s else s ++ ['_']

/-- util.rs:83-112 `sanitize`. -/
def sanitize (case : Case) (s : Str) : Str := finished u (started u case (cased u case s))

end Progenitor.Names

/-!
# URLs as servers and URL parsers read them
-/

namespace Progenitor.Spec

/-- Value of a hexadecimal digit. -/
def hexVal (c : Char) : Option Nat :=
  if '0' ≤ c ∧ c ≤ '9' then some (c.toNat - 48)
  else if 'A' ≤ c ∧ c ≤ 'F' then some (c.toNat - 55)
  else if 'a' ≤ c ∧ c ≤ 'f' then some (c.toNat - 87)
  else none

/-- Percent-decoding (RFC 3986 / WHATWG "percent-decode"): `%XY` becomes one
byte, everything else stands for its own UTF-8 bytes. -/
def percentDecode : List Char → List UInt8
  | '%' :: h :: l :: r =>
    match hexVal h, hexVal l with
    | some a, some b => UInt8.ofNat (16 * a + b) :: percentDecode r
    | _, _ => String.utf8EncodeChar '%' ++ percentDecode (h :: l :: r)
  | c :: r => String.utf8EncodeChar c ++ percentDecode r
  | [] => []

/-- Split a text at the characters satisfying `p` (always at least one part). -/
def splitAt (p : Char → Bool) : List Char → List (List Char)
  | [] => [[]]
  | c :: r =>
    if p c then [] :: splitAt p r
    else match splitAt p r with
      | [] => [[c]]
      | s :: ss => (c :: s) :: ss

/-- WHATWG "single-dot path segment". -/
def isSingleDot (s : List Char) : Bool :=
  s == ['.'] || s == ['%', '2', 'e'] || s == ['%', '2', 'E']

/-- WHATWG "double-dot path segment". -/
def isDoubleDot (s : List Char) : Bool :=
  s == ['.', '.'] ||
  s == ['.', '%', '2', 'e'] || s == ['.', '%', '2', 'E'] ||
  s == ['%', '2', 'e', '.'] || s == ['%', '2', 'E', '.'] ||
  s == ['%', '2', 'e', '%', '2', 'e'] || s == ['%', '2', 'e', '%', '2', 'E'] ||
  s == ['%', '2', 'E', '%', '2', 'e'] || s == ['%', '2', 'E', '%', '2', 'E']

/-- WHATWG path state: `.` is dropped, `..` removes the preceding segment (the
accumulator holds the segments so far, latest first); a final dot segment leaves
an empty last segment. -/
def normSegs (acc : List (List Char)) : List (List Char) → List (List Char)
  | [] => acc.reverse
  | s :: r =>
    if isDoubleDot s then
      if r.isEmpty then ([] :: acc.drop 1).reverse else normSegs (acc.drop 1) r
    else if isSingleDot s then
      if r.isEmpty then ([] :: acc).reverse else normSegs acc r
    else normSegs (s :: acc) r

/-- A URL reference split into path, query and fragment. -/
structure UrlParts where
  segments : List (List Char)
  query : Option (List Char)
  fragment : Option (List Char)
  deriving DecidableEq, Repr

/-- How the URL parser (WHATWG, http/https scheme; the `url` crate used by
reqwest) reads what follows the authority: tabs and newlines are removed, a `#`
starts the fragment, a `?` the query, `/` and `\` separate path segments, dot
segments are resolved. The text is expected to start with a separator. (The
final percent-encoding of the remaining characters is not represented: it does
not change the percent-decoded segments.) -/
def parseUrlTail (t : List Char) : UrlParts :=
  let t := t.filter fun c => !(c == '\t' || c == '\n' || c == '\r')
  let beforeFrag := t.takeWhile (· ≠ '#')
  let frag := (t.dropWhile (· ≠ '#')).tail?
  let path := beforeFrag.takeWhile (· ≠ '?')
  let query := (beforeFrag.dropWhile (· ≠ '?')).tail?
  { segments := normSegs [] ((splitAt (fun c => c == '/' || c == '\\') path).drop 1)
    query, fragment := frag }

/-- A segment of a path template: literal text, or a parameter, possibly with literal text before
and after it in the same segment (`{id}.json`). -/
inductive Seg where
  | lit (s : List Char)
  | par (n : List Char) (pre post : List Char := [])
  deriving DecidableEq, Repr

/-- The text of a path template, as written in the OpenAPI document. -/
def segsText (l : List Seg) : List Char :=
  l.flatMap fun | .lit s => '/' :: s | .par n pre post => '/' :: (pre ++ '{' :: n ++ '}' :: post)

/-- Characters with no structural meaning in a template or URL path. -/
def plainChar (c : Char) : Bool :=
  !(c == '/' || c == '\\' || c == '?' || c == '#' || c == '{' || c == '}' ||
    c == '\t' || c == '\n' || c == '\r')

/-- Characters allowed next to a parameter: printable ASCII that stands for itself in a URL path. -/
def affixChar (c : Char) : Bool :=
  decide ('!' ≤ c) && decide (c ≤ '~') && plainChar c && !(c == '"' || c == '<' || c == '>' || c == '`' || c == '%')

/-- Every literal segment is non-empty, plain and not a dot segment; parameter
names contain no brace or slash; the text around a parameter stands for itself. (An empty literal is
allowed in last position: trailing slash.) -/
def SegsOk : List Seg → Prop
  | [] => True
  | .par n pre post :: r => (∀ c ∈ n, c ≠ '{' ∧ c ≠ '}' ∧ c ≠ '/') ∧ pre.all affixChar = true ∧ post.all affixChar = true ∧ SegsOk r
  | .lit s :: r => (s = [] → r = []) ∧ s.all plainChar = true ∧
      isSingleDot s = false ∧ isDoubleDot s = false ∧ SegsOk r

/-- What the server should see in each segment. -/
def expectedSegs (v : List Char → List UInt8) : List Seg → List (List UInt8)
  | [] => []
  | .lit s :: r => percentDecode s :: expectedSegs v r
  | .par n pre post :: r => (percentDecode pre ++ v n ++ percentDecode post) :: expectedSegs v r

end Progenitor.Spec

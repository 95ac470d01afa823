import Verif.Model.Mock
import Verif.Spec.Url
import Verif.Spec.Query

/-!
# Mock servers: what is expected
-/

namespace Progenitor.Spec

open Progenitor Progenitor.Template

/-- `path` is the template with values in place of the parameters; `ok n v`: `v` may stand for parameter `n`. -/
def Instance (ok : Str → Str → Prop) : PathTemplate → Str → Prop
  | [], path => path = []
  | .const s :: t, path => ∃ rest, path = s ++ rest ∧ Instance ok t rest
  | .param n :: t, path => ∃ v rest, path = v ++ rest ∧ ok n v ∧ Instance ok t rest

/-- Characters that mean themselves in a regular expression. -/
def plainRegex (c : Char) : Bool := !"\\.+*?()|[]{}^$".toList.contains c

/-- Constants consist of characters that mean themselves. -/
def PlainConsts (t : PathTemplate) : Prop := ∀ s, .const s ∈ t → ∀ c ∈ s, plainRegex c = true

/-- Characters of a path that the URL parser never changes. -/
def urlSafe (c : Char) : Bool := c.isAlphanum || "-_.~!$&'()*+,;=:@%".toList.contains c

/-- What the URL parser turns a character of a path segment into: safe characters stay; no separator or line break is produced. -/
structure PathEncoder (enc : Char → Str) : Prop where
  safe : ∀ c, urlSafe c = true → enc c = [c]
  slash : ∀ c, c ≠ '/' → '/' ∉ enc c
  newline : ∀ c, '\n' ∉ enc c

/-- The path of a request as sent. -/
def wirePath (enc : Char → Str) (tail : Str) : Str :=
  (parseUrlTail tail).segments.flatMap fun s => '/' :: s.flatMap enc

/-- The server at `auth` (scheme, host and port) gets the request. -/
def ServerSees (enc : Char → Str) (auth : Str) (r : Exec.Request) (s : Mock.Seen) : Prop :=
  ∃ tail, r.url = auth ++ tail ∧ s.method = r.method ∧ s.path = wirePath enc tail ∧
    s.query = formDecode (r.query.getD []) ∧ s.body = r.body.getD []

/-- Constants that may be part of a path, with a meaning of their own in a regular expression at most for `.` -/
def SafeConsts (t : PathTemplate) : Prop :=
  ∀ s, .const s ∈ t → ∀ c ∈ s, (plainRegex c = true ∨ c = '.') ∧ (urlSafe c = true ∨ c = '/')

/-- No segment is `.` or `..`, in any spelling, and no character is mistaken for a separator. -/
def Normal (tail : Str) : Prop :=
  '\\' ∉ tail ∧ ∀ s ∈ splitAt (· == '/') tail, isSingleDot s = false ∧ isDoubleDot s = false

/-- Two parameters are separated by a `/`. -/
def Separated : PathTemplate → Prop
  | [] => True
  | .const _ :: t => Separated t
  | [.param _] => True
  | .param _ :: .param _ :: _ => False
  | [.param _, .const _] => True
  | .param _ :: .const s :: t => '/' ∈ s ∧ Separated t

open Progenitor.Params Progenitor.Exec in
/-- The value of path parameter `n` agrees with the expectations `fs`. -/
def PathWanted (fs : List (Param × Value)) (n x : Str) : Prop :=
  ∀ p a, (p, .plain a) ∈ fs → p.kind = .path → p.apiName = n → x = a.display

open Progenitor.Params Progenitor.Exec in
/-- The query agrees with the expectations `fs`. -/
def QueryWanted (fs : List (Param × Value)) (query : List (Bytes × Bytes)) : Prop :=
  (∀ p a, (p, .plain a) ∈ fs → p.kind = .query true → (utf8 p.apiName, utf8 a.display) ∈ query) ∧
  (∀ p a, (p, .opt (some a)) ∈ fs → p.kind = .query false → (utf8 p.apiName, utf8 a.display) ∈ query) ∧
  (∀ p, (p, .opt none) ∈ fs → p.kind = .query false → ∀ v, (utf8 p.apiName, v) ∉ query)

open Progenitor.Params Progenitor.Exec in
/-- An expectation that can be written and means what it says: the parameter occurs once in the path and the value has no special
meaning in a regular expression, or the query parameter is not renamed. -/
def Expressible [Mock.JsonLib] (t : PathTemplate) (p : Param) (v : Value) : Prop :=
  match p.kind, v with
  | .path, .plain a => (names t).count p.apiName = 1 ∧ ∀ c ∈ a.display, plainRegex c = true
  | .query true, .plain _ => p.name = p.apiName
  | .query false, .opt _ => p.name = p.apiName
  | .body ct, v =>
    match p.typ, ct, v with
    | .type _, _, .plain a => Mock.JsonLib.value a.ser ≠ none
    | .rawBody, .octetStream, .plain a => Mock.JsonLib.value a.ser ≠ none
    | .rawBody, .text _, .raw _ => True
    | _, _, _ => False
  | _, _ => False

open Progenitor.Params Progenitor.Exec in
/-- `v`, given to a mock, describes the argument `x` of a call: they are the same, and `serde_json` reads the text that it writes;
for an octet stream body, which mocks take to be JSON, `v` is the JSON that the bytes are. -/
inductive Stands [Mock.JsonLib] (cfg : Config) (p : Param) : Value → Value → Prop
  | same (v) : (∀ ct, p.kind ≠ .body ct) → Stands cfg p v v
  | json (a) : p.kind = .body .json → (∀ b, cfg.toJson a.ser = .ok b → Mock.SameJson a.ser b) → Stands cfg p (.plain a) (.plain a)
  | text (m b) : p.kind = .body (.text m) → Stands cfg p (.raw b) (.raw b)
  | octets (a b) : p.kind = .body .octetStream → Mock.SameJson a.ser b → Stands cfg p (.plain a) (.raw b)

open Progenitor.Params Progenitor.Exec in
/-- The body agrees with the expectations `fs`. -/
def BodyWanted [Mock.JsonLib] (fs : List (Param × Value)) (body : Bytes) : Prop :=
  (∀ p ct a, (p, .plain a) ∈ fs → p.kind = .body ct → Mock.SameJson a.ser body) ∧
  (∀ p ct b, (p, .raw b) ∈ fs → p.kind = .body ct → body = b)

end Progenitor.Spec

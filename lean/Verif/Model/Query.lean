import Verif.Model.Encode

/-!
# Query parameters

Model of `QueryParam` / `QuerySerializer` / `QuerySeq`
(`/repo/progenitor-client/src/progenitor_client.rs:447-664`) on top of
`serde_urlencoded` 0.7 and `reqwest::RequestBuilder::query`.
-/

namespace Progenitor.Query

open Progenitor

/-- The serde data model: which `serialize_*` method a value calls on its
serializer, with which arguments.  All integer widths are one constructor, a
float is represented by the text `ryu` prints for it. -/
inductive Ser where
  | bool (b : Bool)
  | int (i : Int)
  | float (text : Str)
  | char (c : Char)
  | str (s : Str)
  | bytes (utf8 : Option Str)
  | none
  | some (v : Ser)
  | unit
  | unitStruct (name : Str)
  | unitVariant (enum variant : Str)
  | newtypeStruct (name : Str) (v : Ser)
  | newtypeVariant (enum variant : Str) (v : Ser)
  | seq (vs : List Ser)
  | tuple (vs : List Ser)
  | tupleStruct (name : Str) (vs : List Ser)
  | tupleVariant (enum variant : Str) (vs : List Ser)
  | map (kvs : List (Ser × Ser))
  | struct (name : Str) (fields : List (Str × Ser))
  | structVariant (enum variant : Str) (fields : List (Str × Ser))

/-- A decoded query pair. -/
abbrev Pair := Str × Str

/-- Result of a serializer; errors carry no information we use. -/
abbrev R (α : Type) := Except Unit α

/-- `itoa` output. -/
def intText : Int → Str
  | .ofNat n => (Nat.repr n).toList
  | .negSucc n => '-' :: (Nat.repr (n + 1)).toList

/-- `"true"` / `"false"`. -/
def boolText : Bool → Str
  | true => ['t', 'r', 'u', 'e']
  | false => ['f', 'a', 'l', 's', 'e']

/-- `serde_urlencoded::ser::part::PartSerializer<KeySink>`: a value in key
position. `None`/`Some` are unsupported there. -/
def keyText : Ser → R Str
  | .bool b => .ok (boolText b)
  | .int i => .ok (intText i)
  | .float t => .ok t
  | .char c => .ok [c]
  | .str s => .ok s
  | .bytes (Option.some s) => .ok s
  | .unitStruct n => .ok n
  | .unitVariant _ v => .ok v
  | .newtypeStruct _ v => keyText v
  | _ => .error ()

/-- `serde_urlencoded::ser::part::PartSerializer<ValueSink>`: a value in value
position; the result is the list of pairs appended for `key` (`None` appends
nothing). -/
def valuePairs (key : Str) : Ser → R (List Pair)
  | .bool b => .ok [(key, boolText b)]
  | .int i => .ok [(key, intText i)]
  | .float t => .ok [(key, t)]
  | .char c => .ok [(key, [c])]
  | .str s => .ok [(key, s)]
  | .bytes (Option.some s) => .ok [(key, s)]
  | .unitStruct n => .ok [(key, n)]
  | .unitVariant _ v => .ok [(key, v)]
  | .newtypeStruct _ v => valuePairs key v
  | .none => .ok []
  | .some v => valuePairs key v
  | _ => .error ()

/-- Concatenate the pairs of a list of things, failing at the first failure
(the serializer writes pairs as it goes). -/
def collect {α} (f : α → R (List Pair)) : List α → R (List Pair)
  | [] => .ok []
  | x :: xs => match f x with
    | .error e => .error e
    | .ok ps => match collect f xs with
      | .error e => .error e
      | .ok qs => .ok (ps ++ qs)

/-- `serde_urlencoded::ser::pair::PairSerializer`: an element of a top-level
sequence must be a 2-tuple. -/
def pairOf : Ser → R (List Pair)
  | .tuple [k, v] => match keyText k with
    | .error e => .error e
    | .ok key => valuePairs key v
  | .newtypeStruct _ v => pairOf v
  | .some v => pairOf v
  | .none => .ok []
  | _ => .error ()

/-- One entry of `serialize_map` (`MapSerializer::serialize_entry`). -/
def entryOf (kv : Ser × Ser) : R (List Pair) :=
  match keyText kv.1 with
  | .error e => .error e
  | .ok key => valuePairs key kv.2

/-- One field of `serialize_struct`. -/
def fieldOf (kv : Str × Ser) : R (List Pair) := valuePairs kv.1 kv.2

/-- `serde_urlencoded::Serializer` at top level. -/
def top : Ser → R (List Pair)
  | .unit => .ok []
  | .unitStruct _ => .ok []
  | .none => .ok []
  | .some v => top v
  | .newtypeStruct _ v => top v
  | .seq vs => collect pairOf vs
  | .tuple vs => collect pairOf vs
  | .map kvs => collect entryOf kvs
  | .struct _ fs => collect fieldOf fs
  | _ => .error ()

/-- progenitor_client.rs:480-486 `serialize_scalar!`: `[(name, v)].serialize(inner)`;
a one-element array is a 1-tuple of a 2-tuple. -/
def scalarPair (name : Str) (v : Ser) : R (List Pair) := top (.tuple [.tuple [.str name, v]])

/-- progenitor_client.rs:488-664 `QuerySerializer` (with `inner` the top-level
urlencoded serializer). -/
def queryPairs (name : Str) : Ser → R (List Pair)
  | .bool b => scalarPair name (.bool b)
  | .int i => scalarPair name (.int i)
  | .float t => scalarPair name (.float t)
  | .char c => scalarPair name (.char c)
  | .str s => scalarPair name (.str s)
  | .bytes b => top (.bytes b)                                  -- 516-518
  | .none => top .none                                          -- 520-522
  | .some v => queryPairs name v                                -- 524-531
  | .unit => top .unit                                          -- 533-535
  | .unitStruct n => top (.unitStruct n)                        -- 537-539
  | .unitVariant _ v => scalarPair name (.str v)                -- 541-551
  | .newtypeStruct n v => top (.newtypeStruct n v)              -- 553-562
  | .newtypeVariant e var v => top (.struct e [(var, v)])       -- 564-582
  | .seq vs => collect pairOf (vs.map fun v => .tuple [.str name, v])  -- 584-590, 645-659
  | .tuple vs => top (.tuple vs)                                -- 592-594
  | .tupleStruct n vs => top (.tupleStruct n vs)                -- 596-602
  | .tupleVariant e v vs => top (.tupleVariant e v vs)          -- 604-613
  | .map kvs => top (.map kvs)                                  -- 615-617
  | .struct n fs => top (.struct n fs)                          -- 619-625
  | .structVariant e v fs => top (.structVariant e v fs)        -- 627-636

/-- `form_urlencoded::byte_serialize`: bytes left unchanged. -/
def formUnchanged (b : UInt8) : Bool :=
  b.toNat == 42 || b.toNat == 45 || b.toNat == 46 || b.toNat == 95 ||
  (48 ≤ b.toNat && b.toNat ≤ 57) || (65 ≤ b.toNat && b.toNat ≤ 90) || (97 ≤ b.toNat && b.toNat ≤ 122)

/-- `form_urlencoded::byte_serialize`. -/
def formByte (b : UInt8) : Str :=
  if formUnchanged b then [Char.ofNat b.toNat]
  else if b.toNat == 32 then ['+']
  else pctByte b

/-- `form_urlencoded` of a text. -/
def formText (s : Str) : Str := (utf8 s).flatMap formByte

/-- `form_urlencoded::Serializer::append_pair`: `k=v`. -/
def formPair (p : Pair) : Str := formText p.1 ++ '=' :: formText p.2

/-- Append pairs to a query string, separating by `&` when it is not empty. -/
def appendPairs (q : Str) : List Pair → Str
  | [] => q
  | p :: ps => appendPairs (if q = [] then formPair p else q ++ '&' :: formPair p) ps

/-- State of a `reqwest::RequestBuilder` as far as the query is concerned: a
failed serialization poisons the builder (`self.request = Err(..)`), later calls
have no effect; an empty query is removed. -/
abbrev QState := R (Option Str)

/-- `reqwest::RequestBuilder::query(&QueryParam::new(name, &value))`. -/
def addQuery (st : QState) (name : Str) (v : Ser) : QState :=
  match st with
  | .error e => .error e
  | .ok q => match queryPairs name v with
    | .error e => .error e
    | .ok ps =>
      let q' := appendPairs (q.getD []) ps
      .ok (if q' = [] then Option.none else Option.some q')

/-- method.rs:784-798, 1096 the generated chain of `.query(..)` calls, in parameter
order, on a URL without query. -/
def addQueries : QState → List (Str × Ser) → QState
  | st, [] => st
  | st, (n, v) :: r => addQueries (addQuery st n v) r

end Progenitor.Query

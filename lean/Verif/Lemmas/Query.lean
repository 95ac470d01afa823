import Verif.Model.Query
import Verif.Spec.Query
import Verif.Lemmas.Url

namespace Progenitor.Query

open Progenitor Progenitor.Spec

theorem collect_append {α} (f : α → R (List Pair)) (xs ys : List α) :
    collect f (xs ++ ys) = match collect f xs with
      | .error e => .error e
      | .ok ps => match collect f ys with
        | .error e => .error e
        | .ok qs => .ok (ps ++ qs) := by
  induction xs with
  | nil => simp [collect]; cases collect f ys <;> rfl
  | cons x xs ih =>
    simp only [List.cons_append, collect, ih]
    cases f x with
    | error e => rfl
    | ok ps =>
      cases collect f xs with
      | error e => rfl
      | ok qs => cases collect f ys <;> simp

theorem valuePairs_scalar {v : Ser} {t : Str} (h : Scalar v t) (key : Str) :
    valuePairs key v = .ok [(key, t)] := by
  induction h with
  | some v t _ ih => simpa [valuePairs] using ih
  | nat n => rfl
  | neg n => rfl
  | _ => rfl

theorem valuePairs_item {v : Ser} {t : Option Str} (h : Item v t) (key : Str) :
    valuePairs key v = .ok (t.toList.map fun x => (key, x)) := by
  induction h with
  | scalar v t h => simpa using valuePairs_scalar h key
  | none => rfl
  | some v t _ ih => simpa [valuePairs] using ih
  | newtype n v t _ ih => simpa [valuePairs] using ih

theorem queryPairs_scalar {v : Ser} {t : Str} (h : Scalar v t) (name : Str) :
    queryPairs name v = .ok [(name, t)] := by
  have key : ∀ v t, Scalar v t → scalarPair name v = .ok [(name, t)] := by
    intro v t h
    simp [scalarPair, top, collect, pairOf, keyText, valuePairs_scalar h]
  induction h with
  | some v t _ ih => simpa [queryPairs] using ih
  | unitVariant e v => exact key _ _ (.str v)
  | true => exact key _ _ .true
  | false => exact key _ _ .false
  | nat n => exact key _ _ (.nat n)
  | neg n => exact key _ _ (.neg n)
  | float t => exact key _ _ (.float t)
  | char t => exact key _ _ (.char t)
  | str t => exact key _ _ (.str t)

theorem collect_seq {name : Str} {vs : List Ser} {ts : List (Option Str)} (h : Forall₂ Item vs ts) :
    collect pairOf (vs.map fun v => .tuple [.str name, v]) =
      .ok (ts.filterMap fun t => t.map fun x => (name, x)) := by
  induction h with
  | nil => rfl
  | cons h _ ih =>
    rename_i b _ _ _
    simp only [List.map_cons, collect, pairOf, keyText, valuePairs_item h, ih]
    cases b <;> simp

theorem collect_fields {fs : List (Str × Ser)} {ts : List (Str × Option Str)}
    (h : Forall₂ (fun f t => f.1 = t.1 ∧ Item f.2 t.2) fs ts) :
    collect fieldOf fs = .ok (ts.filterMap fun t => t.2.map fun x => (t.1, x)) := by
  induction h with
  | nil => rfl
  | cons h _ ih =>
    rename_i b _ _ _
    obtain ⟨h1, h2⟩ := h
    simp only [collect, fieldOf, valuePairs_item h2, ih, h1]
    obtain ⟨n, b⟩ := b; cases b <;> simp

theorem keyText_key {k : Ser} {t : Str} (h : Key k t) : keyText k = .ok t := by
  induction h with
  | nat n => simp [keyText, intText]
  | newtype n v t _ ih => simpa [keyText] using ih
  | _ => rfl

theorem key_unique {k : Ser} {t t' : Str} (h : Key k t) (h' : Key k t') : t = t' := by
  have := keyText_key h
  rw [keyText_key h'] at this
  cases this
  rfl

theorem collect_entries {fs : List (Ser × Ser)} {ts : List (Str × Option Str)}
    (h : Forall₂ (fun f t => Key f.1 t.1 ∧ Item f.2 t.2) fs ts) :
    collect entryOf fs = .ok (ts.filterMap fun t => t.2.map fun x => (t.1, x)) := by
  induction h with
  | nil => rfl
  | cons h _ ih =>
    rename_i b _ _ _
    obtain ⟨h1, h2⟩ := h
    simp only [collect, entryOf, keyText_key h1, valuePairs_item h2, ih]
    obtain ⟨n, b⟩ := b; cases b <;> simp

/-! ### Whole query strings -/

/-- The pairs of a parameter list. -/
def allPairs (l : List (Str × Ser)) : R (List Pair) := collect (fun p => queryPairs p.1 p.2) l

theorem formPair_ne_nil (p : Pair) : formPair p ≠ [] := by simp [formPair]

theorem appendPairs_append (q : Str) (ps qs : List Pair) :
    appendPairs q (ps ++ qs) = appendPairs (appendPairs q ps) qs := by
  induction ps generalizing q with
  | nil => rfl
  | cons p ps ih => simp [appendPairs, ih]

theorem appendPairs_eq_nil (q : Str) (ps : List Pair) : appendPairs q ps = [] ↔ q = [] ∧ ps = [] := by
  induction ps generalizing q with
  | nil => simp [appendPairs]
  | cons p ps ih =>
    simp only [appendPairs, ih]
    by_cases h : q = [] <;> simp [h, formPair_ne_nil]

def queryOf (q : Str) : Option Str := if q = [] then Option.none else Option.some q

theorem queryOf_getD (q : Str) : (queryOf q).getD [] = q := by
  unfold queryOf; split <;> simp [*]

theorem addQueries_ok (l : List (Str × Ser)) (q : Str) :
    addQueries (.ok (queryOf q)) l = match allPairs l with
      | .error e => .error e
      | .ok ps => .ok (queryOf (appendPairs q ps)) := by
  induction l generalizing q with
  | nil => rfl
  | cons x l ih =>
    obtain ⟨n, v⟩ := x
    simp only [addQueries, addQuery, allPairs, collect]
    cases h : queryPairs n v with
    | error e =>
      simp only
      have : ∀ l, addQueries (.error e) l = .error e := by
        intro l
        induction l with
        | nil => rfl
        | cons y l ih => obtain ⟨a, b⟩ := y; simp [addQueries, addQuery, ih]
      exact this l
    | ok ps =>
      simp only [queryOf_getD]
      have := ih (appendPairs q ps)
      simp only [queryOf] at this ⊢
      rw [this, allPairs]
      cases collect (fun p => queryPairs p.1 p.2) l with
      | error e => rfl
      | ok qs => simp [appendPairs_append]

theorem queryOf_nil : (Option.none : Option Str) = queryOf [] := rfl

/-! ### Decoding -/

theorem formByte_alphabet : ∀ b : UInt8, (formByte b).all (fun c => !(c == '&' || c == '=')) = true := by
  apply forall_uint8; decide +kernel

/-- Characters of encoded names and values. -/
def formSafe (c : Char) : Bool :=
  ('a' ≤ c && c ≤ 'z') || ('A' ≤ c && c ≤ 'Z') || ('0' ≤ c && c ≤ '9') || ['*', '-', '.', '_', '+', '%'].contains c

theorem formByte_safe : ∀ b : UInt8, (formByte b).all formSafe = true := by
  apply forall_uint8; decide +kernel

theorem formText_safe (s : Str) : ∀ c ∈ formText s, formSafe c = true := by
  intro c hc
  simp only [formText, List.mem_flatMap] at hc
  obtain ⟨b, _, hb⟩ := hc
  exact List.all_eq_true.1 (formByte_safe b) c hb

theorem appendPairs_safe (q : Str) (ps : List Pair) {P : Char → Prop} (hq : ∀ c ∈ q, P c)
    (hs : ∀ c, formSafe c = true → P c) (ha : P '&') (he : P '=') : ∀ c ∈ appendPairs q ps, P c := by
  have hp : ∀ p : Pair, ∀ c ∈ formPair p, P c := by
    intro p c hc
    simp only [formPair, List.mem_append, List.mem_cons] at hc
    rcases hc with hc | rfl | hc
    · exact hs c (formText_safe _ c hc)
    · exact he
    · exact hs c (formText_safe _ c hc)
  induction ps generalizing q with
  | nil => exact hq
  | cons p ps ih =>
    apply ih
    intro c hc
    split at hc
    · exact hp p c hc
    · simp only [List.mem_append, List.mem_cons] at hc
      rcases hc with hc | rfl | hc
      · exact hq c hc
      · exact ha
      · exact hp p c hc

theorem formText_alphabet (s : Str) : ∀ c ∈ formText s, c ≠ '&' ∧ c ≠ '=' := by
  intro c hc
  simp only [formText, List.mem_flatMap] at hc
  obtain ⟨b, _, hb⟩ := hc
  have := List.all_eq_true.1 (formByte_alphabet b) c hb
  simpa using this

theorem formByte_decode : ∀ b : UInt8,
    ((formByte b).map fun c => if c = '+' then ' ' else c) = pctByte b ∨
    ∃ c, ((formByte b).map fun c => if c = '+' then ' ' else c) = [c] ∧ c ≠ '%' ∧
      String.utf8EncodeChar c = [b] := by
  have key : ∀ b : UInt8,
    ((formByte b).map fun c => if c = '+' then ' ' else c) = pctByte b ∨
     ((formByte b).map fun c => if c = '+' then ' ' else c) = [Char.ofNat b.toNat] ∧
     Char.ofNat b.toNat ≠ '%' ∧ String.utf8EncodeChar (Char.ofNat b.toNat) = [b] := by
    apply forall_uint8; decide +kernel
  intro b
  rcases key b with h | h
  · exact .inl h
  · exact .inr ⟨_, h⟩

theorem formDecodePart_formText (s : Str) : formDecodePart (formText s) = utf8 s := by
  unfold formDecodePart formText
  generalize utf8 s = bs
  induction bs with
  | nil => rfl
  | cons b bs ih =>
    simp only [List.flatMap_cons, List.map_append]
    rcases formByte_decode b with h | ⟨c, h, hc, hb⟩
    · rw [h, percentDecode_pct, ih]
    · rw [h, List.cons_append, List.nil_append, percentDecode_cons_ne _ _ hc, hb, ih]; rfl

theorem takeWhile_stop (p : Char → Bool) (a r : Str) (d : Char) (ha : ∀ c ∈ a, p c = true)
    (hd : p d = false) : (a ++ d :: r).takeWhile p = a ∧ (a ++ d :: r).dropWhile p = d :: r := by
  induction a with
  | nil => simp [hd]
  | cons c a ih =>
    have := ih fun x hx => ha x (by simp [hx])
    simp [ha c (by simp), this]

theorem formPair_decode (p : Pair) :
    (formDecodePart ((formPair p).takeWhile (· ≠ '=')),
     formDecodePart (((formPair p).dropWhile (· ≠ '=')).drop 1)) = (utf8 p.1, utf8 p.2) := by
  have := takeWhile_stop (fun c => decide (c ≠ '=')) (formText p.1) (formText p.2) '='
    (fun c hc => by simpa using (formText_alphabet p.1 c hc).2) (by simp)
  unfold formPair
  rw [this.1, this.2]
  simp [formDecodePart_formText]

theorem formPair_noamp (p : Pair) : ∀ c ∈ formPair p, c ≠ '&' := by
  intro c hc
  simp only [formPair, List.mem_append, List.mem_cons] at hc
  rcases hc with hc | rfl | hc
  · exact (formText_alphabet _ c hc).1
  · decide
  · exact (formText_alphabet _ c hc).1

/-- Decode a list of `&`-separated parts. -/
def decodeParts (l : List Str) : List (Bytes × Bytes) :=
  (l.filter (fun s => !s.isEmpty)).map fun s =>
    (formDecodePart (s.takeWhile (· ≠ '=')), formDecodePart ((s.dropWhile (· ≠ '=')).drop 1))

theorem splitAt_append_sep (p : Char → Bool) (q r : Str) (d : Char) (hd : p d = true) :
    splitAt p (q ++ d :: r) = splitAt p q ++ splitAt p r := by
  induction q with
  | nil => simp [splitAt, hd]
  | cons c q ih =>
    simp only [List.cons_append, splitAt, ih]
    split
    · rfl
    · have : splitAt p q ≠ [] := by
        cases q with
        | nil => simp [splitAt]
        | cons e q => simp only [splitAt]; split <;> (try split) <;> simp
      cases h : splitAt p q with
      | nil => exact absurd h this
      | cons x xs => simp

theorem splitAt_none (p : Char → Bool) (s : Str) (hs : ∀ c ∈ s, p c = false) : splitAt p s = [s] := by
  obtain ⟨x, xs, h1, h2⟩ := splitAt_lit p s [] hs
  simp [splitAt] at h1
  simpa [h1] using h2

theorem formDecode_append (q : Str) (ps : List Pair) :
    formDecode (appendPairs q ps) = formDecode q ++ ps.map fun p => (utf8 p.1, utf8 p.2) := by
  induction ps generalizing q with
  | nil => simp [appendPairs]
  | cons p ps ih =>
    have hp : splitAt (· == '&') (formPair p) = [formPair p] :=
      splitAt_none _ _ fun c hc => by simpa using formPair_noamp p c hc
    have hd : formDecode (formPair p) = [(utf8 p.1, utf8 p.2)] := by
      unfold formDecode
      rw [hp]
      have hne : (!(formPair p).isEmpty) = true := by simp [formPair_ne_nil]
      simp only [List.filter_cons, hne, if_true, List.filter_nil, List.map_cons, List.map_nil,
        formPair_decode]
    simp only [appendPairs, ih, List.map_cons]
    by_cases h : q = []
    · subst h
      simp only [if_true, hd]
      have : formDecode [] = [] := rfl
      simp [this]
    · simp only [h, if_false]
      have : formDecode (q ++ '&' :: formPair p) = formDecode q ++ formDecode (formPair p) := by
        unfold formDecode
        rw [splitAt_append_sep _ _ _ _ (by simp)]
        simp
      simp [this, hd]

end Progenitor.Query

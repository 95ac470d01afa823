import Verif.Model.Client
import Verif.Spec.Response

/-!
# C27, C28: `ResponseValue` and `Error`
-/

namespace Progenitor.Props

open Progenitor Progenitor.Spec Progenitor.Client

/-! ## C27 -/

/-- Values derived from an HTTP response by the library's constructors and any
sequence of `map`s. -/
inductive Derived (r : HttpResponse) : (T : Type) → ResponseValue T → Prop
  | decoded {P E T} {decode : Bytes → Except P T} {rv} :
      fromResponse (E := E) decode r = .ok rv → Derived r T rv
  | upgraded {P E} {rv} : upgrade (P := P) (E := E) r = .ok rv → Derived r Nat rv
  | stream : Derived r _ (stream r)
  | empty : Derived r _ (empty r)
  | map {T U} {rv : ResponseValue T} (f : T → U) : Derived r T rv → Derived r U (rv.map f)

/-- C27: whatever way a `ResponseValue` was obtained from a response, it reports
the status and headers of that response. -/
theorem C27_faithful {r : HttpResponse} {T : Type} {rv : ResponseValue T} (h : Derived r T rv) :
    rv.status = r.status ∧ rv.headers = r.headers := by
  induction h with
  | decoded h =>
    unfold fromResponse at h
    split at h
    · cases h
    · split at h
      · cases h
      · cases h; exact ⟨rfl, rfl⟩
  | upgraded h =>
    unfold upgrade at h
    split at h
    · split at h
      · cases h
      · cases h; exact ⟨rfl, rfl⟩
    · cases h
  | stream => exact ⟨rfl, rfl⟩
  | empty => exact ⟨rfl, rfl⟩
  | map f _ ih => exact ih

example : Derived ⟨204, [("x".toList, [1])], .ok [], .ok 0⟩ Nat
    (((empty ⟨204, [("x".toList, [1])], .ok [], .ok 0⟩).map fun _ => 3).map (· + 1)) :=
  .map _ (.map _ .empty)

variable {P E T U : Type}

/-- C27: `map` transforms the value, and composes. -/
theorem C27_map (rv : ResponseValue T) (f : T → U) {W : Type} (g : U → W) :
    (rv.map f).inner = f rv.inner ∧ (rv.map f).map g = rv.map (g ∘ f) ∧ rv.map id = rv :=
  ⟨rfl, rfl, rfl⟩

/-- C27: decoding succeeds exactly with the decoder's value, and a body that does
not deserialize is returned as it is. -/
theorem C27_decode (decode : Bytes → Except P T) (r : HttpResponse) :
    (∀ rv, fromResponse (E := E) decode r = .ok rv ↔
      ∃ b v, r.body = .ok b ∧ decode b = .ok v ∧ rv = ⟨v, r.status, r.headers⟩) ∧
    (∀ b p, r.body = .ok b → decode b = .error p →
      fromResponse (E := E) decode r = .error (.invalidResponsePayload b p)) ∧
    (∀ e, r.body = .error e → fromResponse (E := E) decode r = .error (.responseBodyError e)) := by
  refine ⟨?_, ?_, ?_⟩
  · intro rv
    unfold fromResponse
    cases hb : r.body with
    | error e => simp
    | ok b =>
      dsimp only
      cases hd : decode b with
      | error p =>
        constructor
        · intro h; cases h
        · rintro ⟨b', v, h1, h2, _⟩; cases h1; rw [hd] at h2; cases h2
      | ok v =>
        constructor
        · intro h; cases h; exact ⟨b, v, rfl, hd, rfl⟩
        · rintro ⟨b', v', h1, h2, rfl⟩; cases h1; rw [hd] at h2; cases h2; rfl
  · intro b p hb hd
    simp only [fromResponse, hb, hd]
  · intro e hb
    simp only [fromResponse, hb]

example : fromResponse (E := Unit) (T := Nat) (fun _ => .error "bad".toList) ⟨200, [], .ok [123], .ok 0⟩ =
    .error (.invalidResponsePayload [123] "bad".toList) := rfl

/-- C27: converting an error to an untyped error preserves its status and cause,
it is idempotent, and a response keeps its status and headers. -/
theorem C27_untyped (e : Error P E) :
    e.intoUntyped.status = e.status ∧
    (∀ s, e.intoUntyped.source = some s ↔ e.source = some s) ∧
    e.intoUntyped.intoUntyped = e.intoUntyped ∧
    (∀ rv, e = .errorResponse rv → e.intoUntyped = .errorResponse ⟨(), rv.status, rv.headers⟩) ∧
    (∀ r, e = .unexpectedResponse r → e.intoUntyped = .unexpectedResponse r) ∧
    (∀ b p, e = .invalidResponsePayload b p → e.intoUntyped = .invalidResponsePayload b p) := by
  cases e <;> simp [Error.intoUntyped, Error.status, Error.source]

/-- The errors that stem from a response with status `s`: the response was
documented as an error, was unexpected, or its payload could not be decoded;
or the transport reports an error with that status. -/
inductive StemsFrom (s : Nat) : Error P E → Prop
  | response (rv) : rv.status = s → StemsFrom s (.errorResponse rv)
  | unexpected (r) : r.status = s → StemsFrom s (.unexpectedResponse r)
  | payload {T : Type} (r : HttpResponse) (decode : Bytes → Except P T) (b p) : r.status = s →
      fromResponse decode r = .error (.invalidResponsePayload b p : Error P E) →
      StemsFrom s (.invalidResponsePayload b p)
  | communication (e) : e.status = some s → StemsFrom s (.communicationError e)
  | upgrade (e) : e.status = some s → StemsFrom s (.invalidUpgrade e)
  | body (e) : e.status = some s → StemsFrom s (.responseBodyError e)

/-- C27 is false for `Error::status`: an undecodable payload stems from a response
with a status, but the error has none. -/
theorem C27_status_fails :
    ∃ (r : HttpResponse) (decode : Bytes → Except Unit Nat) (e : Error Unit Unit),
      fromResponse decode r = .error e ∧ StemsFrom 200 e ∧ e.status = none := by
  refine ⟨⟨200, [], .ok [], .ok 0⟩, fun _ => .error (), .invalidResponsePayload [] (), rfl, ?_, rfl⟩
  exact .payload (T := Nat) ⟨200, [], .ok [], .ok 0⟩ (fun _ => .error ()) [] () rfl rfl

/-- C27, the part that holds: `Error::status` is the status of the response that
the error stems from, except for undecodable payloads. -/
theorem C27_status_partial (e : Error P E) (s : Nat) (h : ∀ b p, e ≠ .invalidResponsePayload b p) :
    e.status = some s ↔ StemsFrom s e := by
  constructor
  · intro hs
    cases e with
    | errorResponse rv => exact .response rv (by simpa [Error.status] using hs)
    | unexpectedResponse r => exact .unexpected r (by simpa [Error.status] using hs)
    | communicationError e => exact .communication e hs
    | invalidUpgrade e => exact .upgrade e hs
    | responseBodyError e => exact .body e hs
    | invalidResponsePayload b p => exact absurd rfl (h b p)
    | _ => cases hs
  · intro hs
    cases hs with
    | response rv hr => simp [Error.status, hr]
    | unexpected r hr => simp [Error.status, hr]
    | payload r decode b p _ _ => exact absurd rfl (h b p)
    | communication e he => exact he
    | upgrade e he => exact he
    | body e he => exact he

example : (Error.unexpectedResponse ⟨418, [], .ok [], .ok 0⟩ : Error Unit Unit).status = some 418 := rfl

/-! ## C28 -/

theorem digitStep_some {acc n : Nat} {b : UInt8} :
    digitStep acc b = some n ↔
      (48 ≤ b ∧ b ≤ 57) ∧ n = 10 * acc + (b.toNat - 48) ∧ n < 2 ^ 64 := by
  unfold digitStep
  dsimp only
  split
  · rename_i hb
    split
    · split
      · simp [hb]; omega
      · simp [hb]; omega
    · simp [hb]; omega
  · rename_i hb
    constructor
    · intro h; cases h
    · intro h; exact absurd h.1 hb

theorem foldl_ge (ds : List UInt8) (acc : Nat) :
    acc ≤ ds.foldl (fun a d => 10 * a + (d.toNat - 48)) acc := by
  induction ds generalizing acc with
  | nil => exact Nat.le_refl _
  | cons d ds ih => 
    rw [List.foldl_cons]
    exact Nat.le_trans (by omega) (ih (10 * acc + (d.toNat - 48)))

theorem digits_some {ds : List UInt8} {acc n : Nat} (hacc : acc < 2 ^ 64) :
    digits acc ds = some n ↔
      (∀ d ∈ ds, 48 ≤ d ∧ d ≤ 57) ∧ n = ds.foldl (fun a d => 10 * a + (d.toNat - 48)) acc ∧ n < 2 ^ 64 := by
  induction ds generalizing acc with
  | nil => simp [digits]; constructor
           · rintro rfl; exact ⟨rfl, hacc⟩
           · intro h; exact h.1.symm
  | cons d ds ih =>
    simp only [digits, Option.bind_eq_bind]
    constructor
    · intro h
      cases hs : digitStep acc d with
      | none => rw [hs] at h; cases h
      | some a =>
        rw [hs] at h
        obtain ⟨h1, h2, h3⟩ := digitStep_some.mp hs
        obtain ⟨i1, i2, i3⟩ := (ih h3).mp h
        refine ⟨?_, ?_, i3⟩
        · intro x hx
          rcases List.mem_cons.mp hx with rfl | hx
          · exact h1
          · exact i1 x hx
        · rw [i2, h2]; rfl
    · rintro ⟨h1, h2, h3⟩
      have hlt : 10 * acc + (d.toNat - 48) < 2 ^ 64 := by
        have := foldl_ge ds (10 * acc + (d.toNat - 48))
        simp only [List.foldl_cons] at h2
        omega
      have hs : digitStep acc d = some (10 * acc + (d.toNat - 48)) :=
        digitStep_some.mpr ⟨h1 d (by simp), rfl, hlt⟩
      rw [hs]
      exact (ih hlt).mpr ⟨fun x hx => h1 x (by simp [hx]), h2, h3⟩

theorem digit_visible {b : UInt8} (h : 48 ≤ b ∧ b ≤ 57) : visibleAscii b = true := by
  unfold visibleAscii
  have h1 : (32 : UInt8) ≤ b := UInt8.le_trans (by decide) h.1
  have h2 : b < 127 := UInt8.lt_of_le_of_lt h.2 (by decide)
  simp [h1, h2]

/-- The first value of a header is what `get` returns. -/
theorem headers_get (h : Headers) (n : Str) (v : Bytes) :
    h.get n = some v ↔ ∃ pre post, h = pre ++ (n, v) :: post ∧ ∀ e ∈ pre, e.1 ≠ n := by
  unfold Headers.get
  rw [Option.map_eq_some_iff]
  constructor
  · rintro ⟨⟨m, w⟩, hf, rfl⟩
    obtain ⟨h1, pre, post, h2, h3⟩ := List.find?_eq_some_iff_append.mp hf
    have h1 : m = n := of_decide_eq_true h1
    rw [h1] at h2
    exact ⟨pre, post, h2, fun e he hn => by have := h3 e he; simp [hn] at this⟩
  · rintro ⟨pre, post, rfl, hp⟩
    refine ⟨(n, v), List.find?_eq_some_iff_append.mpr ⟨by simp, pre, post, rfl, fun e he => ?_⟩, rfl⟩
    simp [hp e he]

/-- C28: `content_length` is the value of the first `content-length` header if
this is a decimal numeral, optionally after a `+`, below 2^64; and nothing otherwise. -/
theorem C28_content_length (rv : ResponseValue T) (n : Nat) :
    rv.contentLength = some n ↔
      ∃ v, (∃ pre post, rv.headers = pre ++ ("content-length".toList, v) :: post ∧ ∀ e ∈ pre, e.1 ≠ "content-length".toList) ∧
        ∃ ds, (v = ds ∨ v = 43 :: ds) ∧ IsNumeral ds ∧ n = numeral ds ∧ n < 2 ^ 64 := by
  have hp : ∀ v : Bytes, (v.all visibleAscii = true ∧ parseU64 v = some n) ↔
      ∃ ds, (v = ds ∨ v = 43 :: ds) ∧ IsNumeral ds ∧ n = numeral ds ∧ n < 2 ^ 64 := by
    intro v
    have hd : ∀ ds : Bytes, ds ≠ [] → (digits 0 ds = some n ↔
        IsNumeral ds ∧ n = numeral ds ∧ n < 2 ^ 64) := by
      intro ds hne
      rw [digits_some (by decide)]
      simp [IsNumeral, numeral, hne]
    constructor
    · rintro ⟨_, hv⟩
      unfold parseU64 at hv
      split at hv
      · cases hv
      · cases hv
      · rename_i ds hne _
        exact ⟨ds, .inr rfl, (hd ds hne).mp hv⟩
      · rename_i h1 h2 h3
        exact ⟨v, .inl rfl, (hd v h1).mp hv⟩
    · rintro ⟨ds, hv, hnum⟩
      have hne := hnum.1.1
      have hall : ds.all visibleAscii = true := List.all_eq_true.mpr fun d hd => digit_visible (hnum.1.2 d hd)
      rcases hv with rfl | rfl
      · refine ⟨hall, ?_⟩
        unfold parseU64
        split
        · exact absurd rfl hne
        · have := (hnum.1.2 43 (by simp)).1; exact absurd this (by decide)
        · have := (hnum.1.2 43 (by simp)).1; exact absurd this (by decide)
        · exact (hd _ hne).mpr hnum
      · refine ⟨by rw [List.all_cons, hall]; rfl, ?_⟩
        cases ds with
        | nil => exact absurd rfl hne
        | cons d ds => exact (hd _ hne).mpr hnum
  unfold ResponseValue.contentLength
  simp only [Option.bind_eq_bind, Option.bind_eq_some_iff, ← headers_get]
  constructor
  · rintro ⟨v, hv, h⟩
    refine ⟨v, hv, (hp v).mp ?_⟩
    split at h
    · exact ⟨by assumption, h⟩
    · cases h
  · rintro ⟨v, hv, h⟩
    have := (hp v).mpr h
    exact ⟨v, hv, by rw [if_pos this.1]; exact this.2⟩

example : (⟨(), 200, [("content-length".toList, [43, 49, 50])]⟩ : ResponseValue Unit).contentLength = some 12 :=
  (C28_content_length _ 12).mpr ⟨_, ⟨[], [], rfl, by simp⟩, [49, 50], .inr rfl, ⟨by simp, by simp⟩, rfl, by decide⟩

/-- C28: `content_length` depends on the first value only, and values of 2^64 and more are not reported. -/
theorem C28_bound (rv : ResponseValue T) {n : Nat} (h : rv.contentLength = some n) : n < 2 ^ 64 := by
  obtain ⟨_, _, _, _, _, _, h⟩ := (C28_content_length rv n).mp h
  exact h

end Progenitor.Props

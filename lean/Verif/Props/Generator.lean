import Verif.Spec.Generator
import Verif.Props.Accepted

/-!
# C93: a generator that is used several times
-/

namespace Progenitor.Props

open Progenitor Progenitor.Names Progenitor.Builder Progenitor.Exec Progenitor.Doc Progenitor.Params Progenitor.Generator
open Progenitor.Spec

variable {α β B : Type}

/-! ## What a method adds to the flags -/

/-- The method gives `r` and adds `a` and `b` to the flags. -/
def Adds (g : Gen α) (a b : Bool) (r : Res α) : Prop := ∀ f, g f = (⟨f.futures || a, f.websockets || b⟩, r)

theorem adds_of {g : Gen α} {a b a' b' : Bool} {r : Res α} (h : Adds g a b r) (ha : a = a') (hb : b = b') : Adds g a' b' r :=
  ha ▸ hb ▸ h

theorem adds_lift (r : Res α) : Adds (Gen.lift r) false false r := fun f => by simp [Gen.lift]

theorem adds_pure (x : α) : Adds (pure x : Gen α) false false (.ok x) := fun f => by
  show (f, Res.ok x) = _
  simp

theorem adds_futures (c : Bool) : Adds (Gen.setIf c setFutures) c false (.ok ()) := fun f => by
  cases c <;> simp [Gen.setIf, setFutures]

theorem adds_websockets (c : Bool) : Adds (Gen.setIf c setWebsockets) false c (.ok ()) := fun f => by
  cases c <;> simp [Gen.setIf, setWebsockets]

theorem adds_bind {x : Gen α} {k : α → Gen β} {a b : Bool} {v : α} {a' b' : Bool} {r : Res β} (hx : Adds x a b (.ok v))
    (hk : Adds (k v) a' b' r) : Adds (x >>= k) (a || a') (b || b') r := fun f => by
  show Gen.bind x k f = _
  unfold Gen.bind
  rw [hx f]
  dsimp only
  rw [hk]
  simp [Bool.or_assoc]

theorem adds_err {x : Gen α} {k : α → Gen β} {a b : Bool} {m : Str} (hx : Adds x a b (.err m)) : Adds (x >>= k) a b (.err m) :=
  fun f => by
    show Gen.bind x k f = _
    unfold Gen.bind
    rw [hx f]

theorem adds_panic {x : Gen α} {k : α → Gen β} {a b : Bool} {m : Str} (hx : Adds x a b (.panic m)) : Adds (x >>= k) a b (.panic m) :=
  fun f => by
    show Gen.bind x k f = _
    unfold Gen.bind
    rw [hx f]

/-- A part that sets nothing. -/
theorem adds_skip {r : Res α} {k : α → Gen β} {k' : α → Res β} {a b : Bool}
    (hk : ∀ v, r = .ok v → Adds (k v) a b (k' v)) :
    Adds (Gen.lift r >>= k) (a && r.isOk) (b && r.isOk) (r >>= k') := by
  cases r with
  | ok v => simpa [Res.isOk] using adds_bind (adds_lift (.ok v)) (hk v rfl)
  | err m => simpa [Res.isOk] using adds_err (adds_lift (Res.err m))
  | panic m => simpa [Res.isOk] using adds_panic (adds_lift (Res.panic m))

/-- The rest of a method that sets nothing any more. -/
theorem adds_rest {r : Res α} {k : α → Gen β} {k' : α → Res β} (hk : ∀ v, Adds (k v) false false (k' v)) :
    Adds (Gen.lift r >>= k) false false (r >>= k') := by
  simpa using adds_skip (r := r) (k' := k') fun v _ => hk v

theorem processOperation_adds (san : Str → Str) (types : Types) (path method : Str) (d : DocOperation) :
    Adds (Generator.processOperation san types path method d) false
      (d.websocket && (convertAll san (BTree.values (combined d.pathLevel d.opLevel))).isOk)
      (Progenitor.processOperation san types path method d) := by
  unfold Generator.processOperation Progenitor.processOperation
  rw [show false = (false && (convertAll san (BTree.values (combined d.pathLevel d.opLevel))).isOk) from rfl]
  refine adds_skip fun v _ => ?_
  refine adds_of (adds_bind (a' := false) (b' := false) (adds_websockets d.websocket) ?_) rfl (Bool.or_false _)
  exact adds_rest fun body => adds_rest fun tmp => adds_rest fun ps => adds_rest fun rs => adds_rest fun _ => adds_rest fun m =>
    adds_pure _

/-- The operation sets the flag for channels. -/
def setsWs (u : Unicode) (x : Str × Str × RawOperation) : Bool :=
  x.2.2.id.isSome && (x.2.2.op.websocket && (convertAll (sanitize u .snake) (BTree.values (combined x.2.2.op.pathLevel x.2.2.op.opLevel))).isOk)

theorem processOne_adds (u : Unicode) (types : Types) (x : Str × Str × RawOperation) :
    Adds (Generator.processOne u types x) false (setsWs u x) (Doc.processOne u types x) := by
  obtain ⟨path, m, o⟩ := x
  unfold Generator.processOne Doc.processOne setsWs
  dsimp only
  cases o.id with
  | none => exact adds_lift _
  | some id =>
    have := processOperation_adds (sanitize u .snake) types path m { o.op with operationId := id }
    simpa using this

def setsWsAll (u : Unicode) (types : Types) : List (Str × Str × RawOperation) → Bool
  | [] => false
  | x :: xs => setsWs u x || ((Doc.processOne u types x).isOk && setsWsAll u types xs)

theorem processAll_adds (u : Unicode) (types : Types) (xs : List (Str × Str × RawOperation)) :
    Adds (Generator.processAll u types xs) false (setsWsAll u types xs) (Doc.processAll u types xs) := by
  induction xs with
  | nil => exact adds_pure _
  | cons x xs ih =>
    unfold Generator.processAll Doc.processAll setsWsAll
    have hx := processOne_adds u types x
    cases hr : Doc.processOne u types x with
    | ok p =>
      rw [hr] at hx
      have h2 : Adds (Generator.processAll u types xs >>= fun ps => pure (p :: ps)) false (setsWsAll u types xs)
          (Doc.processAll u types xs >>= fun ps => pure (p :: ps)) := by
        cases hr' : Doc.processAll u types xs with
        | ok ps =>
          rw [hr'] at ih
          simpa using adds_bind (k := fun ps => pure (p :: ps)) ih (adds_pure (p :: ps))
        | err m => rw [hr'] at ih; exact adds_err ih
        | panic m => rw [hr'] at ih; exact adds_panic ih
      simpa [Res.isOk] using adds_bind (k := fun p => Generator.processAll u types xs >>= fun ps => pure (p :: ps)) hx h2
    | err m => rw [hr] at hx; simpa [Res.isOk] using adds_err hx
    | panic m => rw [hr] at hx; simpa [Res.isOk] using adds_panic hx

theorem rawMethods_adds (u : Unicode) (types : Types) (d : Document) :
    Adds (Generator.rawMethods u types d) false (setsWsAll u types (operations d) && (validate u d).isOk) (Doc.rawMethods u types d) := by
  unfold Generator.rawMethods Doc.rawMethods
  rw [show false = (false && (validate u d).isOk) from rfl]
  exact adds_skip fun _ _ => processAll_adds u types _

/-! ## Code -/

def writtenB (tt : TypeTable B) (i : Interface) (p : Processed) : Bool :=
  match i with
  | .positional => (methodSigBody p.op).isOk
  | .builder => (builderStruct tt p.op).isOk

def setsFut (tt : TypeTable B) (i : Interface) : List Processed → Bool
  | [] => false
  | p :: ps => writtenB tt i p && (p.paginated.isSome || setsFut tt i ps)

theorem codes_adds {r : Res Code} {c : Bool} {g : Gen (List Code)} {a : Bool} {r' : Res (List Code)} (hg : Adds g a false r') :
    Adds (do let x ← Gen.lift r; let _ ← Gen.setIf c setFutures; let xs ← g; pure (x :: xs)) (r.isOk && (c || a)) false
      (do let x ← r; let xs ← r'; pure (x :: xs)) := by
  rw [Bool.and_comm]
  rw [show (false : Bool) = (false && r.isOk) from rfl]
  refine adds_skip fun x _ => ?_
  rw [show (false : Bool) = (false || false) from rfl]
  refine adds_bind (adds_futures c) ?_
  cases r' with
  | ok xs =>
    simpa using adds_bind (k := fun xs => pure (x :: xs)) hg (adds_pure (x :: xs))
  | err m => exact adds_err hg
  | panic m => exact adds_panic hg

theorem positionalAll_adds (tt : TypeTable B) (ms : List Processed) :
    Adds (Generator.positionalAll ms) (setsFut tt .positional ms) false (Doc.positionalAll ms) := by
  induction ms with
  | nil => exact adds_pure _
  | cons p ms ih => exact codes_adds ih

theorem builderAll_adds (tt : TypeTable B) (ms : List Processed) :
    Adds (Generator.builderAll tt ms) (setsFut tt .builder ms) false (Doc.builderAll tt ms) := by
  induction ms with
  | nil => exact adds_pure _
  | cons p ms ih => exact codes_adds ih

theorem operationCode_adds (tt : TypeTable B) (i : Interface) (t : TagStyle) (ms : List Processed) :
    Adds (Generator.operationCode tt i t ms) (!(decide (i = .positional ∧ t = .separate)) && setsFut tt i ms) false
      (Doc.operationCode tt i t ms) := by
  cases i with
  | positional => cases t with
    | merged => exact positionalAll_adds tt ms
    | separate => exact adds_lift _
  | builder => cases t <;> exact builderAll_adds tt ms

theorem call_adds (u : Unicode) (i : Interface) (t : TagStyle) (q : Generator.Request B) :
    ∃ r, Adds (Generator.call u i t q)
      (decide (q.target = .client) && (match Doc.rawMethods u q.types q.document with
        | .ok ms => !(decide (i = .positional ∧ t = .separate)) && setsFut q.table i ms
        | _ => false))
      (setsWsAll u q.types (operations q.document) && (validate u q.document).isOk) r ∧
      (r = match q.target with
        | .client => (do
          let x ← Doc.generate u q.types q.table i t q.document
          pure x.1)
        | _ => Doc.rawMethods u q.types q.document) := by
  have h := rawMethods_adds u q.types q.document
  refine ⟨_, ?_, rfl⟩
  unfold Generator.call Doc.generate
  cases hr : Doc.rawMethods u q.types q.document with
  | err m =>
    rw [hr] at h
    refine adds_of (r := _) (a := false) (b := _) ?_ (by simp) rfl
    cases q.target <;> exact adds_err h
  | panic m =>
    rw [hr] at h
    refine adds_of (r := _) (a := false) (b := _) ?_ (by simp) rfl
    cases q.target <;> exact adds_panic h
  | ok ms =>
    rw [hr] at h
    dsimp only
    cases q.target with
    | client =>
      refine adds_of (adds_bind (a' := !(decide (i = .positional ∧ t = .separate)) && setsFut q.table i ms) (b' := false) h ?_)
        (by simp) (by simp)
      dsimp only
      have hc := operationCode_adds q.table i t ms
      show Adds (Generator.operationCode q.table i t ms >>= fun _ => pure ms) _ _
        ((Doc.operationCode q.table i t ms >>= fun cs => pure (ms, cs)) >>= fun x => pure x.1)
      cases hcr : Doc.operationCode q.table i t ms with
      | ok cs =>
        rw [hcr] at hc
        exact adds_of (adds_bind hc (adds_pure ms)) (by simp) (by simp)
      | err m => rw [hcr] at hc; exact adds_err hc
      | panic m => rw [hcr] at hc; exact adds_panic hc
    | cli => exact adds_of (adds_bind h (adds_pure ms)) (by simp) (by simp)
    | mock => exact adds_of (adds_bind h (adds_pure ms)) (by simp) (by simp)

/-! ## When flags are set -/

theorem isOk_ok {r : Res α} : r.isOk = true ↔ ∃ a, r = .ok a := by
  cases r <;> simp [Res.isOk]

theorem setsWsAll_iff (u : Unicode) (types : Types) (xs : List (Str × Str × RawOperation)) : setsWsAll u types xs = true ↔
    ∃ pre x post, xs = pre ++ x :: post ∧ (∀ y ∈ pre, ∃ p, Doc.processOne u types y = .ok p) ∧ setsWs u x = true := by
  induction xs with
  | nil => simp [setsWsAll]
  | cons x xs ih =>
    rw [setsWsAll, Bool.or_eq_true, Bool.and_eq_true, ih, isOk_ok]
    constructor
    · rintro (h | ⟨h, pre, y, post, rfl, h2, h3⟩)
      · exact ⟨[], x, xs, rfl, by simp, h⟩
      · refine ⟨x :: pre, y, post, rfl, fun z hz => ?_, h3⟩
        rcases List.mem_cons.mp hz with rfl | hz
        · exact h
        · exact h2 z hz
    · rintro ⟨pre, y, post, he, h2, h3⟩
      cases pre with
      | nil => cases he; exact .inl h3
      | cons z pre =>
        cases he
        exact .inr ⟨h2 x (by simp), pre, y, post, rfl, fun w hw => h2 w (by simp [hw]), h3⟩

theorem writtenB_iff (tt : TypeTable B) (i : Interface) (p : Processed) : writtenB tt i p = true ↔ Written tt i p := by
  cases i <;> exact isOk_ok

theorem setsFut_iff (tt : TypeTable B) (i : Interface) (ms : List Processed) : setsFut tt i ms = true ↔
    ∃ pre p post, ms = pre ++ p :: post ∧ (∀ x ∈ pre, Written tt i x) ∧ Written tt i p ∧ p.paginated ≠ none := by
  induction ms with
  | nil => simp [setsFut]
  | cons p ms ih =>
    rw [setsFut, Bool.and_eq_true, Bool.or_eq_true, ih, writtenB_iff, Option.isSome_iff_ne_none]
    constructor
    · rintro ⟨h, h1 | ⟨pre, y, post, rfl, h2, h3, h4⟩⟩
      · exact ⟨[], p, ms, rfl, by simp, h, h1⟩
      · exact ⟨p :: pre, y, post, rfl, by simpa using ⟨h, h2⟩, h3, h4⟩
    · rintro ⟨pre, y, post, he, h2, h3, h4⟩
      cases pre with
      | nil => cases he; exact ⟨h3, .inl h4⟩
      | cons z pre =>
        cases he
        exact ⟨h2 p (by simp), .inr ⟨pre, y, post, rfl, fun w hw => h2 w (by simp [hw]), h3, h4⟩⟩

theorem validate_ids {u : Unicode} {d : Document} (h : (validate u d).isOk = true) : ∀ x ∈ operations d, x.2.2.id.isSome = true := by
  obtain ⟨_, h⟩ := isOk_ok.mp h
  obtain ⟨_, _, h⟩ := bind_ok_inv h
  obtain ⟨r, h, _⟩ := bind_ok_inv h
  obtain ⟨_, new, hn, _⟩ := validatePaths_ok.mp ⟨r, h⟩
  intro x hx
  have hx : x.2.2 ∈ opsOf d := operations_ops d ▸ List.mem_map_of_mem hx
  have : x.2.2.id ∈ new.map some := by
    rw [← hn]
    exact List.mem_map_of_mem hx
  obtain ⟨i, _, hi⟩ := List.mem_map.mp this
  rw [← hi]
  rfl

theorem meetsChannel_iff (u : Unicode) (types : Types) (d : Document) :
    (setsWsAll u types (operations d) && (validate u d).isOk) = true ↔ MeetsChannel u types d := by
  rw [Bool.and_eq_true, setsWsAll_iff]
  unfold MeetsChannel
  constructor
  · rintro ⟨⟨pre, ⟨path, m, o⟩, post, he, h1, h2⟩, hv⟩
    simp only [setsWs, Bool.and_eq_true] at h2
    obtain ⟨_, hv⟩ := isOk_ok.mp hv
    exact ⟨hv, pre, path, m, o, post, he, h1, h2.2.1, isOk_ok.mp h2.2.2⟩
  · rintro ⟨hv, pre, path, m, o, post, he, h1, h2, h3⟩
    have hv' : (validate u d).isOk = true := by rw [hv]; rfl
    refine ⟨⟨pre, (path, m, o), post, he, h1, ?_⟩, hv'⟩
    simp only [setsWs, Bool.and_eq_true]
    exact ⟨validate_ids hv' (path, m, o) (by rw [he]; simp), h2, isOk_ok.mpr h3⟩

theorem writes_iff (u : Unicode) (i : Interface) (t : TagStyle) (q : Generator.Request B) :
    (decide (q.target = .client) && (match Doc.rawMethods u q.types q.document with
        | .ok ms => !(decide (i = .positional ∧ t = .separate)) && setsFut q.table i ms
        | _ => false)) = true ↔ WritesPages u i t q := by
  unfold WritesPages
  rw [Bool.and_eq_true, decide_eq_true_eq]
  refine and_congr_right fun _ => ?_
  split
  · rename_i ms hms
    rw [Bool.and_eq_true, setsFut_iff, Bool.not_eq_true', decide_eq_false_iff_not]
    refine and_congr_right fun _ => ?_
    constructor
    · rintro ⟨pre, p, post, h⟩
      exact ⟨ms, pre, p, post, hms, h⟩
    · rintro ⟨ms', pre, p, post, h1, h2⟩
      rw [hms] at h1
      cases h1
      exact ⟨pre, p, post, h2⟩
  · rename_i hn
    simp only [Bool.false_eq_true, false_iff]
    rintro ⟨_, ms, _, _, _, h, _⟩
    exact hn ms h

/-! ## C93 -/

/-- What a call gives, by itself. -/
def callResult (u : Unicode) (i : Interface) (t : TagStyle) (q : Generator.Request B) : Res (List Processed) :=
  match q.target with
  | .client => (do
    let x ← Doc.generate u q.types q.table i t q.document
    pure x.1)
  | _ => Doc.rawMethods u q.types q.document

theorem call_effect (u : Unicode) (i : Interface) (t : TagStyle) (q : Generator.Request B) (f : Flags) :
    ∃ f', Generator.call u i t q f = (f', callResult u i t q) ∧
      (f'.futures = true ↔ f.futures = true ∨ WritesPages u i t q) ∧
      (f'.websockets = true ↔ f.websockets = true ∨ MeetsChannel u q.types q.document) := by
  obtain ⟨r, h, hr⟩ := call_adds u i t q
  refine ⟨_, (h f).trans (by rw [hr]; rfl), ?_, ?_⟩
  · rw [Bool.or_eq_true, writes_iff]
  · rw [Bool.or_eq_true, meetsChannel_iff]

/-- C93: a call gives the same whatever the generator was used for before. -/
theorem C93_results (u : Unicode) (i : Interface) (t : TagStyle) (qs : List (Generator.Request B)) (f : Flags) :
    (Generator.calls u i t qs f).2 = qs.map (callResult u i t) := by
  induction qs generalizing f with
  | nil => rfl
  | cons q qs ih =>
    obtain ⟨f', h, _⟩ := call_effect u i t q f
    simp only [Generator.calls, h, List.map_cons, ih]

/-- C93: after any calls, failed ones included, `uses_futures` says whether the generator got to writing the code of an
operation with pages. -/
theorem C93_futures_iff (u : Unicode) (i : Interface) (t : TagStyle) (qs : List (Generator.Request B)) (f : Flags) :
    (Generator.calls u i t qs f).1.futures = true ↔ f.futures = true ∨ ∃ q ∈ qs, WritesPages u i t q := by
  induction qs generalizing f with
  | nil => simp [Generator.calls]
  | cons q qs ih =>
    obtain ⟨f', h, h1, _⟩ := call_effect u i t q f
    simp only [Generator.calls, h, ih, h1, List.mem_cons, exists_eq_or_imp, or_assoc]

/-- C93: after any calls, failed ones included, `uses_websockets` says whether the generator got to an operation with a channel. -/
theorem C93_websockets_iff (u : Unicode) (i : Interface) (t : TagStyle) (qs : List (Generator.Request B)) (f : Flags) :
    (Generator.calls u i t qs f).1.websockets = true ↔ f.websockets = true ∨ ∃ q ∈ qs, MeetsChannel u q.types q.document := by
  induction qs generalizing f with
  | nil => simp [Generator.calls]
  | cons q qs ih =>
    obtain ⟨f', h, _, h2⟩ := call_effect u i t q f
    simp only [Generator.calls, h, ih, h2, List.mem_cons, exists_eq_or_imp, or_assoc]

/-- The operations of a document that is understood, with what becomes of them. -/
theorem rawMethods_each {u : Unicode} {types : Types} {d : Document} {ms : List Processed} (h : Doc.rawMethods u types d = .ok ms) :
    Forall₂ (fun x p => Doc.processOne u types x = .ok p) (operations d) ms := by
  replace h := (rawMethods_ok h).2
  revert h
  generalize operations d = xs
  intro h
  induction xs generalizing ms with
  | nil => cases h; exact .nil
  | cons x xs ih =>
    obtain ⟨p, h1, h⟩ := bind_ok_inv h
    obtain ⟨ps, h2, h⟩ := bind_ok_inv h
    cases h
    exact .cons h1 (ih h2)

theorem processOne_websocket {u : Unicode} {types : Types} {x : Str × Str × RawOperation} {p : Processed}
    (h : Doc.processOne u types x = .ok p) : p.op.websocket = x.2.2.op.websocket ∧ ParamsUnderstood u x.2.2.op := by
  obtain ⟨path, m, o⟩ := x
  unfold Doc.processOne at h
  dsimp only at h
  split at h
  · unfold Progenitor.processOperation at h
    obtain ⟨ps, hps, h⟩ := bind_ok_inv h
    obtain ⟨_, _, h⟩ := bind_ok_inv h
    obtain ⟨_, _, h⟩ := bind_ok_inv h
    obtain ⟨_, _, h⟩ := bind_ok_inv h
    obtain ⟨_, _, h⟩ := bind_ok_inv h
    obtain ⟨_, _, h⟩ := bind_ok_inv h
    obtain ⟨_, _, h⟩ := bind_ok_inv h
    cases h
    exact ⟨rfl, ps, hps⟩
  · cases h

theorem meets_ok {u : Unicode} {types : Types} {d : Document} {ms : List Processed} (h : Doc.rawMethods u types d = .ok ms) :
    MeetsChannel u types d ↔ ∃ p ∈ ms, p.op.websocket = true := by
  have heach := rawMethods_each h
  unfold MeetsChannel
  constructor
  · rintro ⟨_, pre, path, m, o, post, he, _, hw, _⟩
    rw [he] at heach
    obtain ⟨p, hp, hr⟩ := forall₂_left heach (path, m, o) (by simp)
    exact ⟨p, hp, by rw [(processOne_websocket hr).1]; exact hw⟩
  · rintro ⟨p, hp, hw⟩
    obtain ⟨⟨path, m, o⟩, hx, hr⟩ := Props.forall₂_right heach p hp
    obtain ⟨hv, _⟩ := rawMethods_ok h
    obtain ⟨_, hv⟩ := isOk_ok.mp hv
    obtain ⟨pre, post, he⟩ := List.append_of_mem hx
    refine ⟨hv, pre, path, m, o, post, he, fun y hy => ?_, (processOne_websocket hr).1 ▸ hw, (processOne_websocket hr).2⟩
    obtain ⟨p', _, hr'⟩ := forall₂_left heach y (by rw [he]; simp [hy])
    exact ⟨p', hr'⟩

theorem operationCode_written {tt : TypeTable B} {i : Interface} {t : TagStyle} {ms : List Processed} {cs : List Code}
    (h : Doc.operationCode tt i t ms = .ok cs) : ¬ (i = .positional ∧ t = .separate) ∧ ∀ p ∈ ms, Written tt i p := by
  have hp : ∀ {ms : List Processed} {cs : List Code}, Doc.positionalAll ms = .ok cs → ∀ p ∈ ms, Written tt .positional p := by
    intro ms
    induction ms with
    | nil => intro cs _ p hp; cases hp
    | cons q ms ih =>
      intro cs h
      obtain ⟨c, h1, h⟩ := bind_ok_inv h
      obtain ⟨cs', h2, _⟩ := bind_ok_inv h
      intro p hp
      rcases List.mem_cons.mp hp with rfl | hp
      · exact ⟨c, h1⟩
      · exact ih h2 p hp
  have hb : ∀ {ms : List Processed} {cs : List Code}, Doc.builderAll tt ms = .ok cs → ∀ p ∈ ms, Written tt .builder p := by
    intro ms
    induction ms with
    | nil => intro cs _ p hp; cases hp
    | cons q ms ih =>
      intro cs h
      obtain ⟨c, h1, h⟩ := bind_ok_inv h
      obtain ⟨cs', h2, _⟩ := bind_ok_inv h
      intro p hp
      rcases List.mem_cons.mp hp with rfl | hp
      · exact ⟨c, h1⟩
      · exact ih h2 p hp
  cases i with
  | positional => cases t with
    | merged => exact ⟨by simp, hp h⟩
    | separate => cases h
  | builder => cases t <;> exact ⟨by simp, hb h⟩

theorem writes_ok {u : Unicode} {i : Interface} {t : TagStyle} {q : Generator.Request B} {ms : List Processed}
    (h : callResult u i t q = .ok ms) : Doc.rawMethods u q.types q.document = .ok ms ∧
      (WritesPages u i t q ↔ q.target = .client ∧ ∃ p ∈ ms, p.paginated ≠ none) := by
  unfold callResult at h
  cases hq : q.target with
  | client =>
    rw [hq] at h
    obtain ⟨⟨ms', cs⟩, h1, h2⟩ := bind_ok_inv h
    cases h2
    obtain ⟨ms', h2, h3⟩ := bind_ok_inv h1
    obtain ⟨cs', h4, h5⟩ := bind_ok_inv h3
    cases h5
    obtain ⟨h6, h7⟩ := operationCode_written h4
    refine ⟨h2, ?_, ?_⟩
    · rintro ⟨_, _, ms', pre, p, post, h8, rfl, _, _, h9⟩
      rw [h2] at h8
      cases h8
      exact ⟨rfl, p, by simp, h9⟩
    · rintro ⟨_, p, hp, h9⟩
      obtain ⟨pre, post, he⟩ := List.append_of_mem hp
      exact ⟨hq, h6, _, pre, p, post, h2, he, fun x hx => h7 x ((show ms' = _ from he) ▸ List.mem_append_left _ hx), h7 p hp, h9⟩
  | cli =>
    rw [hq] at h
    exact ⟨h, fun h => absurd h.1 (by rw [hq]; simp), fun h => absurd h.1 (by simp)⟩
  | mock =>
    rw [hq] at h
    exact ⟨h, fun h => absurd h.1 (by rw [hq]; simp), fun h => absurd h.1 (by simp)⟩

/-- C93: if all calls succeed, then the flags say exactly what was met: operations with pages in clients, and operations with
channels in anything. -/
theorem C93_exact (u : Unicode) (i : Interface) (t : TagStyle) (qs : List (Generator.Request B))
    (hok : ∀ q ∈ qs, ∃ ms, callResult u i t q = .ok ms) :
    ((Generator.calls u i t qs .new).1.futures = true ↔
      ∃ q ∈ qs, q.target = .client ∧ ∃ ms, callResult u i t q = .ok ms ∧ ∃ p ∈ ms, p.paginated ≠ none) ∧
    ((Generator.calls u i t qs .new).1.websockets = true ↔
      ∃ q ∈ qs, ∃ ms, callResult u i t q = .ok ms ∧ ∃ p ∈ ms, p.op.websocket = true) := by
  rw [C93_futures_iff, C93_websockets_iff]
  simp only [Flags.new, Bool.false_eq_true, false_or]
  constructor
  · refine exists_congr fun q => and_congr_right fun hq => ?_
    obtain ⟨ms, hms⟩ := hok q hq
    rw [(writes_ok hms).2]
    refine and_congr_right fun _ => ?_
    constructor
    · intro h; exact ⟨ms, hms, h⟩
    · rintro ⟨ms', h1, h2⟩
      rw [hms] at h1
      cases h1
      exact h2
  · refine exists_congr fun q => and_congr_right fun hq => ?_
    obtain ⟨ms, hms⟩ := hok q hq
    rw [meets_ok (writes_ok hms).1]
    constructor
    · intro h; exact ⟨ms, hms, h⟩
    · rintro ⟨ms', h1, h2⟩
      rw [hms] at h1
      cases h1
      exact h2

/-- What is needed is listed if more is said to be used. -/
theorem needs_listed {f : Features} {ms : List Processed} (hf : (∃ p ∈ ms, p.paginated ≠ none) → f.futures = true)
    (hw : (∃ p ∈ ms, p.op.websocket = true) → f.websockets = true) {x : String} (h : Needs f ms x) :
    x.toList ∈ (dependencies f).map crateOf := by
  show x.toList ∈ (sortLines (depLines f)).map crateOf
  rw [((sortLines_perm (depLines f)).map crateOf).mem_iff, depLines_crates]
  simp only [List.mem_append]
  cases h with
  | bytes => exact .inl (.inl (.inl (.inl (.inl (.inl (.inl (by simp)))))))
  | futuresCore => exact .inl (.inl (.inl (.inl (.inl (.inl (.inl (by simp)))))))
  | reqwest => exact .inl (.inl (.inl (.inl (.inl (.inl (.inl (by simp)))))))
  | serde => exact .inl (.inl (.inl (.inl (.inl (.inl (.inl (by simp)))))))
  | serdeUrlencoded => exact .inl (.inl (.inl (.inl (.inl (.inl (.inl (by simp)))))))
  | client h => exact .inl (.inl (.inl (.inl (.inl (.inl (.inr (by rw [h]; simp)))))))
  | percent h => exact .inl (.inl (.inl (.inl (.inl (.inl (.inr (by rw [h]; simp)))))))
  | clientJson h => exact .inr (by rw [h]; simp [when])
  | json h => exact .inr (by rw [h]; simp [when])
  | regress h => exact .inl (.inl (.inl (.inl (.inl (.inr (by rw [h]; simp [when]))))))
  | uuid h => exact .inl (.inl (.inl (.inl (.inr (by rw [h]; simp [when])))))
  | chrono h => exact .inl (.inl (.inl (.inr (by rw [h]; simp [when]))))
  | stream hp h => exact .inl (.inl (.inr (by rw [hf ⟨_, hp, h⟩]; simp [when])))
  | key hp h => exact .inl (.inr (by rw [hw ⟨_, hp, h⟩]; simp [when]))
  | random hp h => exact .inl (.inr (by rw [hw ⟨_, hp, h⟩]; simp [when]))

/-- C93: whatever else the generator was used for, before or after, and whether or not that failed: the dependencies that
are listed at the end cover each client that was generated. -/
theorem C93_covers (u : Unicode) (i : Interface) (t : TagStyle) (qs : List (Generator.Request B)) (f0 : Flags) (f : Features)
    (hf : f.futures = (Generator.calls u i t qs f0).1.futures) (hw : f.websockets = (Generator.calls u i t qs f0).1.websockets)
    {q : Generator.Request B} (hq : q ∈ qs) (hc : q.target = .client) {ms : List Processed} (hms : callResult u i t q = .ok ms)
    {x : String} (h : Needs f ms x) : x.toList ∈ (dependencies f).map crateOf := by
  refine needs_listed (fun hp => ?_) (fun hp => ?_) h
  · rw [hf, C93_futures_iff]
    exact .inr ⟨q, hq, (writes_ok hms).2.mpr ⟨hc, hp⟩⟩
  · rw [hw, C93_websockets_iff]
    exact .inr ⟨q, hq, (meets_ok (writes_ok hms).1).mpr hp⟩

/-- C93: for a new generator and one client, exactly the crates that the client needs are listed. -/
theorem C93_single (u : Unicode) (i : Interface) (t : TagStyle) (q : Generator.Request B) (f : Features) (hc : q.target = .client)
    (hf : f.futures = (Generator.calls u i t [q] .new).1.futures) (hw : f.websockets = (Generator.calls u i t [q] .new).1.websockets)
    {ms : List Processed} (hms : callResult u i t q = .ok ms) (x : String) :
    x.toList ∈ (dependencies f).map crateOf ↔ Needs f ms x := by
  obtain ⟨h1, h2⟩ := C93_exact u i t [q] (by simpa using ⟨ms, hms⟩)
  refine C52_complete f ms ?_ ?_ x
  · rw [hf, Bool.eq_iff_iff, h1]
    simp [hc, hms, usesFutures, Option.isSome_iff_ne_none]
  · rw [hw, Bool.eq_iff_iff, h2]
    simp [hms, usesWebsockets]

/-! ## Examples and limits -/

namespace GeneratorExample

def noTable : TypeTable Unit := ⟨fun _ => none, fun _ => []⟩

def documentOf (path : String) (d : DocOperation) : Document :=
  ⟨"3.0.0".toList, [(path.toList, some [("get".toList, ⟨some "op".toList, d⟩)])]⟩

def channel : DocOperation := { plainDoc with websocket := true }

end GeneratorExample

open GeneratorExample

/-- A client with pages, then the command line for a document with a channel, then a call that fails. -/
example : (Generator.calls exUnicode .builder .merged
    [⟨.client, pageTypes, noTable, documentOf "/a" pageDoc⟩,
     ⟨.cli, typesNone, noTable, documentOf "/a" channel⟩, ⟨.mock, typesNone, noTable, documentOf "/{" plainDoc⟩] .new).1 = ⟨true, true⟩ := by
  decide +kernel

example : ((Generator.calls exUnicode .builder .merged
    [⟨.client, pageTypes, noTable, documentOf "/a" pageDoc⟩] .new).2.map Res.isOk) = [true] := by
  decide +kernel

/-- The flag for channels says more than is needed: it is set by a call that fails, and by calls that write no client. -/
theorem C93_failed_fails : ∃ q : Generator.Request Unit, q.target = .client ∧
    (callResult exUnicode .builder .merged q).isOk = false ∧
    (Generator.calls exUnicode .builder .merged [q] .new).1.websockets = true :=
  ⟨⟨.client, typesNone, noTable, documentOf "/{" channel⟩, rfl, by decide +kernel, by decide +kernel⟩

/-- The flag for pages says nothing about the code for command lines, which uses `futures` for operations with pages
(cli.rs:304, 311): it is not set by `cli`. -/
theorem C93_cli_fails : ∃ q : Generator.Request Unit, q.target = .cli ∧
    (∃ ms, callResult exUnicode .builder .merged q = .ok ms ∧ ∃ p ∈ ms, p.paginated ≠ none) ∧
    (Generator.calls exUnicode .builder .merged [q] .new).1.futures = false := by
  have hp : (match Doc.rawMethods exUnicode pageTypes (documentOf "/a" pageDoc) with
      | .ok ms => ms.any fun p => p.paginated.isSome
      | _ => false) = true := by decide +kernel
  split at hp
  · rename_i ms hms
    obtain ⟨p, h1, h2⟩ := List.any_eq_true.mp hp
    exact ⟨⟨.cli, pageTypes, noTable, documentOf "/a" pageDoc⟩, rfl,
      ⟨ms, hms, p, h1, Option.isSome_iff_ne_none.mp h2⟩, by decide +kernel⟩
  · cases hp

end Progenitor.Props

import Verif.Props.Paths
import Verif.Props.Client
import Verif.Props.Params
import Verif.Props.Exec
import Verif.Props.Misc

/-!
# When C03, C19, C27, C54 and C59 hold

The guards of the partial theorems about these claims are necessary.
-/

namespace Progenitor.Props

open Progenitor Progenitor.Spec

/-! ## C03 -/

section
open Progenitor.Template

/-- C03, exactly: among the accepted paths whose parameters have identifiers, those that are well formed have a URL, which is the base URL
followed by the path with the encoded arguments in place of the groups; the others have none. -/
theorem C03_url_iff (t base : Str) (p : PathTemplate) (rename : Str → Option Str) (ident : Str → Str) (value : Str → Str)
    (hp : parse t = .ok p) (hr : ∀ n ∈ braceGroups t, rename n = some (ident n)) :
    ∃ e, compile p rename = .ok e ∧ ∀ url, rustFormat e.fmt (base :: e.args.map fun i => encodePath (value i)) = some url ↔
      WellFormedPath t ∧ url = base ++ substGroups (fun n => encodePath (value (ident n))) (collapse t) := by
  by_cases hw : WellFormedPath t
  · obtain ⟨e, he, hf⟩ := C03_url_partial t base p rename ident value hw hp hr
    refine ⟨e, he, fun url => ?_⟩
    rw [hf]
    exact ⟨fun h => ⟨hw, (Option.some.inj h).symm⟩, fun h => by rw [h.2]⟩
  · have hargs : compileArgs rename p = .ok ((names p).map ident) := by
      rw [compileArgs_ok, List.map_map]
      refine List.map_congr_left fun n hn => ?_
      rw [C02_names t p hp] at hn
      simp [hr n hn]
    obtain ⟨e, he⟩ : ∃ e, compile p rename = .ok e := ⟨_, by simp [compile, hargs]; rfl⟩
    refine ⟨e, he, fun url => ?_⟩
    have hno := C03_stray_brace_never_compiles t p rename e hp hw he (base :: e.args.map fun i => encodePath (value i))
    constructor
    · intro h
      rw [hno] at h
      cases h
    · intro h
      exact absurd h.1 hw

/-- A path with a stray brace is accepted, and its parameter has an identifier. -/
example : ∃ p, parse "/a{b}}".toList = .ok p ∧ ∀ n ∈ braceGroups "/a{b}}".toList, some n = some (id n) :=
  ⟨_, rfl, fun _ _ => rfl⟩

end

/-! ## C19 -/

section
open Progenitor.Params Progenitor.Client Progenitor.Query Progenitor.Exec

/-- The header arguments called `Content-Type` that are given. -/
def typeArgs (params : List Param) (args : List Value) : List Str :=
  (params.zip args).filterMap fun pv => match pv.1.kind with
    | .header _ => if lowerName pv.1.apiName = Hdr.contentType then argText pv.2 else none
    | _ => none

/-- C19, exactly: the values of `Content-Type` in a request are the declared content type of the body, unless header arguments of that name
are given, which are sent instead.  So the label is right iff none are given, or they say the same. -/
theorem C19_label_iff (cfg : Config) (op : OperationMethod) (args : List Value) (r : Request)
    (hw : BodyNamed op.params) (h : Issues cfg op args r) :
    values r.headers Hdr.contentType =
      (if typeArgs op.params args = [] then bodyLabels op.params else typeArgs op.params args).map utf8 ∧
    (values r.headers Hdr.contentType = (bodyLabels op.params).map utf8 ↔
      typeArgs op.params args = [] ∨ (typeArgs op.params args).map utf8 = (bodyLabels op.params).map utf8) := by
  obtain ⟨d, _, hx⟩ := C17_exact cfg op args r hw h
  have he : explicitValues cfg.apiVersion op.params args Hdr.contentType = (typeArgs op.params args).map utf8 := by
    unfold explicitValues typeArgs headerArgs
    rw [if_neg (by decide), List.nil_append, List.filterMap_filterMap, List.map_filterMap]
    congr 1
    funext pv
    cases pv.1.kind <;> simp
    split <;> simp
  have h0 : values ((handshake cfg.wsKey).map fun e => (e.1, utf8 e.2)) Hdr.contentType = [] := by
    unfold values handshake
    rw [List.map_eq_nil_iff, List.filter_eq_nil_iff]
    intro e he
    simp only [List.map_cons, List.map_nil, List.mem_cons, List.not_mem_nil, or_false] at he
    rcases he with rfl | rfl | rfl | rfl <;> 
      exact fun h => absurd (of_decide_eq_true h) (by dsimp only; decide)
  have h1 : values r.headers Hdr.contentType =
      (if typeArgs op.params args = [] then bodyLabels op.params else typeArgs op.params args).map utf8 := by
    rw [hx, he, h0, ite_self, List.append_nil]
    have ha : automaticValues (Resp.acceptJson d) (bodyLabels op.params) Hdr.contentType = (bodyLabels op.params).map utf8 := by
      unfold automaticValues
      rw [if_neg (by intro h; exact accept_ne h.2.symm), if_pos rfl, List.nil_append]
    rw [ha]
    by_cases ht : typeArgs op.params args = []
    · simp [ht]
    · simp [ht]
  refine ⟨h1, ?_⟩
  rw [h1]
  by_cases ht : typeArgs op.params args = []
  · simp [ht]
  · simp [ht]

/-- The call of `C19_label_fails` has such an argument. -/
example : typeArgs ctOp.params [.plain (txt "1"), .plain (txt "text/plain")] = ["text/plain".toList] := by decide +kernel

example : typeArgs ctOp.params [.plain (txt "1")] = [] := by decide +kernel

end

/-! ## C27 -/

section
open Progenitor.Client

/-- C27, exactly: the status of an error is that of the response it stems from, if and only if it is not about an undecodable payload. -/
theorem C27_status_iff (e : Error P E) (s : Nat) :
    e.status = some s ↔ StemsFrom s e ∧ ∀ b p, e ≠ .invalidResponsePayload b p := by
  constructor
  · intro h
    have hn : ∀ b p, e ≠ .invalidResponsePayload b p := by
      rintro b p rfl
      cases h
    exact ⟨(C27_status_partial e s hn).mp h, hn⟩
  · rintro ⟨h, hn⟩
    exact (C27_status_partial e s hn).mpr h

example : (Error.unexpectedResponse ⟨418, [], .ok [], .ok 0⟩ : Error Unit Unit).status = some 418 ∧
    (Error.invalidResponsePayload [] () : Error Unit Unit).status = none := ⟨rfl, rfl⟩

end

/-! ## C54 -/

section
open Progenitor.Macro

theorem crateEntry_fst (e : Str × MacroCrateSpec V) : (crateEntry e).1 = e.2.original.getD e.1 := by
  unfold crateEntry
  cases e.2.original <;> rfl

theorem crateEntry_name {e e' : Str × MacroCrateSpec V} (h : crateEntry e = crateEntry e') : e.1 = e'.1 := by
  unfold crateEntry at h
  cases h1 : e.2.original <;> cases h2 : e'.2.original <;> rw [h1, h2] at h <;> simp at h
  · exact h.1
  · exact h.2.2

/-- The entry that comes last counts. -/
theorem crates_last (l : List (Str × MacroCrateSpec V)) (e : Str × MacroCrateSpec V) :
    BTree.get (crateEntry e).1 (crates (l ++ [e])) = some (crateEntry e).2 := by
  unfold crates
  rw [BTree.get_insertAll]
  simp

/-- C54, exactly: the entries of a table, whose names differ, give the same configuration in any order if and only if they are about different
crates, where an entry is about the original crate if there is one and else about the crate it names. -/
theorem C54_order_iff (l : List (Str × MacroCrateSpec V)) (hn : (l.map Prod.fst).Nodup) :
    (∀ l', l.Perm l' → crates l = crates l') ↔ (l.map fun e => e.2.original.getD e.1).Nodup := by
  constructor
  · intro h
    have key : ∀ e ∈ l, BTree.get (crateEntry e).1 (crates l) = some (crateEntry e).2 := by
      intro e he
      obtain ⟨a, b, rfl⟩ := List.append_of_mem he
      rw [h ((a ++ b) ++ [e]) (List.perm_middle.trans (List.perm_append_singleton _ _).symm)]
      exact crates_last _ _
    rw [List.Nodup, List.pairwise_map] at hn ⊢
    refine hn.imp_of_mem fun {e e'} he he' hne heq => hne (crateEntry_name ?_)
    rw [← crateEntry_fst, ← crateEntry_fst] at heq
    have h1 := key e he
    rw [heq, key e' he'] at h1
    exact Prod.ext heq (Option.some.inj h1).symm
  · intro h l' hp
    exact C54_order_partial hp (by simpa only [crateEntry_fst] using h)

example : ([("a".toList, ⟨some "foo".toList, 1⟩), ("b".toList, ⟨none, 2⟩)].map fun e : Str × MacroCrateSpec Nat => e.2.original.getD e.1).Nodup ∧
    ¬ ([("a".toList, ⟨some "foo".toList, 1⟩), ("foo".toList, ⟨none, 2⟩)].map fun e : Str × MacroCrateSpec Nat => e.2.original.getD e.1).Nodup := by
  decide +kernel

end

/-! ## C59 -/

section
open Progenitor.Params

/-- C59, exactly: if parameters are accepted, all path parameters occur in the template, except in the case of a single one that does not. -/
theorem C59_in_template_iff (san : Str → Str) (names : List Str) (pl ol : List DocParam)
    (body : Option Param) (as : List Param) (h : processParams san names pl ol body = .ok as) :
    (∀ a ∈ as, location a.kind = .path → a.apiName ∈ names) ↔
      ¬ ∃ a, as.filter (fun a => location a.kind == .path) = [a] ∧ a.apiName ∉ names := by
  constructor
  · rintro hall ⟨a, ha, hn⟩
    have : a ∈ as.filter (fun a => location a.kind == .path) := by rw [ha]; exact List.mem_singleton.mpr rfl
    obtain ⟨h1, h2⟩ := List.mem_filter.mp this
    exact hn (hall a h1 (eq_of_beq h2))
  · intro hno a ha hk
    by_cases htwo : 2 ≤ (as.filter fun a => location a.kind == .path).length
    · exact C59_in_template_partial san names pl ol body as h htwo a ha hk
    · have hm : a ∈ as.filter (fun a => location a.kind == .path) := List.mem_filter.mpr ⟨ha, by rw [hk]; rfl⟩
      cases hf : as.filter (fun a => location a.kind == .path) with
      | nil => rw [hf] at hm; cases hm
      | cons b l =>
        cases l with
        | cons c l => rw [hf] at htwo; simp at htwo
        | nil =>
          rw [hf] at hm
          have : a = b := List.mem_singleton.mp hm
          subst this
          false_or_by_contra
          rename_i hne
          exact hno ⟨a, hf, hne⟩

/-- A single path parameter that is not in the template. -/
example : ∃ as, processParams id [] [⟨"id".toList, .path true, true, true, 0⟩] [] none = .ok as ∧
    ∃ a, as.filter (fun a => location a.kind == .path) = [a] ∧ a.apiName ∉ ([] : List Str) :=
  ⟨_, rfl, _, rfl, by simp⟩

end

end Progenitor.Props

import Verif.Props.Route
import Verif.Props.FormExact

/-!
# C20, C11: what can be read from a request, for all query arguments
-/

namespace Progenitor.Props

open Progenitor Progenitor.Params Progenitor.Client Progenitor.Query Progenitor.Exec Progenitor.Spec

/-- C11: an argument is sent as one list of pairs; if it stands for some pairs it is sent as those, or cannot be sent; and the
latter is so exactly for those in `Unsent`. -/
theorem C11_sent_meaning (name : Str) (v : Ser) :
    (∀ ps qs, QueryOf name v ps → QueryOf name v qs → ps = qs) ∧
    ∀ ps, Means name v ps → (∀ qs, QueryOf name v qs → qs = ps) ∧ (QueryOf name v ps ↔ ¬ Unsent v) ∧
      ((∀ qs, ¬ QueryOf name v qs) ↔ Unsent v) := by
  have h := C11_sent_iff name v
  refine ⟨fun ps qs h1 h2 => ?_, fun ps hm => ⟨fun qs hq => C11_nothing_else hm ((h.1 qs).mpr hq), ?_, ?_⟩⟩
  · rw [← h.1] at h1 h2
    rw [h1] at h2
    exact Except.ok.inj h2
  · rw [← h.1, (C11_exact hm).1]
  · rw [← h.2, (C11_exact hm).2]

/-- A number is sent, the same in a newtype is not; both stand for a pair. -/
example : Means "q".toList (.int 1) [("q".toList, "1".toList)] ∧ QueryOf "q".toList (.int 1) [("q".toList, "1".toList)] ∧
    Means "q".toList (.newtypeStruct "N".toList (.int 1)) [("q".toList, "1".toList)] ∧
    ∀ qs, ¬ QueryOf "q".toList (.newtypeStruct "N".toList (.int 1)) qs :=
  ⟨.item _ _ (.scalar _ _ (.nat 1)), ((C11_sent_iff _ _).1 _).mp rfl, .item _ _ (.newtype _ _ _ (.scalar _ _ (.nat 1))),
    (C11_sent_iff _ _).2.mp rfl⟩

/-- C19: a value is sent as one form; if it stands for some pairs under a name, the form has those, or it cannot be sent; and
the latter is so exactly for those in `Buried`. -/
theorem C19_form_meaning (v : Ser) :
    (∀ ps qs, FormOf v ps → FormOf v qs → ps = qs) ∧
    ∀ name ps, Means name v ps → (∀ qs, FormOf v qs → qs = ps) ∧ (FormOf v ps ↔ ¬ Buried v) ∧ ((∀ qs, ¬ FormOf v qs) ↔ Buried v) := by
  refine ⟨fun ps qs h1 h2 => Except.ok.inj ((form_top h1).symm.trans (form_top h2)), fun name ps hm => ?_⟩
  rcases means_top hm with ⟨h, hb⟩ | ⟨h, hb⟩
  · have hf := top_form v ps h
    exact ⟨fun qs hq => Except.ok.inj ((form_top hq).symm.trans h), ⟨fun _ => hb, fun _ => hf⟩, ⟨fun h => absurd hf (h ps), fun h => absurd h hb⟩⟩
  · have hn : ∀ qs, ¬ FormOf v qs := fun qs hq => by rw [form_top hq] at h; cases h
    exact ⟨fun qs hq => absurd hq (hn qs), ⟨fun hf => absurd hf (hn ps), fun h => absurd hb h⟩, ⟨fun _ => hb, fun _ => hn⟩⟩

/-- An object is sent as a form, a number is not. -/
example : FormOf (.struct "F".toList [("a".toList, .int 1)]) [("a".toList, "1".toList)] ∧
    Means [] (.int 1) [([], "1".toList)] ∧ ∀ qs, ¬ FormOf (.int 1) qs :=
  ⟨top_form _ _ rfl, .item _ _ (.scalar _ _ (.nat 1)), fun _ h => by cases form_top h⟩

/-- C20, for all query arguments: the method is that of the operation, the segments of the path are those of the base URL and
of the template with arguments, and the pairs in the query are exactly those of the query arguments, in signature order; there
is no query iff there are no such pairs. -/
theorem C20_queries_partial {cfg : Config} {op : OperationMethod} {args : List Value} {r : Request}
    (h : Issues cfg op args r) {l : List Seg} (hl : SegsOk l) (hne : l ≠ [])
    (hpath : Template.parse (segsText l) = .ok op.path) {auth : Str} {base : List Str} (hbase : BaseUrl cfg auth base)
    (hrec : PathRecoverable l op.params args) :
    r.method = op.method ∧
    (∃ v : Str → Str, (∀ n ∈ pars l, PathArg op.params args n (v n)) ∧
      ((parseUrlTail (r.url.drop auth.length)).segments.map percentDecode).take base.length = base.map percentDecode ∧
      tailSegments auth base r = expectedSegs (fun n => utf8 (v n)) l) ∧
    ∃ qs, Forall₂ (fun (a : Str × Ser) ps => QueryOf a.1 a.2 ps) (queryArgs op.params args) qs ∧
      formDecode (r.query.getD []) = qs.flatten.map (fun p => (utf8 p.1, utf8 p.2)) ∧ (r.query = none ↔ qs.flatten = []) := by
  obtain ⟨h1, h2⟩ := issues_segments h hl hne hpath hbase hrec
  refine ⟨h1, h2, ?_⟩
  obtain ⟨c, env, o, hc, hbd, _, ho, h⟩ := issues_parts h
  obtain ⟨hm, label, body, q, _, _, _, h4, rfl⟩ := buildWith_request.mp h
  obtain ⟨_, hcu, _⟩ := methodSigBody_ok hc
  obtain ⟨_, hoq, _⟩ := operands_some hc hbd ho
  obtain ⟨ident, value, hid, harg, hfmt⟩ := operands_url hc hbd ho
  have hnames : Template.names op.path = pars l := by
    rw [C02_names _ _ hpath, braceGroups_segs l hl]
  have hw := wellFormed_segs l hl hne
  obtain ⟨e, he, hf⟩ := C03_url_partial (segsText l) cfg.baseurl op.path (urlRenames op.params) ident value hw hpath
    (by intro n hn; exact hid n (by rw [hnames, ← braceGroups_segs l hl]; exact hn))
  rw [hcu] at he
  cases he
  rw [hfmt] at hf
  simp only [Option.some.injEq] at hf
  rw [Template.collapse_eq, collapse_segs l hl, substGroups_segs _ l hl, hbase.eq] at hf
  have hchars : ∀ c ∈ o.url, c ≠ '#' ∧ c ≠ '?' := by
    rw [hf]
    intro c hc'
    rw [List.append_assoc] at hc'
    rcases List.mem_append.mp hc' with hc' | hc'
    · exact hbase.noSpecial c hc'
    rcases List.mem_append.mp hc' with hc' | hc'
    · simp only [joinSegs, List.mem_flatMap, List.mem_cons] at hc'
      obtain ⟨s, hs, rfl | hc'⟩ := hc'
      · decide
      · have := List.all_eq_true.1 (hbase.plain s hs).1 c hc'
        simp [plainChar] at this; simp [this]
    · exact segsUrl_chars l hl _ c hc'
  rw [(takeWhile_noSpecial hchars).2, hoq] at h4
  obtain ⟨ps, hps, hd, hn⟩ := C12_decode _ q h4
  exact ⟨ps, forall₂_imp (fun h => ((C11_sent_iff _ _).1 _).mp h) hps, hd, hn⟩

/-- A request with a query argument that needs encoding. -/
example : ∃ qs, Forall₂ (fun (a : Str × Ser) ps => QueryOf a.1 a.2 ps) (queryArgs wireOp.params (wireArgs "x")) qs ∧
    formDecode "q=a%26b".toList = qs.flatten.map (fun p => (utf8 p.1, utf8 p.2)) ∧ qs.flatten ≠ [] := by
  obtain ⟨_, _, qs, h1, h2, h3⟩ := C20_queries_partial (wireIssues "x" (by simp)) wireReady.segs wireReady.nonempty rfl wireBase
    (recoverable_path (wireRecoverable "x" (by decide) (by decide) (by decide)))
  exact ⟨qs, h1, h2, fun h => by cases h3.mpr h⟩

end Progenitor.Props

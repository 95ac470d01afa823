import Verif.Props.Wire

/-!
# What servers read, without each of the guards of C70
-/

namespace Progenitor.Props

open Progenitor Progenitor.Params Progenitor.Exec Progenitor.Query Progenitor.Spec Progenitor.Client

/-! ## Header parameters with the name of a header that requests contain anyway -/

def versionDoc : DocOperation := { plainDoc with
  pathLevel := [⟨"id".toList, .path true, true, true, 0⟩],
  opLevel := [⟨"Api-Version".toList, .header, false, true, 2⟩] }

def versionOp : OperationMethod := { wireOp with
  params := [⟨"id".toList, "id".toList, .type 0, .path⟩, ⟨"Api-Version".toList, "Api-Version".toList, .type 2, .header false⟩] }

theorem versionProcessed : processOperation id typesNone (segsText wirePath) "get".toList versionDoc = .ok ⟨versionOp, none⟩ := rfl

def versionArgs : List Value := [.plain (txt "x"), .opt none]

def versionReq : Request where
  method := .get
  url := "http://h/v1/x".toList
  query := none
  headers := [(Hdr.apiVersion, utf8 "1.0".toList)]
  body := none

theorem versionIssues : Issues exCfg versionOp versionArgs versionReq := ⟨_, _, rfl, rfl, rfl⟩

/-- C70 fails for a header parameter that has the name of a header that all requests contain, whatever else holds: without an argument for
`Api-Version` the server reads the version of the document as the value of the parameter. -/
theorem C70_headers_fails : ∃ (d : DocOperation) (pr : Processed) (args : List Value) (r : Request),
    processOperation id typesNone (segsText wirePath) "get".toList d = .ok pr ∧ SegsOk wirePath ∧
    NoDuplicates d.pathLevel ∧ NoDuplicates d.opLevel ∧ NamesUnambiguous (d.pathLevel ++ d.opLevel) ∧
    BaseUrl exCfg "http://h".toList [] ∧ Issues exCfg pr.op args r ∧ Recoverable ownKey wirePath pr.op.params args ∧
    ¬ Received ownKey wirePath "get".toList d.pathLevel d.opLevel (pr.op.params.zip args) "http://h".toList [] r := by
  refine ⟨versionDoc, ⟨versionOp, none⟩, versionArgs, versionReq, versionProcessed, wireReady.segs, by simp [NoDuplicates, versionDoc],
    by simp [NoDuplicates, versionDoc], by simp [NamesUnambiguous, versionDoc], wireBase, versionIssues, ⟨?_, ?_, ?_⟩, fun h => ?_⟩
  · intro p v hpv hk t ht pre post hmem
    simp only [wirePath, List.mem_cons, reduceCtorEq, Seg.par.injEq, List.not_mem_nil, or_false, false_or] at hmem
    obtain ⟨_, rfl, rfl⟩ := hmem
    simp only [List.nil_append, List.append_nil]
    simp only [versionOp, versionArgs, List.zip_cons_cons, List.zip_nil_right, List.mem_cons, List.not_mem_nil, or_false,
      Prod.mk.injEq] at hpv
    rcases hpv with ⟨rfl, rfl⟩ | ⟨rfl, rfl⟩
    · simp only [argText, txt, Option.some.injEq] at ht
      rw [← ht]; decide
    · cases hk
  · intro p v hpv k hk
    simp only [versionOp, versionArgs, List.zip_cons_cons, List.zip_nil_right, List.mem_cons, List.not_mem_nil, or_false,
      Prod.mk.injEq] at hpv
    rcases hpv with ⟨rfl, rfl⟩ | ⟨rfl, rfl⟩ <;> cases hk
  · intro p hp q _ k k' hk
    simp only [versionOp, List.mem_cons, List.not_mem_nil, or_false] at hp
    rcases hp with rfl | rfl <;> cases hk
  · obtain ⟨a, v, hav, hd, -, he⟩ := h.received ⟨"Api-Version".toList, .header, false, true, 2⟩ (.inl (by simp [versionDoc]))
    simp only [versionOp, versionArgs, List.zip_cons_cons, List.zip_nil_right, List.mem_cons, List.not_mem_nil, or_false,
      Prod.mk.injEq] at hav
    rcases hav with ⟨rfl, rfl⟩ | ⟨rfl, rfl⟩
    · simp [Describes, location, docLocation] at hd
    · rw [show reads ownKey "http://h".toList [] wirePath versionReq ⟨"Api-Version".toList, .header, false, true, 2⟩ =
        [(utf8 "Api-Version".toList, utf8 "1.0".toList)] by decide +kernel] at he
      generalize hx : [(utf8 "Api-Version".toList, utf8 "1.0".toList)] = x at he
      cases he with
      | path _ _ hk => cases hk
      | query _ _ _ _ hk => cases hk
      | header _ => simp [argText] at hx

/-! ## Query parameters that share a key -/

def sharedDoc : DocOperation := { plainDoc with
  pathLevel := [⟨"id".toList, .path true, true, true, 0⟩],
  opLevel := [⟨"q".toList, .query true none, true, true, 1⟩, ⟨"a".toList, .query true none, true, true, 2⟩] }

def sharedOp : OperationMethod := { wireOp with
  params := [⟨"id".toList, "id".toList, .type 0, .path⟩, ⟨"a".toList, "a".toList, .type 2, .query true⟩,
    ⟨"q".toList, "q".toList, .type 1, .query true⟩] }

theorem sharedProcessed : processOperation id typesNone (segsText wirePath) "get".toList sharedDoc = .ok ⟨sharedOp, none⟩ := rfl

def sharedArgs : List Value := [.plain (txt "x"), .plain (txt "z"), .plain ⟨[], objSer⟩]

def sharedKeys (n : Str) : List Str := if n = "q".toList then ["a".toList, "b".toList, "c".toList] else [n]

def sharedReq : Request where
  method := .get
  url := "http://h/v1/x".toList
  query := some "a=z&a=1&c=x+y".toList
  headers := [(Hdr.apiVersion, utf8 "1.0".toList)]
  body := none

theorem sharedIssues : Issues exCfg sharedOp sharedArgs sharedReq := ⟨_, _, rfl, rfl, rfl⟩

/-- C70 fails for query parameters with a common key, whatever else holds: the server reads a field of the object for the other parameter. -/
theorem C70_keys_fails : ∃ (d : DocOperation) (pr : Processed) (args : List Value) (r : Request) (keys : Str → List Str),
    processOperation id typesNone (segsText wirePath) "get".toList d = .ok pr ∧ SegsOk wirePath ∧
    NoDuplicates d.pathLevel ∧ NoDuplicates d.opLevel ∧ NamesUnambiguous (d.pathLevel ++ d.opLevel) ∧
    HeadersApart d.pathLevel d.opLevel ∧ BaseUrl exCfg "http://h".toList [] ∧ Issues exCfg pr.op args r ∧
    (∀ p v, (p, v) ∈ pr.op.params.zip args → p.kind = .path → argText v = some "x".toList) ∧
    (∀ p v, (p, v) ∈ pr.op.params.zip args → ∀ k, p.kind = .query k →
      ∃ s ps, argSer v = some s ∧ Means p.apiName s ps ∧ ∀ e ∈ ps, e.1 ∈ keys p.apiName) ∧
    ¬ Received keys wirePath "get".toList d.pathLevel d.opLevel (pr.op.params.zip args) "http://h".toList [] r := by
  refine ⟨sharedDoc, ⟨sharedOp, none⟩, sharedArgs, sharedReq, sharedKeys, sharedProcessed, wireReady.segs, by simp [NoDuplicates, sharedDoc],
    by simp [NoDuplicates, sharedDoc, SameParam], by simp [NamesUnambiguous, sharedDoc], ?_, wireBase, sharedIssues, ?_, ?_, fun h => ?_⟩
  · intro p hp hk
    simp [Effective, sharedDoc] at hp
    rcases hp with (rfl | rfl) | ⟨rfl, _⟩ <;> cases hk
  · intro p v hpv hk
    simp only [sharedOp, sharedArgs, List.zip_cons_cons, List.zip_nil_right, List.mem_cons, List.not_mem_nil, or_false,
      Prod.mk.injEq] at hpv
    rcases hpv with ⟨rfl, rfl⟩ | ⟨rfl, rfl⟩ | ⟨rfl, rfl⟩
    · rfl
    · cases hk
    · cases hk
  · intro p v hpv k hk
    simp only [sharedOp, sharedArgs, List.zip_cons_cons, List.zip_nil_right, List.mem_cons, List.not_mem_nil, or_false,
      Prod.mk.injEq] at hpv
    rcases hpv with ⟨rfl, rfl⟩ | ⟨rfl, rfl⟩ | ⟨rfl, rfl⟩
    · cases hk
    · exact ⟨_, _, rfl, .item _ _ (.scalar _ _ (.str _)), by simp [sharedKeys]⟩
    · exact ⟨_, _, rfl, objMeans, by simp [sharedKeys]⟩
  · obtain ⟨a, v, hav, hd, -, he⟩ := h.received ⟨"a".toList, .query true none, true, true, 2⟩ (.inl (by simp [sharedDoc]))
    simp only [sharedOp, sharedArgs, List.zip_cons_cons, List.zip_nil_right, List.mem_cons, List.not_mem_nil, or_false,
      Prod.mk.injEq] at hav
    rcases hav with ⟨rfl, rfl⟩ | ⟨rfl, rfl⟩ | ⟨rfl, rfl⟩
    · simp [Describes, location, docLocation] at hd
    · rw [show reads sharedKeys "http://h".toList [] wirePath sharedReq ⟨"a".toList, .query true none, true, true, 2⟩ =
        [(utf8 "a".toList, utf8 "z".toList), (utf8 "a".toList, utf8 "1".toList)] by decide +kernel] at he
      generalize hx : [(utf8 "a".toList, utf8 "z".toList), (utf8 "a".toList, utf8 "1".toList)] = x at he
      cases he with
      | path _ _ hk => cases hk
      | query k m s ps _ hs hm =>
        simp only [argSer, txt, Option.some.injEq] at hs
        subst hs
        cases hm with
        | item _ _ hm => cases hm with
          | scalar _ _ _ => simp at hx
      | header hk => cases hk
    · simp [Describes, location, docLocation] at hd

/-! ## Path arguments with a backslash -/

theorem backslashIssues : Issues exCfg wireOp (wireArgs "a\\b") (wireReq "a\\b") := ⟨_, _, rfl, rfl, rfl⟩

/-- C70 fails for path arguments with a backslash: the URL is parsed as one with another segment, which the server does not accept for
the operation. -/
theorem C70_backslash_fails : ∃ (args : List Value) (r : Request), Issues exCfg wireOp args r ∧
    ¬ Routed wirePath (tailSegments "http://h".toList [] r) := by
  refine ⟨wireArgs "a\\b", wireReq "a\\b", backslashIssues, ?_⟩
  rw [show tailSegments "http://h".toList [] (wireReq "a\\b") = [utf8 "v1".toList, utf8 "a".toList, utf8 "b".toList] by decide +kernel]
  intro h
  cases h with
  | cons _ h => cases h with
    | cons _ h => cases h

end Progenitor.Props

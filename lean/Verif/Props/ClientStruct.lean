import Verif.Model.ClientStruct
import Verif.Props.Wire
import Verif.Props.Settings

/-!
# C77: A client talks to the server it was created for
-/

namespace Progenitor.Props

open Progenitor Progenitor.Spec Progenitor.Params Progenitor.Exec Progenitor.Settings Progenitor.ClientStruct

variable {S T R I P U : Type}

/-- A client made by one of the constructors from these arguments. -/
inductive Made (d : Decl) (url : Str) (inner : Option I) (c : Client R I) : Prop
  | new (wasm build) : d.new wasm build url inner = some (.ok c) → Made d url inner c
  | withClient (r) : d.newWithClient url r inner = some c → Made d url inner c

theorem newWithClient_some {d : Decl} {url : Str} {r : R} {inner : Option I} {c : Client R I}
    (h : d.newWithClient url r inner = some c) : inner.isSome = d.hasInner ∧ c = ⟨url, r, inner⟩ := by
  unfold Decl.newWithClient Decl.takes at h
  split at h
  · rename_i hi; cases h; exact ⟨by simpa using hi, rfl⟩
  · cases h

theorem made_parts {d : Decl} {url : Str} {inner : Option I} {c : Client R I} (h : Made d url inner c) :
    inner.isSome = d.hasInner ∧ c.baseurl = url ∧ c.inner = inner := by
  cases h with
  | new wasm build h =>
    unfold Decl.new at h
    split at h
    · split at h
      · cases h
      · rename_i r _
        cases hn : d.newWithClient url r inner with
        | none => rw [hn] at h; cases h
        | some c' =>
          rw [hn] at h
          cases h
          obtain ⟨h1, rfl⟩ := newWithClient_some hn
          exact ⟨h1, rfl, rfl⟩
    · cases h
  | withClient r h =>
    obtain ⟨h1, rfl⟩ := newWithClient_some h
    exact ⟨h1, rfl, rfl⟩

/-- C77: what a client was created from is what its accessors return. -/
theorem C77_accessors {g : Generation S T} {version url : Str} {inner : Option I} {c : Client R I}
    (h : Made (declOf g version) url inner c) :
    c.getBaseurl = url ∧ (declOf g version).apiVersion c = version ∧ (declOf g version).inner c = inner := by
  obtain ⟨h1, h2, h3⟩ := made_parts h
  refine ⟨h2, rfl, ?_⟩
  unfold Decl.inner
  rw [h3]
  split
  · rfl
  · rename_i hn
    rw [← h1] at hn
    cases inner <;> simp at hn ⊢

/-- C77: `new_with_client` uses the client it is given; `new` one with timeouts of fifteen seconds where there are any, and it
fails only if `reqwest` cannot make one.  Both take an inner value iff an inner type is configured. -/
theorem C77_new (g : Generation S T) (version url : Str) (inner : Option I) :
    (∀ r : R, (∃ c, (declOf g version).newWithClient url r inner = some c ∧ c.getClient = r) ↔ inner.isSome = g.innerType.isSome) ∧
    (∀ wasm (build : ClientBuilder → Option R), inner.isSome = g.innerType.isSome →
      ∀ b, (wasm = true → b = ⟨none, none⟩) → (wasm = false → b = ⟨some 15, some 15⟩) →
        (∀ r, build b = some r → ∃ c, (declOf g version).new wasm build url inner = some (.ok c) ∧ c.getClient = r) ∧
        (build b = none → ∃ m, (declOf g version).new wasm build url inner = some (.panic m))) ∧
    ∀ wasm (build : ClientBuilder → Option R), inner.isSome ≠ g.innerType.isSome →
      (declOf g version).new wasm build url inner = none := by
  refine ⟨fun r => ⟨?_, ?_⟩, ?_, ?_⟩
  · rintro ⟨c, h, _⟩
    exact (newWithClient_some h).1
  · intro h
    exact ⟨⟨url, r, inner⟩, by simp [Decl.newWithClient, Decl.takes, declOf, h], rfl⟩
  · intro wasm build hi b h1 h2
    have hb : builderFor wasm = b := by
      cases wasm
      · rw [h2 rfl]; rfl
      · rw [h1 rfl]; rfl
    constructor
    · intro r hr
      exact ⟨⟨url, r, inner⟩, by simp [Decl.new, Decl.newWithClient, Decl.takes, declOf, hi, hb, hr], rfl⟩
    · intro hn
      exact ⟨"called `Result::unwrap()` on an `Err` value".toList,
        by simp only [Decl.new, Decl.takes, declOf, hi, hb, hn, beq_self_eq_true, if_true]⟩
  · intro wasm build hi
    simp [Decl.new, Decl.takes, declOf, hi]

/-! ## Requests -/

theorem rustFormat_prefix {f : Str} {x : Str} {xs : List Str} {u : Str} (h : Template.rustFormat ('{' :: '}' :: f) (x :: xs) = some u) :
    ∃ t, u = x ++ t := by
  simp only [Template.rustFormat, Option.map_eq_some_iff] at h
  obtain ⟨t, _, rfl⟩ := h
  exact ⟨t, rfl⟩

/-- The text that is parsed as URL begins with the base URL. -/
theorem issues_url {cfg : Config} {op : OperationMethod} {args : List Value} {r : Request} (h : Issues cfg op args r) :
    ∃ t, r.url = initialUrl (cfg.baseurl ++ t) := by
  obtain ⟨c, env, o, hc, hbd, _, ho, h⟩ := issues_parts h
  obtain ⟨hm, label, body, q, _, _, _, _, rfl⟩ := buildWith_request.mp h
  obtain ⟨_, hcu, _⟩ := methodSigBody_ok hc
  obtain ⟨_, _, _, _, hfmt⟩ := operands_url hc hbd ho
  have hf : c.url.fmt = Template.compileFmt op.path := by
    unfold Template.compile at hcu
    split at hcu
    · rw [← Res.ok.inj hcu]
    · cases hcu
    · cases hcu
  rw [hf] at hfmt
  obtain ⟨t, ht⟩ := rustFormat_prefix hfmt
  exact ⟨t, by rw [← ht]⟩

theorem takeWhile_append_all {α : Type} {p : α → Bool} {l l' : List α} (h : ∀ x ∈ l, p x = true) :
    (l ++ l').takeWhile p = l ++ l'.takeWhile p := List.takeWhile_append_of_pos h

theorem initialUrl_prefix {b t : Str} (h : ∀ c ∈ b, c ≠ '#' ∧ c ≠ '?') : ∃ t', initialUrl (b ++ t) = b ++ t' := by
  unfold initialUrl
  rw [takeWhile_append_all (by intro x hx; simpa using (h x hx).1), takeWhile_append_all (by intro x hx; simpa using (h x hx).2)]
  exact ⟨_, rfl⟩

theorem takeWhile_append_stop {α : Type} {p : α → Bool} {l l' : List α} (h : ∃ x ∈ l, p x = false) :
    (l ++ l').takeWhile p = l.takeWhile p := by
  induction l with
  | nil => obtain ⟨_, h, _⟩ := h; cases h
  | cons x l ih =>
    simp only [List.cons_append, List.takeWhile_cons]
    split
    · rename_i hx
      rw [ih]
      obtain ⟨y, hy, hp⟩ := h
      rcases List.mem_cons.mp hy with rfl | hy
      · rw [hx] at hp; cases hp
      · exact ⟨y, hy, hp⟩
    · rfl

theorem takeWhile_takeWhile_append {b t : Str} (h : '#' ∈ b ∨ '?' ∈ b) : initialUrl (b ++ t) = initialUrl b := by
  unfold initialUrl
  by_cases hb : '#' ∈ b
  · rw [takeWhile_append_stop ⟨_, hb, by simp⟩]
  · rw [takeWhile_append_all (by intro x hx; simp; rintro rfl; exact hb hx),
      takeWhile_append_stop ⟨_, (by rcases h with h | h; exact absurd h hb; exact h), by simp⟩]
    congr 1
    have := takeWhile_append_all (p := fun c => decide (c ≠ '#')) (l := b) (l' := [])
      (by intro x hx; simp; rintro rfl; exact hb hx)
    simpa using this.symm

/-- C77: a call on a client sends at most one request, to a URL that begins with the base URL of the client (if that is just an
authority and a path), with the version of the document in its `api-version` header. -/
theorem C77_requests {g : Generation S T} {version url : Str} {inner : Option I} {cl : Client R I}
    (hm : Made (declOf g version) url inner cl) (hu : ∀ ch ∈ url, ch ≠ '#' ∧ ch ≠ '?')
    {san types path method d pr} (hp : processOperation san types path method d = .ok pr) {code : Code} (hc : methodSigBody pr.op = .ok code)
    (s : Surroundings R I) (hk : Keeps (hooksOf g) ((declOf g version).world s cl)) (decode : TypeId → Bytes → Except P U)
    (hist : List Event) (args : List Value) :
    ∃ evs, (callMethod g version s cl decode pr.op.params code hist args).2 = hist ++ evs ∧ sends evs ≤ 1 ∧
      ∀ r, .send r ∈ evs → url <+: r.url ∧ (values r.headers Hdr.apiVersion).head? = some (utf8 version) := by
  obtain ⟨_, h2, _⟩ := made_parts hm
  obtain ⟨evs, he, hs⟩ := C21_at_most_one ((declOf g version).config s cl) (hooksOf g) ((declOf g version).world s cl) decode
    pr.op.params code hist args
  refine ⟨evs, he, hs, fun r hr => ?_⟩
  have hi := sent_issues hc hk he hr
  refine ⟨?_, C17_api_version _ _ _ _ (processOperation_inv hp).1 hi⟩
  obtain ⟨t, ht⟩ := issues_url hi
  obtain ⟨t', ht'⟩ := initialUrl_prefix (t := t) hu
  change r.url = initialUrl (cl.baseurl ++ t) at ht
  rw [ht, h2, ht']
  exact ⟨t', rfl⟩

/-- C77: a base URL with a query or a fragment does not work: all methods request the same path, that of the base URL. -/
theorem C77_query_fails {g : Generation S T} {version url : Str} {inner : Option I} {cl : Client R I}
    (hm : Made (declOf g version) url inner cl) (hu : '#' ∈ url ∨ '?' ∈ url) {s : Surroundings R I}
    {op op' : OperationMethod} {args args' : List Value} {r r' : Request} (h : Issues ((declOf g version).config s cl) op args r)
    (h' : Issues ((declOf g version).config s cl) op' args' r') :
    r.url = r'.url ∧ r.url = (url.takeWhile (· ≠ '#')).takeWhile (· ≠ '?') := by
  obtain ⟨_, h2, _⟩ := made_parts hm
  obtain ⟨t, ht⟩ := issues_url h
  obtain ⟨t', ht'⟩ := issues_url h'
  change r.url = initialUrl (cl.baseurl ++ t) at ht
  change r'.url = initialUrl (cl.baseurl ++ t') at ht'
  rw [h2, takeWhile_takeWhile_append hu] at ht ht'
  exact ⟨ht.trans ht'.symm, ht⟩

/-! ## Received by the server at the base URL -/

/-- C77, guarded, for a whole document: the requests of a client created for the URL of a server that implements the document are
understood by it as the calls that were made. -/
theorem C77_received_partial {B : Type} {u : Names.Unicode} {types : Types} {tt : Builder.TypeTable B} {i : Doc.Interface} {t : Doc.TagStyle}
    {d : Doc.Document} {ms : List Processed} {cs : List Code} (hg : Doc.generate u types tt i t d = .ok (ms, cs))
    {g : Generation S T} {version auth : Str} {base : List Str} {inner : Option I} {cl : Client R I}
    (hm : Made (declOf g version) (auth ++ joinSegs base) inner cl) (hb : BaseOk base) (ha : ∀ c ∈ auth, c ≠ '#' ∧ c ≠ '?')
    (s : Surroundings R I) (hk : Keeps (hooksOf g) ((declOf g version).world s cl)) (decode : TypeId → Bytes → Except P U) :
    Forall₂ (fun o (pc : Processed × Code) => ∀ l, WireReady o l → ∀ (keys : Str → List Str) (hist : List Event) (args : List Value),
        Recoverable keys l pc.1.op.params args →
        ∃ evs, (callMethod g version s cl decode pc.1.op.params pc.2 hist args).2 = hist ++ evs ∧ sends evs ≤ 1 ∧
          ∀ r, .send r ∈ evs →
            Received keys l o.2.1 o.2.2.op.pathLevel o.2.2.op.opLevel (pc.1.op.params.zip args) auth base r)
      (routes d) (ms.zip cs) := by
  obtain ⟨_, h2, _⟩ := made_parts hm
  refine forall₂_imp (fun {o pc} h => ?_) (C70_document_partial (P := P) (V := U) hg)
  intro l hl keys hist args hr
  exact h l hl keys _ auth base ⟨hb, ha, h2⟩ (hooksOf g) ((declOf g version).world s cl) decode hist args hk hr

theorem forall₂_length' {α β : Type} {Q : α → β → Prop} {l : List α} {m : List β} (h : Forall₂ Q l m) : l.length = m.length := by
  induction h with
  | nil => rfl
  | cons _ _ ih => simp [ih]

/-- C77: with a base URL that ends in a slash, no request of any method is one that a server at this URL accepts for the operation:
there is an empty segment before those of the path. -/
theorem C77_slash_fails {san types path method d pr} (hp : processOperation san types path method d = .ok pr)
    {l : List Seg} (hpath : path = segsText l) (hl : SegsOk l) (hne : l ≠ [])
    (hdp : NoDuplicates d.pathLevel) (hdo : NoDuplicates d.opLevel) (hun : NamesUnambiguous (d.pathLevel ++ d.opLevel))
    (hh : HeadersApart d.pathLevel d.opLevel)
    {g : Generation S T} {version auth : Str} {base : List Str} {inner : Option I} {cl : Client R I}
    (hm : Made (declOf g version) (auth ++ joinSegs base ++ ['/']) inner cl) (hb : BaseOk base) (ha : ∀ c ∈ auth, c ≠ '#' ∧ c ≠ '?')
    {s : Surroundings R I} {args : List Value} {r : Request} (h : Issues ((declOf g version).config s cl) pr.op args r)
    {keys : Str → List Str} (hrec : Recoverable keys l pr.op.params args) :
    ¬ Routed l (tailSegments auth base r) ∧ (tailSegments auth base r).head? = some [] := by
  obtain ⟨_, h2, _⟩ := made_parts hm
  have hbase : BaseUrl ((declOf g version).config s cl) auth (base ++ [[]]) := by
    refine ⟨?_, ha, ?_⟩
    · intro x hx
      rcases List.mem_append.mp hx with hx | hx
      · exact hb x hx
      · simp only [List.mem_singleton] at hx; subst hx; decide
    · change cl.baseurl = _
      rw [h2, List.append_assoc]
      congr 1
      clear hm h h2
      induction base with
      | nil => rfl
      | cons x b ih => simp only [joinSegs, List.flatMap_cons, List.cons_append] at ih ⊢; rw [List.append_assoc, ih (fun x hx => hb x (by simp [hx]))]
  obtain ⟨_, h5, h6, _⟩ := C70_received_partial hp hpath hl hne hdp hdo hun hh hbase h hrec
  unfold tailSegments at h6 ⊢
  generalize (parseUrlTail (r.url.drop auth.length)).segments.map percentDecode = segs at h5 h6
  have hlen := forall₂_length' h6
  obtain ⟨rest, rfl⟩ : ∃ rest, segs = base.map percentDecode ++ [] :: rest := by
    refine ⟨segs.drop (base ++ [[]]).length, ?_⟩
    have := (List.take_append_drop (base ++ [[]]).length segs).symm
    rw [h5] at this
    simpa [percentDecode] using this
  constructor
  · intro hr
    have := forall₂_length' hr
    simp at this hlen
    omega
  · simp

/-! ## Hooks and transport -/

/-- C77: a call uses the `reqwest` client of its own client, and gives hooks its inner value: whatever other clients and inner
values would do has no influence. -/
theorem C77_own {g : Generation S T} {version url : Str} {inner : Option I} {cl : Client R I} (hm : Made (declOf g version) url inner cl)
    {s s' : Surroundings R I} (h1 : s.preAsync inner = s'.preAsync inner) (h2 : s.postAsync inner = s'.postAsync inner)
    (h3 : s.execute cl.getClient = s'.execute cl.getClient) (h4 : s.validUrl = s'.validUrl) (h5 : s.toJson = s'.toJson)
    (h6 : s.wsKey = s'.wsKey) (decode : TypeId → Bytes → Except P U) (params : List Param) (code : Code) (hist : List Event)
    (args : List Value) :
    callMethod g version s cl decode params code hist args = callMethod g version s' cl decode params code hist args := by
  have hi : (declOf g version).hookArg cl = inner := (C77_accessors hm).2.2
  have hw : (declOf g version).world s cl = (declOf g version).world s' cl := by
    unfold Decl.world
    rw [hi, h1, h2]
    exact congrArg (fun e => World.mk _ e _) h3
  have hc : (declOf g version).config s cl = (declOf g version).config s' cl := by
    unfold Decl.config
    rw [h4, h5, h6]
  unfold callMethod
  rw [hw, hc]

/-- C77: the configured hooks are run, with the inner value: if the one before the request fails for the inner value of the client,
the call fails with its message and sends nothing. -/
theorem C77_hook {g : Generation S T} {version url : Str} {inner : Option I} {cl : Client R I} (hm : Made (declOf g version) url inner cl)
    {s : Surroundings R I} {op : OperationMethod} {code : Code} {args : List Value} {r : Request} (hc : methodSigBody op = .ok code)
    (h : Issues ((declOf g version).config s cl) op args r) {hook : Str} (hook1 : g.preHookAsync = some hook) {e : Str} {hist : List Event}
    (he : ∀ hist', s.preAsync inner hist' r = .error e) (decode : TypeId → Bytes → Except P U) :
    ∃ evs, callMethod g version s cl decode op.params code hist args = (.returned (.error (.preHookError e)), hist ++ evs) ∧
      sends evs = 0 := by
  have hi : (declOf g version).hookArg cl = inner := (C77_accessors hm).2.2
  have hp : (hooksOf g).preAsync = true := by simp [hooksOf, hook1]
  unfold callMethod
  rw [C22_call _ _ _ _ op code hist args r hc h]
  unfold perform
  have hw : ∀ hist', ((declOf g version).world s cl).preAsync hist' r = .error e := by
    intro hist'
    unfold Decl.world
    rw [hi]
    exact he hist'
  rw [hp]
  simp only [if_true, hw]
  cases (hooksOf g).pre
  · exact ⟨[.preHookAsync r], by simp, by simp [sends, Event.isSend]⟩
  · exact ⟨[.preHook r, .preHookAsync r], by simp, by simp [sends, Event.isSend]⟩

/-- The steps of a call, by the hooks in the settings. -/
def stepsOf (g : Generation S T) : List Step :=
  (g.preHook.map fun _ => Step.pre).toList ++ (g.preHookAsync.map fun _ => Step.preAsync).toList ++ [Step.request] ++
    (g.postHook.map fun _ => Step.post).toList ++ (g.postHookAsync.map fun _ => Step.postAsync).toList

/-- C77: exactly the hooks in the settings are run, in order, each once; those after a failing one are not. -/
theorem C77_hooks {g : Generation S T} {version : Str} {cl : Client R I} {s : Surroundings R I} {op : OperationMethod} {code : Code}
    {args : List Value} {r : Request} (hc : methodSigBody op = .ok code) (h : Issues ((declOf g version).config s cl) op args r)
    (hist : List Event) (decode : TypeId → Bytes → Except P U) :
    ∃ evs, (callMethod g version s cl decode op.params code hist args).2 = hist ++ evs ∧
      (evs.map Event.step = stepsOf g ∨
        (g.preHookAsync ≠ none ∧
          (∃ e, (callMethod g version s cl decode op.params code hist args).1 = .returned (.error (.preHookError e))) ∧
          evs.map Event.step = (stepsOf g).takeWhile (· ≠ .request))) := by
  have hs : stepsOf g = configured (hooksOf g) := by
    unfold stepsOf configured hooksOf
    cases g.preHook <;> cases g.preHookAsync <;> cases g.postHook <;> cases g.postHookAsync <;> rfl
  unfold callMethod
  rw [C22_call _ _ _ _ op code hist args r hc h, hs]
  obtain ⟨evs, h1, h2⟩ := C22_order (hooksOf g) ((declOf g version).world s cl) decode code.dispatch hist r
  refine ⟨evs, h1, h2.imp id fun ⟨hp, h3⟩ => ⟨fun hn => ?_, h3⟩⟩
  simp [hooksOf, hn] at hp

/-! ## Examples -/

def toyAround : Surroundings Unit Nat where
  preAsync i _ r := if i = some 0 then .error "no".toList else .ok r
  postAsync _ _ _ := .ok ()
  execute _ _ _ := .error ⟨0, none⟩
  validUrl := exCfg.validUrl
  toJson := exCfg.toJson
  wsKey := exCfg.wsKey

def toyGen : Generation Nat Nat := { innerType := some "u32".toList, preHookAsync := some "sign".toList }

def toyClient (url : String) (n : Nat) : Client Unit Nat := ⟨url.toList, (), some n⟩

theorem toyMade (url : String) (n : Nat) : Made (declOf toyGen "1.0".toList) url.toList (some n) (toyClient url n) :=
  .new false (fun _ => some ()) rfl

example : (toyClient "http://h" 7).getBaseurl = "http://h".toList := (C77_accessors (toyMade _ _)).1

/-- A request of a client with a base URL that ends in a slash. -/
theorem toySlash : Issues ((declOf toyGen "1.0".toList).config toyAround (toyClient "http://h/" 7)) wireOp (wireArgs "x")
    { wireReq "x" with url := "http://h//v1/x".toList } := ⟨_, _, rfl, rfl, rfl⟩

example : ¬ Routed wirePath (tailSegments "http://h".toList [] { wireReq "x" with url := "http://h//v1/x".toList }) :=
  (C77_slash_fails (base := []) wireProcessed rfl wireReady.segs wireReady.nonempty wireReady.pathLevel wireReady.opLevel
    wireReady.names wireReady.headers (toyMade "http://h/" 7) (fun _ h => by cases h) (by decide) toySlash
    (wireRecoverable "x" (by decide) (by decide) (by decide))).1

/-- A request of a client with a base URL that contains a query: the path is that of the base URL. -/
theorem toyQuery : Issues ((declOf toyGen "1.0".toList).config toyAround (toyClient "http://h?a=b" 7)) wireOp (wireArgs "x")
    { wireReq "x" with url := "http://h".toList, query := some "a=b/v1/x&q=a%26b".toList } := ⟨_, _, rfl, rfl, rfl⟩

example (decode : TypeId → Bytes → Except Unit Unit) (code : Code) (hc : methodSigBody wireOp = .ok code) :
    ∃ evs, callMethod toyGen "1.0".toList toyAround (toyClient "http://h" 0) decode wireOp.params code [] (wireArgs "x") =
      (.returned (.error (.preHookError "no".toList)), [] ++ evs) ∧ sends evs = 0 :=
  C77_hook (toyMade "http://h" 0) (r := wireReq "x") hc ⟨_, _, rfl, rfl, rfl⟩ rfl (fun _ => rfl) decode

example (decode : TypeId → Bytes → Except Unit Unit) (code : Code) (hc : methodSigBody wireOp = .ok code) :
    ∃ evs, (callMethod toyGen "1.0".toList toyAround (toyClient "http://h" 7) decode wireOp.params code [] (wireArgs "x")).2 =
      [] ++ evs ∧ (evs.map Event.step = [.preAsync, .request] ∨
        (toyGen.preHookAsync ≠ none ∧
          (∃ e, (callMethod toyGen "1.0".toList toyAround (toyClient "http://h" 7) decode wireOp.params code [] (wireArgs "x")).1 =
            .returned (.error (.preHookError e))) ∧ evs.map Event.step = [.preAsync])) :=
  C77_hooks (r := wireReq "x") hc ⟨_, _, rfl, rfl, rfl⟩ [] decode

end Progenitor.Props

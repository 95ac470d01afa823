import Verif.Spec.MockedList
import Verif.Props.Mocked
import Verif.Props.Paging

/-!
# C94: builders, commands and lists against mock servers
-/

namespace Progenitor.Props

open Progenitor Progenitor.Params Progenitor.Client Progenitor.Query Progenitor.Exec Progenitor.Builder Progenitor.Cli Progenitor.Stream
open Progenitor.Spec Progenitor.Mock

variable {B P V I : Type}

/-- One of the mocks is set up for the call with `args`, to answer with response `x` of the document; no other mock matches it. -/
def Prepared [JsonLib] (u : Names.Unicode) (enc : Char → Str) (cfg : Config) (op : OperationMethod) (ms : List Mocked) (args : List Value)
    (x : Resp.Response) (answer : HttpResponse) : Prop :=
  ∃ r fs wh t st body out, Issues cfg op args r ∧ Mockable enc cfg op args r fs ∧
    (∀ p v, (p, v) ∈ fs → ∃ y, (p, y) ∈ op.params.zip args ∧ Stands cfg p v y) ∧
    whenAll op fs = .when wh ∧ x ∈ op.responses ∧ x.kind ≠ .upgrade ∧ thenMethod u x = .ok t ∧ t.call st body = some out ∧
    (x.status = .default → ∀ y ∈ op.responses, y.status ≠ .default → ¬ Covers y.status out.1) ∧
    ((200 ≤ out.1 ∧ out.1 < 300) ∨ (400 ≤ out.1 ∧ out.1 < 600)) ∧ SetUp out answer ∧
    ⟨wh, answer⟩ ∈ ms ∧ ∀ o ∈ ms, o ≠ ⟨wh, answer⟩ → ∀ s, ServerSees enc cfg.baseurl r s → ¬ o.when.Matches s

theorem mockServer_same [JsonLib] {enc : Char → Str} {auth : Str} {ms ms' : List Mocked} (h : ∀ m, m ∈ ms ↔ m ∈ ms') {w : World}
    (hw : MockServer enc auth ms w) : MockServer enc auth ms' w := by
  intro hist r s hs
  obtain ⟨a, ha, hans⟩ := hw hist r s hs
  refine ⟨a, ha, ?_⟩
  cases hans with
  | hit m hm h1 => exact .hit m ((h m).mp hm) h1
  | miss _ h1 h2 => exact .miss _ (fun m hm => h1 m ((h m).mpr hm)) h2

section
variable {san : Str → Str} {types : Types} {path method : Str} {d : DocOperation} {pr : Processed} {c : Code}

/-- C94: the positional call, against a server with several mocks. -/
theorem C94_call_partial [JsonLib] (hp : processOperation san types path method d = .ok pr) (hc : methodSigBody pr.op = .ok c)
    {u : Names.Unicode} {enc : Char → Str} {cfg : Config} {ms : List Mocked} {args : List Value} {x : Resp.Response} {answer : HttpResponse}
    (hm : Prepared u enc cfg pr.op ms args x answer) (hooks : Hooks) {w : World} (hlook : LooksOn hooks w)
    (hw : MockServer enc cfg.baseurl ms w) (decode : TypeId → Bytes → Except P V) (hist : List Event) :
    ∃ result evs, call cfg hooks w decode pr.op.params c hist args = (.returned result, hist ++ evs) ∧ sends evs = 1 ∧
      Delivered decode answer x.kind result := by
  obtain ⟨r, fs, wh, t, st, body, out, hi, hmock, hfs, hwh, hx, hk, ht, hout, hd, hs, hset, hmem, hothers⟩ := hm
  obtain ⟨wh', hwh', h⟩ := C75_mocked_partial hp hc hmock hi hfs hx hk ht hout hd hs hset hooks w hlook decode hist
  rw [hwh] at hwh'
  cases hwh'
  classical
  obtain ⟨result, h1, h2, before, after, h3, h4, h5⟩ := h (ms.filter fun o => o ≠ ⟨wh, answer⟩)
    (fun o ho => by
      obtain ⟨h1, h2⟩ := List.mem_filter.mp ho
      exact hothers o h1 (by simpa using h2))
    (mockServer_same (fun m => by
      simp only [List.mem_cons, List.mem_filter, decide_eq_true_eq]
      constructor
      · intro h
        by_cases e : m = ⟨wh, answer⟩
        · exact .inl e
        · exact .inr ⟨h, e⟩
      · rintro (rfl | ⟨h, -⟩)
        · exact hmem
        · exact h) hw)
  refine ⟨result, before ++ .send r :: after, Prod.ext h1 (by rw [h3, List.append_assoc]), ?_, h2⟩
  rw [sends_append, h4, show Event.send r :: after = [.send r] ++ after from rfl, sends_append, h5]
  rfl

/-- C94: a chain of calls on the builder that stands for these arguments. -/
theorem C94_builder_partial [JsonLib] (hp : processOperation san types path method d = .ok pr) (hc : methodSigBody pr.op = .ok c)
    {u : Names.Unicode} {enc : Char → Str} {cfg : Config} {ms : List Mocked} {args : List Value} {x : Resp.Response} {answer : HttpResponse}
    (hm : Prepared u enc cfg pr.op ms args x answer) (hooks : Hooks) {w : World} (hlook : LooksOn hooks w)
    (hw : MockServer enc cfg.baseurl ms w) (decode : TypeId → Bytes → Except P V) (hist : List Event)
    {tt : TypeTable B} {paginated : Bool} {calls : List (Builder.Call B)} (hs : structOk tt pr.op.params paginated = true)
    (hcalls : ∀ c ∈ calls, CallOk tt pr.op.params c)
    (hv : Forall₂ (fun p v => Outcome tt p (inputsFor calls p.name) (.ok v)) pr.op.params args) :
    ∃ result evs, callBuilder cfg hooks w decode tt pr.op.params paginated c hist calls = (.returned result, hist ++ evs) ∧
      sends evs = 1 ∧ Delivered decode answer x.kind result := by
  rw [C31_values cfg hooks w decode tt pr.op.params paginated c hist calls hs hcalls args hv]
  exact C94_call_partial hp hc hm hooks hlook hw decode hist

/-- C94: a command whose words stand for these arguments reports the answer. -/
theorem C94_words_partial [JsonLib] (hp : processOperation san types path method d = .ok pr) (hc : methodSigBody pr.op = .ok c)
    {u : Names.Unicode} {enc : Char → Str} {cfg : Config} {ms : List Mocked} {vs : List Value} {x : Resp.Response} {answer : HttpResponse}
    (hm : Prepared u enc cfg pr.op ms vs x answer) (hooks : Hooks) {w : World} (hlook : LooksOn hooks w)
    (hw : MockServer enc cfg.baseurl ms w) (decode : TypeId → Bytes → Except P V) (hist : List Event)
    {ct : CliTypes} {set : Str → Arg → B → B} {tt : TypeTable B} {args : Args} {s e : Resp.Kind}
    (hn : Named u pr.op.params) (hcm : cliMethod u ct none pr.op = .ok (args, s, e))
    (hst : structOk tt pr.op.params false = true) (hcc : cliCompiles ct tt pr.op.params args = true)
    (hlaw : ∀ p ∈ pr.op.params, ∀ tb, HasBuilder tt p tb → ∀ a, tb.finish (tb.ofValue a) = .ok a)
    (hsk : (∃ t, s = .type t) ∨ s = .none) (hek : (∃ t, e = .type t) ∨ e = .none)
    {ps : Parsers} {ws : List Str} {line : Line} (hmatch : matchesOf ps args (Cli.bodyType pr.op.params) ws = .ok line)
    (hj : line.json ≠ some none) (hv : Forall₂ (LineArg u tt set none args line) pr.op.params vs) :
    ∃ out rep failed evs, Delivered decode answer x.kind out ∧
      runWords ps noOverride cfg hooks w decode ct tt set pr.op.params c (args, s, e) hist ws =
        (.ok (.done [rep] failed), hist ++ evs) ∧ sends evs = 1 ∧ Reported out s rep ∧ (failed = true ↔ ∃ y, out = .error y) := by
  obtain ⟨args', ha, hm'⟩ := bind_ok_inv hcm
  obtain ⟨ks, hks, hm'⟩ := bind_ok_inv hm'
  have e1 : args' = args := (Prod.mk.inj (Res.ok.inj hm')).1
  subst e1
  obtain ⟨l, -, -, hlf, hcomp⟩ := (C79_words_iff ha ps _ ws line).mp hmatch
  have hacc := (accepts_iff (lineFor_none hlf)).mpr hcomp
  obtain ⟨out, evs, h1, h2, h3⟩ := C94_call_partial hp hc hm hooks hlook hw decode hist
  obtain ⟨rep, failed, h6, h7, h8⟩ := C68_execute_partial cfg hooks w decode hn ha hacc hj hst hcc hlaw hv c s e hist h1 hsk hek
  refine ⟨out, rep, failed, evs, h3, ?_, h2, h7, h8⟩
  unfold runWords
  simp only [hmatch]
  rw [C79_default cfg hooks w decode hst, h6]

/-! ## Lists -/

/-- Some mock is set up to give this page to the call for its token. -/
def PagePrepared [JsonLib] (u : Names.Unicode) (enc : Char → Str) (cfg : Config) (op : OperationMethod) (ms : List Mocked)
    (decode : TypeId → Bytes → Except P V) (pageOf : V → Page I) (vs : List Value) (t : Option Str) (page : Page I) : Prop :=
  ∃ x answer T b v, Prepared u enc cfg op ms (pageValues op.params vs t) x answer ∧ x.kind = .type T ∧
    200 ≤ answer.status ∧ answer.status < 300 ∧ answer.body = .ok b ∧ decode T b = .ok v ∧ pageOf v = page

theorem page_mocked [JsonLib] (hp : processOperation san types path method d = .ok pr) (hc : methodSigBody pr.op = .ok c)
    {u : Names.Unicode} {enc : Char → Str} {cfg : Config} {ms : List Mocked} {vs : List Value} {decode : TypeId → Bytes → Except P V}
    {pageOf : V → Page I} {t : Option Str} {page : Page I} (hm : PagePrepared u enc cfg pr.op ms decode pageOf vs t page)
    {hooks : Hooks} {w : World} (hlook : LooksOn hooks w) (hw : MockServer enc cfg.baseurl ms w) (hist : List Event) :
    ∃ evs, answerOf pageOf (fun h q => call cfg hooks w decode pr.op.params c h q) hist (pageValues pr.op.params vs t) =
      some (.ok page, hist ++ evs) ∧ sends evs = 1 := by
  obtain ⟨x, answer, T, b, v, h, hk, h1, h2, h3, h4, rfl⟩ := hm
  obtain ⟨result, evs, h5, h6, h7⟩ := C94_call_partial hp hc h hooks hlook hw decode hist
  refine ⟨evs, ?_, h6⟩
  simp only [answerOf, h5]
  rw [hk] at h7
  cases h7 with
  | ok _ _ h8 => cases h8 <;> simp_all [toAnswer]
  | error h8 => omega

theorem pages_followed {Q E : Type} {answer : List Event → Q → Option (Answer E I × List Event)} {callOf : Option Str → Q}
    {Pr : Option Str → Page I → Prop}
    (ha : ∀ h t page, Pr t page → ∃ evs, answer h (callOf t) = some (.ok page, h ++ evs) ∧ sends evs = 1) {h0 : List Event}
    {t : Option Str} {pages : List (Page I)} (hch : PageChain Pr t pages) {rs : List (Answer E I)} {evs : List Event}
    (hf : Followed answer (callOf none) (fun t => callOf (some t)) h0 rs (h0 ++ evs))
    (hn : nextCall (callOf none) (fun t => callOf (some t)) rs = some (callOf t)) (hr : sends evs = rs.length) :
    ∃ evs', Followed answer (callOf none) (fun t => callOf (some t)) h0 (rs ++ pages.map .ok) (h0 ++ evs') ∧
      sends evs' = (rs ++ pages.map (.ok : Page I → Answer E I)).length := by
  induction hch generalizing rs evs with
  | last t page h _ =>
    obtain ⟨e2, h3, h4⟩ := ha (h0 ++ evs) t page h
    exact ⟨evs ++ e2, by rw [← List.append_assoc]; exact .next _ _ _ _ _ hf hn h3, by simp [sends_append, hr, h4]⟩
  | more t page t' pages h hnext _ ih =>
    obtain ⟨e2, h3, h4⟩ := ha (h0 ++ evs) t page h
    have := ih (rs := rs ++ [.ok page]) (evs := evs ++ e2) (by rw [← List.append_assoc]; exact .next _ _ _ _ _ hf hn h3)
      (by simp [nextCall, hnext]) (by simp [sends_append, hr, h4])
    simpa using this

theorem pageChain_whole {E : Type} {Pr : Option Str → Page I → Prop} {t : Option Str} {pages : List (Page I)} (h : PageChain Pr t pages) :
    Whole (pages.map (.ok : Page I → Answer E I)) := by
  induction h with
  | last t page _ hn => exact ⟨[], .ok page, rfl, fun _ e => by cases e; exact hn⟩
  | more t page t' pages _ _ _ ih =>
    obtain ⟨pre, a, h1, h2⟩ := ih
    exact ⟨.ok page :: pre, a, by simp [h1], h2⟩

theorem elements_pages {E : Type} (pages : List (Page I)) :
    elements (pages.map (.ok : Page I → Answer E I)) = (pages.flatMap Page.items).map .ok := by
  unfold elements
  induction pages with
  | nil => rfl
  | cons p ps ih => simp only [List.map_cons, List.flatMap_cons, List.map_append, ih]

/-- C94: following the tokens gives the pages that were set up. -/
theorem C94_followed_partial [JsonLib] (hp : processOperation san types path method d = .ok pr) (hc : methodSigBody pr.op = .ok c)
    {u : Names.Unicode} {enc : Char → Str} {cfg : Config} {ms : List Mocked} {vs : List Value} {decode : TypeId → Bytes → Except P V}
    {pageOf : V → Page I} {pages : List (Page I)} (hm : PageChain (PagePrepared u enc cfg pr.op ms decode pageOf vs) none pages)
    {hooks : Hooks} {w : World} (hlook : LooksOn hooks w) (hw : MockServer enc cfg.baseurl ms w) (hist : List Event) :
    ∃ evs, Followed (answerOf pageOf fun h q => call cfg hooks w decode pr.op.params c h q) vs
      (fun t => List.zipWith (laterValue t) pr.op.params vs) hist (pages.map .ok) (hist ++ evs) ∧ sends evs = pages.length := by
  obtain ⟨evs, h1, h2⟩ := pages_followed (callOf := pageValues pr.op.params vs) (h0 := hist) (rs := []) (evs := [])
    (answer := answerOf pageOf fun h q => call cfg hooks w decode pr.op.params c h q)
    (fun h t page hpr => page_mocked hp hc hpr hlook hw h) hm (by rw [List.append_nil]; exact .none) rfl rfl
  rw [List.nil_append] at h1 h2
  exact ⟨evs, h1, by simpa using h2⟩
end

section
variable {u : Names.Unicode} {types : Types} {path method : Str} {d : DocOperation} {pr : Processed} {c : Code}

/-- C94: the positional stream gives the items of all pages in order, and ends; there is one request for each page. -/
theorem C94_positional_partial [JsonLib] (h : Lawful u) (hd : PropsDistinct types)
    (hp : processOperation (Names.sanitize u .snake) types path method d = .ok pr) {pd : Pagination} (hpg : pr.paginated = some pd)
    (hc : methodSigBody pr.op = .ok c)
    {enc : Char → Str} {cfg : Config} {ms : List Mocked} {vs : List Value} {decode : TypeId → Bytes → Except P V}
    {pageOf : V → Page I} {pages : List (Page I)} (hm : PageChain (PagePrepared u enc cfg pr.op ms decode pageOf vs) none pages)
    {hooks : Hooks} {w : World} (hlook : LooksOn hooks w) (hw : MockServer enc cfg.baseurl ms w) (hist : List Event)
    (hfirst : ∀ p v, (p, v) ∈ pr.op.params.zip vs → p.apiName = "page_token".toList → v = .opt none)
    {a : List Value × (Str → List Value)} (ha : positionalArgs types pr.op.params (streamArgs pr.op.params vs) = some a) :
    ∃ k tr st evs, runFor (posStep a) (answerOf pageOf fun h q => call cfg hooks w decode pr.op.params c h q) k (posInit a) hist =
        some (tr, st, hist ++ evs) ∧
      yields tr = (pages.flatMap Page.items).map .ok ∧ sends evs = pages.length ∧ .ended ∈ tr := by
  obtain ⟨evs, hf, hs⟩ := C94_followed_partial hp hc hm hlook hw hist
  have hi : ∃ r, Issues cfg pr.op vs r := by
    cases hm with
    | last _ _ h _ => obtain ⟨_, _, _, _, _, ⟨r, _, _, _, _, _, _, hi, _⟩, _⟩ := h; exact ⟨r, hi⟩
    | more _ _ _ _ h _ _ => obtain ⟨_, _, _, _, _, ⟨r, _, _, _, _, _, _, hi, _⟩, _⟩ := h; exact ⟨r, hi⟩
  obtain ⟨r, hi⟩ := hi
  obtain ⟨hnd, hlen, -⟩ := bindArgs_some hi.choose_spec.choose_spec.2.1
  obtain ⟨htn, -⟩ := tokenNamed_of_document h hd hp hpg hnd
  obtain ⟨fa, la⟩ := a
  obtain ⟨rfl, hla⟩ := positional_values htn
    (fun p v hpv hn => hfirst p v hpv ((htn p (List.of_mem_zip hpv).1).mpr hn)) hlen ha
  have hla' : la = fun t => List.zipWith (laterValue t) pr.op.params fa := funext hla
  subst hla'
  obtain ⟨k, ⟨tr, st, h'⟩, h1, -, h2, rfl, h3⟩ := stream_ends (B := Unit) (.positional _ _) hf (whole_last.mp (pageChain_whole hm))
  exact ⟨k, tr, st, evs, h1, by rw [h2, elements_pages], hs, h3⟩

/-- C94: so does the stream of the builder. -/
theorem C94_stream_partial [JsonLib] (h : Lawful u) (hd : PropsDistinct types)
    (hp : processOperation (Names.sanitize u .snake) types path method d = .ok pr) {pd : Pagination} (hpg : pr.paginated = some pd)
    (hc : methodSigBody pr.op = .ok c)
    {enc : Char → Str} {cfg : Config} {ms : List Mocked} {vs : List Value} {decode : TypeId → Bytes → Except P V}
    {pageOf : V → Page I} {pages : List (Page I)} (hm : PageChain (PagePrepared u enc cfg pr.op ms decode pageOf vs) none pages)
    {hooks : Hooks} {w : World} (hlook : LooksOn hooks w) (hw : MockServer enc cfg.baseurl ms w) (hist : List Event)
    {tt : TypeTable B} {calls : List (Builder.Call B)} {s : State B} (hb : builderStream tt types pr.op.params calls = some s)
    (hv : Forall₂ (fun p v => Outcome tt p (inputsFor calls p.name) (.ok v)) pr.op.params vs) :
    ∃ k tr st evs, runFor bldStep (answerOf pageOf fun h q => send cfg hooks w decode tt c h q) k (bldInit s) hist =
        some (tr, st, hist ++ evs) ∧
      yields tr = (pages.flatMap Page.items).map .ok ∧ sends evs = pages.length ∧ .ended ∈ tr := by
  obtain ⟨evs, hf, hs⟩ := C94_followed_partial hp hc hm hlook hw hist
  have hi : ∃ r, Issues cfg pr.op vs r := by
    cases hm with
    | last _ _ h _ => obtain ⟨_, _, _, _, _, ⟨r, _, _, _, _, _, _, hi, _⟩, _⟩ := h; exact ⟨r, hi⟩
    | more _ _ _ _ h _ _ => obtain ⟨_, _, _, _, _, ⟨r, _, _, _, _, _, _, hi, _⟩, _⟩ := h; exact ⟨r, hi⟩
  obtain ⟨r, hi⟩ := hi
  obtain ⟨hnd, -⟩ := bindArgs_some hi.choose_spec.choose_spec.2.1
  obtain ⟨htn, -⟩ := tokenNamed_of_document h hd hp hpg hnd
  have hf' := followed_congr (answer' := answerOf pageOf fun h q => send cfg hooks w decode tt c h q) (first' := s)
    (later' := fun t => withToken t (nextTemplate s))
    (fun h => answerOf_congr pageOf (C33_builder_args cfg hooks w decode tt types pr.op.params c h calls s hb htn vs hv).1.symm)
    (fun h t => answerOf_congr pageOf ((C33_builder_args cfg hooks w decode tt types pr.op.params c h calls s hb htn vs hv).2 t).symm) hf
  obtain ⟨k, ⟨tr, st, h'⟩, h1, -, h2, rfl, h3⟩ := stream_ends (B := B) (.builder s) hf' (whole_last.mp (pageChain_whole hm))
  exact ⟨k, tr, st, evs, h1, by rw [h2, elements_pages], hs, h3⟩

/-- C94: a list command reports the first items of the pages, as many as its limit says. -/
theorem C94_list_partial [JsonLib] {ct : CliTypes} (h : Lawful u) (hd : PropsDistinct types)
    (hp : processOperation (Names.sanitize u .snake) types path method d = .ok pr) {pd : Pagination} (hpg : pr.paginated = some pd)
    (hc : methodSigBody pr.op = .ok c)
    {enc : Char → Str} {cfg : Config} {ms : List Mocked} {vs : List Value} {decode : TypeId → Bytes → Except P V}
    {pageOf : V → Page I} {pages : List (Page I)} (hm : PageChain (PagePrepared u enc cfg pr.op ms decode pageOf vs) none pages)
    {hooks : Hooks} {w : World} (hlook : LooksOn hooks w) (hw : MockServer enc cfg.baseurl ms w) (hist : List Event)
    {args : Args} {s e : Resp.Kind} (hcm : cliMethod u ct pr.paginated pr.op = .ok (args, s, e)) (hn : Named u pr.op.params)
    {set : Str → Arg → B → B} {tt : TypeTable B} (hst : structOk tt pr.op.params true = true)
    (hbs : builderStreamOk types pr.op.params = true) (hcc : cliCompiles ct tt pr.op.params args = true)
    (hlaw : ∀ p ∈ pr.op.params, ∀ tb, HasBuilder tt p tb → ∀ a, tb.finish (tb.ofValue a) = .ok a)
    (hek : (∃ t, e = .type t) ∨ e = .none)
    (hlim : ∀ p ∈ pr.op.params, p.apiName = "limit".toList → ∀ t, p.typ = .type t → ct.nonZeroU32 t ≠ none)
    {ps : Parsers} {ws : List Str} {line : Line} (hmatch : matchesOf ps args (Cli.bodyType pr.op.params) ws = .ok line)
    (hj : line.json ≠ some none) (hv : Forall₂ (LineArg u tt set pr.paginated args line) pr.op.params vs) (max : Nat) :
    ∃ n k tr hist' o, LimitOf ct pr.op.params max line n ∧
      runList ps noOverride cfg hooks w decode pageOf max ct tt types set pr.op.params c (args, s, e) k hist ws =
        .ok (some (tr, .returned o, hist')) ∧ Told (((pages.flatMap Page.items).take n).map .ok) (yields tr) o := by
  obtain ⟨evs, hf, hs⟩ := C94_followed_partial hp hc hm hlook hw hist
  obtain ⟨n, st, h1, h2, h3⟩ := list_running (P := P) (V := V) (I := I) h hd hp hpg hcm hn hst hbs hcc hlaw hlim hmatch hj hv max
  have hf' := followed_congr (answer' := answerOf pageOf fun h q => send cfg hooks w decode tt c h q) (first' := st)
    (later' := fun t => withToken t (nextTemplate st)) (fun h => answerOf_congr pageOf (h2 cfg hooks w decode c h).1.symm)
    (fun h t => answerOf_congr pageOf ((h2 cfg hooks w decode c h).2 t).symm) hf
  obtain ⟨k, tr, hist', o, h4, h5⟩ := list_told (B := B) (.builder st) hf' (.inl (whole_last.mp (pageChain_whole hm)))
  refine ⟨n, k, tr, hist', o, h1, ?_, by rw [List.map_take, ← elements_pages]; exact h5⟩
  rw [h3, reportable_of hek]
  unfold reportList
  rw [h4]
  rfl

end

/-! ## Examples -/

namespace MockedListExample

/-- The request for the first or second page of `walkOp`. -/
def pageReq (q : String) : Request where
  method := .get
  url := "http://h/v1/x".toList
  query := some q.toList
  headers := [(Hdr.accept, utf8 Mime.json), (Hdr.apiVersion, utf8 "1.0".toList)]
  body := none

def firstFilter : List (Param × Value) := [(⟨"page_token".toList, "page_token".toList, .type 14, .query false⟩, .opt none)]

def secondFilter : List (Param × Value) := [(⟨"page_token".toList, "page_token".toList, .type 14, .query false⟩, .opt (some ⟨"a".toList, .str "a".toList⟩))]

def jsonAnswer (b : Bytes) : HttpResponse := ⟨200, [("content-type".toList, utf8 "application/json".toList)], .ok b, .ok 0⟩

theorem pageMockable [JsonLib] (vs : List Value) (q : String) (fs : List (Param × Value))
    (hvs : vs = walkValues ∨ vs = pageValues walkOp.params walkValues (some "a".toList)) (hfs : fs = firstFilter ∨ fs = secondFilter ∨ fs = []) :
    Mockable exEnc exCfg walkOp vs (pageReq q) fs where
  encoder := exEnc_ok
  safe := by
    intro s hs c hc
    simp only [walkOp, List.mem_cons, Template.Component.const.injEq, reduceCtorEq, List.not_mem_nil, or_false] at hs
    subst hs
    revert c
    decide
  plain := by
    intro s hs c hc
    simp only [walkOp, List.mem_cons, Template.Component.const.injEq, reduceCtorEq, List.not_mem_nil, or_false] at hs
    subst hs
    revert c
    decide
  start := ⟨_, _, rfl⟩
  base := by decide
  normal := by
    intro tail h
    have : tail = "/v1/x".toList := (List.append_cancel_left (as := exCfg.baseurl) (by rw [← h]; show "http://h".toList ++ _ = "http://h/v1/x".toList; decide)).symm
    subst this
    exact ⟨by decide, by decide⟩
  expressible := by
    intro p v h
    rcases hfs with rfl | rfl | rfl <;> first | cases h; done | (cases List.mem_singleton.mp h; rfl)
  known := by
    intro p v h
    rcases hfs with rfl | rfl | rfl <;> first | cases h; done | (cases List.mem_singleton.mp h; simp [walkOp])
  given := by
    intro p a h hk
    rcases hfs with rfl | rfl | rfl <;> first | cases h; done | cases List.mem_singleton.mp h
  queries := by
    intro p v b h hk
    rcases hvs with rfl | rfl
    · simp only [walkOp, walkValues, List.zip_cons_cons, List.zip_nil_right, List.mem_cons, List.not_mem_nil, or_false, Prod.mk.injEq] at h
      rcases h with ⟨rfl, rfl⟩ | ⟨rfl, rfl⟩ | ⟨rfl, rfl⟩
      · cases hk
      · exact .str _
      · trivial
    · simp only [pageValues, walkOp, walkValues, List.zipWith_cons_cons, List.zipWith_nil_right, List.zip_cons_cons, List.zip_nil_right, List.mem_cons, List.not_mem_nil, or_false, Prod.mk.injEq] at h
      rcases h with ⟨rfl, rfl⟩ | ⟨rfl, rfl⟩ | ⟨rfl, rfl⟩
      · cases hk
      · exact show Scalar (.str "2".toList) "2".toList from .str _
      · exact show Scalar (.str "a".toList) "a".toList from .str _
  unique := by
    intro p p' hp hp' hn hk
    simp only [walkOp, List.mem_cons, List.not_mem_nil, or_false] at hp hp'
    rcases hp with rfl | rfl | rfl <;> rcases hp' with rfl | rfl | rfl <;> first | rfl | (revert hn; decide)

end MockedListExample

open MockedListExample

/-- Two mocks, one for each page: the stream gives the items of both. -/
theorem MockedListExample.prepared [JsonLib] : ∃ w1 w2, whenAll walkOp firstFilter = .when w1 ∧ whenAll walkOp secondFilter = .when w2 ∧
    PageChain (PagePrepared exUnicode exEnc exCfg walkOp [⟨w1, jsonAnswer []⟩, ⟨w2, jsonAnswer [0]⟩] pageLength walkPage walkValues) none
      [walkPage 0, walkPage 1] := by
  obtain ⟨w1, h1, hm1⟩ := whenAll_spec walkOp firstFilter (pageMockable walkValues "" _ (.inl rfl) (.inl rfl)).plain
    (pageMockable walkValues "" _ (.inl rfl) (.inl rfl)).expressible
  obtain ⟨w2, h2, hm2⟩ := whenAll_spec walkOp secondFilter (pageMockable walkValues "" _ (.inl rfl) (.inr (.inl rfl))).plain
    (pageMockable walkValues "" _ (.inl rfl) (.inr (.inl rfl))).expressible
  have t1 : ∀ s, w1.Matches s → ∀ x, (utf8 "page_token".toList, x) ∉ s.query := fun s h =>
    ((hm1 s).mp h).2 _ _ List.mem_cons_self
  have t2 : ∀ s, w2.Matches s → (utf8 "page_token".toList, utf8 "a".toList) ∈ s.query := fun s h =>
    ((hm2 s).mp h).2 _ _ List.mem_cons_self
  refine ⟨w1, w2, h1, h2, .more none _ "a".toList _ ?_ rfl (.last _ _ ?_ rfl)⟩
  · refine ⟨⟨.code 200, .type 10⟩, jsonAnswer [], 10, [], 0,
      ⟨pageReq "limit=2", firstFilter, w1, ⟨"ok".toList, .fixed 200, true⟩, 0, [], (200, _), ⟨_, _, rfl, rfl, rfl⟩,
        pageMockable _ _ _ (.inl rfl) (.inl rfl), ?_, h1, by simp [walkOp], by simp, by decide +kernel, rfl, by simp, by simp,
        ⟨rfl, fun _ h => h, rfl⟩, List.mem_cons_self, ?_⟩, rfl, by decide, by decide, rfl, rfl, rfl⟩
    · intro p v h
      cases List.mem_singleton.mp h
      exact ⟨.opt none, by simp [walkOp, pageValues, walkValues], .same _ (by simp)⟩
    · rintro o ho hne s ⟨tail, -, -, -, hq, -⟩ hm
      simp only [List.mem_cons, List.not_mem_nil, or_false] at ho
      rcases ho with rfl | rfl
      · exact hne rfl
      · have := t2 s hm
        rw [hq] at this
        revert this
        decide +kernel
  · refine ⟨⟨.code 200, .type 10⟩, jsonAnswer [0], 10, [0], 1,
      ⟨pageReq "limit=2&page_token=a", secondFilter, w2, ⟨"ok".toList, .fixed 200, true⟩, 0, [0], (200, _), ⟨_, _, rfl, rfl, rfl⟩,
        pageMockable _ _ _ (.inr rfl) (.inr (.inl rfl)), ?_, h2, by simp [walkOp], by simp, by decide +kernel, rfl, by simp, by simp,
        ⟨rfl, fun _ h => h, rfl⟩, List.mem_cons_of_mem _ List.mem_cons_self, ?_⟩, rfl, by decide, by decide, rfl, rfl, rfl⟩
    · intro p v h
      cases List.mem_singleton.mp h
      exact ⟨.opt (some ⟨"a".toList, .str "a".toList⟩), List.mem_cons_of_mem _ (List.mem_cons_of_mem _ List.mem_cons_self), .same _ (by simp)⟩
    · rintro o ho hne s ⟨tail, -, -, -, hq, -⟩ hm
      simp only [List.mem_cons, List.not_mem_nil, or_false] at ho
      rcases ho with rfl | rfl
      · have := t1 s hm (utf8 "a".toList)
        rw [hq] at this
        revert this
        decide +kernel
      · exact hne rfl

/-- What a mock server with these mocks answers. -/
noncomputable def MockedListExample.mockWorld [JsonLib] (enc : Char → Str) (auth : Str) (ms : List Mocked) : World where
  preAsync _ r := .ok r
  server _ r := open Classical in
    if h : ∃ m ∈ ms, ∃ s, ServerSees enc auth r s ∧ m.when.Matches s then .ok h.choose.answer else .ok ⟨404, [], .ok [], .ok 0⟩
  postAsync _ _ := .ok ()

theorem MockedListExample.mockWorld_server [JsonLib] (enc : Char → Str) (auth : Str) (ms : List Mocked) :
    MockServer enc auth ms (mockWorld enc auth ms) := by
  intro hist r s hs
  by_cases h : ∃ m ∈ ms, ∃ s, ServerSees enc auth r s ∧ m.when.Matches s
  · obtain ⟨s', hs', h2⟩ := h.choose_spec.2
    cases sees_unique hs hs'
    exact ⟨_, dif_pos h, .hit _ h.choose_spec.1 h2⟩
  · exact ⟨_, dif_neg h, .miss _ (fun m hm hmm => h ⟨m, hm, s, hs, hmm⟩) rfl⟩

/- The words `--id x --limit=2`, and the streams, against the mocks of `prepared`. -/
example [JsonLib] {c} (hc : methodSigBody walkOp = .ok c) (hist : List Event) {ms : List Mocked}
    (h : PageChain (PagePrepared exUnicode exEnc exCfg walkOp ms pageLength walkPage walkValues) none [walkPage 0, walkPage 1]) :=
  C94_list_partial (set := fun _ _ b => b) (tt := walkTable) (hooks := ⟨true, true, true, true⟩) exUnicode_lawful pageTypes_distinct
    walkProcessed rfl hc h ⟨fun _ _ _ => rfl, fun _ _ _ => rfl⟩ (mockWorld_server exEnc exCfg.baseurl ms) hist walkMethod walkNamed
    (by decide +kernel) (by decide +kernel) (by decide +kernel) (by rintro p hp tb ⟨t, ct, h1, h2, h3⟩; cases h3) (.inr rfl)
    (by intro p _ _ t _ h; cases h) walkMatches (by intro h; cases h) walkLineArgs 1000

example [JsonLib] {c} (hc : methodSigBody walkOp = .ok c) (hist : List Event) {ms : List Mocked}
    (h : PageChain (PagePrepared exUnicode exEnc exCfg walkOp ms pageLength walkPage walkValues) none [walkPage 0, walkPage 1]) :
    ∃ a, positionalArgs pageTypes walkOp.params (streamArgs walkOp.params walkValues) = some a ∧ ∃ k tr st evs,
      runFor (posStep a) (answerOf walkPage fun h q => call exCfg ⟨true, true, true, true⟩ (mockWorld exEnc exCfg.baseurl ms) pageLength
        walkOp.params c h q) k (posInit a) hist = some (tr, st, hist ++ evs) ∧ yields tr = [.ok 1, .ok 2, .ok 3] ∧ sends evs = 2 ∧
      .ended ∈ tr := by
  obtain ⟨a, ha⟩ : ∃ a, positionalArgs pageTypes walkOp.params (streamArgs walkOp.params walkValues) = some a := ⟨_, rfl⟩
  exact ⟨a, ha, C94_positional_partial (hooks := ⟨true, true, true, true⟩) exUnicode_lawful pageTypes_distinct walkProcessed rfl hc h
    ⟨fun _ _ _ => rfl, fun _ _ _ => rfl⟩ (mockWorld_server exEnc exCfg.baseurl ms) hist
    (by
      intro p v h hn
      simp only [walkOp, walkValues, List.zip_cons_cons, List.zip_nil_right, List.mem_cons, List.not_mem_nil, or_false, Prod.mk.injEq] at h
      rcases h with ⟨rfl, rfl⟩ | ⟨rfl, rfl⟩ | ⟨rfl, rfl⟩
      · exact absurd hn (by decide)
      · exact absurd hn (by decide)
      · rfl) ha⟩

/-- C94: one mock that says nothing of the token answers every request for a page. If its page has a token, then there are any number of
pages: the filter on the token, or its absence, is needed. -/
theorem C94_token_fails [JsonLib] {c} (hc : methodSigBody walkOp = .ok c) (hooks : Hooks) : ∃ wh, whenAll walkOp [] = .when wh ∧
    ∀ w, LooksOn hooks w → MockServer exEnc exCfg.baseurl [⟨wh, jsonAnswer []⟩] w → ∀ n hist, ∃ hist',
      Followed (answerOf walkPage fun h q => call exCfg hooks w pageLength walkOp.params c h q) walkValues
        (fun t => List.zipWith (laterValue t) walkOp.params walkValues) hist (List.replicate n (.ok (walkPage 0))) hist' := by
  obtain ⟨w1, h1, -⟩ := whenAll_spec walkOp [] (pageMockable walkValues "" _ (.inl rfl) (.inl rfl)).plain (by intro p v h; cases h)
  have hpr : ∀ t, t = none ∨ t = some "a".toList →
      PagePrepared exUnicode exEnc exCfg walkOp [⟨w1, jsonAnswer []⟩] pageLength walkPage walkValues t (walkPage 0) := by
    rintro t (rfl | rfl)
    · exact ⟨⟨.code 200, .type 10⟩, jsonAnswer [], 10, [], 0,
        ⟨pageReq "limit=2", [], w1, ⟨"ok".toList, .fixed 200, true⟩, 0, [], (200, _), ⟨_, _, rfl, rfl, rfl⟩,
          pageMockable _ _ _ (.inl rfl) (.inr (.inr rfl)), (by intro p v h; cases h), h1, by simp [walkOp], by simp, by decide +kernel, rfl, by simp, by simp,
          ⟨rfl, fun _ h => h, rfl⟩, List.mem_cons_self, fun o ho hne => (hne (List.mem_singleton.mp ho)).elim⟩, rfl, by decide, by decide, rfl, rfl, rfl⟩
    · exact ⟨⟨.code 200, .type 10⟩, jsonAnswer [], 10, [], 0,
        ⟨pageReq "limit=2&page_token=a", [], w1, ⟨"ok".toList, .fixed 200, true⟩, 0, [], (200, _), ⟨_, _, rfl, rfl, rfl⟩,
          pageMockable _ _ _ (.inr rfl) (.inr (.inr rfl)), (by intro p v h; cases h), h1, by simp [walkOp], by simp, by decide +kernel, rfl, by simp, by simp,
          ⟨rfl, fun _ h => h, rfl⟩, List.mem_cons_self, fun o ho hne => (hne (List.mem_singleton.mp ho)).elim⟩, rfl, by decide, by decide, rfl, rfl, rfl⟩
  refine ⟨w1, h1, fun w hlook hw n hist => ?_⟩
  induction n with
  | zero => exact ⟨hist, .none⟩
  | succ n ih =>
    obtain ⟨hist', ih⟩ := ih
    rw [List.replicate_succ']
    have hq : ∃ t, (t = none ∨ t = some "a".toList) ∧ nextCall walkValues (fun t => List.zipWith (laterValue t) walkOp.params walkValues)
        (List.replicate n (.ok (walkPage 0) : Answer (Error Unit (Resp.Inner Nat)) Nat)) = some (pageValues walkOp.params walkValues t) := by
      cases n with
      | zero => exact ⟨none, .inl rfl, rfl⟩
      | succ n => exact ⟨some "a".toList, .inr rfl, by rw [List.replicate_succ']; simp [nextCall, walkPage, pageValues]⟩
    obtain ⟨t, ht, hn⟩ := hq
    obtain ⟨evs, h2, -⟩ := page_mocked walkProcessed hc (hpr t ht) hlook hw hist'
    exact ⟨_, .next _ _ _ _ _ ih hn h2⟩

end Progenitor.Props

import Verif.Props.TypedPages
import Verif.Props.TypedBuilder

/-!
# C105: the requests of streams and list commands follow the schemas of the document
-/

namespace Progenitor.Props

open Progenitor Progenitor.Params Progenitor.Refs Progenitor.Resp Progenitor.Names Progenitor.Builder Progenitor.Exec
  Progenitor.Schema Progenitor.RefDoc Progenitor.Spec Progenitor.Typed Progenitor.Client Progenitor.Query Progenitor.Stream Progenitor.Cli

section

variable {Q E I B H σ : Type} {step : σ → Progenitor.Stream.Step Q (Answer E I) (Except E I) σ} {init : σ} {first : Q} {later : Str → Q}
  {answer : H → Q → Option (Answer E I × H)} {h0 : H}

/-- The calls of a stream follow the tokens. -/
theorem stream_followed (hst : PageStream B E I Q σ step init first later) :
    ∀ (k : Nat) {tr : List (Act Q (Answer E I) (Except E I))} {st : σ} {h : H} {r : List (Act Q (Answer E I) (Except E I)) × σ × H},
      Trace step init tr st → Followed answer first later h0 (answers tr) h →
      runFor step answer k st h = some r → Followed answer first later h0 (answers (tr ++ r.1)) r.2.2
  | 0, tr, st, h, r, ht, hf, hr => by
    cases hr
    simpa using hf
  | k + 1, tr, st, h, r, ht, hf, hr => by
    unfold runFor at hr
    split at hr
    · rename_i s' hs
      exact stream_followed hst k (.tau _ _ _ ht hs) hf hr
    · rename_i x s' hs
      obtain ⟨r', hr', rfl⟩ := Option.map_eq_some_iff.mp hr
      have := stream_followed hst k (.emit _ _ _ _ ht hs) (by simpa [answers] using hf) hr'
      simpa using this
    · rename_i s' hs
      obtain ⟨r', hr', rfl⟩ := Option.map_eq_some_iff.mp hr
      have := stream_followed hst k (.done _ _ _ ht hs) (by simpa [answers] using hf) hr'
      simpa using this
    · rename_i q f hs
      split at hr
      · cases hr
      · rename_i a h' ha
        obtain ⟨r', hr', rfl⟩ := Option.map_eq_some_iff.mp hr
        have ht' := Trace.ask _ _ _ _ a ht hs
        have hq := C33_calls hst ht' tr [] q a rfl
        have := stream_followed hst k ht' (by
          rw [acts_answers]
          exact .next _ _ _ _ _ hf hq ha) hr'
        simpa using this

end

section

variable {σ : Type} {lib : Library σ} {u : Unicode}

/-- C105, guarded: the requests of the stream of the positional interface, however far it is read. -/
theorem C105_positional_partial {B : Type} {ι : Interp} {accepts : σ → Params.TypeId → Json → Prop} (hu : Lawful u)
    (ha : RightTypes lib ι accepts) (hopt : RightOptions lib accepts) {n : Nat} {tt : σ → TypeTable B} {i : Doc.Interface} {t : Doc.TagStyle}
    {d : SDocument} {s0 s1 : σ} {ms : List Processed} {cs : List Code}
    (h : Typed.generate lib n u tt i t d s0 = some (.ok ((ms, cs), s1))) (hd : PropsDistinct (lib.info s1)) :
    Forall₂ (fun (o : Str × Str × SRaw) (pc : Processed × Code) =>
      ∀ (keys : Str → List Str) (cfg : Config) (auth : Str) (base : List Str) (segs : List Seg) (pl ol : List SParam) (P V I : Type)
        (hooks : Hooks) (w : World) (decode : Params.TypeId → Bytes → Except P V) (pageOf : V → Page I) (vs : List Value)
        (a : List Value × (Str → List Value)) (k : Nat) (hist : List Event) tr st hist',
        o.1 = segsText segs → SegsOk segs → segs ≠ [] →
        Forall₂ (LeadsTo d.components SSections.parameters) o.2.2.op.pathLevel pl →
        Forall₂ (LeadsTo d.components SSections.parameters) o.2.2.op.opLevel ol → SWireReady pl ol →
        BaseUrl cfg auth base → pc.1.paginated ≠ none → "page_token".toList ∈ keys "page_token".toList →
        Recoverable keys segs pc.1.op.params vs → ValuesTyped (accepts s1) pc.1.op.params vs → Keeps hooks w →
        pc.1.op.params.length = vs.length →
        (∀ p v, (p, v) ∈ pc.1.op.params.zip vs → p.apiName = "page_token".toList → v = .opt none) →
        positionalArgs (lib.info s1) pc.1.op.params (streamArgs pc.1.op.params vs) = some a →
        runFor (posStep a) (answerOf pageOf fun h q => call cfg hooks w decode pc.1.op.params pc.2 h q) k (posInit a) hist =
          some (tr, st, hist') →
        TokensTyped (accepts s1) pc.1.op.params (answers tr) →
        PagesArrive ι keys auth base segs pl ol pc.1.op.params vs (answers tr) hist hist')
      (schemaRoutes d) (ms.zip cs) := by
  refine forall₂_imp_mem ?_ (forall₂_both (C105_pages_partial hu ha hopt h hd) (made_processed ha.lawful h))
  rintro o - pc ⟨hpc, path, method, d', hp⟩
  intro keys cfg auth base segs pl ol P V I hooks w decode pageOf vs a k hist tr st hist' hpath hl hne hpl hol hw hbase hpg hkey hrec hval hk
    hlen hfirst hargs hrun htok
  obtain ⟨fa, la⟩ := a
  obtain ⟨pd, hpd⟩ := Option.ne_none_iff_exists'.mp hpg
  have hnd := (bindArgs_some (positionalArgs_inv hargs).2.2.1).1
  obtain ⟨htn, -⟩ := tokenNamed_of_document hu hd hp hpd hnd
  obtain ⟨rfl, hla⟩ := positional_values htn
    (fun p v hpv hn => hfirst p v hpv ((htn p (List.of_mem_zip hpv).1).mpr hn)) hlen hargs
  have hla' : la = fun t => List.zipWith (laterValue t) pc.1.op.params fa := funext hla
  subst hla'
  have hf := stream_followed (B := Unit) (.positional _ _) k .start .none hrun
  rw [List.nil_append] at hf
  exact hpc keys cfg auth base segs pl ol P V I hooks w decode pageOf fa hist hist' (answers tr) hpath hl hne hpl hol hw hbase hpg hkey hrec
    hval hk hf htok

/-- C105, guarded: the requests of the stream of a builder. -/
theorem C105_builder_partial {B : Type} {ι : Interp} {accepts : σ → Params.TypeId → Json → Prop} (hu : Lawful u)
    (ha : RightTypes lib ι accepts) (hopt : RightOptions lib accepts) {n : Nat} {tt : σ → TypeTable B} {i : Doc.Interface} {t : Doc.TagStyle}
    {d : SDocument} {s0 s1 : σ} {ms : List Processed} {cs : List Code}
    (h : Typed.generate lib n u tt i t d s0 = some (.ok ((ms, cs), s1))) (hd : PropsDistinct (lib.info s1)) :
    Forall₂ (fun (o : Str × Str × SRaw) (pc : Processed × Code) =>
      ∀ (keys : Str → List Str) (cfg : Config) (auth : Str) (base : List Str) (segs : List Seg) (pl ol : List SParam) (P V I : Type)
        (hooks : Hooks) (w : World) (decode : Params.TypeId → Bytes → Except P V) (pageOf : V → Page I) (vs : List Value)
        (calls : List (Call B)) (b : State B) (k : Nat) (hist : List Event) tr st hist',
        o.1 = segsText segs → SegsOk segs → segs ≠ [] →
        Forall₂ (LeadsTo d.components SSections.parameters) o.2.2.op.pathLevel pl →
        Forall₂ (LeadsTo d.components SSections.parameters) o.2.2.op.opLevel ol → SWireReady pl ol →
        BaseUrl cfg auth base → pc.1.paginated ≠ none → "page_token".toList ∈ keys "page_token".toList →
        builderStream (tt s1) (lib.info s1) pc.1.op.params calls = some b → ValuesSet (tt s1) pc.1.op.params calls vs →
        SettersTyped (tt s1) (accepts s1) pc.1.op.params calls →
        Recoverable keys segs pc.1.op.params vs → Keeps hooks w →
        runFor bldStep (answerOf pageOf fun h q => send cfg hooks w decode (tt s1) pc.2 h q) k (bldInit b) hist = some (tr, st, hist') →
        TokensTyped (accepts s1) pc.1.op.params (answers tr) →
        PagesArrive ι keys auth base segs pl ol pc.1.op.params vs (answers tr) hist hist')
      (schemaRoutes d) (ms.zip cs) := by
  refine forall₂_imp_mem ?_ (forall₂_both (C105_pages_partial hu ha hopt h hd) (made_processed ha.lawful h))
  rintro o - pc ⟨hpc, path, method, d', hp⟩
  intro keys cfg auth base segs pl ol P V I hooks w decode pageOf vs calls b k hist tr st hist' hpath hl hne hpl hol hw hbase hpg hkey hb hvs
    hset hrec hk hrun htok
  obtain ⟨pd, hpd⟩ := Option.ne_none_iff_exists'.mp hpg
  have hnd := structOk_nodup (builderStream_inv hb).1
  obtain ⟨htn, -⟩ := tokenNamed_of_document hu hd hp hpd hnd
  have hf := stream_followed (B := B) (.builder b) k .start .none hrun
  rw [List.nil_append] at hf
  refine hpc keys cfg auth base segs pl ol P V I hooks w decode pageOf vs hist hist' (answers tr) hpath hl hne hpl hol hw hbase hpg hkey hrec
    (values_typed hvs hset) hk (followed_congr (fun h => ?_) (fun h t => ?_) hf) htok
  · exact answerOf_congr pageOf (C33_builder_args cfg hooks w decode (tt s1) (lib.info s1) pc.1.op.params pc.2 h calls b hb htn vs hvs).1
  · exact answerOf_congr pageOf ((C33_builder_args cfg hooks w decode (tt s1) (lib.info s1) pc.1.op.params pc.2 h calls b hb htn vs hvs).2 t)

/-- C105, guarded: the requests of a list command given as text, however long it runs. -/
theorem C105_command_partial {B : Type} {ι : Interp} {accepts : σ → Params.TypeId → Json → Prop} (hu : Lawful u)
    (ha : RightTypes lib ι accepts) (hopt : RightOptions lib accepts) {n : Nat} {tt : σ → TypeTable B} {i : Doc.Interface} {t : Doc.TagStyle}
    {d : SDocument} {s0 s1 : σ} {ms : List Processed} {cs : List Code}
    (h : Typed.generate lib n u tt i t d s0 = some (.ok ((ms, cs), s1))) (hd : PropsDistinct (lib.info s1)) :
    Forall₂ (fun (o : Str × Str × SRaw) (pc : Processed × Code) =>
      ∀ (keys : Str → List Str) (cfg : Config) (auth : Str) (base : List Str) (segs : List Seg) (pl ol : List SParam) (P V I : Type)
        (hooks : Hooks) (w : World) (decode : Params.TypeId → Bytes → Except P V) (pageOf : V → Page I) (vs : List Value)
        (ct : CliTypes) (set : Str → Arg → B → B) (ps : Parsers) (args : Args) (s e : Resp.Kind) (ws : List Str) (line : Line) (max k : Nat)
        (hist : List Event) tr st hist',
        o.1 = segsText segs → SegsOk segs → segs ≠ [] →
        Forall₂ (LeadsTo d.components SSections.parameters) o.2.2.op.pathLevel pl →
        Forall₂ (LeadsTo d.components SSections.parameters) o.2.2.op.opLevel ol → SWireReady pl ol →
        BaseUrl cfg auth base → pc.1.paginated ≠ none → "page_token".toList ∈ keys "page_token".toList →
        cliMethod u ct pc.1.paginated pc.1.op = .ok (args, s, e) → Named u pc.1.op.params →
        structOk (tt s1) pc.1.op.params true = true → builderStreamOk (lib.info s1) pc.1.op.params = true →
        cliCompiles ct (tt s1) pc.1.op.params args = true →
        (∀ p ∈ pc.1.op.params, ∀ tb, HasBuilder (tt s1) p tb → ∀ a, tb.finish (tb.ofValue a) = .ok a) →
        ((∃ t, e = .type t) ∨ e = .none) →
        (∀ p ∈ pc.1.op.params, p.apiName = "limit".toList → ∀ t, p.typ = .type t → ct.nonZeroU32 t ≠ none) →
        matchesOf ps args (Cli.bodyType pc.1.op.params) ws = .ok line → line.json ≠ some none →
        Forall₂ (LineArg u (tt s1) set pc.1.paginated args line) pc.1.op.params vs →
        ReadersTyped ps (tt s1) (accepts s1) pc.1.op.params → Recoverable keys segs pc.1.op.params vs → Keeps hooks w →
        runList ps noOverride cfg hooks w decode pageOf max ct (tt s1) (lib.info s1) set pc.1.op.params pc.2 (args, s, e) k hist ws =
          .ok (some (tr, st, hist')) →
        TokensTyped (accepts s1) pc.1.op.params (answers tr) →
        PagesArrive ι keys auth base segs pl ol pc.1.op.params vs (answers tr) hist hist')
      (schemaRoutes d) (ms.zip cs) := by
  refine forall₂_imp_mem ?_ (forall₂_both (C105_pages_partial hu ha hopt h hd) (made_processed ha.lawful h))
  rintro o - pc ⟨hpc, path, method, d', hp⟩
  intro keys cfg auth base segs pl ol P V I hooks w decode pageOf vs ct set ps args s e ws line max k hist tr st hist' hpath hl hne hpl hol hw
    hbase hpg hkey hm hn hst hbs hcc hlaw hek hlim hmatch hj hv hread hrec hk hrun htok
  obtain ⟨pd, hpd⟩ := Option.ne_none_iff_exists'.mp hpg
  have hargs : cliArgs u ct pc.1.paginated pc.1.op.params = .ok args := by
    obtain ⟨args', ha, hm'⟩ := bind_ok_inv hm
    obtain ⟨ks, -, hm'⟩ := bind_ok_inv hm'
    cases hm'
    exact ha
  obtain ⟨limit, -, hall⟩ := C81_list_partial (P := P) (V := V) (I := I) hu hd hp hpd hm hn hst hbs hcc hlaw hek hlim hmatch hj hv max
  obtain ⟨res, hres, hall⟩ := (hall cfg hooks w decode pageOf pc.2 hist).1 k
  rw [hrun] at hres
  cases hres
  obtain ⟨hf, -⟩ := hall _ rfl
  exact hpc keys cfg auth base segs pl ol P V I hooks w decode pageOf vs hist hist' (answers tr) hpath hl hne hpl hol hw hbase hpg hkey hrec
    (line_typed hn hargs hmatch hv hread) hk hf htok

end

/-! ## Examples -/

namespace StreamsExample

open StampExample PagesExample

def pagesMade (f : Processed → Code → List (JSchema × Str) → Bool) : Run ((List Processed × List Code) × List (JSchema × Str)) → Bool
  | some (.ok (([p], [c]), s1)) => f p c s1
  | _ => false

theorem pages_test {f : Processed → Code → List (JSchema × Str) → Bool} (ht : pagesMade f pagesRun = true) {p : Processed} {c : Code}
    {s1 : List (JSchema × Str)} (h : pagesRun = some (.ok (([p], [c]), s1))) : f p c s1 = true := by
  rw [h] at ht
  exact ht

theorem pagesSegs : SegsOk pagesPath := by simp [pagesPath, SegsOk]; decide

/-- The number of requests that the stream of the positional interface sends. -/
def positionalSends (p : Processed) (c : Code) (s1 : List (JSchema × Str)) : Bool :=
  match positionalArgs (paging.info s1) p.op.params (streamArgs p.op.params pagesArgs) with
  | none => false
  | some a => match runFor (posStep a) (pagesCall p c) 20 (posInit a) [] with
    | none => false
    | some r => sends r.2.2 = 2

/- What C105 says of the stream of the positional interface that reads two pages. -/
example (ι : Interp) : ∃ p c s1, pagesRun = some (.ok (([p], [c]), s1)) ∧ ∃ a tr st hist',
    runFor (posStep a) (pagesCall p c) 20 (posInit a) [] = some (tr, st, hist') ∧ sends hist' = 2 ∧
    PagesArrive ι ownKey "http://h".toList [] pagesPath [] [tokenParam, PagesExample.limitParam] p.op.params pagesArgs (answers tr) [] hist' := by
  obtain ⟨p, c, s1, h, hp, hpg, -⟩ := pages_made (by decide +kernel)
  obtain ⟨ht1, ht2⟩ := pages_typed (ι := ι) h hp
  have hrun := pages_test (f := positionalSends) (by decide +kernel) h
  unfold positionalSends at hrun
  split at hrun
  · cases hrun
  · rename_i a ha
    split at hrun
    · cases hrun
    · rename_i r hr
      obtain ⟨tr, st, hist'⟩ := r
      refine ⟨p, c, s1, h, a, tr, st, hist', hr, of_decide_eq_true hrun, ?_⟩
      have hall := C105_positional_partial exUnicode_lawful (paging_right ι) (paging_options ι) h (paging_distinct s1)
      cases hall with
      | cons hall _ =>
        exact hall ownKey exCfg "http://h".toList [] pagesPath [] [tokenParam, PagesExample.limitParam] Unit Nat Nat _ pagesWorld _ walkPage
          pagesArgs a 20 [] tr st hist' rfl pagesSegs (by simp [pagesPath]) .nil (.cons rfl (.cons rfl .nil)) pagesReady stampBase
          hpg (by simp [ownKey]) (by rw [hp]; exact pagesRecoverable) (by rw [hp]; exact pages_values ht1)
          (fun _ _ _ _ h => (Except.ok.inj h).symm) (by rw [hp]; rfl) (by
            rw [hp]
            intro q v hqv hn
            simp only [pagesParams, pagesArgs, List.zip_cons_cons, List.zip_nil_right, List.mem_cons, List.not_mem_nil, or_false,
              Prod.mk.injEq] at hqv
            rcases hqv with ⟨rfl, rfl⟩ | ⟨rfl, rfl⟩
            · exact absurd hn (by decide +kernel)
            · rfl) ha hr (by rw [hp]; exact pages_tokens ht2 _)

def pagesCalls : List (Builder.Call Unit) := [("limit".toList, .value (.ok ⟨"2".toList, .int 2⟩))]

theorem pagesSet : ValuesSet plainTable pagesParams pagesCalls pagesArgs := by
  have no : ∀ p ∈ pagesParams, ∀ tb, ¬ HasBuilder plainTable p tb := by
    intro p hp tb h
    obtain ⟨_, _, _, h, h'⟩ := h
    cases h'
  have h2 : inputsFor pagesCalls "page_token".toList = [] := by decide +kernel
  refine .cons ?_ (.cons ?_ .nil)
  · exact .givenOptional [] [] _ ⟨3, rfl, rfl, no _ (by simp [pagesParams])⟩ (.inl rfl)
  · rw [h2]
    exact .absent [] ⟨4, rfl, rfl, no _ (by simp [pagesParams])⟩ (.inl rfl)

theorem pagesSetters {ι : Interp} {s1 : List (JSchema × Str)} (h : pagingAccepts ι s1 3 (.num 2)) :
    SettersTyped plainTable (pagingAccepts ι s1) pagesParams pagesCalls := by
  refine ⟨?_, ?_, ?_⟩
  · intro q hq t a hty hm
    simp only [pagesCalls, List.mem_singleton, Prod.mk.injEq, Builder.Input.value.injEq, Except.ok.injEq] at hm
    obtain ⟨hn, rfl⟩ := hm
    simp only [pagesParams, List.mem_cons, List.not_mem_nil, or_false] at hq
    rcases hq with rfl | rfl
    · cases hty
      exact ⟨_, .int 2, h⟩
    · exact absurd hn (by decide +kernel)
  · intro q hq hk
    simp only [pagesParams, List.mem_cons, List.not_mem_nil, or_false] at hq
    rcases hq with rfl | rfl <;> rcases hk with hk | ⟨_, hk⟩ <;> cases hk
  · rintro q hq tb t b a ⟨_, _, _, _, h⟩
    cases h

/-- The calls of the builder. -/
def pagesSend (c : Code) := answerOf walkPage fun h q =>
  send exCfg ⟨true, false, false, false⟩ pagesWorld (fun _ b => (.ok b.length : Except Unit Nat)) plainTable c h q

def builderPages (p : Processed) (c : Code) (s1 : List (JSchema × Str)) : Bool :=
  match builderStream plainTable (paging.info s1) p.op.params pagesCalls with
  | none => false
  | some b => match runFor bldStep (pagesSend c) 20 (bldInit b) [] with
    | none => false
    | some r => sends r.2.2 = 2

/- And of the stream of the builder. -/
example (ι : Interp) : ∃ p c s1, pagesRun = some (.ok (([p], [c]), s1)) ∧ ∃ b tr st hist',
    builderStream plainTable (paging.info s1) p.op.params pagesCalls = some b ∧
    runFor bldStep (pagesSend c) 20 (bldInit b) [] = some (tr, st, hist') ∧ sends hist' = 2 ∧
    PagesArrive ι ownKey "http://h".toList [] pagesPath [] [tokenParam, PagesExample.limitParam] p.op.params pagesArgs (answers tr) [] hist' := by
  obtain ⟨p, c, s1, h, hp, hpg, -⟩ := pages_made (by decide +kernel)
  obtain ⟨ht1, ht2⟩ := pages_typed (ι := ι) h hp
  have hrun := pages_test (f := builderPages) (by decide +kernel) h
  unfold builderPages at hrun
  split at hrun
  · cases hrun
  · rename_i b hb
    split at hrun
    · cases hrun
    · rename_i r hr
      obtain ⟨tr, st, hist'⟩ := r
      refine ⟨p, c, s1, h, b, tr, st, hist', hb, hr, of_decide_eq_true hrun, ?_⟩
      have hall := C105_builder_partial exUnicode_lawful (paging_right ι) (paging_options ι) h (paging_distinct s1)
      cases hall with
      | cons hall _ =>
        exact hall ownKey exCfg "http://h".toList [] pagesPath [] [tokenParam, PagesExample.limitParam] Unit Nat Nat _ pagesWorld _ walkPage
          pagesArgs pagesCalls b 20 [] tr st hist' rfl pagesSegs (by simp [pagesPath]) .nil (.cons rfl (.cons rfl .nil)) pagesReady stampBase
          hpg (by simp [ownKey]) hb (by rw [hp]; exact pagesSet) (by rw [hp]; exact pagesSetters ht1) (by rw [hp]; exact pagesRecoverable)
          (fun _ _ _ _ h => (Except.ok.inj h).symm) hr (by rw [hp]; exact pages_tokens ht2 _)

/-- The only text that is read is that of the limit. -/
def readLimit : Parsers where
  simple := fun _ => none
  tryFrom := fun _ _ => none
  value := fun t s => if t = 3 ∧ s = "2".toList then some ⟨"2".toList, .int 2⟩ else none
  files := fun _ => none
  fromJson := fun _ _ => none

theorem readLimit_typed {ι : Interp} {s1 : List (JSchema × Str)} (h : pagingAccepts ι s1 3 (.num 2)) :
    ReadersTyped readLimit plainTable (pagingAccepts ι s1) pagesParams := by
  refine ⟨?_, ?_, fun _ _ _ h => (by cases h), ?_⟩
  · rintro t s a (⟨_, hs, -⟩ | ⟨-, hs⟩)
    · cases hs
    · simp only [readLimit] at hs
      split at hs
      · rename_i ht
        cases hs
        exact ⟨_, .int 2, ht.1 ▸ h⟩
      · cases hs
  · intro q hq hk
    simp only [pagesParams, List.mem_cons, List.not_mem_nil, or_false] at hq
    rcases hq with rfl | rfl <;> rcases hk with hk | ⟨_, hk⟩ <;> cases hk
  · rintro q hq tb t b a ⟨_, _, _, _, h⟩
    cases h

def pagesFlags : Args where
  flags := [("limit".toList, ⟨3, .optional, .param "limit".toList⟩)]
  body := .none

def pagesWords : List Str := ["--limit=2".toList]

def pagesGiven : List (Str × Cli.Given) := [("limit".toList, .value ⟨"2".toList, .int 2⟩)]

def pagesLine : Line := lineOf readLimit (Cli.bodyType pagesParams) pagesGiven

theorem pagesMatches : matchesOf readLimit pagesFlags (Cli.bodyType pagesParams) pagesWords = .ok pagesLine := by
  have h : readWords readLimit pagesFlags [] pagesWords = .ok pagesGiven := by
    refine (readWords_iff _ _ _ _).mpr ⟨[("limit".toList, some "2".toList)], ?_, ?_, by decide⟩
    · exact .attached "limit".toList "2".toList (by decide) .nil
    · exact .cons ⟨rfl, .typed 3, by decide +kernel, by decide, rfl⟩ .nil
  unfold matchesOf
  rw [h]
  simp only [Clap.bind]
  rw [if_pos (by decide +kernel)]
  rfl

theorem pagesNamed : Named exUnicode pagesParams := by
  refine ⟨by decide +kernel, by decide +kernel, ?_⟩
  rintro p hp ⟨c, hc⟩
  simp only [pagesParams, List.mem_cons, List.not_mem_nil, or_false] at hp
  rcases hp with rfl | rfl <;> cases hc

theorem pagesLineArgs (item : Pagination) :
    Forall₂ (LineArg exUnicode plainTable (fun _ _ b => b) (some item) pagesFlags pagesLine) pagesParams pagesArgs := by
  have h1 : pagesLine.get (toKebab exUnicode "limit".toList) = some ⟨"2".toList, .int 2⟩ := by
    rw [show toKebab exUnicode "limit".toList = "limit".toList by decide +kernel]
    rfl
  exact .cons (.inl ⟨⟨by simp, fun h => absurd h.2 (by decide +kernel)⟩, .inl ⟨.inl rfl, by rw [h1]⟩⟩)
    (.cons (.inr (.inr ⟨by simp, by decide +kernel, .inl rfl, rfl⟩)) .nil)

def pagesCommand (p : Processed) (c : Code) (s1 : List (JSchema × Str)) (k : Nat) :=
  runList (B := Unit) readLimit noOverride exCfg ⟨true, false, false, false⟩ pagesWorld (fun _ b => (.ok b.length : Except Unit Nat)) walkPage
    1000 walkTypes plainTable (paging.info s1) (fun _ _ b => b) p.op.params c (pagesFlags, .type 5, .none) k [] pagesWords

def commandPages (p : Processed) (c : Code) (s1 : List (JSchema × Str)) : Bool :=
  decide (cliMethod exUnicode walkTypes p.paginated p.op = .ok (pagesFlags, .type 5, .none)) &&
  builderStreamOk (paging.info s1) p.op.params &&
  match pagesCommand p c s1 20 with
  | .ok (some r) => sends r.2.2 = 1
  | _ => false

/- And of a list command with `--limit=2`, for which the first page is enough. -/
example (ι : Interp) : ∃ p c s1, pagesRun = some (.ok (([p], [c]), s1)) ∧ ∃ tr st hist',
    pagesCommand p c s1 20 = .ok (some (tr, st, hist')) ∧ sends hist' = 1 ∧
    PagesArrive ι ownKey "http://h".toList [] pagesPath [] [tokenParam, PagesExample.limitParam] p.op.params pagesArgs (answers tr) [] hist' := by
  obtain ⟨p, c, s1, h, hp, hpg, -⟩ := pages_made (by decide +kernel)
  obtain ⟨ht1, ht2⟩ := pages_typed (ι := ι) h hp
  have hrun := pages_test (f := commandPages) (by decide +kernel) h
  unfold commandPages at hrun
  rw [Bool.and_eq_true, Bool.and_eq_true] at hrun
  obtain ⟨⟨hm, hbs⟩, hrun⟩ := hrun
  split at hrun
  · rename_i r hr
    obtain ⟨tr, st, hist'⟩ := r
    refine ⟨p, c, s1, h, tr, st, hist', hr, of_decide_eq_true hrun, ?_⟩
    have hall := C105_command_partial exUnicode_lawful (paging_right ι) (paging_options ι) h (paging_distinct s1)
    obtain ⟨item, hitem⟩ := Option.ne_none_iff_exists'.mp hpg
    cases hall with
    | cons hall _ =>
      exact hall ownKey exCfg "http://h".toList [] pagesPath [] [tokenParam, PagesExample.limitParam] Unit Nat Nat _ pagesWorld _ walkPage
        pagesArgs walkTypes _ readLimit pagesFlags _ _ pagesWords pagesLine 1000 20 [] tr st hist' rfl pagesSegs (by simp [pagesPath]) .nil
        (.cons rfl (.cons rfl .nil)) pagesReady stampBase hpg (by simp [ownKey]) (of_decide_eq_true hm) (by rw [hp]; exact pagesNamed)
        (by rw [hp]; decide +kernel) hbs (by rw [hp]; decide +kernel) (by rintro q hq tb ⟨_, _, _, _, h⟩; cases h) (.inr rfl)
        (by intro q _ _ t _ h; cases h) (by rw [hp]; exact pagesMatches) (by intro h; cases h)
        (by rw [hp, hitem]; exact pagesLineArgs item) (by rw [hp]; exact readLimit_typed ht1) (by rw [hp]; exact pagesRecoverable)
        (fun _ _ _ _ h => (Except.ok.inj h).symm) hr (by rw [hp]; exact pages_tokens ht2 _)
  · cases hrun

end StreamsExample

end Progenitor.Props

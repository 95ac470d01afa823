import Verif.Spec.TypedBuilder
import Verif.Props.TypedLine
import Verif.Props.Sent

/-!
# C104: builders send what the document asks for
-/

namespace Progenitor.Props

open Progenitor Progenitor.Params Progenitor.Refs Progenitor.Resp Progenitor.Names Progenitor.Builder Progenitor.Exec
  Progenitor.Schema Progenitor.RefDoc Progenitor.Spec Progenitor.Typed Progenitor.Client Progenitor.Query

/-- After the setter calls `calls`, sending the builder of an operation sends request `r`. -/
structure BuilderSends {B : Type} (tt : TypeTable B) (cfg : Config) (op : OperationMethod) (paginated : Bool) (c : Code)
    (calls : List (Call B)) (r : Request) : Prop where
  struct : structOk tt op.params paginated = true
  callsOk : ∀ c ∈ calls, CallOk tt op.params c
  sent : ∃ (P V : Type) (hooks : Hooks) (w : World) (decode : Params.TypeId → Bytes → Except P V) (hist evs : List Event), Keeps hooks w ∧
    (callBuilder cfg hooks w decode tt op.params paginated c hist calls).2 = hist ++ evs ∧ .send r ∈ evs

section

variable {B : Type} {tt : TypeTable B} {cfg : Config} {op : OperationMethod} {paginated : Bool} {c : Code} {calls : List (Call B)}
  {r : Request} {p : Param} {v : Value}

/-- The request is that of the positional method with the values that were set. -/
theorem BuilderSends.issues (h : BuilderSends tt cfg op paginated c calls r) (hc : methodSigBody op = .ok c) :
    ∃ vs, ValuesSet tt op.params calls vs ∧ Issues cfg op vs r := by
  obtain ⟨P, V, hooks, w, decode, hist, evs, hk, he, hr⟩ := h.sent
  rcases C101_builder cfg hooks w decode tt op.params paginated c hist calls h.struct h.callsOk with ⟨m, -, -, -, hm⟩ | ⟨vs, hvs, -, -, hm⟩
  · rw [hm] at he
    have : evs = [] := List.append_cancel_left (as := hist) (by simpa using he.symm)
    rw [this] at hr
    cases hr
  · rw [hm] at he
    exact ⟨vs, hvs, sent_issues (decode := decode) (hist := hist) hc hk he hr⟩

/-- Conversely, what the positional method would send with the values is sent. -/
theorem builder_sends {vs : List Value} (hs : structOk tt op.params paginated = true) (hcalls : ∀ c ∈ calls, CallOk tt op.params c)
    (hv : ValuesSet tt op.params calls vs) (hc : methodSigBody op = .ok c) (hi : Issues cfg op vs r) :
    BuilderSends tt cfg op paginated c calls r where
  struct := hs
  callsOk := hcalls
  sent := by
    refine ⟨Unit, Unit, ⟨false, false, false, false⟩, ⟨fun _ r => .ok r, fun _ _ => .error builderError, fun _ _ => .ok ()⟩,
      fun _ _ => .error (), [], [.send r], fun _ _ _ _ h => (Except.ok.inj h).symm, ?_, List.mem_singleton.mpr rfl⟩
    rw [C31_values cfg _ _ _ tt op.params paginated c [] calls hs hcalls vs hv]
    obtain ⟨c', env, hc', hb, hr⟩ := hi
    rw [hc] at hc'
    cases hc'
    simp only [call, hb, Exec.run, hr]
    rfl

/-- Inputs of a parameter are those of its setter. -/
theorem mem_inputsFor {n : Str} {x : Builder.Input B} : x ∈ inputsFor calls n ↔ (n, x) ∈ calls := by
  unfold inputsFor
  simp only [List.mem_map, List.mem_filter, decide_eq_true_eq]
  constructor
  · rintro ⟨⟨m, y⟩, ⟨h1, rfl⟩, rfl⟩
    exact h1
  · exact fun h => ⟨_, ⟨h, rfl⟩, rfl⟩

/-- The last input is that of the last call of the setter. -/
theorem inputsFor_last {n : Str} {pre : List (Builder.Input B)} {x : Builder.Input B} (h : inputsFor calls n = pre ++ [x]) :
    ∃ before after, calls = before ++ (n, x) :: after ∧ ∀ y, (n, y) ∉ after := by
  induction calls generalizing pre with
  | nil => cases pre <;> cases h
  | cons c cs ih =>
    by_cases hc : c.1 = n
    · have he : inputsFor (c :: cs) n = c.2 :: inputsFor cs n := by simp [inputsFor, hc]
      rw [he] at h
      cases pre with
      | nil =>
        simp only [List.nil_append, List.cons.injEq] at h
        obtain ⟨rfl, h⟩ := h
        refine ⟨[], cs, by rw [← hc]; rfl, fun y hy => ?_⟩
        rw [← mem_inputsFor, h] at hy
        cases hy
      | cons q pre =>
        simp only [List.cons_append, List.cons.injEq] at h
        obtain ⟨before, after, h1, h2⟩ := ih h.2
        exact ⟨c :: before, after, by rw [h1]; rfl, h2⟩
    · have he : inputsFor (c :: cs) n = inputsFor cs n := by simp [inputsFor, hc]
      rw [he] at h
      obtain ⟨before, after, h1, h2⟩ := ih h
      exact ⟨c :: before, after, by rw [h1]; rfl, h2⟩

/-- A parameter with a value that is not the body: it was not set, or it has what its setter was given last. -/
theorem outcome_flag (h : Outcome tt p (inputsFor calls p.name) (.ok v)) (hnb : ∀ c, p.kind ≠ .body c) (hraw : p.typ ≠ .rawBody) :
    (v = .opt none ∧ inputsFor calls p.name = []) ∨
    ∃ pre a, inputsFor calls p.name = pre ++ [.value (.ok a)] ∧ givenArg v = some a := by
  generalize hi : inputsFor calls p.name = ins at h
  generalize ho : (Except.ok v : Except Str Value) = o at h
  cases h <;> cases ho
  case absent => exact .inl ⟨rfl, rfl⟩
  case given pre a _ _ => exact .inr ⟨pre, a, rfl, rfl⟩
  case givenOptional pre a _ _ => exact .inr ⟨pre, a, rfl, rfl⟩
  case givenRaw h => exact absurd h hraw
  case built tb _ _ _ hb _ _ =>
    obtain ⟨_, ct, _, hk, _⟩ := hb
    exact absurd hk (hnb ct)

/-- The values are values of the types. -/
theorem values_typed {accepts : Params.TypeId → Json → Prop} {vs : List Value} (h : ValuesSet tt op.params calls vs)
    (ht : SettersTyped tt accepts op.params calls) : ValuesTyped accepts op.params vs := by
  intro p v hpv t hty a ha
  have hp := (List.of_mem_zip hpv).1
  have hout := line_value_at h hpv
  have fin : (p.name, Builder.Input.value (.ok a)) ∈ calls → ∃ j, JsonOf a.ser j ∧ accepts t j ∧
      (p.kind = .path ∨ (∃ b, p.kind = .header b) → Primitive j a.display) := by
    intro hm
    obtain ⟨j, hj, hacc⟩ := ht.values p hp t a hty hm
    exact ⟨j, hj, hacc, fun hk => ht.shown p hp hk a j hm hj⟩
  generalize hi : inputsFor calls p.name = ins at hout
  generalize ho : (Except.ok v : Except Str Value) = o at hout
  cases hout <;> cases ho
  case absent => cases ha
  case given pre a' _ _ =>
    cases ha
    exact fin (mem_inputsFor.mp (by rw [hi]; simp))
  case givenOptional pre a' _ _ =>
    cases ha
    exact fin (mem_inputsFor.mp (by rw [hi]; simp))
  case givenRaw h => rw [hty] at h; cases h
  case built t' tb b a' h3 hb h4 h1 =>
    cases ha
    obtain ⟨j, hj, hacc⟩ := ht.built p hp tb t _ a hb hty h4
    obtain ⟨_, ct, _, hk, _⟩ := hb
    refine ⟨j, hj, hacc, fun hk' => ?_⟩
    rw [hk] at hk'
    rcases hk' with e | ⟨_, e⟩ <;> cases e

end

section

variable {σ : Type} {lib : Library σ} {u : Unicode}

/-- C104: what a server reads for a parameter when a builder sends a request: nothing if the setter of the parameter is not called; else
what the setter was given last, which the schema in the document has after conversion, written in the style of its location. -/
theorem C104_setters_partial {B : Type} {ι : Interp} {accepts : σ → Params.TypeId → Json → Prop} (ha : RightTypes lib ι accepts)
    (hopt : RightOptions lib accepts) {n : Nat} {tt : σ → TypeTable B} {i : Doc.Interface} {t : Doc.TagStyle} {d : SDocument}
    {s0 s1 : σ} {ms : List Processed} {cs : List Code} (h : Typed.generate lib n u tt i t d s0 = some (.ok ((ms, cs), s1))) :
    Forall₂ (fun (o : Str × Str × SRaw) (pc : Processed × Code) =>
      ∀ (keys : Str → List Str) (cfg : Config) (auth : Str) (base : List Str) (segs : List Seg) (pl ol : List SParam) (paginated : Bool)
        (calls : List (Call B)) (r : Request),
        o.1 = segsText segs → SegsOk segs → segs ≠ [] →
        Forall₂ (LeadsTo d.components SSections.parameters) o.2.2.op.pathLevel pl →
        Forall₂ (LeadsTo d.components SSections.parameters) o.2.2.op.opLevel ol → SWireReady pl ol →
        BaseUrl cfg auth base → SettersTyped (tt s1) (accepts s1) pc.1.op.params calls →
        BuilderSends (tt s1) cfg pc.1.op paginated pc.2 calls r →
        (∀ vs, ValuesSet (tt s1) pc.1.op.params calls vs → Recoverable keys segs pc.1.op.params vs) →
        ∀ p, SEffective pl ol p → ∃ s, p.schema = some s ∧
          (Maps s → SetterArrives (EValid ι s) (Names.sanitize u .snake p.name) calls segs p (sreads keys auth base segs r p)) ∧
          (Faithful ι s → SetterArrives (OValid ι s) (Names.sanitize u .snake p.name) calls segs p (sreads keys auth base segs r p)))
      (schemaRoutes d) (ms.zip cs) := by
  refine forall₂_imp_mem ?_ (forall₂_both (C100_parameters_partial ha hopt h) (made_names ha.lawful h))
  rintro o - pc ⟨hpc, hc, hnbt, hnames⟩ keys cfg auth base segs pl ol paginated calls r hpath hl hne hpl hol hw hbase hset hsend hrec p heff
  obtain ⟨vs, hvs, hiss⟩ := hsend.issues hc
  obtain ⟨s, hs, h1, h2⟩ := hpc keys cfg auth base segs vs r pl ol p hpath hl hne hpl hol hw hbase (hrec vs hvs) (values_typed hvs hset)
    hiss heff
  have key : ∀ good, ArrivesAs good segs p (pc.1.op.params.zip vs) (sreads keys auth base segs r p) →
      SetterArrives good (Names.sanitize u .snake p.name) calls segs p (sreads keys auth base segs r p) := by
    rintro good ⟨a, v, hav, hn, hloc, hgot⟩
    have ham := (List.of_mem_zip hav).1
    have hnb : ∀ c, a.kind ≠ .body c := by
      intro c hk
      rw [hk] at hloc
      cases hkp : p.kind <;> rw [hkp] at hloc <;> cases hloc
    rw [show Names.sanitize u .snake p.name = a.name by rw [hnames a ham hnb, hn]]
    have hraw : a.typ ≠ .rawBody := by
      intro e
      obtain ⟨t, ht⟩ := hnbt a ham hnb
      rw [ht] at e
      cases e
    rcases outcome_flag (line_value_at hvs hav) hnb hraw with ⟨rfl, hin⟩ | ⟨pre, x, hin, hx⟩
    · rcases hgot with ⟨-, hgot⟩ | ⟨x', j, he, -⟩
      · refine .inl ⟨fun y hy => ?_, hgot⟩
        rw [← mem_inputsFor, hin] at hy
        cases hy
      · cases he
    · rw [hx] at hgot
      rcases hgot with ⟨hcon, -⟩ | ⟨x', j, he, hj, hgood, hwrit⟩
      · cases hcon
      · cases he
        obtain ⟨before, after, h3, h4⟩ := inputsFor_last hin
        exact .inr ⟨before, x, j, after, h3, h4, hj, hgood, hwrit⟩
  exact ⟨s, hs, fun hm => key _ (h1 hm), fun hf => key _ (h2 hf)⟩

/-- C104: the JSON body of the request that a builder sends is JSON that the schema in the document has after conversion. -/
theorem C104_body_partial {B : Type} {ι : Interp} {accepts : σ → Params.TypeId → Json → Prop} (ha : RightTypes lib ι accepts)
    {parse : Bytes → Option Json} {n : Nat} {tt : σ → TypeTable B} {i : Doc.Interface} {t : Doc.TagStyle} {d : SDocument}
    {s0 s1 : σ} {ms : List Processed} {cs : List Code} (h : Typed.generate lib n u tt i t d s0 = some (.ok ((ms, cs), s1))) :
    Forall₂ (fun (o : Str × Str × SRaw) (pc : Processed × Code) =>
      ∀ (cfg : Config) (paginated : Bool) (calls : List (Call B)) (r : Request) (body : RefOr SContent) (mt : Str) (m : SMedia)
        (s : OSchema),
        SettersTyped (tt s1) (accepts s1) pc.1.op.params calls → WritesJson parse cfg.toJson →
        BuilderSends (tt s1) cfg pc.1.op paginated pc.2 calls r →
        o.2.2.op.body = some body → LeadsTo d.components SSections.bodies body [(mt, m)] → MediaBase mt "application/json".toList →
        m.schema = some s → ∃ b, r.body = some b ∧ (Maps s → AcceptedBody ι parse s b) ∧ (Faithful ι s → ValidBody ι parse s b))
      (schemaRoutes d) (ms.zip cs) := by
  refine forall₂_imp_mem ?_ (forall₂_both (json_body_of_issues ha (parse := parse) h) (made_names ha.lawful h))
  rintro o - pc ⟨hpc, hc, -⟩ cfg paginated calls r body mt m s hset hwrites hsend hbody hlead hbase hsch
  obtain ⟨vs, hvs, hiss⟩ := hsend.issues hc
  exact hpc cfg vs r body mt m s (values_typed hvs hset) hwrites hiss hbody hlead hbase hsch

end

/-! ## Example -/

namespace SetterExample

open StampExample

/-- The setter of the time is called twice; the first conversion fails. -/
def stampCalls : List (Call Unit) :=
  [("at".toList, .value (.error "no time".toList)), ("n".toList, .value (.ok ⟨"3".toList, .int 3⟩)),
   ("at".toList, .value (.ok ⟨"2020-01-01T00:00:00Z".toList, .str "2020-01-01T00:00:00Z".toList⟩))]

theorem stampSet : ValuesSet plainTable stampParams stampCalls (stampArgs "2020-01-01T00:00:00Z") := by
  refine .cons ?_ (.cons ?_ .nil)
  · exact .given [] [.value (.error "no time".toList)] _ ⟨0, rfl, rfl, fun _ ⟨_, _, _, h, _⟩ => by cases h⟩
      (by rintro (h | h) <;> cases h)
  · exact .givenOptional [] [] _ ⟨1, rfl, rfl, fun _ ⟨_, _, _, h, _⟩ => by cases h⟩ (.inl rfl)

theorem stampTyped {ι : Interp} (hι : ι.format "date-time".toList (.str "2020-01-01T00:00:00Z".toList)) {p : Processed} {c : Code}
    {s1 : List JSchema} (h : stampRun = some (.ok (([p], [c]), s1))) (hp : p.op.params = stampParams) :
    SettersTyped plainTable (fun t v => ∃ j, s1[t]? = some j ∧ JValid ι j v) stampParams stampCalls := by
  have hv := stampValues hι h hp "2020-01-01T00:00:00Z"
  have h0 := hv ⟨"at".toList, "at".toList, .type 0, .path⟩ (.plain ⟨"2020-01-01T00:00:00Z".toList, .str "2020-01-01T00:00:00Z".toList⟩)
    (by simp [stampParams, stampArgs]) 0 rfl _ rfl
  have h1 := hv ⟨"n".toList, "n".toList, .type 1, .query false⟩ (.opt (some ⟨"3".toList, .int 3⟩))
    (by simp [stampParams, stampArgs]) 1 rfl _ rfl
  refine ⟨?_, ?_, ?_⟩
  · intro q hq t a hty hm
    simp only [stampParams, List.mem_cons, List.not_mem_nil, or_false] at hq
    simp only [stampCalls, List.mem_cons, List.not_mem_nil, or_false, Prod.mk.injEq, Builder.Input.value.injEq, reduceCtorEq, and_false,
      false_or, Except.ok.injEq] at hm
    rcases hq with rfl | rfl
    · cases hty
      rcases hm with ⟨hn, -⟩ | ⟨-, rfl⟩
      · exact absurd hn (by decide)
      · obtain ⟨j, h2, h3, -⟩ := h0
        exact ⟨j, h2, h3⟩
    · cases hty
      rcases hm with ⟨-, rfl⟩ | ⟨hn, -⟩
      · obtain ⟨j, h2, h3, -⟩ := h1
        exact ⟨j, h2, h3⟩
      · exact absurd hn (by decide)
  · intro q hq hk a j hm hj
    simp only [stampParams, List.mem_cons, List.not_mem_nil, or_false] at hq
    simp only [stampCalls, List.mem_cons, List.not_mem_nil, or_false, Prod.mk.injEq, Builder.Input.value.injEq, reduceCtorEq, and_false,
      false_or, Except.ok.injEq] at hm
    rcases hq with rfl | rfl
    · rcases hm with ⟨hn, -⟩ | ⟨-, rfl⟩
      · exact absurd hn (by decide)
      · cases hj
        exact .str _
    · rcases hk with hk | ⟨_, hk⟩ <;> cases hk
  · rintro q hq tb t b a ⟨_, _, _, _, h⟩
    cases h

/- What C104 says of a builder with both setters. -/
example {ι : Interp} (hι : ι.format "date-time".toList (.str "2020-01-01T00:00:00Z".toList)) :
    ∃ p c s1, stampRun = some (.ok (([p], [c]), s1)) ∧ ∃ r, BuilderSends plainTable exCfg p.op false c stampCalls r ∧
      SetterArrives (EValid ι atSchema) "at".toList stampCalls stampPath atParam (sreads ownKey "http://h".toList [] stampPath r atParam) ∧
      SetterArrives (EValid ι countSchema) "n".toList stampCalls stampPath countParam
        (sreads ownKey "http://h".toList [] stampPath r countParam) := by
  obtain ⟨p, c, s1, h, hp, hi⟩ := stamp_made (args := stampArgs "2020-01-01T00:00:00Z")
    (r := stampReq "http://h/v1/2020-01-01T00:00:00Z") (by decide +kernel)
  have hall := C104_setters_partial (keeping_right ι) (keeping_options ι) h
  have hmade := made_names (keeping_right ι).lawful h
  cases hmade with
  | cons hm _ =>
  cases hall with
  | cons hall _ =>
    have hrec := stampRecoverable (shown := "2020-01-01T00:00:00Z") (by decide) (by decide) (by decide)
    have hcalls : ∀ c ∈ stampCalls, CallOk plainTable stampParams c :=
      (calls_compile plainTable stampParams stampCalls (by decide)).mp ⟨_, rfl⟩
    have hs : BuilderSends plainTable exCfg p.op false c stampCalls _ :=
      builder_sends (by rw [hp]; decide +kernel) (by rw [hp]; exact hcalls) (by rw [hp]; exact stampSet) hm.1 hi
    have hl := hall ownKey exCfg "http://h".toList [] stampPath [atParam] [countParam] false stampCalls _ rfl stampSegs
      (by simp [stampPath]) (.cons rfl .nil) (.cons rfl .nil) stampReady stampBase (hp ▸ stampTyped hι h hp) hs (by
        intro vs hvs
        rw [hp] at hvs ⊢
        rcases C101_builder exCfg ⟨false, false, false, false⟩
          ⟨fun _ r => .ok r, fun _ _ => .error builderError, fun _ _ => .ok ()⟩ (P := Unit) (V := Unit) (fun _ _ => .error ()) plainTable
          stampParams false c [] stampCalls (by decide +kernel) hcalls with ⟨m, -, -, hno, -⟩ | ⟨vs', -, huniq, -, -⟩
        · exact absurd hvs (hno vs)
        · rw [huniq vs hvs, ← huniq _ stampSet]
          exact hrec)
    obtain ⟨s, hs1, hf, -⟩ := hl atParam (.inr ⟨by simp, by simp [SSame, atParam, countParam]⟩)
    obtain ⟨s', hs2, hf', -⟩ := hl countParam (.inl (by simp))
    rw [show Names.sanitize exUnicode .snake atParam.name = "at".toList by decide +kernel] at hf
    rw [show Names.sanitize exUnicode .snake countParam.name = "n".toList by decide +kernel] at hf'
    cases hs1
    cases hs2
    exact ⟨p, c, s1, h, _, hs, hf (by simp [atSchema, Maps]), hf' (by simp [countSchema, Maps])⟩

end SetterExample

end Progenitor.Props

import Verif.Spec.TypedLine
import Verif.Props.FormStyle
import Verif.Props.Argv

/-!
# C103: commands send what the document asks for
-/

namespace Progenitor.Props

open Progenitor Progenitor.Params Progenitor.Refs Progenitor.Resp Progenitor.Names Progenitor.Builder Progenitor.Exec
  Progenitor.Schema Progenitor.RefDoc Progenitor.Spec Progenitor.Typed Progenitor.Client Progenitor.Query Progenitor.Cli

/-- The command of an operation that is not paginated, with arguments `args`, accepts the words `ws` as `line`, and they stand for the
values `vs`. -/
structure CommandLine {B : Type} (u : Unicode) (ct : CliTypes) (tt : TypeTable B) (set : Str → Arg → B → B) (ps : Parsers)
    (op : OperationMethod) (args : Args) (ws : List Str) (line : Line) (vs : List Value) : Prop where
  named : Named u op.params
  argsOf : cliArgs u ct none op.params = .ok args
  struct : structOk tt op.params false = true
  compiles : cliCompiles ct tt op.params args = true
  law : ∀ p ∈ op.params, ∀ tb, HasBuilder tt p tb → ∀ a, tb.finish (tb.ofValue a) = .ok a
  accepted : matchesOf ps args (Cli.bodyType op.params) ws = .ok line
  readable : line.json ≠ some none
  values : Forall₂ (LineArg u tt set none args line) op.params vs

/-- When the command is run with these words, request `r` is sent. -/
structure CommandSends {B : Type} (u : Unicode) (ct : CliTypes) (tt : TypeTable B) (set : Str → Arg → B → B) (ps : Parsers)
    (cfg : Config) (op : OperationMethod) (c : Code) (args : Args) (ws : List Str) (line : Line) (vs : List Value) (r : Request) : Prop
    extends CommandLine u ct tt set ps op args ws line vs where
  sent : ∃ (P V : Type) (hooks : Hooks) (w : World) (decode : Params.TypeId → Bytes → Except P V) (ks : Resp.Kind × Resp.Kind)
    (hist evs : List Event), Keeps hooks w ∧
    (runWords ps noOverride cfg hooks w decode ct tt set op.params c (args, ks) hist ws).2 = hist ++ evs ∧ .send r ∈ evs

theorem line_value_at {α β} {R : α → β → Prop} {xs : List α} {ys : List β} (h : Forall₂ R xs ys) {x : α} {y : β}
    (hm : (x, y) ∈ xs.zip ys) : R x y := by
  induction h with
  | nil => cases hm
  | cons h1 _ ih =>
    rw [List.zip_cons_cons] at hm
    rcases List.mem_cons.mp hm with e | hm
    · cases e; exact h1
    · exact ih hm

section

variable {B : Type} {u : Unicode} {ct : CliTypes} {tt : TypeTable B} {set : Str → Arg → B → B} {ps : Parsers} {cfg : Config}
  {op : OperationMethod} {c : Code} {args : Args} {ws : List Str} {line : Line} {vs : List Value} {r : Request}

/-- The events are those of the positional method. -/
theorem CommandLine.events {P V : Type} (h : CommandLine u ct tt set ps op args ws line vs) (hooks : Hooks) (w : World)
    (decode : Params.TypeId → Bytes → Except P V) (ks : Resp.Kind × Resp.Kind) (hist : List Event) :
    (runWords ps noOverride cfg hooks w decode ct tt set op.params c (args, ks) hist ws).2 =
      (call cfg hooks w decode op.params c hist vs).2 := by
  unfold runWords
  simp only [h.accepted]
  obtain ⟨l, -, -, hlf, hcomp⟩ := (C79_words_iff h.argsOf ps _ ws line).mp h.accepted
  have hacc := (accepts_iff (lineFor_none hlf)).mpr hcomp
  rw [C79_default cfg hooks w decode h.struct,
    C40_execute cfg hooks w decode h.named h.argsOf hacc h.readable h.struct h.compiles h.law h.values c ks hist]
  rcases call cfg hooks w decode op.params c hist vs with ⟨_ | _ | _, _⟩ <;> rfl

/-- The request is that of the positional method. -/
theorem CommandSends.issues (h : CommandSends u ct tt set ps cfg op c args ws line vs r) (hc : methodSigBody op = .ok c) :
    Issues cfg op vs r := by
  obtain ⟨P, V, hooks, w, decode, ks, hist, evs, hk, he, hr⟩ := h.sent
  exact sent_issues (decode := decode) (hist := hist) hc hk ((h.toCommandLine.events hooks w decode ks hist).symm.trans he) hr

/-- Conversely, what the positional method would send is sent. -/
theorem CommandLine.sends (h : CommandLine u ct tt set ps op args ws line vs) (hc : methodSigBody op = .ok c) (hi : Issues cfg op vs r) :
    CommandSends u ct tt set ps cfg op c args ws line vs r where
  toCommandLine := h
  sent := by
    refine ⟨Unit, Unit, ⟨false, false, false, false⟩, ⟨fun _ r => .ok r, fun _ _ => .error builderError, fun _ _ => .ok ()⟩,
      fun _ _ => .error (), (.none, .none), [], [.send r], fun _ _ _ _ h => (Except.ok.inj h).symm, ?_, List.mem_singleton.mpr rfl⟩
    rw [h.events]
    obtain ⟨c', env, hc', hb, hr⟩ := hi
    rw [hc] at hc'
    cases hc'
    simp only [call, hb, Exec.run, hr]
    rfl

/-- What a command line stands for are values of the types. -/
theorem line_typed {pg : Option Pagination} {params : List Param} (hn : Named u params) (hargs : cliArgs u ct pg params = .ok args)
    (hmatch : matchesOf ps args (Cli.bodyType params) ws = .ok line) (hv : Forall₂ (LineArg u tt set pg args line) params vs)
    {accepts : Params.TypeId → Json → Prop} (ht : ReadersTyped ps tt accepts params) : ValuesTyped accepts params vs := by
  intro p v hpv t hty a ha
  obtain ⟨l, -, -, hlf, -⟩ := (C79_words_iff hargs ps _ ws line).mp hmatch
  have hp := (List.of_mem_zip hpv).1
  have hla := line_value_at hv hpv
  rcases hla with ⟨hf, hlv⟩ | ⟨hk, b, hb, rfl⟩ | ⟨-, -, -, rfl⟩
  · rcases C79_argument hargs hlf hp hf hlv with ⟨t', s, a', h1, -, h2, h3⟩ | ⟨rfl, -⟩
    · rw [hty] at h1
      cases h1
      have : a' = a := by rcases h3 with rfl | rfl <;> exact Option.some.inj ha
      subst this
      obtain ⟨j, hj, hacc⟩ := ht.words t s a' h2
      exact ⟨j, hj, hacc, fun hk => ht.shown p hp hk t s a' j hty h2 hj⟩
    · cases ha
  · cases ha
    have hno : p.kind = .path ∨ (∃ b, p.kind = .header b) → False := by
      obtain ⟨c, hk⟩ := hk
      rw [hk]
      rintro (e | ⟨_, e⟩) <;> cases e
    unfold LineBody at hb
    cases hj : line.json with
    | none =>
      rw [hj] at hb
      obtain ⟨tb, hb1, hb2⟩ := hb
      obtain ⟨j, h1, h2⟩ := ht.built p hp tb t _ a hb1 hty hb2
      exact ⟨j, h1, h2, fun hk => (hno hk).elim⟩
    | some f =>
      rw [hj] at hb
      dsimp only at hb
      subst hb
      obtain ⟨path, -, -, hf⟩ := (hlf.file (some a)).mp hj
      obtain ⟨t', txt, h1, -, h2⟩ := (hf a).mp rfl
      obtain ⟨q, hq, hkq, htq⟩ := bodyOf_mem (bodyType_iff.mp h1)
      have := hn.inj hp hq (by rw [hn.body p hp hk, hn.body q hq hkq])
      subst this
      rw [hty] at htq
      cases htq
      obtain ⟨j, h3, h4⟩ := ht.files t txt a h2
      exact ⟨j, h3, h4, fun hk => (hno hk).elim⟩
  · cases ha

theorem CommandSends.typed (h : CommandSends u ct tt set ps cfg op c args ws line vs r) {accepts : Params.TypeId → Json → Prop}
    (ht : ReadersTyped ps tt accepts op.params) : ValuesTyped accepts op.params vs :=
  line_typed h.named h.argsOf h.accepted h.values ht

end

theorem forall₂_both {α β} {R S : α → β → Prop} {l : List α} {m : List β} (h : Forall₂ R l m) (h' : Forall₂ S l m) :
    Forall₂ (fun a b => R a b ∧ S a b) l m := by
  induction h with
  | nil => exact .nil
  | cons h1 _ ih => cases h' with | cons h2 h' => exact .cons ⟨h1, h2⟩ (ih h')

section

variable {σ : Type} {lib : Library σ} {u : Unicode}

/-- The operations of a document, as they are made. -/
theorem made_names {B : Type} (hl : LawfulTypes lib) {n : Nat} {tt : σ → TypeTable B} {i : Doc.Interface} {t : Doc.TagStyle} {d : SDocument}
    {s0 s1 : σ} {ms : List Processed} {cs : List Code} (h : Typed.generate lib n u tt i t d s0 = some (.ok ((ms, cs), s1))) :
    Forall₂ (fun (_ : Str × Str × SRaw) (pc : Processed × Code) => methodSigBody pc.1.op = .ok pc.2 ∧
      NonBodyTyped pc.1.op.params ∧
      ∀ p ∈ pc.1.op.params, (∀ c, p.kind ≠ .body c) → p.name = Names.sanitize u .snake p.apiName) (schemaRoutes d) (ms.zip cs) := by
  obtain ⟨js, a, l, d', _, _, hcalls, hd, hg⟩ := C96_generate hl h
  refine forall₂_imp_mem ?_ (operations_made hd hg)
  rintro o - pc ⟨id, op', l0, hid, hop, hsub, hp, hc⟩
  refine ⟨hc, (processOperation_inv hp).2.1, fun p hpm hk => ?_⟩
  rcases processOperation_names hp p hpm with ⟨h1, -⟩ | ⟨-, c, h1⟩
  · exact h1
  · exact absurd h1 (hk c)

/-- C103: what a server reads for a parameter when a command sends a request: nothing if the flag of the parameter is not given; else the
value that the text with the flag stands for, which the schema in the document has after conversion, written in the style of its location. -/
theorem C103_flags_partial {B : Type} {ι : Interp} {accepts : σ → Params.TypeId → Json → Prop} (ha : RightTypes lib ι accepts)
    (hopt : RightOptions lib accepts) {n : Nat} {tt : σ → TypeTable B} {i : Doc.Interface} {t : Doc.TagStyle} {d : SDocument}
    {s0 s1 : σ} {ms : List Processed} {cs : List Code} (h : Typed.generate lib n u tt i t d s0 = some (.ok ((ms, cs), s1))) :
    Forall₂ (fun (o : Str × Str × SRaw) (pc : Processed × Code) =>
      ∀ (keys : Str → List Str) (cfg : Config) (auth : Str) (base : List Str) (segs : List Seg) (pl ol : List SParam) (ct : CliTypes)
        (set : Str → Arg → B → B) (ps : Parsers) (args : Args) (ws : List Str) (line : Line) (vs : List Value) (r : Request),
        o.1 = segsText segs → SegsOk segs → segs ≠ [] →
        Forall₂ (LeadsTo d.components SSections.parameters) o.2.2.op.pathLevel pl →
        Forall₂ (LeadsTo d.components SSections.parameters) o.2.2.op.opLevel ol → SWireReady pl ol →
        BaseUrl cfg auth base → ReadersTyped ps (tt s1) (accepts s1) pc.1.op.params →
        CommandSends u ct (tt s1) set ps cfg pc.1.op pc.2 args ws line vs r → Recoverable keys segs pc.1.op.params vs →
        ∃ l, Writes l ws ∧ Admissible ps args l ∧ ∀ p, SEffective pl ol p → ∃ s, p.schema = some s ∧
          (Maps s → FlagArrives (EValid ι s) ps (toKebab u (Names.sanitize u .snake p.name)) l segs p (sreads keys auth base segs r p)) ∧
          (Faithful ι s → FlagArrives (OValid ι s) ps (toKebab u (Names.sanitize u .snake p.name)) l segs p (sreads keys auth base segs r p)))
      (schemaRoutes d) (ms.zip cs) := by
  refine forall₂_imp_mem ?_ (forall₂_both (C100_parameters_partial ha hopt h) (made_names ha.lawful h))
  rintro o - pc ⟨hpc, hc, -, hnames⟩ keys cfg auth base segs pl ol ct set ps args ws line vs r hpath hl hne hpl hol hw hbase hread hsend hrec
  obtain ⟨l, hwr, hadm, hlf, -⟩ := (C79_words_iff hsend.argsOf ps _ ws line).mp hsend.accepted
  refine ⟨l, hwr, hadm, fun p heff => ?_⟩
  obtain ⟨s, hs, h1, h2⟩ := hpc keys cfg auth base segs vs r pl ol p hpath hl hne hpl hol hw hbase hrec (hsend.typed hread)
    (hsend.issues hc) heff
  have key : ∀ good, ArrivesAs good segs p (pc.1.op.params.zip vs) (sreads keys auth base segs r p) →
      FlagArrives good ps (toKebab u (Names.sanitize u .snake p.name)) l segs p (sreads keys auth base segs r p) := by
    rintro good ⟨a, v, hav, hn, hloc, hgot⟩
    have ham := (List.of_mem_zip hav).1
    have hnb : ∀ c, a.kind ≠ .body c := by
      intro c hk
      rw [hk] at hloc
      cases hkp : p.kind <;> rw [hkp] at hloc <;> cases hloc
    have hflag : Flagged none a := ⟨hnb, fun hx => hx.1 rfl⟩
    have hla := line_value_at hsend.values hav
    have hlv : LineValue u line a v := by
      rcases hla with ⟨-, hv⟩ | ⟨⟨c, hk⟩, -⟩ | ⟨hpg, -⟩
      · exact hv
      · exact absurd hk (hnb c)
      · exact absurd rfl hpg
    rw [show Names.sanitize u .snake p.name = a.name by rw [hnames a ham hnb, hn]]
    rcases C79_argument hsend.argsOf hlf ham hflag hlv with ⟨ty, txt, x, -, hin, hparse, hv⟩ | ⟨rfl, -, hno⟩
    · have hx : givenArg v = some x := by rcases hv with rfl | rfl <;> rfl
      rw [hx] at hgot
      rcases hgot with ⟨hcon, -⟩ | ⟨x', j, he, hj, hgood, hwrit⟩
      · cases hcon
      · cases he
        exact .inr ⟨ty, txt, x, j, hin, hparse, hj, hgood, hwrit⟩
    · rcases hgot with ⟨-, hgot⟩ | ⟨x', j, he, -⟩
      · refine .inl ⟨fun txt hin => ?_, hgot⟩
        rcases hadm.meant _ hin with ⟨x, hfg⟩ | ⟨⟨-, -, hnf⟩, -⟩
        · exact hno txt x hin hfg
        · obtain ⟨e, he, hfe⟩ := flag_of hsend.argsOf ham hflag
          exact hnf e.2 (by rw [← hfe.name]; exact he)
      · cases he
  exact ⟨s, hs, fun hm => key _ (h1 hm), fun hf => key _ (h2 hf)⟩

/-- The JSON body of a request is JSON that the schema in the document has after conversion, if the arguments are values of their types. -/
theorem json_body_of_issues {ι : Interp} {accepts : σ → Params.TypeId → Json → Prop} (ha : RightTypes lib ι accepts)
    {B : Type} {parse : Bytes → Option Json} {n : Nat} {tt : σ → TypeTable B} {i : Doc.Interface} {t : Doc.TagStyle} {d : SDocument}
    {s0 s1 : σ} {ms : List Processed} {cs : List Code} (h : Typed.generate lib n u tt i t d s0 = some (.ok ((ms, cs), s1))) :
    Forall₂ (fun (o : Str × Str × SRaw) (pc : Processed × Code) =>
      ∀ (cfg : Config) (vs : List Value) (r : Request) (body : RefOr SContent) (mt : Str) (m : SMedia) (s : OSchema),
        ValuesTyped (accepts s1) pc.1.op.params vs → WritesJson parse cfg.toJson → Issues cfg pc.1.op vs r →
        o.2.2.op.body = some body → LeadsTo d.components SSections.bodies body [(mt, m)] → MediaBase mt "application/json".toList →
        m.schema = some s → ∃ b, r.body = some b ∧ (Maps s → AcceptedBody ι parse s b) ∧ (Faithful ι s → ValidBody ι parse s b))
      (schemaRoutes d) (ms.zip cs) := by
  obtain ⟨js, a, l, d', _, _, hcalls, hd, hg⟩ := C96_generate ha.lawful h
  refine forall₂_imp_mem ?_ (operations_made hd hg)
  rintro o - pc ⟨id, op', l0, hid, hop, hsub, hp, hc⟩
  intro cfg vs r body mt m s htyped hwrites hissues hbody hlead hbase hsch
  obtain ⟨s', base, hs', hb', p, hpm, _, _, hcase⟩ := C96_body hop hp hbody hlead
  rw [hsch] at hs'
  cases hs'
  cases mediaBase_unique hb' hbase
  obtain ⟨hnamed, _⟩ := processOperation_inv hp
  obtain ⟨c, env, hc2, hbind, hbuild⟩ := hissues
  obtain ⟨_, hlen, htyp, _⟩ := bindArgs_some hbind
  obtain ⟨v, hv⟩ : ∃ v, (p, v) ∈ pc.1.op.params.zip vs := by
    obtain ⟨k, hk, rfl⟩ := List.getElem_of_mem hpm
    exact ⟨vs[k]'(by omega), by
      rw [List.mem_iff_getElem]
      exact ⟨k, by simp; omega, by simp⟩⟩
  rcases hcase with ⟨hk, q, t, hw, hq, hty⟩ | ⟨h, _⟩ | ⟨h, _⟩
  · have hk : p.kind = .body .json := by
      rcases hk with ⟨_, h⟩ | ⟨h, _⟩
      · exact h
      · exact absurd h (by decide)
    obtain ⟨b, hb, henc⟩ := C19_body cfg pc.1.op vs r hnamed ⟨c, env, hc2, hbind, hbuild⟩ p v .json hv hk
    refine ⟨b, hb, ?_⟩
    cases henc with
    | json _ x _ hx hjs =>
      obtain ⟨a, ha', rfl⟩ : ∃ a, givenArg v = some a ∧ a.ser = x := by
        have hty' := htyp p v hv
        unfold typed at hty'
        rw [hty, hk] at hty'
        cases v with
        | plain a => exact ⟨a, rfl, Option.some.inj hx⟩
        | opt _ => cases hty'
        | raw _ => cases hty'
        | internal => cases hty'
      obtain ⟨j, hj, hacc, -⟩ := htyped p _ hv t hty a ha'
      have hjv := (accepts_calls ha hcalls _ (hsub _ hq) j).mp hacc
      exact ⟨fun hm => ⟨j, hwrites _ _ _ hj hjs, (C45_exact hm hw.1 j).mp hjv⟩,
        fun hf => ⟨j, hwrites _ _ _ hj hjs, (C45_valid_partial hf hw.1 j).mp hjv⟩⟩
  · exact absurd h (by decide)
  · exact absurd h (by decide)

/-- C103: the JSON body of the request that a command sends is JSON that the schema in the document has after conversion. -/
theorem C103_body_partial {B : Type} {ι : Interp} {accepts : σ → Params.TypeId → Json → Prop} (ha : RightTypes lib ι accepts)
    {parse : Bytes → Option Json} {n : Nat} {tt : σ → TypeTable B} {i : Doc.Interface} {t : Doc.TagStyle} {d : SDocument}
    {s0 s1 : σ} {ms : List Processed} {cs : List Code} (h : Typed.generate lib n u tt i t d s0 = some (.ok ((ms, cs), s1))) :
    Forall₂ (fun (o : Str × Str × SRaw) (pc : Processed × Code) =>
      ∀ (cfg : Config) (ct : CliTypes) (set : Str → Arg → B → B) (ps : Parsers) (args : Args) (ws : List Str) (line : Line)
        (vs : List Value) (r : Request) (body : RefOr SContent) (mt : Str) (m : SMedia) (s : OSchema),
        ReadersTyped ps (tt s1) (accepts s1) pc.1.op.params → WritesJson parse cfg.toJson →
        CommandSends u ct (tt s1) set ps cfg pc.1.op pc.2 args ws line vs r →
        o.2.2.op.body = some body → LeadsTo d.components SSections.bodies body [(mt, m)] → MediaBase mt "application/json".toList →
        m.schema = some s → ∃ b, r.body = some b ∧ (Maps s → AcceptedBody ι parse s b) ∧ (Faithful ι s → ValidBody ι parse s b))
      (schemaRoutes d) (ms.zip cs) := by
  refine forall₂_imp_mem ?_ (forall₂_both (json_body_of_issues ha (parse := parse) h) (made_names ha.lawful h))
  rintro o - pc ⟨hpc, hc, -⟩ cfg ct set ps args ws line vs r body mt m s hread hwrites hsend hbody hlead hbase hsch
  exact hpc cfg vs r body mt m s (hsend.typed hread) hwrites (hsend.issues hc) hbody hlead hbase hsch

end

/-! ## Example -/

namespace LineExample

open StampExample

/-- The types of `stampDocument`: 0 a time, 1 a count. -/
def readStamp : Parsers where
  simple := fun _ => none
  tryFrom := fun _ _ => none
  value := fun t s =>
    if t = 0 ∧ s = "2020-01-01T00:00:00Z".toList then some ⟨"2020-01-01T00:00:00Z".toList, .str "2020-01-01T00:00:00Z".toList⟩
    else if t = 1 ∧ s = "3".toList then some ⟨"3".toList, .int 3⟩ else none
  files := fun _ => none
  fromJson := fun _ _ => none

def stampTypes : CliTypes := ⟨fun _ => none, fun _ => none, fun _ => true, fun _ => true, fun _ => none⟩

def stampFlags : Args where
  flags := [("at".toList, ⟨0, .required, .param "at".toList⟩), ("n".toList, ⟨1, .optional, .param "n".toList⟩)]
  body := .none

def stampWords : List Str := ["--n=3".toList, "--at=2020-01-01T00:00:00Z".toList]

def stampGiven : List (Str × Cli.Given) :=
  [("n".toList, .value ⟨"3".toList, .int 3⟩),
   ("at".toList, .value ⟨"2020-01-01T00:00:00Z".toList, .str "2020-01-01T00:00:00Z".toList⟩)]

theorem stampMatches : matchesOf readStamp stampFlags (Cli.bodyType stampParams) stampWords =
    .ok (lineOf readStamp (Cli.bodyType stampParams) stampGiven) := by
  have h : readWords readStamp stampFlags [] stampWords = .ok stampGiven := by
    refine (readWords_iff _ _ _ _).mpr ⟨[("n".toList, some "3".toList), ("at".toList, some "2020-01-01T00:00:00Z".toList)], ?_, ?_, by decide⟩
    · exact .attached "n".toList "3".toList (by decide) (.attached "at".toList "2020-01-01T00:00:00Z".toList (by decide) .nil)
    · exact .cons ⟨rfl, .typed 1, by decide +kernel, by decide, rfl⟩ (.cons ⟨rfl, .typed 0, by decide +kernel, by decide, rfl⟩ .nil)
  unfold matchesOf
  rw [h]
  simp only [Clap.bind]
  rw [if_pos (by decide +kernel)]

theorem flagAt : toKebab exUnicode (Names.sanitize exUnicode .snake atParam.name) = "at".toList := by decide +kernel

theorem flagN : toKebab exUnicode (Names.sanitize exUnicode .snake countParam.name) = "n".toList := by decide +kernel

theorem stampFlags_eq : cliArgs exUnicode stampTypes none stampParams = .ok stampFlags := by decide +kernel

theorem stampReads {ι : Interp} (hι : ι.format "date-time".toList (.str "2020-01-01T00:00:00Z".toList)) {p : Processed} {c : Code}
    {s1 : List JSchema} (h : stampRun = some (.ok (([p], [c]), s1))) (hp : p.op.params = stampParams) :
    ReadersTyped readStamp plainTable (fun t v => ∃ j, s1[t]? = some j ∧ JValid ι j v) stampParams := by
  have hv := stampValues hι h hp "2020-01-01T00:00:00Z"
  have h0 := hv ⟨"at".toList, "at".toList, .type 0, .path⟩ (.plain ⟨"2020-01-01T00:00:00Z".toList, .str "2020-01-01T00:00:00Z".toList⟩)
    (by simp [stampParams, stampArgs]) 0 rfl _ rfl
  have h1 := hv ⟨"n".toList, "n".toList, .type 1, .query false⟩ (.opt (some ⟨"3".toList, .int 3⟩))
    (by simp [stampParams, stampArgs]) 1 rfl _ rfl
  refine ⟨?_, ?_, fun _ _ _ h => (by cases h), ?_⟩
  · rintro t s a (⟨_, h, -⟩ | ⟨-, h⟩)
    · cases h
    · simp only [readStamp] at h
      split at h
      · rename_i ht
        cases h
        obtain ⟨j, h2, h3, -⟩ := h0
        exact ⟨j, h2, ht.1 ▸ h3⟩
      · split at h
        · rename_i ht
          cases h
          obtain ⟨j, h2, h3, -⟩ := h1
          exact ⟨j, h2, ht.1 ▸ h3⟩
        · cases h
  · intro q hq hk t s a j hty hpar hj
    simp only [stampParams, List.mem_cons, List.not_mem_nil, or_false] at hq
    rcases hq with rfl | rfl
    · cases hty
      rcases hpar with ⟨_, h, -⟩ | ⟨-, h⟩
      · cases h
      · simp only [readStamp] at h
        split at h
        · cases h
          cases hj
          exact .str _
        · split at h
          · rename_i ht
            exact absurd ht.1 (by decide)
          · cases h
    · rcases hk with hk | ⟨_, hk⟩ <;> cases hk
  · rintro q hq tb t b a ⟨_, _, _, _, h⟩
    cases h

/- What C103 says of a command with both flags. -/
example {ι : Interp} (hι : ι.format "date-time".toList (.str "2020-01-01T00:00:00Z".toList)) :
    ∃ p c s1, stampRun = some (.ok (([p], [c]), s1)) ∧ ∃ line r l,
      CommandSends exUnicode stampTypes plainTable (fun _ _ b => b) readStamp exCfg p.op c stampFlags stampWords line
        (stampArgs "2020-01-01T00:00:00Z") r ∧ Writes l stampWords ∧
      FlagArrives (EValid ι atSchema) readStamp "at".toList l stampPath atParam (sreads ownKey "http://h".toList [] stampPath r atParam) ∧
      FlagArrives (EValid ι countSchema) readStamp "n".toList l stampPath countParam
        (sreads ownKey "http://h".toList [] stampPath r countParam) := by
  obtain ⟨p, c, s1, h, hp, hi⟩ := stamp_made (args := stampArgs "2020-01-01T00:00:00Z")
    (r := stampReq "http://h/v1/2020-01-01T00:00:00Z") (by decide +kernel)
  have h1 : (lineOf readStamp (Cli.bodyType stampParams) stampGiven).get (toKebab exUnicode "at".toList) =
      some ⟨"2020-01-01T00:00:00Z".toList, .str "2020-01-01T00:00:00Z".toList⟩ := by
    rw [show toKebab exUnicode "at".toList = "at".toList by decide +kernel]
    rfl
  have h2 : (lineOf readStamp (Cli.bodyType stampParams) stampGiven).get (toKebab exUnicode "n".toList) =
      some ⟨"3".toList, .int 3⟩ := by
    rw [show toKebab exUnicode "n".toList = "n".toList by decide +kernel]
    rfl
  have hcl : CommandLine exUnicode stampTypes plainTable (fun _ _ b => b) readStamp p.op stampFlags stampWords
      (lineOf readStamp (Cli.bodyType stampParams) stampGiven)
      (stampArgs "2020-01-01T00:00:00Z") := by
    constructor
    · rw [hp]
      refine ⟨by decide, by decide +kernel, ?_⟩
      rintro q hq ⟨c, hc⟩
      simp only [stampParams, List.mem_cons, List.not_mem_nil, or_false] at hq
      rcases hq with rfl | rfl <;> cases hc
    · rw [hp]; exact stampFlags_eq
    · rw [hp]; decide +kernel
    · rw [hp]; decide +kernel
    · rintro q hq tb ⟨_, _, _, _, h⟩
      cases h
    · rw [hp]; exact stampMatches
    · intro h; cases h
    · rw [hp]
      exact .cons (.inl ⟨⟨by simp, by simp⟩, .inr ⟨by simp [Optional], _, h1, rfl⟩⟩)
        (.cons (.inl ⟨⟨by simp, by simp⟩, .inl ⟨.inl rfl, by rw [h2]⟩⟩) .nil)
  have hall := C103_flags_partial (keeping_right ι) (keeping_options ι) h
  have hmade := made_names (keeping_right ι).lawful h
  cases hmade with
  | cons hm _ =>
  cases hall with
  | cons hall _ =>
    have hrec := stampRecoverable (shown := "2020-01-01T00:00:00Z") (by decide) (by decide) (by decide)
    rw [← hp] at hrec
    have hs := hcl.sends hm.1 hi
    obtain ⟨l, hw, -, hl⟩ := hall ownKey exCfg "http://h".toList [] stampPath [atParam] [countParam] stampTypes _ readStamp stampFlags
      stampWords _ _ _ rfl stampSegs (by simp [stampPath]) (.cons rfl .nil) (.cons rfl .nil) stampReady stampBase
      (hp ▸ stampReads hι h hp) hs hrec
    obtain ⟨s, hs1, hf, -⟩ := hl atParam (.inr ⟨by simp, by simp [SSame, atParam, countParam]⟩)
    obtain ⟨s', hs2, hf', -⟩ := hl countParam (.inl (by simp))
    rw [flagAt] at hf
    rw [flagN] at hf'
    cases hs1
    cases hs2
    exact ⟨p, c, s1, h, _, _, l, hs, hw, hf (by simp [atSchema, Maps]), hf' (by simp [countSchema, Maps])⟩

end LineExample

end Progenitor.Props

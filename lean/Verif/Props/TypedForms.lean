import Verif.Props.TypedLine
import Verif.Props.TypedBuilder

/-!
# C103, C104: form bodies that commands and builders send
-/

namespace Progenitor.Props

open Progenitor Progenitor.Params Progenitor.Refs Progenitor.Resp Progenitor.Names Progenitor.Builder Progenitor.Exec
  Progenitor.Schema Progenitor.RefDoc Progenitor.Spec Progenitor.Typed Progenitor.Client Progenitor.Query Progenitor.Cli

section

variable {σ : Type} {lib : Library σ} {u : Unicode}

/-- C103: the form body of the request that a command sends is the value given for the body, written as the pairs of a form, and a value
that the schema in the document has. -/
theorem C103_form_partial {B : Type} {ι : Interp} {accepts : σ → Params.TypeId → Json → Prop} (ha : RightTypes lib ι accepts)
    {n : Nat} {tt : σ → TypeTable B} {i : Doc.Interface} {t : Doc.TagStyle} {d : SDocument}
    {s0 s1 : σ} {ms : List Processed} {cs : List Code} (h : Typed.generate lib n u tt i t d s0 = some (.ok ((ms, cs), s1))) :
    Forall₂ (fun (o : Str × Str × SRaw) (pc : Processed × Code) =>
      ∀ (cfg : Config) (ct : CliTypes) (set : Str → Arg → B → B) (ps : Parsers) (args : Args) (ws : List Str) (line : Line)
        (vs : List Value) (r : Request) (body : RefOr SContent) (mt : Str) (m : SMedia) (s : OSchema),
        ReadersTyped ps (tt s1) (accepts s1) pc.1.op.params → CommandSends u ct (tt s1) set ps cfg pc.1.op pc.2 args ws line vs r →
        o.2.2.op.body = some body → LeadsTo d.components SSections.bodies body [(mt, m)] →
        MediaBase mt "application/x-www-form-urlencoded".toList → m.schema = some s →
        ∃ p a, p ∈ pc.1.op.params ∧ p.kind = .body .form ∧ LineBody (tt s1) set args line p a ∧
          (¬ HasUnit a.ser → (∀ js, ¬ JsonOf a.ser (.arr js)) →
            (Maps s → FormBody (EValid ι s) a.ser r) ∧ (Faithful ι s → FormBody (OValid ι s) a.ser r)))
      (schemaRoutes d) (ms.zip cs) := by
  refine forall₂_imp_mem ?_ (forall₂_both (C100_form_partial ha h) (made_names ha.lawful h))
  rintro o - pc ⟨hpc, hc, -⟩ cfg ct set ps args ws line vs r body mt m s hread hsend hbody hlead hbase hsch
  obtain ⟨p, v, hpv, hk, hall⟩ := hpc cfg vs r body mt m s (hsend.typed hread) (hsend.issues hc) hbody hlead hbase hsch
  rcases line_value_at hsend.values hpv with ⟨⟨h1, -⟩, -⟩ | ⟨-, a, hb, rfl⟩ | ⟨h1, -⟩
  · exact absurd hk (h1 _)
  · exact ⟨p, a, (List.of_mem_zip hpv).1, hk, hb, hall a rfl⟩
  · exact absurd rfl h1

/-- C104: the form body of the request that a builder sends is the value set for the body, written as the pairs of a form, and a value that
the schema in the document has. -/
theorem C104_form_partial {B : Type} {ι : Interp} {accepts : σ → Params.TypeId → Json → Prop} (ha : RightTypes lib ι accepts)
    {n : Nat} {tt : σ → TypeTable B} {i : Doc.Interface} {t : Doc.TagStyle} {d : SDocument}
    {s0 s1 : σ} {ms : List Processed} {cs : List Code} (h : Typed.generate lib n u tt i t d s0 = some (.ok ((ms, cs), s1))) :
    Forall₂ (fun (o : Str × Str × SRaw) (pc : Processed × Code) =>
      ∀ (cfg : Config) (paginated : Bool) (calls : List (Call B)) (r : Request) (body : RefOr SContent) (mt : Str) (m : SMedia)
        (s : OSchema),
        SettersTyped (tt s1) (accepts s1) pc.1.op.params calls → BuilderSends (tt s1) cfg pc.1.op paginated pc.2 calls r →
        o.2.2.op.body = some body → LeadsTo d.components SSections.bodies body [(mt, m)] →
        MediaBase mt "application/x-www-form-urlencoded".toList → m.schema = some s →
        ∃ p v, p ∈ pc.1.op.params ∧ p.kind = .body .form ∧ Outcome (tt s1) p (inputsFor calls p.name) (.ok v) ∧
          ∀ a, v = .plain a → ¬ HasUnit a.ser → (∀ js, ¬ JsonOf a.ser (.arr js)) →
            (Maps s → FormBody (EValid ι s) a.ser r) ∧ (Faithful ι s → FormBody (OValid ι s) a.ser r))
      (schemaRoutes d) (ms.zip cs) := by
  refine forall₂_imp_mem ?_ (forall₂_both (C100_form_partial ha h) (made_names ha.lawful h))
  rintro o - pc ⟨hpc, hc, -⟩ cfg paginated calls r body mt m s hset hsend hbody hlead hbase hsch
  obtain ⟨vs, hvs, hiss⟩ := hsend.issues hc
  obtain ⟨p, v, hpv, hk, hall⟩ := hpc cfg vs r body mt m s (values_typed hvs hset) hiss hbody hlead hbase hsch
  exact ⟨p, v, (List.of_mem_zip hpv).1, hk, line_value_at hvs hpv, hall⟩

end

/-! ## Example -/

namespace FormsExample

open StampExample LineExample

def formParam : Param := ⟨"body".toList, "body".toList, .type 0, .body .form⟩

/-- The value of the body has the type made of the schema. -/
theorem form_accepted (ι : Interp) {p : Processed} {c : Code} {s1 : List JSchema} (h : formRun = some (.ok (([p], [c]), s1)))
    (hp : p.op.params = [formParam]) :
    ∃ j, JsonOf formArg j ∧ ∃ k, s1[(0 : Nat)]? = some k ∧ JValid ι k j := by
  have hval := body_values (keeping_right ι) h
  cases hval with
  | cons hval _ =>
    obtain ⟨j, t, a, hj, ha, hty, hv⟩ := hval (.item [("application/x-www-form-urlencoded".toList, ⟨some formSchema, true⟩)])
      _ _ formSchema rfl rfl ⟨by decide, .inl rfl⟩ rfl
    rw [hp, List.mem_singleton] at ha
    subst ha
    cases hty
    refine ⟨_, formJson, (hv _).mpr ((C45_exact (s := formSchema) ?_ hj _).mpr (formValid ι))⟩
    simp [formSchema, Maps, MapsProps, MapsAdditional]

def readForm : Parsers where
  simple := fun _ => none
  tryFrom := fun _ _ => none
  value := fun _ _ => none
  files := fun f => if f = "f.json".toList then some "{\"a\":\"x y\"}".toList else none
  fromJson := fun t s => if t = 0 ∧ s = "{\"a\":\"x y\"}".toList then some ⟨[], formArg⟩ else none

def formFlags : Args := ⟨[], .required⟩

def formWords : List Str := ["--json-body=f.json".toList]

def formGiven : List (Str × Cli.Given) := [("json-body".toList, .path "f.json".toList)]

theorem formMatches : matchesOf readForm formFlags (Cli.bodyType [formParam]) formWords =
    .ok (lineOf readForm (Cli.bodyType [formParam]) formGiven) := by
  have h : readWords readForm formFlags [] formWords = .ok formGiven := by
    refine (readWords_iff _ _ _ _).mpr ⟨[("json-body".toList, some "f.json".toList)], ?_, ?_, by decide⟩
    · exact .attached "json-body".toList "f.json".toList (by decide) .nil
    · exact .cons ⟨rfl, .path, by decide +kernel, by decide, rfl⟩ .nil
  unfold matchesOf
  rw [h]
  simp only [Clap.bind]
  rw [if_pos (by decide +kernel)]

/- What C103 says of a command with the body in a file. -/
example (ι : Interp) : ∃ p c s1, formRun = some (.ok (([p], [c]), s1)) ∧ ∃ line r,
    CommandSends exUnicode stampTypes plainTable (fun _ _ b => b) readForm exCfg p.op c formFlags formWords line
      [.plain ⟨[], formArg⟩] r ∧ FormBody (EValid ι formSchema) formArg r := by
  obtain ⟨p, c, s1, h, hp, hi⟩ := form_made
  have hacc := form_accepted ι h hp
  have hj : (lineOf readForm (Cli.bodyType [formParam]) formGiven).json = some (some ⟨[], formArg⟩) := rfl
  have hcl : CommandLine exUnicode stampTypes plainTable (fun _ _ b => b) readForm p.op formFlags formWords
      (lineOf readForm (Cli.bodyType [formParam]) formGiven) [.plain ⟨[], formArg⟩] := by
    constructor
    · rw [hp]
      refine ⟨by decide, by decide +kernel, ?_⟩
      rintro q hq -
      rw [List.mem_singleton] at hq
      subst hq
      rfl
    · rw [hp]; decide +kernel
    · rw [hp]; decide +kernel
    · rw [hp]; decide +kernel
    · rintro q hq tb ⟨_, _, _, _, h⟩
      cases h
    · rw [hp]; exact formMatches
    · rw [hj]; simp
    · rw [hp]
      refine .cons (.inr (.inl ⟨⟨_, rfl⟩, _, ?_, rfl⟩)) .nil
      unfold LineBody
      rw [hj]
  have hall := C103_form_partial (keeping_right ι) h
  have hmade := made_names (keeping_right ι).lawful h
  cases hmade with
  | cons hm _ =>
  cases hall with
  | cons hall _ =>
    have hs := hcl.sends hm.1 hi
    refine ⟨p, c, s1, h, _, _, hs, ?_⟩
    obtain ⟨q, a, -, -, hb, hres⟩ := hall exCfg stampTypes _ readForm formFlags formWords _ _ _
      (.item [("application/x-www-form-urlencoded".toList, ⟨some formSchema, true⟩)]) _ _ formSchema
      ⟨(by rintro t s a (⟨_, h, -⟩ | ⟨-, h⟩) <;> cases h), (by rintro q hq hk t s a j - (⟨_, h, -⟩ | ⟨-, h⟩) <;> cases h), (by
        intro t s a hf
        simp only [readForm] at hf
        split at hf
        · rename_i ht
          cases hf
          obtain ⟨rfl, -⟩ := ht
          exact hacc
        · cases hf), (by
        rintro q hq tb t b a ⟨_, _, _, _, h⟩
        cases h)⟩ hs rfl rfl ⟨by decide, .inl rfl⟩ rfl
    unfold LineBody at hb
    rw [hj] at hb
    cases hb
    exact (hres form_units (fun _ h => by cases h)).1 (by simp [formSchema, Maps, MapsProps, MapsAdditional])

def formCalls : List (Call Unit) := [("body".toList, .value (.error "no".toList)), ("body".toList, .value (.ok ⟨[], formArg⟩))]

theorem formSet : ValuesSet plainTable [formParam] formCalls [.plain ⟨[], formArg⟩] :=
  .cons (.given [] [.value (.error "no".toList)] _ ⟨0, rfl, rfl, fun _ ⟨_, _, _, _, h⟩ => by cases h⟩ (by rintro (h | h) <;> cases h)) .nil

/- What C104 says of a builder with the setter of the body called twice. -/
example (ι : Interp) : ∃ p c s1, formRun = some (.ok (([p], [c]), s1)) ∧ ∃ r,
    BuilderSends plainTable exCfg p.op false c formCalls r ∧ FormBody (EValid ι formSchema) formArg r := by
  obtain ⟨p, c, s1, h, hp, hi⟩ := form_made
  have hacc := form_accepted ι h hp
  have hall := C104_form_partial (keeping_right ι) h
  have hmade := made_names (keeping_right ι).lawful h
  cases hmade with
  | cons hm _ =>
  cases hall with
  | cons hall _ =>
    have hcalls : ∀ c ∈ formCalls, CallOk plainTable [formParam] c :=
      (calls_compile plainTable [formParam] formCalls (by decide)).mp ⟨_, rfl⟩
    have hs : BuilderSends plainTable exCfg p.op false c formCalls _ :=
      builder_sends (by rw [hp]; decide +kernel) (by rw [hp]; exact hcalls) (by rw [hp]; exact formSet) hm.1 hi
    refine ⟨p, c, s1, h, _, hs, ?_⟩
    obtain ⟨q, v, hq, -, hout, hres⟩ := hall exCfg false formCalls _
      (.item [("application/x-www-form-urlencoded".toList, ⟨some formSchema, true⟩)]) _ _ formSchema
      (by
        rw [hp]
        refine ⟨?_, ?_, ?_⟩
        · intro q hq t a hty hm
          rw [List.mem_singleton] at hq
          subst hq
          cases hty
          simp only [formCalls, List.mem_cons, List.not_mem_nil, or_false, Prod.mk.injEq, Builder.Input.value.injEq, reduceCtorEq, and_false,
            false_or, Except.ok.injEq] at hm
          obtain ⟨-, rfl⟩ := hm
          exact hacc
        · intro q hq hk
          rw [List.mem_singleton] at hq
          subst hq
          rcases hk with hk | ⟨_, hk⟩ <;> cases hk
        · rintro q hq tb t b a ⟨_, _, _, _, h⟩
          cases h) hs rfl rfl ⟨by decide, .inl rfl⟩ rfl
    rw [hp, List.mem_singleton] at hq
    subst hq
    have hv : v = .plain ⟨[], formArg⟩ := by
      cases formSet with
      | cons h1 _ => exact Except.ok.inj (outcome_unique hout h1 rfl)
    exact (hres _ hv form_units (fun _ h => by cases h)).1 (by simp [formSchema, Maps, MapsProps, MapsAdditional])

end FormsExample

end Progenitor.Props

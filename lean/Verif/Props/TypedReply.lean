import Verif.Props.TypedUse
import Verif.Props.Reply
import Verif.Spec.TypedReply

/-!
# C97: replies and bodies follow the schemas of the document
-/

namespace Progenitor.Props

open Progenitor Progenitor.Params Progenitor.Refs Progenitor.Resp Progenitor.Names Progenitor.Builder Progenitor.Exec
  Progenitor.Schema Progenitor.RefDoc Progenitor.Spec Progenitor.Typed Progenitor.Client

variable {σ : Type}

/-- What is known about an operation and its method and code. -/
def OperationMade (comps : Option SSections) (u : Unicode) (types : Types) (l : List AskedType) (o : Str × Str × SRaw)
    (pc : Processed × Code) : Prop :=
  ∃ id op' l0, o.2.2.id = some id ∧ OperationTyped comps u types id o.2.2.op op' l0 ∧ (∀ x ∈ l0, x ∈ l) ∧
    processOperation (sanitize u .snake) types o.1 o.2.1 { op' with operationId := id } = .ok pc.1 ∧ methodSigBody pc.1.op = .ok pc.2

section

variable {lib : Library σ} {u : Unicode} {id : Str} {comps : Option SSections} {types : Types}

theorem routes_typed {paths : List (Str × Option (List (Str × SRaw)))} {paths' : List (Str × Option (List (Str × Doc.RawOperation)))}
    {l : List AskedType} (h : PathsTyped comps u types paths paths' l) :
    Forall₂ (fun (o : Str × Str × SRaw) (o' : Str × Str × Doc.RawOperation) => o'.1 = o.1 ∧ o'.2.1 = o.2.1 ∧ ∃ id l0,
        o.2.2.id = some id ∧ o'.2.2.id = some id ∧ OperationTyped comps u types id o.2.2.op o'.2.2.op l0 ∧ ∀ x ∈ l0, x ∈ l)
      (paths.flatMap fun p => (p.2.getD []).map fun e => (p.1, e.1, e.2))
      (paths'.flatMap fun p => (p.2.getD []).map fun e => (p.1, e.1, e.2)) := by
  have hops : ∀ {path : Str} {os : List (Str × SRaw)} {os' : List (Str × Doc.RawOperation)} {l : List AskedType},
      OpsTyped comps u types os os' l →
      Forall₂ (fun (o : Str × Str × SRaw) (o' : Str × Str × Doc.RawOperation) => o'.1 = o.1 ∧ o'.2.1 = o.2.1 ∧ ∃ id l0,
        o.2.2.id = some id ∧ o'.2.2.id = some id ∧ OperationTyped comps u types id o.2.2.op o'.2.2.op l0 ∧ ∀ x ∈ l0, x ∈ l)
      (os.map fun e => (path, e.1, e.2)) (os'.map fun e => (path, e.1, e.2)) := by
    intro path os os' l h
    induction h with
    | nil => exact .nil
    | cons h1 _ ih =>
      refine .cons ⟨rfl, rfl, _, _, rfl, rfl, h1, fun x hx => List.mem_append_left _ hx⟩ (forall₂_imp_mem ?_ ih)
      rintro o - o' ⟨k1, k2, id, l0, k3, k4, k5, k6⟩
      exact ⟨k1, k2, id, l0, k3, k4, k5, fun x hx => List.mem_append_right _ (k6 x hx)⟩
  induction h with
  | nil => exact .nil
  | cons h1 _ ih =>
    rw [List.flatMap_cons, List.flatMap_cons]
    refine forall₂_append (forall₂_imp_mem ?_ (hops h1)) (forall₂_imp_mem ?_ ih)
    · rintro o - o' ⟨k1, k2, id, l0, k3, k4, k5, k6⟩
      exact ⟨k1, k2, id, l0, k3, k4, k5, fun x hx => List.mem_append_left _ (k6 x hx)⟩
    · rintro o - o' ⟨k1, k2, id, l0, k3, k4, k5, k6⟩
      exact ⟨k1, k2, id, l0, k3, k4, k5, fun x hx => List.mem_append_right _ (k6 x hx)⟩

theorem processAll_made {os : List (Str × Str × Doc.RawOperation)} {ms : List Processed} (h : Doc.processAll u types os = .ok ms) :
    Forall₂ (fun o p => ∃ id, o.2.2.id = some id ∧
      processOperation (sanitize u .snake) types o.1 o.2.1 { o.2.2.op with operationId := id } = .ok p) os ms := by
  induction os generalizing ms with
  | nil => cases h; exact .nil
  | cons o os ih =>
    obtain ⟨p, h1, h⟩ := Params.bind_ok_inv h
    obtain ⟨ps, h2, h⟩ := Params.bind_ok_inv h
    cases h
    refine .cons ?_ (ih h2)
    obtain ⟨path, m, id, op⟩ := o
    cases id with
    | none => cases h1
    | some id => exact ⟨id, rfl, h1⟩

theorem operations_made {B : Type} {tt : TypeTable B} {i : Doc.Interface} {t : Doc.TagStyle} {d : SDocument} {d' : Doc.Document}
    {l : List AskedType} (hd : DocumentTyped u types d d' l) {ms : List Processed} {cs : List Code}
    (hg : Doc.generate u types tt i t d' = .ok (ms, cs)) :
    Forall₂ (OperationMade d.components u types l) (schemaRoutes d) (ms.zip cs) := by
  have hcodes := C66_code hg
  obtain ⟨ms', h1, h⟩ := Params.bind_ok_inv hg
  obtain ⟨cs', h2, h⟩ := Params.bind_ok_inv h
  cases h
  have hops := processAll_made (rawMethods_ok h1).2
  rw [routes_eq] at hops
  have hr := routes_typed hd.2
  unfold routes at hops
  unfold schemaRoutes
  revert hr hops hcodes
  generalize (d.paths.flatMap fun p => (p.2.getD []).map fun e => (p.1, e.1, e.2)) = os
  generalize (d'.paths.flatMap fun p => (p.2.getD []).map fun e => (p.1, e.1, e.2)) = os'
  clear h1 h2 hg hd h
  intro hcodes hops hr
  induction hr generalizing ms cs with
  | nil => cases hops; cases hcodes; exact .nil
  | cons k1 _ ih =>
    cases hops with
    | cons k2 hops =>
      cases hcodes with
      | cons k3 hcodes =>
        refine .cons ?_ (ih hcodes hops)
        obtain ⟨e1, e2, id, l0, hid, hid', hop, hsub⟩ := k1
        obtain ⟨id', hid2, hp⟩ := k2
        rw [hid'] at hid2
        cases hid2
        rw [e1, e2] at hp
        exact ⟨id, _, l0, hid, hop, hsub, hp, k3⟩

/-! ## Replies -/

theorem codes_typed {cs : List (DocStatus × RefOr SContent)} {cs' : List (DocStatus × DocResponse)}
    {R : RefOr SContent → DocResponse → Prop} (hfst : cs'.map Prod.fst = cs.map Prod.fst)
    (h : Forall₂ R (cs.map Prod.snd) (cs'.map Prod.snd)) : ∀ e ∈ cs, ∃ x, (e.1, x) ∈ cs' ∧ R e.2 x := by
  induction cs generalizing cs' with
  | nil => simp
  | cons c cs ih =>
    cases cs' with
    | nil => cases h
    | cons c' cs' =>
      simp only [List.map_cons, List.cons.injEq] at hfst
      cases h with
      | cons h1 h2 =>
        intro e he
        rcases List.mem_cons.mp he with rfl | he
        · exact ⟨c'.2, by rw [← hfst.1]; simp, h1⟩
        · obtain ⟨x, hx, hr⟩ := ih hfst.2 h2 e he
          exact ⟨x, List.mem_cons_of_mem _ hx, hr⟩

theorem typed_default {R : RefOr SContent → DocResponse → Prop} {df : Option (RefOr SContent)} {df' : Option DocResponse}
    {cs : List (RefOr SContent)} {cs' : List DocResponse} (hs : df'.isSome = df.isSome)
    (h : Forall₂ R (df.toList ++ cs) (df'.toList ++ cs')) :
    (∀ r, df = some r → ∃ x, df' = some x ∧ R r x) ∧ Forall₂ R cs cs' := by
  cases df with
  | none =>
    cases df' with
    | none => exact ⟨nofun, h⟩
    | some x => cases hs
  | some r =>
    cases df' with
    | none => cases hs
    | some x =>
      cases h with
      | cons h1 h2 => exact ⟨fun r' e => ⟨x, rfl, by cases e; exact h1⟩, h2⟩

theorem response_carries {ws : Bool} {r : RefOr SContent} {c : DocResponse} {m0 : List AskedType} {k : Resp.Kind}
    (h : ResponseTyped comps u id r c m0) (hk : Carries ws c k) {s : OSchema} (hs : JsonSchemaOf comps r s) :
    ∃ q t, (q, t) ∈ m0 ∧ Wants u id "response".toList s q ∧ k = .type t := by
  obtain ⟨pre, m, mt, post, hlead, hpre, hm, hsch⟩ := hs
  cases h with
  | @json pre2 pre' m2 mt2 post2 post' s' q t hr2 hp2 hj2 hs2 hw2 hpre2 hpost2 =>
    have he := leadsTo_unique hlead hr2
    have e1 := typedMedia_first (mt := mt) (post := post) hpre hm
    rw [he, typedMedia_first hp2 hj2] at e1
    cases e1
    rw [hsch] at hs2
    cases hs2
    refine ⟨q, t, List.mem_cons_self, hw2, ?_⟩
    have hm' : Resp.jsonMedia (pre' ++ (m2, ⟨mt.encodingEmpty, some t⟩) :: post') = some ⟨mt.encodingEmpty, some t⟩ :=
      jsonMedia_some.mpr ⟨pre', m2, post', rfl, hj2, sameMedia_json hpre2 hp2⟩
    have hk := C24_kind.mpr hk
    simp only [Resp.kindOf, hm'] at hk
    split at hk
    · injection hk with hk; exact hk.symm
    · cases hk
  | @other c c' hr2 hn hsame =>
    have he := leadsTo_unique hlead hr2
    exact absurd hm (hn (m, mt) (by rw [← he]; simp))

theorem treats_type {d : SOperation} {d' : DocOperation} {l : List AskedType} (h : OperationTyped comps u types id d d' l)
    {path method : Str} {P : Processed}
    (hp : processOperation (sanitize u .snake) types path method { d' with operationId := id } = .ok P)
    {n : Nat} {r : RefOr SContent} (hr : DescribedReply d n r) {s : OSchema} (hs : JsonSchemaOf comps r s) :
    ∃ q t, (q, t) ∈ l ∧ Wants u id "response".toList s q ∧
      (IsSuccess n → Treats d'.websocket d'.default d'.codes n (.ok (.type t))) ∧
      (IsFailure n → Treats d'.websocket d'.default d'.codes n (.err (.type t))) := by
  obtain ⟨_, hws, _, pl2, ol2, l1, l2, l3, rfl, _, _, _, _, _, _, hcodes, hdef, hrs⟩ := h
  obtain ⟨_, _, _, hproc, _⟩ := processOperation_inv hp
  have hcarry : (∀ x, d'.default = some x → ∃ k, Carries d'.websocket x k) ∧
      ∀ e ∈ d'.codes, ∃ k, Carries d'.websocket e.2 k := by
    constructor
    · intro x hx
      obtain ⟨k, hk⟩ := default_kind hproc x hx
      exact ⟨k, C24_kind.mp hk⟩
    · intro e he
      obtain ⟨k, hk⟩ := codes_kinds hproc e he
      exact ⟨k, C24_kind.mp hk⟩
  obtain ⟨hdf, hcs⟩ := typed_default hdef (responsesTyped_mem hrs)
  have hcs := codes_typed hcodes hcs
  have hmem : ∀ c, c ∈ d'.codes.map Prod.fst → c ∈ d.codes.map Prod.fst := fun c hc => by rw [← hcodes]; exact hc
  cases hr with
  | listed e he hcov =>
    obtain ⟨x, hx, m0, hm0, hsub⟩ := hcs e he
    obtain ⟨k, hk⟩ := hcarry.2 _ hx
    obtain ⟨q, t, hq, hw, rfl⟩ := response_carries hm0 hk hs
    exact ⟨q, t, List.mem_append_right _ (hsub _ hq), hw, fun h => .success _ _ hx hcov h hk, fun h => .failure _ _ hx hcov h hk⟩
  | default r hr hn =>
    obtain ⟨x, hx, m0, hm0, hsub⟩ := hdf r hr
    obtain ⟨k, hk⟩ := hcarry.1 _ hx
    obtain ⟨q, t, hq, hw, rfl⟩ := response_carries hm0 hk hs
    have hnl : NotListed d'.codes n := by
      intro e he hc
      obtain ⟨f, hf, hfe⟩ := List.mem_map.mp (hmem e.1 (List.mem_map_of_mem he))
      exact hn f hf (by rw [hfe]; exact hc)
    refine ⟨q, t, List.mem_append_right _ (hsub _ hq), hw, fun h => .successDefault _ _ hx h hnl hk, fun h =>
      .other _ _ hx ?_ ?_ (fun _ => hnl) hk (by simp)⟩
    · unfold IsSuccess; unfold IsFailure at h; omega
    · unfold IsFailure at h; intro e; omega

/-- Replies and the converted schemas. -/
theorem reply_converted {B P V : Type} {ι : Interp} {accepts : σ → Params.TypeId → Json → Prop} (ha : RightTypes lib ι accepts)
    {parse : Bytes → Option Json} {n : Nat} {tt : σ → TypeTable B} {i : Doc.Interface} {t : Doc.TagStyle} {d : SDocument} {s0 s1 : σ}
    {ms : List Processed} {cs : List Code} (h : Typed.generate lib n u tt i t d s0 = some (.ok ((ms, cs), s1))) :
    Forall₂ (fun (o : Str × Str × SRaw) (pc : Processed × Code) =>
      ∀ (cfg : Config) (hooks : Hooks) (w : World) (decode : Params.TypeId → Bytes → Except P V) (hist : List Event) (args : List Value)
        (r : Request) (answer : HttpResponse) (reply : RefOr SContent) (s : OSchema) (b : Bytes),
        ReadsTypes (accepts s1) parse decode → LooksOn hooks w → Issues cfg pc.1.op args r →
        w.server (hist ++ beforeSend hooks r) r = .ok answer → DescribedReply o.2.2.op answer.status reply →
        JsonSchemaOf d.components reply s → answer.body = .ok b →
        ∃ j, conv s = .ok j ∧ ReplyFollows (∃ v, parse b = some v ∧ JValid ι j v) decode answer b
          (call cfg hooks w decode pc.1.op.params pc.2 hist args).1)
      (schemaRoutes d) (ms.zip cs) := by
  obtain ⟨js, a, l, d', _, _, hcalls, hd, hg⟩ := C96_generate ha.lawful h
  refine forall₂_imp_mem ?_ (operations_made hd hg)
  rintro o - pc ⟨id, op', l0, hid, hop, hsub, hp, hc⟩
  intro cfg hooks w decode hist args r answer reply s b hreads hlook hissues hanswer hreply hschema hbody
  obtain ⟨q, ty, hq, hw, hok, herr⟩ := treats_type hop hp hreply hschema
  obtain ⟨_, _, _, hrs, _⟩ := processOperation_inv hp
  obtain ⟨_, _, _, hgen, _⟩ := methodSigBody_ok hc
  have hacc : Accepted op'.websocket op'.default op'.codes pc.2.dispatch := ⟨_, hrs, hgen⟩
  have hval : ∀ v, accepts s1 ty v ↔ JValid ι q.1 v := fun v => accepts_calls ha hcalls _ (hsub _ hq) v
  have hdec : (∃ v, decode ty b = .ok v) ↔ ∃ v, parse b = some v ∧ JValid ι q.1 v := by
    rw [hreads ty b]
    simp only [hval]
  obtain ⟨act, out, h1, h2, h3⟩ := C72_every_status decode hacc answer
  refine ⟨q.1, hw.1, ?_⟩
  rw [call_reply hc hissues hlook, hanswer, h3]
  constructor
  · intro hs
    cases C72_one_treatment hacc h1 (hok hs)
    cases h2 with
    | ok _ _ h2 =>
      cases h2 with
      | @typed _ b' v hb hv =>
        rw [hbody] at hb
        cases hb
        exact ⟨fun _ => ⟨ty, v, hv, rfl⟩, fun hn => absurd (hdec.mp ⟨v, hv⟩) hn⟩
      | @undecodable _ b' p hb hv =>
        rw [hbody] at hb
        cases hb
        refine ⟨fun hv' => ?_, fun _ => ⟨p, rfl⟩⟩
        obtain ⟨v, hv'⟩ := hdec.mpr hv'
        rw [hv] at hv'
        cases hv'
      | unreadable hb => rw [hbody] at hb; cases hb
  · intro hs
    cases C72_one_treatment hacc h1 (herr hs)
    cases h2 with
    | error _ _ h2 =>
      cases h2 with
      | @typed _ b' v hb hv =>
        rw [hbody] at hb
        cases hb
        exact ⟨fun _ => ⟨ty, v, hv, rfl⟩, fun hn => absurd (hdec.mp ⟨v, hv⟩) hn⟩
      | @undecodable _ b' p hb hv =>
        rw [hbody] at hb
        cases hb
        refine ⟨fun hv' => ?_, fun _ => ⟨p, rfl⟩⟩
        obtain ⟨v, hv'⟩ := hdec.mpr hv'
        rw [hv] at hv'
        cases hv'
      | unreadable hb => rw [hbody] at hb; cases hb

/-- C97: calls of a method that is generated for a document with schemas: when the server answers with a status for which the
document describes a JSON response, the caller gets a value (as a success or as an error response) exactly if the answer is JSON
that the schema in the document has after conversion; if not, the call fails with `InvalidResponsePayload`. -/
theorem C97_reply {B P V : Type} {ι : Interp} {accepts : σ → Params.TypeId → Json → Prop} (ha : RightTypes lib ι accepts)
    {parse : Bytes → Option Json} {n : Nat} {tt : σ → TypeTable B} {i : Doc.Interface} {t : Doc.TagStyle} {d : SDocument} {s0 s1 : σ}
    {ms : List Processed} {cs : List Code} (h : Typed.generate lib n u tt i t d s0 = some (.ok ((ms, cs), s1))) :
    Forall₂ (fun (o : Str × Str × SRaw) (pc : Processed × Code) =>
      ∀ (cfg : Config) (hooks : Hooks) (w : World) (decode : Params.TypeId → Bytes → Except P V) (hist : List Event) (args : List Value)
        (r : Request) (answer : HttpResponse) (reply : RefOr SContent) (s : OSchema) (b : Bytes),
        ReadsTypes (accepts s1) parse decode → LooksOn hooks w → Issues cfg pc.1.op args r →
        w.server (hist ++ beforeSend hooks r) r = .ok answer → DescribedReply o.2.2.op answer.status reply →
        JsonSchemaOf d.components reply s → Maps s → answer.body = .ok b →
        ReplyFollows (AcceptedBody ι parse s b) decode answer b (call cfg hooks w decode pc.1.op.params pc.2 hist args).1)
      (schemaRoutes d) (ms.zip cs) := by
  refine forall₂_imp_mem ?_ (reply_converted (P := P) (V := V) (parse := parse) ha h)
  intro o _ pc hpc cfg hooks w decode hist args r answer reply s b hreads hlook hissues hanswer hreply hschema hmaps hbody
  obtain ⟨j, hj, hf⟩ := hpc cfg hooks w decode hist args r answer reply s b hreads hlook hissues hanswer hreply hschema hbody
  have e : (∃ v, parse b = some v ∧ JValid ι j v) = AcceptedBody ι parse s b := by
    unfold AcceptedBody
    simp only [C45_exact hmaps hj]
  rwa [← e]

/-- C97: for schemas that keep their meaning, the same in terms of the schema in the document. -/
theorem C97_reply_partial {B P V : Type} {ι : Interp} {accepts : σ → Params.TypeId → Json → Prop} (ha : RightTypes lib ι accepts)
    {parse : Bytes → Option Json} {n : Nat} {tt : σ → TypeTable B} {i : Doc.Interface} {t : Doc.TagStyle} {d : SDocument} {s0 s1 : σ}
    {ms : List Processed} {cs : List Code} (h : Typed.generate lib n u tt i t d s0 = some (.ok ((ms, cs), s1))) :
    Forall₂ (fun (o : Str × Str × SRaw) (pc : Processed × Code) =>
      ∀ (cfg : Config) (hooks : Hooks) (w : World) (decode : Params.TypeId → Bytes → Except P V) (hist : List Event) (args : List Value)
        (r : Request) (answer : HttpResponse) (reply : RefOr SContent) (s : OSchema) (b : Bytes),
        ReadsTypes (accepts s1) parse decode → LooksOn hooks w → Issues cfg pc.1.op args r →
        w.server (hist ++ beforeSend hooks r) r = .ok answer → DescribedReply o.2.2.op answer.status reply →
        JsonSchemaOf d.components reply s → Faithful ι s → answer.body = .ok b →
        ReplyFollows (ValidBody ι parse s b) decode answer b (call cfg hooks w decode pc.1.op.params pc.2 hist args).1)
      (schemaRoutes d) (ms.zip cs) := by
  refine forall₂_imp_mem ?_ (reply_converted (P := P) (V := V) (parse := parse) ha h)
  intro o _ pc hpc cfg hooks w decode hist args r answer reply s b hreads hlook hissues hanswer hreply hschema hfaith hbody
  obtain ⟨j, hj, hf⟩ := hpc cfg hooks w decode hist args r answer reply s b hreads hlook hissues hanswer hreply hschema hbody
  have e : (∃ v, parse b = some v ∧ JValid ι j v) = ValidBody ι parse s b := by
    unfold ValidBody
    simp only [C45_valid_partial hfaith hj]
  rwa [← e]

/-! ## Bodies -/

/-- Bodies and the converted schemas. -/
theorem body_converted {B : Type} {ι : Interp} {accepts : σ → Params.TypeId → Json → Prop} (ha : RightTypes lib ι accepts)
    {parse : Bytes → Option Json} {n : Nat} {tt : σ → TypeTable B} {i : Doc.Interface} {t : Doc.TagStyle} {d : SDocument} {s0 s1 : σ}
    {ms : List Processed} {cs : List Code} (h : Typed.generate lib n u tt i t d s0 = some (.ok ((ms, cs), s1))) :
    Forall₂ (fun (o : Str × Str × SRaw) (pc : Processed × Code) =>
      ∀ (cfg : Config) (args : List Value) (r : Request) (body : RefOr SContent) (ct : Str) (m : SMedia) (s : OSchema),
        WritesTypes (accepts s1) parse cfg.toJson pc.1.op.params args → Issues cfg pc.1.op args r → o.2.2.op.body = some body →
        LeadsTo d.components SSections.bodies body [(ct, m)] → MediaBase ct "application/json".toList → m.schema = some s →
        ∃ j, conv s = .ok j ∧ ∃ b, r.body = some b ∧ ∃ v, parse b = some v ∧ JValid ι j v)
      (schemaRoutes d) (ms.zip cs) := by
  obtain ⟨js, a, l, d', _, _, hcalls, hd, hg⟩ := C96_generate ha.lawful h
  refine forall₂_imp_mem ?_ (operations_made hd hg)
  rintro o - pc ⟨id, op', l0, hid, hop, hsub, hp, hc⟩
  intro cfg args r body ct m s hwrites hissues hbody hlead hbase hsch
  obtain ⟨s', base, hs', hb', p, hpm, _, _, hcase⟩ := C96_body hop hp hbody hlead
  rw [hsch] at hs'
  cases hs'
  cases mediaBase_unique hb' hbase
  obtain ⟨hnamed, _⟩ := processOperation_inv hp
  obtain ⟨c, env, hc2, hbind, hbuild⟩ := hissues
  obtain ⟨_, hlen, _, _⟩ := bindArgs_some hbind
  obtain ⟨v, hv⟩ : ∃ v, (p, v) ∈ pc.1.op.params.zip args := by
    obtain ⟨k, hk, rfl⟩ := List.getElem_of_mem hpm
    exact ⟨args[k]'(by omega), by
      rw [List.mem_iff_getElem]
      exact ⟨k, by simp; omega, by simp⟩⟩
  rcases hcase with ⟨hk, q, t, hw, hq, hty⟩ | ⟨h, _⟩ | ⟨h, _⟩
  · have hk : p.kind = .body .json := by
      rcases hk with ⟨_, h⟩ | ⟨h, _⟩
      · exact h
      · exact absurd h (by decide)
    obtain ⟨b, hb, henc⟩ := C19_body cfg pc.1.op args r hnamed ⟨c, env, hc2, hbind, hbuild⟩ p v .json hv hk
    refine ⟨q.1, hw.1, b, hb, ?_⟩
    cases henc with
    | json _ x _ hx hj =>
      obtain ⟨j, hj1, hj2⟩ := hwrites p v hv t hty x b hx hj
      exact ⟨j, hj1, (accepts_calls ha hcalls _ (hsub _ hq) j).mp hj2⟩
  · exact absurd h (by decide)
  · exact absurd h (by decide)

/-- C97: the body of a request that a method sends is JSON that the schema in the document has after conversion, if the argument is
written as a JSON value of its type. -/
theorem C97_body {B : Type} {ι : Interp} {accepts : σ → Params.TypeId → Json → Prop} (ha : RightTypes lib ι accepts)
    {parse : Bytes → Option Json} {n : Nat} {tt : σ → TypeTable B} {i : Doc.Interface} {t : Doc.TagStyle} {d : SDocument} {s0 s1 : σ}
    {ms : List Processed} {cs : List Code} (h : Typed.generate lib n u tt i t d s0 = some (.ok ((ms, cs), s1))) :
    Forall₂ (fun (o : Str × Str × SRaw) (pc : Processed × Code) =>
      ∀ (cfg : Config) (args : List Value) (r : Request) (body : RefOr SContent) (ct : Str) (m : SMedia) (s : OSchema),
        WritesTypes (accepts s1) parse cfg.toJson pc.1.op.params args → Issues cfg pc.1.op args r → o.2.2.op.body = some body →
        LeadsTo d.components SSections.bodies body [(ct, m)] → MediaBase ct "application/json".toList → m.schema = some s →
        Maps s → ∃ b, r.body = some b ∧ AcceptedBody ι parse s b)
      (schemaRoutes d) (ms.zip cs) := by
  refine forall₂_imp_mem ?_ (body_converted (parse := parse) ha h)
  intro o _ pc hpc cfg args r body ct m s hwrites hissues hbody hlead hbase hsch hmaps
  obtain ⟨j, hj, b, hb, v, hv, hjv⟩ := hpc cfg args r body ct m s hwrites hissues hbody hlead hbase hsch
  exact ⟨b, hb, v, hv, (C45_exact hmaps hj v).mp hjv⟩

/-- C97: for schemas that keep their meaning, the body is valid for the schema in the document. -/
theorem C97_body_partial {B : Type} {ι : Interp} {accepts : σ → Params.TypeId → Json → Prop} (ha : RightTypes lib ι accepts)
    {parse : Bytes → Option Json} {n : Nat} {tt : σ → TypeTable B} {i : Doc.Interface} {t : Doc.TagStyle} {d : SDocument} {s0 s1 : σ}
    {ms : List Processed} {cs : List Code} (h : Typed.generate lib n u tt i t d s0 = some (.ok ((ms, cs), s1))) :
    Forall₂ (fun (o : Str × Str × SRaw) (pc : Processed × Code) =>
      ∀ (cfg : Config) (args : List Value) (r : Request) (body : RefOr SContent) (ct : Str) (m : SMedia) (s : OSchema),
        WritesTypes (accepts s1) parse cfg.toJson pc.1.op.params args → Issues cfg pc.1.op args r → o.2.2.op.body = some body →
        LeadsTo d.components SSections.bodies body [(ct, m)] → MediaBase ct "application/json".toList → m.schema = some s →
        Faithful ι s → ∃ b, r.body = some b ∧ ValidBody ι parse s b)
      (schemaRoutes d) (ms.zip cs) := by
  refine forall₂_imp_mem ?_ (body_converted (parse := parse) ha h)
  intro o _ pc hpc cfg args r body ct m s hwrites hissues hbody hlead hbase hsch hfaith
  obtain ⟨j, hj, b, hb, v, hv, hjv⟩ := hpc cfg args r body ct m s hwrites hissues hbody hlead hbase hsch
  exact ⟨b, hb, v, hv, (C45_valid_partial hfaith hj v).mp hjv⟩

end

/-! ## The example document -/

/-- A document with a JSON body and a JSON response. -/
def putDocument : SDocument where
  version := "3.0.3".toList
  paths := [("/name".toList, some [("put".toList, ⟨some "name_put".toList,
    { tags := [], pathLevel := [], opLevel := []
      body := some (.ref "#/components/requestBodies/name".toList)
      default := none
      codes := [(.code 200, .item [("application/json".toList, ⟨some (.string false ⟨.empty, none, [], none, some 5⟩), true⟩)])]
      websocket := false
      pagination := none }⟩)])]
  components := some
    { parameters := []
      bodies := [("name".toList, .item [("application/json".toList, ⟨some (.boolean false []), true⟩)])]
      responses := []
      schemas := [] }

def plainTable : TypeTable Unit := ⟨fun _ => none, fun _ => []⟩

def oneMethod {α : Type} : Run ((List Processed × List Code) × α) → Bool
  | some (.ok ((ms, cs), _)) => (ms.zip cs).length == 1
  | _ => false

example : ∃ ms cs s1, Typed.generate keeping 5 exUnicode (fun _ => plainTable) .positional .merged putDocument [] =
    some (.ok ((ms, cs), s1)) ∧ (ms.zip cs).length = 1 := by
  have h : oneMethod (Typed.generate keeping 5 exUnicode (fun _ => plainTable) .positional .merged putDocument []) = true := by
    decide +kernel
  revert h
  generalize Typed.generate keeping 5 exUnicode (fun _ => plainTable) .positional .merged putDocument [] = r
  intro h
  match r, h with
  | some (.ok ((ms, cs), s1)), h => exact ⟨ms, cs, s1, rfl, by simpa [oneMethod] using h⟩

/-- A response schema that accepts `null` in two ways. -/
def nullSchema : OSchema := .allOf true [.string true plainString]

def nullOperation : SOperation :=
  { tags := [], pathLevel := [], opLevel := [], body := none, default := none
    codes := [(.code 200, .item [("application/json".toList, ⟨some nullSchema, true⟩)])], websocket := false, pagination := none }

def nullDocument : SDocument where
  version := "3.0.3".toList
  paths := [("/name".toList, some [("get".toList, ⟨some "name_get".toList, nullOperation⟩)])]
  components := none

def plainConfig : Config := ⟨"http://a".toList, "1".toList, fun _ => true, fun _ => .error (), []⟩

/-- The request of the only method, called without arguments. -/
def onlyRequest {α : Type} : Run ((List Processed × List Code) × α) → Option Request
  | some (.ok (([p], [_]), _)) =>
    match methodSigBody p.op, bindArgs p.op.params [] with
    | .ok c', some env => match build plainConfig c' env with
      | .request r => some r
      | _ => none
    | _, _ => none
  | _ => none

/-- C97 fails without the guard: this response is valid for the schema in the document, and the caller gets an error. -/
theorem C97_reply_fails : ∃ p c s1, Typed.generate keeping 5 exUnicode (fun _ => plainTable) .positional .merged nullDocument [] =
      some (.ok (([p], [c]), s1)) ∧ (∃ cfg r, Issues cfg p.op [] r) ∧
    ∀ (ι : Interp) (parse : Bytes → Option Json) (P V : Type) (cfg : Config) (hooks : Hooks) (w : World)
      (decode : Params.TypeId → Bytes → Except P V) (hist : List Event) (r : Request) (answer : HttpResponse) (b : Bytes),
      ReadsTypes (fun t v => ∃ j, s1[t]? = some j ∧ JValid ι j v) parse decode → LooksOn hooks w → Issues cfg p.op [] r →
      w.server (hist ++ beforeSend hooks r) r = .ok answer → answer.status = 200 → answer.body = .ok b → parse b = some .null →
      ValidBody ι parse nullSchema b ∧ ∃ e, (call cfg hooks w decode p.op.params c hist []).1 =
        .returned (.error (.invalidResponsePayload b e)) := by
  have hr : (onlyRequest (Typed.generate keeping 5 exUnicode (fun _ => plainTable) .positional .merged nullDocument [])).isSome = true := by
    decide +kernel
  revert hr
  have hall := fun (P V : Type) (ι : Interp) (parse : Bytes → Option Json) ms cs s1 =>
    @reply_converted (σ := List JSchema) (P := P) (V := V) (B := Unit) (u := exUnicode) (parse := parse) (n := 5)
      (tt := fun _ => plainTable) (i := .positional) (t := .merged) (d := nullDocument) (s0 := []) (s1 := s1) (ms := ms) (cs := cs)
      (ha := keeping_right ι)
  revert hall
  generalize Typed.generate keeping 5 exUnicode (fun _ => plainTable) .positional .merged nullDocument [] = run
  intro hall hr
  match run, hr, hall with
  | some (.ok (([p], [c]), s1)), hr, hall =>
    refine ⟨p, c, s1, rfl, ?_, ?_⟩
    · simp only [onlyRequest] at hr
      split at hr
      · rename_i c' env hc he
        split at hr
        · rename_i r hb
          exact ⟨plainConfig, r, c', env, hc, he, hb⟩
        · cases hr
      · cases hr
    intro ι parse P V cfg hooks w decode hist r answer b hreads hlook hissues hanswer hstatus hbody hparse
    have hf := hall P V ι parse [p] [c] s1 rfl
    cases hf with
    | cons h _ =>
      obtain ⟨j, hj, hok, _⟩ := h cfg hooks w decode hist [] r answer _ nullSchema b hreads hlook hissues hanswer
        (.listed (.code 200, .item [("application/json".toList, ⟨some nullSchema, true⟩)]) (by simp [nullOperation])
          (by simpa [Covers, DocStatus.toStatus] using hstatus))
        ⟨[], "application/json".toList, ⟨some nullSchema, true⟩, [], rfl, by simp, (isJson_iff _).mp (by decide), rfl⟩ hbody
      have hn : ¬ JValid ι j .null := by
        cases hj
        rw [wrapper_ok, jsub_all]
        simp [JList, AllOf, jvalid_into, convString, instanceType, plainString, convFormat, convEnum, reduce, StrV.isDefault,
          ifGiven_none, ifGiven_some, JTypeOk, HasType, JArr, JObj, JSub]
      refine ⟨⟨_, hparse, by simp [OValid, nullSchema]⟩, (hok ⟨by omega, by omega⟩).2 ?_⟩
      rintro ⟨v, hv, hjv⟩
      rw [hparse] at hv
      cases hv
      exact hn hjv

example : DescribedReply (⟨[], [], [], none, none, [(.range 2, .item [])], false, none⟩ : SOperation) 204 (.item []) :=
  .listed (.range 2, .item []) (by simp) (by simp [Covers, DocStatus.toStatus])

example : JsonSchemaOf none (.item [("text/plain".toList, ⟨none, true⟩), ("application/json; charset=utf-8".toList, ⟨some (.boolean false []), true⟩)])
    (.boolean false []) :=
  ⟨[("text/plain".toList, ⟨none, true⟩)], _, _, [], rfl, by
    intro e he
    rw [List.mem_singleton.mp he, ← isJson_iff]
    decide, (isJson_iff _).mp (by decide), rfl⟩

/-- Deserialization as it should be exists for all types and texts. -/
example (accepts : Params.TypeId → Json → Prop) (parse : Bytes → Option Json) :
    ∃ decode : Params.TypeId → Bytes → Except Unit Unit, ReadsTypes accepts parse decode := by
  classical
  refine ⟨fun t b => if ∃ j, parse b = some j ∧ accepts t j then .ok () else .error (), fun t b => ?_⟩
  by_cases h : ∃ j, parse b = some j ∧ accepts t j
  · simp only []
    rw [if_pos h]
    exact ⟨fun _ => h, fun _ => ⟨(), rfl⟩⟩
  · simp only []
    rw [if_neg h]
    exact ⟨fun ⟨_, h⟩ => (nomatch h), fun h' => absurd h' h⟩

end Progenitor.Props

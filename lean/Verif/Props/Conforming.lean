import Verif.Props.TypedReply
import Verif.Spec.Conforming

/-!
# C98: a client accepts the answers that keep to the document, and no others
-/

namespace Progenitor.Props

open Progenitor Progenitor.Params Progenitor.Refs Progenitor.Resp Progenitor.Names Progenitor.Builder Progenitor.Exec
  Progenitor.Schema Progenitor.RefDoc Progenitor.Spec Progenitor.Typed Progenitor.Client

variable {σ : Type}

section

variable {lib : Library σ} {u : Unicode} {id : Str} {comps : Option SSections} {types : Types}

/-- What a response of the document is taken for. -/
def ResponseTaken (comps : Option SSections) (u : Unicode) (id : Str) (l : List AskedType) (r : RefOr SContent) (k : Resp.Kind) : Prop :=
  (∃ s q t, (q, t) ∈ l ∧ Wants u id "response".toList s q ∧ JsonSchemaOf comps r s ∧ k = .type t) ∨
    ((∀ s, ¬ JsonSchemaOf comps r s) ∧ (k = .none ∨ k = .raw))

theorem response_taken {r : RefOr SContent} {c : DocResponse} {m0 : List AskedType} {k : Resp.Kind}
    (h : ResponseTyped comps u id r c m0) (hk : Carries false c k) : ResponseTaken comps u id m0 r k := by
  cases h with
  | @json pre2 pre' m2 mt2 post2 post' s' q t hr2 hp2 hj2 hs2 hw2 hpre2 hpost2 =>
    have hs : JsonSchemaOf comps r s' := ⟨_, _, _, _, hr2, hp2, hj2, hs2⟩
    obtain ⟨q', t', hq, hw, rfl⟩ := response_carries (.json hr2 hp2 hj2 hs2 hw2 hpre2 hpost2) hk hs
    exact .inl ⟨_, _, _, hq, hw, hs, rfl⟩
  | @other c c' hr2 hn hsame =>
    refine .inr ⟨?_, ?_⟩
    · rintro s ⟨pre, m, mt, post, hlead, _, hm, _⟩
      have he := leadsTo_unique hlead hr2
      exact absurd hm (hn (m, mt) (by rw [← he]; simp))
    · cases hk with
      | json pre m mt post t _ hm _ _ =>
        exact absurd hm (sameMedia_json hsame hn (m, mt) (by simp))
      | upgrade _ h => cases h
      | none => exact .inl rfl
      | raw => exact .inr rfl

theorem ResponseTaken.mono {l l' : List AskedType} {r : RefOr SContent} {k : Resp.Kind} (h : ResponseTaken comps u id l r k)
    (hl : ∀ x ∈ l, x ∈ l') : ResponseTaken comps u id l' r k := by
  rcases h with ⟨s, q, t, hq, h⟩ | h
  · exact .inl ⟨s, q, t, hl _ hq, h⟩
  · exact .inr h

theorem treats_described {d : SOperation} {d' : DocOperation} {l : List AskedType} (h : OperationTyped comps u types id d d' l)
    {path method : Str} {P : Processed} (hw : d.websocket = false)
    (hp : processOperation (sanitize u .snake) types path method { d' with operationId := id } = .ok P) {n : Nat} :
    (∀ r, DescribedReply d n r → ∃ k, ResponseTaken comps u id l r k ∧
      (IsSuccess n → Treats d'.websocket d'.default d'.codes n (.ok k)) ∧
      (IsFailure n → Treats d'.websocket d'.default d'.codes n (.err k))) ∧
    ((∀ r, ¬ DescribedReply d n r) → IsSuccess n → SaysNoSuccess d → Treats d'.websocket d'.default d'.codes n (.ok .raw)) ∧
    ((∀ r, ¬ DescribedReply d n r) → IsSuccess n → ¬ SaysNoSuccess d → Treats d'.websocket d'.default d'.codes n .unexpected) ∧
    ((∀ r, ¬ DescribedReply d n r) → IsFailure n → Treats d'.websocket d'.default d'.codes n .unexpected) := by
  obtain ⟨_, hws, _, pl2, ol2, l1, l2, l3, rfl, _, _, _, _, _, _, hcodes, hdef, hrs⟩ := h
  obtain ⟨_, _, _, hproc, _⟩ := processOperation_inv hp
  have hwf : d'.websocket = false := by rw [hws]; exact hw
  have hcarry : (∀ x, d'.default = some x → ∃ k, Carries d'.websocket x k) ∧
      ∀ e ∈ d'.codes, ∃ k, Carries d'.websocket e.2 k := by
    constructor
    · intro x hx
      obtain ⟨k, hk⟩ := default_kind hproc x hx
      exact ⟨k, C24_kind.mp hk⟩
    · intro e he
      obtain ⟨k, hk⟩ := codes_kinds hproc e he
      exact ⟨k, C24_kind.mp hk⟩
  obtain ⟨hdf, hcs⟩ := typed_default hdef (responsesTyped_mem hrs)
  have hcs := codes_typed hcodes hcs
  have hmem : ∀ c, c ∈ d'.codes.map Prod.fst ↔ c ∈ d.codes.map Prod.fst := fun c => by rw [← hcodes]
  have hnl : ∀ n, NotListed d'.codes n ↔ ∀ e ∈ d.codes, ¬ Covers e.1.toStatus n := by
    intro n
    constructor
    · intro hn e he hc
      obtain ⟨f, hf, hfe⟩ := List.mem_map.mp ((hmem e.1).mpr (List.mem_map_of_mem he))
      exact hn f hf (by rw [hfe]; exact hc)
    · intro hn e he hc
      obtain ⟨f, hf, hfe⟩ := List.mem_map.mp ((hmem e.1).mp (List.mem_map_of_mem he))
      exact hn f hf (by rw [hfe]; exact hc)
  have hdn : d.default = none → d'.default = none := by
    intro hn
    rw [hn] at hdef
    cases hd : d'.default with
    | none => rfl
    | some x => rw [hd] at hdef; cases hdef
  have hund : (∀ r, ¬ DescribedReply d n r) → d.default = none ∧ ∀ e ∈ d.codes, ¬ Covers e.1.toStatus n := by
    intro hu
    have h1 : ∀ e ∈ d.codes, ¬ Covers e.1.toStatus n := fun e he hc => hu _ (.listed e he hc)
    refine ⟨?_, h1⟩
    cases hd : d.default with
    | none => rfl
    | some r => exact absurd (.default r hd h1) (hu r)
  refine ⟨?_, ?_, ?_, ?_⟩
  · intro r hr
    cases hr with
    | listed e he hcov =>
      obtain ⟨x, hx, m0, hm0, hsub⟩ := hcs e he
      obtain ⟨k, hk⟩ := hcarry.2 _ hx
      refine ⟨k, ?_, fun h => .success _ _ hx hcov h hk, fun h => .failure _ _ hx hcov h hk⟩
      rw [hwf] at hk
      exact (response_taken hm0 hk).mono fun y hy => List.mem_append_right _ (hsub _ hy)
    | default r hr hn =>
      obtain ⟨x, hx, m0, hm0, hsub⟩ := hdf r hr
      obtain ⟨k, hk⟩ := hcarry.1 _ hx
      have hnl := (hnl n).mpr hn
      have hku : k ≠ .upgrade := by
        rintro rfl
        rw [hwf] at hk
        cases hk
        contradiction
      refine ⟨k, ?_, fun h => .successDefault _ _ hx h hnl hk, fun h => .other _ _ hx ?_ ?_ (fun _ => hnl) hk hku⟩
      · rw [hwf] at hk
        exact (response_taken hm0 hk).mono fun y hy => List.mem_append_right _ (hsub _ hy)
      · unfold IsSuccess; unfold IsFailure at h; omega
      · unfold IsFailure at h; intro e; omega
  · intro hu hs hno
    exact .successOther (hdn hno.1) hs fun s' hs' => (hnl s').mpr (hno.2 s' hs')
  · intro hu hs hno
    obtain ⟨h1, h2⟩ := hund hu
    refine .unexpected (fun x hx => ?_) (fun _ => ⟨(hnl n).mpr h2, ?_⟩) (fun e => ?_) (fun hf => (hnl n).mpr h2)
    · rw [hdn h1] at hx; cases hx
    · refine Classical.byContradiction fun hc => hno ⟨h1, fun m hm => (hnl m).mp ?_⟩
      refine Classical.byContradiction fun hc' => hc ⟨m, hm, hc'⟩
    · unfold IsSuccess at hs; omega
  · intro hu hs
    obtain ⟨h1, h2⟩ := hund hu
    refine .unexpected (fun x hx => ?_) (fun h => ?_) (fun e => ?_) (fun hf => (hnl n).mpr h2)
    · rw [hdn h1] at hx; cases hx
    · unfold IsFailure at hs; unfold IsSuccess at h; omega
    · unfold IsFailure at hs; omega

/-- What a client makes of an answer, in terms of the converted schemas. -/
theorem answer_converted {B P V : Type} {ι : Interp} {accepts : σ → Params.TypeId → Json → Prop} (ha : RightTypes lib ι accepts)
    {parse : Bytes → Option Json} {n : Nat} {tt : σ → TypeTable B} {i : Doc.Interface} {t : Doc.TagStyle} {d : SDocument} {s0 s1 : σ}
    {ms : List Processed} {cs : List Code} (h : Typed.generate lib n u tt i t d s0 = some (.ok ((ms, cs), s1)))
    {good : OSchema → Bytes → Prop} :
    Forall₂ (fun (o : Str × Str × SRaw) (pc : Processed × Code) =>
      ∀ (cfg : Config) (hooks : Hooks) (w : World) (decode : Params.TypeId → Bytes → Except P V) (hist : List Event) (args : List Value)
        (r : Request) (answer : HttpResponse),
        ReadsTypes (accepts s1) parse decode → LooksOn hooks w → Issues cfg pc.1.op args r → o.2.2.op.websocket = false →
        w.server (hist ++ beforeSend hooks r) r = .ok answer → (IsSuccess answer.status ∨ IsFailure answer.status) →
        (∀ reply s j b, DescribedReply o.2.2.op answer.status reply → JsonSchemaOf d.components reply s → conv s = .ok j →
          (good s b ↔ ∃ v, parse b = some v ∧ JValid ι j v)) →
        let res := (call cfg hooks w decode pc.1.op.params pc.2 hist args).1
        (HandedOver answer res ∧ (KeepsDocument good d.components o.2.2.op answer ∨ (IsSuccess answer.status ∧ SaysNoSuccess o.2.2.op))) ∨
          (Surprised o.2.2.op answer res ∧
            ¬ (KeepsDocument good d.components o.2.2.op answer ∨ (IsSuccess answer.status ∧ SaysNoSuccess o.2.2.op))))
      (schemaRoutes d) (ms.zip cs) := by
  obtain ⟨js, a, l, d', _, _, hcalls, hd, hg⟩ := C96_generate ha.lawful h
  refine forall₂_imp_mem ?_ (operations_made hd hg)
  rintro o - pc ⟨id, op', l0, hid, hop, hsub, hp, hc⟩
  intro cfg hooks w decode hist args r answer hreads hlook hissues hws hanswer hstatus hgood
  obtain ⟨_, _, _, hrs, _⟩ := processOperation_inv hp
  obtain ⟨_, _, _, hgen, _⟩ := methodSigBody_ok hc
  have hacc : Accepted op'.websocket op'.default op'.codes pc.2.dispatch := ⟨_, hrs, hgen⟩
  obtain ⟨hdesc, hraw, hunx, hunf⟩ := treats_described hop hws hp (n := answer.status)
  obtain ⟨act, out, h1, h2, h3⟩ := C72_every_status decode hacc answer
  simp only [call_reply hc hissues hlook, hanswer, h3]
  by_cases hex : ∃ reply, DescribedReply o.2.2.op answer.status reply
  · obtain ⟨reply, hreply⟩ := hex
    obtain ⟨k, htaken, hok, herr⟩ := hdesc reply hreply
    have hnosucc : ¬ (IsSuccess answer.status ∧ SaysNoSuccess o.2.2.op) := by
      rintro ⟨hs, hn, hno⟩
      cases hreply with
      | listed e he hcov => exact hno _ hs e he hcov
      | default r hr _ => rw [hn] at hr; cases hr
    -- the meaning of keeping to the document for the kind
    have hkeeps : KeepsDocument good d.components o.2.2.op answer ↔
        ∀ ty, k = .type ty → ∃ b, answer.body = .ok b ∧ ∃ v, decode ty b = .ok v := by
      have hty : ∀ reply', DescribedReply o.2.2.op answer.status reply' → ∀ k', ResponseTaken d.components u id l0 reply' k' →
          ((∀ s, JsonSchemaOf d.components reply' s → ∃ b, answer.body = .ok b ∧ good s b) ↔
            ∀ ty, k' = .type ty → ∃ b, answer.body = .ok b ∧ ∃ v, decode ty b = .ok v) := by
        intro reply' hr' k' hk'
        rcases hk' with ⟨s, q, ty, hq, hw, hs, rfl⟩ | ⟨hno, hk'⟩
        · have hval : ∀ v, accepts s1 ty v ↔ JValid ι q.1 v := fun v => accepts_calls ha hcalls _ (hsub _ hq) v
          have hdec : ∀ b, (∃ v, decode ty b = .ok v) ↔ good s b := by
            intro b
            rw [hreads ty b, hgood reply' s q.1 b hr' hs hw.1]
            simp only [hval]
          constructor
          · intro h _ e
            cases e
            obtain ⟨b, hb, hg⟩ := h s hs
            exact ⟨b, hb, (hdec b).mpr hg⟩
          · intro h s' hs'
            obtain ⟨pre, m, mt, post, k1, k2, k3, k4⟩ := hs
            obtain ⟨pre', m', mt', post', k1', k2', k3', k4'⟩ := hs'
            have he := leadsTo_unique k1' k1
            have e1 := typedMedia_first (mt := mt') (post := post') k2' k3'
            rw [he, typedMedia_first k2 k3] at e1
            cases e1
            rw [k4] at k4'
            cases k4'
            obtain ⟨b, hb, hg⟩ := h ty rfl
            exact ⟨b, hb, (hdec b).mp hg⟩
        · constructor
          · rintro _ ty rfl
            rcases hk' with h | h <;> cases h
          · intro _ s hs
            exact absurd hs (hno s)
      constructor
      · rintro ⟨reply', hr', hk'⟩
        obtain ⟨k', ht', hok', herr'⟩ := hdesc reply' hr'
        have hkk : k = k' := by
          rcases hstatus with hs | hs
          · have := C72_one_treatment hacc (hok hs) (hok' hs)
            injection this
          · have := C72_one_treatment hacc (herr hs) (herr' hs)
            injection this
        rw [hkk]
        exact (hty reply' hr' k' ht').mp hk'
      · intro hk'
        exact ⟨reply, hreply, (hty reply hreply k htaken).mpr hk'⟩
    have hku : k ≠ .upgrade := by
      rcases htaken with ⟨_, _, _, _, _, _, rfl⟩ | ⟨_, rfl | rfl⟩ <;> simp
    rcases hstatus with hs | hs
    · cases C72_one_treatment hacc h1 (hok hs)
      cases h2 with
      | ok _ _ h2 =>
        cases h2 with
        | @typed ty b v hb hv =>
          refine .inl ⟨⟨_, .inl ⟨hs, rfl⟩⟩, .inl (hkeeps.mpr ?_)⟩
          intro ty' e; cases e; exact ⟨b, hb, v, hv⟩
        | @undecodable ty b p hb hv =>
          refine .inr ⟨.invalid reply b p hreply hb, ?_⟩
          rintro (hk | hk)
          · obtain ⟨b', hb', v, hv'⟩ := hkeeps.mp hk ty rfl
            rw [hb] at hb'; cases hb'
            rw [hv] at hv'; cases hv'
          · exact hnosucc hk
        | @unreadable ty e hb =>
          refine .inr ⟨.unreadable reply e hreply hb, ?_⟩
          rintro (hk | hk)
          · obtain ⟨b', hb', _⟩ := hkeeps.mp hk ty rfl
            rw [hb] at hb'; cases hb'
          · exact hnosucc hk
        | none => exact .inl ⟨⟨_, .inl ⟨hs, rfl⟩⟩, .inl (hkeeps.mpr nofun)⟩
        | raw => exact .inl ⟨⟨_, .inl ⟨hs, rfl⟩⟩, .inl (hkeeps.mpr nofun)⟩
        | upgraded => exact absurd rfl hku
        | notUpgraded => exact absurd rfl hku
        | noUpgrade => exact absurd rfl hku
    · cases C72_one_treatment hacc h1 (herr hs)
      cases h2 with
      | error _ _ h2 =>
        cases h2 with
        | @typed ty b v hb hv =>
          refine .inl ⟨⟨_, .inr ⟨hs, rfl⟩⟩, .inl (hkeeps.mpr ?_)⟩
          intro ty' e; cases e; exact ⟨b, hb, v, hv⟩
        | @undecodable ty b p hb hv =>
          refine .inr ⟨.invalid reply b p hreply hb, ?_⟩
          rintro (hk | hk)
          · obtain ⟨b', hb', v, hv'⟩ := hkeeps.mp hk ty rfl
            rw [hb] at hb'; cases hb'
            rw [hv] at hv'; cases hv'
          · exact hnosucc hk
        | @unreadable ty e hb =>
          refine .inr ⟨.unreadable reply e hreply hb, ?_⟩
          rintro (hk | hk)
          · obtain ⟨b', hb', _⟩ := hkeeps.mp hk ty rfl
            rw [hb] at hb'; cases hb'
          · exact hnosucc hk
        | none => exact .inl ⟨⟨_, .inr ⟨hs, rfl⟩⟩, .inl (hkeeps.mpr nofun)⟩
        | raw => exact .inl ⟨⟨_, .inr ⟨hs, rfl⟩⟩, .inl (hkeeps.mpr nofun)⟩
  · have hund : ∀ reply, ¬ DescribedReply o.2.2.op answer.status reply := fun reply hr => hex ⟨reply, hr⟩
    have hnk : ¬ KeepsDocument good d.components o.2.2.op answer := fun ⟨reply, hr, _⟩ => hund reply hr
    rcases hstatus with hs | hs
    · by_cases hno : SaysNoSuccess o.2.2.op
      · cases C72_one_treatment hacc h1 (hraw hund hs hno)
        cases h2 with
        | ok _ _ h2 =>
          cases h2
          exact .inl ⟨⟨_, .inl ⟨hs, rfl⟩⟩, .inr ⟨hs, hno⟩⟩
      · cases C72_one_treatment hacc h1 (hunx hund hs hno)
        cases h2
        refine .inr ⟨.unexpected hund, ?_⟩
        rintro (hk | hk)
        · exact hnk hk
        · exact hno hk.2
    · cases C72_one_treatment hacc h1 (hunf hund hs)
      cases h2
      refine .inr ⟨.unexpected hund, ?_⟩
      rintro (hk | hk)
      · exact hnk hk
      · have := hk.1; unfold IsSuccess at this; unfold IsFailure at hs; omega

theorem handed_not_surprised {P V : Type} {op : SOperation} {answer : HttpResponse} {res : Result P V} (h : HandedOver answer res) :
    ¬ Surprised op answer res := by
  obtain ⟨v, ⟨_, rfl⟩ | ⟨_, rfl⟩⟩ := h
  · exact nofun
  · exact nofun

/-- C98: a method that is generated for a document with schemas hands an answer over to the caller, as a success or as an error
response, exactly if the answer keeps to the document (or is a success, and the document does not say what that is); for any other
answer the caller gets an error that says so. Schemas mean what they are after conversion. -/
theorem C98_conforming_iff {B P V : Type} {ι : Interp} {accepts : σ → Params.TypeId → Json → Prop} (ha : RightTypes lib ι accepts)
    {parse : Bytes → Option Json} {n : Nat} {tt : σ → TypeTable B} {i : Doc.Interface} {t : Doc.TagStyle} {d : SDocument} {s0 s1 : σ}
    {ms : List Processed} {cs : List Code} (h : Typed.generate lib n u tt i t d s0 = some (.ok ((ms, cs), s1))) :
    Forall₂ (fun (o : Str × Str × SRaw) (pc : Processed × Code) =>
      ∀ (cfg : Config) (hooks : Hooks) (w : World) (decode : Params.TypeId → Bytes → Except P V) (hist : List Event) (args : List Value)
        (r : Request) (answer : HttpResponse),
        ReadsTypes (accepts s1) parse decode → LooksOn hooks w → Issues cfg pc.1.op args r → o.2.2.op.websocket = false →
        w.server (hist ++ beforeSend hooks r) r = .ok answer → (IsSuccess answer.status ∨ IsFailure answer.status) →
        (∀ reply s, DescribedReply o.2.2.op answer.status reply → JsonSchemaOf d.components reply s → Maps s) →
        let res := (call cfg hooks w decode pc.1.op.params pc.2 hist args).1
        let kept := KeepsDocument (AcceptedBody ι parse) d.components o.2.2.op answer ∨ (IsSuccess answer.status ∧ SaysNoSuccess o.2.2.op)
        (HandedOver answer res ↔ kept) ∧ (Surprised o.2.2.op answer res ↔ ¬ kept))
      (schemaRoutes d) (ms.zip cs) := by
  refine forall₂_imp_mem ?_ (answer_converted (P := P) (V := V) (parse := parse) (good := AcceptedBody ι parse) ha h)
  intro o _ pc hpc cfg hooks w decode hist args r answer hreads hlook hissues hws hanswer hstatus hmaps
  have := hpc cfg hooks w decode hist args r answer hreads hlook hissues hws hanswer hstatus (by
    intro reply s j b hr hs hj
    unfold AcceptedBody
    simp only [C45_exact (hmaps reply s hr hs) hj])
  rcases this with ⟨h1, h2⟩ | ⟨h1, h2⟩
  · exact ⟨⟨fun _ => h2, fun _ => h1⟩, ⟨fun h => absurd h (handed_not_surprised h1), fun h => absurd h2 h⟩⟩
  · exact ⟨⟨fun h => absurd h1 (handed_not_surprised h), fun h => absurd h h2⟩, ⟨fun _ => h2, fun _ => h1⟩⟩

/-- C98: for schemas that keep their meaning, the same in terms of the schemas in the document. -/
theorem C98_conforming_partial {B P V : Type} {ι : Interp} {accepts : σ → Params.TypeId → Json → Prop} (ha : RightTypes lib ι accepts)
    {parse : Bytes → Option Json} {n : Nat} {tt : σ → TypeTable B} {i : Doc.Interface} {t : Doc.TagStyle} {d : SDocument} {s0 s1 : σ}
    {ms : List Processed} {cs : List Code} (h : Typed.generate lib n u tt i t d s0 = some (.ok ((ms, cs), s1))) :
    Forall₂ (fun (o : Str × Str × SRaw) (pc : Processed × Code) =>
      ∀ (cfg : Config) (hooks : Hooks) (w : World) (decode : Params.TypeId → Bytes → Except P V) (hist : List Event) (args : List Value)
        (r : Request) (answer : HttpResponse),
        ReadsTypes (accepts s1) parse decode → LooksOn hooks w → Issues cfg pc.1.op args r → o.2.2.op.websocket = false →
        w.server (hist ++ beforeSend hooks r) r = .ok answer → (IsSuccess answer.status ∨ IsFailure answer.status) →
        (∀ reply s, DescribedReply o.2.2.op answer.status reply → JsonSchemaOf d.components reply s → Faithful ι s) →
        let res := (call cfg hooks w decode pc.1.op.params pc.2 hist args).1
        let kept := KeepsDocument (ValidBody ι parse) d.components o.2.2.op answer ∨ (IsSuccess answer.status ∧ SaysNoSuccess o.2.2.op)
        (HandedOver answer res ↔ kept) ∧ (Surprised o.2.2.op answer res ↔ ¬ kept))
      (schemaRoutes d) (ms.zip cs) := by
  refine forall₂_imp_mem ?_ (answer_converted (P := P) (V := V) (parse := parse) (good := ValidBody ι parse) ha h)
  intro o _ pc hpc cfg hooks w decode hist args r answer hreads hlook hissues hws hanswer hstatus hfaith
  have := hpc cfg hooks w decode hist args r answer hreads hlook hissues hws hanswer hstatus (by
    intro reply s j b hr hs hj
    unfold ValidBody
    simp only [C45_valid_partial (hfaith reply s hr hs) hj])
  rcases this with ⟨h1, h2⟩ | ⟨h1, h2⟩
  · exact ⟨⟨fun _ => h2, fun _ => h1⟩, ⟨fun h => absurd h (handed_not_surprised h1), fun h => absurd h2 h⟩⟩
  · exact ⟨⟨fun h => absurd h1 (handed_not_surprised h), fun h => absurd h h2⟩, ⟨fun _ => h2, fun _ => h1⟩⟩

end

/-! ## Examples -/

/-- An operation with a JSON success, an error without a body, and nothing else. -/
def strictOperation : SOperation :=
  { tags := [], pathLevel := [], opLevel := [], body := none, default := none
    codes := [(.code 200, .item [("application/json".toList, ⟨some (.boolean false []), true⟩)]), (.range 4, .item [])]
    websocket := false, pagination := none }

/-- A 404 answer keeps to it whatever its body is, a 201 answer does not. -/
example (good : OSchema → Bytes → Prop) (answer : HttpResponse) (h : answer.status = 404) :
    KeepsDocument good none strictOperation answer := by
  refine ⟨_, .listed (.range 4, .item []) (by simp [strictOperation]) (by simp [Covers, DocStatus.toStatus, h]), ?_⟩
  rintro s ⟨pre, m, mt, post, hl, _⟩
  cases pre <;> cases hl

example (good : OSchema → Bytes → Prop) (answer : HttpResponse) (h : answer.status = 201) :
    ¬ KeepsDocument good none strictOperation answer ∧ ¬ SaysNoSuccess strictOperation := by
  constructor
  · rintro ⟨reply, hr, _⟩
    cases hr with
    | listed e he hc =>
      simp only [strictOperation, List.mem_cons, List.not_mem_nil, or_false] at he
      rcases he with rfl | rfl <;> simp [Covers, DocStatus.toStatus, h] at hc
    | default r hr _ => cases hr
  · rintro ⟨_, hn⟩
    exact hn 200 ⟨by omega, by omega⟩ _ (List.mem_cons_self ..) rfl

/-- A 200 answer keeps to it if its body is good for the schema. -/
example (good : OSchema → Bytes → Prop) (answer : HttpResponse) (b : Bytes) (h : answer.status = 200) (hb : answer.body = .ok b)
    (hg : good (.boolean false []) b) : KeepsDocument good none strictOperation answer := by
  refine ⟨_, .listed (.code 200, .item [("application/json".toList, ⟨some (.boolean false []), true⟩)]) (by simp [strictOperation])
    (by simp [Covers, DocStatus.toStatus, h]), ?_⟩
  rintro s ⟨pre, m, mt, post, hl, _, _, hs⟩
  refine ⟨b, hb, ?_⟩
  match pre, hl with
  | [], hl => cases hl; cases hs; exact hg
  | [_], hl => cases hl
  | _ :: _ :: _, hl => cases hl

end Progenitor.Props

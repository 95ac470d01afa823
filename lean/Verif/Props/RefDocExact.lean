import Verif.Props.RefDoc

/-!
# C83: exactly when a document with references is accepted
-/

namespace Progenitor.Props

open Progenitor Progenitor.Params Progenitor.Refs Progenitor.RefDoc Progenitor.Resp Progenitor.Spec Progenitor.Names
  Progenitor.Builder Progenitor.Exec

/-! ## More calls do not change results -/

/-- A result that is there stays when more calls are allowed. -/
def Mono {α : Type} (f : Nat → Run α) : Prop := ∀ n n' r, n ≤ n' → f n = some r → f n' = some r

theorem mono_const {α : Type} (r : Run α) : Mono fun _ => r := fun _ _ _ _ h => h

theorem mono_resolve {T : Type} (cs : Components T) (a : RefOr T) : Mono fun n => (resolve cs n a : Run T) :=
  fun _ _ _ hn h => resolve_mono hn h

theorem mono_bind {α β : Type} {f : Nat → Run α} {g : Nat → α → Run β} (hf : Mono f) (hg : ∀ a, Mono fun n => g n a) :
    Mono fun n => (f n >>= g n : Run β) := by
  intro n n' r hn h
  have h : Run.bind (f n) (g n) = some r := h
  show Run.bind (f n') (g n') = some r
  cases hx : f n with
  | none => rw [hx] at h; cases h
  | some x =>
    rw [hf n n' x hn hx]
    rw [hx] at h
    cases x with
    | ok a => exact hg a n n' r hn h
    | err m => exact h
    | panic m => exact h

theorem mono_items {T : Type} (cs : Components T) (l : List (RefOr T)) : Mono fun n => items n cs l := by
  induction l with
  | nil => exact mono_const _
  | cons a l ih => exact mono_bind (mono_resolve cs a) fun x => mono_bind ih fun xs => mono_const _

theorem mono_bodyType (c : Option Sections) (t : ContentType) (m : RefMedia) (s : RefOr SchemaFacts × Params.TypeId) :
    Mono fun n => bodyTypeRef c n t m s := by
  cases t with
  | octetStream => exact mono_bind (mono_resolve _ _) fun f => mono_const _
  | text t => exact mono_bind (mono_resolve _ _) fun f => mono_const _
  | json => exact mono_const _
  | form => exact mono_const _

theorem mono_bodyOf (c : Option Sections) (x : RefContent) : Mono fun n => bodyOf c n x := by
  match x with
  | [] => exact mono_const _
  | [(ct, m)] =>
    cases hs : m.schema with
    | none => simp only [bodyOf, hs]; exact mono_const _
    | some s =>
      simp only [bodyOf, hs]
      exact mono_bind (mono_const _) fun t => mono_bind (mono_bodyType c t m s) fun ty => mono_const _
  | _ :: _ :: _ => exact mono_const _

theorem mono_body (c : Option Sections) (b : Option (RefOr RefContent)) : Mono fun n => getBodyRef c n b := by
  cases b with
  | none => exact mono_const _
  | some b => exact mono_bind (mono_resolve _ _) fun x => mono_bodyOf c x

theorem mono_convert (c : Option Sections) (ws : Bool) (l : List (Status × RefOr DocResponse)) :
    Mono fun n => convertRefs c n ws l := by
  induction l with
  | nil => exact mono_const _
  | cons e l ih =>
    exact mono_bind (mono_resolve _ _) fun x => mono_bind (mono_const _) fun k => mono_bind ih fun rs => mono_const _

theorem mono_process (c : Option Sections) (san : Str → Str) (types : Types) (path method : Str) (d : RefOperation) :
    Mono fun n => processRef c n san types path method d :=
  mono_bind (mono_items _ _) fun _ => mono_bind (mono_items _ _) fun _ => mono_bind (mono_const _) fun _ =>
    mono_bind (mono_body c _) fun _ => mono_bind (mono_const _) fun _ => mono_bind (mono_const _) fun _ =>
    mono_bind (mono_bind (mono_convert c _ _) fun _ => mono_const _) fun _ => mono_bind (mono_const _) fun _ =>
    mono_bind (mono_const _) fun _ => mono_const _

theorem mono_processAll (c : Option Sections) (u : Unicode) (types : Types) (os : List (Str × Str × RefRaw)) :
    Mono fun n => processAllRef c n u types os := by
  induction os with
  | nil => exact mono_const _
  | cons o os ih =>
    refine mono_bind ?_ fun p => mono_bind ih fun ps => mono_const _
    unfold processOneRef
    cases o.2.2.id with
    | none => exact mono_const _
    | some id => exact mono_process c _ types _ _ _

/-- C83: whether following references ends, and what comes of it, does not depend on how many calls are allowed. -/
theorem generateRef_mono {B : Type} (u : Unicode) (types : Types) (tt : TypeTable B) (i : Doc.Interface) (t : Doc.TagStyle)
    (d : RefDocument) : Mono fun n => generateRef n u types tt i t d :=
  mono_bind (mono_const _) fun _ => mono_bind (mono_processAll _ u types _) fun _ => mono_bind (mono_const _) fun _ => mono_const _

/-! ## What was resolved stands for something -/

theorem run_bind_ok {α β : Type} {f : Run α} {g : α → Run β} {b : β} (h : (f >>= g : Run β) = some (.ok b)) :
    ∃ a, f = some (.ok a) ∧ g a = some (.ok b) := by
  have h : Run.bind f g = some (.ok b) := h
  cases f with
  | none => cases h
  | some x =>
    cases x with
    | ok a => exact ⟨a, rfl, h⟩
    | err m => cases h
    | panic m => cases h

theorem keyOf_unique {r k k' : Str} (h : KeyOf r k) (h' : KeyOf r k') : k = k' := by
  rw [← afterSlash_some] at h h'
  rw [h] at h'
  exact Option.some.inj h'

theorem denotes_stands {T : Type} {sec : Str} {m : List (Str × RefOr T)} {a : RefOr T} {x : T}
    (hm : ∀ e ∈ m, ∀ r ∈ refOf e.2, Unescaped r ∧ ∃ k, NamesComponent sec r k)
    (ha : ∀ r ∈ refOf a, Unescaped r ∧ ∃ k, NamesComponent sec r k) (h : Denotes m a x) : StandsFor sec m a x := by
  induction h with
  | item x => exact .item x
  | step h1 _ ih =>
    obtain ⟨r, k, rfl, h2, h3⟩ := h1
    obtain ⟨hu, k', hk⟩ := ha r (by simp [refOf])
    have := keyOf_unique h2 (names_key hu hk)
    subst this
    refine .ref hk h3 (ih ?_)
    obtain ⟨pre, post, rfl, _⟩ := h3
    exact hm (k, _) (by simp)

theorem resolve_stands {T : Type} {sec : Str} {c : Option Sections} {sel : Sections → List (Str × RefOr T)}
    {n : Nat} {a : RefOr T} {x : T}
    (hm : ∀ e ∈ sel (sectionsOf c), ∀ r ∈ refOf e.2, Unescaped r ∧ ∃ k, NamesComponent sec r k)
    (ha : ∀ r ∈ refOf a, Unescaped r ∧ ∃ k, NamesComponent sec r k)
    (h : resolve (c.map sel) n a = some (.ok x)) : StandsFor sec (sel (sectionsOf c)) a x := by
  cases c with
  | none =>
    cases n with
    | zero => cases h
    | succ n =>
      cases a with
      | item y => cases h; exact .item _
      | ref r =>
        unfold resolve target at h
        simp only [Option.map_none] at h
        split at h <;> rename_i hx
        · split at hx <;> cases hx
        · cases h
        · cases h
  | some s => exact denotes_stands hm ha ((C55_denotes (sel s) a x).mp ⟨n, h⟩)

theorem exists_forall₂ {α β : Type} {R : α → β → Prop} {l : List α} (h : ∀ a ∈ l, ∃ b, R a b) : ∃ l', Forall₂ R l l' := by
  induction l with
  | nil => exact ⟨[], .nil⟩
  | cons a l ih =>
    obtain ⟨b, hb⟩ := h a (by simp)
    obtain ⟨l', hl⟩ := ih fun a ha => h a (by simp [ha])
    exact ⟨b :: l', .cons hb hl⟩

theorem exists_option₂ {α β : Type} {R : α → β → Prop} {o : Option α} (h : ∀ a ∈ o, ∃ b, R a b) : ∃ o', Option₂ R o o' := by
  cases o with
  | none => exact ⟨none, .none⟩
  | some a => obtain ⟨b, hb⟩ := h a rfl; exact ⟨some b, .some hb⟩

theorem stand_mem {α β : Type} {R S : α → β → Prop} {l : List α} {m : List β} (h : Forall₂ R l m)
    (hs : ∀ a ∈ l, ∀ b, R a b → S a b) : Forall₂ S l m := by
  induction h with
  | nil => exact .nil
  | cons h _ ih => exact .cons (hs _ (by simp) _ h) (ih fun a ha => hs a (by simp [ha]))

theorem items_ok {T : Type} {cs : Components T} {n : Nat} {l : List (RefOr T)} {l' : List T} (h : items n cs l = some (.ok l')) :
    Forall₂ (fun a x => resolve cs n a = some (.ok x)) l l' := by
  induction l generalizing l' with
  | nil => cases h; exact .nil
  | cons a l ih =>
    unfold items at h
    obtain ⟨x, h1, h⟩ := run_bind_ok h
    obtain ⟨xs, h2, h⟩ := run_bind_ok h
    cases h
    exact .cons h1 (ih h2)

theorem convertRefs_ok {c : Option Sections} {n : Nat} {ws : Bool} {l : List (Status × RefOr DocResponse)} {rs : List Response}
    (h : convertRefs c n ws l = some (.ok rs)) :
    ∀ e ∈ l, ∃ x, resolve (c.map Sections.responses) n e.2 = some (.ok x) := by
  induction l generalizing rs with
  | nil => intro e he; cases he
  | cons e l ih =>
    obtain ⟨s, r⟩ := e
    unfold convertRefs at h
    obtain ⟨x, h1, h⟩ := run_bind_ok h
    obtain ⟨k, _, h⟩ := run_bind_ok h
    obtain ⟨rs', h2, h⟩ := run_bind_ok h
    intro e he
    rcases List.mem_cons.mp he with rfl | he
    · exact ⟨x, h1⟩
    · exact ih h2 e he

theorem processAllRef_ok {c : Option Sections} {n : Nat} {u : Unicode} {types : Types} {os : List (Str × Str × RefRaw)}
    {ps : List Processed} (h : processAllRef c n u types os = some (.ok ps)) :
    ∀ o ∈ os, ∃ p, processOneRef c n u types o = some (.ok p) := by
  induction os generalizing ps with
  | nil => intro e he; cases he
  | cons o os ih =>
    unfold processAllRef at h
    obtain ⟨p, h1, h⟩ := run_bind_ok h
    obtain ⟨ps', h2, h⟩ := run_bind_ok h
    intro e he
    rcases List.mem_cons.mp he with rfl | he
    · exact ⟨p, h1⟩
    · exact ih h2 e he

/-- The contents of bodies, with their schemas. -/
theorem content_stands {c : Option Sections} {x : RefContent}
    (h : ∀ r ∈ contentRefs x, ∃ f, StandsFor "schemas".toList (sectionsOf c).schemas (.ref r) f) :
    ∃ x', Forall₂ (fun (e : Str × RefMedia) (e' : Str × BodyMedia) => e'.1 = e.1 ∧ MediaStands c e.2 e'.2) x x' := by
  refine exists_forall₂ fun e he => ?_
  obtain ⟨ct, m⟩ := e
  cases hs : m.schema with
  | none => exact ⟨(ct, ⟨none, m.encodingEmpty⟩), rfl, rfl, by simp only [hs]⟩
  | some s =>
    obtain ⟨f, hf⟩ : ∃ f, StandsFor "schemas".toList (sectionsOf c).schemas s.1 f := by
      cases hr : s.1 with
      | item f => exact ⟨f, .item f⟩
      | ref r =>
        refine h r ?_
        simp only [contentRefs, List.mem_flatMap]
        exact ⟨(ct, m), he, s, by simp [hs], by simp [hr, refOf]⟩
    exact ⟨(ct, ⟨some ⟨f.binaryString, f.plainString, s.2⟩, m.encodingEmpty⟩), rfl, rfl, by simp only [hs]; exact ⟨trivial, hf⟩⟩

/-- A reference that stands for contents: where they are. -/
theorem stands_schemas {sec : Str} {m : List (Str × RefOr RefContent)} {b : RefOr RefContent} {x : RefContent}
    (h : StandsFor sec m b x) : ∀ r ∈ contentRefs x, r ∈ bodySchemas b ∨ ∃ e ∈ m, r ∈ bodySchemas e.2 := by
  induction h with
  | item x => intro r hr; exact .inl hr
  | @ref r' k a x _ h2 _ ih =>
    intro r hr
    obtain ⟨pre, post, rfl, _⟩ := h2
    rcases ih r hr with h | h
    · exact .inr ⟨(k, a), by simp, h⟩
    · exact .inr h

section
open Progenitor.Doc

/-- C83, the converse: if a document whose references name components of their kind, without escapes, is accepted, then each of its
references stands for something. -/
theorem stands_of_accepted {B : Type} {u : Unicode} {types : Types} {tt : TypeTable B} {i : Interface} {t : TagStyle}
    {d : RefDocument} (hu : ∀ r ∈ docRefs d, Unescaped r) (ho : OwnSections d) {n : Nat} {out : List Processed × List Code}
    (h : generateRef n u types tt i t d = some (.ok out)) : ∃ d', DocStands d d' := by
  unfold generateRef at h
  obtain ⟨_, _, h⟩ := run_bind_ok h
  obtain ⟨ms, h1, h⟩ := run_bind_ok h
  have hall := processAllRef_ok h1
  have hcomp : ∀ r ∈ sectionRefs (sectionsOf d.components), Unescaped r := fun r hr =>
    hu r (by simp only [docRefs, List.mem_append]; exact .inl hr)
  have hop : ∀ o ∈ RefDoc.operations d, ∃ o' : DocOperation, OpStands d.components o.2.2.op o' := by
    intro o hmem
    have huo : ∀ r ∈ opRefs o.2.2.op, Unescaped r := fun r hr =>
      hu r (by simp only [docRefs, List.mem_append, List.mem_flatMap]; exact .inr ⟨o, hmem, hr⟩)
    obtain ⟨p, hp⟩ := hall o hmem
    unfold processOneRef at hp
    cases hid : o.2.2.id with
    | none => rw [hid] at hp; cases hp
    | some id =>
      rw [hid] at hp
      simp only [processRef] at hp
      obtain ⟨pl, g1, hp⟩ := run_bind_ok hp
      obtain ⟨ol, g2, hp⟩ := run_bind_ok hp
      obtain ⟨_, _, hp⟩ := run_bind_ok hp
      obtain ⟨body, g3, hp⟩ := run_bind_ok hp
      obtain ⟨_, _, hp⟩ := run_bind_ok hp
      obtain ⟨_, _, hp⟩ := run_bind_ok hp
      obtain ⟨rs, g4, hp⟩ := run_bind_ok hp
      have hpm : ∀ e ∈ (sectionsOf d.components).parameters, ∀ r ∈ refOf e.2,
          Unescaped r ∧ ∃ k, NamesComponent "parameters".toList r k := fun e he r hr =>
        ⟨sub_parameters hcomp e he r hr, ho.parameters r (List.mem_append_left _ (List.mem_flatMap.mpr ⟨e, he, hr⟩))⟩
      have hpl : Forall₂ (StandsFor "parameters".toList (sectionsOf d.components).parameters) o.2.2.op.pathLevel pl := by
        have := items_ok g1
        refine stand_mem this fun a ha x hx => ?_
        refine resolve_stands (sel := Sections.parameters) hpm (fun r hr => ⟨huo r ?_, ho.parameters r ?_⟩) hx
        · simp only [opRefs, List.mem_append, List.mem_flatMap]; exact .inl (.inl (.inl (.inl ⟨a, ha, hr⟩)))
        · refine List.mem_append_right _ (List.mem_flatMap.mpr ⟨o, hmem, List.mem_append_left _ (List.mem_flatMap.mpr ⟨a, ha, hr⟩)⟩)
      have hol : Forall₂ (StandsFor "parameters".toList (sectionsOf d.components).parameters) o.2.2.op.opLevel ol := by
        have := items_ok g2
        refine stand_mem this fun a ha x hx => ?_
        refine resolve_stands (sel := Sections.parameters) hpm (fun r hr => ⟨huo r ?_, ho.parameters r ?_⟩) hx
        · simp only [opRefs, List.mem_append, List.mem_flatMap]; exact .inl (.inl (.inl (.inr ⟨a, ha, hr⟩)))
        · refine List.mem_append_right _ (List.mem_flatMap.mpr ⟨o, hmem, List.mem_append_right _ (List.mem_flatMap.mpr ⟨a, ha, hr⟩)⟩)
      obtain ⟨body', hbody⟩ : ∃ b', Option₂ (BodyStands d.components) o.2.2.op.body b' := by
        refine exists_option₂ fun b hb => ?_
        have hb : o.2.2.op.body = some b := hb
        simp only [hb] at g3
        unfold getBodyRef at g3
        obtain ⟨x, g5, g3⟩ := run_bind_ok g3
        have hst : StandsFor "requestBodies".toList (sectionsOf d.components).bodies b x := by
          refine resolve_stands (sel := Sections.bodies) (fun e he r hr => ⟨?_, ?_⟩) (fun r hr => ⟨huo r ?_, ho.bodies r ?_⟩) g5
          · exact sub_bodies hcomp e he r (refOf_bodyRefs hr)
          · exact ho.bodies r (List.mem_append_left _ (List.mem_flatMap.mpr ⟨e, he, hr⟩))
          · simp only [opRefs, List.mem_append, List.mem_flatMap]
            exact .inl (.inl (.inr ⟨b, by simp [hb], refOf_bodyRefs hr⟩))
          · exact List.mem_append_right _ (List.mem_flatMap.mpr ⟨o, hmem, List.mem_flatMap.mpr ⟨b, by simp [hb], hr⟩⟩)
        obtain ⟨x', hx'⟩ := content_stands (c := d.components) (x := x) fun r hr => by
          rcases stands_schemas hst r hr with h | ⟨e, he, h⟩
          · exact ho.schemas r (List.mem_append_right _ (List.mem_flatMap.mpr ⟨o, hmem, List.mem_flatMap.mpr ⟨b, by simp [hb], h⟩⟩))
          · exact ho.schemas r (List.mem_append_left _ (List.mem_flatMap.mpr ⟨e, he, h⟩))
        exact ⟨x', x, hst, hx'⟩
      unfold responsesRef at g4
      obtain ⟨rs', g5, _⟩ := run_bind_ok g4
      have hresp := convertRefs_ok g5
      have hrm : ∀ e ∈ (sectionsOf d.components).responses, ∀ r ∈ refOf e.2,
          Unescaped r ∧ ∃ k, NamesComponent "responses".toList r k := fun e he r hr =>
        ⟨sub_responses hcomp e he r hr, ho.responses r (List.mem_append_left _ (List.mem_flatMap.mpr ⟨e, he, hr⟩))⟩
      obtain ⟨df', hdf⟩ : ∃ b', Option₂ (StandsFor "responses".toList (sectionsOf d.components).responses) o.2.2.op.default b' := by
        refine exists_option₂ fun a ha => ?_
        have ha : o.2.2.op.default = some a := ha
        obtain ⟨x, hx⟩ := hresp (.default, a) (by simp [ha])
        refine ⟨x, resolve_stands (sel := Sections.responses) hrm (fun r hr => ⟨huo r ?_, ho.responses r ?_⟩) hx⟩
        · simp only [opRefs, List.mem_append, List.mem_flatMap]; exact .inl (.inr ⟨a, by simp [ha], hr⟩)
        · exact List.mem_append_right _ (List.mem_flatMap.mpr ⟨o, hmem, List.mem_append_left _ (List.mem_flatMap.mpr ⟨a, by simp [ha], hr⟩)⟩)
      obtain ⟨codes', hcodes⟩ : ∃ l', Forall₂ (fun (e : DocStatus × RefOr DocResponse) (e' : DocStatus × DocResponse) =>
          e'.1 = e.1 ∧ StandsFor "responses".toList (sectionsOf d.components).responses e.2 e'.2) o.2.2.op.codes l' := by
        refine exists_forall₂ fun e he => ?_
        obtain ⟨x, hx⟩ := hresp (e.1.toStatus, e.2) (List.mem_append_right _ (List.mem_map.mpr ⟨e, he, rfl⟩))
        refine ⟨(e.1, x), rfl, resolve_stands (sel := Sections.responses) hrm (fun r hr => ⟨huo r ?_, ho.responses r ?_⟩) hx⟩
        · simp only [opRefs, List.mem_append, List.mem_flatMap]; exact .inr ⟨e, he, hr⟩
        · exact List.mem_append_right _ (List.mem_flatMap.mpr ⟨o, hmem, List.mem_append_right _ (List.mem_flatMap.mpr ⟨e, he, hr⟩)⟩)
      exact ⟨{ operationId := o.2.2.op.operationId, tags := o.2.2.op.tags, pathLevel := pl, opLevel := ol, body := body',
               default := df', codes := codes', websocket := o.2.2.op.websocket, pagination := o.2.2.op.pagination },
        ⟨rfl, rfl, rfl, rfl, hpl, hol, hbody, hdf, hcodes⟩⟩
  obtain ⟨paths', hpaths⟩ : ∃ l', Forall₂ (fun (p : Str × Option (List (Str × RefRaw))) (p' : Str × Option (List (Str × RawOperation))) =>
      p'.1 = p.1 ∧ Option₂ (Forall₂ fun (e : Str × RefRaw) (e' : Str × RawOperation) => e'.1 = e.1 ∧ e'.2.id = e.2.id ∧
        OpStands d.components e.2.op e'.2.op) p.2 p'.2) d.paths l' := by
    refine exists_forall₂ fun p hp => ?_
    obtain ⟨ops', hops⟩ := exists_option₂ (R := Forall₂ fun (e : Str × RefRaw) (e' : Str × RawOperation) => e'.1 = e.1 ∧
        e'.2.id = e.2.id ∧ OpStands d.components e.2.op e'.2.op) (o := p.2) fun ops hops => by
      refine exists_forall₂ fun e he => ?_
      have hops : p.2 = some ops := hops
      obtain ⟨o', ho'⟩ := hop (p.1, e.1, e.2) (by
        refine List.mem_flatMap.mpr ⟨p, hp, ?_⟩
        rw [hops]
        exact List.mem_map.mpr ⟨e, he, rfl⟩)
      exact ⟨(e.1, ⟨e.2.id, o'⟩), rfl, rfl, ho'⟩
    exact ⟨(p.1, ops'), rfl, hops⟩
  exact ⟨⟨d.version, paths'⟩, rfl, hpaths⟩

/-- C83, exactly, for documents whose references name components of their kind and are written without escapes: such a document is
accepted, with a result, if and only if all its references stand for something and the document in which each is replaced by that is
accepted, with that result. -/
theorem C83_accepted_iff_partial {B : Type} (u : Unicode) (types : Types) (tt : TypeTable B) (i : Interface) (t : TagStyle)
    {d : RefDocument} (hu : ∀ r ∈ docRefs d, Unescaped r) (ho : OwnSections d) (out : List Processed × List Code) :
    (∃ n, generateRef n u types tt i t d = some (.ok out)) ↔
      ∃ d', DocStands d d' ∧ generate u types tt i t d' = .ok out := by
  constructor
  · rintro ⟨n, h⟩
    obtain ⟨d', hd⟩ := stands_of_accepted hu ho h
    refine ⟨d', hd, ?_⟩
    obtain ⟨N, hN⟩ := C83_inlined_partial u types tt i t hu hd
    have := generateRef_mono u types tt i t d n (max n N) _ (by omega) h
    have h2 := hN (max n N) (by omega)
    have this : generateRef (max n N) u types tt i t d = some (.ok out) := this
    rw [h2] at this
    exact Option.some.inj this
  · rintro ⟨d', hd, h⟩
    obtain ⟨N, hN⟩ := C83_inlined_partial u types tt i t hu hd
    exact ⟨N, by rw [hN N (Nat.le_refl N), h]⟩

end

/-- The example document with an alias of a parameter. -/
example : OwnSections (refDocument "limit".toList "#/components/parameters/alias".toList) := by
  constructor
  · intro r hr
    have hr : r ∈ ["#/components/parameters/limit".toList, "#/components/parameters/alias".toList] := hr
    simp only [List.mem_cons, List.not_mem_nil, or_false] at hr
    rcases hr with rfl | rfl
    · exact ⟨"limit".toList, names_plain (by decide +kernel) (by decide) (by decide)⟩
    · exact ⟨"alias".toList, names_plain (by decide +kernel) (by decide) (by decide)⟩
  · intro r hr
    have hr : r ∈ ["#/components/requestBodies/b".toList] := hr
    simp only [List.mem_cons, List.not_mem_nil, or_false] at hr
    subst hr
    exact ⟨"b".toList, names_plain (by decide +kernel) (by decide) (by decide)⟩
  · intro r hr
    have hr : r ∈ ["#/components/responses/ok".toList] := hr
    simp only [List.mem_cons, List.not_mem_nil, or_false] at hr
    subst hr
    exact ⟨"ok".toList, names_plain (by decide +kernel) (by decide) (by decide)⟩
  · intro r hr
    have hr : r ∈ ["#/components/schemas/s".toList] := hr
    simp only [List.mem_cons, List.not_mem_nil, or_false] at hr
    subst hr
    exact ⟨_, .ref (names_plain (k := "s".toList) (by decide +kernel) (by decide) (by decide)) ⟨[], [], rfl, by simp⟩ (.item _)⟩

end Progenitor.Props

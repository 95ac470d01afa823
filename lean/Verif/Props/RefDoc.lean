import Verif.Spec.Pointer
import Verif.Props.Misc
import Verif.Props.Wire
import Verif.Lemmas.Encode

/-!
# Theorems about documents with references
-/

namespace Progenitor.Props

open Progenitor Progenitor.Params Progenitor.Refs Progenitor.RefDoc Progenitor.Resp Progenitor.Spec Progenitor.Names
  Progenitor.Builder Progenitor.Exec

/-! ## Pointers -/

theorem percentDecode_plain {f : Str} (h : '%' ∉ f) : percentDecode f = utf8 f := by
  induction f with
  | nil => simp [percentDecode, utf8]
  | cons c f ih =>
    have hc : c ≠ '%' := fun e => h (by simp [e])
    rw [percentDecode_cons_ne c f hc, ih (fun hm => h (by simp [hm])), utf8_cons]

theorem token_plain {t k : Str} (h : Token t k) (ht : '~' ∉ t) : t = k ∧ '/' ∉ k := by
  induction h with
  | nil => simp
  | @char c t k h1 h2 _ ih =>
    obtain ⟨rfl, h3⟩ := ih (fun hm => ht (by simp [hm]))
    exact ⟨rfl, by simp [h3, Ne.symm h2]⟩
  | tilde => simp at ht
  | slash => simp at ht

theorem names_key {sec r k : Str} (hu : Unescaped r) (h : NamesComponent sec r k) : KeyOf r k := by
  obtain ⟨f, p, rfl, hd, hp⟩ := h
  have hf : '%' ∉ f := fun hm => hu.1 (by simp [hm])
  have ht : '~' ∉ f := fun hm => hu.2 (by simp [hm])
  rw [percentDecode_plain hf] at hd
  have := utf8_injective hd
  subst this
  cases hp with
  | cons h1 hp =>
    cases hp with
    | @cons t2 _ _ _ h2 hp =>
      cases hp with
      | @cons t3 _ _ _ h3 hp =>
        cases hp
        rename_i t1
        obtain ⟨rfl, hk⟩ := token_plain h3 (fun hm => ht (by simp [hm]))
        exact ⟨'#' :: '/' :: (t1 ++ '/' :: t2), by simp, hk⟩

theorem stands_denotes {T : Type} {sec : Str} {m : List (Str × RefOr T)} {a : RefOr T} {x : T}
    (hm : ∀ e ∈ m, ∀ r ∈ refOf e.2, Unescaped r) (ha : ∀ r ∈ refOf a, Unescaped r) (h : StandsFor sec m a x) :
    Denotes m a x := by
  induction h with
  | item x => exact .item x
  | @ref r k b x h1 h2 _ ih =>
    refine .step ⟨r, k, rfl, names_key (ha r (by simp [refOf])) h1, h2⟩ (ih ?_)
    obtain ⟨pre, post, rfl, _⟩ := h2
    exact hm (k, b) (by simp)

/-! ## Results for all large numbers of calls -/

/-- With enough calls the result is `r`. -/
def Eventually {α : Type} (f : Nat → Run α) (r : Res α) : Prop := ∃ N, ∀ n, N ≤ n → f n = some r

theorem run_ok {α β : Type} (a : α) (f : α → Run β) : bind (m := Run) (some (.ok a)) f = f a := rfl

theorem run_panic {α β : Type} (m : Str) (f : α → Run β) : bind (m := Run) (some (.panic m)) f = some (.panic m) := rfl

theorem ev_lift {α : Type} (r : Res α) : Eventually (fun _ => lift r) r := ⟨0, fun _ _ => rfl⟩

theorem ev_pure {α : Type} (a : α) : Eventually (fun _ => (pure a : Run α)) (.ok a) := ⟨0, fun _ _ => rfl⟩

theorem ev_bind {α β : Type} {f : Nat → Run α} {g : Nat → α → Run β} {x : Res α} {y : α → Res β}
    (hf : Eventually f x) (hg : ∀ a, x = .ok a → Eventually (fun n => g n a) (y a)) :
    Eventually (fun n => f n >>= g n) (x >>= y) := by
  obtain ⟨N, hN⟩ := hf
  cases x with
  | ok a =>
    obtain ⟨M, hM⟩ := hg a rfl
    refine ⟨max N M, fun n hn => ?_⟩
    show Run.bind (f n) (g n) = _
    rw [hN n (by omega)]
    exact hM n (by omega)
  | err m =>
    refine ⟨N, fun n hn => ?_⟩
    show Run.bind (f n) (g n) = _
    rw [hN n hn]; rfl
  | panic m =>
    refine ⟨N, fun n hn => ?_⟩
    show Run.bind (f n) (g n) = _
    rw [hN n hn]; rfl

theorem ev_ok {α β : Type} {f : Nat → Run α} {g : Nat → α → Run β} {a : α} {r : Res β}
    (hf : Eventually f (.ok a)) (hg : Eventually (fun n => g n a) r) : Eventually (fun n => f n >>= g n) r := by
  have := ev_bind (y := fun _ => r) hf (fun b hb => by cases hb; exact hg)
  exact this

theorem ev_resolve {T : Type} {sec : Str} {c : Option Sections} {sel : Sections → List (Str × RefOr T)}
    (hsel : sel ⟨[], [], [], []⟩ = []) {a : RefOr T} {x : T}
    (hm : ∀ e ∈ sel (sectionsOf c), ∀ r ∈ refOf e.2, Unescaped r) (ha : ∀ r ∈ refOf a, Unescaped r)
    (h : StandsFor sec (sel (sectionsOf c)) a x) :
    Eventually (fun n => resolve (c.map sel) n a) (.ok x) := by
  cases c with
  | none =>
    cases h with
    | item => exact ⟨1, fun n hn => by obtain ⟨k, rfl⟩ : ∃ k, n = k + 1 := ⟨n - 1, by omega⟩; rfl⟩
    | ref _ h2 _ =>
      obtain ⟨pre, post, h3, _⟩ := h2
      have h4 : sel (sectionsOf none) = [] := hsel
      rw [h4] at h3
      simp at h3
  | some s =>
    obtain ⟨N, hN⟩ := (C55_denotes (sel s) a x).mpr (stands_denotes hm ha h)
    exact ⟨N, fun n hn => resolve_mono hn hN⟩

theorem ev_items {T : Type} {cs : Components T} {R : RefOr T → T → Prop} {l : List (RefOr T)} {l' : List T}
    (h : Forall₂ R l l') (hr : ∀ a ∈ l, ∀ x, R a x → Eventually (fun n => resolve cs n a) (.ok x)) :
    Eventually (fun n => items n cs l) (.ok l') := by
  induction h with
  | nil => exact ev_pure []
  | @cons a x l l' h _ ih =>
    exact ev_ok (hr a (by simp) x h) (ev_ok (ih (fun b hb => hr b (by simp [hb]))) (ev_pure _))

/-! ## Operations -/

section
variable {c : Option Sections}

theorem sub_parameters (hc : ∀ r ∈ sectionRefs (sectionsOf c), Unescaped r) :
    ∀ e ∈ (sectionsOf c).parameters, ∀ r ∈ refOf e.2, Unescaped r := fun e he r hr =>
  hc r (by simp only [sectionRefs, List.mem_append, List.mem_flatMap]; exact .inl (.inl (.inl ⟨e, he, hr⟩)))

theorem sub_responses (hc : ∀ r ∈ sectionRefs (sectionsOf c), Unescaped r) :
    ∀ e ∈ (sectionsOf c).responses, ∀ r ∈ refOf e.2, Unescaped r := fun e he r hr =>
  hc r (by simp only [sectionRefs, List.mem_append, List.mem_flatMap]; exact .inl (.inr ⟨e, he, hr⟩))

theorem sub_schemas (hc : ∀ r ∈ sectionRefs (sectionsOf c), Unescaped r) :
    ∀ e ∈ (sectionsOf c).schemas, ∀ r ∈ refOf e.2, Unescaped r := fun e he r hr =>
  hc r (by simp only [sectionRefs, List.mem_append, List.mem_flatMap]; exact .inr ⟨e, he, hr⟩)

theorem sub_bodies (hc : ∀ r ∈ sectionRefs (sectionsOf c), Unescaped r) :
    ∀ e ∈ (sectionsOf c).bodies, ∀ r ∈ bodyRefs e.2, Unescaped r := fun e he r hr =>
  hc r (by simp only [sectionRefs, List.mem_append, List.mem_flatMap]; exact .inl (.inl (.inr ⟨e, he, hr⟩)))

theorem refOf_bodyRefs {b : RefOr RefContent} {r : Str} (h : r ∈ refOf b) : r ∈ bodyRefs b := by
  cases b with
  | item x => cases h
  | ref s => exact h

/-- The content that a body stands for has only references that were there. -/
theorem stands_content {sec : Str} {m : List (Str × RefOr RefContent)} {b : RefOr RefContent} {x : RefContent}
    (hm : ∀ e ∈ m, ∀ r ∈ bodyRefs e.2, Unescaped r) (hb : ∀ r ∈ bodyRefs b, Unescaped r)
    (h : StandsFor sec m b x) : ∀ r ∈ contentRefs x, Unescaped r := by
  induction h with
  | item x => exact hb
  | @ref r k a x _ h2 _ ih =>
    obtain ⟨pre, post, rfl, _⟩ := h2
    exact ih (hm (k, a) (by simp))

theorem ev_bodyType (hc : ∀ r ∈ sectionRefs (sectionsOf c), Unescaped r) (t : ContentType) (m : RefMedia) (m' : BodyMedia)
    (s : RefOr SchemaFacts × Params.TypeId) (s' : BodySchema) (hs : ∀ r ∈ refOf s.1, Unescaped r)
    (he : m'.encodingEmpty = m.encodingEmpty) (hty : s'.ty = s.2)
    (h : StandsFor "schemas".toList (sectionsOf c).schemas s.1 ⟨s'.binaryString, s'.plainString⟩) :
    Eventually (fun n => bodyTypeRef c n t m s) (bodyType t m' s') := by
  have hr := ev_resolve (c := c) (sel := Sections.schemas) rfl (sub_schemas hc) hs h
  cases t with
  | octetStream => exact ev_ok hr (ev_lift _)
  | text t => exact ev_ok hr (ev_lift _)
  | json => refine ⟨0, fun n _ => ?_⟩; simp only [bodyTypeRef, bodyType, lift, he, hty]; rfl
  | form => refine ⟨0, fun n _ => ?_⟩; simp only [bodyTypeRef, bodyType, lift, he, hty]; rfl

theorem ev_bodyOf (hc : ∀ r ∈ sectionRefs (sectionsOf c), Unescaped r) {x : RefContent} {x' : List (Str × BodyMedia)}
    (hx : ∀ r ∈ contentRefs x, Unescaped r)
    (h : Forall₂ (fun (e : Str × RefMedia) (e' : Str × BodyMedia) => e'.1 = e.1 ∧ MediaStands c e.2 e'.2) x x') :
    Eventually (fun n => bodyOf c n x) (getBodyParam (some x')) := by
  cases h with
  | nil => exact ev_pure none
  | @cons a a' _ _ h1 h =>
    cases h with
    | cons _ h => exact ⟨0, fun n _ => rfl⟩
    | nil =>
      obtain ⟨ct, m⟩ := a
      obtain ⟨ct', m'⟩ := a'
      obtain ⟨h1, h2, h3⟩ := h1
      cases h1
      unfold bodyOf getBodyParam
      simp only at h2 h3 ⊢
      cases hs : m.schema with
      | none =>
        cases hs' : m'.schema with
        | none => exact ev_lift _
        | some s' => rw [hs, hs'] at h3; exact h3.elim
      | some s =>
        cases hs' : m'.schema with
        | none => rw [hs, hs'] at h3; exact h3.elim
        | some s' =>
          rw [hs, hs'] at h3
          refine ev_bind (ev_lift _) fun t _ => ?_
          refine ev_bind (ev_bodyType hc t m m' s s' ?_ h2 h3.1 h3.2) fun ty _ => ev_pure _
          intro r hr
          refine hx r ?_
          simp only [contentRefs, List.flatMap_cons, List.flatMap_nil, List.append_nil, hs, Option.toList_some]
          exact hr

theorem ev_body (hc : ∀ r ∈ sectionRefs (sectionsOf c), Unescaped r) {b : Option (RefOr RefContent)}
    {b' : Option (List (Str × BodyMedia))} (hb : ∀ r ∈ b.toList.flatMap bodyRefs, Unescaped r)
    (h : Option₂ (BodyStands c) b b') : Eventually (fun n => getBodyRef c n b) (getBodyParam b') := by
  cases h with
  | none => exact ev_pure none
  | @some a x' h =>
    obtain ⟨x, h1, h2⟩ := h
    have hb' : ∀ r ∈ bodyRefs a, Unescaped r := fun r hr => hb r (by simpa using hr)
    refine ev_ok (ev_resolve (c := c) (sel := Sections.bodies) rfl
      (fun e he r hr => sub_bodies hc e he r (refOf_bodyRefs hr)) (fun r hr => hb' r (refOf_bodyRefs hr)) h1) ?_
    exact ev_bodyOf hc (stands_content (sub_bodies hc) hb' h1) h2

theorem ev_convert (hc : ∀ r ∈ sectionRefs (sectionsOf c), Unescaped r) (ws : Bool) {l : List (Status × RefOr DocResponse)}
    {l' : List (Status × DocResponse)} (hl : ∀ e ∈ l, ∀ r ∈ refOf e.2, Unescaped r)
    (h : Forall₂ (fun (e : Status × RefOr DocResponse) (e' : Status × DocResponse) =>
      e'.1 = e.1 ∧ StandsFor "responses".toList (sectionsOf c).responses e.2 e'.2) l l') :
    Eventually (fun n => convertRefs c n ws l) (Resp.convertAll ws l') := by
  induction h with
  | nil => exact ev_pure []
  | @cons a a' l l' h1 _ ih =>
    obtain ⟨s, r⟩ := a
    obtain ⟨s', x⟩ := a'
    obtain ⟨h1, h2⟩ := h1
    cases h1
    refine ev_ok (ev_resolve (c := c) (sel := Sections.responses) rfl (sub_responses hc) (hl (s, r) (by simp)) h2) ?_
    refine ev_bind (ev_lift _) fun k _ => ?_
    exact ev_bind (ih fun e he => hl e (by simp [he])) fun rs _ => ev_pure _

theorem forall₂_append {α β : Type} {R : α → β → Prop} {a : List α} {b : List β} {a' : List α} {b' : List β}
    (h : Forall₂ R a b) (h' : Forall₂ R a' b') : Forall₂ R (a ++ a') (b ++ b') := by
  induction h with
  | nil => exact h'
  | cons h _ ih => exact .cons h ih

theorem forall₂_map_both {α β γ δ : Type} {R : α → β → Prop} {S : γ → δ → Prop} {f : α → γ} {g : β → δ}
    (hf : ∀ a b, R a b → S (f a) (g b)) {l : List α} {m : List β} (h : Forall₂ R l m) : Forall₂ S (l.map f) (m.map g) := by
  induction h with
  | nil => exact .nil
  | cons h _ ih => exact .cons (hf _ _ h) ih

theorem processResponses_completed (ws : Bool) (default : Option DocResponse) (codes : List (DocStatus × DocResponse)) :
    processResponses ws default codes =
      (Resp.convertAll ws (default.toList.map (fun r => (Status.default, r)) ++ codes.map (fun e => (e.1.toStatus, e.2))) >>=
        fun rs => pure (completed ws rs)) := by
  unfold processResponses completed
  dsimp only
  congr 1
  funext rs
  cases ws <;> simp

theorem ev_responses (hc : ∀ r ∈ sectionRefs (sectionsOf c), Unescaped r) (ws : Bool)
    {default : Option (RefOr DocResponse)} {default' : Option DocResponse}
    {codes : List (DocStatus × RefOr DocResponse)} {codes' : List (DocStatus × DocResponse)}
    (hd : ∀ r ∈ default.toList.flatMap refOf, Unescaped r) (hl : ∀ r ∈ codes.flatMap (fun e => refOf e.2), Unescaped r)
    (h1 : Option₂ (StandsFor "responses".toList (sectionsOf c).responses) default default')
    (h2 : Forall₂ (fun (e : DocStatus × RefOr DocResponse) (e' : DocStatus × DocResponse) =>
      e'.1 = e.1 ∧ StandsFor "responses".toList (sectionsOf c).responses e.2 e'.2) codes codes') :
    Eventually (fun n => responsesRef c n ws default codes) (processResponses ws default' codes') := by
  rw [processResponses_completed]
  refine ev_bind (ev_convert hc ws ?_ (forall₂_append ?_ ?_)) fun rs _ => ev_pure _
  · intro e he r hr
    rcases List.mem_append.mp he with he | he
    · obtain ⟨a, ha, rfl⟩ := List.mem_map.mp he
      exact hd r (List.mem_flatMap.mpr ⟨a, ha, hr⟩)
    · obtain ⟨a, ha, rfl⟩ := List.mem_map.mp he
      exact hl r (List.mem_flatMap.mpr ⟨a, ha, hr⟩)
  · cases h1 with
    | none => exact .nil
    | some h => exact .cons ⟨rfl, h⟩ .nil
  · refine forall₂_map_both (fun a b h => ?_) h2
    exact ⟨by rw [h.1], h.2⟩

theorem ev_process (hc : ∀ r ∈ sectionRefs (sectionsOf c), Unescaped r) (san : Str → Str) (types : Types) (path method : Str)
    {d : RefOperation} {d' : DocOperation} (hd : ∀ r ∈ opRefs d, Unescaped r) (h : OpStands c d d') :
    Eventually (fun n => processRef c n san types path method d) (processOperation san types path method d') := by
  have hp : ∀ a ∈ d.pathLevel, ∀ x, StandsFor "parameters".toList (sectionsOf c).parameters a x →
      Eventually (fun n => resolve (c.map Sections.parameters) n a) (.ok x) := fun a ha x hx =>
    ev_resolve (c := c) (sel := Sections.parameters) rfl (sub_parameters hc) (fun r hr => hd r (by
      simp only [opRefs, List.mem_append, List.mem_flatMap]; exact .inl (.inl (.inl (.inl ⟨a, ha, hr⟩))))) hx
  have ho : ∀ a ∈ d.opLevel, ∀ x, StandsFor "parameters".toList (sectionsOf c).parameters a x →
      Eventually (fun n => resolve (c.map Sections.parameters) n a) (.ok x) := fun a ha x hx =>
    ev_resolve (c := c) (sel := Sections.parameters) rfl (sub_parameters hc) (fun r hr => hd r (by
      simp only [opRefs, List.mem_append, List.mem_flatMap]; exact .inl (.inl (.inl (.inr ⟨a, ha, hr⟩))))) hx
  unfold processRef processOperation
  rw [h.websocket, h.pagination, h.operationId, h.tags]
  refine ev_ok (ev_items h.pathLevel hp) (ev_ok (ev_items h.opLevel ho) ?_)
  refine ev_bind (ev_lift _) fun params _ => ?_
  refine ev_bind (ev_body hc (fun r hr => hd r (by simp only [opRefs, List.mem_append]; exact .inl (.inl (.inr hr)))) h.body)
    fun body _ => ?_
  refine ev_bind (ev_lift _) fun tmp _ => ?_
  refine ev_bind (ev_lift _) fun ps _ => ?_
  refine ev_bind (ev_responses hc d.websocket
    (fun r hr => hd r (by simp only [opRefs, List.mem_append]; exact .inl (.inr hr)))
    (fun r hr => hd r (by simp only [opRefs, List.mem_append]; exact .inr hr)) h.default h.codes) fun rs _ => ?_
  refine ev_bind (x := noConflict d' _) ?_ fun _ _ => ?_
  · have : noConflict d' (paginationData types d.pagination ps rs) = noConflictRef d (paginationData types d.pagination ps rs) := by
      unfold noConflict noConflictRef
      rw [h.websocket, h.operationId]
    rw [this]
    exact ev_lift _
  · exact ev_bind (ev_lift _) fun m _ => ev_pure _

end

/-! ## Documents -/

section
open Progenitor.Doc

theorem validateOps_bare {path : Str} {es : List (Str × RefRaw)} {es' : List (Str × RawOperation)} {c : Option Sections}
    (h : Forall₂ (fun (e : Str × RefRaw) (e' : Str × RawOperation) => e'.1 = e.1 ∧ e'.2.id = e.2.id ∧
      OpStands c e.2.op e'.2.op) es es') :
    ∀ ids, validateOps path ids es' = validateOps path ids (es.map fun e => (e.1, bareOp e.2)) := by
  induction h with
  | nil => intro ids; rfl
  | @cons e e' es es' h _ ih =>
    intro ids
    obtain ⟨m, o⟩ := e
    obtain ⟨m', o'⟩ := e'
    obtain ⟨_, h2, _⟩ := h
    simp only at h2
    rw [List.map_cons]
    unfold validateOps
    have hb : (bareOp o).id = o.id := rfl
    simp only [hb, h2]
    cases o.id with
    | none => rfl
    | some id => simp only [ih]

theorem validate_bare {u : Unicode} {d : RefDocument} {d' : Document} (h : DocStands d d') :
    validate u d' = validate u (bare d) := by
  obtain ⟨hv, hp⟩ := h
  unfold validate bare
  simp only [hv]
  suffices hs : ∀ ids, validatePaths ids d'.paths =
      validatePaths ids (d.paths.map fun p => (p.1, p.2.map fun ops => ops.map fun e => (e.1, bareOp e.2))) by
    rw [hs]
  revert hp
  generalize d.paths = ps
  generalize d'.paths = ps'
  intro hp
  induction hp with
  | nil => intro ids; rfl
  | @cons p p' ps ps' h _ ih =>
    intro ids
    obtain ⟨path, item⟩ := p
    obtain ⟨path', item'⟩ := p'
    obtain ⟨h1, h2⟩ := h
    simp only at h1 h2
    subst h1
    cases h2 with
    | none => rfl
    | some h2 =>
      simp only [List.map_cons, Option.map_some, validatePaths, validateOps_bare h2, ih]

theorem operations_stand {d : RefDocument} {d' : Document} (h : DocStands d d') :
    Forall₂ (fun (o : Str × Str × RefRaw) (o' : Str × Str × RawOperation) => o'.1 = o.1 ∧ o'.2.1 = o.2.1 ∧
      o'.2.2.id = o.2.2.id ∧ OpStands d.components o.2.2.op o'.2.2.op) (RefDoc.operations d) (routes d') := by
  obtain ⟨_, hp⟩ := h
  unfold RefDoc.operations routes
  revert hp
  generalize d.paths = ps
  generalize d'.paths = ps'
  intro hp
  induction hp with
  | nil => exact .nil
  | @cons p p' ps ps' h _ ih =>
    obtain ⟨path, item⟩ := p
    obtain ⟨path', item'⟩ := p'
    obtain ⟨h1, h2⟩ := h
    simp only at h1 h2
    subst h1
    rw [List.flatMap_cons, List.flatMap_cons]
    refine forall₂_append ?_ ih
    cases h2 with
    | none => exact .nil
    | some h2 => exact forall₂_map_both (fun a b h => ⟨rfl, h.1, h.2⟩) h2

theorem ev_processAll {c : Option Sections} (hc : ∀ r ∈ sectionRefs (sectionsOf c), Unescaped r) (u : Unicode) (types : Types)
    {os : List (Str × Str × RefRaw)} {os' : List (Str × Str × RawOperation)}
    (ho : ∀ o ∈ os, ∀ r ∈ opRefs o.2.2.op, Unescaped r)
    (h : Forall₂ (fun (o : Str × Str × RefRaw) (o' : Str × Str × RawOperation) => o'.1 = o.1 ∧ o'.2.1 = o.2.1 ∧
      o'.2.2.id = o.2.2.id ∧ OpStands c o.2.2.op o'.2.2.op) os os') :
    Eventually (fun n => processAllRef c n u types os) (processAll u types os') := by
  induction h with
  | nil => exact ev_pure []
  | @cons o o' os os' h _ ih =>
    obtain ⟨path, m, o⟩ := o
    obtain ⟨path', m', o'⟩ := o'
    obtain ⟨h1, h2, h3, h4⟩ := h
    simp only at h1 h2 h3 h4
    subst h1 h2
    unfold processAllRef processAll
    refine ev_bind ?_ fun p _ => ev_bind (ih fun o h => ho o (by simp [h])) fun ps _ => ev_pure _
    unfold processOneRef processOne
    simp only [h3]
    cases o.id with
    | none => exact ev_lift _
    | some id =>
      refine ev_process hc _ types path' m' (fun r hr => ho _ (List.mem_cons_self ..) r hr) ?_
      exact { h4 with operationId := rfl }

/-- C83, guarded: a document whose references are written without escapes is treated like the document in which each of them is
replaced by what it stands for: same methods and code, or same failure. -/
theorem C83_inlined_partial {B : Type} (u : Unicode) (types : Types) (tt : TypeTable B) (i : Interface) (t : TagStyle)
    {d : RefDocument} {d' : Document} (hu : ∀ r ∈ docRefs d, Unescaped r) (h : DocStands d d') :
    ∃ N, ∀ n, N ≤ n → generateRef n u types tt i t d = some (generate u types tt i t d') := by
  have hc : ∀ r ∈ sectionRefs (sectionsOf d.components), Unescaped r := fun r hr =>
    hu r (by simp only [docRefs, List.mem_append]; exact .inl hr)
  have ho : ∀ o ∈ RefDoc.operations d, ∀ r ∈ opRefs o.2.2.op, Unescaped r := fun o ho r hr =>
    hu r (by simp only [docRefs, List.mem_append, List.mem_flatMap]; exact .inr ⟨o, ho, hr⟩)
  have h1 := ev_processAll hc u types ho (operations_stand h)
  have h2 : generate u types tt i t d' = (validate u (bare d) >>= fun _ => processAll u types (routes d') >>= fun ms =>
      operationCode tt i t ms >>= fun cs => pure (ms, cs)) := by
    unfold generate rawMethods
    rw [routes_eq, validate_bare h]
    cases validate u (bare d) <;> rfl
  rw [h2]
  exact ev_bind (ev_lift _) fun _ _ => ev_bind h1 fun ms _ => ev_bind (ev_lift _) fun cs _ => ev_pure _

/-- C83 with C70, guarded: what a client generated from a document with references sends is understood by a server that implements
the document without them. -/
theorem C83_received_partial {B P V : Type} {u : Unicode} {types : Types} {tt : TypeTable B} {i : Interface} {t : TagStyle}
    {d : RefDocument} {d' : Document} (hu : ∀ r ∈ docRefs d, Unescaped r) (hd : DocStands d d') :
    ∃ N, ∀ n, N ≤ n → ∀ ms cs, generateRef n u types tt i t d = some (.ok (ms, cs)) →
      Forall₂ (fun o (pc : Processed × Code) => ∀ l, WireReady o l →
        ∀ (keys : Str → List Str) (cfg : Config) (auth : Str) (base : List Str), BaseUrl cfg auth base →
        ∀ (hooks : Hooks) (w : World) (decode : Params.TypeId → Bytes → Except P V) (hist : List Event) (args : List Value),
          Keeps hooks w → Recoverable keys l pc.1.op.params args →
          ∃ evs, (call cfg hooks w decode pc.1.op.params pc.2 hist args).2 = hist ++ evs ∧ sends evs ≤ 1 ∧
            ∀ r, .send r ∈ evs →
              Received keys l o.2.1 o.2.2.op.pathLevel o.2.2.op.opLevel (pc.1.op.params.zip args) auth base r)
        (routes d') (ms.zip cs) := by
  obtain ⟨N, hN⟩ := C83_inlined_partial u types tt i t hu hd
  refine ⟨N, fun n hn ms cs hg => ?_⟩
  rw [hN n hn] at hg
  injection hg with hg
  exact C70_document_partial hg

end

/-! ## One meaning -/

theorem token_unique {t k k' : Str} (h : Token t k) (h' : Token t k') : k = k' := by
  induction h generalizing k' with
  | nil => cases h'; rfl
  | char h1 _ _ ih =>
    cases h' with
    | char _ _ h' => rw [ih h']
    | tilde => exact absurd rfl h1
    | slash => exact absurd rfl h1
  | tilde _ ih =>
    cases h' with
    | char h1 => exact absurd rfl h1
    | tilde h' => rw [ih h']
  | slash _ ih =>
    cases h' with
    | char h1 => exact absurd rfl h1
    | slash h' => rw [ih h']

theorem token_noSlash {t k : Str} (h : Token t k) : '/' ∉ t := by
  induction h with
  | nil => simp
  | char _ h2 _ ih => simp [ih, Ne.symm h2]
  | tilde _ ih => simp [ih]
  | slash _ ih => simp [ih]

theorem pointer_head {p : Str} {ks : List Str} (h : Pointer p ks) : p = [] ∨ ∃ q, p = '/' :: q := by
  cases h with
  | nil => exact .inl rfl
  | cons _ _ => exact .inr ⟨_, rfl⟩

/-- Text without `/` before the end or a `/` is determined. -/
theorem before_slash {t t' p p' : Str} (ht : '/' ∉ t) (ht' : '/' ∉ t') (hp : p = [] ∨ ∃ q, p = '/' :: q)
    (hp' : p' = [] ∨ ∃ q, p' = '/' :: q) (h : t ++ p = t' ++ p') : t = t' ∧ p = p' := by
  induction t generalizing t' with
  | nil =>
    cases t' with
    | nil => exact ⟨rfl, h⟩
    | cons c t' =>
      rcases hp with rfl | ⟨q, rfl⟩
      · cases h
      · injection h with h1 _; exact absurd h1 (fun e => ht' (by rw [e]; simp))
  | cons c t ih =>
    cases t' with
    | nil =>
      rcases hp' with rfl | ⟨q, rfl⟩
      · cases h
      · injection h with h1 _; exact absurd h1 (fun e => ht (by simp [e]))
    | cons c' t' =>
      injection h with h1 h2
      obtain ⟨rfl, rfl⟩ := ih (fun hm => ht (by simp [hm])) (fun hm => ht' (by simp [hm])) h2
      exact ⟨by rw [h1], rfl⟩

theorem pointer_unique {p : Str} {ks ks' : List Str} (h : Pointer p ks) (h' : Pointer p ks') : ks = ks' := by
  induction h generalizing ks' with
  | nil => cases h'; rfl
  | @cons t k p ks h1 h2 ih =>
    generalize hq : '/' :: (t ++ p) = q at h'
    cases h' with
    | nil => cases hq
    | cons h1' h2' =>
      injection hq with _ hq
      obtain ⟨rfl, rfl⟩ := before_slash (token_noSlash h1) (token_noSlash h1') (pointer_head h2) (pointer_head h2') hq
      rw [token_unique h1 h1', ih h2']

theorem names_unique {sec r k k' : Str} (h : NamesComponent sec r k) (h' : NamesComponent sec r k') : k = k' := by
  obtain ⟨f, p, rfl, hd, hp⟩ := h
  obtain ⟨f', p', hr, hd', hp'⟩ := h'
  injection hr with _ hr
  subst hr
  rw [hd] at hd'
  have := utf8_injective hd'
  subst this
  have := pointer_unique hp hp'
  simp at this
  exact this

/-- C83: a reference stands for at most one thing. -/
theorem C83_one_meaning {T : Type} {sec : Str} {m : List (Str × RefOr T)} {a : RefOr T} {x y : T}
    (h : StandsFor sec m a x) (h' : StandsFor sec m a y) : x = y := by
  induction h with
  | item x => cases h'; rfl
  | ref h1 h2 _ ih =>
    cases h' with
    | ref h1' h2' h' =>
      have := names_unique h1 h1'
      subst this
      have := lookup_some.mpr h2
      rw [lookup_some.mpr h2'] at this
      injection this with this
      subst this
      exact ih h'

/-! ## Examples and refutations -/

section

/-- A query parameter. -/
def limitParam : DocParam := ⟨"limit".toList, .query true none, false, true, 0⟩

/-- An operation with references to a parameter, a body and a response. -/
def refOp (r : Str) : RefOperation :=
  { operationId := "op".toList, tags := [], pathLevel := [], opLevel := [.ref r],
    body := some (.ref "#/components/requestBodies/b".toList), default := none,
    codes := [(.code 200, .ref "#/components/responses/ok".toList)], websocket := false, pagination := none }

/-- A document with components; a reference to a parameter is `r`. -/
def refDocument (key r : Str) : RefDocument :=
  ⟨"3.0.0".toList, [("/x".toList, some [("post".toList, ⟨some "op".toList, refOp r⟩)])],
   some ⟨[("alias".toList, .ref "#/components/parameters/limit".toList), (key, .item limitParam)],
         [("b".toList, .item [("text/plain".toList, ⟨some (.ref "#/components/schemas/s".toList, 0), true⟩)])],
         [("ok".toList, .item [])], [("s".toList, .item ⟨false, true⟩)]⟩⟩

/-- The operation without references. -/
def inlinedOp : DocOperation :=
  { operationId := "op".toList, tags := [], pathLevel := [], opLevel := [limitParam],
    body := some [("text/plain".toList, ⟨some ⟨false, true, 0⟩, true⟩)], default := none,
    codes := [(.code 200, [])], websocket := false, pagination := none }

/-- The document without references. -/
def inlinedDocument : Doc.Document :=
  ⟨"3.0.0".toList, [("/x".toList, some [("post".toList, ⟨some "op".toList, inlinedOp⟩)])]⟩

theorem token_self {t : Str} (h : ∀ c ∈ t, c ≠ '~' ∧ c ≠ '/') : Token t t := by
  induction t with
  | nil => exact .nil
  | cons c t ih => exact .char (h c (by simp)).1 (h c (by simp)).2 (ih fun d hd => h d (by simp [hd]))

theorem names_plain {f sec k : Str} (hf : percentDecode f = utf8 ("/components/".toList ++ sec ++ '/' :: k))
    (hs : ∀ c ∈ sec, c ≠ '~' ∧ c ≠ '/') (hk : ∀ c ∈ k, c ≠ '~' ∧ c ≠ '/') : NamesComponent sec ('#' :: f) k := by
  refine ⟨f, _, rfl, hf, ?_⟩
  have h3 := Pointer.cons (token_self hk) .nil
  have h2 := Pointer.cons (token_self hs) h3
  have h1 := Pointer.cons (token_self (t := "components".toList) (by decide)) h2
  simpa using h1

theorem refStands {key r : Str} (h : StandsFor "parameters".toList (sectionsOf (refDocument key r).components).parameters (.ref r) limitParam) :
    DocStands (refDocument key r) inlinedDocument := by
  refine ⟨rfl, .cons ⟨rfl, .some (.cons ⟨rfl, rfl, ?_⟩ .nil)⟩ .nil⟩
  refine ⟨rfl, rfl, rfl, rfl, .nil, .cons h .nil, .some ⟨[("text/plain".toList, ⟨some (.ref "#/components/schemas/s".toList, 0), true⟩)], ?_, ?_⟩, .none, ?_⟩
  · exact .ref (names_plain (k := "b".toList) (by decide +kernel) (by decide) (by decide)) ⟨[], [], rfl, by simp⟩ (.item _)
  · refine .cons ⟨rfl, rfl, rfl, ?_⟩ .nil
    exact .ref (names_plain (k := "s".toList) (by decide +kernel) (by decide) (by decide)) ⟨[], [], rfl, by simp⟩ (.item _)
  · refine .cons ⟨rfl, ?_⟩ .nil
    exact .ref (names_plain (k := "ok".toList) (by decide +kernel) (by decide) (by decide)) ⟨[], [], rfl, by simp⟩ (.item _)

theorem aliasStands : DocStands (refDocument "limit".toList "#/components/parameters/alias".toList) inlinedDocument :=
  refStands (.ref (names_plain (k := "alias".toList) (by decide +kernel) (by decide) (by decide)) ⟨[], _, rfl, by simp⟩
    (.ref (names_plain (k := "limit".toList) (by decide +kernel) (by decide) (by decide))
      ⟨[("alias".toList, .ref "#/components/parameters/limit".toList)], [], rfl, by decide⟩ (.item _)))

instance (r : Str) : Decidable (Unescaped r) := inferInstanceAs (Decidable (_ ∧ _))

/-- The tables of the examples. -/
def noTable : TypeTable Unit := ⟨fun _ => none, fun _ => []⟩

example : ∃ N, ∀ n, N ≤ n →
    generateRef n exUnicode (fun _ => none) noTable .positional .merged
      (refDocument "limit".toList "#/components/parameters/alias".toList) =
    some (Doc.generate exUnicode (fun _ => none) noTable .positional .merged inlinedDocument) :=
  C83_inlined_partial _ _ _ _ _ (by decide +kernel) aliasStands

example : (Doc.generate exUnicode (fun _ => none) noTable .positional .merged inlinedDocument).isOk = true := by decide +kernel

example := C83_received_partial (P := Unit) (V := Unit) (u := exUnicode) (types := fun _ => none) (tt := noTable) (i := .positional)
  (t := .merged) (by decide +kernel) aliasStands

example := C83_one_meaning (.item limitParam : StandsFor "parameters".toList [] (.item limitParam) limitParam) (.item limitParam)

/-- Generation succeeds. -/
def succeeds {α : Type} : Run α → Bool
  | some r => r.isOk
  | none => false

theorem succeeds_iff {α : Type} {r : Run α} (h : succeeds r = true) : ∃ a, r = some (.ok a) := by
  cases r with
  | none => cases h
  | some r =>
    cases r with
    | ok a => exact ⟨a, rfl⟩
    | err m => cases h
    | panic m => cases h

theorem stands_opLevel {key r : Str} {d' : Doc.Document} (h : DocStands (refDocument key r) d') :
    ∃ k, NamesComponent "parameters".toList r k := by
  have hs := operations_stand h
  generalize routes d' = os at hs
  cases hs with
  | cons h _ =>
    have hl := h.2.2.2.opLevel
    generalize DocOperation.opLevel _ = l at hl
    cases hl with
    | cons h _ =>
      cases h with
      | ref h1 _ _ => exact ⟨_, h1⟩

/-- C83 fails: a reference to another document is taken for one to the component of this document that happens to have the same
name. -/
theorem C83_foreign_fails :
    ¬ ∀ (d : RefDocument) (n : Nat) (out : List Processed × List Code),
      generateRef n exUnicode (fun _ => none) noTable .positional .merged d = some (.ok out) → ∃ d', DocStands d d' := by
  intro h
  obtain ⟨out, ho⟩ := succeeds_iff (r := generateRef 2 exUnicode (fun _ => none) noTable .positional .merged
    (refDocument "limit".toList "common.json#/components/parameters/limit".toList)) (by decide +kernel)
  obtain ⟨d', hd⟩ := h _ 2 out ho
  obtain ⟨k, f, p, hr, _⟩ := stands_opLevel hd
  have : "common.json#/components/parameters/limit".toList.head? = some '#' := by rw [hr]; rfl
  revert this
  decide

/-- C83 fails: a parameter given as a reference to something else is taken for the parameter with that name. -/
theorem C83_section_fails :
    ¬ ∀ (d : RefDocument) (n : Nat) (out : List Processed × List Code), (∀ r ∈ docRefs d, ∃ sec k, NamesComponent sec r k) →
      generateRef n exUnicode (fun _ => none) noTable .positional .merged d = some (.ok out) → ∃ d', DocStands d d' := by
  intro h
  obtain ⟨out, ho⟩ := succeeds_iff (r := generateRef 2 exUnicode (fun _ => none) noTable .positional .merged
    (refDocument "limit".toList "#/components/schemas/limit".toList)) (by decide +kernel)
  have hn : NamesComponent "schemas".toList "#/components/schemas/limit".toList "limit".toList :=
    names_plain (by decide +kernel) (by decide) (by decide)
  obtain ⟨d', hd⟩ := h _ 2 out (by
    intro r hr
    have hr : r ∈ ["#/components/parameters/limit".toList, "#/components/schemas/s".toList, "#/components/schemas/limit".toList,
      "#/components/requestBodies/b".toList, "#/components/responses/ok".toList] := hr
    simp only [List.mem_cons, List.not_mem_nil, or_false] at hr
    rcases hr with rfl | rfl | rfl | rfl | rfl
    · exact ⟨"parameters".toList, "limit".toList, names_plain (by decide +kernel) (by decide) (by decide)⟩
    · exact ⟨"schemas".toList, "s".toList, names_plain (by decide +kernel) (by decide) (by decide)⟩
    · exact ⟨_, _, hn⟩
    · exact ⟨"requestBodies".toList, "b".toList, names_plain (by decide +kernel) (by decide) (by decide)⟩
    · exact ⟨"responses".toList, "ok".toList, names_plain (by decide +kernel) (by decide) (by decide)⟩) ho
  obtain ⟨k, f, p, hr, hd, hp⟩ := stands_opLevel hd
  obtain ⟨f', p', hr', hd', hp'⟩ := hn
  rw [hr] at hr'
  injection hr' with _ hr'
  subst hr'
  rw [hd] at hd'
  have := utf8_injective hd'
  subst this
  have := pointer_unique hp hp'
  injection this with _ this
  injection this with this _
  revert this
  decide

/-- C83 fails: a reference that is written with escapes is not followed. -/
theorem C83_escaped_fails :
    ¬ ∀ (d : RefDocument) (d' : Doc.Document) (out : List Processed × List Code), DocStands d d' →
      Doc.generate exUnicode (fun _ => none) noTable .positional .merged d' = .ok out →
      ∃ n, generateRef n exUnicode (fun _ => none) noTable .positional .merged d = some (.ok out) := by
  intro h
  obtain ⟨out, ho⟩ := succeeds_iff (r := lift (Doc.generate exUnicode (fun _ => none) noTable .positional .merged inlinedDocument))
    (by decide +kernel)
  injection ho with ho
  obtain ⟨n, hn⟩ := h (refDocument "page-limit".toList "#/components/parameters/page%2Dlimit".toList) inlinedDocument out
    (refStands (.ref (names_plain (k := "page-limit".toList) (by decide +kernel) (by decide) (by decide))
      ⟨[("alias".toList, .ref "#/components/parameters/limit".toList)], [], rfl, by decide⟩ (.item _))) ho
  have hp : ∀ k, resolve ((refDocument "page-limit".toList "#/components/parameters/page%2Dlimit".toList).components.map Sections.parameters)
      (k + 1) (.ref "#/components/parameters/page%2Dlimit".toList) = some (.panic "key page%2Dlimit is missing".toList) := fun k => by
    unfold resolve
    have : target ((refDocument "page-limit".toList "#/components/parameters/page%2Dlimit".toList).components.map Sections.parameters)
      "#/components/parameters/page%2Dlimit".toList = .panic "key page%2Dlimit is missing".toList := by decide +kernel
    rw [this]
  have hv : Doc.validate exUnicode (bare (refDocument "page-limit".toList "#/components/parameters/page%2Dlimit".toList)) = .ok () := by
    decide +kernel
  unfold generateRef at hn
  rw [hv] at hn
  cases n with
  | zero => cases hn
  | succ k =>
    have : processAllRef (refDocument "page-limit".toList "#/components/parameters/page%2Dlimit".toList).components (k + 1) exUnicode
        (fun _ => none) (RefDoc.operations (refDocument "page-limit".toList "#/components/parameters/page%2Dlimit".toList)) =
        some (.panic "key page%2Dlimit is missing".toList) := by
      have h1 : items (k + 1) ((refDocument "page-limit".toList "#/components/parameters/page%2Dlimit".toList).components.map
          Sections.parameters) [.ref "#/components/parameters/page%2Dlimit".toList] =
          some (.panic "key page%2Dlimit is missing".toList) := by
        unfold items
        show Run.bind _ _ = _
        rw [hp k]
        rfl
      have h2 : processRef (refDocument "page-limit".toList "#/components/parameters/page%2Dlimit".toList).components (k + 1)
          (sanitize exUnicode .snake) (fun _ => none) "/x".toList "post".toList
          (refOp "#/components/parameters/page%2Dlimit".toList) = some (.panic "key page%2Dlimit is missing".toList) := by
        unfold processRef
        have h0 : items (k + 1) ((refDocument "page-limit".toList "#/components/parameters/page%2Dlimit".toList).components.map
          Sections.parameters) (refOp "#/components/parameters/page%2Dlimit".toList).pathLevel = some (.ok []) := rfl
        rw [h0, run_ok]
        have h1' : items (k + 1) ((refDocument "page-limit".toList "#/components/parameters/page%2Dlimit".toList).components.map
          Sections.parameters) (refOp "#/components/parameters/page%2Dlimit".toList).opLevel =
            some (.panic "key page%2Dlimit is missing".toList) := h1
        rw [h1', run_panic]
      have h3 : processOneRef (refDocument "page-limit".toList "#/components/parameters/page%2Dlimit".toList).components (k + 1)
          exUnicode (fun _ => none) ("/x".toList, "post".toList,
            ⟨some "op".toList, refOp "#/components/parameters/page%2Dlimit".toList⟩) =
          some (.panic "key page%2Dlimit is missing".toList) := h2
      have h4 : RefDoc.operations (refDocument "page-limit".toList "#/components/parameters/page%2Dlimit".toList) =
          [("/x".toList, "post".toList, ⟨some "op".toList, refOp "#/components/parameters/page%2Dlimit".toList⟩)] := rfl
      rw [h4]
      unfold processAllRef
      rw [h3, run_panic]
    rw [this] at hn
    cases hn

end

end Progenitor.Props

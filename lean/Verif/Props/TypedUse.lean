import Verif.Props.SchemaExact
import Verif.Props.TypedExact
import Verif.Props.Names
import Verif.Props.Compiles

/-!
# C96: what the types are used for, and the values they have
-/

namespace Progenitor.Props

open Progenitor Progenitor.Params Progenitor.Refs Progenitor.Resp Progenitor.Names Progenitor.Builder Progenitor.Exec
  Progenitor.Schema Progenitor.RefDoc Progenitor.Spec Progenitor.Typed

variable {σ : Type}

section

variable {lib : Library σ} {u : Unicode} {id : Str} {comps : Option SSections}

theorem leadsTo_unique {T : Type} {sel : SSections → List (Str × RefOr T)} {a : RefOr T} {x y : T} (h : LeadsTo comps sel a x)
    (h' : LeadsTo comps sel a y) : x = y := by
  obtain ⟨N, h⟩ := resolve_of_leadsTo h
  obtain ⟨N', h'⟩ := resolve_of_leadsTo h'
  have h1 := h (max N N') (by omega)
  have h2 := h' (max N N') (by omega)
  rw [h1] at h2
  cases h2
  rfl

theorem leadsTo_all_unique {T : Type} {sel : SSections → List (Str × RefOr T)} {l : List (RefOr T)} {xs ys : List T}
    (h : Forall₂ (LeadsTo comps sel) l xs) (h' : Forall₂ (LeadsTo comps sel) l ys) : xs = ys := by
  induction h generalizing ys with
  | nil => cases h'; rfl
  | cons h1 _ ih =>
    cases h' with
    | cons h2 h3 => rw [leadsTo_unique h1 h2, ih h3]

/-! ## Parameters -/

theorem same_split {l m : List SParam} {ps : List DocParam} (h : Forall₂ SameButType (l ++ m) ps) :
    ∃ qs rs, ps = qs ++ rs ∧ Forall₂ SameButType l qs ∧ Forall₂ SameButType m rs ∧ qs.length = l.length := by
  induction l generalizing ps with
  | nil => exact ⟨[], ps, rfl, .nil, h, rfl⟩
  | cons a l ih =>
    cases h with
    | cons h1 h2 =>
      obtain ⟨qs, rs, rfl, h3, h4, h5⟩ := ih h2
      exact ⟨_ :: qs, rs, rfl, .cons h1 h3, h4, by simp [h5]⟩

theorem lastAt_pos {l : List SParam} {l' : List DocParam} (h : Forall₂ SameButType l l') {pre post : List SParam} {p : SParam}
    (hl : LastAt l pre p post) {q : DocParam} (hq : l'[pre.length]? = some q) :
    SameButType p q ∧ ∃ pre' post', l' = pre' ++ q :: post' ∧ pre'.length = pre.length ∧ ∀ r ∈ post', r.name ≠ q.name := by
  obtain ⟨rfl, hlast⟩ := hl
  obtain ⟨pre', rest', rfl, h1, h2, hlen⟩ := same_split h
  cases h2 with
  | @cons _ q' _ post' hpq hrest =>
    rw [← hlen] at hq
    simp at hq
    subst hq
    refine ⟨hpq, pre', post', rfl, hlen, fun r hr => ?_⟩
    obtain ⟨s, hs, hsr⟩ := forall₂_right hrest r hr
    rw [hsr.1, hpq.1]
    exact hlast s hs

theorem counts_of_last {d : DocOperation} {pre post : List DocParam} {q : DocParam}
    (h : d.pathLevel ++ d.opLevel = pre ++ q :: post) (hp : ∀ r ∈ post, r.name ≠ q.name) : Counts d q := by
  rcases List.append_eq_append_iff.mp h with ⟨as, h1, h2⟩ | ⟨bs, h1, h2⟩
  · exact .inl ⟨as, post, h2, hp⟩
  · cases bs with
    | nil => exact .inl ⟨[], post, by simpa using h2.symm, hp⟩
    | cons b bs =>
      simp only [List.cons_append, List.cons.injEq] at h2
      obtain ⟨rfl, rfl⟩ := h2
      exact .inr ⟨⟨pre, bs, h1, fun r hr => hp r (List.mem_append_left _ hr)⟩, fun r hr => hp r (List.mem_append_right _ hr)⟩

theorem sameKind_location {k : SKind} {k' : DocKind} (h : SameKind k k') : docLocation k' = skindLocation k := by
  cases h <;> rfl

/-- C96: the argument of the client method for a parameter that counts has the type that was asked for with the schema of the
parameter; for a query parameter with an optional type it has the type inside, and need not be given. -/
theorem C96_argument {types : Types} {d : SOperation} {d' : DocOperation} {l : List AskedType}
    (h : OperationTyped comps u types id d d' l) {path method : Str} {P : Processed}
    (hp : processOperation (sanitize u .snake) types path method { d' with operationId := id } = .ok P)
    {pl ol pre post : List SParam} {p : SParam} (hpl : Forall₂ (LeadsTo comps SSections.parameters) d.pathLevel pl)
    (hol : Forall₂ (LeadsTo comps SSections.parameters) d.opLevel ol) (hlast : LastAt (pl ++ ol) pre p post) :
    ∃ s q t, p.schema = some s ∧ Wants u id p.name s q ∧ (q, t) ∈ l ∧
      ∃ a ∈ P.op.params, a.apiName = p.name ∧ a.name = sanitize u .snake p.name ∧ location a.kind = skindLocation p.kind ∧
        a.typ = .type (argumentType types p.kind t) ∧ (∀ b, p.kind = .query b → a.kind = .query (p.required && !(isOptional types t))) := by
  obtain ⟨_, _, _, pl2, ol2, l1, l2, l3, rfl, hpl2, hol2, hpl', hol', ⟨ps, _, hm, hf⟩, _⟩ := h
  cases leadsTo_all_unique hpl hpl2
  cases leadsTo_all_unique hol hol2
  obtain ⟨x, hx, s, hs, hw, hall⟩ := forall₂_left hf p ((hm p).mpr ⟨pre, post, hlast⟩)
  obtain ⟨q, hq, hty, hopt⟩ := hall pre post hlast
  obtain ⟨hsame, pre', post', hl', _, hpost⟩ := lastAt_pos (forall₂_append hpl' hol') hlast hq
  have hcounts : Counts { d' with operationId := id } q := counts_of_last hl' hpost
  obtain ⟨a, ha, hd, hn, ht⟩ := counts_param hp hcounts
  refine ⟨s, x.1, x.2, hs, hw, by simp [hx], a, ha, by rw [hd.1, hsame.1], by rw [hn, hsame.1],
    by rw [hd.2.1, sameKind_location hsame.2.1], ?_, ?_⟩
  · rw [ht]
    congr 1
    obtain ⟨name, kind, required, schema⟩ := p
    obtain ⟨qname, qkind, qrequired, qhas, qty⟩ := q
    obtain ⟨-, hk, -, -⟩ := hsame
    simp only at hk hty
    subst hty
    cases hk with
    | path b => rfl
    | header => rfl
    | cookie => rfl
    | query b o =>
      simp only [argType, argumentType]
      have := hopt b o rfl
      cases hi : types x.2 with
      | none => cases o with
        | none => rfl
        | some i => have := (this i).mp rfl; rw [hi] at this; cases this
      | some i =>
        cases o with
        | some j => have := (this j).mp rfl; rw [hi] at this; cases this; rfl
        | none =>
          cases i with
          | option j => have := (this j).mpr hi; cases this
          | _ => rfl
  · intro b hb
    obtain ⟨name, kind, required, schema⟩ := p
    obtain ⟨qname, qkind, qrequired, qhas, qty⟩ := q
    obtain ⟨-, hk, hr, -⟩ := hsame
    obtain ⟨-, -, hd⟩ := hd
    simp only at hk hty hr hb
    subst hty hr hb
    cases hk with
    | query _ o =>
      have := hopt b o rfl
      cases o with
      | some i =>
        have hi := (this i).mp rfl
        cases hak : a.kind with
        | query r => rw [hak] at hd; simp only at hd; rw [hd.1]; simp [isOptional, hi]
        | _ => rw [hak] at hd; exact absurd hd (by simp)
      | none =>
        have hi : isOptional types x.2 = false := by
          unfold isOptional
          cases hi : types x.2 with
          | none => rfl
          | some i =>
            cases i with
            | option j => have := (this j).mpr hi; cases this
            | _ => rfl
        cases hak : a.kind with
        | query r => rw [hak] at hd; simp only at hd; rw [hd.1, hi]; simp
        | _ => rw [hak] at hd; exact absurd hd (by simp)

/-! ## Responses -/

theorem responsesTyped_mem {rs : List (RefOr SContent)} {rs' : List DocResponse} {l : List AskedType}
    (h : ResponsesTyped comps u id rs rs' l) : Forall₂ (fun r c => ∃ m, ResponseTyped comps u id r c m ∧ ∀ x ∈ m, x ∈ l) rs rs' := by
  induction h with
  | nil => exact .nil
  | cons h1 _ ih =>
    refine .cons ⟨_, h1, fun x hx => List.mem_append_left _ hx⟩ (forall₂_imp_mem ?_ ih)
    rintro _ - _ ⟨m, hm, hx⟩
    exact ⟨m, hm, fun x h => List.mem_append_right _ (hx x h)⟩

theorem response_made {l : List AskedType} {ws : Bool} {rs : List (Status × RefOr SContent)} {rs' : List DocResponse} {xs : List Response}
    (hmem : Forall₂ (fun r c => ∃ m, ResponseTyped comps u id r c m ∧ ∀ x ∈ m, x ∈ l) (rs.map Prod.snd) rs')
    (hrx : Resp.convertAll ws ((rs.map Prod.fst).zip rs') = .ok xs) {status : Status} {r : RefOr SContent} (hin : (status, r) ∈ rs) :
    ∃ c m0, ResponseTyped comps u id r c m0 ∧ (∀ x ∈ m0, x ∈ l) ∧ ∃ x ∈ xs, x.status = status ∧ Resp.kindOf ws c = .ok x.kind := by
  induction rs generalizing rs' xs with
  | nil => cases hin
  | cons e rs ih =>
    obtain ⟨s, r0⟩ := e
    cases rs' with
    | nil => cases hmem
    | cons c rs' =>
      cases hmem with
      | cons h1 h2 =>
        obtain ⟨k, hk, hrx⟩ := Params.bind_ok_inv hrx
        obtain ⟨zs, hz, hrx⟩ := Params.bind_ok_inv hrx
        cases hrx
        rcases List.mem_cons.mp hin with e | hin
        · cases e
          obtain ⟨m0, hm0, hm1⟩ := h1
          exact ⟨c, m0, hm0, hm1, _, List.mem_cons_self, rfl, hk⟩
        · obtain ⟨c, m0, hm0, hm1, x, hx, h3, h4⟩ := ih h2 hz hin
          exact ⟨c, m0, hm0, hm1, x, List.mem_cons_of_mem _ hx, h3, h4⟩

/-- C96: a response that has JSON is returned as the type that was asked for with the schema of the first JSON media type. -/
theorem C96_response {types : Types} {d : SOperation} {d' : DocOperation} {l : List AskedType}
    (h : OperationTyped comps u types id d d' l) {path method : Str} {P : Processed}
    (hp : processOperation (sanitize u .snake) types path method { d' with operationId := id } = .ok P)
    {status : Status} {r : RefOr SContent}
    (hr : (status = .default ∧ d.default = some r) ∨ ∃ c, status = c.toStatus ∧ (c, r) ∈ d.codes)
    {pre post : SContent} {m : Str} {mt : SMedia} (hc : LeadsTo comps SSections.responses r (pre ++ (m, mt) :: post))
    (hpre : ∀ e ∈ pre, ¬ IsJson e.1) (hm : IsJson m) :
    ∃ s q t, mt.schema = some s ∧ Wants u id "response".toList s q ∧ (q, t) ∈ l ∧
      ∃ x ∈ P.op.responses, x.status = status ∧ x.kind = .type t := by
  obtain ⟨_, hws, _, pl2, ol2, l1, l2, l3, rfl, _, _, _, _, _, _, hcodes, hdef, hrs⟩ := h
  obtain ⟨_, _, k1⟩ := Params.bind_ok_inv hp
  obtain ⟨_, _, k2⟩ := Params.bind_ok_inv k1
  obtain ⟨_, _, k3⟩ := Params.bind_ok_inv k2
  obtain ⟨_, _, k4⟩ := Params.bind_ok_inv k3
  obtain ⟨ys, h5, k5⟩ := Params.bind_ok_inv k4
  obtain ⟨_, _, k6⟩ := Params.bind_ok_inv k5
  obtain ⟨_, _, k7⟩ := Params.bind_ok_inv k6
  cases k7
  obtain ⟨xs, hx, rfl⟩ := processResponses_inv h5
  obtain ⟨rs', hrt, hrx⟩ := responses_join hcodes hdef hrs hx
  have hmem := responsesTyped_mem hrt
  have hin : (status, r) ∈ d.default.toList.map (fun r => (Status.default, r)) ++ d.codes.map (fun e => (e.1.toStatus, e.2)) := by
    rcases hr with ⟨rfl, hr⟩ | ⟨c, rfl, hr⟩
    · rw [hr]; simp
    · exact List.mem_append_right _ (List.mem_map.mpr ⟨_, hr, rfl⟩)
  generalize d.default.toList.map (fun r => (Status.default, r)) ++ d.codes.map (fun e => (e.1.toStatus, e.2)) = rs at hmem hin hrx
  obtain ⟨c, m0, hm0, hsub, x, hxs, hst, hk⟩ := response_made hmem hrx hin
  cases hm0 with
  | @json pre2 pre' m2 mt2 post2 post' s q t hr2 hp2 hj2 hs2 hw2 hpre2 hpost2 =>
    have he := leadsTo_unique hc hr2
    have e1 := typedMedia_first (mt := mt) (post := post) hpre hm
    rw [he, typedMedia_first hp2 hj2] at e1
    cases e1
    refine ⟨s, q, t, hs2, hw2, by simp [hsub], x, ?_, hst, ?_⟩
    · unfold completed
      refine List.mem_append_left _ ?_
      split
      · exact hxs
      · exact List.mem_append_left _ hxs
    · have hm' : Resp.jsonMedia (pre' ++ (m2, ⟨mt.encodingEmpty, some t⟩) :: post') = some ⟨mt.encodingEmpty, some t⟩ :=
        jsonMedia_some.mpr ⟨pre', m2, post', rfl, hj2, sameMedia_json hpre2 hp2⟩
      simp only [Resp.kindOf, hm'] at hk
      split at hk
      · injection hk with hk; exact hk.symm
      · cases hk
  | @other c c' hr2 hn hsame =>
    have he := leadsTo_unique hc hr2
    exact absurd hm (hn (m, mt) (by rw [← he]; simp))

/-! ## The body -/

/-- C96: the body is an argument of the type that was asked for with its schema if it is JSON or a form, and what bytes or text can
be made from if not. -/
theorem C96_body {types : Types} {d : SOperation} {d' : DocOperation} {l : List AskedType}
    (h : OperationTyped comps u types id d d' l) {path method : Str} {P : Processed}
    (hp : processOperation (sanitize u .snake) types path method { d' with operationId := id } = .ok P)
    {r : RefOr SContent} (hr : d.body = some r) {ct : Str} {m : SMedia} (hc : LeadsTo comps SSections.bodies r [(ct, m)]) :
    ∃ s base, m.schema = some s ∧ MediaBase ct base ∧ ∃ a ∈ P.op.params, a.apiName = "body".toList ∧ a.name = "body".toList ∧
      (((base = "application/json".toList ∧ a.kind = .body .json ∨
            base = "application/x-www-form-urlencoded".toList ∧ a.kind = .body .form) ∧
          ∃ q t, Wants u id "body".toList s q ∧ (q, t) ∈ l ∧ a.typ = .type t) ∨
        (base = "application/octet-stream".toList ∧ (∃ x, LeadsTo comps schemaSection (refOr s) x ∧ OnlyFormat (.item .binary) x) ∧
          a.typ = .rawBody ∧ a.kind = .body .octetStream) ∨
        ((base = "text/plain".toList ∨ base = "text/x-markdown".toList) ∧
          (∃ x, LeadsTo comps schemaSection (refOr s) x ∧ OnlyFormat .empty x) ∧ a.typ = .rawBody ∧ a.kind = .body (.text base))) := by
  obtain ⟨_, _, _, pl2, ol2, l1, l2, l3, rfl, _, _, _, _, _, hb, _⟩ := h
  rw [hr] at hb
  have hbody : ∀ {x : BodySchema} {enc : Bool}, d'.body = some [(ct, ⟨some x, enc⟩)] → ∃ a ∈ P.op.params, ∃ c ty,
      ContentType.parse ct = .ok c ∧ Progenitor.bodyType c ⟨some x, enc⟩ x = .ok ty ∧
      a = ⟨"body".toList, "body".toList, ty, .body c⟩ := by
    intro x enc he
    obtain ⟨a, ha, h⟩ := body_param hp (e := (ct, ⟨some x, enc⟩)) he
    rw [he] at h
    obtain ⟨c, h1, h⟩ := Params.bind_ok_inv h
    obtain ⟨ty, h2, h⟩ := Params.bind_ok_inv h
    cases h
    exact ⟨_, ha, c, ty, h1, h2, rfl⟩
  generalize hb' : d'.body = b' at hb
  cases hb with
  | empty hr2 => exact absurd (leadsTo_unique hc hr2) (by simp)
  | octets hr2 hs hbase hx hof =>
    cases leadsTo_unique hc hr2
    obtain ⟨a, ha, c, ty, h1, h2, rfl⟩ := hbody hb'
    obtain ⟨base', hb2, hcase⟩ := (mediaType_iff ct c).mp h1
    cases mediaBase_unique hb2 hbase
    refine ⟨_, _, hs, hbase, _, ha, rfl, rfl, .inr (.inl ⟨rfl, ⟨_, hx, hof⟩, ?_⟩)⟩
    have hcc : c = .octetStream := by
      rcases hcase with ⟨h, _⟩ | ⟨_, h⟩ | ⟨_, h⟩ | ⟨_, h | h⟩
      · exact h
      all_goals exact absurd h (by decide)
    subst hcc
    cases h2
    exact ⟨rfl, rfl⟩
  | text hr2 hs hbase htext hx hof =>
    cases leadsTo_unique hc hr2
    obtain ⟨a, ha, c, ty, h1, h2, rfl⟩ := hbody hb'
    obtain ⟨base', hb2, hcase⟩ := (mediaType_iff ct c).mp h1
    rw [← mediaBase_unique hb2 hbase] at htext
    refine ⟨_, base', hs, hb2, _, ha, rfl, rfl, .inr (.inr ⟨htext, ⟨_, hx, hof⟩, ?_⟩)⟩
    have hcc : c = .text base' := by
      rcases hcase with ⟨_, h⟩ | ⟨_, h⟩ | ⟨_, h⟩ | ⟨h, _⟩
      · rw [h] at htext; exact absurd htext (by decide)
      · rw [h] at htext; exact absurd htext (by decide)
      · rw [h] at htext; exact absurd htext (by decide)
      · exact h
    subst hcc
    cases h2
    exact ⟨rfl, rfl⟩
  | typed hr2 hs hbase hjson hw =>
    cases leadsTo_unique hc hr2
    obtain ⟨a, ha, c, ty, h1, h2, rfl⟩ := hbody hb'
    obtain ⟨base', hb2, hcase⟩ := (mediaType_iff ct c).mp h1
    rw [← mediaBase_unique hb2 hbase] at hjson
    have hcc : base' = "application/json".toList ∧ c = .json ∨ base' = "application/x-www-form-urlencoded".toList ∧ c = .form := by
      rcases hcase with ⟨_, h⟩ | ⟨h, e⟩ | ⟨h, e⟩ | ⟨_, h⟩
      · rw [h] at hjson; exact absurd hjson (by decide)
      · exact .inl ⟨e, h⟩
      · exact .inr ⟨e, h⟩
      · exact absurd hjson (by rcases h with h | h <;> rw [h] <;> decide)
    refine ⟨_, base', hs, hb2, _, ha, rfl, rfl, .inl ⟨?_, _, _, hw, by simp; exact .inr (.inl rfl), ?_⟩⟩
    · rcases hcc with ⟨e, rfl⟩ | ⟨e, rfl⟩
      · exact .inl ⟨e, rfl⟩
      · exact .inr ⟨e, rfl⟩
    rcases hcc with ⟨_, rfl⟩ | ⟨_, rfl⟩ <;> simp only [Progenitor.bodyType] at h2 <;> split at h2 <;> cases h2 <;> rfl

/-! ## Values -/

theorem accepts_calls {ι : Interp} {accepts : σ → Params.TypeId → Json → Prop} (ha : RightTypes lib ι accepts) {a b : σ}
    {l : List AskedType} (h : Calls lib a l b) : ∀ x ∈ l, ∀ v, accepts b x.2 v ↔ JValid ι x.1.1 v := by
  have keep : ∀ {a b : σ} {l : List AskedType}, Calls lib a l b → ∀ t v, lib.info a t ≠ none → (accepts b t v ↔ accepts a t v) := by
    intro a b l h
    induction h with
    | nil => intro t v _; rfl
    | cons h1 _ ih =>
      intro t v ht
      rw [ih t v (there_mono (ha.lawful.grows _ _ _ _ _ h1) ht)]
      exact ha.stable _ _ _ _ _ h1 t v ht
  induction h with
  | nil => simp
  | cons h1 h2 ih =>
    intro x hx v
    rcases List.mem_cons.mp hx with rfl | hx
    · rw [keep h2 _ v (ha.lawful.there _ _ _ _ _ h1)]
      exact ha.right _ _ _ _ _ h1 v
    · exact ih x hx v

/-- C96: if the library makes types whose values are those that are valid for the JSON schema, the type that is asked for with a
schema of the document has the values of `EValid`, also when the client is complete. -/
theorem C96_values {ι : Interp} {accepts : σ → Params.TypeId → Json → Prop} (ha : RightTypes lib ι accepts) {a b : σ}
    {l : List AskedType} (h : Calls lib a l b) {what : Str} {s : OSchema} {q : JSchema × Str} {t : Params.TypeId} (hx : (q, t) ∈ l)
    (hw : Wants u id what s q) (hm : Maps s) (v : Json) : accepts b t v ↔ EValid ι s v := by
  rw [accepts_calls ha h _ hx v]
  exact C45_exact hm hw.1 v

/-- C96: if the library makes types whose values are those that are valid for the JSON schema, the type that is asked for with a
schema of the document has exactly the values that are valid for that schema, also when the client is complete. -/
theorem C96_values_partial {ι : Interp} {accepts : σ → Params.TypeId → Json → Prop} (ha : RightTypes lib ι accepts) {a b : σ}
    {l : List AskedType} (h : Calls lib a l b) {what : Str} {s : OSchema} {q : JSchema × Str} {t : Params.TypeId} (hx : (q, t) ∈ l)
    (hw : Wants u id what s q) (hf : Faithful ι s) (v : Json) : accepts b t v ↔ OValid ι s v := by
  rw [accepts_calls ha h _ hx v]
  exact C45_valid_partial hf hw.1 v

end

/-! ## A library and a document -/

/-- Types that mention only earlier ones. -/
structure ToySpace where
  types : List TypeInfo
  closed : ∀ i ∈ types, ∀ x ∈ mentions i, x < types.length

/-- A schema with several types becomes an optional string, any other becomes a string. -/
def toyAdd (s : ToySpace) (j : JSchema) : Params.TypeId × ToySpace :=
  match j with
  | .obj _ (some (.vec _)) _ _ _ _ _ _ _ => (s.types.length + 1, ⟨s.types ++ [.string, .option s.types.length], by
      intro i hi x hx
      rcases List.mem_append.mp hi with hi | hi
      · have := s.closed i hi x hx; rw [List.length_append]; exact Nat.lt_of_lt_of_le this (Nat.le_add_right _ _)
      · simp only [List.mem_cons, List.not_mem_nil, or_false] at hi
        rcases hi with rfl | rfl
        · cases hx
        · simp only [mentions, List.mem_singleton] at hx; subst hx; simp⟩)
  | _ => (s.types.length, ⟨s.types ++ [.string], by
      intro i hi x hx
      rcases List.mem_append.mp hi with hi | hi
      · have := s.closed i hi x hx; rw [List.length_append]; exact Nat.lt_of_lt_of_le this (Nat.le_add_right _ _)
      · rw [List.mem_singleton.mp hi] at hx; cases hx⟩)

def toy : Library ToySpace where
  add s j _ := .ok (toyAdd s j)
  addRefs s _ := .ok s
  info s := fun t => s.types[t]?

theorem toy_add (s : ToySpace) (j : JSchema) : ∃ l, (toyAdd s j).2.types = s.types ++ l ∧ (toyAdd s j).1 < (s.types ++ l).length := by
  unfold toyAdd
  split
  · exact ⟨_, rfl, by simp⟩
  · exact ⟨_, rfl, by simp⟩

theorem toy_lawful : LawfulTypes toy where
  grows s j h t s' e := by
    injection e with e
    obtain ⟨rfl, rfl⟩ : t = (toyAdd s j).1 ∧ s' = (toyAdd s j).2 := by rw [e]; exact ⟨rfl, rfl⟩
    obtain ⟨l, hl, _⟩ := toy_add s j
    intro t i hi
    show (toyAdd s j).2.types[t]? = some i
    have hi : s.types[t]? = some i := hi
    rw [hl, List.getElem?_append_left (by
      rcases Nat.lt_or_ge t s.types.length with h | h
      · exact h
      · rw [List.getElem?_eq_none h] at hi; cases hi)]
    exact hi
  there s j h t s' e := by
    injection e with e
    obtain ⟨rfl, rfl⟩ : t = (toyAdd s j).1 ∧ s' = (toyAdd s j).2 := by rw [e]; exact ⟨rfl, rfl⟩
    obtain ⟨l, hl, ht⟩ := toy_add s j
    show (toyAdd s j).2.types[(toyAdd s j).1]? ≠ none
    rw [hl]
    simpa using ht
  closed s t i hi x hx := by
    have := s.closed i (List.mem_of_getElem? hi) x hx
    show s.types[x]? ≠ none
    simpa using this

/-- `GET /things/{id}` with an id, an optional query parameter (referred to) that may be `null`, and two JSON responses. -/
def toyDocument : SDocument where
  version := "3.0.3".toList
  paths := [("/things/{id}".toList, some [("get".toList, ⟨some "thing_get".toList,
    { tags := [], pathLevel := [.item ⟨"id".toList, .path true, true, some (.ref "#/components/schemas/Id".toList)⟩]
      opLevel := [.ref "#/components/parameters/q".toList]
      body := none
      default := some (.item [("application/json".toList, ⟨some (.boolean false []), true⟩)])
      codes := [(.code 200, .item [("application/json".toList, ⟨some (.string false ⟨.empty, none, [], none, none⟩), true⟩)])]
      websocket := false
      pagination := none }⟩)])]
  components := some
    { parameters := [("q".toList, .item ⟨"q".toList, .query true, true, some (.string true ⟨.empty, none, [], none, none⟩)⟩)]
      bodies := []
      responses := []
      schemas := [("Id".toList, .string false ⟨.item .date, none, [], none, none⟩)] }

/-- What is asked for. -/
structure SeenTypes where
  params : List (Str × PType × Params.Kind)
  responses : List Resp.Kind
  types : List TypeInfo
  deriving DecidableEq

def seenOf : Run (List Processed × ToySpace) → Option SeenTypes
  | some (.ok ([p], s)) => some ⟨p.op.params.map fun a => (a.apiName, a.typ, a.kind), p.op.responses.map (·.kind), s.types⟩
  | _ => none

example : seenOf (Typed.rawMethods toy 5 exUnicode toyDocument ⟨[], by simp⟩) = some
    ⟨[("id".toList, .type 0, .path), ("q".toList, .type 1, .query false)], [.type 3, .type 4],
      [.string, .string, .option 1, .string, .string]⟩ := by decide +kernel

theorem response_asked {comps : Option SSections} {u : Unicode} {id : Str} {rs : List (RefOr SContent)} {rs' : List DocResponse}
    {l : List AskedType} (h : ResponsesTyped comps u id rs rs' l) {m : Str} {s : OSchema} {b : Bool}
    (hr : .item [(m, ⟨some s, b⟩)] ∈ rs) (hm : IsJson m) :
    ∃ x ∈ l, Wants u id "response".toList s x.1 := by
  obtain ⟨c, _, m0, hm0, hsub⟩ := forall₂_left (responsesTyped_mem h) _ hr
  have hlead : LeadsTo comps SSections.responses (.item [(m, ⟨some s, b⟩)]) ([] ++ (m, ⟨some s, b⟩) :: []) := by
    unfold LeadsTo
    cases comps with
    | none => rfl
    | some c => exact .item _
  cases hm0 with
  | @json pre2 pre' m2 mt2 post2 post' s' q t hr2 hp2 hj2 hs2 hw2 hpre2 hpost2 =>
    have he := leadsTo_unique hlead hr2
    have e1 := typedMedia_first (mt := ⟨some s, b⟩) (post := []) (pre := []) (by simp) hm
    rw [he, typedMedia_first hp2 hj2] at e1
    cases e1
    cases hs2
    exact ⟨_, hsub _ List.mem_cons_self, hw2⟩
  | @other c c' hr2 hn hsame =>
    have he := leadsTo_unique hlead hr2
    exact absurd hm (hn (m, _) (by rw [← he]; exact List.mem_cons_self))

/-- C96: the name that typify is given does not tell types apart: the JSON responses of an operation all have the same, whatever
their schemas. -/
theorem C96_names_fails : (∃ ms s1, Typed.rawMethods toy 5 exUnicode toyDocument ⟨[], by simp⟩ = some (.ok (ms, s1))) ∧
    ∀ types d' l, DocumentTyped exUnicode types toyDocument d' l →
      ∃ x ∈ l, ∃ y ∈ l, x.1.2 = y.1.2 ∧ ∀ v ι, ¬ (JValid ι x.1.1 v ∧ JValid ι y.1.1 v) := by
  constructor
  · have h : seenOf (Typed.rawMethods toy 5 exUnicode toyDocument ⟨[], by simp⟩) ≠ none := by decide +kernel
    revert h
    generalize Typed.rawMethods toy 5 exUnicode toyDocument ⟨[], by simp⟩ = r
    intro h
    match r, h with
    | some (.ok (ms, s1)), _ => exact ⟨ms, s1, rfl⟩
    | some (.err _), h => exact absurd rfl h
    | some (.panic _), h => exact absurd rfl h
    | none, h => exact absurd rfl h
  · rintro types d' l ⟨_, hp⟩
    generalize d'.paths = paths' at hp
    cases hp with
    | cons ho _ =>
      cases ho with
      | cons hop _ =>
        obtain ⟨_, _, _, pl2, ol2, l1, l2, l3, rfl, _, _, _, _, _, _, hcodes, hdef, hrs⟩ := hop
        have hj : IsJson "application/json".toList := (isJson_iff _).mp (by decide)
        obtain ⟨x, hx, hx1, hx2⟩ := response_asked (m := "application/json".toList) (b := true)
          (s := .boolean false []) hrs (List.mem_cons_self) hj
        obtain ⟨y, hy, hy1, hy2⟩ := response_asked (m := "application/json".toList) (b := true)
          (s := .string false ⟨.empty, none, [], none, none⟩) hrs (List.mem_cons_of_mem _ List.mem_cons_self) hj
        refine ⟨x, List.mem_append_left _ (List.mem_append_left _ (List.mem_append_right _ hx)), y, List.mem_append_left _ (List.mem_append_left _ (List.mem_append_right _ hy)), by rw [hx2, hy2], fun v ι ⟨h1, h2⟩ => ?_⟩
        rw [C45_valid_partial (by simp [Faithful]) hx1] at h1
        rw [C45_valid_partial (by simp only [Faithful]; exact ⟨fun _ h => (nomatch h), fun _ h => (nomatch h)⟩) hy1] at h2
        simp only [OValid] at h1 h2
        have t1 := h1.1
        have t2 := h2.1
        clear h1 h2
        cases v <;> simp [TypeOk, HasType] at t1 t2

/-- The hypotheses of the other theorems hold for it. -/
example : ∃ js a s1 l d' ms, ConvertedComponents toyDocument js ∧ toy.addRefs ⟨[], by simp⟩ js = .ok a ∧ Calls toy a l s1 ∧
    DocumentTyped exUnicode (toy.info s1) toyDocument d' l ∧ Doc.rawMethods exUnicode (toy.info s1) d' = .ok ms := by
  obtain ⟨ms, s1, h⟩ := C96_names_fails.1
  obtain ⟨js, a, l, d', h⟩ := C96_document toy_lawful h
  exact ⟨js, a, s1, l, d', ms, h⟩

/-- A library that keeps the schema of each type has the values that it should have. -/
def keeping : Library (List JSchema) where
  add s j _ := .ok (s.length, s ++ [j])
  addRefs s _ := .ok s
  info s := fun t => if t < s.length then some .other else none

theorem keeping_right (ι : Interp) : RightTypes keeping ι fun s t v => ∃ j, s[t]? = some j ∧ JValid ι j v where
  lawful := {
    grows := by
      intro s j h t s' e x i hi
      cases e
      simp only [keeping, List.length_append, List.length_singleton] at hi ⊢
      split at hi
      · rename_i hlt; rw [if_pos (Nat.lt_succ_of_lt hlt)]; exact hi
      · cases hi
    there := by
      intro s j h t s' e
      cases e
      simp [keeping]
    closed := by
      intro s t i hi x hx
      simp only [keeping] at hi
      split at hi
      · cases hi; cases hx
      · cases hi }
  right := by
    intro s j h t s' e v
    cases e
    simp
  stable := by
    intro s j h t s' e x v hx
    cases e
    have hx : x < s.length := by
      simp only [keeping] at hx
      split at hx
      · assumption
      · exact absurd rfl hx
    rw [List.getElem?_append_left hx]

end Progenitor.Props

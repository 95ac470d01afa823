import Verif.Spec.FormStyle
import Verif.Props.FormExact
import Verif.Props.TypedReply
import Verif.Props.Wire

/-!
# C100: parameters arrive as values that the schemas of the document have
-/

namespace Progenitor.Props

open Progenitor Progenitor.Params Progenitor.Refs Progenitor.Resp Progenitor.Names Progenitor.Builder Progenitor.Exec
  Progenitor.Schema Progenitor.RefDoc Progenitor.Spec Progenitor.Typed Progenitor.Client Progenitor.Query

/-! ## Texts of values -/

theorem digits_repr (n : Nat) : Digits (Nat.repr n).toList n := by
  unfold Nat.repr
  rw [String.toList_ofList]
  induction n using Nat.strongRecOn with
  | ind n ih =>
    by_cases h : n < 10
    · rw [Nat.toDigits_of_lt_base h]; exact .one n h
    · rw [Nat.toDigits_of_base_le (by omega) (by omega)]
      have := Digits.more _ _ (n % 10) (ih (n / 10) (by omega)) (by omega)
      rwa [show 10 * (n / 10) + n % 10 = n by omega] at this

theorem numeral_nat (n : Nat) : Numeral (Nat.repr n).toList ((n : Int) : Rat) :=
  .pos _ _ (.plain _ _ (.whole _ n (digits_repr n)))

theorem numeral_neg (n : Nat) : Numeral ('-' :: (Nat.repr (n + 1)).toList) ((Int.negSucc n : Int) : Rat) := by
  have := Numeral.neg _ _ (.plain _ _ (.whole _ (n + 1) (digits_repr (n + 1))))
  rwa [show (-((n + 1 : Nat) : Rat)) = ((Int.negSucc n : Int) : Rat) by rw [Int.negSucc_eq]; push_cast; rfl] at this

theorem scalar_primitive {x : Ser} {t : Str} (h : Scalar x t) {j : Json} (hj : JsonOf x j) : Primitive j t := by
  induction h generalizing j with
  | true => cases hj; exact .true
  | false => cases hj; exact .false
  | nat n => cases hj; exact .num _ _ (numeral_nat n)
  | neg n => cases hj; exact .num _ _ (numeral_neg n)
  | float t => cases hj with | float _ _ h => exact .num _ _ h
  | char c => cases hj; exact .str _
  | str s => cases hj; exact .str _
  | unitVariant e v => cases hj; exact .str _
  | some v t _ ih => cases hj with | some _ _ h => exact ih h

theorem item_member {x : Ser} {t : Option Str} (h : Item x t) {j : Json} (hj : JsonOf x j) : Member j t := by
  induction h generalizing j with
  | scalar v t h => exact .value _ _ (scalar_primitive h hj)
  | none => cases hj; exact .null
  | some v t _ ih => cases hj with | some _ _ h => exact ih h
  | newtype n v t _ ih => cases hj with | newtypeStruct _ _ _ h => exact ih h

theorem items_members {vs : List Ser} {ts : List (Option Str)} (h : Forall₂ Item vs ts) {js : List Json} (hj : Forall₂ JsonOf vs js) :
    Forall₂ Member js ts := by
  induction h generalizing js with
  | nil => cases hj; exact .nil
  | cons h _ ih => cases hj with | cons h1 h2 => exact .cons (item_member h h1) (ih h2)

theorem member_form {j : Json} {t : Option Str} (h : Member j t) (name : Str) : FormStyle name j (t.toList.map fun x => (name, x)) := by
  cases h with
  | null => exact .null
  | value _ t h => exact .primitive _ _ h

/-- What an argument stands for in the query is its JSON value in style `form`. -/
theorem means_form {name : Str} {x : Ser} {ps : List (Str × Str)} (h : Means name x ps) {j : Json} (hj : JsonOf x j) :
    FormStyle name j ps := by
  induction h generalizing j with
  | item v t h => exact member_form (item_member h hj) name
  | seq vs ts h => cases hj with | seq _ _ hj => exact .array _ _ (items_members h hj)
  | tuple vs ts h => cases hj with | tuple _ _ hj => exact .array _ _ (items_members h hj)
  | struct n fs ts h =>
    cases hj with
    | struct _ _ gs h1 h2 =>
      refine .object _ _ ?_
      induction h generalizing gs with
      | nil =>
        cases gs with
        | nil => exact .nil
        | cons g gs => simp at h1
      | cons h _ ih =>
        cases gs with
        | nil => simp at h1
        | cons g gs =>
          simp only [List.map_cons, List.cons.injEq] at h1
          cases h2 with
          | cons h3 h4 => exact .cons ⟨h1.1.symm.trans h.1, item_member h.2 h3⟩ (ih gs h1.2 h4)
  | map fs ts h =>
    cases hj with
    | map _ gs h1 h2 =>
      refine .object _ _ ?_
      induction h generalizing gs with
      | nil =>
        cases gs with
        | nil => exact .nil
        | cons g gs => cases h1
      | cons h _ ih =>
        cases gs with
        | nil => cases h1
        | cons g gs =>
          cases h1 with
          | cons h5 h6 =>
            cases h2 with
            | cons h3 h4 => exact .cons ⟨key_unique h5 h.1, item_member h.2 h3⟩ (ih gs h6 h4)
  | variant e var v t h =>
    cases hj with
    | newtypeVariant _ _ _ j hj =>
      have := FormStyle.object (name := name) [(var, j)] [(var, t)] (.cons ⟨rfl, item_member h hj⟩ .nil)
      cases t <;> exact this
  | some v ps _ ih => cases hj with | some _ _ h => exact ih h
  | newtype n v ps _ ih => cases hj with | newtypeStruct _ _ _ h => exact ih h

/-! ## Parameters of the document with schemas, and of the one with types -/

/-- The guards of C70 on the parameters of an operation. -/
structure SWireReady (pl ol : List SParam) : Prop where
  pathLevel : pl.Pairwise fun p q => ¬ SSame p q
  opLevel : ol.Pairwise fun p q => ¬ SSame p q
  names : ∀ p ∈ pl ++ ol, ∀ q ∈ pl ++ ol, p.name = q.name → skindLocation p.kind = skindLocation q.kind
  headers : ∀ p, SEffective pl ol p → p.kind = .header → lowerName p.name ∉ automaticNames ∧
    ∀ q, SEffective pl ol q → q.kind = .header → lowerName q.name = lowerName p.name → q.name = p.name

theorem sameParam_iff {p q : SParam} {p' q' : DocParam} (h : SameButType p p') (h' : SameButType q q') :
    SameParam p' q' ↔ SSame p q := by
  unfold SameParam SSame
  rw [h.1, h'.1, sameKind_location h.2.1, sameKind_location h'.2.1]

theorem pairwise_same {l : List SParam} {l' : List DocParam} (h : Forall₂ SameButType l l') (hl : l.Pairwise fun p q => ¬ SSame p q) :
    NoDuplicates l' := by
  unfold NoDuplicates
  induction h with
  | nil => exact .nil
  | cons h1 h2 ih =>
    cases hl with
    | cons h3 h4 =>
      refine .cons (fun q hq hs => ?_) (ih h4)
      obtain ⟨p, hp, hpq⟩ := forall₂_right h2 q hq
      exact h3 p hp ((sameParam_iff h1 hpq).mp hs)

theorem effective_typed {pl ol : List SParam} {pl' ol' : List DocParam} (hp : Forall₂ SameButType pl pl')
    (ho : Forall₂ SameButType ol ol') {p : SParam} (h : SEffective pl ol p) : ∃ q, Effective pl' ol' q ∧ SameButType p q := by
  rcases h with h | ⟨h, hn⟩
  · obtain ⟨q, hq, hs⟩ := forall₂_left ho p h
    exact ⟨q, .inl hq, hs⟩
  · obtain ⟨q, hq, hs⟩ := forall₂_left hp p h
    refine ⟨q, .inr ⟨hq, fun r hr hqr => ?_⟩, hs⟩
    obtain ⟨r', hr', hs'⟩ := forall₂_right ho r hr
    exact hn r' hr' ((sameParam_iff hs hs').mp hqr)

theorem effective_untyped {pl ol : List SParam} {pl' ol' : List DocParam} (hp : Forall₂ SameButType pl pl')
    (ho : Forall₂ SameButType ol ol') {q : DocParam} (h : Effective pl' ol' q) : ∃ p, SEffective pl ol p ∧ SameButType p q := by
  rcases h with h | ⟨h, hn⟩
  · obtain ⟨p, hq, hs⟩ := forall₂_right ho q h
    exact ⟨p, .inl hq, hs⟩
  · obtain ⟨p, hq, hs⟩ := forall₂_right hp q h
    refine ⟨p, .inr ⟨hq, fun r hr hqr => ?_⟩, hs⟩
    obtain ⟨r', hr', hs'⟩ := forall₂_left ho r hr
    exact hn r' hr' ((sameParam_iff hs hs').mpr hqr)

theorem header_same {p : SParam} {q : DocParam} (h : SameButType p q) : q.kind = .header ↔ p.kind = .header := by
  have := h.2.1
  revert this
  generalize p.kind = k
  generalize q.kind = k'
  intro h
  cases h <;> simp

theorem lastAt_mem {l pre post : List SParam} {p : SParam} (e : l = pre ++ p :: post) (hd : l.Pairwise fun p q => ¬ SSame p q)
    (hn : ∀ q ∈ l, q.name = p.name → skindLocation q.kind = skindLocation p.kind) : ∀ q ∈ post, q.name ≠ p.name := by
  subst e
  intro q hq he
  have h1 := (List.pairwise_append.mp hd).2.1
  cases h1 with
  | cons h1 _ => exact h1 q hq ⟨he.symm, (hn q (by simp [hq]) he).symm⟩

/-- A parameter that is effective is the last one of its name. -/
theorem effective_last {pl ol : List SParam} (hw : SWireReady pl ol) {p : SParam} (h : SEffective pl ol p) :
    ∃ pre post, LastAt (pl ++ ol) pre p post := by
  rcases h with h | ⟨h, hn⟩
  · obtain ⟨pre, post, e⟩ := List.append_of_mem h
    refine ⟨pl ++ pre, post, by rw [e, List.append_assoc], lastAt_mem e hw.opLevel fun q hq he => ?_⟩
    exact hw.names q (List.mem_append_right _ hq) p (List.mem_append_right _ h) he
  · obtain ⟨pre, post, e⟩ := List.append_of_mem h
    refine ⟨pre, post ++ ol, by rw [e]; simp, fun q hq he => ?_⟩
    rcases List.mem_append.mp hq with hq | hq
    · refine lastAt_mem e hw.pathLevel (fun q hq he => ?_) q hq he
      exact hw.names q (List.mem_append_left _ hq) p (List.mem_append_left _ h) he
    · exact hn q hq ⟨he.symm, (hw.names q (List.mem_append_right _ hq) p (List.mem_append_left _ h) he).symm⟩

theorem reads_same {keys : Str → List Str} {auth : Str} {base : List Str} {l : List Seg} {r : Request} {p : SParam} {q : DocParam}
    (h : SameButType p q) : reads keys auth base l r q = sreads keys auth base l r p := by
  unfold reads sreads
  rw [h.1]
  have := h.2.1
  revert this
  generalize p.kind = k
  generalize q.kind = k'
  intro h
  cases h <;> rfl

/-! ## Requests -/

theorem written_of_expected {l : List Seg} {p : SParam} {q : DocParam} (hs : SameButType p q) {v : Value} {got : List (Bytes × Bytes)}
    (h : Expected l q v got) {good : Json → Prop}
    (hv : ∀ x, givenArg v = some x → ∃ j, JsonOf x.ser j ∧ good j ∧
      (skindLocation p.kind = .path ∨ skindLocation p.kind = .header → Primitive j x.display)) :
    givenArg v = none ∧ got = [] ∨ ∃ x j, givenArg v = some x ∧ JsonOf x.ser j ∧ good j ∧ WrittenAs l p j got := by
  obtain ⟨name, kind, required, schema⟩ := p
  obtain ⟨qname, qkind, qrequired, qhas, qty⟩ := q
  obtain ⟨rfl, hk, -, -⟩ := hs
  cases h with
  | path k t hk' ht =>
    cases hk'
    cases hk
    cases v with
    | plain x =>
      cases ht
      obtain ⟨j, h1, h2, h3⟩ := hv x rfl
      exact .inr ⟨x, j, rfl, h1, h2, _, h3 (.inl rfl), rfl⟩
    | opt o =>
      cases o with
      | none => cases ht
      | some x =>
        cases ht
        obtain ⟨j, h1, h2, h3⟩ := hv x rfl
        exact .inr ⟨x, j, rfl, h1, h2, _, h3 (.inl rfl), rfl⟩
    | raw => cases ht
    | internal => cases ht
  | query k m x ps hk' hx hm =>
    cases hk'
    cases hk
    cases v with
    | plain a =>
      cases hx
      obtain ⟨j, h1, h2, -⟩ := hv a rfl
      exact .inr ⟨a, j, rfl, h1, h2, ps, means_form hm h1, rfl⟩
    | opt o =>
      cases o with
      | none =>
        cases hx
        refine .inl ⟨rfl, ?_⟩
        cases means_form hm .none with
        | null => rfl
        | primitive _ _ h => cases h
      | some a =>
        cases hx
        obtain ⟨j, h1, h2, -⟩ := hv a rfl
        exact .inr ⟨a, j, rfl, h1, h2, ps, means_form hm (.some _ _ h1), rfl⟩
    | raw => cases hx
    | internal => cases hx
  | header hk' =>
    cases hk'
    cases hk
    cases v with
    | plain x =>
      obtain ⟨j, h1, h2, h3⟩ := hv x rfl
      exact .inr ⟨x, j, rfl, h1, h2, _, h3 (.inr rfl), rfl⟩
    | opt o =>
      cases o with
      | none => exact .inl ⟨rfl, rfl⟩
      | some x =>
        obtain ⟨j, h1, h2, h3⟩ := hv x rfl
        exact .inr ⟨x, j, rfl, h1, h2, _, h3 (.inr rfl), rfl⟩
    | raw => exact .inl ⟨rfl, rfl⟩
    | internal => exact .inl ⟨rfl, rfl⟩

section

variable {σ : Type} {lib : Library σ} {u : Unicode}

/-- Parameters and the converted schemas. -/
theorem parameter_converted {B : Type} {ι : Interp} {accepts : σ → Params.TypeId → Json → Prop} (ha : RightTypes lib ι accepts)
    (hopt : RightOptions lib accepts) {n : Nat} {tt : σ → TypeTable B} {i : Doc.Interface} {t : Doc.TagStyle} {d : SDocument}
    {s0 s1 : σ} {ms : List Processed} {cs : List Code} (h : Typed.generate lib n u tt i t d s0 = some (.ok ((ms, cs), s1))) :
    Forall₂ (fun (o : Str × Str × SRaw) (pc : Processed × Code) =>
      ∀ (keys : Str → List Str) (cfg : Config) (auth : Str) (base : List Str) (l : List Seg) (args : List Value) (r : Request)
        (pl ol : List SParam) (p : SParam), o.1 = segsText l → SegsOk l → l ≠ [] →
        Forall₂ (LeadsTo d.components SSections.parameters) o.2.2.op.pathLevel pl →
        Forall₂ (LeadsTo d.components SSections.parameters) o.2.2.op.opLevel ol → SWireReady pl ol →
        BaseUrl cfg auth base → Recoverable keys l pc.1.op.params args → ValuesTyped (accepts s1) pc.1.op.params args →
        Issues cfg pc.1.op args r → SEffective pl ol p →
        ∃ s j, p.schema = some s ∧ conv s = .ok j ∧
          ArrivesAs (JValid ι j) l p (pc.1.op.params.zip args) (sreads keys auth base l r p))
      (schemaRoutes d) (ms.zip cs) := by
  obtain ⟨js, a, asked, d', _, _, hcalls, hd, hg⟩ := C96_generate ha.lawful h
  refine forall₂_imp_mem ?_ (operations_made hd hg)
  rintro o - pc ⟨id, op', l0, hid, hop, hsub, hp, hc⟩
  intro keys cfg auth base l args r pl ol p hpath hl hne hpl hol hw hbase hrec hvals hissues heff
  obtain ⟨pre, post, hlast⟩ := effective_last hw heff
  obtain ⟨s, q, ty, hs, hwants, hq, a', ha', hn', -, hloc', hty', -⟩ := C96_argument hop hp hpl hol hlast
  obtain ⟨_, _, _, pl2, ol2, _, _, _, _, hpl2, hol2, hpl', hol', -⟩ := hop
  cases leadsTo_all_unique hpl hpl2
  cases leadsTo_all_unique hol hol2
  have hdp := pairwise_same hpl' hw.pathLevel
  have hdo := pairwise_same hol' hw.opLevel
  have hun : NamesUnambiguous (op'.pathLevel ++ op'.opLevel) := by
    intro x hx y hy e
    obtain ⟨x', hx', hsx⟩ := forall₂_right (forall₂_append hpl' hol') x hx
    obtain ⟨y', hy', hsy⟩ := forall₂_right (forall₂_append hpl' hol') y hy
    rw [sameKind_location hsx.2.1, sameKind_location hsy.2.1]
    exact hw.names x' hx' y' hy' (by rw [← hsx.1, ← hsy.1, e])
  have hh : HeadersApart op'.pathLevel op'.opLevel := by
    intro x hx hk
    obtain ⟨x', hx', hsx⟩ := effective_untyped hpl' hol' hx
    obtain ⟨h1, h2⟩ := hw.headers x' hx' ((header_same hsx).mp hk)
    rw [hsx.1]
    refine ⟨h1, fun y hy hky hyx => ?_⟩
    obtain ⟨y', hy', hsy⟩ := effective_untyped hpl' hol' hy
    rw [hsy.1] at hyx ⊢
    exact h2 y' hy' ((header_same hsy).mp hky) hyx
  have hrecv := C70_received_partial (d := { op' with operationId := id }) hp hpath hl hne hdp hdo hun hh hbase hissues hrec
  obtain ⟨x, hx, hsx⟩ := effective_typed hpl' hol' heff
  obtain ⟨b, v, hbv, hdb, -, hexp⟩ := hrecv.received x hx
  obtain ⟨body, hbody, hps⟩ := processOperation_params hp
  obtain ⟨-, -, hdist⟩ := C13_override_partial _ _ _ _ _ _ hdp hdo hun hbody hps
  have hlb : location b.kind = skindLocation p.kind := by rw [hdb.2.1, sameKind_location hsx.2.1]
  have hnb : skindLocation p.kind ≠ .body := by cases p.kind <;> simp [skindLocation]
  have hab : b = a' := pairwise_unique hdist
    (List.mem_filter.mpr ⟨(List.of_mem_zip hbv).1, by simpa [hlb] using hnb⟩)
    (List.mem_filter.mpr ⟨ha', by simpa [hloc'] using hnb⟩) (by rw [hdb.1, hsx.1, hn'])
  refine ⟨s, q.1, hs, hwants.1, b, v, hbv, by rw [hdb.1, hsx.1], hlb, ?_⟩
  rw [← reads_same hsx]
  refine written_of_expected hsx hexp fun arg harg => ?_
  obtain ⟨j, hj, hacc, hprim⟩ := hvals b v hbv _ (hab ▸ hty') arg harg
  refine ⟨j, hj, ?_, fun hor => hprim ?_⟩
  · refine (accepts_calls ha hcalls _ (hsub _ hq) j).mp ?_
    unfold argumentType at hacc
    split at hacc
    · next hinfo => exact hopt _ _ _ hinfo _ hacc
    · exact hacc
  · rw [← hlb] at hor
    cases hk : b.kind with
    | path => exact .inl rfl
    | header rq => exact .inr ⟨rq, rfl⟩
    | query _ => rw [hk] at hor; simp [location] at hor
    | body _ => rw [hk] at hor; simp [location] at hor

/-- C100: what a server reads for a parameter of a document with schemas, when a generated method sends a request whose arguments are
values of their types: nothing if the argument is not given, and else a value that the schema in the document has after conversion,
written in the style of its location. -/
theorem C100_parameters_partial {B : Type} {ι : Interp} {accepts : σ → Params.TypeId → Json → Prop} (ha : RightTypes lib ι accepts)
    (hopt : RightOptions lib accepts) {n : Nat} {tt : σ → TypeTable B} {i : Doc.Interface} {t : Doc.TagStyle} {d : SDocument}
    {s0 s1 : σ} {ms : List Processed} {cs : List Code} (h : Typed.generate lib n u tt i t d s0 = some (.ok ((ms, cs), s1))) :
    Forall₂ (fun (o : Str × Str × SRaw) (pc : Processed × Code) =>
      ∀ (keys : Str → List Str) (cfg : Config) (auth : Str) (base : List Str) (l : List Seg) (args : List Value) (r : Request)
        (pl ol : List SParam) (p : SParam), o.1 = segsText l → SegsOk l → l ≠ [] →
        Forall₂ (LeadsTo d.components SSections.parameters) o.2.2.op.pathLevel pl →
        Forall₂ (LeadsTo d.components SSections.parameters) o.2.2.op.opLevel ol → SWireReady pl ol →
        BaseUrl cfg auth base → Recoverable keys l pc.1.op.params args → ValuesTyped (accepts s1) pc.1.op.params args →
        Issues cfg pc.1.op args r → SEffective pl ol p →
        ∃ s, p.schema = some s ∧ (Maps s →
          ArrivesAs (EValid ι s) l p (pc.1.op.params.zip args) (sreads keys auth base l r p)) ∧ (Faithful ι s →
          ArrivesAs (OValid ι s) l p (pc.1.op.params.zip args) (sreads keys auth base l r p)))
      (schemaRoutes d) (ms.zip cs) := by
  refine forall₂_imp_mem ?_ (parameter_converted ha hopt h)
  intro o _ pc hpc keys cfg auth base l args r pl ol p hpath hl hne hpl hol hw hbase hrec hvals hissues heff
  obtain ⟨s, j, hs, hj, har⟩ := hpc keys cfg auth base l args r pl ol p hpath hl hne hpl hol hw hbase hrec hvals hissues heff
  refine ⟨s, hs, fun hm => ?_, fun hf => ?_⟩
  · have e : JValid ι j = EValid ι s := funext fun v => propext (C45_exact hm hj v)
    rwa [← e]
  · have e : JValid ι j = OValid ι s := funext fun v => propext (C45_valid_partial hf hj v)
    rwa [← e]

/-- The types of arguments have the values of the converted schemas. -/
theorem argument_values {B : Type} {ι : Interp} {accepts : σ → Params.TypeId → Json → Prop} (ha : RightTypes lib ι accepts)
    {n : Nat} {tt : σ → TypeTable B} {i : Doc.Interface} {t : Doc.TagStyle} {d : SDocument}
    {s0 s1 : σ} {ms : List Processed} {cs : List Code} (h : Typed.generate lib n u tt i t d s0 = some (.ok ((ms, cs), s1))) :
    Forall₂ (fun (o : Str × Str × SRaw) (pc : Processed × Code) =>
      ∀ (pl ol : List SParam) (p : SParam), Forall₂ (LeadsTo d.components SSections.parameters) o.2.2.op.pathLevel pl →
        Forall₂ (LeadsTo d.components SSections.parameters) o.2.2.op.opLevel ol → SWireReady pl ol → SEffective pl ol p →
        ∃ s j t a, p.schema = some s ∧ conv s = .ok j ∧ a ∈ pc.1.op.params ∧ a.apiName = p.name ∧
          a.typ = .type (argumentType (lib.info s1) p.kind t) ∧ ∀ v, accepts s1 t v ↔ JValid ι j v)
      (schemaRoutes d) (ms.zip cs) := by
  obtain ⟨js, a, asked, d', _, _, hcalls, hd, hg⟩ := C96_generate ha.lawful h
  refine forall₂_imp_mem ?_ (operations_made hd hg)
  rintro o - pc ⟨id, op', l0, hid, hop, hsub, hp, hc⟩
  intro pl ol p hpl hol hw heff
  obtain ⟨pre, post, hlast⟩ := effective_last hw heff
  obtain ⟨s, q, ty, hs, hwants, hq, a', ha', hn', -, hloc', hty', -⟩ := C96_argument hop hp hpl hol hlast
  exact ⟨s, q.1, ty, a', hs, hwants.1, ha', hn', hty', accepts_calls ha hcalls _ (hsub _ hq)⟩

/-! ## Form bodies -/

/-- A single text with a JSON value is an element of an array or a field of an object. -/
theorem text_item {v : Ser} {t : Option Str} (h : OneText v t) {j : Json} (hj : JsonOf v j) (hu : ¬ HasUnit v) : Item v t := by
  induction h with
  | scalar v t h => exact .scalar v t h
  | bytes => cases hj
  | unitStruct n => exact absurd (.here n) hu
  | none => exact .none
  | some v t _ ih => cases hj with | some _ _ hj => exact .some v t (ih hj fun h => hu (.some v h))
  | newtype n v t _ ih => cases hj with | newtypeStruct _ _ _ hj => exact .newtype n v t (ih hj fun h => hu (.newtype n v h))

theorem flatMap_filterMap (ts : List (Str × Option Str)) :
    (ts.flatMap fun t => t.2.toList.map fun x => (t.1, x)) = ts.filterMap fun t => t.2.map fun x => (t.1, x) := by
  induction ts with
  | nil => rfl
  | cons t ts ih =>
    obtain ⟨k, _ | x⟩ := t <;> simp [ih]

/-- A form is the JSON value in style `form`, if that is not an array. -/
theorem form_style {x : Ser} {ps : List (Str × Str)} (h : FormOf x ps) {j : Json} (hj : JsonOf x j) (hu : ¬ HasUnit x)
    (hn : ∀ js, j ≠ .arr js) : FormStyle [] j ps := by
  induction h generalizing j with
  | unit => cases hj; exact .null
  | unitStruct => cases hj; exact .null
  | none => cases hj; exact .null
  | some v ps _ ih => cases hj with | some _ _ hj => exact ih hj (fun h => hu (.some v h)) hn
  | newtype n v ps _ ih => cases hj with | newtypeStruct _ _ _ hj => exact ih hj (fun h => hu (.newtype n v h)) hn
  | seq => cases hj with | seq _ js _ => exact absurd rfl (hn js)
  | tuple => cases hj with | tuple _ js _ => exact absurd rfl (hn js)
  | struct n fs ts h =>
    rw [flatMap_filterMap]
    refine means_form (.struct n fs ts ?_) hj
    cases hj with
    | struct _ _ gs hnames hj =>
      clear hnames
      replace hu : ∀ f ∈ fs, ¬ HasUnit f.2 := fun f hf h => hu (.field n fs f hf h)
      generalize gs.map Prod.snd = js at hj
      clear hn
      induction h generalizing js with
      | nil => exact .nil
      | cons h1 _ ih =>
        cases hj with
        | cons hj hjs =>
          exact .cons ⟨h1.1, text_item h1.2 hj (hu _ List.mem_cons_self)⟩ (ih (fun f hf => hu f (List.mem_cons_of_mem _ hf)) _ hjs)
  | map kvs ts h =>
    rw [flatMap_filterMap]
    refine means_form (.map kvs ts ?_) hj
    cases hj with
    | map _ gs hk hj =>
      replace hu : ∀ f ∈ kvs, ¬ HasUnit f.2 := fun f hf h => hu (.entry kvs f hf h)
      generalize gs.map Prod.snd = js at hj
      generalize gs.map Prod.fst = ks at hk
      clear hn
      induction h generalizing js ks with
      | nil => exact .nil
      | cons h1 _ ih =>
        cases hj with
        | cons hj hjs =>
          cases hk with
          | cons hk hks =>
            have e := (label_text h1.1).symm.trans (keyText_key hk)
            cases e
            exact .cons ⟨hk, text_item h1.2 hj (hu _ List.mem_cons_self)⟩ (ih (fun f hf => hu f (List.mem_cons_of_mem _ hf)) _ hjs _ hks)

/-- Form bodies and the converted schemas. -/
theorem form_converted {B : Type} {ι : Interp} {accepts : σ → Params.TypeId → Json → Prop} (ha : RightTypes lib ι accepts)
    {n : Nat} {tt : σ → TypeTable B} {i : Doc.Interface} {t : Doc.TagStyle} {d : SDocument} {s0 s1 : σ}
    {ms : List Processed} {cs : List Code} (h : Typed.generate lib n u tt i t d s0 = some (.ok ((ms, cs), s1))) :
    Forall₂ (fun (o : Str × Str × SRaw) (pc : Processed × Code) =>
      ∀ (cfg : Config) (args : List Value) (r : Request) (body : RefOr SContent) (ct : Str) (m : SMedia) (s : OSchema),
        ValuesTyped (accepts s1) pc.1.op.params args → Issues cfg pc.1.op args r → o.2.2.op.body = some body →
        LeadsTo d.components SSections.bodies body [(ct, m)] → MediaBase ct "application/x-www-form-urlencoded".toList →
        m.schema = some s →
        ∃ j, conv s = .ok j ∧ ∃ p v, (p, v) ∈ pc.1.op.params.zip args ∧ p.kind = .body .form ∧
          ∀ a, v = .plain a → ¬ HasUnit a.ser → (∀ js, ¬ JsonOf a.ser (.arr js)) → FormBody (JValid ι j) a.ser r)
      (schemaRoutes d) (ms.zip cs) := by
  obtain ⟨js, a, l, d', _, _, hcalls, hd, hg⟩ := C96_generate ha.lawful h
  refine forall₂_imp_mem ?_ (operations_made hd hg)
  rintro o - pc ⟨id, op', l0, hid, hop, hsub, hp, hc⟩
  intro cfg args r body ct m s hvals hissues hbody hlead hbase hsch
  obtain ⟨s', base, hs', hb', p, hpm, _, _, hcase⟩ := C96_body hop hp hbody hlead
  rw [hsch] at hs'
  cases hs'
  cases mediaBase_unique hb' hbase
  obtain ⟨hnamed, _⟩ := processOperation_inv hp
  obtain ⟨c, env, hc2, hbind, hbuild⟩ := hissues
  obtain ⟨_, hlen, _, _⟩ := bindArgs_some hbind
  obtain ⟨v, hv⟩ : ∃ v, (p, v) ∈ pc.1.op.params.zip args := by
    obtain ⟨k, hk, rfl⟩ := List.getElem_of_mem hpm
    exact ⟨args[k]'(by omega), by
      rw [List.mem_iff_getElem]
      exact ⟨k, by simp; omega, by simp⟩⟩
  rcases hcase with ⟨hk, q, t, hw, hq, hty⟩ | ⟨h, _⟩ | ⟨h, _⟩
  · have hk : p.kind = .body .form := by
      rcases hk with ⟨h, _⟩ | ⟨_, h⟩
      · exact absurd h (by decide)
      · exact h
    refine ⟨q.1, hw.1, p, v, hv, hk, ?_⟩
    rintro a rfl hu hn
    obtain ⟨b, hb, henc⟩ := C19_body cfg pc.1.op args r hnamed ⟨c, env, hc2, hbind, hbuild⟩ p _ .form hv hk
    obtain ⟨hsent, hread⟩ := C19_form_iff cfg.toJson (.plain a)
    obtain ⟨y, ps, hy, hform⟩ := hsent.mp ⟨b, henc⟩
    cases hy
    obtain ⟨x, rfl, hx⟩ := hread b _ ps henc rfl hform
    obtain ⟨j, hj, hacc, -⟩ := hvals p _ hv t hty a rfl
    exact ⟨j, x, ps, hj, (accepts_calls ha hcalls _ (hsub _ hq) j).mp hacc, form_style hform hj hu (fun js e => hn js (e ▸ hj)), hb, hx⟩
  · exact absurd h (by decide)
  · exact absurd h (by decide)

/-- The type of a form body has the values of the converted schema. -/
theorem body_values {B : Type} {ι : Interp} {accepts : σ → Params.TypeId → Json → Prop} (ha : RightTypes lib ι accepts)
    {n : Nat} {tt : σ → TypeTable B} {i : Doc.Interface} {t : Doc.TagStyle} {d : SDocument} {s0 s1 : σ}
    {ms : List Processed} {cs : List Code} (h : Typed.generate lib n u tt i t d s0 = some (.ok ((ms, cs), s1))) :
    Forall₂ (fun (o : Str × Str × SRaw) (pc : Processed × Code) =>
      ∀ (body : RefOr SContent) (ct : Str) (m : SMedia) (s : OSchema), o.2.2.op.body = some body →
        LeadsTo d.components SSections.bodies body [(ct, m)] → MediaBase ct "application/x-www-form-urlencoded".toList →
        m.schema = some s →
        ∃ j t p, conv s = .ok j ∧ p ∈ pc.1.op.params ∧ p.typ = .type t ∧ ∀ v, accepts s1 t v ↔ JValid ι j v)
      (schemaRoutes d) (ms.zip cs) := by
  obtain ⟨js, a, l, d', _, _, hcalls, hd, hg⟩ := C96_generate ha.lawful h
  refine forall₂_imp_mem ?_ (operations_made hd hg)
  rintro o - pc ⟨id, op', l0, hid, hop, hsub, hp, hc⟩
  intro body ct m s hbody hlead hbase hsch
  obtain ⟨s', base, hs', hb', p, hpm, _, _, hcase⟩ := C96_body hop hp hbody hlead
  rw [hsch] at hs'
  cases hs'
  cases mediaBase_unique hb' hbase
  rcases hcase with ⟨hk, q, t, hw, hq, hty⟩ | ⟨h, _⟩ | ⟨h, _⟩
  · exact ⟨q.1, t, p, hw.1, hpm, hty, accepts_calls ha hcalls _ (hsub _ hq)⟩
  · exact absurd h (by decide)
  · exact absurd h (by decide)

/-- C100: a form body is the value of the argument, written as the pairs of a form, and a value that the schema in the document has. -/
theorem C100_form_partial {B : Type} {ι : Interp} {accepts : σ → Params.TypeId → Json → Prop} (ha : RightTypes lib ι accepts)
    {n : Nat} {tt : σ → TypeTable B} {i : Doc.Interface} {t : Doc.TagStyle} {d : SDocument} {s0 s1 : σ}
    {ms : List Processed} {cs : List Code} (h : Typed.generate lib n u tt i t d s0 = some (.ok ((ms, cs), s1))) :
    Forall₂ (fun (o : Str × Str × SRaw) (pc : Processed × Code) =>
      ∀ (cfg : Config) (args : List Value) (r : Request) (body : RefOr SContent) (ct : Str) (m : SMedia) (s : OSchema),
        ValuesTyped (accepts s1) pc.1.op.params args → Issues cfg pc.1.op args r → o.2.2.op.body = some body →
        LeadsTo d.components SSections.bodies body [(ct, m)] → MediaBase ct "application/x-www-form-urlencoded".toList →
        m.schema = some s →
        ∃ p v, (p, v) ∈ pc.1.op.params.zip args ∧ p.kind = .body .form ∧
          ∀ a, v = .plain a → ¬ HasUnit a.ser → (∀ js, ¬ JsonOf a.ser (.arr js)) →
            (Maps s → FormBody (EValid ι s) a.ser r) ∧ (Faithful ι s → FormBody (OValid ι s) a.ser r))
      (schemaRoutes d) (ms.zip cs) := by
  refine forall₂_imp_mem ?_ (form_converted ha h)
  intro o _ pc hpc cfg args r body ct m s hvals hissues hbody hlead hbase hsch
  obtain ⟨j, hj, p, v, hv, hk, hall⟩ := hpc cfg args r body ct m s hvals hissues hbody hlead hbase hsch
  refine ⟨p, v, hv, hk, fun a h1 h2 h3 => ⟨fun hm => ?_, fun hf => ?_⟩⟩
  · have e : JValid ι j = EValid ι s := funext fun v => propext (C45_exact hm hj v)
    rw [← e]
    exact hall a h1 h2 h3
  · have e : JValid ι j = OValid ι s := funext fun v => propext (C45_valid_partial hf hj v)
    rw [← e]
    exact hall a h1 h2 h3

end

/-! ## An example document -/

namespace StampExample

def atSchema : OSchema := .string false { plainString with format := .item .dateTime }

def countSchema : OSchema := .integer false { plainInteger with enumeration := [some 1, some 3] }

def atParam : SParam := ⟨"at".toList, .path true, true, some atSchema⟩

def countParam : SParam := ⟨"n".toList, .query true, false, some countSchema⟩

/-- A time in the path and a count in the query. -/
def stampOperation : SOperation :=
  { tags := [], pathLevel := [.item atParam], opLevel := [.item countParam], body := none, default := none
    codes := [(.code 200, .item [])], websocket := false, pagination := none }

def stampDocument : SDocument where
  version := "3.0.3".toList
  paths := [("/v1/{at}".toList, some [("get".toList, ⟨some "op".toList, stampOperation⟩)])]
  components := none

def stampPath : List Seg := [.lit "v1".toList, .par "at".toList]

def stampParams : List Param := [⟨"at".toList, "at".toList, .type 0, .path⟩, ⟨"n".toList, "n".toList, .type 1, .query false⟩]

def stampRun := Typed.generate keeping 5 exUnicode (fun _ => plainTable) .positional .merged stampDocument []

/-- Arguments: a time, displayed as `shown`, and the count 3. -/
def stampArgs (shown : String) : List Value :=
  [.plain ⟨shown.toList, .str "2020-01-01T00:00:00Z".toList⟩, .opt (some ⟨"3".toList, .int 3⟩)]

/-- The arguments and the request of the only method. -/
def stampRequest {α : Type} (args : List Value) : Run ((List Processed × List Code) × α) → Option (List Param × Request)
  | some (.ok (([p], [_]), _)) =>
    match methodSigBody p.op, bindArgs p.op.params args with
    | .ok c', some env => match build exCfg c' env with
      | .request r => some (p.op.params, r)
      | _ => none
    | _, _ => none
  | _ => none

def stampReq (path : String) : Request where
  method := .get
  url := path.toList
  query := some "n=3".toList
  headers := [(Hdr.apiVersion, utf8 "1.0".toList)]
  body := none

theorem stamp_made {args : List Value} {r : Request} (hr : stampRequest args stampRun = some (stampParams, r)) :
    ∃ p c s1, stampRun = some (.ok (([p], [c]), s1)) ∧ p.op.params = stampParams ∧ Issues exCfg p.op args r := by
  revert hr
  generalize stampRun = run
  intro hr
  match run, hr with
  | some (.ok (([p], [c]), s1)), hr =>
    simp only [stampRequest] at hr
    split at hr
    · rename_i c' env hc he
      split at hr
      · rename_i r' hb
        simp only [Option.some.injEq, Prod.mk.injEq] at hr
        obtain ⟨h1, rfl⟩ := hr
        exact ⟨p, c, s1, rfl, h1, c', env, hc, he, hb⟩
      · cases hr
    · cases hr

theorem stampReady : SWireReady [atParam] [countParam] where
  pathLevel := by simp
  opLevel := by simp
  names := by simp [atParam, countParam]
  headers := by
    intro p hp hk
    simp only [SEffective, List.mem_singleton] at hp
    rcases hp with rfl | ⟨rfl, _⟩ <;> cases hk

theorem stampRecoverable {shown : String} (h1 : '\\' ∉ shown.toList) (h2 : shown.toList ≠ ['.']) (h3 : shown.toList ≠ ['.', '.']) :
    Recoverable ownKey stampPath stampParams (stampArgs shown) where
  path := by
    intro p v hpv hk t ht pre post hmem
    simp only [stampPath, List.mem_cons, reduceCtorEq, Seg.par.injEq, List.not_mem_nil, or_false, false_or] at hmem
    obtain ⟨_, rfl, rfl⟩ := hmem
    simp only [List.nil_append, List.append_nil]
    simp only [stampParams, stampArgs, List.zip_cons_cons, List.zip_nil_right, List.mem_cons, List.not_mem_nil, or_false,
      Prod.mk.injEq] at hpv
    rcases hpv with ⟨rfl, rfl⟩ | ⟨rfl, rfl⟩
    · simp only [argText, Option.some.injEq] at ht
      rw [← ht]; exact ⟨h1, h2, h3⟩
    · cases hk
  query := by
    intro p v hpv k hk
    simp only [stampParams, stampArgs, List.zip_cons_cons, List.zip_nil_right, List.mem_cons, List.not_mem_nil, or_false,
      Prod.mk.injEq] at hpv
    rcases hpv with ⟨rfl, rfl⟩ | ⟨rfl, rfl⟩
    · cases hk
    · exact ⟨_, _, rfl, .some _ _ (.item _ _ (.scalar _ _ (.nat 3))), by simp [ownKey]⟩
  apart := by
    intro p _ q _ _ _ _ _ hne x hx hx'
    simp only [ownKey, List.mem_singleton] at hx hx'
    exact hne (hx.symm.trans hx')

theorem keeping_options (ι : Interp) : RightOptions keeping fun s t v => ∃ j, s[t]? = some j ∧ JValid ι j v := by
  intro s t inner h
  simp only [keeping] at h
  split at h <;> cases h

/-- The arguments are values of their types, as they are serialized. -/
theorem stampValues {ι : Interp} (hι : ι.format "date-time".toList (.str "2020-01-01T00:00:00Z".toList)) {p : Processed} {c : Code}
    {s1 : List JSchema} (h : stampRun = some (.ok (([p], [c]), s1))) (hp : p.op.params = stampParams) (shown : String) :
    ∀ q v, (q, v) ∈ stampParams.zip (stampArgs shown) → ∀ t, q.typ = .type t → ∀ a, givenArg v = some a → ∃ j, JsonOf a.ser j ∧
      (∃ js, s1[t]? = some js ∧ JValid ι js j) ∧ (shown = "2020-01-01T00:00:00Z" → q.kind = .path → Primitive j a.display) := by
  have hall := argument_values (keeping_right ι) h
  cases hall with
  | cons h _ =>
    have hleads1 : Forall₂ (LeadsTo stampDocument.components SSections.parameters) stampOperation.pathLevel [atParam] := .cons rfl .nil
    have hleads2 : Forall₂ (LeadsTo stampDocument.components SSections.parameters) stampOperation.opLevel [countParam] := .cons rfl .nil
    obtain ⟨s, j, t, a, hs, hj, ha, hn, hty, hv⟩ := h [atParam] [countParam] atParam hleads1 hleads2 stampReady
      (.inr ⟨by simp, by simp [SSame, atParam, countParam]⟩)
    obtain ⟨s', j', t', a', hs', hj', ha', hn', hty', hv'⟩ := h [atParam] [countParam] countParam hleads1 hleads2 stampReady
      (.inl (by simp))
    cases hs
    cases hs'
    simp only [hp, stampParams, List.mem_cons, List.not_mem_nil, or_false] at ha ha'
    have hkeep : ∀ k t, argumentType (keeping.info s1) k t = t := by
      intro k t
      unfold argumentType
      split
      · next h =>
        simp only [keeping] at h
        split at h <;> cases h
      · rfl
    rw [hkeep] at hty hty'
    intro q v hqv ty hq x hx
    simp only [stampParams, stampArgs, List.zip_cons_cons, List.zip_nil_right, List.mem_cons, List.not_mem_nil, or_false,
      Prod.mk.injEq] at hqv
    rcases hqv with ⟨rfl, rfl⟩ | ⟨rfl, rfl⟩
    · rcases ha with rfl | rfl
      · cases hty
        cases hq
        cases hx
        refine ⟨_, .str _, (hv _).mpr ((C45_exact (s := atSchema) (by simp [atSchema, Maps]) hj _).mpr ?_), fun hsh _ => by subst hsh; exact .str _⟩
        simp [atSchema, EValid, TypeOk, HasType, plainString, formatText, stringFormat, IfGiven, EnumOk, StrOk, counted]
        exact hι
      · exact absurd hn (by decide)
    · rcases ha' with rfl | rfl
      · exact absurd hn' (by decide)
      · cases hty'
        cases hq
        cases hx
        refine ⟨_, .int _, (hv' _).mpr ((C45_exact (s := countSchema) (by simp [countSchema, Maps]) hj' _).mpr ?_), fun _ h => nomatch h⟩
        refine ⟨.inl ⟨3, rfl⟩, ?_, ?_, none, none, none, ?_⟩ <;>
          simp [plainInteger, formatText, IfGiven, EnumOk, NumOk, valueOf, OptRel]

theorem stampBase : BaseUrl exCfg "http://h".toList [] := wireBase

theorem stampSegs : SegsOk stampPath := by simp [stampPath, SegsOk]; decide

/- A call with a time that is displayed as it is serialized: what C100 says of both parameters. -/
example {ι : Interp} (hι : ι.format "date-time".toList (.str "2020-01-01T00:00:00Z".toList)) :
    ∃ p c s1, stampRun = some (.ok (([p], [c]), s1)) ∧ ∃ r, Issues exCfg p.op (stampArgs "2020-01-01T00:00:00Z") r ∧
      ArrivesAs (EValid ι atSchema) stampPath atParam (p.op.params.zip (stampArgs "2020-01-01T00:00:00Z"))
        (sreads ownKey "http://h".toList [] stampPath r atParam) ∧
      ArrivesAs (EValid ι countSchema) stampPath countParam (p.op.params.zip (stampArgs "2020-01-01T00:00:00Z"))
        (sreads ownKey "http://h".toList [] stampPath r countParam) := by
  obtain ⟨p, c, s1, h, hp, hi⟩ := stamp_made (args := stampArgs "2020-01-01T00:00:00Z")
    (r := stampReq "http://h/v1/2020-01-01T00:00:00Z") (by decide +kernel)
  have hv : ValuesTyped (fun t v => ∃ j, s1[t]? = some j ∧ JValid ι j v) p.op.params (stampArgs "2020-01-01T00:00:00Z") := by
    intro q v hqv t ht a ha
    rw [hp] at hqv
    obtain ⟨j, h1, h2, h3⟩ := stampValues hι h hp _ q v hqv t ht a ha
    refine ⟨j, h1, h2, fun hk => h3 rfl ?_⟩
    simp only [stampParams, stampArgs, List.zip_cons_cons, List.zip_nil_right, List.mem_cons, List.not_mem_nil, or_false,
      Prod.mk.injEq] at hqv
    rcases hqv with ⟨rfl, rfl⟩ | ⟨rfl, rfl⟩
    · rfl
    · rcases hk with hk | ⟨_, hk⟩ <;> cases hk
  refine ⟨p, c, s1, h, _, hi, ?_⟩
  have hall := C100_parameters_partial (keeping_right ι) (keeping_options ι) h
  cases hall with
  | cons hall _ =>
    have hrec := stampRecoverable (shown := "2020-01-01T00:00:00Z") (by decide) (by decide) (by decide)
    rw [← hp] at hrec
    obtain ⟨s, hs, h1, _⟩ := hall ownKey exCfg "http://h".toList [] stampPath _ _ [atParam] [countParam] atParam rfl stampSegs (by simp [stampPath])
      (.cons rfl .nil) (.cons rfl .nil) stampReady stampBase hrec hv hi (.inr ⟨by simp, by simp [SSame, atParam, countParam]⟩)
    obtain ⟨s', hs', h1', _⟩ := hall ownKey exCfg "http://h".toList [] stampPath _ _ [atParam] [countParam] countParam rfl stampSegs
      (by simp [stampPath]) (.cons rfl .nil) (.cons rfl .nil) stampReady stampBase hrec hv hi (.inl (by simp))
    cases hs
    cases hs'
    exact ⟨h1 (by simp [atSchema, Maps]), h1' (by simp [countSchema, Maps])⟩

end StampExample

open StampExample in
/-- C100 fails if arguments in paths are not displayed as they are serialized: the time is a value of its type and valid, but what the
server reads is no value of the schema. -/
theorem C100_display_fails {ι : Interp}
    (hι : ι.format "date-time".toList (.str "2020-01-01T00:00:00Z".toList))
    (hι' : ¬ ι.format "date-time".toList (.str "2020-01-01 00:00:00 UTC".toList)) :
    ∃ p c s1, stampRun = some (.ok (([p], [c]), s1)) ∧ ∃ args r, Issues exCfg p.op args r ∧ SWireReady [atParam] [countParam] ∧
      Recoverable ownKey stampPath p.op.params args ∧
      (∀ q v, (q, v) ∈ p.op.params.zip args → ∀ t, q.typ = .type t → ∀ a, givenArg v = some a → ∃ j, JsonOf a.ser j ∧
        ∃ js, s1[t]? = some js ∧ JValid ι js j) ∧
      ¬ ArrivesAs (EValid ι atSchema) stampPath atParam (p.op.params.zip args) (sreads ownKey "http://h".toList [] stampPath r atParam) := by
  obtain ⟨p, c, s1, h, hp, hi⟩ := stamp_made (args := stampArgs "2020-01-01 00:00:00 UTC")
    (r := stampReq "http://h/v1/2020-01-01%2000:00:00%20UTC") (by decide +kernel)
  refine ⟨p, c, s1, h, _, _, hi, stampReady, ?_, ?_, ?_⟩
  · rw [hp]
    exact stampRecoverable (by decide) (by decide) (by decide)
  · rw [hp]
    intro q v hqv t ht a ha
    obtain ⟨j, h1, h2, -⟩ := stampValues hι h hp _ q v hqv t ht a ha
    exact ⟨j, h1, h2⟩
  · rw [show sreads ownKey "http://h".toList [] stampPath (stampReq "http://h/v1/2020-01-01%2000:00:00%20UTC") atParam =
      [(utf8 "at".toList, utf8 "2020-01-01 00:00:00 UTC".toList)] by decide +kernel]
    rintro ⟨a, v, -, -, -, ⟨-, h⟩ | ⟨x, j, -, -, hj, hw⟩⟩
    · cases h
    · obtain ⟨t, ht, he⟩ := hw
      rw [show (stampPath.filter (Seg.holds atParam.name)) = [.par "at".toList] by decide] at he
      simp only [List.map_cons, List.map_nil, List.cons.injEq, Prod.mk.injEq, and_true] at he
      have he := utf8_injective he.2
      subst he
      have hs : ∃ s, j = .str s := by simpa [atSchema, EValid, TypeOk, HasType] using hj.1
      obtain ⟨s, rfl⟩ := hs
      cases ht
      have := hj.2.1
      simp only [formatText, stringFormat, IfGiven] at this
      exact hι' (this _ rfl)

namespace StampExample

example : ∃ ι : Interp, ι.format "date-time".toList (.str "2020-01-01T00:00:00Z".toList) ∧
    ¬ ι.format "date-time".toList (.str "2020-01-01 00:00:00 UTC".toList) :=
  ⟨⟨fun _ _ => True, fun _ v => v = .str "2020-01-01T00:00:00Z".toList, fun _ _ => True⟩, rfl, by simp⟩

/-- A form with a text and, perhaps, a count. -/
def formSchema : OSchema := .object false ⟨["a".toList], none, none⟩ [("a".toList, .string false plainString), ("n".toList, .integer false plainInteger)] none

def formDocument : SDocument where
  version := "3.0.3".toList
  paths := [("/f".toList, some [("post".toList, ⟨some "op".toList,
    { tags := [], pathLevel := [], opLevel := []
      body := some (.item [("application/x-www-form-urlencoded".toList, ⟨some formSchema, true⟩)]), default := none
      codes := [(.code 200, .item [])], websocket := false, pagination := none }⟩)])]
  components := none

def formRun := Typed.generate keeping 5 exUnicode (fun _ => plainTable) .positional .merged formDocument []

def formArg : Ser := .struct "F".toList [("a".toList, .str "x y".toList)]

def formReq : Request where
  method := .post
  url := "http://h/f".toList
  query := none
  headers := [(Hdr.contentType, utf8 "application/x-www-form-urlencoded".toList), (Hdr.apiVersion, utf8 "1.0".toList)]
  body := some (utf8 "a=x+y".toList)

theorem form_made : ∃ p c s1, formRun = some (.ok (([p], [c]), s1)) ∧ p.op.params = [⟨"body".toList, "body".toList, .type 0, .body .form⟩] ∧
    Issues exCfg p.op [.plain ⟨[], formArg⟩] formReq := by
  have hr : stampRequest [.plain ⟨[], formArg⟩] formRun = some ([⟨"body".toList, "body".toList, .type 0, .body .form⟩], formReq) := by
    decide +kernel
  revert hr
  generalize formRun = run
  intro hr
  match run, hr with
  | some (.ok (([p], [c]), s1)), hr =>
    simp only [stampRequest] at hr
    split at hr
    · rename_i c' env hc he
      split at hr
      · rename_i r' hb
        simp only [Option.some.injEq, Prod.mk.injEq] at hr
        obtain ⟨h1, rfl⟩ := hr
        exact ⟨p, c, s1, rfl, h1, c', env, hc, he, hb⟩
      · cases hr
    · cases hr

theorem formJson : JsonOf formArg (.obj [("a".toList, .str "x y".toList)]) :=
  .struct _ _ [("a".toList, .str "x y".toList)] rfl (.cons (.str _) .nil)

theorem form_units : ¬ HasUnit formArg := by
  intro h
  cases h with
  | field _ _ f hf h =>
    rw [List.mem_singleton] at hf
    subst hf
    cases h

theorem formValid (ι : Interp) : EValid ι formSchema (.obj [("a".toList, .str "x y".toList)]) := by
  simp [formSchema, EValid, EProps, EAdditional, TypeOk, HasType, ObjOk, IfGiven, plainString, formatText, EnumOk, StrOk, counted]
  rintro k p x (⟨rfl, rfl⟩ | ⟨rfl, -⟩) hk rfl
  · exact ⟨_, rfl⟩
  · cases hk

/- What C100 says of a form. -/
example (ι : Interp) : ∃ p c s1, formRun = some (.ok (([p], [c]), s1)) ∧ ∃ r, Issues exCfg p.op [.plain ⟨[], formArg⟩] r ∧
    FormBody (EValid ι formSchema) formArg r := by
  obtain ⟨p, c, s1, h, hp, hi⟩ := form_made
  refine ⟨p, c, s1, h, _, hi, ?_⟩
  have hall := C100_form_partial (keeping_right ι) h
  have hval := body_values (keeping_right ι) h
  cases hall with
  | cons hall _ =>
    cases hval with
    | cons hval _ =>
      obtain ⟨j, t, a, hj, ha, hty, hv⟩ := hval (.item [("application/x-www-form-urlencoded".toList, ⟨some formSchema, true⟩)])
        _ _ formSchema rfl rfl ⟨by decide, .inl rfl⟩ rfl
      rw [hp, List.mem_singleton] at ha
      subst ha
      cases hty
      obtain ⟨q, v, hqv, _, hres⟩ := hall exCfg _ _ (.item [("application/x-www-form-urlencoded".toList, ⟨some formSchema, true⟩)])
        _ _ formSchema (by
          intro q v hqv t ht a ha
          simp only [hp, List.zip_cons_cons, List.zip_nil_right, List.mem_singleton, Prod.mk.injEq] at hqv
          obtain ⟨rfl, rfl⟩ := hqv
          cases ht
          cases ha
          refine ⟨_, formJson, (hv _).mpr ((C45_exact (s := formSchema) ?_ hj _).mpr (formValid ι)), ?_⟩
          · simp [formSchema, Maps, MapsProps, MapsAdditional]
          · rintro (h | ⟨_, h⟩) <;> cases h) hi rfl rfl ⟨by decide, .inl rfl⟩ rfl
      simp only [hp, List.zip_cons_cons, List.zip_nil_right, List.mem_singleton, Prod.mk.injEq] at hqv
      obtain ⟨rfl, rfl⟩ := hqv
      exact (hres _ rfl form_units (fun _ h => by cases h)).1 (by simp [formSchema, Maps, MapsProps, MapsAdditional])

end StampExample

end Progenitor.Props

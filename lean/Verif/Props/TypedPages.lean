import Verif.Spec.TypedPages
import Verif.Props.TypedLine
import Verif.Props.Paging

/-!
# C105: the requests for pages follow the schemas of the document
-/

namespace Progenitor.Props

open Progenitor Progenitor.Params Progenitor.Refs Progenitor.Resp Progenitor.Names Progenitor.Builder Progenitor.Exec
  Progenitor.Schema Progenitor.RefDoc Progenitor.Spec Progenitor.Typed Progenitor.Client Progenitor.Query Progenitor.Stream

theorem tokenOf_append {E I : Type} {rs : List (Answer E I)} {t : Option Str} (r : Answer E I) (h : TokenOf rs t) : TokenOf (rs ++ [r]) t := by
  cases t with
  | none => trivial
  | some t =>
    obtain ⟨page, h1, h2⟩ := h
    exact ⟨page, List.mem_append_left _ h1, h2⟩

/-- While tokens are followed, each request is that of the positional method for the values of a page. -/
theorem followed_issues {P V I : Type} {cfg : Config} {hooks : Hooks} {w : World} {decode : Params.TypeId → Bytes → Except P V}
    {pageOf : V → Page I} {op : OperationMethod} {c : Code} (hc : methodSigBody op = .ok c) (hk : Keeps hooks w) {vs : List Value}
    {hist hist' : List Event} {rs : List (Answer (Error P (Resp.Inner V)) I)}
    (hf : Followed (answerOf pageOf fun h q => call cfg hooks w decode op.params c h q) vs
      (fun t => List.zipWith (laterValue t) op.params vs) hist rs hist') :
    ∃ evs, hist' = hist ++ evs ∧ ∀ r, .send r ∈ evs → ∃ tok, TokenOf rs tok ∧ Issues cfg op (pageValues op.params vs tok) r := by
  induction hf with
  | none => exact ⟨[], by simp, by simp⟩
  | next rs h1 h2 q r _ hq ha ih =>
    obtain ⟨evs, rfl, ih⟩ := ih
    obtain ⟨evs', hev, -⟩ := C21_sent_iff cfg hooks w decode op.params c (hist ++ evs) q
    have he : h2 = hist ++ evs ++ evs' := by
      unfold answerOf at ha
      rw [← hev]
      rcases hcall : call cfg hooks w decode op.params c (hist ++ evs) q with ⟨res, h'⟩
      dsimp only at ha
      rw [hcall] at ha
      cases res with
      | returned o =>
        simp only at ha
        obtain ⟨a, -, ha⟩ := Option.map_eq_some_iff.mp ha
        cases ha
        rfl
      | _ => cases ha
    refine ⟨evs ++ evs', by rw [he, List.append_assoc], fun r' hr' => ?_⟩
    rcases List.mem_append.mp hr' with hr' | hr'
    · obtain ⟨tok, h3, h4⟩ := ih r' hr'
      exact ⟨tok, tokenOf_append r h3, h4⟩
    · have hi := sent_issues hc hk hev hr'
      unfold nextCall at hq
      split at hq
      · cases hq
        exact ⟨none, trivial, hi⟩
      · rename_i page hlast
        obtain ⟨t, ht, rfl⟩ := Option.map_eq_some_iff.mp hq
        exact ⟨some t, ⟨page, List.mem_append_left _ (List.mem_of_getLast? hlast), ht⟩, hi⟩
      · cases hq

/-- The values for a page are values of the types. -/
theorem pageValues_typed {E I : Type} {accepts : Params.TypeId → Json → Prop} {params : List Param} {vs : List Value}
    {rs : List (Answer E I)} (h : ValuesTyped accepts params vs) (ht : TokensTyped accepts params rs) {tok : Option Str}
    (htok : TokenOf rs tok) : ValuesTyped accepts params (pageValues params vs tok) := by
  cases tok with
  | none => exact h
  | some t =>
    intro p v hpv ty hty a ha
    obtain ⟨v', hv', rfl⟩ := mem_zip_later hpv
    unfold laterValue at ha
    split at ha
    · rename_i hn
      cases ha
      exact ⟨.str t, .str t, ht p (List.of_mem_zip hpv).1 hn ty hty t htok, fun _ => .str t⟩
    · split at ha
      · cases ha
      · exact h p v' hv' ty hty a ha

theorem jsonOf_str {t : Str} {j : Json} (h : JsonOf (.str t) j) : j = .str t := by
  cases h
  rfl

/-- What arrives with the values for a page. -/
theorem page_arrives {good : Json → Prop} {l : List Seg} {p : SParam} {params : List Param} {vs : List Value} {got : List (Bytes × Bytes)}
    {tok : Option Str} (h : ArrivesAs good l p (params.zip (pageValues params vs tok)) got) :
    PageArrives good l p (params.zip vs) got tok := by
  cases tok with
  | none => exact h
  | some t =>
    obtain ⟨a, v, hav, hn, hloc, hgot⟩ := h
    obtain ⟨v', hv', rfl⟩ := mem_zip_later hav
    have hkind : (∃ r, a.kind = .query r) ↔ skindLocation p.kind = .query := by
      rw [← hloc]
      constructor
      · rintro ⟨r, hr⟩; rw [hr]; rfl
      · intro hq
        cases hk : a.kind with
        | query r => exact ⟨r, rfl⟩
        | _ => rw [hk] at hq; cases hq
    refine ⟨fun e => ?_, fun e1 e2 e3 => ?_, fun e1 e2 => ?_⟩
    · rw [laterValue, if_pos (hn.trans e)] at hgot
      rcases hgot with ⟨hno, -⟩ | ⟨x, j, hx, hj, hgood, hw⟩
      · cases hno
      · cases hx
        have := jsonOf_str hj
        subst this
        exact ⟨hgood, hw⟩
    · rw [laterValue, if_neg (by rw [hn]; exact e1), if_pos ⟨by rw [hn]; exact e2, hkind.mpr e3⟩] at hgot
      rcases hgot with ⟨-, hg⟩ | ⟨x, j, hx, -⟩
      · exact hg
      · cases hx
    · rw [laterValue, if_neg (by rw [hn]; exact e1), if_neg (by
        rintro ⟨h1, h2⟩
        rcases e2 with e2 | e2
        · exact h1 (hn.trans e2)
        · exact e2 (hkind.mp h2))] at hgot
      exact ⟨a, v', hv', hn, hloc, hgot⟩

section

variable {σ : Type} {lib : Library σ} {u : Unicode}

/-- The processed operations of a document. -/
theorem made_processed {B : Type} (hl : LawfulTypes lib) {n : Nat} {tt : σ → TypeTable B} {i : Doc.Interface} {t : Doc.TagStyle}
    {d : SDocument} {s0 s1 : σ} {ms : List Processed} {cs : List Code}
    (h : Typed.generate lib n u tt i t d s0 = some (.ok ((ms, cs), s1))) :
    Forall₂ (fun (_ : Str × Str × SRaw) (pc : Processed × Code) => ∃ path method d',
      processOperation (Names.sanitize u .snake) (lib.info s1) path method d' = .ok pc.1) (schemaRoutes d) (ms.zip cs) := by
  obtain ⟨js, a, l, d', _, _, hcalls, hd, hg⟩ := C96_generate hl h
  refine forall₂_imp_mem ?_ (operations_made hd hg)
  rintro o - pc ⟨id, op', l0, hid, hop, hsub, hp, hc⟩
  exact ⟨_, _, _, hp⟩

/-- C105: while the tokens of pages are followed, a server reads from each request what the document asks for: from the first what the
arguments say, from others the token of an earlier page, no other query parameter but the limit, and what the arguments say for the limit
and parameters elsewhere; all of it values that the schemas in the document have after conversion. -/
theorem C105_pages_partial {B : Type} {ι : Interp} {accepts : σ → Params.TypeId → Json → Prop} (hu : Lawful u) (ha : RightTypes lib ι accepts)
    (hopt : RightOptions lib accepts) {n : Nat} {tt : σ → TypeTable B} {i : Doc.Interface} {t : Doc.TagStyle} {d : SDocument}
    {s0 s1 : σ} {ms : List Processed} {cs : List Code} (h : Typed.generate lib n u tt i t d s0 = some (.ok ((ms, cs), s1)))
    (hd : PropsDistinct (lib.info s1)) :
    Forall₂ (fun (o : Str × Str × SRaw) (pc : Processed × Code) =>
      ∀ (keys : Str → List Str) (cfg : Config) (auth : Str) (base : List Str) (segs : List Seg) (pl ol : List SParam) (P V I : Type)
        (hooks : Hooks) (w : World) (decode : Params.TypeId → Bytes → Except P V) (pageOf : V → Page I) (vs : List Value)
        (hist hist' : List Event) (rs : List (Answer (Error P (Resp.Inner V)) I)),
        o.1 = segsText segs → SegsOk segs → segs ≠ [] →
        Forall₂ (LeadsTo d.components SSections.parameters) o.2.2.op.pathLevel pl →
        Forall₂ (LeadsTo d.components SSections.parameters) o.2.2.op.opLevel ol → SWireReady pl ol →
        BaseUrl cfg auth base → pc.1.paginated ≠ none → "page_token".toList ∈ keys "page_token".toList →
        Recoverable keys segs pc.1.op.params vs → ValuesTyped (accepts s1) pc.1.op.params vs → Keeps hooks w →
        Followed (answerOf pageOf fun h q => call cfg hooks w decode pc.1.op.params pc.2 h q) vs
          (fun t => List.zipWith (laterValue t) pc.1.op.params vs) hist rs hist' →
        TokensTyped (accepts s1) pc.1.op.params rs →
        ∃ evs, hist' = hist ++ evs ∧ ∀ r, .send r ∈ evs → ∃ tok, TokenOf rs tok ∧ ∀ p, SEffective pl ol p → ∃ s, p.schema = some s ∧
          (Maps s → PageArrives (EValid ι s) segs p (pc.1.op.params.zip vs) (sreads keys auth base segs r p) tok) ∧
          (Faithful ι s → PageArrives (OValid ι s) segs p (pc.1.op.params.zip vs) (sreads keys auth base segs r p) tok))
      (schemaRoutes d) (ms.zip cs) := by
  refine forall₂_imp_mem ?_ (forall₂_both (forall₂_both (C100_parameters_partial ha hopt h) (made_names ha.lawful h))
    (made_processed ha.lawful h))
  rintro o - pc ⟨⟨hpc, hc, -⟩, path, method, d', hp⟩
  intro keys cfg auth base segs pl ol P V I hooks w decode pageOf vs hist hist' rs hpath hl hne hpl hol hw hbase hpg hkey hrec hval hk
    hf htok
  obtain ⟨evs, he, hsent⟩ := followed_issues hc hk hf
  refine ⟨evs, he, fun r hr => ?_⟩
  obtain ⟨tok, hto, hi⟩ := hsent r hr
  refine ⟨tok, hto, fun p heff => ?_⟩
  have hrec' : Recoverable keys segs pc.1.op.params (pageValues pc.1.op.params vs tok) := by
    cases tok with
    | none => exact hrec
    | some t =>
      obtain ⟨pd, hpd⟩ := Option.ne_none_iff_exists'.mp hpg
      have hnd := (bindArgs_some hi.choose_spec.choose_spec.2.1).1
      exact recoverable_later hrec (tokenNamed_of_document hu hd hp hpd hnd).2 hkey t
  obtain ⟨s, hs, h1, h2⟩ := hpc keys cfg auth base segs _ r pl ol p hpath hl hne hpl hol hw hbase hrec'
    (pageValues_typed hval htok hto) hi heff
  exact ⟨s, hs, fun hm => page_arrives (h1 hm), fun hm => page_arrives (h2 hm)⟩

end

/-! ## Example -/

namespace PagesExample

open StampExample

/-- What is known of a type with a name: responses are pages of texts, tokens are texts. -/
def pagingInfo (name : Str) : TypeInfo :=
  if name = "OpResponse".toList then .struct [("next_page".toList, 1), ("items".toList, 2)]
  else if name = "OpPageToken".toList then .string else .other

/-- Types 0, 1 and 2 are texts, options of texts and lists of texts; others are known by the names they are given. -/
def paging : Library (List (JSchema × Str)) where
  add s j h := .ok (s.length + 3, s ++ [(j, h)])
  addRefs s _ := .ok s
  info s := fun t => match t with
    | 0 => some .string
    | 1 => some (.option 0)
    | 2 => some (.vec 0)
    | t + 3 => (s[t]?).map fun e => pagingInfo e.2

def pagingAccepts (ι : Interp) (s : List (JSchema × Str)) : Params.TypeId → Json → Prop
  | t + 3 => fun v => ∃ e, s[t]? = some e ∧ JValid ι e.1 v
  | _ => fun _ => True

theorem snoc_last {α : Type} (s : List α) (x : α) : (s ++ [x])[s.length]? = some x := by simp

theorem paging_right (ι : Interp) : RightTypes paging ι (pagingAccepts ι) where
  lawful := {
    grows := by
      intro s j h t s' e x i hi
      cases e
      match x with
      | 0 => exact hi
      | 1 => exact hi
      | 2 => exact hi
      | x + 3 =>
        simp only [paging, Option.map_eq_some_iff] at hi ⊢
        obtain ⟨e, he, hi⟩ := hi
        exact ⟨e, by rw [List.getElem?_append_left (List.getElem?_eq_some_iff.mp he).1]; exact he, hi⟩
    there := by
      intro s j h t s' e
      cases e
      show ((s ++ [_])[s.length]?).map _ ≠ none
      rw [snoc_last]
      exact Option.some_ne_none _
    closed := by
      intro s t i hi x hx
      match t with
      | 0 => cases hi; cases hx
      | 1 => cases hi; cases List.mem_singleton.mp hx; exact Option.some_ne_none _
      | 2 => cases hi; cases List.mem_singleton.mp hx; exact Option.some_ne_none _
      | t + 3 =>
        simp only [paging, Option.map_eq_some_iff] at hi
        obtain ⟨e, -, rfl⟩ := hi
        unfold pagingInfo at hx
        split at hx
        · have hx' : x ∈ [1, 2] := hx
          simp only [List.mem_cons, List.not_mem_nil, or_false] at hx'
          rcases hx' with rfl | rfl <;> exact Option.some_ne_none _
        · split at hx <;> cases hx }
  right := by
    intro s j h t s' e v
    cases e
    show (∃ e, (s ++ [_])[s.length]? = some e ∧ JValid ι e.1 v) ↔ _
    rw [snoc_last]
    exact ⟨fun ⟨_, he, h⟩ => by cases he; exact h, fun h => ⟨_, rfl, h⟩⟩
  stable := by
    intro s j h t s' e x v hx
    cases e
    match x with
    | 0 => exact Iff.rfl
    | 1 => exact Iff.rfl
    | 2 => exact Iff.rfl
    | x + 3 =>
      simp only [paging, ne_eq, Option.map_eq_none_iff, List.getElem?_eq_none_iff, Nat.not_le] at hx
      simp only [pagingAccepts]
      rw [List.getElem?_append_left hx]

theorem paging_options (ι : Interp) : RightOptions paging (pagingAccepts ι) := by
  intro s t inner h v hv
  match t with
  | 0 => cases h
  | 1 => trivial
  | 2 => cases h
  | t + 3 =>
    simp only [paging, Option.map_eq_some_iff] at h
    obtain ⟨e, -, he⟩ := h
    unfold pagingInfo at he
    split at he
    · cases he
    · split at he <;> cases he

theorem paging_distinct (s : List (JSchema × Str)) : PropsDistinct (paging.info s) := by
  intro t props h
  match t with
  | 0 => cases h
  | 1 => cases h
  | 2 => cases h
  | t + 3 =>
    simp only [paging, Option.map_eq_some_iff] at h
    obtain ⟨e, -, he⟩ := h
    unfold pagingInfo at he
    split at he
    · cases he; decide
    · split at he <;> cases he

def tokenSchema : OSchema := .string false plainString

def limitSchema : OSchema := .integer false { plainInteger with enumeration := [some 2] }

def tokenParam : SParam := ⟨"page_token".toList, .query true, false, some tokenSchema⟩

def limitParam : SParam := ⟨"limit".toList, .query true, false, some limitSchema⟩

/-- A list in pages. -/
def pagesOperation : SOperation :=
  { tags := [], pathLevel := [], opLevel := [.item tokenParam, .item limitParam], body := none, default := none
    codes := [(.code 200, .item [("application/json".toList, ⟨some (.object false ⟨[], none, none⟩ [] none), true⟩)])]
    websocket := false, pagination := some [] }

def pagesDocument : SDocument where
  version := "3.0.3".toList
  paths := [("/v1".toList, some [("get".toList, ⟨some "op".toList, pagesOperation⟩)])]
  components := none

def pagesRun := Typed.generate paging 5 exUnicode (fun _ => plainTable) .positional .merged pagesDocument []

def pagesParams : List Param :=
  [⟨"limit".toList, "limit".toList, .type 3, .query false⟩, ⟨"page_token".toList, "page_token".toList, .type 4, .query false⟩]

def pagesArgs : List Value := [.opt (some ⟨"2".toList, .int 2⟩), .opt none]

/-- A server with two pages: the second one for any query with a token. -/
def pagesWorld : World where
  preAsync _ r := .ok r
  server _ r := .ok ⟨200, [], .ok (if r.query = some "limit=2".toList then [] else [0]), .ok 0⟩
  postAsync _ _ := .ok ()

def pagesCall (p : Processed) (c : Code) := answerOf walkPage fun h q =>
  call exCfg ⟨true, false, false, false⟩ pagesWorld (fun _ b => (.ok b.length : Except Unit Nat)) p.op.params c h q

/-- The arguments of the only method, whether it is paginated, and the number of requests for two pages. -/
def pagesWalk {α : Type} : Run ((List Processed × List Code) × α) → Option (List Param × Bool × Nat)
  | some (.ok (([p], [c]), _)) =>
    match pagesCall p c [] pagesArgs with
    | some (.ok page, h1) =>
      if page.next = some "a".toList then
        match pagesCall p c h1 (List.zipWith (laterValue "a".toList) p.op.params pagesArgs) with
        | some (.ok _, h2) => some (p.op.params, p.paginated.isSome, sends h2)
        | _ => none
      else none
    | _ => none
  | _ => none

theorem pages_made (hr : pagesWalk pagesRun = some (pagesParams, true, 2)) :
    ∃ p c s1, pagesRun = some (.ok (([p], [c]), s1)) ∧ p.op.params = pagesParams ∧ p.paginated ≠ none ∧ ∃ page page' h2,
      page.next = some "a".toList ∧ sends h2 = 2 ∧
      Followed (pagesCall p c) pagesArgs (fun t => List.zipWith (laterValue t) p.op.params pagesArgs) [] [.ok page, .ok page'] h2 := by
  revert hr
  generalize pagesRun = run
  intro hr
  match run, hr with
  | some (.ok (([p], [c]), s1)), hr =>
    simp only [pagesWalk] at hr
    split at hr
    · rename_i page h1 hc1
      split at hr
      · rename_i hn
        split at hr
        · rename_i page' h2 hc2
          simp only [Option.some.injEq, Prod.mk.injEq] at hr
          obtain ⟨hr1, hr2, hr3⟩ := hr
          refine ⟨p, c, s1, rfl, hr1, (fun e => by rw [e] at hr2; cases hr2), page, page', h2, hn, hr3, ?_⟩
          exact .next [.ok page] h1 h2 _ _ (.next [] [] h1 _ _ .none rfl hc1) (by simp [nextCall, hn]) hc2
        · cases hr
      · cases hr
    · cases hr

theorem pagesReady : SWireReady [] [tokenParam, limitParam] where
  pathLevel := .nil
  opLevel := .cons (fun q hq h => by cases List.mem_singleton.mp hq; exact absurd h.1 (by decide +kernel)) (.cons (by simp) .nil)
  names := by
    intro p hp q hq hn
    simp only [List.nil_append, List.mem_cons, List.not_mem_nil, or_false] at hp hq
    rcases hp with rfl | rfl <;> rcases hq with rfl | rfl <;> rfl
  headers := by
    intro p hp hk
    simp only [SEffective, List.mem_cons, List.not_mem_nil, false_and, or_false] at hp
    rcases hp with rfl | rfl <;> cases hk

def pagesPath : List Seg := [.lit "v1".toList]

theorem pagesRecoverable : Recoverable ownKey pagesPath pagesParams pagesArgs where
  path := by
    intro p v hpv hk t ht pre post hmem
    simp [pagesPath] at hmem
  query := by
    intro p v hpv k hk
    simp only [pagesParams, pagesArgs, List.zip_cons_cons, List.zip_nil_right, List.mem_cons, List.not_mem_nil, or_false,
      Prod.mk.injEq] at hpv
    rcases hpv with ⟨rfl, rfl⟩ | ⟨rfl, rfl⟩
    · exact ⟨_, _, rfl, .some _ _ (.item _ _ (.scalar _ _ (.nat 2))), by simp [ownKey]⟩
    · exact ⟨_, _, rfl, .item _ _ .none, by simp⟩
  apart := by
    intro p _ q _ _ _ _ _ hne x hx hx'
    simp only [ownKey, List.mem_singleton] at hx hx'
    exact hne (hx.symm.trans hx')

theorem argument_kept {s1 : List (JSchema × Str)} {k : SKind} {t x : Params.TypeId} (h : argumentType (paging.info s1) k t = x + 3) :
    t = x + 3 := by
  unfold argumentType at h
  split at h
  · rename_i inner hi
    match t with
    | 0 => cases hi
    | 1 => cases hi; cases h
    | 2 => cases hi
    | t + 3 =>
      simp only [paging, Option.map_eq_some_iff] at hi
      obtain ⟨e, -, he⟩ := hi
      unfold pagingInfo at he
      split at he
      · cases he
      · split at he <;> cases he
  · exact h

theorem pages_typed {ι : Interp} {p : Processed} {c : Code} {s1 : List (JSchema × Str)} (h : pagesRun = some (.ok (([p], [c]), s1)))
    (hp : p.op.params = pagesParams) : pagingAccepts ι s1 3 (.num 2) ∧ ∀ t, pagingAccepts ι s1 4 (.str t) := by
  have hall := argument_values (paging_right ι) h
  cases hall with
  | cons h _ =>
    have hleads : Forall₂ (LeadsTo pagesDocument.components SSections.parameters) pagesOperation.opLevel [tokenParam, limitParam] :=
      .cons rfl (.cons rfl .nil)
    have hne : "limit".toList ≠ "page_token".toList := by decide +kernel
    obtain ⟨s, j, t, a, hs, hj, ha, hn, hty, hv⟩ := h [] [tokenParam, limitParam] tokenParam .nil hleads pagesReady (.inl (by simp))
    obtain ⟨s', j', t', a', hs', hj', ha', hn', hty', hv'⟩ := h [] [tokenParam, limitParam] limitParam .nil hleads pagesReady (.inl (by simp))
    cases hs
    cases hs'
    simp only [hp, pagesParams, List.mem_cons, List.not_mem_nil, or_false] at ha ha'
    refine ⟨?_, fun x => ?_⟩
    · rcases ha' with rfl | rfl
      · have ht := argument_kept (x := 0) (PType.type.inj hty').symm
        subst ht
        refine (hv' _).mpr ((C45_exact (s := limitSchema) (by simp [limitSchema, Maps]) hj' _).mpr ?_)
        refine ⟨.inl ⟨2, rfl⟩, ?_, ?_, none, none, none, ?_⟩ <;>
          simp [plainInteger, formatText, IfGiven, EnumOk, NumOk, valueOf, OptRel]
      · exact absurd hn'.symm hne
    · rcases ha with rfl | rfl
      · exact absurd hn hne
      · have ht := argument_kept (x := 1) (PType.type.inj hty).symm
        subst ht
        refine (hv _).mpr ((C45_exact (s := tokenSchema) (by simp [tokenSchema, Maps]) hj _).mpr ?_)
        simp [tokenSchema, EValid, TypeOk, HasType, plainString, formatText, IfGiven, EnumOk, StrOk, counted]

theorem pages_values {ι : Interp} {s1 : List (JSchema × Str)} (h : pagingAccepts ι s1 3 (.num 2)) :
    ValuesTyped (pagingAccepts ι s1) pagesParams pagesArgs := by
  intro q v hqv t ht a ha
  simp only [pagesParams, pagesArgs, List.zip_cons_cons, List.zip_nil_right, List.mem_cons, List.not_mem_nil, or_false,
    Prod.mk.injEq] at hqv
  rcases hqv with ⟨rfl, rfl⟩ | ⟨rfl, rfl⟩
  · cases ht
    cases ha
    exact ⟨_, .int 2, h, by rintro (e | ⟨_, e⟩) <;> cases e⟩
  · cases ha

theorem pages_tokens {ι : Interp} {s1 : List (JSchema × Str)} (h : ∀ t, pagingAccepts ι s1 4 (.str t)) {E I : Type}
    (rs : List (Answer E I)) : TokensTyped (pagingAccepts ι s1) pagesParams rs := by
  intro q hq hname ty hty t _
  simp only [pagesParams, List.mem_cons, List.not_mem_nil, or_false] at hq
  rcases hq with rfl | rfl
  · exact absurd hname (by decide +kernel)
  · cases hty
    exact h t

/- What C105 says of a list in two pages: two requests, and what is read of the token in each. -/
example (ι : Interp) : ∃ p c s1, pagesRun = some (.ok (([p], [c]), s1)) ∧ ∃ page page' evs, page.next = some "a".toList ∧ sends evs = 2 ∧
    Followed (pagesCall p c) pagesArgs (fun t => List.zipWith (laterValue t) p.op.params pagesArgs) [] [.ok page, .ok page'] evs ∧
    ∀ r, .send r ∈ evs → ∃ tok, TokenOf [Except.ok page, .ok page'] tok (E := Error Unit (Resp.Inner Nat)) ∧
      PageArrives (EValid ι tokenSchema) pagesPath tokenParam (p.op.params.zip pagesArgs)
        (sreads ownKey "http://h".toList [] pagesPath r tokenParam) tok := by
  obtain ⟨p, c, s1, h, hp, hpg, page, page', h2, hn, hs, hf⟩ := pages_made (by decide +kernel)
  obtain ⟨ht1, ht2⟩ := pages_typed (ι := ι) h hp
  refine ⟨p, c, s1, h, page, page', h2, hn, hs, hf, ?_⟩
  have hall := C105_pages_partial exUnicode_lawful (paging_right ι) (paging_options ι) h (paging_distinct s1)
  cases hall with
  | cons hall _ =>
    obtain ⟨evs, he, hsent⟩ := hall ownKey exCfg "http://h".toList [] pagesPath [] [tokenParam, limitParam] Unit Nat Nat _ pagesWorld _ walkPage
      pagesArgs [] h2 _ rfl (by simp [pagesPath, SegsOk]; decide) (by simp [pagesPath]) .nil (.cons rfl (.cons rfl .nil)) pagesReady stampBase
      hpg (by simp [ownKey]) (by rw [hp]; exact pagesRecoverable) (by rw [hp]; exact pages_values ht1) (fun _ _ _ _ h => (Except.ok.inj h).symm) hf (by rw [hp]; exact pages_tokens ht2 _)
    rw [List.nil_append] at he
    subst he
    intro r hr
    obtain ⟨tok, hto, hl⟩ := hsent r hr
    obtain ⟨s, hs1, hf', -⟩ := hl tokenParam (.inl (by simp))
    cases hs1
    exact ⟨tok, hto, hf' (by simp [tokenSchema, Maps])⟩

end PagesExample

end Progenitor.Props

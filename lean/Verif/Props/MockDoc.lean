import Verif.Props.Understood
import Verif.Props.WrapperNames

/-!
# C87: the documents for which there are mocks
-/

namespace Progenitor.Props

open Progenitor Progenitor.Params Progenitor.Spec Progenitor.Doc Progenitor.Names Progenitor.Mock
open Progenitor.Template (PathTemplate Component)
open Progenitor.Regex (paramText)

variable {u : Unicode} {san : Str → Str}

/-! ## Paths -/

/-- A stray brace makes every format string for a parameter invalid. -/
theorem rustFormat_stray (n : Str) (t : PathTemplate) (ht : ∀ x ∈ t, LaxComp x) (ha : Alternating t) (hd : ∃ x ∈ t, dirty x = true) :
    ∀ args, Template.rustFormat (t.flatMap (paramText n) ++ ['$']) args = none := by
  induction ha with
  | nil => simp at hd
  | param m t _ ih =>
    intro args
    have ih := ih (fun x hx => ht x (by simp [hx])) (by simpa [dirty] using hd)
    simp only [List.flatMap_cons, List.append_assoc, paramText]
    by_cases hm : m = n
    · rw [if_pos hm]
      cases args with
      | nil => simp [Template.rustFormat]
      | cons x args => simp [Template.rustFormat, ih]
    · rw [if_neg hm, Template.rustFormat_lit ".*".toList (by decide), ih]
      rfl
  | const s t hh _ ih =>
    intro args
    obtain ⟨c, r, rfl, hc, hr, _⟩ := ht (.const s) (by simp)
    simp only [List.flatMap_cons, List.append_assoc, paramText]
    by_cases h : c = '}'
    · subst h
      have hnext : (r ++ (t.flatMap (paramText n) ++ ['$'])).head? ≠ some '}' := by
        cases r with
        | cons d r => simp; exact (hr d (by simp)).2
        | nil =>
          cases t with
          | nil => simp
          | cons y t =>
            cases y with
            | const s => have := hh _ rfl; simp [isConst] at this
            | param m => by_cases hm : m = n <;> simp [paramText, hm]
      rw [List.cons_append]
      generalize r ++ (t.flatMap (paramText n) ++ ['$']) = q at hnext
      cases q with
      | nil => simp [Template.rustFormat]
      | cons d q =>
        have : d ≠ '}' := by simpa using hnext
        rw [Template.rustFormat]
        simp [this]
    · have ih := ih (fun x hx => ht x (by simp [hx])) (by simpa [dirty, h] using hd)
      rw [Template.rustFormat_lit (c :: r), ih]
      · rfl
      · intro d hd'
        simp at hd'
        rcases hd' with rfl | hd'
        · exact ⟨hc, h⟩
        · exact hr d hd'

/-- When the path becomes a format string with one argument. -/
theorem wildcard_iff {path : Str} {t : PathTemplate} (h : Template.parse path = .ok t) (n v : Str) :
    (Template.rustFormat (Template.asWildcardParam t n) [v]).isSome = true ↔ WellFormedPath path ∧ (braceGroups path).count n = 1 := by
  by_cases hw : WellFormedPath path
  · have hnb : Regex.NoBraces t := by
      intro s hs
      exact Template.parse_clean hw h (.const s) hs
    rw [Regex.rustFormat_wildcardParam n v t hnb, ← C02_names path t h]
    by_cases hc : (Template.names t).count n = 1
    · simp [hc, hw]
    · simp [hc]
  · have hs := parse_struct h
    have hd : ∃ x ∈ t, dirty x = true := by
      false_or_by_contra
      rename_i hne
      apply hw
      apply wellFormed_of_clean h
      intro x hx
      apply clean_of_not_dirty x (hs.1 x hx)
      rw [Bool.eq_false_iff]
      exact fun h => hne ⟨x, hx, h⟩
    rw [Regex.asWildcardParam_eq, Template.rustFormat_lit _ (by decide), rustFormat_stray n t hs.1 hs.2 hd]
    simp [hw]

/-! ## Statuses -/

theorem namedCode_iff (c : Nat) : NamedCode c ↔ (canonicalReason c).isSome = true := by
  constructor
  · intro h
    have hc : c < 512 := by unfold NamedCode at h; omega
    revert h
    unfold NamedCode
    revert c
    decide +kernel
  · intro h
    obtain ⟨s, hs⟩ := Option.isSome_iff_exists.mp h
    have := reason_mem hs
    have key : ∀ c ∈ reasonCodes, NamedCode c := by unfold NamedCode; decide +kernel
    exact key c this

theorem statuses_named_iff {ws : Bool} {df : Option Resp.DocResponse} {codes rs} (h : Resp.processResponses ws df codes = .ok rs) :
    (∀ r ∈ rs, Nameable r.status) ↔ ∀ e ∈ codes, Nameable e.1.toStatus := by
  constructor
  · intro hn e he
    have h' := h
    simp only [Resp.processResponses] at h'
    obtain ⟨rs', h1, _⟩ := bind_ok_inv h'
    obtain ⟨r, _, hs, hk⟩ := forall₂_left (Resp.convertAll_kinds h1) (e.1.toStatus, e.2)
      (List.mem_append_right _ (List.mem_map.mpr ⟨e, he, rfl⟩))
    have := hn r ((Resp.processResponses_mem h r).mpr (.inr (.inl ⟨e, he, hs, hk⟩)))
    rw [hs] at this
    exact this
  · intro hn r hr
    rcases (Resp.processResponses_mem h r).mp hr with ⟨_, _, hs, _⟩ | ⟨e, he, hs, _⟩ | ⟨rfl, _⟩ | ⟨_, rfl⟩
    · rw [hs]; trivial
    · rw [hs]; exact hn e he
    · exact ⟨by decide, by decide⟩
    · rfl

theorem toStatus_inj {a b : Resp.DocStatus} (h : a.toStatus = b.toStatus) : a = b := by
  cases a <;> cases b <;> simp_all [Resp.DocStatus.toStatus]

/-- The class of success is added only if no other response is for success, and 101 for websockets in any case. -/
theorem statuses_nodup_iff {ws : Bool} {df : Option Resp.DocResponse} {codes rs} (h : Resp.processResponses ws df codes = .ok rs) :
    (rs.map Resp.Response.status).Nodup ↔ (codes.map Prod.fst).Nodup ∧ (ws = true → ∀ e ∈ codes, e.1 ≠ .code 101) := by
  simp only [Resp.processResponses] at h
  obtain ⟨rs', h1, h⟩ := bind_ok_inv h
  have h2 : rs'.map Resp.Response.status =
      df.toList.map (fun _ => .default) ++ (codes.map Prod.fst).map Resp.DocStatus.toStatus := by
    have : ∀ {l : List (Resp.Status × Resp.DocResponse)} {rs'}, Resp.convertAll ws l = .ok rs' →
        rs'.map Resp.Response.status = l.map Prod.fst := by
      intro l rs' h
      have hf := Resp.convertAll_kinds h
      clear h
      induction hf with
      | nil => rfl
      | cons h _ ih => rw [List.map_cons, List.map_cons, ih, h.1]
    rw [this h1, List.map_append, List.map_map, List.map_map, List.map_map]
    rfl
  have hnd : (rs'.map Resp.Response.status).Nodup ↔ (codes.map Prod.fst).Nodup := by
    rw [h2, List.nodup_append]
    constructor
    · rintro ⟨_, h, _⟩
      generalize codes.map Prod.fst = l at h
      induction l with
      | nil => simp
      | cons a l ih =>
        rw [List.map_cons, List.nodup_cons] at h
        exact List.nodup_cons.mpr ⟨fun ha => h.1 (List.mem_map_of_mem ha), ih h.2⟩
    · intro h
      refine ⟨by cases df <;> simp, nodup_map_of_inj h fun a _ b _ he => toStatus_inj he, ?_⟩
      rintro a ha b hb rfl
      obtain ⟨_, _, rfl⟩ := List.mem_map.mp ha
      obtain ⟨e, _, he⟩ := List.mem_map.mp hb
      cases e <;> cases he
  have hmem : Resp.Status.code 101 ∈ rs'.map Resp.Response.status ↔ ∃ e ∈ codes, e.1 = .code 101 := by
    rw [h2, List.mem_append]
    constructor
    · rintro (h | h)
      · obtain ⟨_, _, h⟩ := List.mem_map.mp h
        cases h
      · obtain ⟨c, hc, e⟩ := List.mem_map.mp h
        obtain ⟨x, hx, rfl⟩ := List.mem_map.mp hc
        exact ⟨x, hx, toStatus_inj (b := .code 101) e⟩
    · rintro ⟨e, he, hc⟩
      right
      exact List.mem_map.mpr ⟨e.1, List.mem_map_of_mem he, by rw [hc]; rfl⟩
  have hadd : ∀ l, (l = if rs'.any (fun r => Resp.coversSuccess r.status) then rs' else rs' ++ [⟨.range 2, .raw⟩]) →
      ((l.map Resp.Response.status).Nodup ↔ (rs'.map Resp.Response.status).Nodup) ∧
      (Resp.Status.code 101 ∈ l.map Resp.Response.status ↔ Resp.Status.code 101 ∈ rs'.map Resp.Response.status) := by
    rintro l rfl
    split
    · exact ⟨Iff.rfl, Iff.rfl⟩
    · rename_i hno
      rw [List.map_append, List.nodup_append, List.mem_append]
      refine ⟨⟨fun h => h.1, fun h => ⟨h, by simp, ?_⟩⟩, ⟨fun h => h.elim id fun h => (by simp at h), .inl⟩⟩
      rintro a ha b hb rfl
      simp only [List.map_cons, List.map_nil, List.mem_singleton] at hb
      subst hb
      obtain ⟨r, hr, he⟩ := List.mem_map.mp ha
      apply hno
      rw [List.any_eq_true]
      exact ⟨r, hr, by rw [he]; rfl⟩
  obtain ⟨ha1, ha2⟩ := hadd _ rfl
  rw [← hnd, ← ha1]
  generalize (if rs'.any (fun r => Resp.coversSuccess r.status) then rs' else rs' ++ [⟨.range 2, .raw⟩]) = l at h ha2
  cases ws with
  | false =>
    cases h
    exact ⟨fun h => ⟨h, fun hw => (by cases hw)⟩, fun h => h.1⟩
  | true =>
    cases h
    rw [if_pos rfl, List.map_append, List.nodup_append]
    constructor
    · rintro ⟨h, _, hn⟩
      refine ⟨h, fun _ e he hc => ?_⟩
      exact hn _ (ha2.mpr (hmem.mpr ⟨e, he, hc⟩)) (.code 101) (by simp) rfl
    · rintro ⟨h, hn⟩
      refine ⟨h, by simp, ?_⟩
      rintro a ha b hb rfl
      simp only [List.map_cons, List.map_nil, List.mem_singleton] at hb
      subst hb
      obtain ⟨e, he, hc⟩ := hmem.mp (ha2.mp ha)
      exact hn rfl e he hc

theorem then_names_iff (h : Lawful u) {rs : List Resp.Response} {ts : List ThenMethod} (hts : thenMethods u rs = .ok ts) :
    ("new".toList :: "into_inner".toList :: ts.map ThenMethod.name).Nodup ↔ (rs.map Resp.Response.status).Nodup := by
  constructor
  · intro hn
    rw [thenMethods_names h hts, show (rs.map fun r => methodName r.status) = (rs.map Resp.Response.status).map methodName by
      rw [List.map_map]; rfl, List.nodup_cons, List.nodup_cons] at hn
    have hn := hn.2.2
    generalize rs.map Resp.Response.status = l at hn
    induction l with
    | nil => simp
    | cons a l ih =>
      rw [List.map_cons, List.nodup_cons] at hn
      exact List.nodup_cons.mpr ⟨fun ha => hn.1 (List.mem_map_of_mem ha), ih hn.2⟩
  · intro hn
    refine C67_then u h { exOp with responses := rs } _ ?_ hn
    simp only [thenMethodNames, hts, Res.bind_ok]
    rfl

/-! ## One operation -/

/-- C87: exactly when mocks are generated for an operation that is understood. -/
theorem mock_generates_iff {types path method d P} (hp : processOperation san types path method d = .ok P) :
    (∃ ts, mockMethod u P.op = .ok ts) ↔ StatusesNamed d := by
  obtain ⟨_, _, _, hresp, _⟩ := processOperation_inv hp
  have hargs : whenArgs P.op.params = .ok () := by
    have : ∀ a ∈ P.op.params, whenArg a = .ok () := by
      intro a ha
      rcases param_counts hp ha with ⟨p, _, _, _, ht⟩ | ⟨e, _, hb⟩
      · unfold whenArg; rw [ht]
      · obtain ⟨_, ⟨c, hc, hk, ht⟩ | ⟨c, t, hc, hk, ht⟩⟩ := body_shape hb a rfl
        · unfold whenArg
          rw [hk, ht]
          rcases hc with rfl | ⟨m, rfl⟩ <;> rfl
        · unfold whenArg; rw [ht]
    generalize P.op.params = l at this
    induction l with
    | nil => rfl
    | cons a l ih =>
      rw [whenArgs, this a (by simp), Res.bind_ok]
      exact ih fun b hb => this b (by simp [hb])
  unfold mockMethod
  rw [hargs]
  simp only [Res.bind_ok]
  rw [C67_generates_iff, statuses_named_iff hresp]
  refine forall_congr' fun e => forall_congr' fun _ => ?_
  obtain ⟨s, r⟩ := e
  cases s with
  | code c => exact (namedCode_iff c).symm
  | range n => exact Iff.rfl

/-- C87: exactly when the mock of an operation compiles. -/
theorem mock_sound_iff (h : Lawful u) (mt : MockTypes) {types path method d P} (hp : processOperation san types path method d = .ok P)
    {ts : List ThenMethod} (hts : mockMethod u P.op = .ok ts) :
    wrappersCompile mt P.op ts = true ↔ MockSound san mt path d := by
  obtain ⟨_, _, hpath, hresp, _⟩ := processOperation_inv hp
  have hts' : thenMethods u P.op.responses = .ok ts := by
    unfold mockMethod at hts
    obtain ⟨_, _, hts⟩ := bind_ok_inv hts
    exact hts
  unfold wrappersCompile
  simp only [Bool.and_eq_true, decide_eq_true_eq, List.all_eq_true]
  rw [C67_when_iff, names_iff hp, then_names_iff h hts', statuses_nodup_iff hresp]
  have hbodyName : ∀ a, getBodyParam d.body = .ok (some a) → a.name = "body".toList := fun a hb => (body_shape hb a rfl).1
  constructor
  · rintro ⟨⟨⟨⟨⟨h1, h2⟩, h3⟩, h4, h5⟩, h6⟩, h7⟩
    refine ⟨?_, ?_, h1, h2, ?_, ?_, ?_, h4, h5⟩
    · intro p hc hl
      obtain ⟨a, ha, hda, _, hty⟩ := counts_param hp hc
      have := h6 a ha
      unfold whenCompiles at this
      rw [hty, (path_kind hda).mpr hl] at this
      simp only [Bool.and_eq_true] at this
      rw [← hda.1]
      exact (wildcard_iff hpath _ _).mp this.2
    · intro p hc hl
      obtain ⟨a, ha, hda, _, hty⟩ := counts_param hp hc
      have := h6 a ha
      unfold whenCompiles at this
      rw [hty] at this
      rw [← hda.2.1] at hl
      generalize a.kind = k at this hl
      cases k with
      | path => simp only [Bool.and_eq_true] at this; exact this.1
      | query _ => exact this
      | header _ => rcases hl with hl | hl <;> cases hl
      | body _ => rcases hl with hl | hl <;> cases hl
    · intro p hc
      obtain ⟨a, ha, _, hn, _⟩ := counts_param hp hc
      rw [← hn]
      exact h3 a ha
    · intro ct m s base hb hs hm hbase
      obtain ⟨a, ha, hba⟩ := body_param hp hb
      rcases (C19_declared_iff _ _).mp hba with ⟨he, _⟩ | ⟨ct', m', s', c, typ, hb', hs', hc, ht, he⟩
      · cases he
      rw [hb] at hb'
      cases hb'
      rw [hs] at hs'
      cases hs'
      cases he
      have := h6 _ ha
      obtain ⟨base', hm', hcb⟩ := (mediaType_iff ct c).mp hc
      have hbb : base' = base := by rw [← (mediaBase_iff _ _).mp hm', ← (mediaBase_iff _ _).mp hm]
      subst hbb
      have htyp : typ = .type s.ty := by
        rcases hcb with ⟨rfl, rfl⟩ | ⟨rfl, _⟩ | ⟨rfl, _⟩ | ⟨rfl, h⟩
        · rcases hbase with h | h <;> exact absurd h (by decide)
        · simp only [bodyType] at ht
          split at ht
          · cases ht; rfl
          · cases ht
        · simp only [bodyType] at ht
          split at ht
          · cases ht; rfl
          · cases ht
        · rcases h with rfl | rfl <;> rcases hbase with h | h <;> exact absurd h (by decide)
      subst htyp
      simpa [whenCompiles] using this
    · intro s t hl
      have := h7 ⟨s, .type t⟩ ((listed_iff hresp _).mpr hl)
      simpa [thenCompiles] using this
  · rintro ⟨hpa, hdi, h1, h2, hown, hbt, hans, h4, h5⟩
    refine ⟨⟨⟨⟨⟨h1, h2⟩, ?_⟩, h4, h5⟩, ?_⟩, ?_⟩
    · intro a ha
      rcases param_counts hp ha with ⟨p, hc, _, hn, _⟩ | ⟨e, _, hb⟩
      · rw [hn]; exact hown p hc
      · rw [hbodyName a hb]; decide
    · intro a ha
      rcases param_counts hp ha with ⟨p, hc, hda, hn, hty⟩ | ⟨e, hde, hb⟩
      · unfold whenCompiles
        rw [hty]
        have hloc := hda.2.1
        cases hk : a.kind with
        | path =>
          rw [hk] at hloc
          simp only [Bool.and_eq_true]
          refine ⟨hdi p hc (.inl hloc.symm), (wildcard_iff hpath _ _).mpr ?_⟩
          rw [hda.1]
          exact hpa p hc hloc.symm
        | query _ =>
          rw [hk] at hloc
          exact hdi p hc (.inr hloc.symm)
        | header _ => rfl
        | body ct => exact absurd hk (counts_not_body hda ct)
      · rcases (C19_declared_iff _ _).mp hb with ⟨he, _⟩ | ⟨ct', m', s', c, typ, hb', hs', hc, ht, he⟩
        · cases he
        cases he
        unfold whenCompiles
        cases typ with
        | rawBody => rfl
        | type t =>
          obtain ⟨base, hm, hcb⟩ := (mediaType_iff ct' c).mp hc
          have : (base = "application/json".toList ∨ base = "application/x-www-form-urlencoded".toList) ∧ t = s'.ty := by
            rcases hcb with ⟨rfl, _⟩ | ⟨rfl, hbs⟩ | ⟨rfl, hbs⟩ | ⟨rfl, _⟩ <;> simp only [bodyType] at ht <;> split at ht <;> cases ht
            · exact ⟨.inl hbs, rfl⟩
            · exact ⟨.inr hbs, rfl⟩
          rw [this.2]
          simp only [decide_eq_true_eq]
          exact hbt ct' m' s' base hb' hs' hm this.1
    · intro r hr
      unfold thenCompiles
      obtain ⟨s, k⟩ := r
      cases k with
      | type t =>
        simp only [decide_eq_true_eq]
        exact hans s t ((listed_iff hresp _).mp hr)
      | none => rfl
      | raw => rfl
      | upgrade => rfl

theorem mockSound_id {mt : MockTypes} {path id : Str} {d : DocOperation} :
    MockSound san mt path { d with operationId := id } ↔ MockSound san mt path d :=
  ⟨fun ⟨a, b, c, e, f, g, h, i, j⟩ => ⟨a, b, c, e, f, g, fun s t hl => h s t (listed_id.mpr hl), i, j⟩,
   fun ⟨a, b, c, e, f, g, h, i, j⟩ => ⟨a, b, c, e, f, g, fun s t hl => h s t (listed_id.mp hl), i, j⟩⟩

/-! ## Documents -/

theorem processOne_eq {types : Types} {path m : Str} {o : RawOperation} {id : Str} (h : o.id = some id) :
    processOne u types (path, m, o) = processOperation (sanitize u .snake) types path m { o.op with operationId := id } := by
  unfold processOne
  simp only [h]

theorem validDoc_id {d : Document} (hv : ValidDoc u d) {path m : Str} {o : RawOperation} (ho : (path, m, o) ∈ routes d) :
    ∃ id, o.id = some id :=
  Option.ne_none_iff_exists'.mp (hv.hasId o (op_route ho))

theorem mock_parts {types : Types} {d : Document} {ms : List Processed} {ts : List (List ThenMethod)} :
    httpmock u types d = .ok (ms, ts) ↔ rawMethods u types d = .ok ms ∧ mockAll u ms = .ok ts := by
  unfold httpmock
  constructor
  · intro h
    obtain ⟨ms', hm, h⟩ := bind_ok_inv h
    obtain ⟨ts', ht, h⟩ := bind_ok_inv h
    cases h
    exact ⟨hm, ht⟩
  · rintro ⟨hm, ht⟩
    simp only [hm, Res.bind_ok, ht]
    rfl

/-- C87: mocks are generated exactly for the valid documents all of whose operations are understood, where each status has a name. -/
theorem C87_generates_iff (h : Lawful u) {types : Types} (hd : PropsDistinct types) (d : Document) :
    (∃ r, httpmock u types d = .ok r) ↔
      ValidDoc u d ∧ ∀ path m o, (path, m, o) ∈ routes d → Understood types path m o.op ∧ StatusesNamed o.op := by
  have hvalid : (∃ x, validate u d = .ok x) ↔ ValidDoc u d := by rw [← isOk_iff]; exact C44_validate_iff h d
  have hsplit : (∃ r, httpmock u types d = .ok r) ↔
      ValidDoc u d ∧ ∃ ms ts, processAll u types (routes d) = .ok ms ∧ mockAll u ms = .ok ts := by
    rw [← hvalid]
    constructor
    · rintro ⟨⟨ms, ts⟩, hr⟩
      obtain ⟨hm, ht⟩ := mock_parts.mp hr
      obtain ⟨x, hx, hm⟩ := bind_ok_inv hm
      rw [routes_eq] at hm
      exact ⟨⟨x, hx⟩, ms, ts, hm, ht⟩
    · rintro ⟨⟨x, hx⟩, ms, ts, hm, ht⟩
      refine ⟨(ms, ts), mock_parts.mpr ⟨?_, ht⟩⟩
      unfold rawMethods
      simp only [hx, Res.bind_ok, routes_eq, hm]
  rw [hsplit]
  refine and_congr_right fun hv => ?_
  rw [each_iff (u := u) (types := types) (f := fun p => mockMethod u p.op) (F := mockAll u) rfl (fun _ _ => rfl) (routes d)]
  constructor
  · intro hall path m o ho
    obtain ⟨id, hid⟩ := validDoc_id hv ho
    obtain ⟨P, ts, hP, hts⟩ := hall _ ho
    rw [processOne_eq hid] at hP
    exact ⟨understood_id.mp ((understood_iff hd _ path m _).mp ⟨P, hP⟩), (mock_generates_iff hP).mp ⟨ts, hts⟩⟩
  · rintro hall ⟨path, m, o⟩ ho
    obtain ⟨id, hid⟩ := validDoc_id hv ho
    obtain ⟨h1, h2⟩ := hall path m o ho
    obtain ⟨P, hP⟩ := (understood_iff hd (sanitize u .snake) path m { o.op with operationId := id }).mpr (understood_id.mpr h1)
    obtain ⟨ts, hts⟩ := (mock_generates_iff hP (u := u)).mpr h2
    exact ⟨P, ts, by rw [processOne_eq hid]; exact hP, hts⟩

theorem methods_ids {types : Types} {os : List (Str × Str × RawOperation)} : ∀ {ms : List Processed},
    processAll u types os = .ok ms → ms.map (fun p => p.op.operationId) = os.map fun o => Spec.methodName u o.2.2 := by
  induction os with
  | nil => intro ms h; cases h; rfl
  | cons o os ih =>
    intro ms h
    obtain ⟨p, h1, h⟩ := bind_ok_inv h
    obtain ⟨ps, h2, h⟩ := bind_ok_inv h
    cases h
    obtain ⟨id, hid, hn, _⟩ := processOne_id h1
    rw [List.map_cons, List.map_cons, ih h2, hn]
    unfold Spec.methodName
    rw [hid]
    rfl

/-- The structs and functions for the operations have different names. -/
theorem mock_names_iff (h : Lawful u) {types : Types} {d : Document} {ms : List Processed} (hm : rawMethods u types d = .ok ms)
    (hv : ((opsOf d).map RawOperation.id).Nodup) : mockNames u ms = true ↔ Spec.WrapperNames u d := by
  have hids : ms.map (fun p => p.op.operationId) = (opsOf d).map (Spec.methodName u) := by
    rw [methods_ids (rawMethods_ok hm).2, ← operations_ops, List.map_map]
    rfl
  unfold mockNames
  simp only [Bool.and_eq_true, decide_eq_true_eq]
  rw [hids, wrappers_iff h, List.map_map]
  exact map_nodup_iff hv

/-- C87: exactly these documents give mocks that compile. -/
theorem C87_compiles_iff (h : Lawful u) {types : Types} (hd : PropsDistinct types) (mt : MockTypes) (d : Document) :
    (∃ ms ts, httpmock u types d = .ok (ms, ts) ∧ mockNames u ms = true ∧ ∀ p t, (p, t) ∈ ms.zip ts → wrappersCompile mt p.op t = true) ↔
    ValidDoc u d ∧ Spec.WrapperNames u d ∧ ∀ path m o, (path, m, o) ∈ routes d →
      Understood types path m o.op ∧ StatusesNamed o.op ∧ MockSound (sanitize u .snake) mt path o.op := by
  have hgen := C87_generates_iff h hd d
  have key : ∀ ms ts, httpmock u types d = .ok (ms, ts) → ValidDoc u d →
      ((mockNames u ms = true ↔ Spec.WrapperNames u d) ∧
        ((∀ p t, (p, t) ∈ ms.zip ts → wrappersCompile mt p.op t = true) ↔
          ∀ path m o, (path, m, o) ∈ routes d → MockSound (sanitize u .snake) mt path o.op)) := by
    intro ms ts hg hv
    obtain ⟨hm, ht⟩ := mock_parts.mp hg
    have hall := (rawMethods_ok hm).2
    rw [routes_eq] at hall
    refine ⟨mock_names_iff h hm hv.distinct, ?_⟩
    rw [each_pairs (f := fun p => mockMethod u p.op) (F := mockAll u) (Q := fun p t => wrappersCompile mt p.op t = true)
      rfl (fun _ _ => rfl) hall ht]
    have hex := (each_iff (u := u) (types := types) (f := fun p => mockMethod u p.op) (F := mockAll u) rfl (fun _ _ => rfl)
      (routes d)).mp ⟨ms, ts, hall, ht⟩
    constructor
    · intro hq path m o ho
      obtain ⟨p, t, hp, htt⟩ := hex _ ho
      obtain ⟨id, _, hpo⟩ := processOne_of hp
      exact mockSound_id.mp ((mock_sound_iff h mt hpo htt).mp (hq _ ho p t hp htt))
    · rintro hq ⟨path, m, o⟩ ho p t hp htt
      obtain ⟨id, _, hpo⟩ := processOne_of hp
      exact (mock_sound_iff h mt hpo htt).mpr (mockSound_id.mpr (hq path m o ho))
  constructor
  · rintro ⟨ms, ts, hg, hn, hcomp⟩
    obtain ⟨hv, hops⟩ := hgen.mp ⟨_, hg⟩
    obtain ⟨k1, k2⟩ := key ms ts hg hv
    exact ⟨hv, k1.mp hn, fun path m o ho => ⟨(hops path m o ho).1, (hops path m o ho).2, k2.mp hcomp path m o ho⟩⟩
  · rintro ⟨hv, hn, hops⟩
    obtain ⟨⟨ms, ts⟩, hg⟩ := hgen.mpr ⟨hv, fun path m o ho => ⟨(hops path m o ho).1, (hops path m o ho).2.1⟩⟩
    obtain ⟨k1, k2⟩ := key ms ts hg hv
    exact ⟨ms, ts, hg, k1.mpr hn, k2.mpr fun path m o ho => (hops path m o ho).2.2⟩

/-- C87: if there is a client, there are mocks exactly if each status has a name. -/
theorem C87_client_iff {B : Type} (h : Lawful u) {types : Types} (hd : PropsDistinct types) {tt : Builder.TypeTable B} {i : Interface}
    {t : TagStyle} {d : Document} (hg : ∃ r, generate u types tt i t d = .ok r) :
    (∃ r, httpmock u types d = .ok r) ↔ ∀ o ∈ opsOf d, StatusesNamed o.op := by
  obtain ⟨hv, _, hs⟩ := (C85_generates_iff h types tt i t d).mp hg
  rw [C87_generates_iff h hd]
  constructor
  · rintro ⟨_, hall⟩ o ho
    obtain ⟨path, m, hr⟩ := route_op ho
    exact (hall path m o hr).2
  · intro hall
    exact ⟨hv, fun path m o ho => ⟨supported_understood hd (hs path m o ho).1, hall o (op_route ho)⟩⟩

/-- C67: wrappers have different names exactly if those for the expectations have. -/
theorem C67_wrappers_iff (h : Lawful u) (ids : List Str) (hn : ids.Nodup) :
    (wrapperNames u ids).Nodup ↔ ∀ a ∈ ids, ∀ b ∈ ids, sanitize u .pascal (a ++ "-when".toList) = sanitize u .pascal (b ++ "-when".toList) →
      a = b := by
  rw [← nodup_map_iff (f := fun s => sanitize u .pascal (s ++ "-when".toList)) hn, ← wrappers_iff h]
  exact ⟨fun h => ⟨h, hn⟩, fun h => h.1⟩

/-! ## Clients without mocks -/

/-- The client in the positional style compiles. -/
def ClientCompiles {B : Type} (u : Unicode) (types : Types) (tt : Builder.TypeTable B) (d : Document) : Prop :=
  ∀ (P V : Type) (inner : Bool) (cfg : Exec.Config) (hooks : Exec.Hooks) (w : Exec.World)
    (decode : Params.TypeId → Bytes → Except P V) (hist : List Exec.Event),
    ∃ ms cs, generate u types tt .positional .merged d = .ok (ms, cs) ∧ namesOk u tt inner .positional .merged ms = true ∧
      ∀ p c, (p, c) ∈ ms.zip cs → PositionalCompiles cfg hooks w decode hist types p c

/-- The mocks compile. -/
def MocksCompile (u : Unicode) (types : Types) (mt : MockTypes) (d : Document) : Prop :=
  ∃ ms ts, httpmock u types d = .ok (ms, ts) ∧ mockNames u ms = true ∧ ∀ p t, (p, t) ∈ ms.zip ts → wrappersCompile mt p.op t = true

namespace MockExample

open AcceptExample CompileExample

/-- An operation without body and pages; only websockets have a default response. -/
def small (ws : Bool) (params : List DocParam) (codes : List (Resp.DocStatus × Resp.DocResponse)) : DocOperation :=
  { operationId := [], tags := [], pathLevel := [], opLevel := params, body := none, default := if ws then some [] else none, codes := codes,
    websocket := ws, pagination := none }

def docAt (path : Str) (o : DocOperation) : Document := ⟨"3.0.3".toList, [(path, some [("get".toList, ⟨some "get_it".toList, o⟩)])]⟩

theorem docAt_routes {path : Str} {o : DocOperation} {p m : Str} {o' : RawOperation} (h : (p, m, o') ∈ routes (docAt path o)) :
    p = path ∧ m = "get".toList ∧ o' = ⟨some "get_it".toList, o⟩ := by
  simpa [routes, docAt] using h

theorem route_docAt (path : Str) (o : DocOperation) : (path, "get".toList, ⟨some "get_it".toList, o⟩) ∈ routes (docAt path o) := by
  simp [routes, docAt]

theorem small_client {path : Str} {ws : Bool} {params : List DocParam} {codes : List (Resp.DocStatus × Resp.DocResponse)}
    (hg : (generate exUnicode noTypes noBuilders .positional .merged (docAt path (small ws params codes))).isOk = true)
    (hm : MethodSound (sanitize exUnicode .snake) path "get".toList (small ws params codes)) :
    ClientCompiles exUnicode noTypes noBuilders (docAt path (small ws params codes)) := by
  obtain ⟨hv, _, hs⟩ := (C85_generates_iff exUnicode_lawful _ _ _ _ _).mp ((isOk_iff _).mp hg)
  have hops : ∀ o ∈ opsOf (docAt path (small ws params codes)), o = ⟨some "get_it".toList, small ws params codes⟩ := by
    intro o ho
    simpa [opsOf, docAt] using ho
  have hpaged : ¬ Paged noTypes (small ws params codes) := fun h => h.extension rfl
  intro P V inner cfg hooks w decode hist
  refine (C86_positional_iff exUnicode_lawful (fun t props h => by cases h) noBuilders inner _ cfg hooks w decode hist).mpr
    ⟨hv, ⟨?_, ?_, ?_⟩, fun path' m o ho => ⟨(hs path' m o ho).1, ?_⟩⟩
  · intro o ho
    rw [hops o ho, ← clientOwn_iff]
    show sanitize exUnicode .snake "get_it".toList ∉ clientOwn inner
    revert inner
    decide +kernel
  · intro o ho o' ho' _
    rw [hops o ho, hops o' ho']
  · intro o ho o' _ hpg
    rw [hops o ho] at hpg
    exact absurd hpg hpaged
  · obtain ⟨rfl, rfl, rfl⟩ := docAt_routes ho
    exact ⟨hm, fun hpg => absurd hpg hpaged⟩

theorem no_params {params : List DocParam} {Q : DocParam → Prop} {ws codes} (h : params = []) : ∀ p, Counts (small ws params codes) p → Q p := by
  subst h
  exact counts_all _ fun p hp => (by cases hp)

theorem root_path : WellFormedPath "/".toList := ⟨_, rfl, .nil⟩

theorem small_method {ws codes} : MethodSound (sanitize exUnicode .snake) "/".toList "get".toList (small ws [] codes) :=
  ⟨root_path, by decide, fun p q hp => no_params (Q := fun p => Counts (small ws [] codes) q → sanitize exUnicode .snake p.name = sanitize exUnicode .snake q.name →
    p.name = q.name) rfl p hp, fun e he => (by cases he), no_params rfl, fun _ => no_params rfl⟩

theorem noTypes_distinct : PropsDistinct noTypes := fun t props h => by cases h

end MockExample

open AcceptExample MockExample

/-- Mocks that compile, for a document with pages, parameters and a body. -/
theorem doc_mocks : MocksCompile exUnicode pageTypes ⟨fun t => if t = 14 then .str else .ref, fun t => t ≠ 12⟩
    (CompileExample.doc "put_thing".toList) := by
  have h : (match httpmock exUnicode pageTypes (CompileExample.doc "put_thing".toList) with
      | .ok (ms, ts) => mockNames exUnicode ms && (ms.zip ts).all fun x =>
        wrappersCompile ⟨fun t => if t = 14 then .str else .ref, fun t => t ≠ 12⟩ x.1.op x.2
      | _ => false) = true := by decide +kernel
  split at h
  · rename_i ms ts hg
    rw [Bool.and_eq_true, List.all_eq_true] at h
    exact ⟨ms, ts, hg, h.1, fun p t hpt => h.2 (p, t) hpt⟩
  · cases h

/-- What compiling needs holds for the document. -/
example : ∀ path m o, (path, m, o) ∈ routes (CompileExample.doc "put_thing".toList) →
    Understood pageTypes path m o.op ∧ StatusesNamed o.op ∧
    MockSound (sanitize exUnicode .snake) ⟨fun t => if t = 14 then .str else .ref, fun t => t ≠ 12⟩ path o.op :=
  ((C87_compiles_iff exUnicode_lawful pageTypes_distinct _ _).mp doc_mocks).2.2

/-- C87: a client that compiles is not enough; there are no mocks for it if the status is 299, which has no name. -/
theorem C87_unnamed_status : ∃ d, ClientCompiles exUnicode noTypes noBuilders d ∧ (httpmock exUnicode noTypes d).isPanic = true :=
  ⟨docAt "/".toList (small false [] [(.code 299, RespExample.jsonT)]), small_client (by decide +kernel) small_method, by decide +kernel⟩

/-- C87: a client that compiles is not enough; its mocks do not compile if strings are returned. -/
theorem C87_strings : ∃ d, ClientCompiles exUnicode noTypes noBuilders d ∧ (∃ r, httpmock exUnicode noTypes d = .ok r) ∧
    ∀ mt : MockTypes, mt.passing 1 = .str → ¬ MocksCompile exUnicode noTypes mt d := by
  refine ⟨docAt "/".toList (small false [] [(.code 200, RespExample.jsonT)]), small_client (by decide +kernel) small_method,
    (isOk_iff _).mp (by decide +kernel), fun mt hmt hc => ?_⟩
  have := ((C87_compiles_iff exUnicode_lawful noTypes_distinct mt _).mp hc).2.2 _ _ _ (route_docAt _ _)
  have := this.2.2.answers (.code 200) 1 (.code (.code 200, RespExample.jsonT) _ (by simp [small]) (C24_kind.mp rfl))
  rw [hmt] at this
  cases this

/-- C87: a client that compiles is not enough; its mocks do not compile if there are lists in the query. -/
theorem C87_lists : ∃ d, ClientCompiles exUnicode noTypes noBuilders d ∧ (∃ r, httpmock exUnicode noTypes d = .ok r) ∧
    ∀ mt : MockTypes, mt.display 3 = false → ¬ MocksCompile exUnicode noTypes mt d := by
  refine ⟨docAt "/".toList (small false [⟨"ids".toList, .query true none, true, true, 3⟩] [(.code 204, RespExample.noContent)]),
    small_client (by decide +kernel) ⟨root_path, by decide, ?_, fun e he => (by cases he), counts_all _ (by decide +kernel),
      fun _ => counts_all _ (by decide +kernel)⟩,
    (isOk_iff _).mp (by decide +kernel), fun mt hmt hc => ?_⟩
  · intro p q hp hq _
    have key : ∀ p, Counts (small false [⟨"ids".toList, .query true none, true, true, 3⟩] [(.code 204, RespExample.noContent)]) p →
        p.name = "ids".toList := counts_all _ (by decide +kernel)
    rw [key p hp, key q hq]
  · have := ((C87_compiles_iff exUnicode_lawful noTypes_distinct mt _).mp hc).2.2 _ _ _ (route_docAt _ _)
    have := this.2.2.display ⟨"ids".toList, .query true none, true, true, 3⟩ ((counts_iff _ _).mp (by decide +kernel)) (.inr rfl)
    rw [show argType ⟨"ids".toList, .query true none, true, true, 3⟩ = 3 from rfl, hmt] at this
    cases this

/-- C87: a client that compiles is not enough; its mocks do not compile for a websocket with a documented 101. -/
theorem C87_websocket : ∃ d, ClientCompiles exUnicode noTypes noBuilders d ∧ (∃ r, httpmock exUnicode noTypes d = .ok r) ∧
    ∀ mt : MockTypes, ¬ MocksCompile exUnicode noTypes mt d := by
  refine ⟨docAt "/".toList (small true [] [(.code 101, RespExample.noContent)]), small_client (by decide +kernel) small_method,
    (isOk_iff _).mp (by decide +kernel), fun mt hc => ?_⟩
  have := ((C87_compiles_iff exUnicode_lawful noTypes_distinct mt _).mp hc).2.2 _ _ _ (route_docAt _ _)
  exact this.2.2.upgrade rfl (.code 101, RespExample.noContent) (by simp [small]) rfl

end Progenitor.Props

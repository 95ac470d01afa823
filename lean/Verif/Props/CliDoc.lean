import Verif.Props.MockDoc
import Verif.Props.CliItems
import Verif.Props.Argv
import Verif.Spec.CliDoc

/-!
# C88: the documents for which there is a command line
-/

namespace Progenitor.Props

open Progenitor Progenitor.Params Progenitor.Spec Progenitor.Doc Progenitor.Names Progenitor.Cli
open Progenitor.Builder (isBody TypeTable)

variable {u : Unicode} {ct : CliTypes} {B : Type}

/-! ## Responses -/

open Progenitor.Resp in
theorem extract_iff {f : Status → Bool} (hf : IsFilter f) (rs : List Response) :
    (∃ x, extract f rs = .ok x) ↔ ∀ r ∈ popDefault (sorted f rs), ∀ r' ∈ popDefault (sorted f rs), r.kind = r'.kind := by
  constructor
  · rintro ⟨⟨items, k⟩, h⟩ r hr r' hr'
    obtain ⟨h1, h2⟩ := extract_ok hf h
    subst h1
    rw [h2 r hr, h2 r' hr']
  · intro h
    obtain ⟨k, hk⟩ := extract_of_agree hf h
    exact ⟨_, hk⟩

theorem isError_iff (s : Resp.Status) : s.isErrorOrDefault = true ↔ AsError s := by
  cases s with
  | code c => simp [Resp.Status.isErrorOrDefault, AsError]; omega
  | range n => simp [Resp.Status.isErrorOrDefault, AsError]; omega
  | default => simp [Resp.Status.isErrorOrDefault, AsError]

open Progenitor.Resp in
theorem error_mem {d : DocOperation} {rs : List Response} (h : processResponses d.websocket d.default d.codes = .ok rs)
    (r : Response) : r ∈ popDefault (sorted Status.isErrorOrDefault rs) ↔ Listed d r.status r.kind ∧ AsError r.status := by
  rw [error_items, mem_sorted, listed_iff h, isError_iff]

/-- There is one kind of success, and one of errors, if functions are made for the command. -/
theorem kinds_iff {san types path method d P} (hd : PropsDistinct types) (hp : processOperation san types path method d = .ok P) :
    (∃ k, cliKinds P.paginated P.op.responses = .ok k) ↔ OneKind d := by
  obtain ⟨_, _, _, hresp, _⟩ := processOperation_inv hp
  have hs : (∃ x, Resp.extract Resp.Status.isSuccessOrDefault P.op.responses = .ok x) ↔
      ∀ s k s' k', Listed d s k → Listed d s' k' → AsSuccess d s → AsSuccess d s' → k = k' := by
    rw [extract_iff Resp.isFilter_success]
    constructor
    · intro h s k s' k' hl hl' ha ha'
      exact h ⟨s, k⟩ ((success_mem hresp _).mpr ⟨hl, ha⟩) ⟨s', k'⟩ ((success_mem hresp _).mpr ⟨hl', ha'⟩)
    · intro h r hr r' hr'
      obtain ⟨hl, ha⟩ := (success_mem hresp r).mp hr
      obtain ⟨hl', ha'⟩ := (success_mem hresp r').mp hr'
      exact h _ _ _ _ hl hl' ha ha'
  have he : (∃ x, Resp.extract Resp.Status.isErrorOrDefault P.op.responses = .ok x) ↔
      ∀ s k s' k', Listed d s k → Listed d s' k' → AsError s → AsError s' → k = k' := by
    rw [extract_iff Resp.isFilter_error]
    constructor
    · intro h s k s' k' hl hl' ha ha'
      exact h ⟨s, k⟩ ((error_mem hresp _).mpr ⟨hl, ha⟩) ⟨s', k'⟩ ((error_mem hresp _).mpr ⟨hl', ha'⟩)
    · intro h r hr r' hr'
      obtain ⟨hl, ha⟩ := (error_mem hresp r).mp hr
      obtain ⟨hl', ha'⟩ := (error_mem hresp r').mp hr'
      exact h _ _ _ _ hl hl' ha ha'
  constructor
  · rintro ⟨⟨s, e⟩, h⟩
    obtain ⟨⟨rs, h1⟩, ⟨rs', h2⟩, _⟩ := C68_kinds h
    exact ⟨hs.mp ⟨_, h1⟩, he.mp ⟨_, h2⟩⟩
  · rintro ⟨h1, h2⟩
    obtain ⟨⟨items, k⟩, h3⟩ := hs.mpr h1
    obtain ⟨⟨items', k'⟩, h4⟩ := he.mpr h2
    refine ⟨(k, k'), ?_⟩
    unfold cliKinds
    simp only [h3, h4, Res.bind_ok]
    rw [if_neg]
    · rfl
    · rintro ⟨hpg, hk⟩
      have hpaged : Paged types d := (C86_paged_iff hd hp).mp fun h => (by rw [h] at hpg; cases hpg)
      obtain ⟨t, pre, e, post, _, hcodes, ⟨hc, hst⟩, _⟩ := hpaged.page
      have hl : Listed d e.1.toStatus (.type t) := .code e _ (by rw [hcodes]; simp) hc
      have ha : AsSuccess d e.1.toStatus := by
        rcases hst with ⟨c, hc, h1, h2⟩ | hr
        · rw [hc]; exact .inr ⟨h1, by omega⟩
        · rw [hr]; exact rfl
      obtain ⟨rfl, hkind⟩ := Resp.extract_ok Resp.isFilter_success h3
      have := hkind ⟨_, _⟩ ((success_mem hresp ⟨_, _⟩).mpr ⟨hl, ha⟩)
      rw [← this] at hk
      rcases hk with hk | hk <;> cases hk

/-! ## The body -/

/-- The type of the argument for the body. -/
theorem body_typed_iff {d : DocOperation} {a : Param} (hb : getBodyParam d.body = .ok (some a)) (t : Params.TypeId) :
    a.typ = .type t ↔ TypedBody d t := by
  rcases (C19_declared_iff _ _).mp hb with ⟨he, _⟩ | ⟨ct', m', s', c, typ, hb', hs', hc, ht, he⟩
  · cases he
  cases he
  obtain ⟨base, hm, hcb⟩ := (mediaType_iff ct' c).mp hc
  constructor
  · intro h
    change typ = .type t at h
    subst h
    have : (base = "application/json".toList ∨ base = "application/x-www-form-urlencoded".toList) ∧ t = s'.ty := by
      rcases hcb with ⟨rfl, _⟩ | ⟨rfl, hbs⟩ | ⟨rfl, hbs⟩ | ⟨rfl, _⟩ <;> simp only [Progenitor.bodyType] at ht <;> split at ht <;> cases ht
      · exact ⟨.inl hbs, rfl⟩
      · exact ⟨.inr hbs, rfl⟩
    exact ⟨ct', m', s', base, hb', hs', hm, this.1, this.2.symm⟩
  · rintro ⟨ct, m, s, base', hb2, hs, hm', hbase, rfl⟩
    rw [hb'] at hb2
    cases hb2
    rw [hs'] at hs
    cases hs
    have hbb : base = base' := by rw [← (mediaBase_iff _ _).mp hm', ← (mediaBase_iff _ _).mp hm]
    subst hbb
    show typ = _
    rcases hcb with ⟨rfl, rfl⟩ | ⟨rfl, _⟩ | ⟨rfl, _⟩ | ⟨rfl, h⟩
    · rcases hbase with h | h <;> exact absurd h (by decide)
    · simp only [Progenitor.bodyType] at ht
      split at ht
      · cases ht; rfl
      · cases ht
    · simp only [Progenitor.bodyType] at ht
      split at ht
      · cases ht; rfl
      · cases ht
    · rcases h with rfl | rfl <;> rcases hbase with h | h <;> exact absurd h (by decide)

theorem param_isBody {san types path method d P} (hp : processOperation san types path method d = .ok P) {a : Param} (ha : a ∈ P.op.params) :
    isBody a.kind = true ↔ getBodyParam d.body = .ok (some a) := by
  constructor
  · intro hb
    obtain ⟨c, hc⟩ := (isBody_iff _).mp hb
    rcases param_counts hp ha with ⟨p, _, hda, _, _⟩ | ⟨e, _, h⟩
    · exact absurd hc (counts_not_body hda c)
    · exact h
  · intro hb
    rcases (body_shape hb a rfl).2 with ⟨c, _, hk, _⟩ | ⟨c, t, _, hk, _⟩ <;> rw [hk] <;> rfl

/-- The type of the body that flags are made for. -/
theorem cli_bodyType_iff {san types path method d P} (hp : processOperation san types path method d = .ok P) (t : Params.TypeId) :
    Cli.bodyType P.op.params = some t ↔ TypedBody d t := by
  unfold Cli.bodyType
  cases hf : P.op.params.find? fun p => isBody p.kind with
  | none =>
    refine ⟨fun h => (by cases h), ?_⟩
    rintro ⟨ct, m, s, base, hb, _⟩
    obtain ⟨a, ha, hba⟩ := body_param hp hb
    exact absurd ((param_isBody hp ha).mpr hba) (by simpa using List.find?_eq_none.mp hf a ha)
  | some a =>
    have ha := List.mem_of_find?_eq_some hf
    have hba := (param_isBody hp ha).mp (by simpa using List.find?_some hf)
    rw [← body_typed_iff hba t]
    dsimp only
    cases a.typ with
    | rawBody => simp
    | type t' => simp

/-! ## Flags -/

variable {types : Types} {path method : Str} {d : DocOperation} {P : Processed}

/-- Parameters with flags, in terms of the document. -/
theorem flagged_iff (hd : PropsDistinct types) (hp : processOperation (sanitize u .snake) types path method d = .ok P) {a : Param}
    {p : DocParam} (hc : Counts d p) (hda : Describes p a) (hn : a.name = sanitize u .snake p.name) :
    Flagged P.paginated a ↔ DocFlag u types d p := by
  unfold Flagged DocFlag
  rw [C86_paged_iff hd hp, hn]
  exact ⟨fun h => ⟨hc, h.2⟩, fun h => ⟨counts_not_body hda, h.2⟩⟩

theorem doc_flagged (hd : PropsDistinct types) (hp : processOperation (sanitize u .snake) types path method d = .ok P) {a : Param}
    (ha : a ∈ P.op.params) (hf : Flagged P.paginated a) :
    ∃ p, DocFlag u types d p ∧ Describes p a ∧ a.name = sanitize u .snake p.name ∧ a.typ = .type (argType p) := by
  rcases param_counts hp ha with ⟨p, hc, hda, hn, ht⟩ | ⟨e, _, hb⟩
  · exact ⟨p, (flagged_iff hd hp hc hda hn).mp hf, hda, hn, ht⟩
  · obtain ⟨c, hk⟩ := (isBody_iff _).mp ((param_isBody hp ha).mpr hb)
    exact absurd hk (hf.1 c)

theorem flagged_doc (hd : PropsDistinct types) (hp : processOperation (sanitize u .snake) types path method d = .ok P) {p : DocParam}
    (hf : DocFlag u types d p) :
    ∃ a ∈ P.op.params, Flagged P.paginated a ∧ Describes p a ∧ a.name = sanitize u .snake p.name ∧ a.typ = .type (argType p) := by
  obtain ⟨a, ha, hda, hn, ht⟩ := counts_param hp hf.1
  exact ⟨a, ha, (flagged_iff hd hp hf.1 hda hn).mpr hf, hda, hn, ht⟩

/-- C88: exactly when there are flags for an operation that is understood. -/
theorem flags_iff (hd : PropsDistinct types) (hp : processOperation (sanitize u .snake) types path method d = .ok P) :
    (∃ args, cliArgs u ct P.paginated P.op.params = .ok args) ↔ FlagsDiffer u types d := by
  rw [C39_generates_iff]
  have hapi : ((P.op.params.filter (hasFlag P.paginated)).map Param.apiName).Nodup := by
    have := processOperation_apiNames hp
    refine this.sublist (List.Sublist.map _ ?_)
    have hf : P.op.params.filter (hasFlag P.paginated) =
        (P.op.params.filter fun p => location p.kind ≠ .body).filter (hasFlag P.paginated) := by
      rw [List.filter_filter]
      refine List.filter_congr fun a _ => ?_
      cases hfa : hasFlag P.paginated a with
      | false => rfl
      | true =>
        have := ((hasFlag_iff a).mp hfa).1
        cases hk : a.kind with
        | body c => exact absurd hk (this c)
        | _ => rfl
    rw [hf]
    exact List.filter_sublist
  have hsub : (∀ ps : List Param, ps.Sublist P.op.params → (∀ p ∈ ps, Flagged P.paginated p) →
      (ps.map fun p => toKebab u p.name).Nodup) ↔ ((P.op.params.filter (hasFlag P.paginated)).map fun p => toKebab u p.name).Nodup := by
    constructor
    · intro h
      exact h _ List.filter_sublist fun p hp => (hasFlag_iff p).mp (List.mem_filter.mp hp).2
    · intro h ps hs hf
      have hs' : ps.Sublist (P.op.params.filter (hasFlag P.paginated)) := by
        have := hs.filter (hasFlag P.paginated)
        rwa [List.filter_eq_self.mpr fun p hp => (hasFlag_iff p).mpr (hf p hp)] at this
      exact h.sublist (hs'.map _)
  rw [hsub, map_nodup_iff hapi]
  constructor
  · rintro ⟨_, h⟩ p q hpf hqf he
    obtain ⟨a, ha, hfa, hda, hna, _⟩ := flagged_doc hd hp hpf
    obtain ⟨b, hb, hfb, hdb, hnb, _⟩ := flagged_doc hd hp hqf
    have := h a (List.mem_filter.mpr ⟨ha, (hasFlag_iff a).mpr hfa⟩) b (List.mem_filter.mpr ⟨hb, (hasFlag_iff b).mpr hfb⟩)
      (by rw [hna, hnb]; exact he)
    rwa [hda.1, hdb.1] at this
  · intro h
    refine ⟨fun a ha hf => ?_, fun a ha b hb he => ?_⟩
    · obtain ⟨p, _, _, _, ht⟩ := doc_flagged hd hp ha hf
      exact ⟨_, ht⟩
    · obtain ⟨ha, hfa⟩ := List.mem_filter.mp ha
      obtain ⟨hb, hfb⟩ := List.mem_filter.mp hb
      obtain ⟨p, hpf, hda, hna, _⟩ := doc_flagged hd hp ha ((hasFlag_iff a).mp hfa)
      obtain ⟨q, hqf, hdb, hnb, _⟩ := doc_flagged hd hp hb ((hasFlag_iff b).mp hfb)
      rw [hda.1, hdb.1]
      refine h p q hpf hqf ?_
      unfold flagName
      rw [← hna, ← hnb]
      exact he

/-- C88: exactly when a command is generated for an operation that is understood. -/
theorem command_iff (hd : PropsDistinct types) (hp : processOperation (sanitize u .snake) types path method d = .ok P) :
    (∃ m, cliMethod u ct P.paginated P.op = .ok m) ↔ FlagsDiffer u types d ∧ OneKind d := by
  rw [← flags_iff (ct := ct) hd hp, ← kinds_iff hd hp]
  unfold cliMethod
  constructor
  · rintro ⟨m, h⟩
    obtain ⟨a, ha, h⟩ := bind_ok_inv h
    obtain ⟨k, hk, h⟩ := bind_ok_inv h
    exact ⟨⟨a, ha⟩, k, hk⟩
  · rintro ⟨⟨a, ha⟩, k, hk⟩
    refine ⟨(a, k), ?_⟩
    simp only [ha, hk, Res.bind_ok]
    rfl

/-! ## The flags of a command -/

/-- The flag of a property. -/
def flagOfProp (u : Unicode) (ct : CliTypes) (i : PropInfo) : Flag :=
  ⟨(ct.inner i.type).getD i.type, if i.required then .requiredIfNoBody else .optional, .prop (sanitize u .snake i.name)⟩

theorem propType_eq (i : PropInfo) : propType ct i = (ct.inner i.type).getD i.type := by
  unfold propType
  cases ct.inner i.type <;> rfl

theorem propArg_mem (args : Args) (i : PropInfo) (e : Str × Flag) : e ∈ (propArg u ct args i).flags ↔
    e ∈ args.flags ∨ (ct.fromStr (propType ct i) = true ∧ toKebab u i.name ∉ args.flags.map Prod.fst ∧
      e = (toKebab u i.name, flagOfProp u ct i)) := by
  unfold propArg
  simp only
  rw [← propType_eq]
  split
  · rename_i hc
    rw [Bool.and_eq_true, Option.isNone_iff_eq_none, get_none_iff] at hc
    rw [(BTree.insert_perm _ hc.2).mem_iff, List.mem_cons, or_comm]
    refine or_congr_right ?_
    unfold flagOfProp
    rw [← propType_eq]
    exact ⟨fun h => ⟨hc.1, hc.2, h⟩, fun h => h.2.2⟩
  · rename_i hc
    rw [Bool.and_eq_true, Option.isNone_iff_eq_none, get_none_iff] at hc
    have : e ∈ args.flags ↔ e ∈ args.flags ∨ (ct.fromStr (propType ct i) = true ∧ toKebab u i.name ∉ args.flags.map Prod.fst ∧
      e = (toKebab u i.name, flagOfProp u ct i)) := ⟨.inl, fun h => h.resolve_right fun h => hc ⟨h.1, h.2.1⟩⟩
    split <;> exact this

theorem propArg_keys (args : Args) (i : PropInfo) (n : Str) : n ∈ (propArg u ct args i).flags.map Prod.fst ↔
    n ∈ args.flags.map Prod.fst ∨ (ct.fromStr (propType ct i) = true ∧ n = toKebab u i.name) := by
  simp only [List.mem_map]
  constructor
  · rintro ⟨e, he, rfl⟩
    rcases (propArg_mem args i e).mp he with he | ⟨h1, _, rfl⟩
    · exact .inl ⟨e, he, rfl⟩
    · exact .inr ⟨h1, rfl⟩
  · rintro (⟨e, he, rfl⟩ | ⟨h1, rfl⟩)
    · exact ⟨e, (propArg_mem args i e).mpr (.inl he), rfl⟩
    · by_cases hk : toKebab u i.name ∈ args.flags.map Prod.fst
      · obtain ⟨e, he, hn⟩ := List.mem_map.mp hk
        exact ⟨e, (propArg_mem args i e).mpr (.inl he), hn⟩
      · exact ⟨_, (propArg_mem args i _).mpr (.inr ⟨h1, hk, rfl⟩), rfl⟩

theorem cliProps_mem (ps : List PropInfo) : ∀ (args : Args) (e : Str × Flag), e ∈ (ps.foldl (propArg u ct) args).flags ↔
    e ∈ args.flags ∨ ∃ pre i post, ps = pre ++ i :: post ∧ ct.fromStr (propType ct i) = true ∧
      toKebab u i.name ∉ args.flags.map Prod.fst ∧
      (∀ j ∈ pre, ct.fromStr (propType ct j) = true → toKebab u j.name ≠ toKebab u i.name) ∧
      e = (toKebab u i.name, flagOfProp u ct i) := by
  induction ps with
  | nil => intro args e; exact ⟨.inl, fun h => h.resolve_right fun ⟨pre, i, post, h, _⟩ => by cases pre <;> cases h⟩
  | cons i ps ih =>
    intro args e
    rw [List.foldl_cons, ih, propArg_mem]
    constructor
    · rintro ((h | ⟨h1, h2, rfl⟩) | ⟨pre, j, post, rfl, h1, h2, h3, rfl⟩)
      · exact .inl h
      · exact .inr ⟨[], i, ps, rfl, h1, h2, fun _ h => (by cases h), rfl⟩
      · rw [propArg_keys] at h2
        refine .inr ⟨i :: pre, j, post, rfl, h1, fun h => h2 (.inl h), fun k hk hf he => ?_, rfl⟩
        rcases List.mem_cons.mp hk with rfl | hk
        · exact h2 (.inr ⟨hf, he.symm⟩)
        · exact h3 k hk hf he
    · rintro (h | ⟨pre, j, post, hps, h1, h2, h3, rfl⟩)
      · exact .inl (.inl h)
      · cases pre with
        | nil =>
          cases hps
          exact .inl (.inr ⟨h1, h2, rfl⟩)
        | cons k pre =>
          cases hps
          refine .inr ⟨pre, j, post, rfl, h1, fun h => ?_, fun l hl => h3 l (List.mem_cons_of_mem _ hl), rfl⟩
          rcases (propArg_keys _ _ _).mp h with h | ⟨hf, he⟩
          · exact h2 h
          · exact h3 _ (by simp) hf he.symm

/-- The flags of a command are those of parameters and of properties of the body. -/
theorem command_flags {pg : Option Pagination} {params : List Param} {args : Args} (h : cliArgs u ct pg params = .ok args) :
    (∀ e ∈ args.flags, (∃ a ∈ params, Flagged pg a ∧ FlagOf u pg a e) ∨ ∃ t pre i post, Cli.bodyType params = some t ∧
      ct.props t = some (pre ++ i :: post) ∧ ct.fromStr (propType ct i) = true ∧
      (∀ a ∈ params, Flagged pg a → toKebab u a.name ≠ toKebab u i.name) ∧
      (∀ j ∈ pre, ct.fromStr (propType ct j) = true → toKebab u j.name ≠ toKebab u i.name) ∧
      e = (toKebab u i.name, flagOfProp u ct i)) ∧
    (∀ a ∈ params, Flagged pg a → ∃ e ∈ args.flags, FlagOf u pg a e) ∧
    (∀ t pre i post, Cli.bodyType params = some t → ct.props t = some (pre ++ i :: post) → ct.fromStr (propType ct i) = true →
      (∀ a ∈ params, Flagged pg a → toKebab u a.name ≠ toKebab u i.name) →
      (∀ j ∈ pre, ct.fromStr (propType ct j) = true → toKebab u j.name ≠ toKebab u i.name) →
      (toKebab u i.name, flagOfProp u ct i) ∈ args.flags) ∧
    (args.body = .none ↔ ∀ t, Cli.bodyType params ≠ some t) := by
  have hok := cliArgs_ok h
  unfold cliArgs at h
  obtain ⟨a0, h1, h2⟩ := bind_ok_inv h
  obtain ⟨fs, h3, h4, _, h6⟩ := paramArgs_ok h1 (by simp [BTree.Sorted])
  simp only [List.append_nil] at h4
  have h2 := Res.ok.inj h2
  have hto : ∀ e ∈ a0.flags, ∃ a ∈ params, Flagged pg a ∧ FlagOf u pg a e := by
    intro e he
    obtain ⟨a, ha, hf⟩ := forall₂_right h3 e (h4.mem_iff.mp he)
    obtain ⟨ha, hfl⟩ := List.mem_filter.mp ha
    exact ⟨a, ha, (hasFlag_iff a).mp hfl, hf⟩
  have hfrom : ∀ a ∈ params, Flagged pg a → ∃ e ∈ a0.flags, FlagOf u pg a e := by
    intro a ha hf
    obtain ⟨e, he, h⟩ := forall₂_mem h3 a (List.mem_filter.mpr ⟨ha, (hasFlag_iff a).mpr hf⟩)
    exact ⟨e, h4.mem_iff.mpr he, h⟩
  have hkeys : ∀ n, n ∉ a0.flags.map Prod.fst ↔ ∀ a ∈ params, Flagged pg a → toKebab u a.name ≠ n := by
    intro n
    constructor
    · intro hn a ha hf he
      obtain ⟨e, hem, hfl⟩ := hfrom a ha hf
      exact hn (List.mem_map.mpr ⟨e, hem, hfl.name.trans he⟩)
    · intro hall hn
      obtain ⟨e, hem, he⟩ := List.mem_map.mp hn
      obtain ⟨a, ha, hf, hfl⟩ := hto e hem
      exact hall a ha hf (hfl.name.symm.trans he)
  have hflags : ∀ e, e ∈ args.flags ↔ e ∈ a0.flags ∨ ∃ t pre i post, Cli.bodyType params = some t ∧
      ct.props t = some (pre ++ i :: post) ∧ ct.fromStr (propType ct i) = true ∧ toKebab u i.name ∉ a0.flags.map Prod.fst ∧
      (∀ j ∈ pre, ct.fromStr (propType ct j) = true → toKebab u j.name ≠ toKebab u i.name) ∧
      e = (toKebab u i.name, flagOfProp u ct i) := by
    intro e
    rw [← h2]
    cases hb : Cli.bodyType params with
    | none => exact ⟨.inl, fun h => h.resolve_right fun ⟨_, _, _, _, h, _⟩ => by cases h⟩
    | some t =>
      dsimp only
      unfold bodyArgs
      simp only
      cases hps : ct.props t with
      | none =>
        refine ⟨.inl, fun h => h.resolve_right fun ⟨t', _, _, _, h, h', _⟩ => ?_⟩
        cases h
        rw [hps] at h'
        cases h'
      | some ps =>
        dsimp only
        rw [cliProps_mem]
        refine or_congr_right ⟨?_, ?_⟩
        · rintro ⟨pre, i, post, rfl, hr⟩
          exact ⟨t, pre, i, post, rfl, hps, hr⟩
        · rintro ⟨t', pre, i, post, ht, hps', hr⟩
          cases ht
          rw [hps] at hps'
          cases hps'
          exact ⟨pre, i, post, rfl, hr⟩
  refine ⟨fun e he => ?_, fun a ha hf => ?_, fun t pre i post hb hps hf hk hpre => ?_, ?_⟩
  · rcases (hflags e).mp he with he | ⟨t, pre, i, post, g1, g2, g3, g4, g5, g6⟩
    · exact .inl (hto e he)
    · exact .inr ⟨t, pre, i, post, g1, g2, g3, (hkeys _).mp g4, g5, g6⟩
  · obtain ⟨e, he, hfl⟩ := hfrom a ha hf
    exact ⟨e, (hflags e).mpr (.inl he), hfl⟩
  · exact (hflags _).mpr (.inr ⟨t, pre, i, post, hb, hps, hf, (hkeys _).mpr hk, hpre, rfl⟩)
  · obtain ⟨_, -, -, -, h5⟩ := hok
    cases hb : Cli.bodyType params with
    | none =>
      rw [hb] at h5
      exact ⟨fun _ t h => (by cases h), fun _ => h5.1⟩
    | some t =>
      rw [hb] at h5
      refine ⟨fun hn => ?_, fun h => absurd rfl (h t)⟩
      cases hps : ct.props t with
      | none => simp only [hps] at h5; rw [h5.1] at hn; cases hn
      | some ps => simp only [hps] at h5; exact absurd hn h5.1

/-- Flags of properties, in terms of the document. -/
theorem propFlag_iff (hd : PropsDistinct types) (hp : processOperation (sanitize u .snake) types path method d = .ok P) (i : PropInfo) :
    DocPropFlag u types ct d i ↔ ∃ t pre post, Cli.bodyType P.op.params = some t ∧ ct.props t = some (pre ++ i :: post) ∧
      ct.fromStr (propType ct i) = true ∧ (∀ a ∈ P.op.params, Flagged P.paginated a → toKebab u a.name ≠ toKebab u i.name) ∧
      ∀ j ∈ pre, ct.fromStr (propType ct j) = true → toKebab u j.name ≠ toKebab u i.name := by
  have hn : (∀ p, DocFlag u types d p → flagName u p ≠ toKebab u i.name) ↔
      ∀ a ∈ P.op.params, Flagged P.paginated a → toKebab u a.name ≠ toKebab u i.name := by
    constructor
    · intro h a ha hf
      obtain ⟨p, hpf, _, hna, _⟩ := doc_flagged hd hp ha hf
      rw [hna]
      exact h p hpf
    · intro h p hpf
      obtain ⟨a, ha, hf, _, hna, _⟩ := flagged_doc hd hp hpf
      have := h a ha hf
      rwa [hna] at this
  unfold DocPropFlag
  rw [hn]
  simp only [cli_bodyType_iff hp]

theorem commandFlag_iff (hd : PropsDistinct types) (hp : processOperation (sanitize u .snake) types path method d = .ok P) {args : Args}
    (h : cliArgs u ct P.paginated P.op.params = .ok args) (n : Str) (t : Params.TypeId) :
    CommandFlag u types ct d n t ↔ ∃ e ∈ args.flags, e.1 = n ∧ e.2.type = t := by
  obtain ⟨h1, h2, h3, -⟩ := command_flags h
  constructor
  · rintro (⟨p, hpf⟩ | ⟨i, hi⟩)
    · obtain ⟨a, ha, hf, _, hna, hta⟩ := flagged_doc hd hp hpf
      obtain ⟨e, he, hfl⟩ := h2 a ha hf
      refine ⟨e, he, ?_, ?_⟩
      · rw [hfl.name, hna]; rfl
      · have := hfl.type
        rw [hta] at this
        exact (PType.type.inj this).symm
    · obtain ⟨t, pre, post, g1, g2, g3, g4, g5⟩ := (propFlag_iff hd hp i).mp hi
      exact ⟨_, h3 t pre i post g1 g2 g3 g4 g5, rfl, (propType_eq i).symm⟩
  · rintro ⟨e, he, rfl, rfl⟩
    rcases h1 e he with ⟨a, ha, hf, hfl⟩ | ⟨t, pre, i, post, g1, g2, g3, g4, g5, rfl⟩
    · obtain ⟨p, hpf, _, hna, hta⟩ := doc_flagged hd hp ha hf
      have ht := hfl.type
      rw [hta] at ht
      have ht := PType.type.inj ht
      rw [← ht, hfl.name, hna]
      exact .param p hpf
    · have := CommandFlag.prop (u := u) (types := types) (ct := ct) (d := d) i ((propFlag_iff hd hp i).mpr ⟨t, pre, post, g1, g2, g3, g4, g5⟩)
      rwa [propType_eq] at this

theorem nested_iff (tt : TypeTable B) (a : Param) : (match Builder.initField tt a with
    | .nested _ => true
    | _ => false) = true ↔ ∃ tb, HasBuilder tt a tb := by
  unfold Builder.initField HasBuilder
  cases ht : a.typ with
  | rawBody => simp
  | type t =>
    dsimp only
    cases hk : a.kind <;> cases hb : tt.builder t <;> simp only [isBody] <;> (try split) <;> simp_all <;>
      (rename_i h; split at h <;> cases h)

/-- C88: exactly when the functions for a command compile. -/
theorem command_sound_iff (hd : PropsDistinct types) (hp : processOperation (sanitize u .snake) types path method d = .ok P)
    {args : Args} (h : cliArgs u ct P.paginated P.op.params = .ok args) (tt : TypeTable B) :
    cliCompiles ct tt P.op.params args = true ↔ CommandSound u types ct tt d := by
  obtain ⟨h1, h2, h3, -⟩ := command_flags h
  have hset : ∀ s, consumerOk tt P.op.params (.param s) = true ↔ (∃ q, Counts d q ∧ sanitize u .snake q.name = s) ∨
      ((∃ t, TypedBody d t) ∧ s = "body".toList) := by
    intro s
    unfold consumerOk
    simp only [List.any_eq_true, Bool.and_eq_true, decide_eq_true_eq]
    constructor
    · rintro ⟨a, ha, rfl, hr⟩
      rcases param_counts hp ha with ⟨q, hq, _, hn, _⟩ | ⟨e, _, hb⟩
      · exact .inl ⟨q, hq, hn.symm⟩
      · refine .inr ⟨?_, (body_shape hb a rfl).1⟩
        cases ht : a.typ with
        | rawBody => exact absurd ht hr
        | type t => exact ⟨t, (body_typed_iff hb t).mp ht⟩
    · rintro (⟨q, hq, rfl⟩ | ⟨⟨t, ht⟩, rfl⟩)
      · obtain ⟨a, ha, _, hn, hta⟩ := counts_param hp hq
        exact ⟨a, ha, hn, by rw [hta]; simp⟩
      · have ⟨_, _, _, _, hb, _⟩ := ht
        obtain ⟨a, ha, hba⟩ := body_param hp hb
        refine ⟨a, ha, (body_shape hba a rfl).1, ?_⟩
        rw [(body_typed_iff hba t).mpr ht]
        simp
  have hprop : ∀ s, consumerOk tt P.op.params (.prop s) = true ↔ BodyStruct tt d := by
    intro s
    unfold consumerOk
    rw [← body_struct_iff hp]
    simp only [List.any_eq_true, Bool.and_eq_true, decide_eq_true_eq]
    constructor
    · rintro ⟨a, ha, _, hi⟩
      exact ⟨a, ha, (nested_iff tt a).mp hi⟩
    · rintro ⟨a, ha, hi⟩
      have ⟨_, _, c, _, hk, _⟩ := hi
      exact ⟨a, ha, (processOperation_inv hp).1 a ha c hk, (nested_iff tt a).mpr hi⟩
  unfold cliCompiles
  simp only [List.all_eq_true, Bool.and_eq_true]
  constructor
  · intro hall
    refine ⟨fun n t hc => ?_, fun p hpf => ?_, fun i hi => ?_⟩
    · obtain ⟨e, he, _, rfl⟩ := (commandFlag_iff hd hp h n t).mp hc
      exact (hall e he).2
    · obtain ⟨a, ha, hf, _, hna, _⟩ := flagged_doc hd hp hpf
      obtain ⟨e, he, hfl⟩ := h2 a ha hf
      have := (hall e he).1
      rw [hfl.setter, hset, hna] at this
      exact this
    · obtain ⟨t, pre, post, g1, g2, g3, g4, g5⟩ := (propFlag_iff hd hp i).mp hi
      have := (hall _ (h3 t pre i post g1 g2 g3 g4 g5)).1
      exact (hprop _).mp this
  · rintro ⟨k1, k2, k3⟩ e he
    refine ⟨?_, k1 e.1 e.2.type ((commandFlag_iff hd hp h _ _).mpr ⟨e, he, rfl, rfl⟩)⟩
    rcases h1 e he with ⟨a, ha, hf, hfl⟩ | ⟨t, pre, i, post, g1, g2, g3, g4, g5, rfl⟩
    · obtain ⟨p, hpf, _, hna, _⟩ := doc_flagged hd hp ha hf
      rw [hfl.setter, hset, hna]
      exact k2 p hpf
    · exact (hprop _).mpr (k3 i ((propFlag_iff hd hp i).mpr ⟨t, pre, post, g1, g2, g3, g4, g5⟩))

/-- C88: exactly when `clap` accepts the arguments of a command. -/
theorem arguments_iff (hd : PropsDistinct types) (hp : processOperation (sanitize u .snake) types path method d = .ok P)
    {args : Args} (h : cliArgs u ct P.paginated P.op.params = .ok args) : (clapNames args).Nodup ↔ ArgumentsSound u types ct d := by
  obtain ⟨-, -, -, hb⟩ := command_flags h
  rw [C79_names_iff, C39_names_iff h, hb]
  simp only [ne_eq, cli_bodyType_iff hp]
  constructor
  · rintro ⟨h1, h2⟩
    refine ⟨fun n t hc => ?_, fun n t hc ⟨t', ht'⟩ => ?_⟩
    · obtain ⟨e, he, rfl, _⟩ := (commandFlag_iff hd hp h n t).mp hc
      exact h2 e he
    · obtain ⟨e, he, rfl, _⟩ := (commandFlag_iff hd hp h n t).mp hc
      rcases h1 with h1 | h1
      · exact absurd ht' (h1 t')
      · exact h1 e he
  · rintro ⟨h1, h2⟩
    refine ⟨?_, fun e he => h1 e.1 e.2.type ((commandFlag_iff hd hp h _ _).mpr ⟨e, he, rfl, rfl⟩)⟩
    by_cases hx : ∃ t, TypedBody d t
    · exact .inr fun e he => h2 e.1 e.2.type ((commandFlag_iff hd hp h _ _).mpr ⟨e, he, rfl, rfl⟩) hx
    · exact .inl fun t ht => hx ⟨t, ht⟩

/-! ## Documents -/

theorem cli_parts {ms : List Processed} {as : List (Args × Resp.Kind × Resp.Kind)} {d : Document} :
    cli u types ct d = .ok (ms, as) ↔ rawMethods u types d = .ok ms ∧ cliAll u ct ms = .ok as := by
  unfold cli
  constructor
  · intro h
    obtain ⟨ms', hm, h⟩ := bind_ok_inv h
    obtain ⟨ts', ht, h⟩ := bind_ok_inv h
    cases h
    exact ⟨hm, ht⟩
  · rintro ⟨hm, ht⟩
    simp only [hm, Res.bind_ok, ht]
    rfl

theorem docFlag_id {id : Str} {p : DocParam} : DocFlag u types { d with operationId := id } p ↔ DocFlag u types d p := by
  unfold DocFlag
  rw [paged_id]
  exact Iff.rfl

theorem flagsDiffer_id {id : Str} : FlagsDiffer u types { d with operationId := id } ↔ FlagsDiffer u types d := by
  unfold FlagsDiffer
  simp only [docFlag_id]

theorem oneKind_id {id : Str} : OneKind { d with operationId := id } ↔ OneKind d :=
  ⟨fun ⟨a, b⟩ => ⟨fun s k s' k' h h' => a s k s' k' (listed_id.mpr h) (listed_id.mpr h'),
      fun s k s' k' h h' => b s k s' k' (listed_id.mpr h) (listed_id.mpr h')⟩,
   fun ⟨a, b⟩ => ⟨fun s k s' k' h h' => a s k s' k' (listed_id.mp h) (listed_id.mp h'),
      fun s k s' k' h h' => b s k s' k' (listed_id.mp h) (listed_id.mp h')⟩⟩

theorem docPropFlag_id {id : Str} {i : PropInfo} : DocPropFlag u types ct { d with operationId := id } i ↔ DocPropFlag u types ct d i := by
  unfold DocPropFlag
  simp only [docFlag_id]
  exact Iff.rfl

theorem commandFlag_id {id : Str} {n : Str} {t : Params.TypeId} :
    CommandFlag u types ct { d with operationId := id } n t ↔ CommandFlag u types ct d n t := by
  constructor
  · rintro (⟨p, h⟩ | ⟨i, h⟩)
    · exact .param p (docFlag_id.mp h)
    · exact .prop i (docPropFlag_id.mp h)
  · rintro (⟨p, h⟩ | ⟨i, h⟩)
    · exact .param p (docFlag_id.mpr h)
    · exact .prop i (docPropFlag_id.mpr h)

theorem commandSound_id {id : Str} {tt : TypeTable B} :
    CommandSound u types ct tt { d with operationId := id } ↔ CommandSound u types ct tt d :=
  ⟨fun ⟨a, b, c⟩ => ⟨fun n t h => a n t (commandFlag_id.mpr h), fun p h => b p (docFlag_id.mpr h), fun i h => c i (docPropFlag_id.mpr h)⟩,
   fun ⟨a, b, c⟩ => ⟨fun n t h => a n t (commandFlag_id.mp h), fun p h => b p (docFlag_id.mp h), fun i h => c i (docPropFlag_id.mp h)⟩⟩

theorem argumentsSound_id {id : Str} :
    ArgumentsSound u types ct { d with operationId := id } ↔ ArgumentsSound u types ct d :=
  ⟨fun ⟨a, b⟩ => ⟨fun n t h => a n t (commandFlag_id.mpr h), fun n t h => b n t (commandFlag_id.mpr h)⟩,
   fun ⟨a, b⟩ => ⟨fun n t h => a n t (commandFlag_id.mp h), fun n t h => b n t (commandFlag_id.mp h)⟩⟩

/-- C88: a command line is generated exactly for the valid documents all of whose operations are understood, with one kind of success,
one kind of error, and different flags for different parameters. -/
theorem C88_generates_iff (h : Lawful u) (hd : PropsDistinct types) (ct : CliTypes) (d : Document) :
    (∃ r, cli u types ct d = .ok r) ↔
      ValidDoc u d ∧ ∀ path m o, (path, m, o) ∈ routes d → Understood types path m o.op ∧ FlagsDiffer u types o.op ∧ OneKind o.op := by
  have hvalid : (∃ x, validate u d = .ok x) ↔ ValidDoc u d := by rw [← isOk_iff]; exact C44_validate_iff h d
  have hsplit : (∃ r, cli u types ct d = .ok r) ↔
      ValidDoc u d ∧ ∃ ms as, processAll u types (routes d) = .ok ms ∧ cliAll u ct ms = .ok as := by
    rw [← hvalid]
    constructor
    · rintro ⟨⟨ms, as⟩, hr⟩
      obtain ⟨hm, ht⟩ := cli_parts.mp hr
      obtain ⟨x, hx, hm⟩ := bind_ok_inv hm
      rw [routes_eq] at hm
      exact ⟨⟨x, hx⟩, ms, as, hm, ht⟩
    · rintro ⟨⟨x, hx⟩, ms, as, hm, ht⟩
      refine ⟨(ms, as), cli_parts.mpr ⟨?_, ht⟩⟩
      unfold rawMethods
      simp only [hx, Res.bind_ok, routes_eq, hm]
  rw [hsplit]
  refine and_congr_right fun hv => ?_
  rw [each_iff (u := u) (types := types) (f := fun p => cliMethod u ct p.paginated p.op) (F := cliAll u ct) rfl (fun _ _ => rfl) (routes d)]
  constructor
  · intro hall path m o ho
    obtain ⟨id, hid⟩ := validDoc_id hv ho
    obtain ⟨P, c, hP, hc⟩ := hall _ ho
    rw [processOne_eq hid] at hP
    have := (command_iff hd hP).mp ⟨c, hc⟩
    rw [flagsDiffer_id, oneKind_id] at this
    exact ⟨understood_id.mp ((understood_iff hd _ path m _).mp ⟨P, hP⟩), this⟩
  · rintro hall ⟨path, m, o⟩ ho
    obtain ⟨id, hid⟩ := validDoc_id hv ho
    obtain ⟨h1, h2, h3⟩ := hall path m o ho
    obtain ⟨P, hP⟩ := (understood_iff hd (sanitize u .snake) path m { o.op with operationId := id }).mpr (understood_id.mpr h1)
    obtain ⟨c, hc⟩ := (command_iff (ct := ct) hd hP).mpr ⟨flagsDiffer_id.mpr h2, oneKind_id.mpr h3⟩
    exact ⟨P, c, by rw [processOne_eq hid]; exact hP, hc⟩

/-- C88: if there is a client, there is a command line exactly if different parameters have different flags. -/
theorem C88_client_iff (h : Lawful u) (hd : PropsDistinct types) (ct : CliTypes) {tt : TypeTable B} {i : Interface} {t : TagStyle}
    {d : Document} (hg : ∃ r, generate u types tt i t d = .ok r) :
    (∃ r, cli u types ct d = .ok r) ↔ ∀ o ∈ opsOf d, FlagsDiffer u types o.op := by
  obtain ⟨hv, _, hs⟩ := (C85_generates_iff h types tt i t d).mp hg
  rw [C88_generates_iff h hd]
  constructor
  · rintro ⟨_, hall⟩ o ho
    obtain ⟨path, m, hr⟩ := route_op ho
    exact (hall path m o hr).2.1
  · intro hall
    refine ⟨hv, fun path m o ho => ⟨supported_understood hd (hs path m o ho).1, hall o (op_route ho), ?_⟩⟩
    have := (hs path m o ho).1.responses
    exact ⟨this.successes, this.errors⟩

/-- C88: if there is a client and parameters have ASCII names that differ in Rust, there is a command line. -/
theorem C88_ascii (h : Lawful u) (hd : PropsDistinct types) (ct : CliTypes) {tt : TypeTable B} {i : Interface} {t : TagStyle}
    {d : Document} (hg : ∃ r, generate u types tt i t d = .ok r)
    (hn : ∀ o ∈ opsOf d, (∀ p, Counts o.op p → Ascii p.name) ∧
      ∀ p q, Counts o.op p → Counts o.op q → sanitize u .snake p.name = sanitize u .snake q.name → p.name = q.name) :
    ∃ r, cli u types ct d = .ok r := by
  refine (C88_client_iff h hd ct hg).mpr fun o ho p q hp hq he => ?_
  exact (hn o ho).2 p q hp.1 hq.1 (kebab_inj h ((hn o ho).1 p hp.1) ((hn o ho).1 q hq.1) he)

/-- The functions for commands are there, and so are the methods of the client. -/
theorem cli_names_iff (hd : PropsDistinct types) (tt : TypeTable B) (inner : Bool) (t : TagStyle) {d : Document} {ms : List Processed}
    (hm : rawMethods u types d = .ok ms) (hv : ((opsOf d).map RawOperation.id).Nodup)
    (hsup : ∀ o ∈ opsOf d, ∀ q, Counts o.op q → ParamSupported q) :
    (itemsOk u (ms.map fun p => p.op.operationId) = true ∧ ∀ p ∈ ms, Reaches (callee inner t ms p) p) ↔ CliNames u inner t d := by
  have hfit := names_fit hd tt hm hsup
  have hids : ms.map (fun p => p.op.operationId) = (opsOf d).map (Spec.methodName u) := by
    rw [methods_ids (rawMethods_ok hm).2, ← operations_ops, List.map_map]
    rfl
  have hitems : itemsOk u (ms.map fun p => p.op.operationId) = true ↔
      (∀ o ∈ opsOf d, ∃ o' ∈ opsOf d, Spec.methodName u o' = sanitize u .snake (Spec.methodName u o)) ∧
      ∀ o ∈ opsOf d, ∀ o' ∈ opsOf d, builderName u o = builderName u o' → o.id = o'.id := by
    rw [C69_items_iff, hids, ← map_nodup_iff (f := builderName u) hv]
    refine and_congr ?_ ?_
    · constructor
      · intro hx o ho
        obtain ⟨o', ho', e⟩ := List.mem_map.mp (hx _ (List.mem_map_of_mem ho))
        exact ⟨o', ho', e⟩
      · intro hx id hid
        obtain ⟨o, ho, rfl⟩ := List.mem_map.mp hid
        obtain ⟨o', ho', e⟩ := hx o ho
        exact List.mem_map.mpr ⟨o', ho', e⟩
    · unfold List.Nodup
      rw [List.pairwise_map, List.pairwise_map]
      exact Iff.rfl
  have hreach : (ms.map fun p => p.op.operationId).Nodup → ((∀ p ∈ ms, Reaches (callee inner t ms p) p) ↔
      ((∀ o ∈ opsOf d, ¬ ClientName inner (Spec.methodName u o)) ∧
       ∀ o ∈ opsOf d, Spec.methodName u o ≠ "into".toList ∧ Spec.methodName u o ≠ "try_into".toList) ∧
      (t = .separate → ∀ o ∈ opsOf d, ∀ a ∈ o.op.tags, ∀ b ∈ o.op.tags, a = b) ∧
      (t = .separate → ∀ o ∈ opsOf d, o.op.tags ≠ [] → Spec.methodName u o ≠ "clone".toList ∧
        Spec.methodName u o ≠ "clone_into".toList ∧ Spec.methodName u o ≠ "to_owned".toList)) := by
    intro hn
    have hone : ∀ p ∈ ms, (Reaches (callee inner t ms p) p ↔ NotStandard (t = .separate ∧ p.op.tags ≠ []) p.op.operationId ∧
        p.op.operationId ∉ clientOwn inner ∧ (t = .separate → ∀ a ∈ p.op.tags, ∀ b ∈ p.op.tags, a = b)) := by
      intro p hp
      cases t with
      | separate =>
        rw [show callee inner .separate ms p = resolve inner p.op.operationId (builderTags ms ([], [])) from rfl, C65_reaches_iff hn inner hp]
        simp
      | merged =>
        rw [show callee inner .merged ms p = resolve inner p.op.operationId (ms, []) from rfl, C65_merged_iff hn inner hp]
        simp [NotStandard]
    constructor
    · intro hall
      refine ⟨⟨fun o ho => ?_, fun o ho => ?_⟩, fun ht o ho => ?_, fun ht o ho htg => ?_⟩
      · obtain ⟨p, hp, hnf⟩ := forall₂_left hfit o ho
        rw [← clientOwn_iff, ← hnf.1]
        exact ((hone p hp).mp (hall p hp)).2.1
      · obtain ⟨p, hp, hnf⟩ := forall₂_left hfit o ho
        rw [← hnf.1]
        exact ((hone p hp).mp (hall p hp)).1.1
      · obtain ⟨p, hp, hnf⟩ := forall₂_left hfit o ho
        rw [← hnf.2.1]
        exact ((hone p hp).mp (hall p hp)).2.2 ht
      · obtain ⟨p, hp, hnf⟩ := forall₂_left hfit o ho
        rw [← hnf.1]
        rw [← hnf.2.1] at htg
        exact ((hone p hp).mp (hall p hp)).1.2 ⟨ht, htg⟩
    · rintro ⟨⟨h1, h3⟩, h2, h4⟩ p hp
      obtain ⟨o, ho, hnf⟩ := forall₂_right hfit p hp
      refine (hone p hp).mpr ⟨⟨?_, fun ht => ?_⟩, ?_, fun ht => ?_⟩
      · rw [hnf.1]
        exact h3 o ho
      · rw [hnf.1]
        rw [hnf.2.1] at ht
        exact h4 ht.1 o ho ht.2
      · rw [hnf.1, clientOwn_iff]
        exact h1 o ho
      · rw [hnf.2.1]
        exact h2 ht o ho
  constructor
  · rintro ⟨h1, h2⟩
    have hn : (ms.map fun p => p.op.operationId).Nodup := by
      have := ((C69_items_iff _).mp h1).2
      exact this.imp fun {a b} hx (he : a = b) => hx (by rw [he])
    obtain ⟨h3, h4⟩ := hitems.mp h1
    obtain ⟨⟨h5, h6⟩, h7, h8⟩ := (hreach hn).mp h2
    exact ⟨h3, h4, h5, h6, h7, h8⟩
  · rintro ⟨h3, h4, h5, h6, h7, h8⟩
    have h1 := hitems.mpr ⟨h3, h4⟩
    have hn : (ms.map fun p => p.op.operationId).Nodup := by
      have := ((C69_items_iff _).mp h1).2
      exact this.imp fun {a b} hx (he : a = b) => hx (by rw [he])
    exact ⟨h1, (hreach hn).mpr ⟨⟨h5, h6⟩, h7, h8⟩⟩

/-- What holds for each command. -/
theorem commands_iff {d : Document} {ms : List Processed} {as : List (Args × Resp.Kind × Resp.Kind)} (hg : cli u types ct d = .ok (ms, as))
    {Q : Processed → Args → Prop} {S : DocOperation → Prop} (hid : ∀ o id, S { o with operationId := id } ↔ S o)
    (hq : ∀ {path m o P a}, processOperation (sanitize u .snake) types path m o = .ok P → cliArgs u ct P.paginated P.op.params = .ok a →
      (Q P a ↔ S o)) :
    (∀ p a, (p, a) ∈ ms.zip as → Q p a.1) ↔ ∀ o ∈ opsOf d, S o.op := by
  obtain ⟨hm, ht⟩ := cli_parts.mp hg
  have hall := (rawMethods_ok hm).2
  rw [routes_eq] at hall
  have hargs : ∀ {p : Processed} {m}, cliMethod u ct p.paginated p.op = .ok m → cliArgs u ct p.paginated p.op.params = .ok m.1 := by
    intro p m h
    unfold cliMethod at h
    obtain ⟨a, ha, h⟩ := bind_ok_inv h
    obtain ⟨k, _, h⟩ := bind_ok_inv h
    cases h
    exact ha
  rw [each_pairs (f := fun p => cliMethod u ct p.paginated p.op) (F := cliAll u ct) (Q := fun p a => Q p a.1)
    rfl (fun _ _ => rfl) hall ht]
  have hex := (each_iff (u := u) (types := types) (f := fun p => cliMethod u ct p.paginated p.op) (F := cliAll u ct) rfl (fun _ _ => rfl)
    (routes d)).mp ⟨ms, as, hall, ht⟩
  constructor
  · intro hqq o ho
    obtain ⟨path, m, hr⟩ := route_op ho
    obtain ⟨p, a, hp, ha⟩ := hex _ hr
    obtain ⟨id, _, hpo⟩ := processOne_of hp
    exact (hid _ _).mp ((hq hpo (hargs ha)).mp (hqq _ hr p a hp ha))
  · rintro hs ⟨path, m, o⟩ ho p a hp ha
    obtain ⟨id, _, hpo⟩ := processOne_of hp
    exact (hq hpo (hargs ha)).mpr ((hid _ _).mpr (hs o (op_route ho)))

/-- The command line compiles, for a client in the builder style. -/
def CliCompiles (u : Unicode) (types : Types) (ct : CliTypes) (tt : TypeTable B) (inner : Bool) (t : TagStyle) (d : Document) : Prop :=
  ∃ ms as, cli u types ct d = .ok (ms, as) ∧ itemsOk u (ms.map fun p => p.op.operationId) = true ∧
    (∀ p ∈ ms, Reaches (callee inner t ms p) p) ∧ ∀ p a, (p, a) ∈ ms.zip as → cliCompiles ct tt p.op.params a.1 = true

/-- C88: exactly these documents give a command line that compiles. -/
theorem C88_compiles_iff (h : Lawful u) (hd : PropsDistinct types) (ct : CliTypes) (tt : TypeTable B) (inner : Bool) (t : TagStyle)
    (d : Document) : CliCompiles u types ct tt inner t d ↔
      ValidDoc u d ∧ CliNames u inner t d ∧ ∀ path m o, (path, m, o) ∈ routes d →
        Understood types path m o.op ∧ FlagsDiffer u types o.op ∧ OneKind o.op ∧ CommandSound u types ct tt o.op := by
  have hgen := C88_generates_iff h hd ct d
  have key : ∀ ms as, cli u types ct d = .ok (ms, as) → ValidDoc u d →
      (∀ path m o, (path, m, o) ∈ routes d → Understood types path m o.op) →
      ((itemsOk u (ms.map fun p => p.op.operationId) = true ∧ ∀ p ∈ ms, Reaches (callee inner t ms p) p) ↔ CliNames u inner t d) ∧
      ((∀ p a, (p, a) ∈ ms.zip as → cliCompiles ct tt p.op.params a.1 = true) ↔ ∀ o ∈ opsOf d, CommandSound u types ct tt o.op) := by
    intro ms as hg hv hund
    refine ⟨cli_names_iff hd tt inner t (cli_parts.mp hg).1 hv.distinct fun o ho => ?_, ?_⟩
    · obtain ⟨path, m, hr⟩ := route_op ho
      exact (hund path m o hr).params
    · exact commands_iff hg (Q := fun p a => cliCompiles ct tt p.op.params a = true) (S := CommandSound u types ct tt)
        (fun _ _ => commandSound_id) fun hp ha => command_sound_iff hd hp ha tt
  constructor
  · rintro ⟨ms, as, hg, hi, hr, hc⟩
    obtain ⟨hv, hops⟩ := hgen.mp ⟨_, hg⟩
    obtain ⟨k1, k2⟩ := key ms as hg hv fun path m o ho => (hops path m o ho).1
    exact ⟨hv, k1.mp ⟨hi, hr⟩, fun path m o ho =>
      ⟨(hops path m o ho).1, (hops path m o ho).2.1, (hops path m o ho).2.2, k2.mp hc o (op_route ho)⟩⟩
  · rintro ⟨hv, hn, hops⟩
    obtain ⟨⟨ms, as⟩, hg⟩ := hgen.mpr ⟨hv, fun path m o ho => ⟨(hops path m o ho).1, (hops path m o ho).2.1, (hops path m o ho).2.2.1⟩⟩
    obtain ⟨k1, k2⟩ := key ms as hg hv fun path m o ho => (hops path m o ho).1
    obtain ⟨hi, hr⟩ := k1.mpr hn
    refine ⟨ms, as, hg, hi, hr, k2.mpr fun o ho => ?_⟩
    obtain ⟨path, m, hro⟩ := route_op ho
    exact (hops path m o hro).2.2.2

/-- C88: exactly when `clap` accepts the arguments of all commands. -/
theorem C88_arguments_iff (hd : PropsDistinct types) {d : Document} {ms : List Processed} {as : List (Args × Resp.Kind × Resp.Kind)}
    (hg : cli u types ct d = .ok (ms, as)) :
    (∀ p a, (p, a) ∈ ms.zip as → (clapNames a.1).Nodup) ↔ ∀ o ∈ opsOf d, ArgumentsSound u types ct o.op :=
  commands_iff hg (Q := fun _ a => (clapNames a).Nodup) (S := ArgumentsSound u types ct)
    (fun _ _ => argumentsSound_id) fun hp ha => arguments_iff hd hp ha

/-! ## Examples -/

/-- The client in the builder style compiles. -/
def BuilderClientCompiles (u : Unicode) (types : Types) (tt : TypeTable B) (t : TagStyle) (d : Document) : Prop :=
  ∀ (P V : Type) (inner : Bool) (cfg : Exec.Config) (hooks : Exec.Hooks) (w : Exec.World)
    (decode : Params.TypeId → Bytes → Except P V) (hist : List Exec.Event),
    ∃ ms cs, generate u types tt .builder t d = .ok (ms, cs) ∧ namesOk u tt inner .builder t ms = true ∧
      ∀ p c, (p, c) ∈ ms.zip cs → BuilderCompiles cfg hooks w decode hist types tt p c

namespace CliDocExample

open AcceptExample CompileExample MockExample

/-- An operation with parameters, tags, and no response. -/
def tagged (tags : List Str) (params : List DocParam) : DocOperation :=
  { small false params [(.code 204, RespExample.noContent)] with tags := tags }

theorem tagged_client {tags : List Str} {params : List DocParam} {t : TagStyle}
    (hg : (generate exUnicode noTypes noBuilders .builder t (docAt "/".toList (tagged tags params))).isOk = true)
    (hm : MethodSound (sanitize exUnicode .snake) "/".toList "get".toList (tagged tags params))
    (hb : BuilderSound (sanitize exUnicode .snake) noBuilders False (tagged tags params))
    (hn : tags.Nodup) (ht : ∀ a ∈ tags, ∀ b ∈ tags, sanitize exUnicode .pascal a = sanitize exUnicode .pascal b → a = b) :
    BuilderClientCompiles exUnicode noTypes noBuilders t (docAt "/".toList (tagged tags params)) := by
  obtain ⟨hv, _, hs⟩ := (C85_generates_iff exUnicode_lawful _ _ _ _ _).mp ((isOk_iff _).mp hg)
  have hops : ∀ o ∈ opsOf (docAt "/".toList (tagged tags params)), o = ⟨some "get_it".toList, tagged tags params⟩ := by
    intro o ho
    simpa [opsOf, docAt] using ho
  have hpaged : ¬ Paged noTypes (tagged tags params) := fun h => h.extension rfl
  have hname : builderName exUnicode ⟨some "get_it".toList, tagged tags params⟩ = "GetIt".toList := by
    show sanitize exUnicode .pascal (sanitize exUnicode .snake "get_it".toList) = _
    decide +kernel
  intro P V inner cfg hooks w decode hist
  refine (C86_builder_client_iff exUnicode_lawful (fun t props h => by cases h) noBuilders (fun t tb h => by cases h) inner _ _ cfg hooks w
    decode hist).mpr ⟨hv, ⟨?_, ?_, ?_, ?_, ?_, ?_⟩, fun path' m o ho => ⟨(hs path' m o ho).1, ?_⟩⟩
  · intro o ho _
    rw [hops o ho, ← clientOwn_iff]
    show sanitize exUnicode .snake "get_it".toList ∉ clientOwn inner
    revert inner
    decide +kernel
  · intro o ho o' ho' _
    rw [hops o ho, hops o' ho']
  · intro o ho
    rw [hops o ho, hname]
    decide +kernel
  · intro o ho o' ho' x hx
    rw [hops o ho, hname]
    cases hx <;> decide +kernel
  · intro _ o ho
    rw [hops o ho]
    exact hn
  · intro _ o ho o' ho'
    rw [hops o ho, hops o' ho']
    exact ht
  · obtain ⟨rfl, rfl, rfl⟩ := docAt_routes ho
    exact ⟨hm, ⟨hb.new, hb.send, fun hp => absurd hp hpaged, fun hp => absurd hp hpaged, hb.map, hb.plain⟩, fun hpg => absurd hpg hpaged⟩

/-- One parameter in the query. -/
def one (name : String) (t : Nat) : DocParam := ⟨name.toList, .query true none, true, true, t⟩

theorem one_counts {tags name t} {Q : DocParam → Prop} (h : Q (one name t)) : ∀ p, Counts (tagged tags [one name t]) p → Q p :=
  counts_all _ fun p hp => by
    have : p = one name t := by simpa [tagged, small, combined, parameterMap, BTree.insertAll, BTree.insert, BTree.values] using hp
    rw [this]; exact h

theorem counts_one {tags name t} : Counts (tagged tags [one name t]) (one name t) :=
  (counts_iff _ _).mp (by simp [tagged, small, combined, parameterMap, BTree.insertAll, BTree.insert, BTree.values])

theorem one_same {tags name t} : ∀ p q, Counts (tagged tags [one name t]) p → Counts (tagged tags [one name t]) q →
    sanitize exUnicode .snake p.name = sanitize exUnicode .snake q.name → p.name = q.name := by
  intro p q hp hq _
  have key := one_counts (tags := tags) (name := name) (t := t) (Q := fun p => p.name = name.toList) rfl
  rw [key p hp, key q hq]

theorem one_client {name : String} {t : Nat} {style : TagStyle}
    (hg : (generate exUnicode noTypes noBuilders .builder style (docAt "/".toList (tagged [] [one name t]))).isOk = true)
    (hc : MethodSound (sanitize exUnicode .snake) "/".toList "get".toList (tagged [] [one name t]))
    (hb : BuilderSound (sanitize exUnicode .snake) noBuilders False (tagged [] [one name t])) :
    BuilderClientCompiles exUnicode noTypes noBuilders style (docAt "/".toList (tagged [] [one name t])) :=
  tagged_client hg hc hb List.nodup_nil (fun a ha => (by cases ha))

end CliDocExample

open AcceptExample MockExample CliDocExample

/-- A table of types: 7 is a struct with a name, an optional size, and something that cannot be given as text. -/
def exCliTypes : CliTypes :=
  ⟨fun t => if t = 7 then some [⟨"name".toList, true, 3⟩, ⟨"size".toList, false, 4⟩, ⟨"more".toList, false, 6⟩] else none,
   fun t => if t = 4 then some 5 else none, fun t => t ≠ 6, fun t => t ≠ 6, fun _ => none⟩

/-- A command line that compiles, for a document with pages, parameters and a body. -/
theorem doc_cli (inner : Bool) (t : TagStyle) :
    CliCompiles exUnicode pageTypes exCliTypes CompileExample.table inner t (CompileExample.doc "put_thing".toList) := by
  have hg : ∃ r, generate exUnicode pageTypes CompileExample.table .positional .merged (CompileExample.doc "put_thing".toList) = .ok r :=
    (isOk_iff _).mp (by decide +kernel)
  obtain ⟨hv, _, hs⟩ := (C85_generates_iff exUnicode_lawful _ _ _ _ _).mp hg
  have h : (match cli exUnicode pageTypes exCliTypes (CompileExample.doc "put_thing".toList) with
      | .ok (ms, as) => (ms.zip as).all fun x => cliCompiles exCliTypes CompileExample.table x.1.op.params x.2.1
      | _ => false) = true := by decide +kernel
  split at h
  · rename_i ms as hc
    rw [List.all_eq_true] at h
    have hn : CliNames exUnicode inner t (CompileExample.doc "put_thing".toList) := by
      refine ⟨?_, ?_, ?_, ?_, ?_, ?_⟩
      · intro o ho
        exact ⟨o, ho, by rcases doc_ops ho with rfl | rfl <;> decide +kernel⟩
      · intro o ho o' ho'
        rcases doc_ops ho with rfl | rfl <;> rcases doc_ops ho' with rfl | rfl <;> decide +kernel
      · intro o ho
        rw [← clientOwn_iff]
        revert inner
        rcases doc_ops ho with rfl | rfl <;> decide +kernel
      · intro o ho
        rcases doc_ops ho with rfl | rfl <;> decide +kernel
      · intro _ o ho
        rcases doc_ops ho with rfl | rfl <;> decide +kernel
      · intro _ o ho _
        rcases doc_ops ho with rfl | rfl <;> decide +kernel
    obtain ⟨h1, h2⟩ := (cli_names_iff pageTypes_distinct CompileExample.table inner t (cli_parts.mp hc).1 hv.distinct fun o ho => by
      obtain ⟨path, m, hr⟩ := route_op ho
      exact (hs path m o hr).1.params).mpr hn
    exact ⟨ms, as, hc, h1, h2, fun p a hpa => h (p, a) hpa⟩
  · cases h

/-- What compiling needs holds for the document. -/
example : ∀ path m o, (path, m, o) ∈ routes (CompileExample.doc "put_thing".toList) →
    Understood pageTypes path m o.op ∧ FlagsDiffer exUnicode pageTypes o.op ∧ OneKind o.op ∧
      CommandSound exUnicode pageTypes exCliTypes CompileExample.table o.op :=
  ((C88_compiles_iff exUnicode_lawful pageTypes_distinct _ _ _ _ _).mp (doc_cli true .separate)).2.2

/-- The flags are those of parameters, and those of properties that can be given as text. -/
example : DocPropFlag exUnicode pageTypes exCliTypes AcceptExample.good ⟨"size".toList, false, 4⟩ := by
  refine ⟨7, [⟨"name".toList, true, 3⟩], [⟨"more".toList, false, 6⟩], ⟨_, _, _, "application/json".toList, rfl, rfl, ?_, .inl rfl, rfl⟩, rfl, rfl,
    fun p hp => ?_, by decide +kernel⟩
  · exact ⟨by decide, .inr ⟨" charset=utf-8".toList, rfl⟩⟩
  · exact counts_all (Q := fun p => flagName exUnicode p ≠ toKebab exUnicode "size".toList) _ (by decide +kernel) p hp.1

/-- `clap` accepts the arguments. -/
example : ∀ o ∈ opsOf (CompileExample.doc "put_thing".toList), ArgumentsSound exUnicode pageTypes exCliTypes o.op := by
  have h : (match cli exUnicode pageTypes exCliTypes (CompileExample.doc "put_thing".toList) with
      | .ok (ms, as) => (ms.zip as).all fun x => decide (clapNames x.2.1).Nodup
      | _ => false) = true := by decide +kernel
  split at h
  · rename_i ms as hc
    rw [List.all_eq_true] at h
    exact (C88_arguments_iff pageTypes_distinct hc).mp fun p a hpa => of_decide_eq_true (h (p, a) hpa)
  · cases h

/-- C88: a client that compiles is not enough; with traits for tags, its command line does not compile if an operation has two tags. -/
theorem C88_two_tags : ∃ d, BuilderClientCompiles exUnicode noTypes noBuilders .separate d ∧
    ∀ ct inner, (∃ r, cli exUnicode noTypes ct d = .ok r) ∧ ¬ CliCompiles exUnicode noTypes ct noBuilders inner .separate d := by
  refine ⟨docAt "/".toList (tagged ["a".toList, "b".toList] []),
    tagged_client (by decide +kernel) ⟨root_path, by decide, fun p q hp => ?_, fun e he => (by cases he), ?_, fun _ => ?_⟩ ⟨?_, ?_, fun h => h.elim, fun h => h.elim, fun _ => ?_, ?_⟩
      (by decide) (by decide +kernel), fun ct inner => ⟨?_, fun hc => ?_⟩⟩
  · exact absurd hp (counts_all (Q := fun p => ¬ Counts (tagged ["a".toList, "b".toList] []) p) _ (fun p hp => (by cases hp)) p hp)
  all_goals first
    | exact counts_all _ fun p hp => (by cases hp)
    | skip
  · refine (C88_client_iff exUnicode_lawful noTypes_distinct ct (tt := noBuilders) (i := .builder) (t := .merged)
      ((isOk_iff _).mp (by decide +kernel))).mpr fun o ho => ?_
    have ho : o = ⟨some "get_it".toList, tagged ["a".toList, "b".toList] []⟩ := by simpa [opsOf, docAt] using ho
    subst ho
    intro p q hp
    exact absurd hp.1 (counts_all (Q := fun p => ¬ Counts (tagged ["a".toList, "b".toList] []) p) _ (fun p hp => (by cases hp)) p hp.1)
  · have := ((C88_compiles_iff exUnicode_lawful noTypes_distinct ct _ _ _ _).mp hc).2.1.tags rfl
      ⟨some "get_it".toList, tagged ["a".toList, "b".toList] []⟩ (by simp [opsOf, docAt]) "a".toList (by simp [tagged]) "b".toList (by simp [tagged])
    exact absurd this (by decide)

/-- C88: a client that compiles is not enough; its command line does not compile if the values of a parameter have no parser, as lists do
not. -/
theorem C88_lists : ∃ d, BuilderClientCompiles exUnicode noTypes noBuilders .merged d ∧
    ∀ ct inner, ct.parser 3 = false → ¬ CliCompiles exUnicode noTypes ct noBuilders inner .merged d := by
  refine ⟨docAt "/".toList (tagged [] [one "ids" 3]), one_client (by decide +kernel)
    ⟨root_path, by decide, ?_, fun e he => (by cases he), one_counts (by decide +kernel), fun _ => one_counts (by decide +kernel)⟩
    ⟨one_counts (by decide +kernel), one_counts (by decide +kernel), fun h => h.elim, fun h => h.elim, fun _ => one_counts (by decide +kernel), one_counts rfl⟩,
    fun ct inner hp hc => ?_⟩
  · exact one_same
  · have := ((C88_compiles_iff exUnicode_lawful noTypes_distinct ct _ _ _ _).mp hc).2.2 _ _ _ (route_docAt _ _)
    have := this.2.2.2.parsers _ _ (.param (one "ids" 3) ⟨counts_one, fun hx => hx.1.extension rfl⟩)
    rw [show argType (one "ids" 3) = 3 from rfl, hp] at this
    cases this

/-- C88: the command line may compile and never run: `clap` does not accept two arguments called `help`. -/
theorem C88_help : ∃ d ms as, BuilderClientCompiles exUnicode noTypes noBuilders .merged d ∧
    CliCompiles exUnicode noTypes exCliTypes noBuilders true .merged d ∧ cli exUnicode noTypes exCliTypes d = .ok (ms, as) ∧
    ¬ ∀ p a, (p, a) ∈ ms.zip as → (clapNames a.1).Nodup := by
  have hc : CliCompiles exUnicode noTypes exCliTypes noBuilders true .merged (docAt "/".toList (tagged [] [one "help" 3])) := by
    have hg : (generate exUnicode noTypes noBuilders .builder .merged (docAt "/".toList (tagged [] [one "help" 3]))).isOk = true := by
      decide +kernel
    obtain ⟨hv, _, hs⟩ := (C85_generates_iff exUnicode_lawful _ _ _ _ _).mp ((isOk_iff _).mp hg)
    have hops : ∀ o ∈ opsOf (docAt "/".toList (tagged [] [one "help" 3])), o = ⟨some "get_it".toList, tagged [] [one "help" 3]⟩ := by
      intro o ho
      simpa [opsOf, docAt] using ho
    have hnb : ∀ t, ¬ TypedBody (tagged [] [one "help" 3]) t := by
      rintro t ⟨_, _, _, _, hb, _⟩
      cases hb
    have hnp : ∀ i, ¬ DocPropFlag exUnicode noTypes exCliTypes (tagged [] [one "help" 3]) i := by
      rintro i ⟨t, _, _, hb, _⟩
      exact hnb t hb
    refine (C88_compiles_iff exUnicode_lawful noTypes_distinct _ _ _ _ _).mpr ⟨hv, ⟨?_, ?_, ?_, ?_, ?_, ?_⟩, fun path m o ho =>
      ⟨supported_understood noTypes_distinct (hs path m o ho).1, ?_, ⟨(hs path m o ho).1.responses.successes, (hs path m o ho).1.responses.errors⟩,
        ?_, ?_, ?_⟩⟩
    · intro o ho
      refine ⟨o, ho, ?_⟩
      rw [hops o ho]
      show sanitize exUnicode .snake "get_it".toList = sanitize exUnicode .snake (sanitize exUnicode .snake "get_it".toList)
      decide +kernel
    · intro o ho o' ho' _
      rw [hops o ho, hops o' ho']
    · intro o ho
      rw [hops o ho, ← clientOwn_iff]
      show sanitize exUnicode .snake "get_it".toList ∉ clientOwn true
      decide +kernel
    · intro o ho
      rw [hops o ho]
      show sanitize exUnicode .snake "get_it".toList ≠ _ ∧ sanitize exUnicode .snake "get_it".toList ≠ _
      decide +kernel
    · intro h
      cases h
    · intro h
      cases h
    all_goals obtain ⟨rfl, rfl, rfl⟩ := docAt_routes ho
    · intro p q hp hq _
      exact one_same p q hp.1 hq.1 (by
        have key := one_counts (tags := []) (name := "help") (t := 3) (Q := fun p => p.name = "help".toList) rfl
        rw [key p hp.1, key q hq.1])
    · rintro n t (⟨p, hp⟩ | ⟨i, hi⟩)
      · exact one_counts (Q := fun p => exCliTypes.parser (argType p) = true) rfl p hp.1
      · exact absurd hi (hnp i)
    · intro p hp
      refine .inl ⟨one "help" 3, counts_one, ?_⟩
      exact one_counts (Q := fun p => sanitize exUnicode .snake (one "help" 3).name = sanitize exUnicode .snake (sanitize exUnicode .snake p.name))
        (by decide +kernel) p hp.1
    · intro i hi
      exact absurd hi (hnp i)
  obtain ⟨ms, as, hg, -⟩ := id hc
  refine ⟨_, ms, as, one_client (by decide +kernel)
    ⟨root_path, by decide, one_same, fun e he => (by cases he), one_counts (by decide +kernel), fun _ => one_counts (by decide +kernel)⟩
    ⟨one_counts (by decide +kernel), one_counts (by decide +kernel), fun h => h.elim, fun h => h.elim, fun _ => one_counts (by decide +kernel), one_counts rfl⟩,
    hc, hg, fun hx => ?_⟩
  have := (C88_arguments_iff noTypes_distinct hg).mp hx ⟨some "get_it".toList, tagged [] [one "help" 3]⟩ (by simp [opsOf, docAt])
  exact this.help _ _ (.param (one "help" 3) ⟨counts_one, fun hx => hx.1.extension rfl⟩) (by decide +kernel)

end Progenitor.Props

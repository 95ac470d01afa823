import Verif.Props.Cli
import Verif.Props.CliList

/-!
# C38, C39 (continued), C68, C69: limits, reports, items
-/

namespace Progenitor.Props

open Progenitor Progenitor.Params Progenitor.Client Progenitor.Exec Progenitor.Builder Progenitor.Cli Progenitor.Doc
open Progenitor.Spec (Forall₂ Ordinary Optional Flagged Needed FlagOf PropFlag givenProps LineBody LineArg forParam LineValue Lawful Ascii
  inputsFor CallOk HasBuilder ValidDoc LetterName SnakeName)

variable {u : Names.Unicode} {ct : CliTypes} {pg : Option Pagination} {B P V : Type}

/-! ## From documents -/

theorem convert_name {san p a} (h : convert san p = .ok a) : a.name = san a.apiName := by
  unfold convert at h
  split at h
  · split at h
    · split at h
      · cases h; rfl
      · cases h
    · cases h
  · split at h
    · split at h <;> (cases h; rfl)
    · cases h
  · split at h
    · cases h; rfl
    · cases h
  · cases h
  · cases h
  · cases h

theorem convertAll_name {san ps as} (h : convertAll san ps = .ok as) : ∀ a ∈ as, a.name = san a.apiName := by
  induction ps generalizing as with
  | nil => cases h; intro a ha; cases ha
  | cons p ps ih =>
    simp only [convertAll] at h
    obtain ⟨q, hq, h⟩ := bind_ok_inv h
    obtain ⟨qs, hqs, h⟩ := bind_ok_inv h
    cases h
    intro a ha
    rcases List.mem_cons.mp ha with rfl | ha
    · exact convert_name hq
    · exact ih hqs a ha

/-- Parameters are named after the document's names; bodies are named `body`. -/
theorem processOperation_names {san types path method d pr} (h : processOperation san types path method d = .ok pr) :
    ∀ p ∈ pr.op.params, (p.name = san p.apiName ∧ ∀ c, p.kind ≠ .body c) ∨ (p.name = "body".toList ∧ ∃ c, p.kind = .body c) := by
  unfold processOperation at h
  obtain ⟨ps, hps, h⟩ := bind_ok_inv h
  obtain ⟨b, hb, h⟩ := bind_ok_inv h
  obtain ⟨tmp, htmp, h⟩ := bind_ok_inv h
  obtain ⟨sps, hsps, h⟩ := bind_ok_inv h
  obtain ⟨rs, hrs, h⟩ := bind_ok_inv h
  obtain ⟨_, hnc, h⟩ := bind_ok_inv h
  obtain ⟨m, hm, h⟩ := bind_ok_inv h
  cases h
  intro p hp
  have hp : p ∈ ps ++ b.toList := by
    have := sortLoop_perm hsps
    simpa using this.mem_iff.mp hp
  rcases List.mem_append.mp hp with hp | hp
  · exact .inl ⟨convertAll_name hps p hp, (convertAll_typed hps p hp).2⟩
  · cases b with
    | none => cases hp
    | some q => simp at hp; subst hp; exact .inr (getBodyParam_some hb)

theorem body_sanitized (h : Lawful u) : Names.sanitize u .snake "body".toList = "body".toList := by
  rw [sanitize_agree h exUnicode_lawful _ (by unfold Ascii; decide)]; rfl

/-- Operations of documents with ASCII parameter names, whose Rust names differ, are as assumed for C40. -/
theorem named_of_document (h : Lawful u) {types path method d pr}
    (hp : processOperation (Names.sanitize u .snake) types path method d = .ok pr)
    (ha : ∀ p ∈ pr.op.params, (∀ c, p.kind ≠ .body c) → Ascii p.apiName) (hn : (pr.op.params.map Param.name).Nodup) :
    Named u pr.op.params := by
  have hnm := processOperation_names hp
  refine ⟨hn, fun p hpm => ?_, fun p hpm ⟨c, hc⟩ => ?_⟩
  · rcases hnm p hpm with ⟨h1, h2⟩ | ⟨h1, -⟩
    · rw [h1, C42_ascii_partial h _ (ha p hpm h2)]
    · rw [h1, body_sanitized h]
  · rcases hnm p hpm with ⟨-, h2⟩ | ⟨h1, -⟩
    · exact absurd hc (h2 c)
    · exact h1

/-- C39: commands are generated for the operations of documents with ASCII parameter names, unless two Rust names are the same. -/
theorem C39_document_partial (h : Lawful u) (ct : CliTypes) {types path method d pr}
    (hp : processOperation (Names.sanitize u .snake) types path method d = .ok pr)
    (ha : ∀ p ∈ pr.op.params, (∀ c, p.kind ≠ .body c) → Ascii p.apiName) (hn : (pr.op.params.map Param.name).Nodup) :
    ∃ args, cliArgs u ct pr.paginated pr.op.params = .ok args := by
  refine C39_generates_partial h ct _ (fun p hpm hf => ?_) (fun p hpm => ?_) hn
  · exact (processOperation_inv hp).2.1 p hpm hf.1
  · rcases processOperation_names hp p hpm with ⟨h1, h2⟩ | ⟨h1, -⟩
    · exact ⟨p.apiName, ha p hpm h2, h1⟩
    · exact ⟨"body".toList, by unfold Ascii; decide, by rw [body_sanitized h]; exact h1⟩

/-! ## Limits -/

theorem toKebab_agree {v : Names.Unicode} (hu : Lawful u) (hv : Lawful v) {s : Str} (hs : Ascii s) : toKebab u s = toKebab v s := by
  unfold toKebab
  rw [words_agree (agree hu hv) hs]
  congr 1
  refine List.map_congr_left fun w hw => ?_
  exact lowercase_agree (agree hu hv) (words_ascii hs hw)

theorem kebab_limit (h : Lawful u) : toKebab u "limit".toList = "limit".toList := by
  rw [toKebab_agree h exUnicode_lawful (by unfold Ascii; decide)]; rfl

theorem limit_sanitized (h : Lawful u) : Names.sanitize u .snake "limit".toList = "limit".toList := by
  rw [sanitize_agree h exUnicode_lawful _ (by unfold Ascii; decide)]; rfl

/-- C38: list commands have an optional (unless needed for the first page) flag `limit`, of the type of the parameter.  Without it, there is no limit; with it, the limit
is its value if the type is `NonZeroU32`, and the command panics otherwise. -/
theorem C38_limit (h : Lawful u) {types path method d pr} (hd : PropsDistinct types)
    (hp : processOperation (Names.sanitize u .snake) types path method d = .ok pr) {pd : Pagination} (hpg : pr.paginated = some pd)
    {args : Args} (ha : cliArgs u ct pr.paginated pr.op.params = .ok args) (max : Nat) (l : Line) :
    ∃ p ∈ pr.op.params, ∃ t, p.apiName = "limit".toList ∧ p.kind = .query false ∧ p.typ = .type t ∧
      listLimit max ct args l = match l.get "limit".toList with
        | none => some max
        | some a => (ct.nonZeroU32 t).map fun toNat => toNat a := by
  obtain ⟨item, req⟩ := pd
  obtain ⟨-, -, ⟨p, hpm, hapi, hk⟩, -⟩ := (C37_paginated hd hp item req).mp hpg
  have hname : p.name = "limit".toList := by
    rcases processOperation_names hp p hpm with ⟨h1, -⟩ | ⟨-, c, hc⟩
    · rw [h1, hapi, limit_sanitized h]
    · rw [hc] at hk; cases hk
  have hf : Flagged pr.paginated p :=
    ⟨fun c hc => (by rw [hc] at hk; cases hk), fun hx => (by
      have hx := hname.symm.trans hx.2
      exact absurd hx (by decide))⟩
  obtain ⟨e, he, hfe⟩ := flag_of ha hpm hf
  refine ⟨p, hpm, e.2.type, hapi, hk, hfe.type, ?_⟩
  have hget : BTree.get "limit".toList args.flags = some e.2 := by
    obtain ⟨_, -, -, hs, -⟩ := cliArgs_ok ha
    have h1 : e.1 = "limit".toList := by rw [hfe.name, hname, kebab_limit h]
    rw [← h1]
    exact BTree.get_of_mem hs he
  unfold listLimit
  rw [hget]
  cases l.get "limit".toList <;> rfl

/-- C38 fails as stated: if the parameter `limit` has another type, list commands panic when the flag is given. -/
theorem C38_limit_fails (h : Lawful u) {types path method d pr} (hd : PropsDistinct types)
    (hp : processOperation (Names.sanitize u .snake) types path method d = .ok pr) {pd : Pagination} (hpg : pr.paginated = some pd)
    {args : Args} (ha : cliArgs u ct pr.paginated pr.op.params = .ok args) (max : Nat) (l : Line)
    (ht : ∀ p ∈ pr.op.params, p.apiName = "limit".toList → ∀ t, p.typ = .type t → ct.nonZeroU32 t = none) :
    listLimit max ct args l = none ↔ ∃ a, l.get "limit".toList = some a := by
  obtain ⟨p, hpm, t, h1, -, h2, h3⟩ := C38_limit h hd hp hpg ha max l
  rw [h3]
  cases hg : l.get "limit".toList with
  | none => simp
  | some a => simp [ht p hpm h1 t h2]

/-! ## Reports -/

/-- Success or failure of the request, as reported. -/
def Reported (o : Resp.Outcome P V) (success : Resp.Kind) (r : Report P V) : Prop :=
  match o with
  | .ok rv => ((∃ t, success = .type t) ∧ r = .successItem rv) ∨ (success = .none ∧ r = .successNoItem rv)
  | .error e => r = .error e

/-- C68: a command reports exactly one thing: what came back if the responses have a type, success if they are empty, or the error;
it fails exactly if the request did. -/
theorem C68_report {s e : Resp.Kind} {o : Resp.Outcome P V} {reports : List (Report P V)} {failed : Bool} (h : output s e o = .done reports failed) :
    (∃ r, reports = [r] ∧ Reported o s r) ∧ (failed = true ↔ ∃ x, o = .error x) := by
  unfold output at h
  cases o with
  | ok rv =>
    cases s <;> cases h <;> simp [Reported]
  | error x =>
    cases e <;> cases h <;> simp [Reported]

/-- C68: it reports, unless the responses in question are raw or upgraded. -/
theorem C68_reported (s e : Resp.Kind) (o : Resp.Outcome P V) :
    (∃ reports failed, output s e o = .done reports failed) ↔ ∃ k, ((∃ t, k = .type t) ∨ k = .none) ∧
      match o with
      | .ok _ => s = k
      | .error _ => e = k := by
  unfold output
  cases o with
  | ok rv => cases s <;> simp
  | error x => cases e <;> simp

/-- C68: the reports of a command are those for the outcome of the request it makes. -/
theorem C68_execute_partial (cfg : Config) (hooks : Hooks) (w : World) (decode : TypeId → Bytes → Except P V)
    {set : Str → Arg → B → B} {tt : TypeTable B} {params : List Param} {args : Args} {l : Line}
    (hn : Named u params) (h : cliArgs u ct none params = .ok args) (ha : accepts args l = true) (hj : l.json ≠ some none)
    (hs : structOk tt params false = true) (hc : cliCompiles ct tt params args = true)
    (hlaw : ∀ p ∈ params, ∀ tb, HasBuilder tt p tb → ∀ a, tb.finish (tb.ofValue a) = .ok a)
    {vs : List Value} (hv : Forall₂ (LineArg u tt set none args l) params vs) (c : Code) (s e : Resp.Kind) (hist : List Event)
    {o : Resp.Outcome P V} {hist' : List Event} (ho : call cfg hooks w decode params c hist vs = (.returned o, hist'))
    (hsk : (∃ t, s = .type t) ∨ s = .none) (hek : (∃ t, e = .type t) ∨ e = .none) :
    ∃ r failed, execute cfg hooks w decode ct tt set params c (args, s, e) hist l = (.done [r] failed, hist') ∧
      Reported o s r ∧ (failed = true ↔ ∃ x, o = .error x) := by
  rw [C40_execute cfg hooks w decode hn h ha hj hs hc hlaw hv c (s, e) hist, ho]
  obtain ⟨reports, failed, hr⟩ := (C68_reported s e o).mpr (by
    cases o with
    | ok rv => exact ⟨s, hsk, rfl⟩
    | error x => exact ⟨e, hek, rfl⟩)
  obtain ⟨⟨r, rfl, h1⟩, h2⟩ := C68_report hr
  exact ⟨r, failed, by simp only [hr], h1, h2⟩

/-- C68 fails as stated: commands of operations with raw responses make the request, and then panic. -/
theorem C68_raw_fails (cfg : Config) (hooks : Hooks) (w : World) (decode : TypeId → Bytes → Except P V)
    {set : Str → Arg → B → B} {tt : TypeTable B} {params : List Param} {args : Args} {l : Line}
    (hn : Named u params) (h : cliArgs u ct none params = .ok args) (ha : accepts args l = true) (hj : l.json ≠ some none)
    (hs : structOk tt params false = true) (hc : cliCompiles ct tt params args = true)
    (hlaw : ∀ p ∈ params, ∀ tb, HasBuilder tt p tb → ∀ a, tb.finish (tb.ofValue a) = .ok a)
    {vs : List Value} (hv : Forall₂ (LineArg u tt set none args l) params vs) (c : Code) (s e : Resp.Kind) (hist : List Event)
    {rv : ResponseValue (Resp.Inner V)} {hist' : List Event} (ho : call cfg hooks w decode params c hist vs = (.returned (.ok rv), hist'))
    (hsk : s = .raw ∨ s = .upgrade) :
    execute cfg hooks w decode ct tt set params c (args, s, e) hist l = (.panicked, hist') := by
  rw [C40_execute cfg hooks w decode hn h ha hj hs hc hlaw hv c (s, e) hist, ho]
  rcases hsk with rfl | rfl <;> rfl

/-- The kinds are those of the responses: the first of which, if there is one, gives the kind. -/
theorem C68_kinds {responses : List Resp.Response} {s e : Resp.Kind} (h : cliKinds pg responses = .ok (s, e)) :
    (∃ rs, Resp.extract Resp.Status.isSuccessOrDefault responses = .ok (rs, s)) ∧
    (∃ rs, Resp.extract Resp.Status.isErrorOrDefault responses = .ok (rs, e)) ∧ (pg ≠ none → s ≠ .raw ∧ s ≠ .upgrade) := by
  unfold cliKinds at h
  obtain ⟨⟨rs, s'⟩, h1, h⟩ := bind_ok_inv h
  obtain ⟨⟨rs', e'⟩, h2, h⟩ := bind_ok_inv h
  simp only at h
  split at h
  · cases h
  · rename_i hx
    cases h
    refine ⟨⟨rs, h1⟩, ⟨rs', h2⟩, fun hpg => ?_⟩
    have : pg.isSome = true := by cases pg with
      | none => exact absurd rfl hpg
      | some _ => rfl
    exact ⟨fun hs => hx ⟨this, .inl hs⟩, fun hs => hx ⟨this, .inr hs⟩⟩

/-! ## Items -/

theorem append_inj_left' {a b c : Str} (h : a ++ b = a ++ c) : b = c := List.append_cancel_left h

theorem cli_ne_execute (a b : Str) : "cli_".toList ++ a ≠ "execute_".toList ++ b := by
  intro h
  have := congrArg List.head? h
  have : (some 'c' : Option Char) = some 'e' := this
  exact absurd this (by decide)

theorem nodup_prefixed (pre : Str) (ids : List Str) : (ids.map (pre ++ ·)).Nodup ↔ ids.Nodup := by
  unfold List.Nodup
  rw [List.pairwise_map]
  constructor
  · exact fun h => h.imp fun h he => h (by rw [he])
  · exact fun h => h.imp fun h he => h (List.append_cancel_left he)

theorem definedFns_nodup (ids : List Str) : (definedFns ids).Nodup ↔ ids.Nodup := by
  unfold definedFns
  rw [List.nodup_append, nodup_prefixed, nodup_prefixed]
  constructor
  · exact fun h => h.1
  · refine fun h => ⟨h, h, fun a ha b hb he => ?_⟩
    obtain ⟨x, -, rfl⟩ := List.mem_map.mp ha
    obtain ⟨y, -, rfl⟩ := List.mem_map.mp hb
    exact cli_ne_execute x y he

theorem own_disjoint (ids : List Str) : ∀ a ∈ cliOwn, ∀ b ∈ definedFns ids, a ≠ b := by
  have key : ∀ a ∈ cliOwn, ¬ "cli_".toList <+: a ∧ ¬ "execute_".toList <+: a := by decide
  rintro a ha b hb rfl
  unfold definedFns at hb
  rcases List.mem_append.mp hb with hb | hb <;> obtain ⟨x, -, rfl⟩ := List.mem_map.mp hb
  · exact (key _ ha).1 ⟨x, rfl⟩
  · exact (key _ ha).2 ⟨x, rfl⟩

theorem config_disjoint (ids : List Str) : (configFns ids).Nodup ↔ ids.Nodup := by
  have key : ∀ a ∈ ["success_item", "success_no_item", "error", "list_start", "list_item", "list_end_success", "list_end_error"].map
      String.toList, ¬ "execute_".toList <+: a := by decide
  unfold configFns
  rw [List.nodup_append, nodup_prefixed]
  refine ⟨fun h => h.2.1, fun h => ⟨by decide, h, ?_⟩⟩
  rintro a ha b hb rfl
  obtain ⟨x, -, rfl⟩ := List.mem_map.mp hb
  exact key _ ha ⟨x, rfl⟩

theorem called_defined (ids : List Str) : (calledFns u ids).all (definedFns ids).contains = true ↔
    ∀ id ∈ ids, Names.sanitize u .snake id ∈ ids := by
  rw [List.all_eq_true]
  unfold calledFns definedFns
  constructor
  · intro h id hid
    have := h ("cli_".toList ++ Names.sanitize u .snake id) (List.mem_append.mpr (.inl (List.mem_map.mpr ⟨id, hid, rfl⟩)))
    rw [List.contains_iff_mem] at this
    rcases List.mem_append.mp this with h1 | h1 <;> obtain ⟨x, hx, he⟩ := List.mem_map.mp h1
    · rw [← List.append_cancel_left he]; exact hx
    · exact absurd he.symm (cli_ne_execute _ _)
  · intro h x hx
    rw [List.contains_iff_mem]
    rcases List.mem_append.mp hx with h1 | h1 <;> obtain ⟨id, hid, rfl⟩ := List.mem_map.mp h1
    · exact List.mem_append.mpr (.inl (List.mem_map.mpr ⟨_, h id hid, rfl⟩))
    · exact List.mem_append.mpr (.inr (List.mem_map.mpr ⟨_, h id hid, rfl⟩))

/-- C69: the items refer to functions that exist and do not clash, exactly if sanitizing an operation's name again gives the name of an
operation, and the variants differ. -/
theorem C69_items_iff (ids : List Str) : itemsOk u ids = true ↔ (∀ id ∈ ids, Names.sanitize u .snake id ∈ ids) ∧
    ids.Pairwise fun a b => Names.sanitize u .pascal a ≠ Names.sanitize u .pascal b := by
  unfold itemsOk
  simp only [Bool.and_eq_true, decide_eq_true_eq]
  rw [called_defined, config_disjoint, List.nodup_append, definedFns_nodup]
  unfold variants
  unfold List.Nodup
  rw [List.pairwise_map]
  constructor
  · exact fun h => ⟨h.1.1.1, h.2⟩
  · rintro ⟨h1, h2⟩
    have hn := h2.imp fun {a b} hx (he : a = b) => hx (by rw [he])
    exact ⟨⟨⟨h1, by decide, hn, own_disjoint ids⟩, hn⟩, h2⟩

/-- C69: for ASCII operation ids, each command has the function made for it. -/
theorem C69_dispatch_partial (h : Lawful u) (ids : List Str) (hs : ∀ id ∈ ids, ∃ s, Ascii s ∧ id = Names.sanitize u .snake s) :
    calledFns u ids = definedFns ids := by
  have key : ∀ id ∈ ids, Names.sanitize u .snake id = id := by
    intro id hid
    obtain ⟨s, h1, rfl⟩ := hs id hid
    exact C42_ascii_partial h s h1
  unfold calledFns definedFns
  rw [List.map_congr_left fun id hid => show "cli_".toList ++ Names.sanitize u .snake id = "cli_".toList ++ id by rw [key id hid],
    List.map_congr_left fun id hid => show "execute_".toList ++ Names.sanitize u .snake id = "execute_".toList ++ id by rw [key id hid]]

/-- C69: for documents whose operation ids are snake case names with words that start with letters, the items are well formed. -/
theorem C69_document_partial (h : Lawful u) {types : Types} {d : Document} {ms : List Processed} (hm : rawMethods u types d = .ok ms)
    (hs : AllIds d LetterName) : itemsOk u (ms.map fun p => p.op.operationId) = true := by
  have hsn : AllIds d SnakeName := fun o ho id hid => (hs o ho id hid).1
  have hmem := fun p => method_id_mem h hm hsn (p := p)
  have hl : ∀ id ∈ ms.map fun p => p.op.operationId, LetterName id := by
    intro id hid
    obtain ⟨p, hp, rfl⟩ := List.mem_map.mp hid
    obtain ⟨o, ho, hid'⟩ := hmem p hp
    exact hs o ho _ hid'
  rw [C69_items_iff]
  refine ⟨fun id hid => ?_, ?_⟩
  · rw [snake_fixed h (hl id hid).1]; exact hid
  · have hn := (C43_snake_partial h hm hsn).2
    exact List.Pairwise.imp_of_mem (fun ha hb hne he => hne (pascal_inj h (hl _ ha) (hl _ hb) he)) hn

/-- C69 fails as stated: variants may clash although the operations' functions do not. -/
theorem C69_variant_fails (h : Lawful u) (types : Types) :
    ∃ (d : Document) (ms : List Processed), ValidDoc u d ∧ rawMethods u types d = .ok ms ∧
      (ms.map fun p => p.op.operationId).Nodup ∧ itemsOk u (ms.map fun p => p.op.operationId) = false := by
  have e1 : Names.sanitize u .snake "a_1".toList = "a_1".toList := by
    rw [sanitize_agree h exUnicode_lawful _ (by unfold Ascii; decide)]; rfl
  have e2 : Names.sanitize u .snake "a1".toList = "a1".toList := by
    rw [sanitize_agree h exUnicode_lawful _ (by unfold Ascii; decide)]; rfl
  have p1 : Names.sanitize u .pascal "a_1".toList = "A1".toList := by
    rw [sanitize_agree h exUnicode_lawful _ (by unfold Ascii; decide)]; rfl
  have p2 : Names.sanitize u .pascal "a1".toList = "A1".toList := by
    rw [sanitize_agree h exUnicode_lawful _ (by unfold Ascii; decide)]; rfl
  have hr := plain_methods h (types := types) (ops := [("a_1", []), ("a1", [])]) (by decide) rfl
  refine ⟨_, _, plain_valid h (by decide), hr, ?_, ?_⟩
  · show [Names.sanitize u .snake "a_1".toList, Names.sanitize u .snake "a1".toList].Nodup
    rw [e1, e2]; decide
  · show itemsOk u [Names.sanitize u .snake "a_1".toList, Names.sanitize u .snake "a1".toList] = false
    rw [e1, e2, Bool.eq_false_iff]
    intro hx
    have := ((C69_items_iff _).mp hx).2
    rw [List.pairwise_cons] at this
    exact this.1 "a1".toList (List.mem_singleton.mpr rfl) (p1.trans p2.symm)

/-- C69 fails as stated: for the operation id U+0130, the function called does not exist. -/
theorem C69_function_fails (h : Lawful u) (h1 : u.alnum 'İ' = true) (h2 : u.xidCont 'İ' = true)
    (h3 : u.toLower 'İ' = ['i', '̇']) (h4 : u.xidCont '̇' = true) (h5 : u.alnum '̇' = false) :
    itemsOk u [Names.sanitize u .snake ['İ']] = false := by
  obtain ⟨e1, e2⟩ := C42_idempotent_fails h h1 h2 h3 h4 h5
  rw [Bool.eq_false_iff]
  intro hx
  have := ((C69_items_iff _).mp hx).1 (Names.sanitize u .snake ['İ']) (by simp)
  rw [e1, e2] at this
  exact absurd this (by decide)

/-- C69 fails as stated: with another operation `i`, the command for U+0130 runs that one. -/
theorem C69_dispatch_fails (h : Lawful u) (h1 : u.alnum 'İ' = true) (h2 : u.xidCont 'İ' = true)
    (h3 : u.toLower 'İ' = ['i', '̇']) (h4 : u.xidCont '̇' = true) (h5 : u.alnum '̇' = false) :
    (calledFns u [Names.sanitize u .snake ['İ'], ['i']])[2]? = some ("execute_".toList ++ ['i']) ∧
    (definedFns [Names.sanitize u .snake ['İ'], ['i']])[3]? = some ("execute_".toList ++ ['i']) := by
  obtain ⟨e1, e2⟩ := C42_idempotent_fails h h1 h2 h3 h4 h5
  refine ⟨?_, rfl⟩
  show some ("execute_".toList ++ Names.sanitize u .snake (Names.sanitize u .snake ['İ'])) = _
  rw [e1, e2]

/-! ## Names of arguments -/

/-- C39: the names of arguments differ exactly if no flag is called `json-body` or `json-body-template` in presence of a body. -/
theorem C39_names_iff {params : List Param} {args : Args} (h : cliArgs u ct pg params = .ok args) :
    (flagNames args).Nodup ↔ args.body = .none ∨ ∀ e ∈ args.flags, e.1 ≠ "json-body".toList ∧ e.1 ≠ "json-body-template".toList := by
  obtain ⟨_, _, -, -, -, -, hn⟩ := C39_flags h
  unfold flagNames
  split
  · rename_i hb
    simp [hb, hn]
  · rename_i hb
    rw [List.nodup_append]
    constructor
    · rintro ⟨-, -, hx⟩
      refine .inr fun e he => ⟨hx e.1 (List.mem_map_of_mem he) _ (by simp), hx e.1 (List.mem_map_of_mem he) _ (by simp)⟩
    · rintro (hx | hx)
      · exact absurd hx hb
      · refine ⟨hn, by decide, fun a ha b hb he => ?_⟩
        obtain ⟨e, hem, rfl⟩ := List.mem_map.mp ha
        subst he
        have := hx e hem
        rcases List.mem_cons.mp hb with h1 | h1
        · exact this.1 h1
        · exact this.2 (List.mem_singleton.mp h1)

/-- C39 fails as stated: two parameters whose Rust names differ have the same flag, and generation panics. -/
theorem C39_flag_fails (h : Lawful u) (h1 : u.alnum 'İ' = true) (h2 : u.xidCont 'İ' = true)
    (h3 : u.toLower 'İ' = ['i', '̇']) (h4 : u.xidCont '̇' = true) (h5 : u.alnum '̇' = false) (ct : CliTypes) :
    Names.sanitize u .snake ['İ'] ≠ Names.sanitize u .snake ['i'] ∧
    ¬ ∃ args, cliArgs u ct pg [⟨Names.sanitize u .snake ['İ'], ['İ'], .type 0, .path⟩, ⟨Names.sanitize u .snake ['i'], ['i'], .type 0, .path⟩] =
      .ok args := by
  obtain ⟨e1, e2⟩ := C42_idempotent_fails h h1 h2 h3 h4 h5
  have e3 : Names.sanitize u .snake ['i'] = ['i'] := by
    rw [sanitize_agree h exUnicode_lawful _ (by unfold Ascii; decide)]; rfl
  rw [e1, e3]
  refine ⟨by decide, fun hx => ?_⟩
  have := (C39_generates_iff ct _).mp hx |>.2 _ (List.Sublist.refl _) (by
    intro p hp
    have hne : ∀ s : Str, s ∈ [['i', '̇'], ['i']] → s ≠ "page_token".toList := by decide
    rcases List.mem_cons.mp hp with rfl | hp
    · exact ⟨fun c hc => (by cases hc), fun hx => hne ['i', '̇'] (by simp) hx.2⟩
    · rw [List.mem_singleton] at hp
      subst hp
      exact ⟨fun c hc => (by cases hc), fun hx => hne ['i'] (by simp) hx.2⟩)
  rw [List.map_cons, List.map_cons, List.map_nil, List.nodup_cons] at this
  refine this.1 (List.mem_singleton.mpr ?_)
  have hw1 : toKebab u ['i', '̇'] = ['i'] := by
    have hil : u.toLower 'i' = ['i'] := by rw [h.toLower_ascii 'i' (by decide)]; decide
    have hia : u.alnum 'i' = true := by rw [h.alnum_ascii 'i' (by decide)]; decide
    unfold toKebab Names.words
    simp [Names.splitOn, hia, h5, Names.splitWord, Names.lowercase, hil, joinDashes]
  have hw2 : toKebab u ['i'] = ['i'] := by
    rw [toKebab_agree h exUnicode_lawful (by unfold Ascii; decide)]; rfl
  show toKebab u ['i', '̇'] = toKebab u ['i']
  rw [hw1, hw2]

/-- Types: 0 text, 1 a struct with properties of types 0 and 2, 2 an array. -/
def exCli : CliTypes where
  props := fun t => if t = 1 then some [⟨"x".toList, true, 0⟩, ⟨"theTags".toList, false, 2⟩, ⟨"note".toList, false, 0⟩] else none
  inner := fun _ => none
  fromStr := fun t => t = 0
  parser := fun t => t = 0
  nonZeroU32 := fun _ => none

def exArgs : Args where
  flags := [("id".toList, ⟨0, .required, .param "id".toList⟩), ("note".toList, ⟨0, .optional, .prop "note".toList⟩),
    ("q".toList, ⟨0, .optional, .param "q".toList⟩), ("x".toList, ⟨0, .requiredIfNoBody, .prop "x".toList⟩)]
  body := .optional

theorem exArgs_eq : cliArgs exUnicode exCli none bodyOp.params = .ok exArgs := by decide +kernel

/- The flags of `bodyOp`, and a command line that is accepted. -/
def exLine : Line where
  get := fun n => if n = "id".toList then some (txt "i") else if n = "x".toList then some (txt "7") else none
  json := none

def exSet (s : Str) (a b : Arg) : Arg := ⟨b.display ++ s ++ '=' :: a.display, b.ser⟩

example : Named exUnicode bodyOp.params := by
  refine ⟨by decide, ?_, ?_⟩
  · decide +kernel
  · intro p hp ⟨c, hc⟩
    simp only [bodyOp, List.mem_cons, List.not_mem_nil, or_false] at hp
    rcases hp with rfl | rfl | rfl
    · cases hc
    · cases hc
    · rfl
example : accepts exArgs exLine = true := by decide +kernel
example : cliCompiles exCli exTypes bodyOp.params exArgs = true := by decide +kernel
example : givenProps exArgs exLine = [("x".toList, txt "7")] := by rfl
/- Without the required property the command line is not accepted. -/
example : accepts exArgs { exLine with get := fun n => if n = "id".toList then some (txt "i") else none } = false := by decide +kernel
example : accepts exArgs { exLine with get := fun n => if n = "id".toList then some (txt "i") else none, json := some (some (txt "{}")) } = true := by
  decide +kernel
example : Forall₂ (LineArg exUnicode exTypes exSet none exArgs exLine) bodyOp.params
    [.plain (txt "i"), .opt none, .plain ⟨"{}x=7".toList, .str "{}".toList⟩] := by
  refine .cons (.inl ⟨⟨by simp, by simp⟩, .inr ⟨by simp [Optional], txt "i", by rfl, rfl⟩⟩)
    (.cons (.inl ⟨⟨by simp, by simp⟩, .inl ⟨.inl rfl, by rfl⟩⟩) (.cons (.inr (.inl ⟨⟨.json, rfl⟩, _, ?_, rfl⟩)) .nil))
  exact ⟨_, ⟨1, .json, rfl, rfl, rfl⟩, by rfl⟩
/-- C39 fails for optional properties that are called like a parameter: there is no flag for them. -/
theorem C39_property_fails : ∃ (ct : CliTypes) (params : List Param) (args : Args) (i : PropInfo), BodyOf params 1 ∧
    ct.props 1 = some [i] ∧ ct.fromStr i.type = true ∧ cliArgs exUnicode ct none params = .ok args ∧
    ∀ e ∈ args.flags, forParam e = true := by
  refine ⟨{ exCli with props := fun t => if t = 1 then some [⟨"q".toList, false, 0⟩] else none },
    [⟨"q".toList, "q".toList, .type 0, .query false⟩, ⟨"body".toList, "body".toList, .type 1, .body .json⟩],
    ⟨[("q".toList, ⟨0, .optional, .param "q".toList⟩)], .optional⟩, ⟨"q".toList, false, 0⟩, ?_, rfl, rfl, by decide +kernel, by decide⟩
  exact ⟨[⟨"q".toList, "q".toList, .type 0, .query false⟩], _, [], rfl,
    fun q hq c hc => (by rw [List.mem_singleton.mp hq] at hc; cases hc), ⟨.json, rfl⟩, rfl⟩
/- A parameter `json_body` clashes with the option for the file. -/
example : ∃ args, cliArgs exUnicode exCli none [⟨"json_body".toList, "json_body".toList, .type 0, .query false⟩,
    ⟨"body".toList, "body".toList, .type 1, .body .json⟩] = .ok args ∧ ¬ (flagNames args).Nodup :=
  ⟨_, rfl, by decide +kernel⟩
/- An array parameter: the functions do not compile. -/
example : ∃ args, cliArgs exUnicode exCli none [⟨"tags".toList, "tags".toList, .type 2, .query false⟩] = .ok args ∧
    cliCompiles exCli exTypes [⟨"tags".toList, "tags".toList, .type 2, .query false⟩] args = false :=
  ⟨_, rfl, by decide +kernel⟩
/- A list operation has flag `limit`. -/
example : itemsOk exUnicode ["get_it".toList, "list_all".toList] = true := by decide +kernel

end Progenitor.Props

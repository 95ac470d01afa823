import Verif.Spec.Errors
import Verif.Props.CompilesDoc
import Verif.Props.Schema

/-!
# C102: errors and panics
-/

namespace Progenitor.Props

open Progenitor Progenitor.Params Progenitor.Exec Progenitor.Spec Progenitor.Builder Progenitor.Doc Progenitor.Names Progenitor.Stream

theorem bind_err_iff {α β : Type} {x : Res α} {f : α → Res β} :
    (∃ m, (x >>= f) = .err m) ↔ (∃ m, x = .err m) ∨ ∃ a, x = .ok a ∧ ∃ m, f a = .err m := by
  cases x with
  | ok a =>
    rw [Res.bind_ok]
    constructor
    · intro h; exact .inr ⟨a, rfl, h⟩
    · rintro (⟨m, h⟩ | ⟨b, h, h'⟩)
      · cases h
      · cases h; exact h'
  | err m => exact ⟨fun _ => .inl ⟨m, rfl⟩, fun _ => ⟨m, rfl⟩⟩
  | panic m =>
    constructor
    · rintro ⟨m', h⟩; cases h
    · rintro (⟨m', h⟩ | ⟨b, h, _⟩) <;> cases h

theorem noErr_iff {α : Type} {x : Res α} : (∃ m, x = .err m) ↔ ¬ NoErr x := by
  unfold NoErr
  constructor
  · rintro ⟨m, h⟩ h'; exact h' m h
  · intro h; exact Classical.byContradiction fun hn => h fun m e => hn ⟨m, e⟩

/-! ## What never reports an error -/

theorem insertTail_noErr {α : Type} {less : α → α → Res Bool} (h : ∀ a b, NoErr (less a b)) (x : α) (l : List α) :
    NoErr (insertTail less x l) := by
  induction l with
  | nil => exact noErr_ok _
  | cons y ys ih =>
    unfold insertTail
    refine noErr_bind (h _ _) fun b => ?_
    cases b
    · exact noErr_ok _
    · exact noErr_bind ih fun _ => noErr_ok _

theorem sortLoop_noErr {α : Type} {less : α → α → Res Bool} (h : ∀ a b, NoErr (less a b)) (acc l : List α) :
    NoErr (sortLoop less acc l) := by
  induction l generalizing acc with
  | nil => exact noErr_ok _
  | cons x xs ih =>
    unfold sortLoop
    exact noErr_bind (insertTail_noErr h _ _) fun _ => ih _

theorem position_noErr (names : List Str) (n : Str) : NoErr (position names n) := by
  unfold position
  cases names.findIdx? (· == n) with
  | some i => exact noErr_ok _
  | none => exact noErr_panic _

theorem cmp_noErr (names : List Str) (a b : Param) : NoErr (cmp names a b) := by
  unfold cmp
  split <;> first
    | exact noErr_ok _
    | exact noErr_panic _
    | exact noErr_bind (position_noErr _ _) fun _ => noErr_bind (position_noErr _ _) fun _ => noErr_ok _

theorem sortParams_noErr (names : List Str) (l : List Param) : NoErr (sortParams names l) :=
  sortLoop_noErr (fun a b => noErr_bind (cmp_noErr names a b) fun _ => noErr_ok _) _ _

open Progenitor.Resp in
theorem kindOf_noErr (ws : Bool) (r : DocResponse) : NoErr (kindOf ws r) := by
  unfold kindOf
  split
  · split
    · split
      · exact noErr_ok _
      · exact noErr_panic _
    · exact noErr_panic _
  · split
    · exact noErr_ok _
    · split <;> exact noErr_ok _

open Progenitor.Resp in
theorem respAll_noErr (ws : Bool) (l : List (Status × DocResponse)) : NoErr (Resp.convertAll ws l) := by
  induction l with
  | nil => exact noErr_ok _
  | cons e l ih => exact noErr_bind (kindOf_noErr _ _) fun _ => noErr_bind ih fun _ => noErr_ok _

open Progenitor.Resp in
theorem processResponses_noErr (ws : Bool) (df : Option DocResponse) (codes : List (DocStatus × DocResponse)) :
    NoErr (processResponses ws df codes) :=
  noErr_bind (respAll_noErr _ _) fun _ => noErr_ok _

open Progenitor.Resp in
theorem toValue_noErr (s : Status) : NoErr s.toValue := by
  cases s with
  | code c =>
    simp only [Status.toValue]
    split
    · exact noErr_ok _
    · exact noErr_panic _
  | range r =>
    simp only [Status.toValue]
    split
    · exact noErr_ok _
    · exact noErr_panic _
  | default => exact noErr_ok _

open Progenitor.Resp in
theorem extract_noErr (f : Status → Bool) (rs : List Response) : NoErr (extract f rs) := by
  unfold extract
  refine noErr_bind (sortLoop_noErr (fun a b => noErr_bind (toValue_noErr _) fun _ => noErr_bind (toValue_noErr _) fun _ => noErr_ok _) _ _)
    fun items => ?_
  dsimp only
  split
  · exact noErr_ok _
  · split
    · exact noErr_ok _
    · exact noErr_panic _

open Progenitor.Resp in
theorem errorArms_noErr (rs : List Response) : NoErr (errorArms rs) := by
  induction rs with
  | nil => exact noErr_ok _
  | cons r rs ih =>
    refine noErr_bind ?_ fun _ => noErr_bind ih fun _ => noErr_ok _
    unfold errorArm
    dsimp only
    split
    · split
      · exact noErr_ok _
      · exact noErr_panic _
    · exact noErr_ok _

open Progenitor.Resp in
theorem genMatch_noErr (rs : List Response) : NoErr (genMatch rs) :=
  noErr_bind (extract_noErr _ _) fun _ => noErr_bind (extract_noErr _ _) fun _ => noErr_bind (errorArms_noErr _) fun _ => noErr_ok _

theorem bodyFuncs_noErr (l : List Param) : NoErr (bodyFuncs l) := by
  induction l with
  | nil => exact noErr_ok _
  | cons p l ih =>
    refine noErr_bind ih fun _ => ?_
    split <;> first | exact noErr_ok _ | exact noErr_panic _

theorem compile_noErr (t : Template.PathTemplate) (rename : Str → Option Str) : NoErr (Template.compile t rename) := by
  intro m hc
  unfold Template.compile at hc
  cases ha : Template.compileArgs rename t with
  | ok is => rw [ha] at hc; cases hc
  | err m' => exact Template.compileArgs_no_err rename t m' ha
  | panic m' => rw [ha] at hc; cases hc

theorem methodSigBody_noErr (op : OperationMethod) : NoErr (methodSigBody op) := by
  refine noErr_bind (compile_noErr _ _) fun _ => noErr_bind (bodyFuncs_noErr _) fun bs => noErr_bind ?_ fun _ =>
    noErr_bind (genMatch_noErr _) fun _ => noErr_ok _
  match bs with
  | [] => exact noErr_ok _
  | [_] => exact noErr_ok _
  | _ :: _ :: _ => exact noErr_panic _

/-! ## Parameters -/

theorem convert_err_iff (san : Str → Str) (p : DocParam) : (∃ m, convert san p = .err m) ↔ ParamError p := by
  obtain ⟨name, kind, required, hasSchema, ty⟩ := p
  cases kind with
  | path s => cases s <;> cases required <;> cases hasSchema <;> simp [convert, ParamError]
  | query f o => cases f <;> cases o <;> cases hasSchema <;> simp [convert, ParamError]
  | header => cases hasSchema <;> simp [convert, ParamError]
  | cookie => simp [convert, ParamError]

theorem convertAll_err_iff (san : Str → Str) (l : List DocParam) : (∃ m, Params.convertAll san l = .err m) ↔
    ∃ pre p post, l = pre ++ p :: post ∧ ParamError p ∧ ∀ q ∈ pre, ParamSupported q := by
  induction l with
  | nil =>
    constructor
    · rintro ⟨m, h⟩; cases h
    · rintro ⟨pre, p, post, h, _⟩; cases pre <;> cases h
  | cons x l ih =>
    have e : Params.convertAll san (x :: l) = (convert san x >>= fun q => Params.convertAll san l >>= fun qs => pure (q :: qs)) := rfl
    rw [e, bind_err_iff, convert_err_iff]
    constructor
    · rintro (h | ⟨a, ha, h⟩)
      · exact ⟨[], x, l, rfl, h, by simp⟩
      · rcases bind_err_iff.mp h with h | ⟨b, _, m, h⟩
        · obtain ⟨pre, p, post, rfl, hp, hq⟩ := ih.mp h
          refine ⟨x :: pre, p, post, rfl, hp, ?_⟩
          intro q hq'
          rcases List.mem_cons.mp hq' with rfl | hq'
          · exact (convert_iff san _).mp ⟨a, ha⟩
          · exact hq q hq'
        · cases h
    · rintro ⟨pre, p, post, hl, hp, hq⟩
      cases pre with
      | nil => cases hl; exact .inl hp
      | cons y pre =>
        cases hl
        obtain ⟨a, ha⟩ := (convert_iff san x).mpr (hq x (by simp))
        exact .inr ⟨a, ha, bind_err_iff.mpr (.inl (ih.mpr ⟨pre, p, post, rfl, hp, fun q h => hq q (by simp [h])⟩))⟩

theorem values_sorted (d : DocOperation) :
    (BTree.values (combined d.pathLevel d.opLevel)).Pairwise fun p q => strCmp p.name q.name = .lt := by
  unfold BTree.values
  rw [List.pairwise_map]
  refine (combined_sorted d.pathLevel d.opLevel).imp_of_mem ?_
  rintro ⟨k, p⟩ ⟨k', q⟩ hp hq h
  rw [combined_key hp, combined_key hq]
  exact h

theorem params_err_iff (san : Str → Str) (d : DocOperation) :
    (∃ m, Params.convertAll san (BTree.values (combined d.pathLevel d.opLevel)) = .err m) ↔
      ∃ p, Counts d p ∧ ParamError p ∧ ∀ q, Counts d q → LexLe q.name p.name → q.name ≠ p.name → ParamSupported q := by
  rw [convertAll_err_iff]
  have hs := values_sorted d
  constructor
  · rintro ⟨pre, p, post, hl, hp, hq⟩
    refine ⟨p, (counts_iff d p).mp (by rw [hl]; simp), hp, ?_⟩
    intro q hc hle hne
    have hm := (counts_iff d q).mpr hc
    rw [hl] at hm hs
    rcases List.mem_append.mp hm with hm | hm
    · exact hq q hm
    rcases List.mem_cons.mp hm with rfl | hm
    · exact absurd rfl hne
    · have := (List.pairwise_cons.mp (List.pairwise_append.mp hs).2.1).1 q hm
      exact absurd (strCmp_gt.mpr this) (lexLe_iff.mp hle)
  · rintro ⟨p, hc, hp, hq⟩
    obtain ⟨pre, post, hl⟩ := List.append_of_mem ((counts_iff d p).mpr hc)
    refine ⟨pre, p, post, hl, hp, ?_⟩
    intro q hm
    have hlt : strCmp q.name p.name = .lt := by
      rw [hl] at hs
      exact (List.pairwise_append.mp hs).2.2 q hm p (by simp)
    refine hq q ((counts_iff d q).mp (by rw [hl]; simp [hm])) (lexLe_iff.mpr (by rw [hlt]; exact fun h => by cases h)) ?_
    intro e
    rw [e, strCmp_refl] at hlt
    cases hlt

/-! ## Bodies -/

theorem parse_err_iff {ct base : Str} (hb : MediaBase ct base) : (∃ m, ContentType.parse ct = .err m) ↔
    base ∉ ["application/octet-stream", "application/json", "application/x-www-form-urlencoded", "text/plain", "text/x-markdown"].map
        String.toList := by
  have hn : ∀ m, ContentType.parse ct ≠ .panic m := by
    intro m h
    unfold ContentType.parse at h
    dsimp only at h
    repeat' split at h
    all_goals cases h
  have e : (∃ m, ContentType.parse ct = .err m) ↔ ¬ ∃ c, ContentType.parse ct = .ok c := by
    cases h : ContentType.parse ct with
    | ok c => simp
    | err m => simp
    | panic m => exact absurd h (hn m)
  rw [e]
  refine not_congr ?_
  simp only [List.map_cons, List.map_nil, List.mem_cons, List.not_mem_nil, or_false]
  constructor
  · rintro ⟨c, h⟩
    obtain ⟨b, hb', h⟩ := (mediaType_iff ct c).mp h
    rw [mediaBase_iff] at hb hb'
    rw [← hb, hb']
    rcases h with ⟨_, h⟩ | ⟨_, h⟩ | ⟨_, h⟩ | ⟨_, h | h⟩
    · exact .inl h
    · exact .inr (.inl h)
    · exact .inr (.inr (.inl h))
    · exact .inr (.inr (.inr (.inl h)))
    · exact .inr (.inr (.inr (.inr h)))
  · rintro (h | h | h | h | h)
    · exact ⟨_, (mediaType_iff ct _).mpr ⟨base, hb, .inl ⟨rfl, h⟩⟩⟩
    · exact ⟨_, (mediaType_iff ct _).mpr ⟨base, hb, .inr (.inl ⟨rfl, h⟩)⟩⟩
    · exact ⟨_, (mediaType_iff ct _).mpr ⟨base, hb, .inr (.inr (.inl ⟨rfl, h⟩))⟩⟩
    · exact ⟨_, (mediaType_iff ct _).mpr ⟨base, hb, .inr (.inr (.inr ⟨rfl, .inl h⟩))⟩⟩
    · exact ⟨_, (mediaType_iff ct _).mpr ⟨base, hb, .inr (.inr (.inr ⟨rfl, .inr h⟩))⟩⟩

theorem body_err_iff (body : Option (List (Str × BodyMedia))) : (∃ m, getBodyParam body = .err m) ↔ BodyError body := by
  unfold BodyError
  match body with
  | none => simp [getBodyParam]
  | some [] => simp [getBodyParam]
  | some (_ :: _ :: _) => simp [getBodyParam]
  | some [(ct, m)] =>
    obtain ⟨schema, enc⟩ := m
    cases schema with
    | none => exact ⟨fun _ => ⟨ct, _, rfl, .inl rfl⟩, fun _ => ⟨_, rfl⟩⟩
    | some s =>
      have hb := (mediaBase_iff ct _).mpr rfl
      have e : getBodyParam (some [(ct, ⟨some s, enc⟩)]) = (ContentType.parse ct >>= fun c => bodyType c ⟨some s, enc⟩ s >>= fun typ =>
        pure (some ⟨"body".toList, "body".toList, typ, .body c⟩)) := rfl
      rw [e, bind_err_iff, parse_err_iff hb]
      constructor
      · rintro (h | ⟨c, hc, h⟩)
        · exact ⟨ct, _, rfl, .inr ⟨s, _, rfl, hb, .inl h⟩⟩
        · refine ⟨ct, _, rfl, .inr ⟨s, _, rfl, hb, .inr ?_⟩⟩
          obtain ⟨base, hb', hcb⟩ := (mediaType_iff ct c).mp hc
          have hbb := (mediaBase_iff _ _).mp hb'
          rw [hbb]
          rcases bind_err_iff.mp h with ⟨m, h⟩ | ⟨t, _, m, h⟩
          · rcases hcb with ⟨rfl, hx⟩ | ⟨rfl, hx⟩ | ⟨rfl, hx⟩ | ⟨rfl, hx⟩
            · left; refine ⟨hx, ?_⟩
              simp only [bodyType] at h
              split at h
              · cases h
              · rename_i hs; exact Bool.eq_false_iff.mpr hs
            · simp only [bodyType] at h
              split at h <;> cases h
            · simp only [bodyType] at h
              split at h <;> cases h
            · right; refine ⟨hx, ?_⟩
              simp only [bodyType] at h
              split at h
              · cases h
              · rename_i hs; exact Bool.eq_false_iff.mpr hs
          · cases h
      · rintro ⟨ct', m', he, h⟩
        cases he
        rcases h with h | ⟨s', base, hs, hb', h⟩
        · cases h
        · cases hs
          have hbb := (mediaBase_iff _ _).mp hb'
          rcases h with h | ⟨h, hx⟩ | ⟨h, hx⟩
          · rw [hbb]; exact .inl h
          · right
            refine ⟨_, (mediaType_iff ct _).mpr ⟨base, hb', .inl ⟨rfl, h⟩⟩, bind_err_iff.mpr (.inl ?_)⟩
            simp [bodyType, hx]
          · right
            refine ⟨_, (mediaType_iff ct _).mpr ⟨base, hb', .inr (.inr (.inr ⟨rfl, h⟩))⟩, bind_err_iff.mpr (.inl ?_)⟩
            simp [bodyType, hx]

/-! ## The path -/

theorem template_err_iff (path : Str) : (∃ m, parseTemplate path = .err m) ↔ ¬ LaxPath path := by
  rw [← template_iff]
  unfold parseTemplate
  cases Template.parse path with
  | ok t => simp
  | error e => simp

/-- Every path parameter is used if there are several of them. -/
def AllUsed (path : Str) (d : DocOperation) : Prop :=
  ∀ p q, Counts d p → Counts d q → docLocation p.kind = .path → docLocation q.kind = .path → p ≠ q → p.name ∈ braceGroups path

theorem sort_iff {san : Str → Str} {d : DocOperation} {conv : List Param} {body : Option Param} {path : Str} {tmp : Template.PathTemplate}
    (hconv : Params.convertAll san (BTree.values (combined d.pathLevel d.opLevel)) = .ok conv) (hbody : getBodyParam d.body = .ok body)
    (htmp : parseTemplate path = .ok tmp) :
    (∃ ps, sortParams (Template.names tmp) (conv ++ body.toList) = .ok ps) ↔ AllUsed path d := by
  have hf := convertAll_forall₂ hconv
  have hnames := C02_names path tmp (parseTemplate_parse htmp)
  have hnb : ∀ p ∈ conv, location p.kind ≠ .body := by
    intro a ha
    obtain ⟨p, _, hpa⟩ := forall₂_right hf a ha
    exact convert_not_body hpa
  constructor
  · rintro ⟨ps, hps⟩
    intro p q hp hq hpk hqk hne
    obtain ⟨a, ha, hpa⟩ := forall₂_left hf p ((counts_iff d p).mpr hp)
    obtain ⟨b, hb, hqb⟩ := forall₂_left hf q ((counts_iff d q).mpr hq)
    have hda := (convert_describes hpa).1
    have hdb := (convert_describes hqb).1
    rcases sortParams_found hps with hlen | hfound
    · exfalso
      have hma : a ∈ (conv ++ body.toList).filter fun p => location p.kind == .path := by
        refine List.mem_filter.mpr ⟨by simp [ha], ?_⟩
        rw [(path_kind hda).mpr hpk]; rfl
      have hmb : b ∈ (conv ++ body.toList).filter fun p => location p.kind == .path := by
        refine List.mem_filter.mpr ⟨by simp [hb], ?_⟩
        rw [(path_kind hdb).mpr hqk]; rfl
      have hab : a = b := by
        generalize (conv ++ body.toList).filter (fun p => location p.kind == .path) = l at hma hmb hlen
        match l with
        | [] => cases hma
        | [x] =>
          simp only [List.mem_singleton] at hma hmb
          rw [hma, hmb]
        | _ :: _ :: _ => simp only [List.length_cons] at hlen; omega
      apply hne
      refine nodup_inj (values_names d.pathLevel d.opLevel) ((counts_iff d p).mpr hp) ((counts_iff d q).mpr hq) ?_
      rw [← hda.1, ← hdb.1, hab]
    · rw [← hnames, ← hda.1]
      exact hfound a (by simp [ha]) (by rw [(path_kind hda).mpr hpk]; rfl)
  · intro hused
    have hsort : (conv.filter fun p => location p.kind == .path).length ≤ 1 ∨ PathsFound (Template.names tmp) conv := by
      by_cases hfound : PathsFound (Template.names tmp) conv
      · exact .inr hfound
      · left
        unfold PathsFound at hfound
        simp only [Classical.not_forall] at hfound
        obtain ⟨a, ha, hka, hna⟩ := hfound
        obtain ⟨p, hp, hpa⟩ := forall₂_right hf a ha
        have hda := (convert_describes hpa).1
        have hpl : docLocation p.kind = .path := hda.2.1.symm.trans hka
        have hsame : ∀ b ∈ conv.filter (fun p => location p.kind == .path), b.apiName = a.apiName := by
          intro b hb
          obtain ⟨hb, hkb⟩ := List.mem_filter.mp hb
          obtain ⟨q, hq, hqb⟩ := forall₂_right hf b hb
          have hdb := (convert_describes hqb).1
          have hql : docLocation q.kind = .path := hdb.2.1.symm.trans (by simpa using hkb)
          by_cases hpq : p = q
          · rw [hda.1, hdb.1, hpq]
          · exfalso
            have := hused p q ((counts_iff d p).mp hp) ((counts_iff d q).mp hq) hpl hql hpq
            rw [← hnames, ← hda.1] at this
            exact hna this
        have hnd : ((conv.filter fun p => location p.kind == .path).map Param.apiName).Nodup := by
          have : (conv.map Param.apiName).Nodup := by rw [names_conv hf]; exact values_names _ _
          exact this.sublist (List.filter_sublist.map _)
        generalize conv.filter (fun p => location p.kind == .path) = l at hsame hnd
        match l with
        | [] => simp
        | [x] => simp
        | x :: y :: l =>
          exfalso
          have h1 := hsame x (by simp)
          have h2 := hsame y (by simp)
          simp only [List.map_cons, List.nodup_cons, List.mem_cons, not_or] at hnd
          exact hnd.1.1 (h1.trans h2.symm)
    exact ⟨_, sortParams_pure hsort hnb (body_location hbody)⟩

open Progenitor.Resp in
theorem responses_ok_iff (d : DocOperation) : (∃ rs, processResponses d.websocket d.default d.codes = .ok rs) ↔
    (∀ x, d.default = some x → ∃ k, Carries d.websocket x k) ∧ ∀ e ∈ d.codes, ∃ k, Carries d.websocket e.2 k := by
  constructor
  · rintro ⟨rs, h1⟩
    simp only [processResponses] at h1
    obtain ⟨rs', hc, _⟩ := bind_ok_inv h1
    have hall := forall₂_left (convertAll_kinds hc)
    refine ⟨fun x hx => ?_, fun e he => ?_⟩
    · obtain ⟨r, _, _, h⟩ := hall (.default, x) (by simp [hx])
      exact ⟨_, C24_kind.mp h⟩
    · obtain ⟨r, _, _, h⟩ := hall (e.1.toStatus, e.2) (List.mem_append_right _
          (List.mem_map_of_mem (f := fun e : DocStatus × DocResponse => (e.1.toStatus, e.2)) he))
      exact ⟨_, C24_kind.mp h⟩
  · rintro ⟨h1, h2⟩
    exact processResponses_of (fun x hx => (h1 x hx).imp fun _ h => C24_kind.mpr h) (fun e he => (h2 e he).imp fun _ h => C24_kind.mpr h)

/-! ## Operations -/

/-- `process_operation` and `method_sig_body` for one operation. -/
def methodFor (san : Str → Str) (types : Types) (path method : Str) (d : DocOperation) : Res Code := do
  let P ← processOperation san types path method d
  methodSigBody P.op

theorem method_err_iff (m : Str) : (∃ e, HttpMethod.parse m = .err e) ↔ m ∉ MethodNames := by
  rw [← method_iff]
  have hn : ∀ e, HttpMethod.parse m ≠ .panic e := by
    intro e h
    unfold HttpMethod.parse at h
    repeat' split at h
    all_goals cases h
  cases h : HttpMethod.parse m with
  | ok c => simp
  | err m => simp
  | panic m => exact absurd h (hn m)

theorem conflict_iff (d : DocOperation) (pg : Option Pagination) : (∃ m, noConflict d pg = .err m) ↔ d.websocket = true ∧ pg ≠ none := by
  unfold noConflict
  split
  · rename_i h; exact ⟨fun _ => ⟨h.1, by intro e; rw [e] at h; cases h.2⟩, fun _ => ⟨_, rfl⟩⟩
  · rename_i h
    constructor
    · rintro ⟨m, h'⟩; cases h'
    · rintro ⟨h1, h2⟩
      exact absurd ⟨h1, Option.isSome_iff_ne_none.mpr h2⟩ h

/-- The two last steps. -/
theorem last_iff (san : Str → Str) {types : Types} (hd : PropsDistinct types) (path method : Str) (d : DocOperation) :
    ∀ conv body tmp ps rs, Params.convertAll san (BTree.values (combined d.pathLevel d.opLevel)) = .ok conv →
      getBodyParam d.body = .ok body → parseTemplate path = .ok tmp → sortParams (Template.names tmp) (conv ++ body.toList) = .ok ps →
      Resp.processResponses d.websocket d.default d.codes = .ok rs →
      (((∃ m, noConflict d (paginationData types d.pagination ps rs) = .err m) ∨ method ∉ MethodNames) ↔
        (method ∉ MethodNames ∨ (d.websocket = true ∧ Paged types d))) := by
    intro conv body tmp ps rs h1 h2 h3 h4 h5
    by_cases hm : method ∈ MethodNames
    · obtain ⟨m, hm'⟩ := (method_iff _).mpr hm
      have hp : processOperation san types path method { d with pagination := none } =
          .ok ⟨{ operationId := san d.operationId, tags := d.tags, method := m, path := tmp, params := ps, responses := rs,
                 websocket := d.websocket }, none⟩ := by
        unfold processOperation
        simp only [h1, h2, h3, h4, h5, hm', Res.bind_ok]
        simp [paginationData, noConflict]
      have := paged_data_iff hd hp
      dsimp only at this
      rw [conflict_iff, this]
      simp [hm]
    · simp [hm]

/-- C102: exactly the operations for which an error is reported. -/
theorem C102_error_iff (san : Str → Str) {types : Types} (hd : PropsDistinct types) (path method : Str) (d : DocOperation) :
    (∃ m, methodFor san types path method d = .err m) ↔ OperationError types path method d := by
  have hproc : (∃ m, methodFor san types path method d = .err m) ↔ ∃ m, processOperation san types path method d = .err m := by
    unfold methodFor
    rw [bind_err_iff]
    constructor
    · rintro (h | ⟨P, _, m, h⟩)
      · exact h
      · exact absurd h (methodSigBody_noErr _ m)
    · exact .inl
  rw [hproc]
  have hlast := last_iff san hd path method d
  unfold processOperation
  rw [bind_err_iff, params_err_iff]
  constructor
  · rintro (⟨p, hc, hp, hq⟩ | ⟨conv, h1, h⟩)
    · exact .param p hc hp hq
    have hps : ∀ p, Counts d p → ParamSupported p := fun p hp => (convertAll_iff san _).mp ⟨_, h1⟩ p ((counts_iff d p).mpr hp)
    rcases bind_err_iff.mp h with h | ⟨body, h2, h⟩
    · exact .body hps ((body_err_iff _).mp h)
    have hbs := (body_iff _).mp ⟨_, h2⟩
    rcases bind_err_iff.mp h with h | ⟨tmp, h3, h⟩
    · exact .path hps hbs ((template_err_iff _).mp h)
    have hlax := (template_iff _).mp ⟨_, h3⟩
    rcases bind_err_iff.mp h with ⟨m, h⟩ | ⟨ps, h4, h⟩
    · exact absurd h (sortParams_noErr _ _ m)
    have hu := (sort_iff h1 h2 h3).mp ⟨_, h4⟩
    rcases bind_err_iff.mp h with ⟨m, h⟩ | ⟨rs, h5, h⟩
    · exact absurd h (processResponses_noErr _ _ _ m)
    have hr := (responses_ok_iff d).mp ⟨_, h5⟩
    refine .last hps hbs hlax hu hr.1 hr.2 ((hlast conv body tmp ps rs h1 h2 h3 h4 h5).mp ?_)
    rcases bind_err_iff.mp h with h | ⟨_, h6, h⟩
    · exact .inl h
    rcases bind_err_iff.mp h with h | ⟨_, _, m, h⟩
    · exact .inr ((method_err_iff _).mp h)
    · cases h
  · intro h
    cases h with
    | param p hc hp hq => exact .inl ⟨p, hc, hp, hq⟩
    | body hps hb =>
      obtain ⟨conv, h1⟩ := (convertAll_iff san (BTree.values (combined d.pathLevel d.opLevel))).mpr
        fun p hp => hps p ((counts_iff d p).mp hp)
      exact .inr ⟨conv, h1, bind_err_iff.mpr (.inl ((body_err_iff _).mpr hb))⟩
    | path hps hb hl =>
      obtain ⟨conv, h1⟩ := (convertAll_iff san (BTree.values (combined d.pathLevel d.opLevel))).mpr
        fun p hp => hps p ((counts_iff d p).mp hp)
      obtain ⟨body, h2⟩ := (body_iff _).mpr hb
      exact .inr ⟨conv, h1, bind_err_iff.mpr (.inr ⟨body, h2, bind_err_iff.mpr (.inl ((template_err_iff _).mpr hl))⟩)⟩
    | last hps hb hl hu hr1 hr2 hx =>
      obtain ⟨conv, h1⟩ := (convertAll_iff san (BTree.values (combined d.pathLevel d.opLevel))).mpr
        fun p hp => hps p ((counts_iff d p).mp hp)
      obtain ⟨body, h2⟩ := (body_iff _).mpr hb
      obtain ⟨tmp, h3⟩ := (template_iff _).mpr hl
      obtain ⟨ps, h4⟩ := (sort_iff h1 h2 h3).mpr hu
      obtain ⟨rs, h5⟩ := (responses_ok_iff d).mpr ⟨hr1, hr2⟩
      refine .inr ⟨conv, h1, bind_err_iff.mpr (.inr ⟨body, h2, bind_err_iff.mpr (.inr ⟨tmp, h3, bind_err_iff.mpr (.inr ⟨ps, h4,
        bind_err_iff.mpr (.inr ⟨rs, h5, bind_err_iff.mpr ?_⟩)⟩)⟩)⟩)⟩
      by_cases hc : ∃ m, noConflict d (paginationData types d.pagination ps rs) = .err m
      · exact .inl hc
      · have hm : method ∉ MethodNames := by
          rcases (hlast conv body tmp ps rs h1 h2 h3 h4 h5).mpr hx with h | h
          · exact absurd h hc
          · exact h
        right
        refine ⟨(), ?_, bind_err_iff.mpr (.inl ((method_err_iff _).mpr hm))⟩
        unfold noConflict at hc ⊢
        split
        · rename_i h'
          rw [if_pos h'] at hc
          exact absurd ⟨_, rfl⟩ hc
        · rfl

/-- C102: exactly the operations for which the generator panics. -/
theorem C102_panic_iff (san : Str → Str) {types : Types} (hd : PropsDistinct types) (path method : Str) (d : DocOperation) :
    (∃ m, methodFor san types path method d = .panic m) ↔
      ¬ OperationSupported path method d ∧ ¬ OperationError types path method d := by
  rw [← C102_error_iff san hd, ← C85_operation_iff san types]
  have hok : (∃ P c, processOperation san types path method d = .ok P ∧ methodSigBody P.op = .ok c) ↔
      ∃ c, methodFor san types path method d = .ok c := by
    unfold methodFor
    constructor
    · rintro ⟨P, c, h1, h2⟩; exact ⟨c, by rw [h1]; exact h2⟩
    · rintro ⟨c, h⟩
      obtain ⟨P, h1, h2⟩ := bind_ok_inv h
      exact ⟨P, c, h1, h2⟩
  rw [hok]
  cases methodFor san types path method d <;> simp

/-! ## Documents -/

theorem process_ok_iff (san : Str → Str) {types : Types} (hd : PropsDistinct types) (path method : Str) (d : DocOperation) :
    (∃ P, processOperation san types path method d = .ok P) ↔ PassesFirst types path method d := by
  constructor
  · rintro ⟨P, hP⟩
    unfold processOperation at hP
    obtain ⟨conv, h1, hP⟩ := bind_ok_inv hP
    obtain ⟨body, h2, hP⟩ := bind_ok_inv hP
    obtain ⟨tmp, h3, hP⟩ := bind_ok_inv hP
    obtain ⟨ps, h4, hP⟩ := bind_ok_inv hP
    obtain ⟨rs, h5, hP⟩ := bind_ok_inv hP
    obtain ⟨_, h6, hP⟩ := bind_ok_inv hP
    obtain ⟨m, h7, hP⟩ := bind_ok_inv hP
    have hr := (responses_ok_iff d).mp ⟨_, h5⟩
    have hm := (method_iff _).mp ⟨_, h7⟩
    refine ⟨fun p hp => (convertAll_iff san _).mp ⟨_, h1⟩ p ((counts_iff d p).mpr hp), (body_iff _).mp ⟨_, h2⟩,
      (template_iff _).mp ⟨_, h3⟩, (sort_iff h1 h2 h3).mp ⟨_, h4⟩, hr.1, hr.2, hm, ?_⟩
    intro hw hpg
    rcases (last_iff san hd path method d conv body tmp ps rs h1 h2 h3 h4 h5).mpr (.inr ⟨hw, hpg⟩) with ⟨e, h⟩ | h
    · rw [h6] at h; cases h
    · exact h hm
  · rintro ⟨hps, hb, hl, hu, hr1, hr2, hm, hpg⟩
    obtain ⟨conv, h1⟩ := (convertAll_iff san (BTree.values (combined d.pathLevel d.opLevel))).mpr
      fun p hp => hps p ((counts_iff d p).mp hp)
    obtain ⟨body, h2⟩ := (body_iff _).mpr hb
    obtain ⟨tmp, h3⟩ := (template_iff _).mpr hl
    obtain ⟨ps, h4⟩ := (sort_iff h1 h2 h3).mpr hu
    obtain ⟨rs, h5⟩ := (responses_ok_iff d).mpr ⟨hr1, hr2⟩
    obtain ⟨m, h7⟩ := (method_iff _).mpr hm
    have h6 : noConflict d (paginationData types d.pagination ps rs) = .ok () := by
      have hn : ¬ ∃ e, noConflict d (paginationData types d.pagination ps rs) = .err e := by
        intro he
        rcases (last_iff san hd path method d conv body tmp ps rs h1 h2 h3 h4 h5).mp (.inl he) with h | ⟨hw, h⟩
        · exact h hm
        · exact hpg hw h
      unfold noConflict at hn ⊢
      split
      · rename_i h'
        rw [if_pos h'] at hn
        exact absurd ⟨_, rfl⟩ hn
      · rfl
    unfold processOperation
    simp only [h1, h2, h3, h4, h5, h6, h7, Res.bind_ok]
    exact ⟨_, rfl⟩

theorem process_err_iff (san : Str → Str) {types : Types} (hd : PropsDistinct types) (path method : Str) (d : DocOperation) :
    (∃ m, processOperation san types path method d = .err m) ↔ OperationError types path method d := by
  rw [← C102_error_iff san hd]
  unfold methodFor
  rw [bind_err_iff]
  constructor
  · exact .inl
  · rintro (h | ⟨P, _, m, h⟩)
    · exact h
    · exact absurd h (methodSigBody_noErr _ m)

theorem error_id {types : Types} {path m : Str} {d : DocOperation} {id : Str} :
    OperationError types path m { d with operationId := id } ↔ OperationError types path m d := by
  constructor
  · intro h
    cases h with
    | param p hc hp hq => exact .param p hc hp hq
    | body hps hb => exact .body hps hb
    | path hps hb hl => exact .path hps hb hl
    | last hps hb hl hu hr1 hr2 hx =>
      refine .last hps hb hl hu hr1 hr2 (hx.imp (fun h => h) fun h => ⟨h.1, ?_⟩)
      obtain ⟨h1, h2, h3, h4, h5, h6⟩ := h.2
      exact ⟨h1, h2, h3, h4, h5, h6⟩
  · intro h
    cases h with
    | param p hc hp hq => exact .param p hc hp hq
    | body hps hb => exact .body hps hb
    | path hps hb hl => exact .path hps hb hl
    | last hps hb hl hu hr1 hr2 hx =>
      refine .last hps hb hl hu hr1 hr2 (hx.imp (fun h => h) fun h => ⟨h.1, ?_⟩)
      obtain ⟨h1, h2, h3, h4, h5, h6⟩ := h.2
      exact ⟨h1, h2, h3, h4, h5, h6⟩

theorem passes_id {types : Types} {path m : Str} {d : DocOperation} {id : Str} :
    PassesFirst types path m { d with operationId := id } ↔ PassesFirst types path m d := by
  constructor
  · rintro ⟨h1, h2, h3, h4, h5, h6, h7, h8⟩
    refine ⟨h1, h2, h3, h4, h5, h6, h7, fun hw h => h8 hw ?_⟩
    obtain ⟨h1, h2, h3, h4, h5, h6⟩ := h
    exact ⟨h1, h2, h3, h4, h5, h6⟩
  · rintro ⟨h1, h2, h3, h4, h5, h6, h7, h8⟩
    refine ⟨h1, h2, h3, h4, h5, h6, h7, fun hw h => h8 hw ?_⟩
    obtain ⟨h1, h2, h3, h4, h5, h6⟩ := h
    exact ⟨h1, h2, h3, h4, h5, h6⟩

variable {B : Type}

theorem genParams_noErr (tt : TypeTable B) (l : List Param) : NoErr (genParams tt l) := by
  induction l with
  | nil => exact noErr_ok _
  | cons p l ih =>
    refine noErr_bind ?_ fun _ => ih
    unfold genParam
    split
    · split
      · split
        · split
          · exact noErr_ok _
          · exact noErr_panic _
        · exact noErr_panic _
      · exact noErr_ok _
    · split <;> first | exact noErr_ok _ | exact noErr_panic _

theorem operationCode_noErr (tt : TypeTable B) (i : Interface) (t : TagStyle) (ms : List Processed) : NoErr (operationCode tt i t ms) := by
  have hpos : ∀ ms, NoErr (positionalAll ms) := by
    intro ms
    induction ms with
    | nil => exact noErr_ok _
    | cons p ms ih => exact noErr_bind (methodSigBody_noErr _) fun _ => noErr_bind ih fun _ => noErr_ok _
  have hbld : ∀ ms, NoErr (builderAll tt ms) := by
    intro ms
    induction ms with
    | nil => exact noErr_ok _
    | cons p ms ih =>
      exact noErr_bind (noErr_bind (genParams_noErr _ _) fun _ => methodSigBody_noErr _) fun _ => noErr_bind ih fun _ => noErr_ok _
  cases i with
  | positional =>
    cases t with
    | merged => exact hpos ms
    | separate => exact noErr_panic _
  | builder => exact hbld ms

theorem validate_err_iff {u : Unicode} (h : Lawful u) (d : Document) : (∃ m, validate u d = .err m) ↔ ¬ ValidDoc u d := by
  rw [← C44_validate_iff h d]
  have hops : ∀ path ids ops e, validateOps path ids ops ≠ .panic e := by
    intro path ids ops e
    induction ops generalizing ids with
    | nil => intro h; cases h
    | cons o ops ih =>
      obtain ⟨m, o⟩ := o
      unfold validateOps
      split
      · split
        · intro h; cases h
        · exact ih _
      · intro h; cases h
  have hpaths : ∀ ids ps e, validatePaths ids ps ≠ .panic e := by
    intro ids ps e
    induction ps generalizing ids with
    | nil => intro h; cases h
    | cons o ps ih =>
      obtain ⟨m, o⟩ := o
      cases o with
      | none => intro h; cases h
      | some ops =>
        unfold validatePaths
        dsimp only
        cases hv : validateOps m ids ops with
        | ok ids' => exact ih ids'
        | err e => intro h; cases h
        | panic e => exact absurd hv (hops _ _ _ _)
  have hv : ∀ e, validate u d ≠ .panic e := by
    intro e
    unfold validate validateVersion
    split
    · cases hp : validatePaths [] d.paths with
      | ok ids' => intro h; rw [Res.bind_ok, Res.bind_ok] at h; cases h
      | err e => intro h; cases h
      | panic e => exact absurd hp (hpaths _ _ _)
    · intro h; cases h
  cases hx : validate u d with
  | ok a => simp [Res.isOk]
  | err e => simp [Res.isOk]
  | panic e => exact absurd hx (hv e)

/-- C102: exactly the documents for which an error is returned: invalid ones, and those where the first operation that does not pass the
first pass has a deficiency that is reported. -/
theorem C102_document_iff {u : Unicode} (h : Lawful u) {types : Types} (hd : PropsDistinct types) (tt : TypeTable B) (i : Interface)
    (t : TagStyle) (d : Document) :
    (∃ m, generate u types tt i t d = .err m) ↔ ¬ ValidDoc u d ∨
      ∃ pre path m o post, routes d = pre ++ (path, m, o) :: post ∧ OperationError types path m o.op ∧
        ∀ path' m' o', (path', m', o') ∈ pre → PassesFirst types path' m' o'.op := by
  rw [← routes_eq]
  unfold generate rawMethods
  rw [bind_err_iff, bind_err_iff, validate_err_iff h]
  have hcode : ∀ ms : List Processed, ¬ ∃ m, (operationCode tt i t ms >>= fun cs => (pure (ms, cs) : Res (List Processed × List Code))) = .err m :=
    fun ms ⟨m, hm⟩ => noErr_bind (operationCode_noErr tt i t ms) (fun _ => noErr_ok _) m hm
  have hall : ∀ os : List (Str × Str × RawOperation), (∀ o ∈ os, o.2.2.id ≠ none) → ((∃ m, processAll u types os = .err m) ↔
      ∃ pre path m o post, os = pre ++ (path, m, o) :: post ∧ OperationError types path m o.op ∧
        ∀ path' m' o', (path', m', o') ∈ pre → PassesFirst types path' m' o'.op) := by
    intro os hid
    induction os with
    | nil =>
      constructor
      · rintro ⟨m, h⟩; cases h
      · rintro ⟨pre, _, _, _, _, h, _⟩; cases pre <;> cases h
    | cons x os ih =>
      obtain ⟨path, m, o⟩ := x
      obtain ⟨id, hi⟩ := Option.ne_none_iff_exists'.mp (hid (path, m, o) (by simp))
      have e : processAll u types ((path, m, o) :: os) =
          (processOperation (sanitize u .snake) types path m { o.op with operationId := id } >>= fun p =>
            processAll u types os >>= fun ps => pure (p :: ps)) := by
        simp only [processAll, processOne]
        dsimp only at hi
        rw [hi]
      have ih := ih fun o ho => hid o (by simp [ho])
      rw [e, bind_err_iff, process_err_iff _ hd, error_id]
      constructor
      · rintro (he | ⟨P, hP, he⟩)
        · exact ⟨[], path, m, o, os, rfl, he, by simp⟩
        · rcases bind_err_iff.mp he with he | ⟨_, _, _, he⟩
          · obtain ⟨pre, path', m', o', post, rfl, ho, hpre⟩ := ih.mp he
            refine ⟨(path, m, o) :: pre, path', m', o', post, rfl, ho, ?_⟩
            intro path' m' o' hm
            rcases List.mem_cons.mp hm with hm | hm
            · cases hm
              exact passes_id.mp ((process_ok_iff _ hd _ _ _).mp ⟨P, hP⟩)
            · exact hpre _ _ _ hm
          · cases he
      · rintro ⟨pre, path', m', o', post, hos, ho, hpre⟩
        cases pre with
        | nil => cases hos; exact .inl ho
        | cons y pre =>
          cases hos
          obtain ⟨P, hP⟩ := (process_ok_iff (sanitize u .snake) hd _ _ _).mpr (passes_id (id := id).mpr (hpre path m o (by simp)))
          exact .inr ⟨P, hP, bind_err_iff.mpr (.inl (ih.mpr ⟨pre, path', m', o', post, rfl, ho, fun a b c hm => hpre a b c (by simp [hm])⟩))⟩
  have hids : ValidDoc u d → ∀ o ∈ operations d, o.2.2.id ≠ none := by
    rintro hv ⟨path, m, o⟩ ho
    have : o ∈ opsOf d := by
      unfold operations at ho
      obtain ⟨⟨pth, item⟩, hp, hmem⟩ := List.mem_flatMap.mp ho
      cases item with
      | none => cases hmem
      | some ops =>
        obtain ⟨⟨m', o'⟩, ho', e⟩ := List.mem_map.mp hmem
        cases e
        unfold opsOf
        refine List.mem_flatMap.mpr ⟨_, hp, ?_⟩
        exact List.mem_map_of_mem (f := Prod.snd) ho'
    exact hv.hasId o this
  by_cases hv : ValidDoc u d
  · rw [← hall _ (hids hv)]
    obtain ⟨x, hx⟩ := (isOk_iff _).mp ((C44_validate_iff h d).mpr hv)
    constructor
    · rintro ((hn | ⟨_, _, he⟩) | ⟨ms, _, hc⟩)
      · exact absurd hv hn
      · exact .inr he
      · exact absurd hc (hcode ms)
    · rintro (hn | he)
      · exact absurd hv hn
      · exact .inl (.inr ⟨x, hx, he⟩)
  · exact ⟨fun _ => .inl hv, fun _ => .inl (.inl hv)⟩

/-- C102: exactly the documents for which the generator panics: valid ones that are not supported (C85) and where the first operation that
does not pass the first pass, if there is one, has a deficiency that is not reported. -/
theorem C102_document_panic_iff {u : Unicode} (h : Lawful u) {types : Types} (hd : PropsDistinct types) (tt : TypeTable B) (i : Interface)
    (t : TagStyle) (d : Document) :
    (∃ m, generate u types tt i t d = .panic m) ↔ ValidDoc u d ∧
      (∀ pre path m o post, routes d = pre ++ (path, m, o) :: post → OperationError types path m o.op →
        ∃ path' m' o', (path', m', o') ∈ pre ∧ ¬ PassesFirst types path' m' o'.op) ∧
      ((i = .positional ∧ t = .separate) ∨ ∃ path m o, (path, m, o) ∈ routes d ∧
        ¬ (OperationSupported path m o.op ∧ (i = .builder → BuilderSupported u tt o.op))) := by
  have hok := C85_generates_iff h types tt i t d
  have herr := C102_document_iff h hd tt i t d
  have h3 : (∃ m, generate u types tt i t d = .panic m) ↔
      ¬ (∃ r, generate u types tt i t d = .ok r) ∧ ¬ ∃ m, generate u types tt i t d = .err m := by
    cases generate u types tt i t d <;> simp
  rw [h3, hok, herr]
  constructor
  · rintro ⟨h1, h2⟩
    have hv : ValidDoc u d := Classical.byContradiction fun hv => h2 (.inl hv)
    refine ⟨hv, ?_, ?_⟩
    · intro pre path m o post hr he
      apply Classical.byContradiction
      intro hn
      refine h2 (.inr ⟨pre, path, m, o, post, hr, he, fun path' m' o' hm => ?_⟩)
      exact Classical.byContradiction fun hp => hn ⟨path', m', o', hm, hp⟩
    · apply Classical.byContradiction
      intro hn
      refine h1 ⟨hv, ?_, ?_⟩
      · intro hi
        cases t with
        | merged => rfl
        | separate => exact absurd (.inl ⟨hi, rfl⟩) hn
      · intro path m o hm
        exact Classical.byContradiction fun hs => hn (.inr ⟨path, m, o, hm, hs⟩)
  · rintro ⟨hv, hfirst, hbad⟩
    refine ⟨?_, ?_⟩
    · rintro ⟨_, hi, hall⟩
      rcases hbad with ⟨hi', ht⟩ | ⟨path, m, o, hm, hs⟩
      · rw [hi hi'] at ht; cases ht
      · exact hs (hall path m o hm)
    · rintro (hn | ⟨pre, path, m, o, post, hr, he, hpre⟩)
      · exact hn hv
      · obtain ⟨path', m', o', hm, hp⟩ := hfirst pre path m o post hr he
        exact hp (hpre path' m' o' hm)

/-! ## Examples -/

namespace ErrorsExample

def isErr : Res Code → Bool
  | .err _ => true
  | _ => false

theorem isErr_iff {r : Res Code} : isErr r = true ↔ ∃ m, r = .err m := by
  cases r <;> simp [isErr]

def isPan : Res Code → Bool
  | .panic _ => true
  | _ => false

theorem isPan_iff {r : Res Code} : isPan r = true ↔ ∃ m, r = .panic m := by
  cases r <;> simp [isPan]

/-- A page of strings is type 1, `limit` and `page_token` are of types 5 and 4. -/
def wsTypes : Types := fun t =>
  if t = 1 then some (.struct [("next_page".toList, 2), ("items".toList, 3)])
  else if t = 2 then some (.option 4)
  else if t = 3 then some (.vec 4)
  else if t = 4 then some .string
  else none

theorem wsTypes_distinct : PropsDistinct wsTypes := by
  intro t props h
  unfold wsTypes at h
  split at h
  · cases h; decide
  · repeat' split at h
    all_goals cases h

def run (path method : String) (d : DocOperation) : Res Code := methodFor id wsTypes path.toList method.toList d

/-- A cookie. -/
def cookie : DocOperation := { AcceptExample.good with opLevel := [] }
/-- A path parameter that need not be given and sorts before the cookie. -/
def loose : DocOperation :=
  { AcceptExample.good with pathLevel := [⟨"id".toList, .path true, false, true, 0⟩, ⟨"q".toList, .cookie, false, true, 1⟩], opLevel := [] }
/-- The cookie sorts before the path parameter. -/
def early : DocOperation :=
  { AcceptExample.good with pathLevel := [⟨"id".toList, .path true, false, true, 0⟩, ⟨"a".toList, .cookie, false, true, 1⟩], opLevel := [] }
/-- Pages from a websocket. -/
def wsPages : DocOperation :=
  { operationId := "pages".toList, tags := [], pathLevel := [],
    opLevel := [⟨"limit".toList, .query true none, false, true, 5⟩, ⟨"page_token".toList, .query true none, false, true, 4⟩],
    body := none, default := none, codes := [(.code 200, [("application/json".toList, ⟨true, some 1⟩)])],
    websocket := true, pagination := some [] }

end ErrorsExample

open ErrorsExample

/-- An unsupported parameter is reported. -/
example : OperationError wsTypes "/things/{id}".toList "put".toList cookie :=
  (C102_error_iff id wsTypes_distinct _ _ _).mp (isErr_iff.mp (by decide +kernel))

/-- The first of two deficiencies decides. -/
example : OperationError wsTypes "/things/{id}".toList "put".toList early ∧
    ¬ OperationError wsTypes "/things/{id}".toList "put".toList loose :=
  ⟨(C102_error_iff id wsTypes_distinct _ _ _).mp (isErr_iff.mp (by decide +kernel)),
   ((C102_panic_iff id wsTypes_distinct _ _ _).mp (isPan_iff.mp (by decide +kernel))).2⟩

/-- A malformed path is reported. -/
example : OperationError wsTypes "things".toList "put".toList AcceptExample.good ∧
    OperationError wsTypes "/things/{id".toList "put".toList AcceptExample.good :=
  ⟨(C102_error_iff id wsTypes_distinct _ _ _).mp (isErr_iff.mp (by decide +kernel)),
   (C102_error_iff id wsTypes_distinct _ _ _).mp (isErr_iff.mp (by decide +kernel))⟩

/-- A name in the path without a parameter is a panic. -/
example : ¬ OperationSupported "/things/{id}/{x}".toList "put".toList AcceptExample.good ∧
    ¬ OperationError wsTypes "/things/{id}/{x}".toList "put".toList AcceptExample.good :=
  (C102_panic_iff id wsTypes_distinct _ _ _).mp (isPan_iff.mp (by decide +kernel))

/-- A method that is not one of HTTP, and pages from a websocket. -/
example : OperationError wsTypes "/things/{id}".toList "fetch".toList AcceptExample.good ∧
    OperationError wsTypes "/pages".toList "get".toList wsPages :=
  ⟨(C102_error_iff id wsTypes_distinct _ _ _).mp (isErr_iff.mp (by decide +kernel)),
   (C102_error_iff id wsTypes_distinct _ _ _).mp (isErr_iff.mp (by decide +kernel))⟩

/-- A document whose second operation has a cookie; one without ids is invalid. -/
example : (∃ m, generate exUnicode wsTypes AcceptExample.noBuilders .positional .merged
      ⟨"3.0.3".toList, [("/things/{id}".toList, some [("put".toList, ⟨some "a".toList, AcceptExample.good⟩),
        ("post".toList, ⟨some "b".toList, cookie⟩)])]⟩ = .err m) ∧
    ∃ m, generate exUnicode wsTypes AcceptExample.noBuilders .positional .separate
      ⟨"3.0.3".toList, [("/things/{id}".toList, some [("put".toList, ⟨none, AcceptExample.good⟩)])]⟩ = .err m := by
  have herr : ∀ {α : Type} (r : Res α), (match r with | .err _ => true | _ => false) = true → ∃ m, r = .err m := by
    intro α r h
    cases r <;> simp_all
  exact ⟨herr _ (by decide +kernel), herr _ (by decide +kernel)⟩

/-- An operation that panics in the second pass does not hide the error of a later one. -/
example : PassesFirst wsTypes "/things/{id}/{x}".toList "put".toList AcceptExample.good :=
  (process_ok_iff id wsTypes_distinct _ _ _).mp ((isOk_iff _).mp (by decide +kernel))

/-- A name without a parameter in the path of one operation is a panic, unless a later operation has an error. -/
example : (∃ m, generate exUnicode wsTypes AcceptExample.noBuilders .positional .merged
      ⟨"3.0.3".toList, [("/things/{id}/{x}".toList, some [("put".toList, ⟨some "a".toList, AcceptExample.good⟩)])]⟩ = .panic m) ∧
    ∃ m, generate exUnicode wsTypes AcceptExample.noBuilders .positional .merged
      ⟨"3.0.3".toList, [("/things/{id}/{x}".toList, some [("put".toList, ⟨some "a".toList, AcceptExample.good⟩),
        ("post".toList, ⟨some "b".toList, cookie⟩)])]⟩ = .err m := by
  have hpan : ∀ {α : Type} (r : Res α), (match r with | .panic _ => true | _ => false) = true → ∃ m, r = .panic m := by
    intro α r h
    cases r <;> simp_all
  have herr : ∀ {α : Type} (r : Res α), (match r with | .err _ => true | _ => false) = true → ∃ m, r = .err m := by
    intro α r h
    cases r <;> simp_all
  exact ⟨hpan _ (by decide +kernel), herr _ (by decide +kernel)⟩

/-- The conflict is with pages as the document describes them. -/
example : Paged wsTypes wsPages := by
  rcases (C102_error_iff id wsTypes_distinct "/pages".toList "get".toList wsPages).mp (isErr_iff.mp (by decide +kernel)) with
    ⟨p, hc, hp, _⟩ | ⟨_, hb⟩ | ⟨_, _, hl⟩ | ⟨_, _, _, _, _, _, hm | h⟩
  · have hc := (counts_iff _ _).mpr hc
    have : p = ⟨"limit".toList, .query true none, false, true, 5⟩ ∨ p = ⟨"page_token".toList, .query true none, false, true, 4⟩ := by
      have e : BTree.values (combined wsPages.pathLevel wsPages.opLevel) =
          [⟨"limit".toList, .query true none, false, true, 5⟩, ⟨"page_token".toList, .query true none, false, true, 4⟩] := by decide +kernel
      rw [e] at hc
      simpa using hc
    rcases this with rfl | rfl <;> simp [ParamError] at hp
  · obtain ⟨ct, m, h, _⟩ := hb
    cases h
  · exact absurd ((template_iff _).mp ((isOk_iff _).mp (by decide +kernel))) hl
  · exact absurd (by decide +kernel) hm
  · exact h.2

end Progenitor.Props

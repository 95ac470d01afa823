import Verif.Spec.Route
import Verif.Props.Reply
import Verif.Props.Confined

/-!
# C80: requests are taken for the operation that was called
-/

namespace Progenitor.Props

open Progenitor Progenitor.Params Progenitor.Client Progenitor.Exec
open Progenitor.Spec

/-! ## Templates -/

theorem forall₂_imp' {α β : Type} {R S : α → β → Prop} {l : List α} {m : List β} (h : Forall₂ R l m)
    (hi : ∀ a ∈ l, ∀ b ∈ m, R a b → S a b) : Forall₂ S l m := by
  induction h with
  | nil => exact .nil
  | cons h _ ih => exact .cons (hi _ (by simp) _ (by simp) h) (ih fun a ha b hb => hi a (by simp [ha]) b (by simp [hb]))

theorem meets_iff (s s' : Seg) : (∃ x, SegFits s x ∧ SegFits s' x) ↔ SegMeets s s' := by
  cases s with
  | lit t =>
    constructor
    · rintro ⟨x, h, h'⟩; cases h; exact h'
    · intro h; exact ⟨_, rfl, h⟩
  | par n pre post => cases s' with
    | lit t =>
      constructor
      · rintro ⟨x, h, h'⟩; cases h'; exact h
      · intro h; exact ⟨_, h, rfl⟩
    | par n' pre' post' =>
      constructor
      · rintro ⟨x, ⟨y, rfl⟩, y', h⟩
        refine ⟨List.prefix_or_prefix_of_prefix (l₃ := percentDecode pre ++ y ++ percentDecode post) ?_ ?_,
          List.suffix_or_suffix_of_suffix (l₃ := percentDecode pre ++ y ++ percentDecode post) ?_ ?_⟩
        · exact ⟨y ++ percentDecode post, by simp⟩
        · exact ⟨y' ++ percentDecode post', by rw [h]; simp⟩
        · exact ⟨percentDecode pre ++ y, rfl⟩
        · exact ⟨percentDecode pre' ++ y', h.symm⟩
      · rintro ⟨h1, h2⟩
        obtain ⟨p, a, a', ha, ha'⟩ : ∃ p a a', p = percentDecode pre ++ a ∧ p = percentDecode pre' ++ a' := by
          rcases h1 with ⟨a, h⟩ | ⟨a, h⟩
          · exact ⟨_, a, [], h.symm, by simp⟩
          · exact ⟨_, [], a, by simp, h.symm⟩
        obtain ⟨q, b, b', hb, hb'⟩ : ∃ q b b', q = b ++ percentDecode post ∧ q = b' ++ percentDecode post' := by
          rcases h2 with ⟨b, h⟩ | ⟨b, h⟩
          · exact ⟨_, b, [], h.symm, by simp⟩
          · exact ⟨_, [], b, by simp, h.symm⟩
        exact ⟨p ++ q, ⟨a ++ b, by rw [ha, hb]; simp⟩, ⟨a' ++ b', by rw [ha', hb']; simp⟩⟩

/-- C80: some path is read as both templates exactly if they have as many segments and can be filled in to be
equal at every position. -/
theorem C80_meets_iff (l l' : List Seg) : (∃ segs, Routed l segs ∧ Routed l' segs) ↔ Forall₂ SegMeets l l' := by
  constructor
  · rintro ⟨segs, h, h'⟩
    unfold Routed at h h'
    induction h generalizing l' with
    | nil => cases h'; exact .nil
    | @cons s x l xs h _ ih =>
      cases h' with
      | @cons s' _ l' _ h' ht' =>
        exact .cons ((meets_iff s s').mp ⟨x, h, h'⟩) (ih l' ht')
  · intro h
    induction h with
    | nil => exact ⟨[], .nil, .nil⟩
    | @cons s s' l l' h _ ih =>
      obtain ⟨segs, h1, h2⟩ := ih
      obtain ⟨x, hx, hx'⟩ := (meets_iff s s').mpr h
      exact ⟨x :: segs, .cons hx h1, .cons hx' h2⟩

theorem segsText_start (l : List Seg) : segsText l = [] ∨ ∃ s, segsText l = '/' :: s := by
  cases l with
  | nil => exact .inl rfl
  | cons s l => cases s <;> exact .inr ⟨_, rfl⟩

theorem plain_split {s t : Str} {x y : Str} (hs : ∀ c ∈ s, c ≠ '/') (ht : ∀ c ∈ t, c ≠ '/')
    (hx : x = [] ∨ ∃ z, x = '/' :: z) (hy : y = [] ∨ ∃ z, y = '/' :: z) (h : s ++ x = t ++ y) : s = t ∧ x = y := by
  induction s generalizing t with
  | nil => cases t with
    | nil => exact ⟨rfl, h⟩
    | cons c t =>
      simp only [List.nil_append, List.cons_append] at h
      rcases hx with rfl | ⟨z, rfl⟩
      · cases h
      · exact absurd (List.cons.inj h).1.symm (ht c (by simp))
  | cons c s ih => cases t with
    | nil =>
      simp only [List.nil_append, List.cons_append] at h
      rcases hy with rfl | ⟨z, rfl⟩
      · cases h
      · exact absurd (List.cons.inj h).1 (hs c (by simp))
    | cons d t =>
      simp only [List.cons_append, List.cons.injEq] at h
      obtain ⟨h1, h2⟩ := ih (fun c hc => hs c (by simp [hc])) (fun c hc => ht c (by simp [hc])) h.2
      exact ⟨by rw [h.1, h1], h2⟩

/-- The text of a segment, without the slash. -/
def segText : Seg → Str
  | .lit s => s
  | .par n pre post => pre ++ '{' :: n ++ '}' :: post

theorem segsText_cons (s : Seg) (l : List Seg) : segsText (s :: l) = '/' :: (segText s ++ segsText l) := by
  cases s <;> simp [segsText, segText]

theorem segText_plain {s : Seg} {l : List Seg} (h : SegsOk (s :: l)) : SegsOk l ∧ (∀ c ∈ segText s, c ≠ '/') ∧
    (∀ t, s = .lit t → '{' ∉ t) ∧ ∀ n pre post, s = .par n pre post → '{' ∉ pre ∧ '}' ∉ n := by
  cases s with
  | lit t =>
    obtain ⟨_, h1, _, _, h2⟩ := h
    have hp : ∀ c ∈ t, plainChar c = true := List.all_eq_true.mp h1
    refine ⟨h2, fun c hc e => ?_, fun t' e hc => ?_, fun _ _ _ e => by cases e⟩
    · have := hp c hc
      rw [e] at this
      simp [plainChar] at this
    · cases e
      have := hp _ hc
      simp [plainChar] at this
  | par n pre post =>
    obtain ⟨h1, hp, hq, h2⟩ := h
    refine ⟨h2, fun c hc => ?_, fun t e => (by cases e), ?_⟩
    · simp only [segText, List.mem_cons, List.mem_append] at hc
      rcases hc with (hc | rfl | hc) | rfl | hc
      · exact plain_ne_slash (affix_plain hp) c hc
      · decide
      · exact (h1 c hc).2.2
      · decide
      · exact plain_ne_slash (affix_plain hq) c hc
    · rintro _ _ _ e
      cases e
      exact ⟨fun hc => (plain_no_brace (affix_plain hp) _ hc).1 rfl, fun hc => (h1 _ hc).2.1 rfl⟩

theorem split_unique {c : Char} {s t x y : Str} (hs : c ∉ s) (ht : c ∉ t) (h : s ++ c :: x = t ++ c :: y) : s = t ∧ x = y := by
  induction s generalizing t with
  | nil => cases t with
    | nil => exact ⟨rfl, (List.cons.inj h).2⟩
    | cons d t => exact absurd (by rw [(List.cons.inj h).1]; exact List.mem_cons_self) ht
  | cons d s ih => cases t with
    | nil => exact absurd (by rw [(List.cons.inj h).1]; exact List.mem_cons_self) hs
    | cons e t =>
      obtain ⟨h1, h2⟩ := List.cons.inj h
      obtain ⟨h3, h4⟩ := ih (fun hc => hs (List.mem_cons_of_mem _ hc)) (fun hc => ht (List.mem_cons_of_mem _ hc)) h2
      exact ⟨by rw [h1, h3], h4⟩

/-- The segments of a path are determined by its text. -/
theorem segsText_inj {l l' : List Seg} (hl : SegsOk l) (hl' : SegsOk l') (h : segsText l = segsText l') : l = l' := by
  induction l generalizing l' with
  | nil => cases l' with
    | nil => rfl
    | cons s l' => rw [segsText_cons] at h; cases h
  | cons s l ih => cases l' with
    | nil => rw [segsText_cons] at h; cases h
    | cons s' l' =>
      rw [segsText_cons, segsText_cons] at h
      obtain ⟨h1, h2, h3, h4⟩ := segText_plain hl
      obtain ⟨h1', h2', h3', h4'⟩ := segText_plain hl'
      obtain ⟨he, ht⟩ := plain_split h2 h2' (segsText_start l) (segsText_start l') (List.cons.inj h).2
      rw [ih h1 h1' ht]
      congr 1
      cases s with
      | lit t => cases s' with
        | lit t' => simp only [segText] at he; rw [he]
        | par n pre post => simp only [segText] at he; exact absurd (he ▸ by simp) (h3 t rfl)
      | par m pre post => cases s' with
        | lit t => simp only [segText] at he; exact absurd (he ▸ by simp) (h3' t rfl)
        | par n pre' post' =>
          simp only [segText, List.append_assoc, List.cons_append] at he
          obtain ⟨e1, he⟩ := split_unique (h4 _ _ _ rfl).1 (h4' _ _ _ rfl).1 he
          obtain ⟨e2, e3⟩ := split_unique (h4 _ _ _ rfl).2 (h4' _ _ _ rfl).2 he
          rw [e1, e2, e3]

/-! ## Requests -/

/-- Path arguments that stay in one segment: no backslashes, and the segment is not `.` or `..`. -/
def PathRecoverable (l : List Seg) (params : List Param) (args : List Value) : Prop :=
  ∀ n pre post t, Seg.par n pre post ∈ l → PathArg params args n t →
    '\\' ∉ t ∧ pre ++ t ++ post ≠ ['.'] ∧ pre ++ t ++ post ≠ ['.', '.']

theorem recoverable_path {keys : Str → List Str} {l : List Seg} {params : List Param} {args : List Value} (h : Recoverable keys l params args) :
    PathRecoverable l params args :=
  fun _ pre post t hn ⟨p, v, hpv, hk, hpn, ht⟩ => h.path p v hpv hk t ht pre post (hpn ▸ hn)

/-- The URL of a request. -/
theorem issues_url_segs {cfg : Config} {op : OperationMethod} {args : List Value} {r : Request}
    (h : Issues cfg op args r) {l : List Seg} (hl : SegsOk l) (hne : l ≠ [])
    (hpath : Template.parse (segsText l) = .ok op.path) {auth : Str} {base : List Str} (hbase : BaseUrl cfg auth base) :
    r.method = op.method ∧ ∃ v : Str → Str, (∀ n ∈ pars l, PathArg op.params args n (v n)) ∧
      r.url = auth ++ (joinSegs base ++ segsUrl (fun n => encodePath (v n)) l) := by
  obtain ⟨c, env, o, hc, hbd, _, ho, h⟩ := issues_parts h
  obtain ⟨hm, label, body, q, _, _, _, h4, rfl⟩ := buildWith_request.mp h
  obtain ⟨_, hcu, _, _, _, _, hmeth, _⟩ := methodSigBody_ok hc
  obtain ⟨ident, value, hid, harg, hfmt⟩ := operands_url hc hbd ho
  have hnames : Template.names op.path = pars l := by
    rw [C02_names _ _ hpath, braceGroups_segs l hl]
  have hw := wellFormed_segs l hl hne
  obtain ⟨e, he, hf⟩ := C03_url_partial (segsText l) cfg.baseurl op.path (urlRenames op.params) ident value hw hpath
    (by intro n hn; exact hid n (by rw [hnames, ← braceGroups_segs l hl]; exact hn))
  rw [hcu] at he
  cases he
  rw [hfmt] at hf
  simp only [Option.some.injEq] at hf
  rw [Template.collapse_eq, collapse_segs l hl, substGroups_segs _ l hl, hbase.eq] at hf
  have hchars : ∀ c ∈ o.url, c ≠ '#' ∧ c ≠ '?' := by
    rw [hf]
    intro c hc'
    rw [List.append_assoc] at hc'
    rcases List.mem_append.mp hc' with hc' | hc'
    · exact hbase.noSpecial c hc'
    rcases List.mem_append.mp hc' with hc' | hc'
    · simp only [joinSegs, List.mem_flatMap, List.mem_cons] at hc'
      obtain ⟨s, hs, rfl | hc'⟩ := hc'
      · decide
      · have := List.all_eq_true.1 (hbase.plain s hs).1 c hc'
        simp [plainChar] at this; simp [this]
    · exact segsUrl_chars l hl (fun n => value (ident n)) c hc'
  obtain ⟨hu, hq⟩ := takeWhile_noSpecial hchars
  refine ⟨hmeth, fun n => value (ident n), fun n hn => harg n (hnames ▸ hn), ?_⟩
  dsimp only
  rw [hu, hf, List.append_assoc]

/-- C20: the path of a request can be read as the path of the operation with the arguments exactly if no
path argument contains a backslash or makes its segment `.` or `..`. -/
theorem C20_segments_iff {cfg : Config} {op : OperationMethod} {args : List Value} {r : Request}
    (h : Issues cfg op args r) {l : List Seg} (hl : SegsOk l) (hne : l ≠ [])
    (hpath : Template.parse (segsText l) = .ok op.path) {auth : Str} {base : List Str} (hbase : BaseUrl cfg auth base) :
    ∃ v : Str → Str, (∀ n ∈ pars l, PathArg op.params args n (v n)) ∧
      ((parseUrlTail (r.url.drop auth.length)).segments.map percentDecode =
          base.map percentDecode ++ expectedSegs (fun n => utf8 (v n)) l ↔
        ∀ n pre post, Seg.par n pre post ∈ l → '\\' ∉ v n ∧ pre ++ v n ++ post ≠ ['.'] ∧ pre ++ v n ++ post ≠ ['.', '.']) := by
  obtain ⟨_, v, hv, hurl⟩ := issues_url_segs h hl hne hpath hbase
  refine ⟨v, hv, ?_⟩
  obtain ⟨p, e, tail, hp, he, hf, hiff⟩ := C05_confined_iff l hl hne auth base hbase.plain v
  obtain ⟨p', e', hp', he', hf'⟩ := segs_url l hl hne (auth ++ joinSegs base) v
  rw [hp] at hp'; cases hp'
  rw [he] at he'; cases he'
  rw [hf, Option.some.injEq, List.append_assoc] at hf'
  rw [hurl, List.drop_left, ← List.append_cancel_left hf']
  exact hiff

/-- The path part of `C20_roundtrip_partial`, whatever the query arguments are. -/
theorem issues_segments {cfg : Config} {op : OperationMethod} {args : List Value} {r : Request}
    (h : Issues cfg op args r) {l : List Seg} (hl : SegsOk l) (hne : l ≠ [])
    (hpath : Template.parse (segsText l) = .ok op.path) {auth : Str} {base : List Str} (hbase : BaseUrl cfg auth base)
    (hrec : PathRecoverable l op.params args) :
    r.method = op.method ∧ ∃ v : Str → Str, (∀ n ∈ pars l, PathArg op.params args n (v n)) ∧
      ((parseUrlTail (r.url.drop auth.length)).segments.map percentDecode).take base.length = base.map percentDecode ∧
      tailSegments auth base r = expectedSegs (fun n => utf8 (v n)) l := by
  obtain ⟨v, hv, hseg⟩ := C20_segments_iff h hl hne hpath hbase
  have hseg := hseg.mpr fun n pre post hn => hrec n pre post _ hn (hv n (mem_pars.mpr ⟨pre, post, hn⟩))
  refine ⟨(issues_url_segs h hl hne hpath hbase).1, v, hv, ?_⟩
  unfold tailSegments
  rw [hseg]
  refine ⟨?_, ?_⟩
  · rw [List.take_append_of_le_length (by simp), List.take_of_length_le (by simp)]
  · rw [List.drop_append_of_le_length (by simp)]; simp

theorem pathArg_unique {params : List Param} {args : List Value} (hd : ApiDistinct params) (hn : (params.map Param.name).Nodup)
    {n t t' : Str} (h : PathArg params args n t) (h' : PathArg params args n t') : t = t' := by
  obtain ⟨p, v, hpv, hk, hn1, ht⟩ := h
  obtain ⟨p', v', hpv', hk', hn2, ht'⟩ := h'
  have hp : p = p' := pairwise_unique hd
    (List.mem_filter.mpr ⟨(List.of_mem_zip hpv).1, by simp [hk, location]⟩)
    (List.mem_filter.mpr ⟨(List.of_mem_zip hpv').1, by simp [hk', location]⟩) (hn1.trans hn2.symm)
  subst hp
  have := zip_unique hn hpv hpv'
  subst this
  rw [ht] at ht'
  exact Option.some.inj ht'

theorem routed_taken {params : List Param} {args : List Value} (hd : ApiDistinct params) (hn : (params.map Param.name).Nodup)
    {v : Str → Str} (l l' : List Seg) (hv : ∀ n ∈ pars l, PathArg params args n (v n)) :
    Routed l' (expectedSegs (fun n => utf8 (v n)) l) ↔ Forall₂ (TakenFor (params.zip args)) l l' := by
  unfold Routed
  induction l generalizing l' with
  | nil =>
    constructor
    · intro h; cases h; exact .nil
    · intro h; cases h; exact .nil
  | cons s l ih =>
    have ih := fun l' => ih l' fun n hn => hv n (by cases s <;> simp [pars, hn])
    cases l' with
    | nil =>
      constructor
      · intro h; cases s <;> cases h
      · intro h; cases h
    | cons s' l' =>
      have hs : expectedSegs (fun n => utf8 (v n)) (s :: l) =
          (match s with
            | .lit t => percentDecode t
            | .par n pre post => percentDecode pre ++ utf8 (v n) ++ percentDecode post) :: expectedSegs (fun n => utf8 (v n)) l := by
        cases s <;> rfl
      rw [hs]
      constructor
      · intro h
        cases h with
        | cons h ht =>
          refine .cons ?_ ((ih l').mp ht)
          refine ⟨_, ?_, h⟩
          cases s with
          | lit t => exact .lit t
          | par n pre post =>
            obtain ⟨p, w, hpw, hk, hn, ht⟩ := hv n (by simp [pars])
            exact .arg n pre post p w _ hpw hk hn ht
      · intro h
        cases h with
        | cons h ht =>
          refine .cons ?_ ((ih l').mpr ht)
          obtain ⟨x, hx, h⟩ := h
          cases hx with
          | lit t => exact h
          | arg n pre post p w t hpw hk hn' ht =>
            have : v n = t := pathArg_unique hd hn (hv n (by simp [pars])) ⟨p, w, hpw, hk, hn', ht⟩
            simp only [this]
            exact h

/-- C80, guarded: the request of a call can be taken for a template exactly if the template of the
operation, filled in with the arguments, spells it. -/
theorem C80_taken_iff_partial {san types path method d pr} (hp : processOperation san types path method d = .ok pr)
    {l : List Seg} (hpath : path = segsText l) (hl : SegsOk l) (hne : l ≠ [])
    (hdp : NoDuplicates d.pathLevel) (hdo : NoDuplicates d.opLevel) (hun : NamesUnambiguous (d.pathLevel ++ d.opLevel))
    {cfg : Config} {auth : Str} {base : List Str} (hbase : BaseUrl cfg auth base)
    {args : List Value} {r : Request} (h : Issues cfg pr.op args r) (hrec : PathRecoverable l pr.op.params args) (l' : List Seg) :
    r.method.print = method ∧ Routed l (tailSegments auth base r) ∧
    (Routed l' (tailSegments auth base r) ↔ Forall₂ (TakenFor (pr.op.params.zip args)) l l') := by
  subst hpath
  obtain ⟨body, hbody, hps⟩ := processOperation_params hp
  obtain ⟨_, _, hparse, _, hmeth, _⟩ := processOperation_inv hp
  obtain ⟨_, _, hdist⟩ := C13_override_partial _ _ _ _ _ _ hdp hdo hun hbody hps
  obtain ⟨c, env, o, hc, hb, _, ho, _⟩ := issues_parts h
  obtain ⟨hnd, _, _, _⟩ := bindArgs_some hb
  obtain ⟨hm, v, hv, _, hseg⟩ := issues_segments h hl hne hparse hbase hrec
  rw [hseg]
  exact ⟨by rw [hm]; exact ((C58_method_only _ _).mp hmeth).symm, routed_expected _ l, routed_taken hdist hnd l l' hv⟩

/-- C80, guarded, for a whole document: every request that a generated method sends is taken for the
operation it was generated for, and for no other operation unless that has the same HTTP method and
the path, filled in with the arguments, spells its template. -/
theorem C80_served_partial {B P V : Type} {u : Names.Unicode} {types : Types} {tt : Builder.TypeTable B} {i : Doc.Interface} {t : Doc.TagStyle}
    {d : Doc.Document} {ms : List Processed} {cs : List Code} (hg : Doc.generate u types tt i t d = .ok (ms, cs)) :
    Forall₂ (fun o (pc : Processed × Code) => ∀ l, WireReady o l →
      ∀ (cfg : Config) (auth : Str) (base : List Str), BaseUrl cfg auth base →
      ∀ (hooks : Hooks) (w : World) (decode : TypeId → Bytes → Except P V) (hist evs : List Event) (args : List Value),
        Keeps hooks w → PathRecoverable l pc.1.op.params args →
        (call cfg hooks w decode pc.1.op.params pc.2 hist args).2 = hist ++ evs →
        ∀ r, .send r ∈ evs → Serves r.method.print (tailSegments auth base r) o ∧
          ∀ o', Serves r.method.print (tailSegments auth base r) o' ↔ Spelled (pc.1.op.params.zip args) l o o')
      (routes d) (ms.zip cs) := by
  have hcodes := C66_code hg
  have hops := generate_operation hg
  rw [← routes_eq]
  clear hg
  revert hops hcodes
  generalize Doc.operations d = os
  intro hcodes hops
  induction hops generalizing cs with
  | nil => cases hcodes; exact .nil
  | @cons o p os ps hop _ ih =>
    cases hcodes with
    | @cons _ c _ cs hc hcodes =>
      refine .cons ?_ (ih hcodes)
      intro l hl cfg auth base hbase hooks w decode hist evs args hpre hrec he r hr
      obtain ⟨id, hop⟩ := hop
      have key := fun l' => C80_taken_iff_partial hop hl.path hl.segs hl.nonempty hl.pathLevel hl.opLevel hl.names hbase
        (sent_issues hc hpre he hr) hrec l'
      have hall : ∀ o', Serves r.method.print (tailSegments auth base r) o' ↔ Spelled (p.op.params.zip args) l o o' := by
        intro o'
        unfold Serves Spelled
        rw [(key l).1]
        constructor
        · rintro ⟨h1, l', h2, h3, h4⟩
          exact ⟨h1, l', h2, h3, (key l').2.2.mp h4⟩
        · rintro ⟨h1, l', h2, h3, h4⟩
          exact ⟨h1, l', h2, h3, (key l').2.2.mpr h4⟩
      exact ⟨⟨(key l).1.symm, l, hl.path, hl.segs, (key l).2.1⟩, hall⟩

theorem forall₂_get {α β : Type} {R : α → β → Prop} {l : List α} {m : List β} (h : Forall₂ R l m) {i : Nat} {a : α} {b : β}
    (ha : l[i]? = some a) (hb : m[i]? = some b) : R a b := by
  induction h generalizing i with
  | nil => cases ha
  | cons h _ ih => cases i with
    | zero => cases ha; cases hb; exact h
    | succ i => exact ih ha hb

theorem pairwise_get {α : Type} {R : α → α → Prop} {l : List α} (h : l.Pairwise R) {i j : Nat} (hij : i < j) {a b : α}
    (ha : l[i]? = some a) (hb : l[j]? = some b) : R a b := by
  obtain ⟨hi, rfl⟩ := List.getElem?_eq_some_iff.mp ha
  obtain ⟨hj, rfl⟩ := List.getElem?_eq_some_iff.mp hb
  exact List.pairwise_iff_getElem.mp h i j hi hj hij

/-- C80, guarded: if the document is unambiguous, a request is taken for exactly one operation,
the one that was called. -/
theorem C80_only_partial {B P V : Type} {u : Names.Unicode} {types : Types} {tt : Builder.TypeTable B} {i : Doc.Interface} {t : Doc.TagStyle}
    {d : Doc.Document} {ms : List Processed} {cs : List Code} (hg : Doc.generate u types tt i t d = .ok (ms, cs))
    (hd : Unambiguous (routes d)) {k : Nat} {o : Str × Str × Doc.RawOperation} {pc : Processed × Code}
    (ho : (routes d)[k]? = some o) (hpc : (ms.zip cs)[k]? = some pc) {l : List Seg} (hl : WireReady o l)
    {cfg : Config} {auth : Str} {base : List Str} (hbase : BaseUrl cfg auth base)
    {hooks : Hooks} {w : World} (decode : TypeId → Bytes → Except P V) {hist evs : List Event} {args : List Value}
    (hpre : Keeps hooks w) (hrec : PathRecoverable l pc.1.op.params args)
    (he : (call cfg hooks w decode pc.1.op.params pc.2 hist args).2 = hist ++ evs) {r : Request} (hr : .send r ∈ evs) (j : Nat) :
    (∃ o', (routes d)[j]? = some o' ∧ Serves r.method.print (tailSegments auth base r) o') ↔ j = k := by
  have hown := (forall₂_get (C80_served_partial (P := P) (V := V) hg) ho hpc l hl cfg auth base hbase hooks w decode hist evs args hpre hrec he r hr).1
  constructor
  · rintro ⟨o', ho', hs⟩
    rcases Nat.lt_trichotomy j k with h | h | h
    · exact absurd ⟨hs, hown⟩ (pairwise_get hd h ho' ho _ _)
    · exact h
    · exact absurd ⟨hown, hs⟩ (pairwise_get hd h ho ho' _ _)
  · rintro rfl
    exact ⟨o, ho, hown⟩

/-- C80, guarded: with the rule that paths without parameters are preferred, the request of a call is taken for
the operation that was called exactly if its path has no parameters or the arguments do not
happen to spell a path without parameters. -/
theorem C80_preferred_iff_partial {B P V : Type} {u : Names.Unicode} {types : Types} {tt : Builder.TypeTable B} {i : Doc.Interface} {t : Doc.TagStyle}
    {d : Doc.Document} {ms : List Processed} {cs : List Code} (hg : Doc.generate u types tt i t d = .ok (ms, cs))
    {k : Nat} {o : Str × Str × Doc.RawOperation} {pc : Processed × Code}
    (ho : (routes d)[k]? = some o) (hpc : (ms.zip cs)[k]? = some pc) {l : List Seg} (hl : WireReady o l)
    {cfg : Config} {auth : Str} {base : List Str} (hbase : BaseUrl cfg auth base)
    {hooks : Hooks} {w : World} (decode : TypeId → Bytes → Except P V) {hist evs : List Event} {args : List Value}
    (hpre : Keeps hooks w) (hrec : PathRecoverable l pc.1.op.params args)
    (he : (call cfg hooks w decode pc.1.op.params pc.2 hist args).2 = hist ++ evs) {r : Request} (hr : .send r ∈ evs) :
    Preferred (routes d) r.method.print (tailSegments auth base r) o ↔
      (Concrete l ∨ ∀ o' ∈ routes d, o'.2.1 = o.2.1 → ∀ l', o'.1 = segsText l' → SegsOk l' → Concrete l' →
        ¬ Forall₂ (TakenFor (pc.1.op.params.zip args)) l l') := by
  obtain ⟨hown, hall⟩ := forall₂_get (C80_served_partial (P := P) (V := V) hg) ho hpc l hl cfg auth base hbase hooks w decode hist evs args hpre hrec he r hr
  constructor
  · rintro ⟨_, _, h⟩
    by_cases hc : Concrete l
    · exact .inl hc
    · refine .inr fun o' ho' hm l' h1 h2 h3 h4 => hc ?_
      obtain ⟨l'', e1, e2, e3⟩ := h ⟨o', ho', (hall o').mpr ⟨hm, l', h1, h2, h4⟩, l', h1, h2, h3⟩
      rw [hl.path] at e1
      rw [segsText_inj hl.segs e2 e1]
      exact e3
  · intro h
    refine ⟨List.mem_of_getElem? ho, hown, ?_⟩
    rintro ⟨o', ho', hs, l', h1, h2, h3⟩
    rcases h with h | h
    · exact ⟨l, hl.path, hl.segs, h⟩
    · obtain ⟨hm, l'', e1, e2, e3⟩ := (hall o').mp hs
      have : l' = l'' := segsText_inj h2 e2 (h1.symm.trans e1)
      subst this
      exact absurd e3 (h o' ho' hm l' h1 h2 h3)

/-! ## Examples and counterexamples -/

def minePath : List Seg := [.lit "v1".toList, .lit "mine".toList]
def otherPath : List Seg := [.lit "v2".toList, .par "x".toList]

def mineOp : Str × Str × Doc.RawOperation := (segsText minePath, "get".toList, ⟨some "mine".toList, plainDoc⟩)
def paramOp : Str × Str × Doc.RawOperation := (segsText wirePath, "get".toList, ⟨some "op".toList, wireDoc⟩)

/-- A document with the paths `/v1/{id}` and `/v1/mine`. -/
def mineDocument : Doc.Document := ⟨"3.0.0".toList, [(paramOp.1, some [paramOp.2]), (mineOp.1, some [mineOp.2])]⟩

example : (Doc.generate exUnicode typesNone (⟨fun _ => none, fun _ => []⟩ : Builder.TypeTable Unit) .positional .merged
    mineDocument).isOk = true := by decide +kernel

theorem mineOk : SegsOk minePath := by simp [minePath, SegsOk]; decide

theorem mineRoutes : routes mineDocument = [paramOp, mineOp] := rfl

theorem mineIssues : Issues exCfg wireOp (wireArgs "mine") (wireReq "mine") := ⟨_, _, rfl, rfl, rfl⟩

theorem mineRouted : Routed minePath (tailSegments "http://h".toList [] (wireReq "mine")) := by
  rw [show tailSegments "http://h".toList [] (wireReq "mine") = [utf8 "v1".toList, utf8 "mine".toList] by decide +kernel]
  exact .cons (by unfold SegFits; decide +kernel) (.cons (by unfold SegFits; decide +kernel) .nil)

/-- C80 fails as stated: a document with the paths `/v1/{id}` and `/v1/mine` is accepted; the request of a call
of the first operation with the argument `mine` is taken for the second one. -/
theorem C80_argument_fails : (Doc.generate exUnicode typesNone (⟨fun _ => none, fun _ => []⟩ : Builder.TypeTable Unit) .positional .merged
      mineDocument).isOk = true ∧ Issues exCfg wireOp (wireArgs "mine") (wireReq "mine") ∧
    Serves "get".toList (tailSegments "http://h".toList [] (wireReq "mine")) paramOp ∧
    Preferred (routes mineDocument) "get".toList (tailSegments "http://h".toList [] (wireReq "mine")) mineOp ∧
    ¬ Preferred (routes mineDocument) "get".toList (tailSegments "http://h".toList [] (wireReq "mine")) paramOp := by
  have h1 : Serves "get".toList (tailSegments "http://h".toList [] (wireReq "mine")) mineOp :=
    ⟨rfl, minePath, rfl, mineOk, mineRouted⟩
  have h2 : Concrete minePath := by
    intro s hs
    simp only [minePath, List.mem_cons, List.not_mem_nil, or_false] at hs
    rcases hs with rfl | rfl <;> exact ⟨_, rfl⟩
  refine ⟨by decide +kernel, mineIssues, ?_, ?_, ?_⟩
  · refine ⟨rfl, wirePath, rfl, wireReady.segs, ?_⟩
    rw [show tailSegments "http://h".toList [] (wireReq "mine") = [utf8 "v1".toList, utf8 "mine".toList] by decide +kernel]
    exact .cons (by unfold SegFits; decide +kernel) (.cons ⟨utf8 "mine".toList, by decide +kernel⟩ .nil)
  · exact ⟨by simp [mineRoutes], h1, fun _ => ⟨minePath, rfl, mineOk, h2⟩⟩
  · rintro ⟨_, _, h⟩
    obtain ⟨l, e1, e2, e3⟩ := h ⟨mineOp, by simp [mineRoutes], h1, minePath, rfl, mineOk, h2⟩
    have : wirePath = l := segsText_inj wireReady.segs e2 e1
    subst this
    obtain ⟨t, ht⟩ := e3 (.par "id".toList) (by simp [wirePath])
    cases ht

/-- The same call with another argument is not taken for `/v1/mine`. -/
example : ¬ Routed minePath (tailSegments "http://h".toList [] (wireReq "x")) := by
  have := (C80_taken_iff_partial wireProcessed rfl wireReady.segs wireReady.nonempty wireReady.pathLevel wireReady.opLevel wireReady.names
    wireBase (wireIssues "x" (by simp)) (recoverable_path (wireRecoverable "x" (by decide) (by decide) (by decide))) minePath).2.2
  rw [this]
  intro h
  cases h with
  | cons _ h => cases h with
    | cons h _ =>
      obtain ⟨x, hx, he⟩ := h
      cases hx with
      | arg _ _ _ p v t hpv hk hn ht =>
        simp only [wireOp, wireArgs, List.zip_cons_cons, List.zip_nil_right, List.mem_cons, List.not_mem_nil, or_false,
          Prod.mk.injEq] at hpv
        rcases hpv with ⟨rfl, rfl⟩ | ⟨rfl, rfl⟩ | ⟨rfl, rfl⟩
        · cases ht; revert he; unfold SegFits; decide +kernel
        · cases hk
        · cases hk

/-- Documents with several paths that are unambiguous. -/
example : Unambiguous [paramOp, (segsText otherPath, "get".toList, ⟨some "other".toList, plainDoc⟩)] := by
  simp only [Unambiguous, List.pairwise_cons, List.mem_cons, List.not_mem_nil, or_false, forall_eq, List.Pairwise.nil, and_true]
  refine ⟨?_, fun _ h => h.elim⟩
  rintro method segs ⟨⟨_, l, e1, e2, e3⟩, _, l', e1', e2', e3'⟩
  have h1 : wirePath = l := segsText_inj wireReady.segs e2 e1
  have h2 : otherPath = l' := segsText_inj (by simp [otherPath, SegsOk]; decide) e2' e1'
  subst h1 h2
  have := (C80_meets_iff _ _).mp ⟨segs, e3, e3'⟩
  cases this with
  | cons h _ => exact absurd h (by simp only [SegMeets, SegFits]; decide +kernel)

/-- The paths `/{a}.json` and `/{b}.xml` have no request in common, `/{a}.json` and `/v-{b}` have. -/
example : ¬ Forall₂ SegMeets [.par "a".toList [] ".json".toList] [.par "b".toList [] ".xml".toList] ∧
    Forall₂ SegMeets [.par "a".toList [] ".json".toList] [.par "b".toList "v-".toList] := by
  refine ⟨fun h => ?_, .cons ⟨.inl ?_, .inr ?_⟩ .nil⟩
  · cases h with
    | cons h _ => exact absurd h (by simp only [SegMeets]; decide +kernel)
  · decide +kernel
  · decide +kernel

/-- C80 fails for documents that OpenAPI forbids but that are accepted: with the paths `/v1/{id}` and
`/v1/{x}` every request of one operation is also taken for the other. -/
def twinOp : Str × Str × Doc.RawOperation := (segsText [.lit "v1".toList, .par "x".toList], "get".toList,
  ⟨some "twin".toList, { plainDoc with opLevel := [⟨"x".toList, .path true, true, true, 0⟩] }⟩)

def twinDocument : Doc.Document := ⟨"3.0.0".toList, [(paramOp.1, some [paramOp.2]), (twinOp.1, some [twinOp.2])]⟩

theorem C80_twin_fails : (Doc.generate exUnicode typesNone (⟨fun _ => none, fun _ => []⟩ : Builder.TypeTable Unit) .positional .merged
      twinDocument).isOk = true ∧ routes twinDocument = [paramOp, twinOp] ∧
    ∀ method segs, Serves method segs paramOp ↔ Serves method segs twinOp := by
  refine ⟨by decide +kernel, rfl, fun method segs => ?_⟩
  have ht : SegsOk [.lit "v1".toList, .par "x".toList] := by simp [SegsOk]; decide
  have key : Routed wirePath segs ↔ Routed [.lit "v1".toList, .par "x".toList] segs := by
    unfold Routed wirePath
    constructor
    · intro h
      cases h with
      | cons h1 h => cases h with
        | cons h2 h => cases h; exact .cons h1 (.cons h2 .nil)
    · intro h
      cases h with
      | cons h1 h => cases h with
        | cons h2 h => cases h; exact .cons h1 (.cons h2 .nil)
  constructor
  · rintro ⟨h1, l, e1, e2, e3⟩
    have : wirePath = l := segsText_inj wireReady.segs e2 e1
    subst this
    exact ⟨h1, _, rfl, ht, key.mp e3⟩
  · rintro ⟨h1, l, e1, e2, e3⟩
    have := segsText_inj ht e2 e1
    subst this
    exact ⟨h1, wirePath, rfl, wireReady.segs, key.mpr e3⟩

end Progenitor.Props

import Verif.Lemmas.Names
import Verif.Lemmas.Regex
import Verif.Props.Exec
import Verif.Props.Response
import Verif.Props.Names

/-!
# C48-C50, C67: mock servers
-/

namespace Progenitor.Props

open Progenitor Progenitor.Params Progenitor.Client Progenitor.Query Progenitor.Exec Progenitor.Spec Progenitor.Mock
open Progenitor.Template (PathTemplate Component render names)

/-! ## C48: paths -/

theorem parse_wildcard {t : PathTemplate} (h : ∀ x ∈ t.map Regex.wildPiece, x.Ok) :
    ∃ l, Regex.parse (Template.asWildcard t) = .regex l ∧
      ∀ p, Regex.IsMatch l p ↔ Regex.Lang (t.map Regex.wildPiece) p := by
  refine ⟨_, ?_, Regex.isMatch_pieces (t.map Regex.wildPiece)⟩
  rw [Regex.asWildcard_pieces]
  exact Regex.parse_pieces _ h

theorem matches_new [JsonLib] {op : OperationMethod} {l : List Regex.Item} (s : Seen) :
    (When.mk op.method ([] ++ [.path l])).Matches s ↔ op.method = s.method ∧ Regex.IsMatch l s.path := by
  simp [When.Matches, Expect.Holds]

/-- C48, guarded: a mock of an operation expects its method and exactly the instances of its template, where a value is any text
without a slash.  Missing for the full claim: the guard that constants of the template have no special meaning in a regular
expression. -/
theorem C48_exact_partial [JsonLib] (op : OperationMethod) (h : PlainConsts op.path) :
    ∃ w, whenNew op = .when w ∧
      ∀ s, w.Matches s ↔ op.method = s.method ∧ Instance (fun _ v => '/' ∉ v) op.path s.path := by
  obtain ⟨l, hl, hm⟩ := parse_wildcard (Regex.plainConsts_ok h)
  refine ⟨⟨op.method, [] ++ [.path l]⟩, by simp only [whenNew, pathMatches, hl], fun s => ?_⟩
  rw [matches_new, hm, Regex.lang_wild _ h]

example : PlainConsts exOp.path := by
  intro s hs c hc
  simp only [exOp, List.mem_cons, Component.const.injEq, reduceCtorEq, List.not_mem_nil, or_false] at hs
  subst hs
  revert c
  decide

theorem lang_of_instance {t : PathTemplate} : ∀ {p : Str}, Instance (fun _ v => '/' ∉ v) t p →
    Regex.Lang (t.map Regex.wildPiece) p := by
  induction t with
  | nil => intro p h; exact h
  | cons x t ih =>
    intro p h
    cases x with
    | const s =>
      obtain ⟨r, rfl, h⟩ := h
      refine ⟨s, r, rfl, ?_, ih h⟩
      clear ih h
      induction s with
      | nil => exact .nil
      | cons c s ih => exact .cons (.inl rfl) ih
    | param n =>
      obtain ⟨v, r, rfl, hv, h⟩ := h
      exact ⟨v, r, rfl, hv, ih h⟩

theorem safeConsts_ok {t : PathTemplate} (h : SafeConsts t) : ∀ x ∈ t.map Regex.wildPiece, x.Ok := by
  intro x hx
  obtain ⟨y, hy, rfl⟩ := List.mem_map.mp hx
  cases y with
  | const s =>
    intro c hc
    rcases (h s hy c hc).1 with h | h <;> simp [Regex.plainOrDot, h]
  | param n => trivial

theorem safeConsts_noBraces {t : PathTemplate} (h : SafeConsts t) : Regex.NoBraces t := by
  intro s hs c hc
  have := (h s hs c hc).1
  constructor <;> (rintro rfl; revert this; decide)

theorem rustFormat_render (t : PathTemplate) (ht : Regex.NoBraces t) (f : Str → Str) :
    Template.rustFormat (Template.fmtOf t) ((names t).map f) = some (render f t) := by
  induction t with
  | nil => simp [Template.rustFormat, Template.fmtOf, names]
  | cons x t ih =>
    have ih := ih fun s hs => ht s (by simp [hs])
    cases x with
    | const s =>
      rw [Template.fmt_cons_const, Template.rustFormat_lit s (ht s (by simp)),
        show names (.const s :: t) = names t by simp [names], ih]
      simp
    | param n =>
      rw [Template.fmt_cons_param, show names (.param n :: t) = n :: names t by simp [names],
        List.map_cons, Template.rustFormat, ih]
      simp

/-- The request of a call, for any template whose constants are safe. -/
theorem request_parts {cfg : Config} {op : OperationMethod} {args : List Value} {r : Request}
    (h : Issues cfg op args r) (hsafe : SafeConsts op.path) (hbase : ∀ c ∈ cfg.baseurl, c ≠ '#' ∧ c ≠ '?') :
    ∃ v : Str → Str, (∀ n ∈ names op.path, PathArg op.params args n (v n)) ∧
      r.url = cfg.baseurl ++ render (fun n => encodePath (v n)) op.path ∧ r.method = op.method ∧
      addQueries (.ok none) (queryArgs op.params args) = .ok r.query := by
  obtain ⟨c, env, o, hc, hbd, _, ho, h⟩ := issues_parts h
  obtain ⟨hm, label, body, q, _, _, _, h4, rfl⟩ := buildWith_request.mp h
  obtain ⟨_, hcu, _, _, _, _, hmeth, _⟩ := methodSigBody_ok hc
  obtain ⟨_, hoq, _⟩ := operands_some hc hbd ho
  obtain ⟨ident, value, hid, harg, hfmt⟩ := operands_url hc hbd ho
  have hnb := safeConsts_noBraces hsafe
  -- the emitted format string and its arguments
  have hurl : c.url = ⟨Template.compileFmt op.path, (names op.path).map ident⟩ := by
    unfold Template.compile at hcu
    split at hcu
    · rename_i is his
      have hcu := (Res.ok.inj hcu).symm
      have := (Template.compileArgs_ok _ _ _).mp his
      have h2 : (names op.path).map (urlRenames op.params) = ((names op.path).map ident).map some := by
        rw [List.map_map]
        exact List.map_congr_left fun n hn => hid n hn
      rw [h2] at this
      have := (List.map_inj_right (fun _ _ e => Option.some.inj e)).mp this
      rw [hcu, this]
    · cases hcu
    · cases hcu
  rw [hurl] at hfmt
  simp only [Template.compileFmt_eq, Template.rustFormat, List.map_map] at hfmt
  rw [show ((fun i => encodePath (value i)) ∘ ident) = fun n => encodePath (value (ident n)) from rfl,
    rustFormat_render _ hnb] at hfmt
  simp only [Option.map_some, Option.some.injEq] at hfmt
  have hchars : ∀ c ∈ o.url, c ≠ '#' ∧ c ≠ '?' := by
    rw [← hfmt]
    intro c hc'
    rcases List.mem_append.mp hc' with hc' | hc'
    · exact hbase c hc'
    · clear hfmt hid harg h4 hcu hurl
      simp only [render, List.mem_flatMap] at hc'
      obtain ⟨x, hx, hc'⟩ := hc'
      cases x with
      | const s =>
        have := (hsafe s hx c hc').2
        constructor <;> (rintro rfl; revert this; decide)
      | param n =>
        have := encodePath_alphabet _ c hc'
        constructor <;> (rintro rfl; revert this; decide)
  obtain ⟨hu, hq⟩ := takeWhile_noSpecial hchars
  refine ⟨fun n => value (ident n), fun n hn => harg n hn, ?_, hmeth, ?_⟩
  · dsimp only; rw [hu, hfmt]
  · rw [hq, hoq] at h4; exact h4

/-! ### The path on the wire -/

theorem joinSegs_splitAt (r : Str) : joinSegs (splitAt (· == '/') r) = '/' :: r := by
  induction r with
  | nil => rfl
  | cons c r ih =>
    by_cases h : c = '/'
    · subst h
      simp only [splitAt, beq_self_eq_true, if_true]
      rw [show joinSegs ([] :: splitAt (· == '/') r) = '/' :: joinSegs (splitAt (· == '/') r) by simp [joinSegs], ih]
    · have hb : (c == '/') = false := by simp [h]
      simp only [splitAt, hb, Bool.false_eq_true, if_false]
      split
      · rename_i hs
        rw [hs] at ih
        simp [joinSegs] at ih
      · rename_i s ss hs
        rw [hs] at ih
        simp only [joinSegs, List.flatMap_cons, List.cons_append, List.cons.injEq, true_and] at ih ⊢
        exact ih

/-- Encoding that leaves separators alone. -/
def encPath (enc : Char → Str) (c : Char) : Str := if c = '/' then ['/'] else enc c

theorem splitAt_no_sep (p : Char → Bool) (r : Str) : ∀ s ∈ splitAt p r, ∀ c ∈ s, p c = false ∧ c ∈ r := by
  induction r with
  | nil => intro s hs c hc; simp [splitAt] at hs; subst hs; cases hc
  | cons d r ih =>
    intro s hs c hc
    simp only [splitAt] at hs
    split at hs
    · rcases List.mem_cons.mp hs with rfl | hs
      · cases hc
      · exact ⟨(ih s hs c hc).1, by simp [(ih s hs c hc).2]⟩
    · rename_i hd
      split at hs
      · rcases List.mem_singleton.mp hs with rfl
        rcases List.mem_singleton.mp hc with rfl
        exact ⟨by simpa using hd, by simp⟩
      · rename_i s' ss hss
        rcases List.mem_cons.mp hs with rfl | hs
        · rcases List.mem_cons.mp hc with rfl | hc
          · exact ⟨by simpa using hd, by simp⟩
          · have := ih s' (by simp [hss]) c hc
            exact ⟨this.1, by simp [this.2]⟩
        · have := ih s (by simp [hss, hs]) c hc
          exact ⟨this.1, by simp [this.2]⟩

theorem wirePath_eq (enc : Char → Str) (r : Str) (hn : Normal ('/' :: r))
    (hc : ∀ c ∈ r, c ≠ '?' ∧ c ≠ '#' ∧ c ≠ '\t' ∧ c ≠ '\n' ∧ c ≠ '\r') :
    wirePath enc ('/' :: r) = ('/' :: r).flatMap (encPath enc) := by
  have hj := joinSegs_splitAt r
  have hsp : splitAt (· == '/') ('/' :: r) = [] :: splitAt (· == '/') r := by simp [splitAt]
  unfold wirePath
  rw [← hj, parseUrlTail_joinSegs]
  · dsimp only
    rw [show joinSegs (splitAt (· == '/') r) = (splitAt (· == '/') r).flatMap ('/' :: ·) from rfl, List.flatMap_assoc]
    have key : ∀ l : List Str, (∀ s ∈ l, ∀ c ∈ s, c ≠ '/') →
        (l.flatMap fun s => '/' :: s.flatMap enc) = l.flatMap fun s => ('/' :: s).flatMap (encPath enc) := by
      intro l hl
      induction l with
      | nil => rfl
      | cons s l ih =>
        rw [List.flatMap_cons, List.flatMap_cons, ih fun t ht => hl t (by simp [ht])]
        congr 1
        rw [List.flatMap_cons]
        simp only [encPath, if_true, List.cons_append, List.nil_append, List.cons.injEq, true_and]
        have hs := hl s (by simp)
        clear ih hl
        induction s with
        | nil => rfl
        | cons c s ihs =>
          rw [List.flatMap_cons, List.flatMap_cons, ihs fun d hd => hs d (by simp [hd])]
          simp [encPath, hs c (by simp)]
    exact key _ fun s hs c hc => by simpa using (splitAt_no_sep (· == '/') r s hs c hc).1
  · intro s hs
    obtain ⟨h1, h2⟩ := hn.2 s (by rw [hsp]; simp [hs])
    refine ⟨?_, h1, h2⟩
    rw [List.all_eq_true]
    intro c hcs
    obtain ⟨h3, h4⟩ := splitAt_no_sep (· == '/') r s hs c hcs
    have h5 := hc c h4
    have h6 : c ≠ '\\' := fun e => hn.1 (by rw [← e]; simp [h4])
    simp only [beq_eq_false_iff_ne] at h3
    simp [inert, h3, h5, h6]

theorem flatMap_render (g : Char → Str) (f : Str → Str) (t : PathTemplate)
    (h : ∀ s, .const s ∈ t → ∀ c ∈ s, g c = [c]) :
    (render f t).flatMap g = render (fun n => (f n).flatMap g) t := by
  induction t with
  | nil => rfl
  | cons x t ih =>
    have ih := ih fun s hs => h s (by simp [hs])
    cases x with
    | const s =>
      rw [Template.render_const, Template.render_const, List.flatMap_append, ih]
      congr 1
      have := h s (by simp)
      clear ih h
      induction s with
      | nil => rfl
      | cons c s ihs => rw [List.flatMap_cons, this c (by simp), ihs fun d hd => this d (by simp [hd])]; rfl
    | param n => rw [Template.render_param, Template.render_param, List.flatMap_append, ih]

theorem encPath_safe {enc : Char → Str} (he : PathEncoder enc) {t : PathTemplate} (h : SafeConsts t) :
    ∀ s, .const s ∈ t → ∀ c ∈ s, encPath enc c = [c] := by
  intro s hs c hc
  unfold encPath
  split
  · rename_i hcs; rw [hcs]
  · rename_i hcs
    rcases (h s hs c hc).2 with h | h
    · exact he.safe c h
    · exact absurd h hcs

/-- The path a server sees. -/
theorem seen_path {cfg : Config} {op : OperationMethod} {args : List Value} {r : Request} {s : Seen}
    {enc : Char → Str} (he : PathEncoder enc)
    (h : Issues cfg op args r) (hsafe : SafeConsts op.path) (hstart : ∃ c t, op.path = .const ('/' :: c) :: t)
    (hbase : ∀ c ∈ cfg.baseurl, c ≠ '#' ∧ c ≠ '?')
    (hn : ∀ tail, r.url = cfg.baseurl ++ tail → Normal tail) (hs : ServerSees enc cfg.baseurl r s) :
    ∃ v : Str → Str, (∀ n ∈ names op.path, PathArg op.params args n (v n)) ∧
      s.path = render (fun n => (encodePath (v n)).flatMap (encPath enc)) op.path ∧ s.method = op.method ∧
      ∃ q, addQueries (.ok none) (queryArgs op.params args) = .ok q ∧ s.query = formDecode (q.getD []) := by
  obtain ⟨v, hv, hurl, hm, hq⟩ := request_parts h hsafe hbase
  obtain ⟨tail, h1, h2, h3, h4, _⟩ := hs
  have ht : tail = render (fun n => encodePath (v n)) op.path := by
    rw [hurl] at h1; exact (List.append_cancel_left h1).symm
  refine ⟨v, hv, ?_, h2.trans hm, r.query, hq, h4⟩
  have hnorm := hn tail h1
  have hch : ∀ c ∈ tail, c ≠ '?' ∧ c ≠ '#' ∧ c ≠ '\t' ∧ c ≠ '\n' ∧ c ≠ '\r' := by
    rw [ht]
    intro c hc'
    simp only [render, List.mem_flatMap] at hc'
    obtain ⟨x, hx, hc'⟩ := hc'
    cases x with
    | const s =>
      have := (hsafe s hx c hc').2
      refine ⟨?_, ?_, ?_, ?_, ?_⟩ <;> (rintro rfl; revert this; decide)
    | param n =>
      have := encodePath_alphabet _ c hc'
      refine ⟨?_, ?_, ?_, ?_, ?_⟩ <;> (rintro rfl; revert this; decide)
  obtain ⟨c0, t0, hp⟩ := hstart
  have : ∃ rest, tail = '/' :: rest := ⟨c0 ++ render _ t0, by rw [ht, hp, Template.render_const]; rfl⟩
  obtain ⟨rest, rfl⟩ := this
  rw [h3, wirePath_eq enc rest hnorm fun c hc => hch c (by simp [hc]), ht,
    flatMap_render _ _ _ (encPath_safe he hsafe)]

theorem encoded_no_slash {enc : Char → Str} (he : PathEncoder enc) (x : Str) :
    '/' ∉ (encodePath x).flatMap (encPath enc) := by
  intro h
  obtain ⟨c, hc, h⟩ := List.mem_flatMap.mp h
  have hne : c ≠ '/' := by
    rintro rfl
    have := encodePath_alphabet _ _ hc
    revert this; decide
  rw [encPath, if_neg hne] at h
  exact he.slash c hne h

theorem encoded_no_newline {enc : Char → Str} (he : PathEncoder enc) (x : Str) :
    '\n' ∉ (encodePath x).flatMap (encPath enc) := by
  intro h
  obtain ⟨c, hc, h⟩ := List.mem_flatMap.mp h
  unfold encPath at h
  split at h
  · revert h; decide
  · exact he.newline c h

/-- C48, guarded: a mock of an operation at the root of a server matches every request of the generated method.  Missing for the
full claim: the guards that constants of the template are safe and that no segment of the path is a dot segment or contains a
backslash. -/
theorem C48_request_partial [JsonLib] {cfg : Config} {op : OperationMethod} {args : List Value} {r : Request} {s : Seen}
    {enc : Char → Str} (he : PathEncoder enc)
    (h : Issues cfg op args r) (hsafe : SafeConsts op.path) (hstart : ∃ c t, op.path = .const ('/' :: c) :: t)
    (hbase : ∀ c ∈ cfg.baseurl, c ≠ '#' ∧ c ≠ '?')
    (hn : ∀ tail, r.url = cfg.baseurl ++ tail → Normal tail) (hs : ServerSees enc cfg.baseurl r s) :
    ∃ w, whenNew op = .when w ∧ w.Matches s := by
  obtain ⟨v, hv, hp, hm, _⟩ := seen_path he h hsafe hstart hbase hn hs
  obtain ⟨l, hl, hmatch⟩ := parse_wildcard (safeConsts_ok hsafe)
  refine ⟨⟨op.method, [] ++ [.path l]⟩, by simp only [whenNew, pathMatches, hl], ?_⟩
  rw [matches_new, hmatch, hp]
  exact ⟨hm.symm, lang_of_instance (Regex.instance_render _ _ _ fun n _ => encoded_no_slash he _)⟩


/-- The method of an operation with this template and without parameters. -/
def constOp (t : String) : OperationMethod :=
  { exOp with path := [.const t.toList], params := [] }

def exEnc (c : Char) : Str := if c = '%' then ['%'] else encodePath [c]

theorem exEnc_ok : PathEncoder exEnc where
  safe c h := by
    by_cases hc : c = '%'
    · simp [exEnc, hc]
    · rw [exEnc, if_neg hc]
      have key : ∀ n : Fin 128, urlSafe (Char.ofNat n) = true → Char.ofNat n ≠ '%' → encodePath [Char.ofNat n] = [Char.ofNat n] := by
        decide +kernel
      have hlt : c.toNat < 128 := by
        simp only [urlSafe, Char.isAlphanum, Char.isAlpha, Char.isUpper, Char.isLower, Char.isDigit, Bool.or_eq_true,
          Bool.and_eq_true, decide_eq_true_eq, List.contains_iff_mem] at h
        rcases h with (((h | h) | h) | h)
        · have := UInt32.le_iff_toNat_le.mp h.2; simp only [Char.toNat]; have : 'Z'.val.toNat = 90 := rfl; omega
        · have := UInt32.le_iff_toNat_le.mp h.2; simp only [Char.toNat]; have : 'z'.val.toNat = 122 := rfl; omega
        · have := UInt32.le_iff_toNat_le.mp h.2; simp only [Char.toNat]; have : '9'.val.toNat = 57 := rfl; omega
        · have key : ∀ d ∈ "-_.~!$&'()*+,;=:@%".toList, d.toNat < 128 := by decide
          exact key c h
      have := key ⟨c.toNat, hlt⟩
      simp only [Char.ofNat_toNat] at this
      exact this h hc
  slash c _ h := by
    unfold exEnc at h
    split at h
    · revert h; decide
    · have := encodePath_alphabet _ _ h; revert this; decide
  newline c h := by
    unfold exEnc at h
    split at h
    · revert h; decide
    · have := encodePath_alphabet _ _ h; revert this; decide

/-- The request of the example method. -/
def exReqAb : Request := { exReq with url := "http://h/v1/ab".toList }

example : ServerSees exEnc exCfg.baseurl exReqAb ⟨.get, "/v1/ab".toList, [(utf8 "q".toList, utf8 "x y".toList)], []⟩ :=
  ⟨"/v1/ab".toList, rfl, rfl, by decide +kernel, by decide +kernel, rfl⟩

example : Issues exCfg exOp [.plain (txt "ab"), .plain (txt "x y"), .opt (some (txt "t"))] exReqAb :=
  ⟨_, _, rfl, rfl, rfl⟩

example : ∀ tail, exReqAb.url = exCfg.baseurl ++ tail → Normal tail := by
  intro tail h
  have : tail = "/v1/ab".toList := (List.append_cancel_left (as := exCfg.baseurl) (by rw [← h]; decide)).symm
  subst this
  exact ⟨by decide, by decide⟩

/-- C48 fails as stated: a dot in the template also stands for other characters. -/
theorem C48_dot_fails [JsonLib] : ∃ w, whenNew (constOp "/a.b") = .when w ∧ w.Matches ⟨.get, "/aXb".toList, [], []⟩ ∧
    ∀ ok, ¬ Instance ok (constOp "/a.b").path "/aXb".toList := by
  refine ⟨_, rfl, (matches_new _).mpr ⟨rfl, by decide +kernel⟩, ?_⟩
  rintro ok ⟨rest, h, rfl⟩
  revert h; decide

/-- C48 fails as stated: with a plus sign in the template, the mock misses the only request the method makes. -/
theorem C48_plus_fails [JsonLib] : ∃ w r s, whenNew (constOp "/a+b") = .when w ∧ Issues exCfg (constOp "/a+b") [] r ∧
    ServerSees exEnc exCfg.baseurl r s ∧ ¬ w.Matches s := by
  refine ⟨_, { exReq with url := "http://h/a+b".toList, query := none, headers := [(Hdr.apiVersion, utf8 "1.0".toList)] },
    ⟨.get, "/a+b".toList, [], []⟩, rfl, ⟨_, _, rfl, rfl, rfl⟩, ⟨"/a+b".toList, rfl, rfl, by decide +kernel, by decide +kernel, rfl⟩, ?_⟩
  intro h
  have := ((matches_new _).mp h).2
  revert this
  decide +kernel

/-- C48 fails as stated: with a closing parenthesis in the template, the mock panics. -/
theorem C48_paren_fails : whenNew (constOp "/a)b") = .panicked := rfl

/-- C48 fails as stated: a constant that is encoded in requests is not matched. -/
theorem C48_space_fails [JsonLib] : ∃ w r s, whenNew (constOp "/a b") = .when w ∧ Issues exCfg (constOp "/a b") [] r ∧
    ServerSees exEnc exCfg.baseurl r s ∧ ¬ w.Matches s := by
  refine ⟨_, { exReq with url := "http://h/a b".toList, query := none, headers := [(Hdr.apiVersion, utf8 "1.0".toList)] },
    ⟨.get, "/a%20b".toList, [], []⟩, rfl, ⟨_, _, rfl, rfl, rfl⟩, ⟨"/a b".toList, rfl, rfl, by decide +kernel, by decide +kernel, rfl⟩, ?_⟩
  intro h
  have := ((matches_new _).mp h).2
  revert this
  decide +kernel

/-- C48 fails as stated: the request for the argument `..` is not matched. -/
theorem C48_dots_fails [JsonLib] : ∃ w r s, whenNew exOp = .when w ∧
    Issues exCfg exOp [.plain (txt ".."), .plain (txt "x"), .opt none] r ∧
    ServerSees exEnc exCfg.baseurl r s ∧ ¬ w.Matches s := by
  refine ⟨_, { method := .get, url := "http://h/v1/..".toList, query := some "q=x".toList,
               headers := [(Hdr.apiVersion, utf8 "1.0".toList)], body := none },
    ⟨.get, "/".toList, [(utf8 "q".toList, utf8 "x".toList)], []⟩, rfl, ⟨_, _, rfl, rfl, rfl⟩,
    ⟨"/v1/..".toList, rfl, rfl, by decide +kernel, by decide +kernel, rfl⟩, ?_⟩
  intro h
  have := ((matches_new _).mp h).2
  revert this
  decide +kernel

/-! ## C49: values -/

/-- What an expectation means for a request. -/
def FilterHolds [JsonLib] (t : PathTemplate) (s : Seen) (p : Param) (v : Value) : Prop :=
  match p.kind, v with
  | .path, .plain a => Instance (fun m x => if m = p.apiName then x = a.display else '\n' ∉ x) t s.path
  | .query true, .plain a => (utf8 p.apiName, utf8 a.display) ∈ s.query
  | .query false, .opt (some a) => (utf8 p.apiName, utf8 a.display) ∈ s.query
  | .query false, .opt none => ∀ x, (utf8 p.apiName, x) ∉ s.query
  | .body _, .plain a => SameJson a.ser s.body
  | .body _, .raw b => s.body = b
  | _, _ => True

theorem matches_snoc [JsonLib] (w : When) (e : Expect) (s : Seen) :
    ({ w with expects := w.expects ++ [e] } : When).Matches s ↔ w.Matches s ∧ e.Holds s := by
  simp only [When.Matches, List.mem_append, List.mem_singleton]
  constructor
  · rintro ⟨h1, h2⟩; exact ⟨⟨h1, fun e he => h2 e (.inl he)⟩, h2 e (.inr rfl)⟩
  · rintro ⟨⟨h1, h2⟩, h3⟩
    refine ⟨h1, ?_⟩
    rintro x (hx | rfl)
    · exact h2 x hx
    · exact h3

theorem whenParam_spec [JsonLib] (op : OperationMethod) (p : Param) (v : Value) (hc : PlainConsts op.path)
    (h : Expressible op.path p v) (w : When) :
    ∃ w', whenParam op p v w = .when w' ∧ ∀ s, w'.Matches s ↔ w.Matches s ∧ FilterHolds op.path s p v := by
  obtain ⟨name, api, typ, kind⟩ := p
  cases kind with
  | path =>
    cases v with
    | plain a =>
      obtain ⟨hcount, hplain⟩ := h
      have hf := Regex.rustFormat_wildcardParam api a.display op.path (Regex.plainConsts_noBraces hc)
      rw [if_pos hcount] at hf
      have hp := Regex.parse_pieces _ (Regex.plainConsts_ok_param hc api hplain)
      refine ⟨{ w with expects := w.expects ++ [.path (.start ::
        ((op.path.map (Regex.paramPiece api a.display)).flatMap Regex.Piece.items) ++ [.stop])] }, ?_, ?_⟩
      · simp only [whenParam, hf, pathMatches, hp]
      · intro s
        rw [matches_snoc]
        simp only [Expect.Holds, FilterHolds]
        rw [Regex.isMatch_pieces, Regex.lang_param _ _ _ hc hplain]
    | opt a => exact h.elim
    | raw b => exact h.elim
    | internal => exact h.elim
  | query b =>
    cases b with
    | true =>
      cases v with
      | plain a =>
        have h : name = api := h
        subst h
        exact ⟨_, rfl, fun s => matches_snoc _ _ s⟩
      | opt a => exact h.elim
      | raw b => exact h.elim
      | internal => exact h.elim
    | false =>
      cases v with
      | plain a => exact h.elim
      | opt a =>
        have h : name = api := h
        subst h
        cases a with
        | none => exact ⟨_, rfl, fun s => matches_snoc _ _ s⟩
        | some a => exact ⟨_, rfl, fun s => matches_snoc _ _ s⟩
      | raw b => exact h.elim
      | internal => exact h.elim
  | header b => exact h.elim
  | body ct =>
    have key : ∀ a : Arg, JsonLib.value a.ser ≠ none →
        ∃ w', jsonBody a.ser w = .when w' ∧ ∀ s, w'.Matches s ↔ w.Matches s ∧ SameJson a.ser s.body := by
      intro a ha
      refine ⟨{ w with expects := w.expects ++ [.json a.ser] }, ?_, fun s => matches_snoc _ _ s⟩
      unfold jsonBody
      rw [if_pos (Option.isSome_iff_ne_none.mpr ha)]
    cases v with
    | plain a =>
      cases typ with
      | type i => exact key a h
      | rawBody => cases ct <;> first | exact key a h | exact h.elim
    | raw b =>
      cases typ with
      | type i => exact h.elim
      | rawBody => cases ct <;> first | exact ⟨_, rfl, fun s => matches_snoc _ _ s⟩ | exact h.elim
    | opt a => cases typ <;> cases ct <;> exact h.elim
    | internal => cases typ <;> cases ct <;> exact h.elim

theorem whenParams_spec [JsonLib] (op : OperationMethod) (fs : List (Param × Value)) (hc : PlainConsts op.path)
    (h : ∀ p v, (p, v) ∈ fs → Expressible op.path p v) : ∀ w,
    ∃ w', whenParams op fs w = .when w' ∧ ∀ s, w'.Matches s ↔ w.Matches s ∧ ∀ p v, (p, v) ∈ fs → FilterHolds op.path s p v := by
  induction fs with
  | nil => intro w; exact ⟨w, rfl, by simp⟩
  | cons pv fs ih =>
    obtain ⟨p, v⟩ := pv
    intro w
    obtain ⟨w1, h1, h2⟩ := whenParam_spec op p v hc (h p v (by simp)) w
    obtain ⟨w2, h3, h4⟩ := ih (fun p v hpv => h p v (by simp [hpv])) w1
    refine ⟨w2, by simp only [whenParams, h1, h3], fun s => ?_⟩
    rw [h4, h2]
    constructor
    · rintro ⟨⟨a, b⟩, c⟩
      refine ⟨a, fun p' v' hpv => ?_⟩
      rcases List.mem_cons.mp hpv with e | hpv
      · cases e; exact b
      · exact c p' v' hpv
    · rintro ⟨a, b⟩
      exact ⟨⟨a, b p v (by simp)⟩, fun p' v' hpv => b p' v' (by simp [hpv])⟩

theorem whenAll_spec [JsonLib] (op : OperationMethod) (fs : List (Param × Value)) (hc : PlainConsts op.path)
    (h : ∀ p v, (p, v) ∈ fs → Expressible op.path p v) :
    ∃ w, whenAll op fs = .when w ∧ ∀ s, w.Matches s ↔
      (op.method = s.method ∧ Instance (fun _ v => '/' ∉ v) op.path s.path) ∧
      ∀ p v, (p, v) ∈ fs → FilterHolds op.path s p v := by
  obtain ⟨w, h1, h2⟩ := C48_exact_partial op hc
  obtain ⟨w', h3, h4⟩ := whenParams_spec op fs hc h w
  exact ⟨w', by simp only [whenAll, h1, h3], fun s => by rw [h4, h2]⟩

theorem instance_newline {ok : Str → Str → Prop} {t : PathTemplate} : ∀ {p : Str}, '\n' ∉ p → Instance ok t p →
    Instance (fun n v => ok n v ∧ '\n' ∉ v) t p := by
  induction t with
  | nil => intro p _ h; exact h
  | cons x t ih =>
    intro p hp h
    cases x with
    | const s =>
      obtain ⟨r, rfl, h⟩ := h
      exact ⟨r, rfl, ih (by simp at hp; exact hp.2) h⟩
    | param n =>
      obtain ⟨v, r, rfl, hv, h⟩ := h
      simp at hp
      exact ⟨v, r, rfl, ⟨hv, hp.1⟩, ih hp.2 h⟩

/-- C49, guarded: if expectations can be written and path parameters are separated by slashes, a mock with these expectations
matches exactly the instances of the template with the given values whose query and body have the given values. -/
theorem C49_exact_partial [JsonLib] (op : OperationMethod) (fs : List (Param × Value)) (hc : PlainConsts op.path)
    (hsep : Separated op.path) (h : ∀ p v, (p, v) ∈ fs → Expressible op.path p v) :
    ∃ w, whenAll op fs = .when w ∧ ∀ s, '\n' ∉ s.path → (w.Matches s ↔
      op.method = s.method ∧ Instance (fun n x => PathWanted fs n x ∧ '/' ∉ x) op.path s.path ∧ QueryWanted fs s.query ∧
        BodyWanted fs s.body) := by
  obtain ⟨w, h1, h2⟩ := whenAll_spec op fs hc h
  refine ⟨w, h1, fun s hs => ?_⟩
  rw [h2]
  -- the conditions on the path
  have hpath : (Instance (fun _ v => '/' ∉ v) op.path s.path ∧
      ∀ p a, (p, .plain a) ∈ fs → p.kind = .path → FilterHolds op.path s p (.plain a)) ↔
      Instance (fun n x => PathWanted fs n x ∧ '/' ∉ x) op.path s.path := by
    clear h1 h2 h
    constructor
    · rintro ⟨hi, hf⟩
      induction fs with
      | nil => exact Regex.instance_mono (fun n _ v hv => ⟨fun p a hp => (by cases hp), hv⟩) hi
      | cons pv fs ih =>
        have ih := ih fun p a hp => hf p a (by simp [hp])
        obtain ⟨p, v⟩ := pv
        by_cases hk : p.kind = .path ∧ ∃ a, v = .plain a
        · obtain ⟨hk, a, rfl⟩ := hk
          have := hf p a (by simp) hk
          simp only [FilterHolds, hk] at this
          have := Regex.instance_and_slash.mp ⟨hi, this⟩
          have := (Regex.instance_and hsep).mp ⟨this, ih⟩
          refine Regex.instance_mono ?_ this
          rintro n _ x ⟨⟨h1, h2⟩, h3⟩
          refine ⟨?_, h3⟩
          intro p' a' hp' hk' hn
          rcases List.mem_cons.mp hp' with e | hp'
          · cases e
            simpa [hn] using h1
          · exact h2 p' a' hp' hk' hn
        · refine Regex.instance_mono ?_ ih
          rintro n _ x ⟨h1, h2⟩
          refine ⟨?_, h2⟩
          intro p' a' hp' hk' hn
          rcases List.mem_cons.mp hp' with e | hp'
          · cases e; exact (hk ⟨hk', a', rfl⟩).elim
          · exact h1 p' a' hp' hk' hn
    · intro hi
      refine ⟨Regex.instance_mono (fun _ _ _ h => h.2) hi, fun p a hp hk => ?_⟩
      simp only [FilterHolds, hk]
      refine Regex.instance_mono ?_ (instance_newline hs hi)
      rintro n _ x ⟨⟨h1, h2⟩, h3⟩
      split
      · rename_i hn; exact h1 p a hp hk hn.symm
      · exact h3
  constructor
  · rintro ⟨⟨h3, h4⟩, h5⟩
    refine ⟨h3, hpath.mp ⟨h4, fun p a hp _ => h5 p _ hp⟩, ⟨?_, ?_, ?_⟩, ?_, ?_⟩
    · intro p a hp hk; have := h5 p _ hp; simpa only [FilterHolds, hk] using this
    · intro p a hp hk; have := h5 p _ hp; simpa only [FilterHolds, hk] using this
    · intro p hp hk; have := h5 p _ hp; simpa only [FilterHolds, hk] using this
    · intro p ct a hp hk; have := h5 p _ hp; simpa only [FilterHolds, hk] using this
    · intro p ct b hp hk; have := h5 p _ hp; simpa only [FilterHolds, hk] using this
  · rintro ⟨h3, h4, ⟨h5, h6, h7⟩, h10, h11⟩
    obtain ⟨h8, h9⟩ := hpath.mpr h4
    refine ⟨⟨h3, h8⟩, fun p v hpv => ?_⟩
    have he := h p v hpv
    unfold FilterHolds
    split
    · rename_i hk
      have := h9 p _ hpv hk
      simpa only [FilterHolds, hk] using this
    · rename_i hk; exact h5 p _ hpv hk
    · rename_i hk; exact h6 p _ hpv hk
    · rename_i hk; exact h7 p hpv hk
    · rename_i hk; exact h10 p _ _ hpv hk
    · rename_i hk; exact h11 p _ _ hpv hk
    · trivial


theorem forall₂_mem_left {α β : Type} {R : α → β → Prop} {l : List α} {m : List β} (h : Forall₂ R l m) {a : α}
    (ha : a ∈ l) : ∃ b ∈ m, R a b := by
  induction h with
  | nil => cases ha
  | @cons a' b l m hR _ ih =>
    rcases List.mem_cons.mp ha with rfl | ha
    · exact ⟨b, by simp, hR⟩
    · obtain ⟨b', hb, hR'⟩ := ih ha
      exact ⟨b', by simp [hb], hR'⟩

theorem forall₂_mem_right {α β : Type} {R : α → β → Prop} {l : List α} {m : List β} (h : Forall₂ R l m) {b : β}
    (hb : b ∈ m) : ∃ a ∈ l, R a b := by
  induction h with
  | nil => cases hb
  | @cons a b' l m hR _ ih =>
    rcases List.mem_cons.mp hb with rfl | hb
    · exact ⟨a, by simp, hR⟩
    · obtain ⟨a', ha, hR'⟩ := ih hb
      exact ⟨a', by simp [ha], hR'⟩

/-- The pairs of a query, if each argument is a scalar or omitted. -/
def SimpleArg : Value → Prop
  | .plain a => Scalar a.ser a.display
  | .opt (some a) => Scalar a.ser a.display
  | .opt none => True
  | _ => False

theorem queryArgs_mem {params : List Param} {args : List Value} {n : Str} {x : Ser} :
    (n, x) ∈ queryArgs params args ↔
      ∃ p v b, (p, v) ∈ params.zip args ∧ p.kind = .query b ∧ p.apiName = n ∧ argSer v = some x := by
  unfold queryArgs
  rw [List.mem_filterMap]
  constructor
  · rintro ⟨⟨p, v⟩, hpv, h⟩
    dsimp only at h
    split at h
    · rename_i b hk
      cases hv : argSer v with
      | none => rw [hv] at h; cases h
      | some y =>
        rw [hv] at h
        cases h
        exact ⟨p, v, b, hpv, hk, rfl, hv⟩
    · cases h
  · rintro ⟨p, v, b, hpv, hk, rfl, hv⟩
    exact ⟨(p, v), hpv, by simp [hk, hv]⟩

theorem simple_pairs {n : Str} {v : Value} {x : Ser} {b : List (Str × Str)} (hs : SimpleArg v) (hv : argSer v = some x)
    (hb : queryPairs n x = .ok b) :
    b = (argText v).toList.map fun t => (n, t) := by
  cases v with
  | plain a =>
    cases hv
    rw [C07_scalar n _ _ hs] at hb
    cases hb
    rfl
  | opt o =>
    cases o with
    | none =>
      cases hv
      cases hb
      rfl
    | some a =>
      cases hv
      rw [C07_scalar n _ _ (.some _ _ hs)] at hb
      cases hb
      rfl
  | raw b => cases hv
  | internal => cases hv

/-- The query parameters a server sees, if query arguments are scalars. -/
theorem seen_query {op : OperationMethod} {args : List Value} {s : Seen} {q : Option Str}
    (hq : addQueries (.ok none) (queryArgs op.params args) = .ok q) (hsq : s.query = formDecode (q.getD []))
    (hquery : ∀ p v b, (p, v) ∈ op.params.zip args → p.kind = .query b → SimpleArg v) :
    ∀ n t, (utf8 n, t) ∈ s.query ↔ ∃ p x b u, (p, x) ∈ op.params.zip args ∧ p.kind = .query b ∧ p.apiName = n ∧
      argText x = some u ∧ t = utf8 u := by
  obtain ⟨ps, hps, hdec, _⟩ := C12_decode _ q hq
  intro n t
  rw [hsq, hdec, List.mem_map]
  constructor
  · rintro ⟨⟨n', u⟩, hmem, heq⟩
    simp only [Prod.mk.injEq] at heq
    obtain ⟨hn', rfl⟩ := heq
    have hn' := utf8_injective hn'
    subst hn'
    obtain ⟨b, hb, hmem⟩ := List.mem_flatten.mp hmem
    obtain ⟨⟨m, x⟩, ha, hR⟩ := forall₂_mem_right hps hb
    obtain ⟨p, y, kb, hpv, hk, rfl, hy⟩ := queryArgs_mem.mp ha
    have := simple_pairs (hquery p y kb hpv hk) hy hR
    rw [this] at hmem
    obtain ⟨t, ht, e⟩ := List.mem_map.mp hmem
    cases e
    exact ⟨p, y, kb, _, hpv, hk, rfl, by simpa using ht, rfl⟩
  · rintro ⟨p, x, b, u, hpv, hk, rfl, hu, rfl⟩
    refine ⟨(p.apiName, u), ?_, rfl⟩
    have hsx := hquery p x b hpv hk
    obtain ⟨y, hy⟩ : ∃ y, argSer x = some y := by
      cases x with
      | plain a => exact ⟨_, rfl⟩
      | opt o => cases o <;> exact ⟨_, rfl⟩
      | raw b => exact hsx.elim
      | internal => exact hsx.elim
    obtain ⟨pr, hpr, hR⟩ := forall₂_mem_left hps (queryArgs_mem.mpr ⟨p, x, b, hpv, hk, rfl, hy⟩)
    have := simple_pairs hsx hy hR
    refine List.mem_flatten.mpr ⟨pr, hpr, ?_⟩
    rw [this, hu]
    simp

/-- C49, guarded: a mock restricted to values of a call matches the request of that call.  Missing for the full claim: the guards
that the template is plain, that the expectations can be written, that path values do not need encoding, and that query arguments
are scalars whose `Display` is what is sent. -/
theorem C49_request_partial [JsonLib] {cfg : Config} {op : OperationMethod} {args : List Value} {r : Request} {s : Seen}
    {enc : Char → Str} (he : PathEncoder enc)
    (h : Issues cfg op args r) (hsafe : SafeConsts op.path) (hplain : PlainConsts op.path)
    (hstart : ∃ c t, op.path = .const ('/' :: c) :: t)
    (hbase : ∀ c ∈ cfg.baseurl, c ≠ '#' ∧ c ≠ '?')
    (hn : ∀ tail, r.url = cfg.baseurl ++ tail → Normal tail) (hs : ServerSees enc cfg.baseurl r s)
    (hbn : BodyNamed op.params)
    (fs : List (Param × Value)) (hfs : ∀ p v, (p, v) ∈ fs → ∃ x, (p, x) ∈ op.params.zip args ∧ Stands cfg p v x)
    (hex : ∀ p v, (p, v) ∈ fs → Expressible op.path p v)
    (hpath : ∀ p a, (p, .plain a) ∈ fs → p.kind = .path → encodePath a.display = a.display ∧ ∀ c ∈ a.display, urlSafe c = true)
    (hquery : ∀ p v b, (p, v) ∈ op.params.zip args → p.kind = .query b → SimpleArg v)
    (huniq : ∀ p p', p ∈ op.params → p' ∈ op.params → p.apiName = p'.apiName →
      (p.kind = .path ∧ p'.kind = .path) ∨ (∃ b b', p.kind = .query b ∧ p'.kind = .query b') → p = p') :
    ∃ w, whenAll op fs = .when w ∧ w.Matches s := by
  obtain ⟨w, h1, h2⟩ := whenAll_spec op fs hplain hex
  refine ⟨w, h1, ?_⟩
  obtain ⟨v, hv, hp, hm, q, hq, hsq⟩ := seen_path he h hsafe hstart hbase hn hs
  have hbody := fun p v ct hpv hk => C19_body cfg op args r hbn h p v ct hpv hk
  obtain ⟨c, env, hc, hb, _⟩ := h
  obtain ⟨_, _, _, hlook⟩ := bindArgs_some hb
  have hval : ∀ p x x', (p, x) ∈ op.params.zip args → (p, x') ∈ op.params.zip args → x = x' := by
    intro p x x' hx hx'
    have := (hlook p x hx).symm.trans (hlook p x' hx')
    exact Option.some.inj this
  have hpair := seen_query hq hsq hquery
  rw [h2]
  refine ⟨⟨hm.symm, ?_⟩, ?_⟩
  · rw [hp]
    exact Regex.instance_render _ _ _ fun n _ => encoded_no_slash he _
  · intro p x hpx
    obtain ⟨x', hmem, hst⟩ := hfs p x hpx
    have hsame : (∀ ct, p.kind ≠ .body ct) → x = x' := by
      intro hk
      cases hst with
      | same => rfl
      | json a h => exact absurd h (hk _)
      | text m b h => exact absurd h (hk _)
      | octets a b h => exact absurd h (hk _)
    have hsb : s.body = r.body.getD [] := by obtain ⟨_, _, _, _, _, h⟩ := hs; exact h
    unfold FilterHolds
    split
    · rename_i a hk
      have hx := hsame (by simp [hk])
      subst hx
      obtain ⟨hen, hsafe'⟩ := hpath p a hpx hk
      rw [hp]
      refine Regex.instance_render _ _ _ fun n hn => ?_
      split
      · rename_i hname
        obtain ⟨p', x', hpx', hk', hn', ht⟩ := hv n hn
        have : p' = p := huniq p' p (List.of_mem_zip hpx').1 (List.of_mem_zip hmem).1 (hn'.trans hname) (.inl ⟨hk', hk⟩)
        subst this
        have := hval p' _ _ hpx' hmem
        subst this
        have ht : a.display = v n := by simpa [argText] using ht
        rw [← ht, hen]
        clear hen ht
        generalize a.display = l at hsafe'
        induction l with
        | nil => rfl
        | cons c l ih =>
          rw [List.flatMap_cons, ih fun d hd => hsafe' d (by simp [hd])]
          have : encPath enc c = [c] := by
            unfold encPath
            split
            · rename_i e; rw [e]
            · exact he.safe c (hsafe' c (by simp))
          rw [this]; rfl
      · exact encoded_no_newline he _
    · rename_i a hk
      have hx := hsame (by simp [hk])
      subst hx
      exact (hpair _ _).mpr ⟨p, _, _, _, hmem, hk, rfl, rfl, rfl⟩
    · rename_i a hk
      have hx := hsame (by simp [hk])
      subst hx
      exact (hpair _ _).mpr ⟨p, _, _, _, hmem, hk, rfl, rfl, rfl⟩
    · rename_i hk
      have hx := hsame (by simp [hk])
      subst hx
      intro t ht
      obtain ⟨p', x', b', u, hpx', hk', hn', hu, _⟩ := (hpair _ _).mp ht
      have : p' = p := huniq p' p (List.of_mem_zip hpx').1 (List.of_mem_zip hmem).1 hn' (.inr ⟨_, _, hk', hk⟩)
      subst this
      have := hval p' _ _ hpx' hmem
      subst this
      cases hu
    · rename_i ct a hk
      obtain ⟨b, hrb, henc⟩ := hbody p x' ct hmem hk
      rw [hsb, hrb]
      cases hst with
      | same _ h => exact absurd hk (h _)
      | json _ h hj =>
        rw [hk] at h
        cases h
        cases henc with
        | json _ _ _ h1 h2 => cases h1; exact hj b h2
      | octets _ _ h hj =>
        rw [hk] at h
        cases h
        cases henc
        exact hj
    · rename_i ct b hk
      obtain ⟨b', hrb, henc⟩ := hbody p x' ct hmem hk
      rw [hsb, hrb]
      cases hst with
      | same _ h => exact absurd hk (h _)
      | text _ _ h =>
        rw [hk] at h
        cases h
        cases henc
        rfl
    · trivial


example [JsonLib] : ∃ w, whenAll exOp [(⟨"id".toList, "id".toList, .type 0, .path⟩, .plain (txt "ab")),
    (⟨"q".toList, "q".toList, .type 0, .query true⟩, .plain (txt "x y"))] = .when w ∧
    w.Matches ⟨.get, "/v1/ab".toList, [(utf8 "q".toList, utf8 "x y".toList)], []⟩ := by
  refine C49_request_partial exEnc_ok (cfg := exCfg) (op := exOp)
    (args := [.plain (txt "ab"), .plain (txt "x y"), .opt (some (txt "t"))]) (r := exReqAb)
    ⟨_, _, rfl, rfl, rfl⟩ ?_ ?_ ⟨_, _, rfl⟩ (by decide) ?_
    ⟨"/v1/ab".toList, rfl, rfl, by decide +kernel, by decide +kernel, rfl⟩ ?_ _ ?_ ?_ ?_ ?_ ?_
  · intro s hs c hc
    simp only [exOp, List.mem_cons, Component.const.injEq, reduceCtorEq, List.not_mem_nil, or_false] at hs
    subst hs
    revert c
    decide
  · intro s hs c hc
    simp only [exOp, List.mem_cons, Component.const.injEq, reduceCtorEq, List.not_mem_nil, or_false] at hs
    subst hs
    revert c
    decide
  · intro tail h
    have : tail = "/v1/ab".toList := (List.append_cancel_left (as := exCfg.baseurl) (by rw [← h]; decide)).symm
    subst this
    exact ⟨by decide, by decide⟩
  · intro p hp ct hk
    simp only [exOp, List.mem_cons, List.not_mem_nil, or_false] at hp
    rcases hp with rfl | rfl | rfl <;> cases hk
  · intro p v h
    simp only [List.mem_cons, List.not_mem_nil, or_false, Prod.mk.injEq] at h
    rcases h with ⟨rfl, rfl⟩ | ⟨rfl, rfl⟩
    · exact ⟨_, by simp [exOp], .same _ (by simp)⟩
    · exact ⟨_, by simp [exOp], .same _ (by simp)⟩
  · intro p v h
    simp only [List.mem_cons, List.not_mem_nil, or_false, Prod.mk.injEq] at h
    rcases h with ⟨rfl, rfl⟩ | ⟨rfl, rfl⟩
    · exact ⟨by decide, by decide⟩
    · rfl
  · intro p a h hk
    simp only [List.mem_cons, List.not_mem_nil, or_false, Prod.mk.injEq] at h
    rcases h with ⟨rfl, h⟩ | ⟨rfl, _⟩
    · cases h; exact ⟨by decide +kernel, by decide⟩
    · cases hk
  · intro p v b h hk
    simp only [exOp, List.zip_cons_cons, List.zip_nil_right, List.mem_cons, List.not_mem_nil, or_false, Prod.mk.injEq] at h
    rcases h with ⟨rfl, rfl⟩ | ⟨rfl, rfl⟩ | ⟨rfl, rfl⟩
    · cases hk
    · exact .str _
    · cases hk
  · intro p p' hp hp' hn hk
    simp only [exOp, List.mem_cons, List.not_mem_nil, or_false] at hp hp'
    rcases hp with rfl | rfl | rfl <;> rcases hp' with rfl | rfl | rfl <;> first | rfl | (revert hn; decide)

/-- An expectation as a test; `json` is the answer for JSON bodies. -/
def testExpect (json : Bool) (r : Seen) : Expect → Bool
  | .path re => decide (Regex.IsMatch re r.path)
  | .query n v => decide ((utf8 n, utf8 v) ∈ r.query)
  | .noQuery n => r.query.all fun x => decide (x.1 ≠ utf8 n)
  | .json _ => json
  | .text b => decide (r.body = b)

def testWhen (json : Bool) (w : When) (r : Seen) : Bool := decide (w.method = r.method) && w.expects.all (testExpect json r)

theorem testExpect_iff [JsonLib] {r : Seen} {e : Expect} (json : Bool) (h : ∀ v, e ≠ .json v) : testExpect json r e = true ↔ e.Holds r := by
  cases e with
  | path re => simp [testExpect, Expect.Holds]
  | query n v => simp [testExpect, Expect.Holds]
  | noQuery n =>
    simp only [testExpect, Expect.Holds, List.all_eq_true, decide_eq_true_eq]
    constructor
    · intro h v hv; exact h _ hv rfl
    · rintro h ⟨a, b⟩ hx rfl; exact h b hx
  | json v => exact absurd rfl (h v)
  | text b => simp [testExpect, Expect.Holds]

theorem matches_of_test [JsonLib] {w : When} {r : Seen} (h : testWhen false w r = true) : w.Matches r := by
  simp only [testWhen, Bool.and_eq_true, decide_eq_true_eq, List.all_eq_true] at h
  refine ⟨h.1, fun e he => ?_⟩
  have := h.2 e he
  refine (testExpect_iff false ?_).mp this
  rintro v rfl
  cases this

theorem not_matches_of_test [JsonLib] {w : When} {r : Seen} (h : testWhen true w r = false) : ¬ w.Matches r := by
  intro hm
  have : testWhen true w r = true := by
    simp only [testWhen, Bool.and_eq_true, decide_eq_true_eq, List.all_eq_true]
    refine ⟨hm.1, fun e he => ?_⟩
    by_cases hj : ∃ v, e = .json v
    · obtain ⟨v, rfl⟩ := hj; rfl
    · exact (testExpect_iff true fun v hv => hj ⟨v, hv⟩).mpr (hm.2 e he)
  rw [h] at this
  cases this

/-- A method with one query parameter whose API name is not a Rust name. -/
def renamedOp : OperationMethod :=
  { exOp with path := [.const "/v1".toList], params := [⟨"page_size".toList, "pageSize".toList, .type 0, .query true⟩] }

/-- C49 fails as stated: for a query parameter that is renamed, the expectation is on the Rust name, which is not sent. -/
theorem C49_renamed_fails [JsonLib] : ∃ w r s,
    whenAll renamedOp [(⟨"page_size".toList, "pageSize".toList, .type 0, .query true⟩, .plain (txt "7"))] = .when w ∧
    Issues exCfg renamedOp [.plain (txt "7")] r ∧ ServerSees exEnc exCfg.baseurl r s ∧ ¬ w.Matches s :=
  ⟨_, { method := .get, url := "http://h/v1".toList, query := some "pageSize=7".toList,
        headers := [(Hdr.apiVersion, utf8 "1.0".toList)], body := none },
    ⟨.get, "/v1".toList, [(utf8 "pageSize".toList, utf8 "7".toList)], []⟩, rfl, ⟨_, _, rfl, rfl, rfl⟩,
    ⟨"/v1".toList, rfl, rfl, by decide +kernel, by decide +kernel, rfl⟩, not_matches_of_test (by decide +kernel)⟩

/-- The same with an optional parameter. -/
def renamedOptOp : OperationMethod :=
  { exOp with path := [.const "/v1".toList], params := [⟨"page_size".toList, "pageSize".toList, .type 0, .query false⟩] }

/-- C49 fails as stated for optional parameters too. -/
theorem C49_renamed_optional_fails [JsonLib] : ∃ w r s,
    whenAll renamedOptOp [(⟨"page_size".toList, "pageSize".toList, .type 0, .query false⟩, .opt (some (txt "7")))] = .when w ∧
    Issues exCfg renamedOptOp [.opt (some (txt "7"))] r ∧ ServerSees exEnc exCfg.baseurl r s ∧ ¬ w.Matches s :=
  ⟨_, { method := .get, url := "http://h/v1".toList, query := some "pageSize=7".toList,
        headers := [(Hdr.apiVersion, utf8 "1.0".toList)], body := none },
    ⟨.get, "/v1".toList, [(utf8 "pageSize".toList, utf8 "7".toList)], []⟩, rfl, ⟨_, _, rfl, rfl, rfl⟩,
    ⟨"/v1".toList, rfl, rfl, by decide +kernel, by decide +kernel, rfl⟩, not_matches_of_test (by decide +kernel)⟩

/-- A method with one path parameter. -/
def idOp : OperationMethod :=
  { exOp with params := [⟨"id".toList, "id".toList, .type 0, .path⟩] }

def idParam : Param := ⟨"id".toList, "id".toList, .type 0, .path⟩

/-- The request of `idOp` for a path. -/
def idReq (path : String) : Request where
  method := .get
  url := "http://h/v1/".toList ++ path.toList
  query := none
  headers := [(Hdr.apiVersion, utf8 "1.0".toList)]
  body := none

/-- C49 fails as stated: the request for a path value that needs encoding does not match. -/
theorem C49_encoded_fails [JsonLib] : ∃ w s, whenAll idOp [(idParam, .plain (txt "a b"))] = .when w ∧
    Issues exCfg idOp [.plain (txt "a b")] (idReq "a%20b") ∧
    ServerSees exEnc exCfg.baseurl (idReq "a%20b") s ∧ ¬ w.Matches s :=
  ⟨_, ⟨.get, "/v1/a%20b".toList, [], []⟩, rfl, ⟨_, _, rfl, rfl, rfl⟩,
    ⟨"/v1/a%20b".toList, rfl, rfl, by decide +kernel, by decide +kernel, rfl⟩, not_matches_of_test (by decide +kernel)⟩

/-- C49 fails as stated: the value is read as a regular expression, so that the request does not match. -/
theorem C49_regex_fails [JsonLib] : ∃ w s, whenAll idOp [(idParam, .plain (txt "a+b"))] = .when w ∧
    Issues exCfg idOp [.plain (txt "a+b")] (idReq "a+b") ∧
    ServerSees exEnc exCfg.baseurl (idReq "a+b") s ∧ ¬ w.Matches s :=
  ⟨_, ⟨.get, "/v1/a+b".toList, [], []⟩, rfl, ⟨_, _, rfl, rfl, rfl⟩,
    ⟨"/v1/a+b".toList, rfl, rfl, by decide +kernel, by decide +kernel, rfl⟩, not_matches_of_test (by decide +kernel)⟩

/-- C49 fails as stated: the value is read as a regular expression, which may be invalid. -/
theorem C49_panic_fails [JsonLib] : whenAll idOp [(idParam, .plain (txt "a)"))] = .panicked := rfl

/-- C49 fails as stated: there is no expectation on headers. -/
theorem C49_header_fails [JsonLib] (op : OperationMethod) (p : Param) (b : Bool) (hk : p.kind = .header b) (v : Value) (w : When) :
    whenParam op p v w = .panicked := by
  unfold whenParam
  rw [hk]

/-- JSON texts are not empty, and an equals sign in one is part of a string. -/
structure JsonTexts [JsonLib] : Prop where
  nonempty : JsonLib.parse [] = none
  equals : ∀ t : Str, '=' ∈ t → '"' ∉ t → JsonLib.parse (utf8 t) = none

theorem appendPairs_equals : ∀ (ps : List Pair) (q : Str), ('=' ∈ q ∨ ps ≠ []) → '=' ∈ appendPairs q ps := by
  intro ps
  induction ps with
  | nil =>
    intro q h
    rcases h with h | h
    · exact h
    · exact absurd rfl h
  | cons p ps ih =>
    intro q _
    refine ih _ (.inl ?_)
    split <;> simp [formPair]

theorem whenParams_keeps [JsonLib] (op : OperationMethod) : ∀ (fs : List (Param × Value)) (w w' : When),
    whenParams op fs w = .when w' → ∀ e ∈ w.expects, e ∈ w'.expects := by
  intro fs
  induction fs with
  | nil => intro w w' h e he; cases h; exact he
  | cons pv fs ih =>
    obtain ⟨p, v⟩ := pv
    intro w w' h e he
    unfold whenParams at h
    split at h
    · rename_i w1 h1
      refine ih w1 w' h e ?_
      have hj : ∀ x, jsonBody x w = .when w1 → e ∈ w1.expects := by
        intro x hx
        unfold jsonBody at hx
        split at hx
        · cases hx; simp [he]
        · cases hx
      have hp : ∀ t, pathMatches t w = .when w1 → e ∈ w1.expects := by
        intro t ht
        unfold pathMatches at ht
        split at ht
        · cases ht; simp [he]
        · cases ht
        · cases ht
      unfold whenParam at h1
      split at h1
      · split at h1
        · cases h1
        · exact hp _ h1
      · cases h1; simp [he]
      · cases h1; simp [he]
      · cases h1; simp [he]
      · cases h1
      · split at h1
        · exact hj _ h1
        · exact hj _ h1
        · cases h1; simp [he]
        · cases h1
      · cases h1
    · cases h
    · cases h
    · cases h

/-- C49: a mock with an expectation on a body has that expectation. -/
theorem whenParams_form [JsonLib] (op : OperationMethod) (p : Param) (a : Arg) (ct : ContentType) (hk : p.kind = .body ct) :
    ∀ (fs : List (Param × Value)) (w w' : When), whenParams op fs w = .when w' → (p, .plain a) ∈ fs →
      .json a.ser ∈ w'.expects := by
  intro fs
  induction fs with
  | nil => intro w w' _ h; cases h
  | cons pv fs ih =>
    obtain ⟨q, v⟩ := pv
    intro w w' h hmem
    unfold whenParams at h
    split at h
    · rename_i w1 h1
      rcases List.mem_cons.mp hmem with e | hmem
      · cases e
        refine whenParams_keeps op fs w1 w' h _ ?_
        have hj : jsonBody a.ser w = .when w1 → .json a.ser ∈ w1.expects := by
          intro hx
          unfold jsonBody at hx
          split at hx
          · cases hx; simp
          · cases hx
        unfold whenParam at h1
        rw [hk] at h1
        dsimp only at h1
        split at h1
        · rename_i e; cases e; exact hj h1
        · rename_i e; cases e; exact hj h1
        · rename_i e; cases e
        · cases h1
      · exact ih w1 w' h hmem
    · cases h
    · cases h
    · cases h

/-- C49 fails as stated for forms: the expectation is on JSON, so that a mock with an expectation on the form matches no request
that the method makes, whatever the arguments. -/
theorem C49_form_fails [JsonLib] (hj : JsonTexts) {cfg : Config} {op : OperationMethod} {args : List Value} {r : Request} {s : Seen}
    {enc : Char → Str} (h : Issues cfg op args r) (hs : ServerSees enc cfg.baseurl r s) (hbn : BodyNamed op.params)
    {p : Param} (hp : p ∈ op.params) (hk : p.kind = .body .form) {a : Arg} {fs : List (Param × Value)} (hfs : (p, .plain a) ∈ fs)
    {w : When} (hw : whenAll op fs = .when w) : ¬ w.Matches s := by
  intro hm
  have hmem : .json a.ser ∈ w.expects := by
    unfold whenAll at hw
    split at hw
    · exact whenParams_form op p a _ hk fs _ w hw hfs
    · rename_i h; exact absurd hw (h w)
  obtain ⟨j, _, hparse⟩ := hm.2 _ hmem
  have hlen : op.params.length = args.length := by
    obtain ⟨_, _, _, hb, _⟩ := h
    exact (bindArgs_some hb).2.1
  obtain ⟨v, hpv⟩ := mem_zip_of_left hlen hp
  obtain ⟨b, hb, henc⟩ := C19_body cfg op args r hbn h p v _ hpv hk
  obtain ⟨_, _, _, _, _, hsb⟩ := hs
  rw [hsb, hb] at hparse
  cases henc with
  | form _ _ ps t _ _ ht =>
    have hq : '"' ∉ t := by
      rw [ht]
      intro hq
      exact appendPairs_safe [] ps (P := (· ≠ '"')) (by simp) (by rintro c hc rfl; revert hc; decide) (by decide) (by decide) _ hq rfl
    have hn : JsonLib.parse (utf8 t) = none := by
      cases ps with
      | nil => rw [ht]; exact hj.nonempty
      | cons x ps => exact hj.equals t (by rw [ht]; exact appendPairs_equals _ _ (.inr (by simp))) hq
    simp only [Option.getD_some] at hparse
    rw [hn] at hparse
    cases hparse

/-- C49: the emitted code for a path parameter compiles exactly if the parameter occurs once in the template. -/
theorem C49_compiles [JsonLib] (op : OperationMethod) (hc : PlainConsts op.path) (p : Param) (hk : p.kind = .path) (a : Arg) (w : When) :
    whenParam op p (.plain a) w = .noCompile ↔ (names op.path).count p.apiName ≠ 1 := by
  have hf := Regex.rustFormat_wildcardParam p.apiName a.display op.path (Regex.plainConsts_noBraces hc)
  unfold whenParam
  rw [hk]
  dsimp only
  rw [hf]
  split
  · rename_i h
    split at h
    · cases h
    · rename_i hne; exact iff_of_true rfl hne
  · rename_i t h
    split at h
    · rename_i he
      refine iff_of_false ?_ (fun hne => hne he)
      unfold pathMatches
      split <;> simp
    · cases h

/-- A method with two path parameters in one segment. -/
def pairOp : OperationMethod :=
  { exOp with
    path := [.const "/".toList, .param "a".toList, .const "-".toList, .param "b".toList]
    params := [⟨"a".toList, "a".toList, .type 0, .path⟩, ⟨"b".toList, "b".toList, .type 0, .path⟩] }

/-- If parameters are not separated by a slash, a mock with both values given matches other requests (so that the guard of
`C49_exact_partial` is needed). -/
theorem C49_overlap_fails [JsonLib] : ∃ w, whenAll pairOp [(⟨"a".toList, "a".toList, .type 0, .path⟩, .plain (txt "x")),
    (⟨"b".toList, "b".toList, .type 0, .path⟩, .plain (txt "z"))] = .when w ∧
    w.Matches ⟨.get, "/x-y-z".toList, [], []⟩ :=
  ⟨_, rfl, matches_of_test (by decide +kernel)⟩

/-! ## C50: responses -/

/-- C50: the method for a status class fails unless the status is of that class. -/
theorem C50_class (u : Names.Unicode) (r : Resp.Response) (m : ThenMethod) (k : Nat) (hr : r.status = .range k)
    (hm : thenMethod u r = .ok m) (s : Nat) (body : Bytes) :
    (m.call s body = none ↔ ¬ Covers r.status s) ∧
    ∀ out, m.call s body = some out → out.1 = s ∧ Covers r.status out.1 := by
  unfold thenMethod at hm
  rw [hr] at hm ⊢
  dsimp only at hm
  split at hm
  · cases hm
  · cases hm
    have key : s / 100 = k ↔ Covers (.range k) s := by simp only [Covers]; omega
    simp only [ThenMethod.call]
    by_cases hs : s / 100 = k
    · rw [if_pos hs]
      exact ⟨iff_of_false (fun h => nomatch h) (fun h => h (key.mp hs)), fun out h => by
        cases h; exact ⟨rfl, key.mp hs⟩⟩
    · rw [if_neg hs]
      exact ⟨iff_of_true rfl (fun h => hs (key.mpr h)), fun out h => nomatch h⟩

/-- C50: the method for a status code sets that status, that for the default response the given one. -/
theorem C50_code (u : Names.Unicode) (r : Resp.Response) (m : ThenMethod) (hm : thenMethod u r = .ok m) (s : Nat)
    (body : Bytes) :
    (∀ c, r.status = .code c → ∃ out, m.call s body = some out ∧ out.1 = c) ∧
    (r.status = .default → ∃ out, m.call s body = some out ∧ out.1 = s) := by
  constructor
  · intro c hr
    unfold thenMethod at hm
    rw [hr] at hm
    dsimp only at hm
    split at hm
    · cases hm
    · split at hm
      · cases hm
      · cases hm; exact ⟨_, rfl, rfl⟩
  · intro hr
    unfold thenMethod at hm
    rw [hr] at hm
    cases hm; exact ⟨_, rfl, rfl⟩

/-- C50: what the client makes of the status set by the method for a documented response: a success or an error of the kind of that
response, for success and error statuses. -/
theorem C50_classified {ws df codes rs d} (h1 : Resp.processResponses ws df codes = .ok rs)
    (h2 : Resp.genMatch rs = .ok d) (u : Names.Unicode) (r : Resp.Response) (hr : r ∈ rs) (hd : r.status ≠ .default)
    (m : ThenMethod) (hm : thenMethod u r = .ok m) (s : Nat) (body : Bytes) (out) (hout : m.call s body = some out) :
    (200 ≤ out.1 ∧ out.1 < 300 → Resp.dispatch d.arms out.1 = some (.ok r.kind)) ∧
    (400 ≤ out.1 ∧ out.1 < 600 → Resp.dispatch d.arms out.1 = some (.err r.kind)) := by
  have hc : Covers r.status out.1 := by
    match hst : r.status with
    | .code c =>
      obtain ⟨o, h3, h4⟩ := (C50_code u r m hm s body).1 c hst
      rw [hout] at h3; cases h3
      exact h4
    | .range k => rw [← hst]; exact ((C50_class u r m k hst hm s body).2 out hout).2
    | .default => exact absurd hst hd
  exact ⟨fun h => (C23_classified h1 h2 _ _).mpr (.success r hr ⟨hc, .inl h⟩),
    fun h => (C23_classified h1 h2 _ _).mpr (.error r hr ⟨hc, h⟩)⟩


/-- C50: a value given to the method for a documented typed response reaches the caller, as a success or an error according to the
class of the status. -/
theorem C50_value {P V : Type} (decode : Resp.TypeId → Bytes → Except P V) {ws df codes rs d}
    (h1 : Resp.processResponses ws df codes = .ok rs) (h2 : Resp.genMatch rs = .ok d) (u : Names.Unicode) (r : Resp.Response)
    (hr : r ∈ rs) (hd : r.status ≠ .default) (t : Resp.TypeId) (hk : r.kind = .type t) (m : ThenMethod)
    (hm : thenMethod u r = .ok m) (s : Nat) (body : Bytes) (v : V) (hv : decode t body = .ok v) (out)
    (hout : m.call s body = some out) (headers : Headers) (up) :
    (200 ≤ out.1 ∧ out.1 < 300 → Resp.handle decode d (.ok ⟨out.1, headers, .ok out.2.2, up⟩) =
      some (.ok ⟨.value v, out.1, headers⟩)) ∧
    (400 ≤ out.1 ∧ out.1 < 600 → Resp.handle decode d (.ok ⟨out.1, headers, .ok out.2.2, up⟩) =
      some (.error (.errorResponse ⟨.value v, out.1, headers⟩))) := by
  have hb : out.2.2 = body := by
    have hj : m.json = true := by
      unfold thenMethod at hm
      split at hm
      · split at hm
        · cases hm
        · split at hm
          · cases hm
          · cases hm; simp [hk, takesBody]
      · split at hm
        · cases hm
        · cases hm; simp [hk, takesBody]
      · cases hm; simp [hk, takesBody]
    have hcont : m.content body = (_, body) := if_pos hj
    unfold ThenMethod.call at hout
    rw [hcont] at hout
    split at hout
    · cases hout; rfl
    · split at hout
      · cases hout; rfl
      · cases hout
    · cases hout; rfl
  rw [hb]
  obtain ⟨h3, h4⟩ := C50_classified h1 h2 u r hr hd m hm s body out hout
  constructor
  · intro h
    simp only [Resp.handle, h3 h, hk, Resp.perform, fromResponse, hv, Option.map_some]
    rfl
  · intro h
    simp only [Resp.handle, h4 h, hk, Resp.perform, fromResponse, hv, Option.map_some]
    rfl

/-- C50: typed and raw responses carry the JSON given; empty and upgraded ones have no content. -/
theorem C50_content {u : Names.Unicode} {r : Resp.Response} {m : ThenMethod} (hm : thenMethod u r = .ok m) {s : Nat} {body : Bytes}
    {out} (hout : m.call s body = some out) :
    (((∃ t, r.kind = .type t) ∨ r.kind = .raw) → out.2 = ([("content-type".toList, utf8 "application/json".toList)], body)) ∧
    ((r.kind = .none ∨ r.kind = .upgrade) → out.2 = ([], [])) := by
  have hj : m.json = takesBody r.kind := by
    unfold thenMethod at hm
    split at hm
    · split at hm
      · cases hm
      · split at hm
        · cases hm
        · cases hm; rfl
    · split at hm
      · cases hm
      · cases hm; rfl
    · cases hm; rfl
  have hb : out.2 = m.content body := by
    unfold ThenMethod.call at hout
    split at hout
    · cases hout; rfl
    · split at hout
      · cases hout; rfl
      · cases hout
    · cases hout; rfl
  rw [hb]
  unfold ThenMethod.content
  rw [hj]
  constructor
  · rintro (⟨t, h⟩ | h) <;> rw [h] <;> rfl
  · rintro (h | h) <;> rw [h] <;> rfl

/-- C50: with a status that is neither a success nor 101 a mock never leads to a success. -/
theorem C50_never_ok {P V : Type} {decode : Resp.TypeId → Bytes → Except P V} {ws df codes d}
    (hacc : Accepted ws df codes d) (u : Names.Unicode) (r : Resp.Response) (k : Nat) (hr : r.status = .range k) (hk : k ≠ 2)
    (m : ThenMethod) (hm : thenMethod u r = .ok m) (s : Nat) (hs : s ≠ 101) (body : Bytes) (out)
    (hout : m.call s body = some out) (headers : Headers) (b up) :
    ∃ e, Resp.handle decode d (.ok ⟨out.1, headers, b, up⟩) = some (.error e) := by
  obtain ⟨h1, h2⟩ := (C50_class u r m k hr hm s body).2 out hout
  refine C25_never_ok hacc _ ?_
  rw [hr] at h2
  simp only [Covers] at h2
  dsimp only
  rw [h1] at h2 ⊢
  exact ⟨by omega, hs⟩

/-- A documented class of responses and its mock method. -/
example (u : Names.Unicode) : ∃ m, thenMethod u ⟨.range 4, .type 2⟩ = .ok m ∧ (m.call 404 []).isSome = true ∧
    (m.call 500 []).isSome = false := ⟨_, rfl, rfl, rfl⟩

/-! ## C67: the emitted code -/

/-- The codes with a name. -/
def reasonCodes : List Nat :=
  [100, 101, 102, 200, 201, 202, 203, 204, 205, 206, 207, 208, 226, 300, 301, 302, 303, 304, 305, 307, 308, 400, 401, 402, 403,
   404, 405, 406, 407, 408, 409, 410, 411, 412, 413, 414, 415, 416, 417, 418, 421, 422, 423, 424, 425, 426, 428, 429, 431, 451,
   500, 501, 502, 503, 504, 505, 506, 507, 508, 510, 511]

theorem reason_mem {c : Nat} {s : String} (h : canonicalReason c = some s) : c ∈ reasonCodes := by
  unfold canonicalReason at h
  split at h <;> first | (cases h; done) | decide

/-- A status for which there is a mock method: a code with a name, one of the five classes, or the default. -/
def Nameable : Resp.Status → Prop
  | .code c => (canonicalReason c).isSome = true
  | .range n => 1 ≤ n ∧ n ≤ 5
  | .default => True

theorem thenMethod_ok_iff (u : Names.Unicode) (r : Resp.Response) : (∃ m, thenMethod u r = .ok m) ↔ Nameable r.status := by
  obtain ⟨st, kind⟩ := r
  cases st with
  | code c =>
    simp only [thenMethod, Nameable]
    cases hn : canonicalReason c with
    | none => refine iff_of_false (by rintro ⟨m, h⟩; split at h <;> cases h) (by decide)
    | some s =>
      have key : ∀ c ∈ reasonCodes, ¬ (c < 100 ∨ 1000 ≤ c) := by decide
      rw [if_neg (key c (reason_mem hn))]
      exact iff_of_true ⟨_, rfl⟩ rfl
  | range n =>
    simp only [thenMethod, Nameable]
    cases hn : className n with
    | none =>
      refine iff_of_false (by rintro ⟨m, h⟩; cases h) ?_
      intro h
      have : n = 1 ∨ n = 2 ∨ n = 3 ∨ n = 4 ∨ n = 5 := by omega
      rcases this with rfl | rfl | rfl | rfl | rfl <;> cases hn
    | some s =>
      refine iff_of_true ⟨_, rfl⟩ ?_
      unfold className at hn
      split at hn <;> first | (cases hn; done) | decide
  | default => exact iff_of_true ⟨_, rfl⟩ trivial

/-- C67: generation of the mock succeeds exactly if each documented status code has a name, and each class is one of the five. -/
theorem C67_generates_iff (u : Names.Unicode) (rs : List Resp.Response) :
    (∃ ms, thenMethods u rs = .ok ms) ↔ ∀ r ∈ rs, Nameable r.status := by
  induction rs with
  | nil => exact iff_of_true ⟨[], rfl⟩ (by simp)
  | cons r rs ih =>
    rw [List.forall_mem_cons, ← ih, ← thenMethod_ok_iff u]
    constructor
    · rintro ⟨ms, h⟩
      simp only [thenMethods] at h
      obtain ⟨m, hm, h⟩ := bind_ok_inv h
      obtain ⟨ms', hms, h⟩ := bind_ok_inv h
      exact ⟨⟨m, hm⟩, ⟨ms', hms⟩⟩
    · rintro ⟨⟨m, hm⟩, ⟨ms, hms⟩⟩
      exact ⟨m :: ms, by simp [thenMethods, hm, hms]⟩

/-- C67 fails as stated: a documented code without a name, such as 299, makes generation panic. -/
theorem C67_reason_fails (u : Names.Unicode) : (thenMethods u [⟨.code 299, .none⟩]).isPanic = true := rfl

def codeName (c : Nat) : Str := Names.sanitize exUnicode .snake ((canonicalReason c).getD "").toList

/-- The name of a method, by status. -/
def methodName : Resp.Status → Str
  | .code c => codeName c
  | .range n => ((className n).getD "").toList
  | .default => "default_response".toList

def statuses : List Resp.Status :=
  [.default, .range 1, .range 2, .range 3, .range 4, .range 5] ++ reasonCodes.map .code

theorem nameable_mem {st : Resp.Status} (h : Nameable st) : st ∈ statuses := by
  cases st with
  | code c =>
    obtain ⟨s, hs⟩ := Option.isSome_iff_exists.mp h
    exact List.mem_append_right _ (List.mem_map.mpr ⟨c, reason_mem hs, rfl⟩)
  | range n =>
    obtain ⟨h1, h2⟩ := h
    have : n = 1 ∨ n = 2 ∨ n = 3 ∨ n = 4 ∨ n = 5 := by omega
    rcases this with rfl | rfl | rfl | rfl | rfl <;> simp [statuses]
  | default => simp [statuses]

theorem methodNames_nodup : ("new".toList :: "into_inner".toList :: statuses.map methodName).Nodup := by
  decide +kernel

theorem codeName_ascii : ∀ c ∈ reasonCodes, ∀ d ∈ ((canonicalReason c).getD "").toList, d.toNat < 128 := by
  decide +kernel

theorem thenMethod_name {u : Names.Unicode} (hu : Lawful u) {r : Resp.Response} {m : ThenMethod}
    (h : thenMethod u r = .ok m) : m.name = methodName r.status := by
  obtain ⟨st, kind⟩ := r
  cases st with
  | code c =>
    simp only [thenMethod] at h
    split at h
    · exact absurd h (by simp)
    · cases hs : canonicalReason c with
      | none => rw [hs] at h; exact absurd h (by simp)
      | some s =>
        rw [hs] at h
        have hm := Res.ok.inj h
        have hasc := codeName_ascii c (reason_mem hs)
        have hname : methodName (.code c) = Names.sanitize exUnicode .snake s.toList := by
          show Names.sanitize exUnicode .snake ((canonicalReason c).getD "").toList = _
          rw [hs, Option.getD_some]
        rw [hs, Option.getD_some] at hasc
        rw [hname, ← hm]
        exact sanitize_agree hu exUnicode_lawful _ hasc
  | range n =>
    simp only [thenMethod] at h
    cases hs : className n with
    | none => rw [hs] at h; exact absurd h (by simp)
    | some s =>
      rw [hs] at h
      have hm := Res.ok.inj h
      have hname : methodName (.range n) = s.toList := by
        show ((className n).getD "").toList = _
        rw [hs, Option.getD_some]
      rw [hname, ← hm]
  | default => cases h; rfl

theorem thenMethods_names {u : Names.Unicode} (hu : Lawful u) {rs : List Resp.Response} : ∀ {ms},
    thenMethods u rs = .ok ms → ms.map ThenMethod.name = rs.map (fun r => methodName r.status) := by
  induction rs with
  | nil => intro ms h; cases h; rfl
  | cons r rs ih =>
    intro ms h
    simp only [thenMethods] at h
    obtain ⟨m, hm, h⟩ := bind_ok_inv h
    obtain ⟨ms', hms, h⟩ := bind_ok_inv h
    cases h
    simp [ih hms, thenMethod_name hu hm]

theorem nodup_map_inj {α β : Type} {f : α → β} {l : List α} (h : (l.map f).Nodup) : ∀ a ∈ l, ∀ b ∈ l, f a = f b → a = b := by
  induction l with
  | nil => intro a ha; cases ha
  | cons x l ih =>
    rw [List.map_cons, List.nodup_cons] at h
    have ih := ih h.2
    intro a ha b hb hf
    rcases List.mem_cons.mp ha with ha' | ha' <;> rcases List.mem_cons.mp hb with hb' | hb'
    · rw [ha', hb']
    · exact absurd (List.mem_map.mpr ⟨b, hb', by rw [← hf, ha']⟩) h.1
    · exact absurd (List.mem_map.mpr ⟨a, ha', by rw [hf, hb']⟩) h.1
    · exact ih a ha' b hb' hf

theorem nodup_map_of_inj {α β : Type} {f : α → β} {l : List α} (h : l.Nodup) (hf : ∀ a ∈ l, ∀ b ∈ l, f a = f b → a = b) :
    (l.map f).Nodup := by
  induction l with
  | nil => simp
  | cons x l ih =>
    rw [List.nodup_cons] at h
    rw [List.map_cons, List.nodup_cons]
    refine ⟨?_, ih h.2 fun a ha b hb => hf a (by simp [ha]) b (by simp [hb])⟩
    intro hm
    obtain ⟨y, hy, he⟩ := List.mem_map.mp hm
    exact h.1 (hf y (by simp [hy]) x (by simp) he ▸ hy)

/-- C67: the methods of a `Then` wrapper have distinct names if the documented statuses are distinct. -/
theorem C67_then (u : Names.Unicode) (hu : Lawful u) (op : OperationMethod) (ns : List Str)
    (h : thenMethodNames u op = .ok ns) (hd : (op.responses.map Resp.Response.status).Nodup) : ns.Nodup := by
  simp only [thenMethodNames] at h
  obtain ⟨ms, hms, h⟩ := bind_ok_inv h
  cases h
  have hmem : ∀ st ∈ op.responses.map Resp.Response.status, st ∈ statuses := by
    intro st hst
    obtain ⟨r, hr, rfl⟩ := List.mem_map.mp hst
    exact nameable_mem ((C67_generates_iff u op.responses).mp ⟨ms, hms⟩ r hr)
  rw [thenMethods_names hu hms, show (op.responses.map fun r => methodName r.status) =
    (op.responses.map Resp.Response.status).map methodName by rw [List.map_map]; rfl]
  have key := methodNames_nodup
  rw [List.nodup_cons, List.nodup_cons] at key ⊢
  have sub : ∀ x ∈ (op.responses.map Resp.Response.status).map methodName, x ∈ statuses.map methodName := by
    intro x hx
    obtain ⟨st, hst, rfl⟩ := List.mem_map.mp hx
    exact List.mem_map.mpr ⟨st, hmem st hst, rfl⟩
  refine ⟨?_, ?_, nodup_map_of_inj hd fun a ha b hb => nodup_map_inj key.2.2 a (hmem a ha) b (hmem b hb)⟩
  · intro hx
    rcases List.mem_cons.mp hx with hx | hx
    · revert hx; decide
    · exact key.1 (List.mem_cons_of_mem _ (sub _ hx))
  · intro hx; exact key.2.1 (sub _ hx)

example : thenMethodNames exUnicode { exOp with responses := [⟨.code 200, .type 1⟩, ⟨.range 4, .type 2⟩, ⟨.default, .none⟩] } =
    .ok ["new".toList, "into_inner".toList, "ok".toList, "client_error".toList, "default_response".toList] := rfl

/-- Documents have each status once, and a synthesized response is for a status that is not documented, so that the hypothesis of
`C67_then` holds for operations without websockets. -/
theorem C67_statuses {df : Option Resp.DocResponse} {codes rs} (h : Resp.processResponses false df codes = .ok rs)
    (hd : (codes.map Prod.fst).Nodup) : (rs.map Resp.Response.status).Nodup := by
  simp only [Resp.processResponses] at h
  obtain ⟨rs', h1, h⟩ := bind_ok_inv h
  have hst : ∀ (l : List (Resp.Status × Resp.DocResponse)) rs', Resp.convertAll false l = .ok rs' →
      rs'.map Resp.Response.status = l.map Prod.fst := by
    intro l
    induction l with
    | nil => intro rs' h; cases h; rfl
    | cons e l ih =>
      intro rs' h
      obtain ⟨st, d⟩ := e
      simp only [Resp.convertAll] at h
      obtain ⟨k, _, h⟩ := bind_ok_inv h
      obtain ⟨rs2, h2, h⟩ := bind_ok_inv h
      cases h
      simp [ih _ h2]
  have h2 := hst _ _ h1
  have hnd : (rs'.map Resp.Response.status).Nodup := by
    rw [h2, List.map_append, List.map_map, List.map_map]
    have h3 : (codes.map (Prod.fst ∘ fun e : Resp.DocStatus × Resp.DocResponse => (e.1.toStatus, e.2))).Nodup := by
      rw [show (codes.map (Prod.fst ∘ fun e : Resp.DocStatus × Resp.DocResponse => (e.1.toStatus, e.2))) =
        (codes.map Prod.fst).map Resp.DocStatus.toStatus by rw [List.map_map]; rfl]
      refine nodup_map_of_inj hd fun a _ b _ he => ?_
      cases a <;> cases b <;> simp_all [Resp.DocStatus.toStatus]
    cases df with
    | none => simpa using h3
    | some x =>
      simp only [Option.toList, List.map_cons, List.map_nil, List.cons_append, List.nil_append, List.nodup_cons]
      refine ⟨?_, h3⟩
      intro hm
      obtain ⟨e, _, he⟩ := List.mem_map.mp hm
      obtain ⟨st, d⟩ := e
      cases st <;> simp [Resp.DocStatus.toStatus] at he
  simp only [Bool.false_eq_true, if_false] at h
  cases h
  split
  · exact hnd
  · rename_i hno
    rw [List.map_append, List.nodup_append]
    refine ⟨hnd, by simp, ?_⟩
    rintro a ha b hb rfl
    simp only [List.map_cons, List.map_nil, List.mem_singleton] at hb
    subst hb
    obtain ⟨r, hr, he⟩ := List.mem_map.mp ha
    apply hno
    rw [List.any_eq_true]
    exact ⟨r, hr, by rw [he]; rfl⟩

/-- C67: the methods of a `When` wrapper have distinct names exactly if parameters do and none is `new` or `into_inner`. -/
theorem C67_when_iff (op : OperationMethod) : (whenMethods op).Nodup ↔
    (op.params.map Param.name).Nodup ∧ ∀ p ∈ op.params, p.name ≠ "new".toList ∧ p.name ≠ "into_inner".toList := by
  unfold whenMethods
  simp only [List.nodup_cons, List.mem_cons, List.mem_map, not_or, not_exists, not_and]
  constructor
  · rintro ⟨⟨_, h1⟩, h2, h3⟩
    exact ⟨h3, fun p hp => ⟨h1 p hp, h2 p hp⟩⟩
  · rintro ⟨h3, h⟩
    exact ⟨⟨by decide, fun p hp => (h p hp).1⟩, fun p hp => (h p hp).2, h3⟩

/-- C67 fails as stated: for a parameter named `new` the client compiles but the mock does not. -/
theorem C67_new_fails : ∃ op r, Issues exCfg op [.plain (txt "x")] r ∧ ¬ (whenMethods op).Nodup :=
  ⟨{ exOp with path := [.const "/v1".toList], params := [⟨"new".toList, "new".toList, .type 0, .query true⟩] },
    { method := .get, url := "http://h/v1".toList, query := some "new=x".toList,
      headers := [(Hdr.apiVersion, utf8 "1.0".toList)], body := none }, ⟨_, _, rfl, rfl, rfl⟩, by decide⟩

end Progenitor.Props

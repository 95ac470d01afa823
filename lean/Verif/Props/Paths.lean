import Verif.Lemmas.Url

/-!
# C01-C06: path templates and URLs
-/

namespace Progenitor.Props

open Progenitor Progenitor.Spec Progenitor.Template

/-! ## C01 -/

/-- C01, exact acceptance: the parser accepts exactly the paths of the lax
grammar (well-formed paths in which, additionally, one stray `}` may directly
follow a parameter). -/
theorem C01_accepts_iff (t : Str) : (∃ p, parse t = .ok p) ↔ LaxPath t :=
  parse_accepts t

/-- C01: every well-formed path is accepted. -/
theorem C01_wellformed_accepted (t : Str) (h : WellFormedPath t) : ∃ p, parse t = .ok p := by
  obtain ⟨r, rfl, hr⟩ := h
  exact (parse_accepts _).2 ⟨r, rfl, Template.PathTail.lax hr⟩

/-- C01 fails as stated: `/{a}}` has a `}` outside of a parameter and is accepted. -/
theorem C01_only_wellformed_fails :
    ∃ t, (∃ p, parse t = .ok p) ∧ ¬ WellFormedPath t := by
  refine ⟨"/{a}}".toList, ⟨_, rfl⟩, ?_⟩
  rintro ⟨r, h, hr⟩
  have := (Template.PathTail.noDoubleClose hr).1
  apply this
  simp at h
  exact ⟨['{', 'a'], [], by simp [← h]⟩

/-- C01 for paths in which `}}` does not occur. Missing for the full claim:
rejecting a `}` right after a parameter, which the code does not do. -/
theorem C01_only_wellformed_partial (t : Str) (h : NoDoubleClose t) :
    (∃ p, parse t = .ok p) ↔ WellFormedPath t := by
  constructor
  · intro hp
    obtain ⟨r, rfl, hr⟩ := (parse_accepts t).1 hp
    exact ⟨r, rfl, Template.LaxTail.clean hr fun ⟨a, b, e⟩ => h ⟨'/' :: a, b, by simp [e]⟩⟩
  · exact C01_wellformed_accepted t

example : WellFormedPath "/a/{b}/c".toList :=
  ⟨_, rfl, .char _ _ (by decide) (by decide) <| .char _ _ (by decide) (by decide) <|
    .param ['b'] "/c".toList (by decide) <| .char _ _ (by decide) (by decide) <|
    .char _ _ (by decide) (by decide) .nil⟩
example : (∃ p, parse "/a/{b}/c".toList = .ok p) := ⟨_, rfl⟩
example : parse "/a}/b".toList = .error "unexpected }".toList := rfl
example : parse "/{a/b}".toList = .error "invalid parameter name".toList := rfl

/-! ## C02 -/

/-- C02: printing gives back the path with slash runs collapsed. -/
theorem C02_printed (t : Str) (p : PathTemplate) (h : parse t = .ok p) :
    Template.toString p = collapse t := by
  rw [parse_eq, runFinish_start] at h
  obtain ⟨r, rfl, h⟩ := h
  have := (printed r ['/'] [] p).1 h
  rw [this, collapse_cons]
  simp [endsWithSlash]

/-- C02: re-reading the printed form gives the same template. -/
theorem C02_reparse (t : Str) (p : PathTemplate) (h : parse t = .ok p) :
    parse (Template.toString p) = .ok p := by
  rw [C02_printed t p h]
  rw [parse_eq, runFinish_start] at h
  obtain ⟨r, rfl, h⟩ := h
  have := (reparse r ['/'] [] p).1 h
  rw [collapse_cons, parse_eq, runFinish_start]
  exact ⟨_, rfl, by simpa [endsWithSlash] using this⟩

/-- C02: the parameter names are the brace groups of the path, in order. -/
theorem C02_names (t : Str) (p : PathTemplate) (h : parse t = .ok p) :
    names p = braceGroups t := by
  rw [parse_eq, runFinish_start] at h
  obtain ⟨r, rfl, h⟩ := h
  have := (names_run r ['/'] [] p).1 h
  simpa [braceGroups] using this

/-- C02: two accepted paths yield the same template only if they agree up to
slash runs (so no information is lost). -/
theorem C02_injective (s t : Str) (p : PathTemplate) (h1 : parse s = .ok p) (h2 : parse t = .ok p) :
    collapse s = collapse t := by
  rw [← C02_printed s p h1, ← C02_printed t p h2]

example : parse "/a//{b}///c".toList =
    .ok [.const "/a/".toList, .param ['b'], .const "/c".toList] := rfl
example : collapse "/a//{b}///c".toList = "/a/{b}/c".toList := by decide
example : braceGroups "/a/{b}-{cd}".toList = ["b".toList, "cd".toList] := by decide

/-! ## C03 -/

/-- C03: for a well-formed path whose parameters are all mapped to identifiers,
the URL expression compiles and evaluates to the base URL followed by the path
with each group replaced by the encoding of the argument held by that
identifier. -/
theorem C03_url_partial (t base : Str) (p : PathTemplate) (rename : Str → Option Str)
    (ident : Str → Str) (value : Str → Str)
    (hw : WellFormedPath t) (hp : parse t = .ok p)
    (hr : ∀ n ∈ braceGroups t, rename n = some (ident n)) :
    ∃ e, compile p rename = .ok e ∧
      rustFormat e.fmt (base :: e.args.map fun i => encodePath (value i)) =
        some (base ++ substGroups (fun n => encodePath (value (ident n))) (collapse t)) := by
  have hn := C02_names t p hp
  have hc := parse_clean hw hp
  have hargs : compileArgs rename p = .ok ((names p).map ident) := by
    rw [compileArgs_ok]
    rw [List.map_map]
    apply List.map_congr_left
    intro n hn'
    rw [hn] at hn'
    simp [hr n hn']
  refine ⟨_, by simp [compile, hargs]; rfl, ?_⟩
  have hfmt := rustFormat_comps p hc (fun n => encodePath (value (ident n)))
  simp only [List.map_map]
  rw [compileFmt_eq, rustFormat]
  rw [show ((fun i => encodePath (value i)) ∘ ident) = (fun n => encodePath (value (ident n))) from rfl]
  rw [hfmt, ← C02_printed t p hp, substGroups_toString _ p hc]
  rfl

/-- C03, completeness of the guard: an accepted path that is not well-formed
never yields a URL expression that compiles. -/
theorem C03_stray_brace_never_compiles (t : Str) (p : PathTemplate) (rename : Str → Option Str)
    (e : UrlExpr) (hp : parse t = .ok p) (hw : ¬ WellFormedPath t) (he : compile p rename = .ok e) :
    ∀ args, rustFormat e.fmt args = none := by
  have hs := parse_struct hp
  have hd : ∃ x ∈ p, dirty x = true := by
    false_or_by_contra
    rename_i hne
    apply hw
    apply wellFormed_of_clean hp
    intro x hx
    apply clean_of_not_dirty x (hs.1 x hx)
    rw [Bool.eq_false_iff]
    exact fun h => hne ⟨x, hx, h⟩
  have hfmt : e.fmt = compileFmt p := by
    simp only [compile] at he
    split at he <;> simp at he
    rw [← he]
  intro args
  rw [hfmt, compileFmt_eq]
  cases args with
  | nil => simp [rustFormat]
  | cons x args => simp [rustFormat, rustFormat_dirty p hs.1 hs.2 hd]

/-- C03 fails as stated: some accepted path yields no URL at all. -/
theorem C03_url_fails : ∃ t p, parse t = .ok p ∧
    ∀ rename e, compile p rename = .ok e → ∀ args, rustFormat e.fmt args = none := by
  obtain ⟨t, ⟨p, hp⟩, hw⟩ := C01_only_wellformed_fails
  exact ⟨t, p, hp, fun rename e he => C03_stray_brace_never_compiles t p rename e hp hw he⟩

/-- C03: URL generation panics exactly when some path parameter is not declared. -/
theorem C03_panics_iff (t : Str) (p : PathTemplate) (rename : Str → Option Str)
    (hp : parse t = .ok p) :
    (compile p rename).isPanic = true ↔ ∃ n ∈ braceGroups t, rename n = none := by
  rw [← C02_names t p hp]
  cases h : compileArgs rename p with
  | ok is =>
    have := (compileArgs_ok rename p is).1 h
    simp only [compile, h, Res.isPanic, Bool.false_eq_true, false_iff]
    rintro ⟨n, hn, hr⟩
    have : rename n ∈ is.map some := this ▸ List.mem_map_of_mem hn
    rw [hr] at this; simp at this
  | err m => exact absurd h (compileArgs_no_err rename p m)
  | panic m =>
    simp only [compile, h, Res.isPanic, true_iff]
    false_or_by_contra
    rename_i hne
    have : compileArgs rename p = .ok ((names p).map fun n => (rename n).getD []) := by
      rw [compileArgs_ok, List.map_map]
      apply List.map_congr_left
      intro n hn
      cases hr : rename n with
      | none => exact absurd ⟨n, hn, hr⟩ hne
      | some i => simp [hr]
    rw [h] at this; cases this

example : ∃ e, compile [.const "/a/".toList, .param ['b']] (fun n => if n = ['b'] then some "b_".toList else none) = .ok e ∧
    rustFormat e.fmt ["http://h".toList, "x%2Fy".toList] = some "http://h/a/x%2Fy".toList :=
  ⟨_, rfl, by decide⟩

/-! ## C04 -/

/-- C04: percent-decoding an encoded argument gives its bytes. -/
theorem C04_decode (s : Str) : percentDecode (encodePath s) = utf8 s :=
  percentDecode_encodePath s

/-- C04: encoding is injective. -/
theorem C04_injective (s t : Str) (h : encodePath s = encodePath t) : s = t :=
  encodePath_injective h

/-- C04: encoding distributes over concatenation. -/
theorem C04_append (s t : Str) : encodePath (s ++ t) = encodePath s ++ encodePath t := by
  simp [encodePath, utf8_append]

/-- C04: the encoding is printable ASCII without reserved path characters. -/
theorem C04_alphabet (s : Str) : ∀ c ∈ encodePath s,
    '!' ≤ c ∧ c ≤ '~' ∧ c ∉ ['"', '#', '<', '>', '?', '`', '{', '}', '/'] := by
  intro c hc
  have h := encodePath_alphabet s c hc
  simp only [reservedOut, Bool.or_eq_false_iff, decide_eq_false_iff_not] at h
  obtain ⟨⟨h1, h2⟩, h3⟩ := h
  refine ⟨?_, ?_, ?_⟩
  · show (33 : Nat) ≤ c.toNat; omega
  · show c.toNat ≤ (126 : Nat); omega
  · simpa using h3

/-- RFC 3986 unreserved characters. -/
def unreserved (c : Char) : Bool :=
  ('a' ≤ c && c ≤ 'z') || ('A' ≤ c && c ≤ 'Z') || ('0' ≤ c && c ≤ '9') ||
  c == '-' || c == '.' || c == '_' || c == '~'

/-- C04: text made of unreserved characters is left unchanged. -/
theorem C04_unreserved (s : Str) (h : ∀ c ∈ s, unreserved c = true) : encodePath s = s := by
  have key : ∀ b : UInt8, b.toNat < 128 → unreserved (Char.ofNat b.toNat) = true →
      (String.utf8EncodeChar (Char.ofNat b.toNat)).flatMap pathByte = [Char.ofNat b.toNat] := by
    apply forall_uint8; decide +kernel
  induction s with
  | nil => rfl
  | cons c s ih =>
    have ih := ih fun d hd => h d (by simp [hd])
    have hc := h c (by simp)
    have hlt : c.toNat < 128 := by
      simp only [unreserved, Bool.or_eq_true, Bool.and_eq_true, decide_eq_true_eq, beq_iff_eq] at hc
      have hle : ∀ d : Char, c ≤ d → c.toNat ≤ d.toNat := fun d h => h
      rcases hc with ((((((h | h) | h) | h) | h) | h) | h)
      · have := hle _ h.2; simp at this; omega
      · have := hle _ h.2; simp at this; omega
      · have := hle _ h.2; simp at this; omega
      all_goals (subst h; decide)
    have h2 := key (UInt8.ofNat c.toNat) (by simp; omega)
    have h3 : (UInt8.ofNat c.toNat).toNat = c.toNat := by simp; omega
    rw [h3, Char.ofNat_toNat] at h2
    have h2 := h2 hc
    simp only [encodePath, utf8_cons, List.flatMap_append] at ih ⊢
    rw [h2, ih]; rfl

example : encodePath "a/b c?é".toList = "a%2Fb%20c%3F%C3%A9".toList := by decide
example : percentDecode "%2F".toList = [47] := by decide

/-! ## C05 -/

/-- The URL text a generated method computes for a slash-separated template
behind a base URL, together with how it parses. `auth` is scheme and authority,
`b` the path segments of the base URL. -/
theorem segs_url (l : List Seg) (hl : SegsOk l) (hne : l ≠ []) (base : Str) (v : Str → Str) :
    ∃ p e, parse (segsText l) = .ok p ∧ compile p some = .ok e ∧
      rustFormat e.fmt (base :: e.args.map fun i => encodePath (v i)) =
        some (base ++ segsUrl (fun n => encodePath (v n)) l) := by
  have hw := wellFormed_segs l hl hne
  obtain ⟨p, hp⟩ := C01_wellformed_accepted _ hw
  obtain ⟨e, he, hf⟩ := C03_url_partial (segsText l) base p some id v hw hp (by simp)
  refine ⟨p, e, hp, he, ?_⟩
  rw [hf, collapse_eq, collapse_segs l hl, substGroups_segs _ l hl]
  rfl

/-- The parameter names of a slash-separated template. -/
def pars : List Seg → List Str
  | [] => []
  | .lit _ :: r => pars r
  | .par n _ _ :: r => n :: pars r

theorem mem_pars {l : List Seg} {n : Str} : n ∈ pars l ↔ ∃ pre post, Seg.par n pre post ∈ l := by
  induction l with
  | nil => simp [pars]
  | cons s l ih =>
    cases s with
    | lit t => simp [pars, ih]
    | par m pre post =>
      simp only [pars, List.mem_cons, ih, Seg.par.injEq]
      constructor
      · rintro (rfl | ⟨a, b, h⟩)
        · exact ⟨pre, post, .inl ⟨rfl, rfl, rfl⟩⟩
        · exact ⟨a, b, .inr h⟩
      · rintro ⟨a, b, ⟨rfl, _⟩ | h⟩
        · exact .inl rfl
        · exact .inr ⟨a, b, h⟩

/-- Every segment of a base URL path is literal and harmless. -/
def BaseOk (b : List Str) : Prop :=
  ∀ s ∈ b, s.all plainChar = true ∧ isSingleDot s = false ∧ isDoubleDot s = false

theorem plain_inert {s : Str} (h : s.all plainChar = true) : s.all inert = true := by
  rw [List.all_eq_true] at h ⊢
  intro c hc
  have := h c hc
  simp [plainChar, inert] at this ⊢
  simp [this]

/-- Segment texts of the URL. -/
def urlSegs (f : Str → Str) : List Seg → List Str
  | [] => []
  | .lit s :: r => s :: urlSegs f r
  | .par n pre post :: r => (pre ++ f n ++ post) :: urlSegs f r

theorem segsUrl_join (f : Str → Str) (l : List Seg) : segsUrl f l = joinSegs (urlSegs f l) := by
  induction l with
  | nil => rfl
  | cons x l ih =>
    cases x <;> simp [segsUrl, joinSegs, urlSegs] at ih ⊢ <;> exact ih

/-- C05 fails as stated: an argument containing a backslash adds a segment. -/
theorem C05_backslash_fails : ∃ (l : List Seg) (v : Str → Str), SegsOk l ∧
    (parseUrlTail (segsUrl (fun n => encodePath (v n)) l)).segments.length ≠ l.length := by
  refine ⟨[.lit "a".toList, .par "x".toList], fun _ => "b\\c".toList, ?_, by decide⟩
  refine ⟨by simp, by decide, by decide, by decide, by decide, by decide, by decide, trivial⟩

/-- C05 fails as stated: the argument `..` removes a segment of the template. -/
theorem C05_dotdot_fails : ∃ (l : List Seg) (v : Str → Str), SegsOk l ∧
    (parseUrlTail (segsUrl (fun n => encodePath (v n)) l)).segments.length ≠ l.length := by
  refine ⟨[.lit "a".toList, .par "x".toList], fun _ => "..".toList, ?_, by decide⟩
  refine ⟨by simp, by decide, by decide, by decide, by decide, by decide, by decide, trivial⟩

/-- C05: the argument `.` is dropped by the URL parser, so a different resource
is addressed. -/
theorem C05_dot_fails : ∃ (l : List Seg) (v : Str → Str), SegsOk l ∧
    (parseUrlTail (segsUrl (fun n => encodePath (v n)) l)).segments.length ≠ l.length := by
  refine ⟨[.par "x".toList, .lit "a".toList], fun _ => ".".toList, ?_, by decide⟩
  refine ⟨by decide, by decide, by decide, by simp, by decide, by decide, by decide, trivial⟩

/-- C05, guarded: unless an argument contains a backslash or makes its segment `.` or `..`, the
URL parses to exactly the base segments followed by one segment per template
segment, each parameter segment decoding to its argument, without query or
fragment. Missing for the full claim: escaping of backslashes and dot segments,
which the code does not do. -/
theorem C05_confined_partial (l : List Seg) (hl : SegsOk l) (hne : l ≠ []) (auth : Str)
    (b : List Str) (hb : BaseOk b) (v : Str → Str)
    (hv : ∀ n pre post, Seg.par n pre post ∈ l → '\\' ∉ v n ∧ pre ++ v n ++ post ≠ ['.'] ∧ pre ++ v n ++ post ≠ ['.', '.']) :
    ∃ p e tail, parse (segsText l) = .ok p ∧ compile p some = .ok e ∧
      rustFormat e.fmt ((auth ++ joinSegs b) :: e.args.map fun i => encodePath (v i)) =
        some (auth ++ tail) ∧
      (parseUrlTail tail).query = none ∧ (parseUrlTail tail).fragment = none ∧
      (parseUrlTail tail).segments.map percentDecode =
        b.map percentDecode ++ expectedSegs (fun n => utf8 (v n)) l := by
  obtain ⟨p, e, hp, he, hf⟩ := segs_url l hl hne (auth ++ joinSegs b) v
  refine ⟨p, e, joinSegs b ++ segsUrl (fun n => encodePath (v n)) l, hp, he, by rw [hf]; simp, ?_⟩
  rw [segsUrl_join, show ∀ x y : List Str, joinSegs x ++ joinSegs y = joinSegs (x ++ y) by
    intro x y; simp [joinSegs]]
  have hok : ∀ s ∈ urlSegs (fun n => encodePath (v n)) l,
      s.all inert = true ∧ isSingleDot s = false ∧ isDoubleDot s = false := by
    clear hf he hp hne e p
    induction l with
    | nil => simp [urlSegs]
    | cons x l ih =>
      intro s hs
      cases x with
      | lit q =>
        obtain ⟨_, h1, h2, h3, h4⟩ := hl
        simp [urlSegs] at hs
        rcases hs with rfl | hs
        · exact ⟨plain_inert h1, h2, h3⟩
        · exact ih h4 (fun m pre post hm => hv m pre post (by simp [hm])) s hs
      | par n pre post =>
        obtain ⟨h1, hp, hq, h4⟩ := hl
        rw [urlSegs, List.mem_cons] at hs
        rcases hs with rfl | hs
        · have := hv n pre post (by simp)
          rw [encodePath_around hp hq]
          exact ⟨encodePath_inert _ (fun hb => this.1 ((backslash_around hp hq).mp hb)), encodePath_dots _ this.2⟩
        · exact ih h4 (fun m pre post hm => hv m pre post (by simp [hm])) s hs
  rw [parseUrlTail_joinSegs (b ++ urlSegs _ l) (by
    intro s hs
    rcases List.mem_append.1 hs with hs | hs
    · have := hb s hs
      exact ⟨plain_inert this.1, this.2⟩
    · exact hok s hs)]
  refine ⟨rfl, rfl, ?_⟩
  rw [List.map_append]
  congr 1
  clear hok hv hf he hp hne e p
  induction l with
  | nil => rfl
  | cons x l ih =>
    cases x with
    | lit q => simp [urlSegs, expectedSegs, ih hl.2.2.2.2]
    | par n pre post =>
      obtain ⟨_, hp, hq, h4⟩ := hl
      rw [urlSegs, expectedSegs, List.map_cons, encodePath_around hp hq, percentDecode_encodePath, utf8_around hp hq, ih h4]

theorem segsUrl_chars (l : List Seg) (hl : SegsOk l) (v : Str → Str) :
    ∀ c ∈ segsUrl (fun n => encodePath (v n)) l, c ≠ '#' ∧ c ≠ '?' := by
  induction l with
  | nil => simp [segsUrl]
  | cons x l ih =>
    intro c hc
    cases x with
    | lit q =>
      obtain ⟨_, h1, _, _, h4⟩ := hl
      have : segsUrl (fun n => encodePath (v n)) (.lit q :: l) =
        '/' :: q ++ segsUrl (fun n => encodePath (v n)) l := by simp [segsUrl]
      rw [this] at hc
      simp at hc
      rcases hc with rfl | hc | hc
      · decide
      · have := List.all_eq_true.1 h1 c hc
        simp [plainChar] at this; simp [this]
      · exact ih h4 c hc
    | par n pre post =>
      obtain ⟨_, hp, hq, h4⟩ := hl
      have : segsUrl (fun n => encodePath (v n)) (.par n pre post :: l) =
        '/' :: encodePath (pre ++ v n ++ post) ++ segsUrl (fun n => encodePath (v n)) l := by
        rw [← encodePath_around hp hq]; simp [segsUrl]
      rw [this] at hc
      simp at hc
      rcases hc with rfl | hc | hc
      · decide
      · have := (C04_alphabet _ c hc).2.2
        simp at this; simp [this]
      · exact ih h4 c hc

/-- C05, unguarded part: no argument whatever introduces a query or a fragment. -/
theorem C05_no_query_or_fragment (l : List Seg) (hl : SegsOk l) (v : Str → Str) :
    (parseUrlTail (segsUrl (fun n => encodePath (v n)) l)).query = none ∧
    (parseUrlTail (segsUrl (fun n => encodePath (v n)) l)).fragment = none := by
  have hmem := segsUrl_chars l hl v
  generalize segsUrl (fun n => encodePath (v n)) l = u at hmem
  have h1 := takeWhile_all (fun c : Char => decide (c ≠ '#'))
    (u.filter (fun c => !(c == '\t' || c == '\n' || c == '\r'))) (by
      intro c hc; simp at hc; simpa using (hmem c hc.1).1)
  have h2 := takeWhile_all (fun c : Char => decide (c ≠ '?'))
    (u.filter (fun c => !(c == '\t' || c == '\n' || c == '\r'))) (by
      intro c hc; simp at hc; simpa using (hmem c hc.1).2)
  unfold parseUrlTail
  simp only [h1.1, h1.2, h2.2]
  exact ⟨rfl, rfl⟩

example : SegsOk [.lit "v1".toList, .par "id".toList, .lit [], ] := by
  refine ⟨by simp, by decide, by decide, by decide, by decide, by decide, by decide, by simp, by decide, by decide, by decide, trivial⟩
example : SegsOk [.lit "files".toList, .par "id".toList "v-".toList ".json".toList] := by
  refine ⟨by simp, by decide, by decide, by decide, by decide, by decide, by decide, trivial⟩
example : (parseUrlTail "/v1/a%2Fb".toList).segments.map percentDecode =
    [utf8 "v1".toList, utf8 "a/b".toList] := by decide

/-! ## C06 -/

/-- C06: for slash-separated parameters, equal URLs come from equal arguments. -/
theorem C06_url_injective (l : List Seg) (hl : SegsOk l) (hne : l ≠ []) (base : Str)
    (v w : Str → Str) :
    ∃ p e, parse (segsText l) = .ok p ∧ compile p some = .ok e ∧
      ((rustFormat e.fmt (base :: e.args.map fun i => encodePath (v i))).isSome = true ∧
       (rustFormat e.fmt (base :: e.args.map fun i => encodePath (v i)) =
        rustFormat e.fmt (base :: e.args.map fun i => encodePath (w i)) →
          ∀ n ∈ pars l, v n = w n)) := by
  obtain ⟨p, e, hp, he, hf⟩ := segs_url l hl hne base v
  obtain ⟨p', e', hp', he', hf'⟩ := segs_url l hl hne base w
  rw [hp] at hp'; cases hp'
  rw [he] at he'; cases he'
  refine ⟨p, e, hp, he, by simp [hf], ?_⟩
  rw [hf, hf']
  intro h
  simp only [Option.some.injEq, List.append_cancel_left_eq, segsUrl_join] at h
  have hns : ∀ (v : Str → Str), ∀ s ∈ urlSegs (fun n => encodePath (v n)) l, ∀ c ∈ s, (c == '/') = false := by
    intro v
    clear h hf hf' hp he e p hne
    induction l with
    | nil => simp [urlSegs]
    | cons x l ih =>
      intro s hs c hc
      cases x with
      | lit q =>
        obtain ⟨_, h1, _, _, h4⟩ := hl
        simp [urlSegs] at hs
        rcases hs with rfl | hs
        · simpa using plain_ne_slash h1 c hc
        · exact ih h4 s hs c hc
      | par n pre post =>
        obtain ⟨_, hp, hq, h4⟩ := hl
        rw [urlSegs, List.mem_cons] at hs
        rcases hs with rfl | hs
        · rw [encodePath_around hp hq] at hc
          have := (C04_alphabet _ c hc).2.2
          simp at this; simp [this]
        · exact ih h4 s hs c hc
  have heq := splitAt_injective (· == '/') (by decide) _ _ (hns v) (hns w) h
  clear h hf hf' hp he e p hne hns hl
  induction l with
  | nil => simp [pars]
  | cons x l ih =>
    cases x with
    | lit q => simp [urlSegs] at heq; exact ih heq
    | par n pre post =>
      simp only [urlSegs, List.cons.injEq] at heq
      intro m hm
      simp [pars] at hm
      rcases hm with rfl | hm
      · exact C04_injective _ _ (List.append_cancel_left (List.append_cancel_right heq.1))
      · exact ih heq.2 m hm

/-- C06 needs the separators: with two parameters in one segment different
arguments can give the same URL. -/
theorem C06_needs_separators : ∃ t p, parse t = .ok p ∧ ∃ e, compile p some = .ok e ∧
    ∃ v w : Str → Str, (∃ n ∈ names p, v n ≠ w n) ∧
      ∀ base, rustFormat e.fmt (base :: e.args.map fun i => encodePath (v i)) =
        rustFormat e.fmt (base :: e.args.map fun i => encodePath (w i)) := by
  refine ⟨"/{a}-{b}".toList, [.const ['/'], .param ['a'], .const ['-'], .param ['b']], rfl,
    ⟨"{}/{}-{}".toList, [['a'], ['b']]⟩, rfl,
    fun n => if n = ['a'] then "x-y".toList else "z".toList,
    fun n => if n = ['a'] then "x".toList else "y-z".toList, ⟨['a'], by decide, by decide⟩, ?_⟩
  intro base
  have h : ∀ a b : Str, rustFormat "{}/{}-{}".toList [base, a, b] =
      some (base ++ ('/' :: (a ++ '-' :: b))) := by
    intro a b; simp [rustFormat]
  simp only [List.map_cons, List.map_nil, h]
  have : encodePath "x-y".toList ++ '-' :: encodePath "z".toList =
    encodePath "x".toList ++ '-' :: encodePath "y-z".toList := by decide
  simpa using this

theorem pathTail_append {r x : Str} (h : PathTail r) (hx : PathTail x) : PathTail (r ++ x) := by
  induction h with
  | nil => exact hx
  | char c r h1 h2 _ ih => exact .char c _ h1 h2 ih
  | param n r hn _ ih =>
    have : ('{' :: n ++ '}' :: r) ++ x = '{' :: n ++ '}' :: (r ++ x) := by simp
    rw [this]
    exact .param n _ hn ih

theorem substGroups_append (f : Str → Str) {r : Str} (h : PathTail r) (x : Str) :
    substGroups f (r ++ x) = substGroups f r ++ substGroups f x := by
  induction h with
  | nil => simp [substGroups_nil]
  | char c r h1 h2 _ ih =>
    have := substGroups_lit f [c] (r ++ x) (by simp [h1, h2])
    have h' := substGroups_lit f [c] r (by simp [h1, h2])
    simp only [List.singleton_append] at this h'
    rw [List.cons_append, this, h', ih]
    rfl
  | param n r hn _ ih =>
    have : ('{' :: n ++ '}' :: r) ++ x = '{' :: n ++ '}' :: (r ++ x) := by simp
    rw [this, substGroups_param f n _ fun c hc => (hn c hc).2.1, substGroups_param f n _ fun c hc => (hn c hc).2.1, ih, List.append_assoc]

theorem braceGroups_param (n r : Str) (hn : ∀ c ∈ n, c ≠ '{' ∧ c ≠ '}' ∧ c ≠ '/') :
    n ∈ braceGroups ('{' :: n ++ '}' :: r) ∧ ∀ m ∈ braceGroups r, m ∈ braceGroups ('{' :: n ++ '}' :: r) := by
  have e : braceGroups ('{' :: n ++ '}' :: r) = (n ++ '}' :: r).takeWhile (· ≠ '}') :: braceGroups (n ++ '}' :: r) := by
    simp [braceGroups]
  have h1 : (n ++ '}' :: r).takeWhile (· ≠ '}') = n := by
    rw [List.takeWhile_append_of_pos (by intro c hc; simp [(hn c hc).2.1])]
    simp
  have h2 : ∀ s : Str, (∀ c ∈ s, c ≠ '{') → braceGroups (s ++ '}' :: r) = braceGroups r := by
    intro s hs
    induction s with
    | nil => exact Template.braceGroups_cons_of_ne _ _ (by decide)
    | cons c s ih => rw [List.cons_append, Template.braceGroups_cons_of_ne _ _ (hs c (by simp)), ih fun d hd => hs d (by simp [hd])]
  rw [e, h1, h2 n fun c hc => (hn c hc).1]
  exact ⟨by simp, fun m hm => by simp [hm]⟩

theorem substGroups_congr {f g : Str → Str} {r : Str} (h : PathTail r) (hfg : ∀ n ∈ braceGroups r, f n = g n) :
    substGroups f r = substGroups g r := by
  induction h with
  | nil => simp [substGroups_nil]
  | char c r h1 h2 _ ih =>
    have hf := substGroups_lit f [c] r (by simp [h1, h2])
    have hg := substGroups_lit g [c] r (by simp [h1, h2])
    simp only [List.singleton_append] at hf hg
    rw [hf, hg, ih fun n hn => hfg n (by rw [Template.braceGroups_cons_of_ne _ _ h1]; exact hn)]
  | param n r hn _ ih =>
    obtain ⟨h1, h2⟩ := braceGroups_param n r hn
    rw [substGroups_param f n _ fun c hc => (hn c hc).2.1, substGroups_param g n _ fun c hc => (hn c hc).2.1,
      hfg n h1, ih fun m hm => hfg m (h2 m hm)]

/-- C06 needs the separators, for every template: if two parameters share a segment and the text
between them stands for itself, different arguments give the same URL. -/
theorem C06_shared_fails (r r' a b sep t : Str) (hr : PathTail r) (hr' : PathTail r')
    (ha : ∀ c ∈ a, c ≠ '{' ∧ c ≠ '}' ∧ c ≠ '/') (hb : ∀ c ∈ b, c ≠ '{' ∧ c ≠ '}' ∧ c ≠ '/') (hs : sep.all affixChar = true)
    (ht : t = '/' :: (r ++ ('{' :: a ++ '}' :: (sep ++ ('{' :: b ++ '}' :: r'))))) (hc : collapse t = t) (hab : a ≠ b)
    (hna : a ∉ braceGroups r ∧ a ∉ braceGroups r') (hnb : b ∉ braceGroups r ∧ b ∉ braceGroups r') :
    ∃ p e, parse t = .ok p ∧ compile p some = .ok e ∧ ∃ v w : Str → Str, v a ≠ w a ∧ v b ≠ w b ∧
      ∀ base, (rustFormat e.fmt (base :: e.args.map fun i => encodePath (v i))).isSome = true ∧
        rustFormat e.fmt (base :: e.args.map fun i => encodePath (v i)) =
          rustFormat e.fmt (base :: e.args.map fun i => encodePath (w i)) := by
  have hrest : PathTail ('{' :: a ++ '}' :: (sep ++ ('{' :: b ++ '}' :: r'))) :=
    .param a _ ha (pathTail_lit _ _ (plain_no_brace (affix_plain hs)) (.param b _ hb hr'))
  have hw : WellFormedPath t := ⟨_, ht, pathTail_append hr hrest⟩
  obtain ⟨p, hp⟩ := C01_wellformed_accepted _ hw
  let x : Str := 'x' :: (sep ++ ['x'])
  let v : Str → Str := fun n => if n = a then x else if n = b then ['x'] else []
  let w : Str → Str := fun n => if n = a then ['x'] else if n = b then x else []
  have hurl : ∀ (u : Str → Str) base, ∃ e, compile p some = .ok e ∧
      rustFormat e.fmt (base :: e.args.map fun i => encodePath (u i)) =
        some (base ++ '/' :: (substGroups (fun n => encodePath (u n)) r ++ (encodePath (u a) ++ (sep ++ (encodePath (u b) ++
          substGroups (fun n => encodePath (u n)) r'))))) := by
    intro u base
    obtain ⟨e, he, hf⟩ := C03_url_partial t base p some id u hw hp (by simp)
    refine ⟨e, he, ?_⟩
    rw [hf, hc, ht]
    have := substGroups_lit (fun n => encodePath (u (id n))) ['/'] (r ++ ('{' :: a ++ '}' :: (sep ++ ('{' :: b ++ '}' :: r')))) (by simp)
    simp only [List.singleton_append] at this
    rw [this, substGroups_append _ hr, substGroups_param _ a _ (fun c hc => (ha c hc).2.1),
      substGroups_lit _ sep _ (plain_no_brace (affix_plain hs)), substGroups_param _ b _ (fun c hc => (hb c hc).2.1)]
    rfl
  have hva : v a = x := if_pos rfl
  have hvb : v b = ['x'] := by simp [v, Ne.symm hab]
  have hwa : w a = ['x'] := if_pos rfl
  have hwb : w b = x := by simp [w, Ne.symm hab]
  have hne : x ≠ ['x'] := by
    intro h
    have := congrArg List.length h
    simp [x] at this
  have hother : ∀ q, PathTail q → a ∉ braceGroups q → b ∉ braceGroups q →
      substGroups (fun n => encodePath (v n)) q = substGroups (fun n => encodePath (w n)) q := by
    intro q hq h1 h2
    refine substGroups_congr hq fun n hn => ?_
    have hna : n ≠ a := fun e => h1 (e ▸ hn)
    have hnb : n ≠ b := fun e => h2 (e ▸ hn)
    simp [v, w, hna, hnb]
  obtain ⟨e, he, _⟩ := hurl v []
  refine ⟨p, e, hp, he, v, w, by rw [hva, hwa]; exact hne, by rw [hvb, hwb]; exact Ne.symm hne, fun base => ?_⟩
  obtain ⟨e1, he1, h1⟩ := hurl v base
  obtain ⟨e2, he2, h2⟩ := hurl w base
  rw [he] at he1 he2
  cases he1
  cases he2
  have hx : encodePath x = 'x' :: (sep ++ ['x']) := by
    have h0 : encodePath ['x'] = ['x'] := by decide
    have : x = ['x'] ++ (sep ++ ['x']) := rfl
    rw [this, C04_append, C04_append, encodePath_affix sep hs, h0]
    rfl
  have hx1 : encodePath ['x'] = ['x'] := by decide
  rw [h1, h2, hother r hr hna.1 hnb.1, hother r' hr' hna.2 hnb.2, hva, hvb, hwa, hwb, hx, hx1]
  refine ⟨rfl, ?_⟩
  simp

example : ∃ p e, parse "/v1/{a}-{b}/x".toList = .ok p ∧ compile p some = .ok e ∧ ∃ v w : Str → Str, v "a".toList ≠ w "a".toList ∧
    v "b".toList ≠ w "b".toList ∧ ∀ base, (rustFormat e.fmt (base :: e.args.map fun i => encodePath (v i))).isSome = true ∧
        rustFormat e.fmt (base :: e.args.map fun i => encodePath (v i)) =
          rustFormat e.fmt (base :: e.args.map fun i => encodePath (w i)) :=
  C06_shared_fails "v1/".toList "/x".toList "a".toList "b".toList "-".toList _
    (.char _ _ (by decide) (by decide) (.char _ _ (by decide) (by decide) (.char _ _ (by decide) (by decide) .nil)))
    (.char _ _ (by decide) (by decide) (.char _ _ (by decide) (by decide) .nil)) (by decide) (by decide) (by decide) rfl (by decide)
    (by decide) (by decide) (by decide)

end Progenitor.Props

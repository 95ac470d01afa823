import Verif.Spec.Doc
import Verif.Lemmas.Names
import Verif.Lemmas.BTree
import Verif.Lemmas.Params
import Verif.Props.Builder

/-!
# Theorems about documents
-/

namespace Progenitor.Props

open Progenitor Progenitor.Params Progenitor.Names Progenitor.Doc Progenitor.Spec Progenitor.Builder

variable {u : Unicode} {B : Type}

/-! ## C44 -/

theorem rtrim_nonwhite {p : Char → Bool} {c : Char} (hc : p c = false) (a r : Str) :
    ((a ++ c :: r).reverse.dropWhile p).reverse = a ++ c :: (r.reverse.dropWhile p).reverse := by
  rw [List.reverse_append, List.reverse_cons, List.append_assoc]
  have : ∀ l t : Str, ((l ++ ([c] ++ t)).dropWhile p) = l.dropWhile p ++ ([c] ++ t) := by
    intro l t
    induction l with
    | nil => simp [hc]
    | cons x l ih =>
      simp only [List.cons_append, List.dropWhile_cons]
      split
      · exact ih
      · rfl
  rw [this]
  simp

theorem rtrim_prefix (p : Char → Bool) (s : Str) : ((s.reverse.dropWhile p).reverse) <+: s := by
  have := List.dropWhile_suffix p (l := s.reverse)
  have h2 := List.reverse_prefix.mpr this
  simpa using h2

theorem version_iff (h : Lawful u) (v : Str) : (validateVersion u v).isOk = true ↔ Version30 u v := by
  have h3 : u.white '3' = false := by rw [h.white_ascii '3' (by decide)]; decide
  have hd : u.white '.' = false := by rw [h.white_ascii '.' (by decide)]; decide
  have key : "3.0.".toList.isPrefixOf (trim u v) = true ↔ Version30 u v := by
    rw [List.isPrefixOf_iff_prefix]
    unfold trim
    constructor
    · intro hp
      obtain ⟨r, hr⟩ := hp.trans (rtrim_prefix u.white (v.dropWhile u.white))
      refine ⟨v.takeWhile u.white, r, ?_, fun c hc => ?_⟩
      · rw [List.append_assoc, hr, List.takeWhile_append_dropWhile]
      · exact List.all_eq_true.mp (List.all_takeWhile (l := v) (p := u.white)) c hc
    · rintro ⟨pre, rest, rfl, hpre⟩
      have e1 : (pre ++ "3.0.".toList ++ rest).dropWhile u.white = "3.0.".toList ++ rest := by
        clear hd
        induction pre with
        | nil => simp [h3]
        | cons c pre ih =>
          have := hpre c (by simp)
          simp only [List.cons_append, List.dropWhile_cons, this, if_true]
          exact ih fun d hd => hpre d (by simp [hd])
      rw [e1]
      have e2 : "3.0.".toList ++ rest = ['3', '.', '0'] ++ '.' :: rest := rfl
      rw [e2, rtrim_nonwhite hd]
      exact ⟨(rest.reverse.dropWhile u.white).reverse, by simp⟩
  unfold validateVersion
  split
  · rename_i hp
    exact ⟨fun _ => key.mp hp, fun _ => rfl⟩
  · rename_i hp
    exact ⟨(fun hx => by cases hx), fun hx => absurd (key.mpr hx) hp⟩

theorem validateOps_ok {path : Str} {ids : List Str} {ops : List (Str × RawOperation)} {r : List Str} :
    validateOps path ids ops = .ok r ↔
      ∃ new : List Str, ops.map (fun o => o.2.id) = new.map some ∧ r = new.reverse ++ ids ∧
        new.Nodup ∧ ∀ x ∈ new, x ∉ ids := by
  induction ops generalizing ids with
  | nil =>
    simp only [validateOps]
    constructor
    · intro h; cases h; exact ⟨[], by simp⟩
    · rintro ⟨new, h1, h2, -⟩
      cases new with
      | nil => rw [h2]; rfl
      | cons _ _ => cases h1
  | cons o ops ih =>
    obtain ⟨m, o⟩ := o
    cases hid : o.id with
    | none =>
      simp only [validateOps, hid]
      constructor
      · intro h; cases h
      · rintro ⟨new, h1, -⟩
        cases new with
        | nil => cases h1
        | cons _ _ =>
          simp only [List.map_cons, hid] at h1
          cases h1
    | some id =>
      simp only [validateOps, hid]
      split
      · rename_i hmem
        constructor
        · intro h; cases h
        · rintro ⟨new, h1, -, -, h4⟩
          cases new with
          | nil => cases h1
          | cons x new =>
            simp only [List.map_cons, hid, List.cons.injEq, Option.some.injEq] at h1
            exact absurd hmem (by rw [h1.1]; exact h4 x (by simp))
      · rename_i hmem
        rw [ih]
        constructor
        · rintro ⟨new, h1, h2, h3, h4⟩
          refine ⟨id :: new, by simp [hid, h1], by simp [h2], ?_, ?_⟩
          · refine List.nodup_cons.mpr ⟨fun hx => ?_, h3⟩
            exact h4 id hx (by simp)
          · intro x hx
            rcases List.mem_cons.mp hx with rfl | hx
            · exact hmem
            · intro hx'
              exact h4 x hx (by simp [hx'])
        · rintro ⟨new, h1, h2, h3, h4⟩
          cases new with
          | nil => cases h1
          | cons x new =>
            simp only [List.map_cons, hid, List.cons.injEq, Option.some.injEq] at h1
            obtain ⟨rfl, h1⟩ := h1
            refine ⟨new, h1, by simp [h2], (List.nodup_cons.mp h3).2, ?_⟩
            intro y hy hy'
            rcases List.mem_cons.mp hy' with rfl | hy'
            · exact (List.nodup_cons.mp h3).1 hy
            · exact h4 y (by simp [hy]) hy'

theorem validatePaths_ok {ids : List Str} {paths : List (Str × Option (List (Str × RawOperation)))} :
    (∃ r, validatePaths ids paths = .ok r) ↔
      (∀ p ∈ paths, p.2 ≠ none) ∧
      ∃ new : List Str, (paths.flatMap fun p => (p.2.getD []).map Prod.snd).map RawOperation.id = new.map some ∧
        new.Nodup ∧ ∀ x ∈ new, x ∉ ids := by
  induction paths generalizing ids with
  | nil =>
    simp only [validatePaths]
    exact ⟨fun _ => ⟨by simp, [], by simp⟩, fun _ => ⟨ids, rfl⟩⟩
  | cons p paths ih =>
    obtain ⟨path, item⟩ := p
    cases item with
    | none =>
      simp only [validatePaths]
      exact ⟨(fun ⟨_, h⟩ => by cases h), fun ⟨h, _⟩ => absurd rfl (h (path, none) (by simp))⟩
    | some ops =>
      simp only [validatePaths]
      constructor
      · rintro ⟨r, hr⟩
        obtain ⟨ids', h1, h2⟩ := bind_ok_inv hr
        obtain ⟨new, n1, rfl, n3, n4⟩ := validateOps_ok.mp h1
        obtain ⟨h3, new', m1, m2, m3⟩ := ih.mp ⟨r, h2⟩
        refine ⟨?_, new ++ new', ?_, ?_, ?_⟩
        · intro p hp
          rcases List.mem_cons.mp hp with rfl | hp
          · simp
          · exact h3 p hp
        · rw [List.flatMap_cons, List.map_append, m1, List.map_append]
          congr 1
          simp only [Option.getD_some, List.map_map]
          exact n1
        · rw [List.nodup_append]
          refine ⟨n3, m2, fun a ha b hb hab => ?_⟩
          subst hab
          exact m3 a hb (by simp [ha])
        · intro x hx
          rcases List.mem_append.mp hx with hx | hx
          · exact n4 x hx
          · intro hx'
            exact m3 x hx (by simp [hx'])
      · rintro ⟨h3, all, a1, a2, a3⟩
        rw [List.flatMap_cons, List.map_append] at a1
        obtain ⟨new, new', rfl, n1, m1⟩ := List.append_eq_map_iff.mp a1
        rw [List.nodup_append] at a2
        have hv : validateOps path ids ops = .ok (new.reverse ++ ids) :=
          validateOps_ok.mpr ⟨new, by rw [n1]; simp [List.map_map, Function.comp_def], rfl, a2.1, fun x hx => a3 x (by simp [hx])⟩
        obtain ⟨r, hr⟩ := (ih (ids := new.reverse ++ ids)).mpr
          ⟨fun p hp => h3 p (by simp [hp]), new', m1.symm, a2.2.1, by
            intro x hx hx'
            rcases List.mem_append.mp hx' with hx' | hx'
            · exact a2.2.2 x (by simpa using hx') x hx rfl
            · exact a3 x (by simp [hx]) hx'⟩
        exact ⟨r, by rw [hv]; exact hr⟩

/-- C44: what validation accepts. -/
theorem C44_validate_iff (h : Lawful u) (d : Document) : (validate u d).isOk = true ↔ ValidDoc u d := by
  have hp : (∃ r, validatePaths [] d.paths = .ok r) ↔
      (∀ p ∈ d.paths, p.2 ≠ none) ∧ (∀ o ∈ opsOf d, o.id ≠ none) ∧ ((opsOf d).map RawOperation.id).Nodup := by
    rw [validatePaths_ok]
    refine and_congr_right fun _ => ?_
    constructor
    · rintro ⟨new, h1, h2, -⟩
      have h1' : (opsOf d).map RawOperation.id = new.map some := h1
      refine ⟨fun o ho hn => ?_, ?_⟩
      · have : o.id ∈ new.map some := by rw [← h1']; exact List.mem_map_of_mem ho
        obtain ⟨x, -, hx⟩ := List.mem_map.mp this
        rw [hn] at hx; cases hx
      · rw [h1']
        exact List.Pairwise.map _ (fun a b hab hc => hab (Option.some.inj hc)) h2
    · rintro ⟨h1, h2⟩
      refine ⟨(opsOf d).map fun o => o.id.getD [], ?_, ?_, by simp⟩
      · show (opsOf d).map RawOperation.id = _
        rw [List.map_map]
        refine List.map_congr_left fun o ho => ?_
        cases hid : o.id with
        | none => exact absurd hid (h1 o ho)
        | some x => simp [hid]
      · have hm : (opsOf d).map RawOperation.id = ((opsOf d).map fun o => o.id.getD []).map some := by
          rw [List.map_map]
          refine List.map_congr_left fun o ho => ?_
          cases hid : o.id with
          | none => exact absurd hid (h1 o ho)
          | some x => simp [hid]
        rw [hm] at h2
        exact List.Pairwise.of_map _ (fun a b hab hc => hab (by rw [hc])) h2
  have hv := version_iff h d.version
  unfold validate
  constructor
  · intro hok
    cases hver : validateVersion u d.version with
    | ok _ =>
      rw [hver] at hok
      cases hpath : validatePaths [] d.paths with
      | ok r =>
        obtain ⟨p1, p2, p3⟩ := hp.mp ⟨r, hpath⟩
        exact ⟨hv.mp (by rw [hver]; rfl), p1, p2, p3⟩
      | err _ => rw [hpath] at hok; cases hok
      | panic _ => rw [hpath] at hok; cases hok
    | err _ => rw [hver] at hok; cases hok
    | panic _ => rw [hver] at hok; cases hok
  · intro hd
    obtain ⟨r, hr⟩ := hp.mpr ⟨hd.noReference, hd.hasId, hd.distinct⟩
    have hver := hv.mpr hd.version
    cases hver' : validateVersion u d.version with
    | ok _ => rw [hr]; rfl
    | err _ => rw [hver'] at hver; cases hver
    | panic _ => rw [hver'] at hver; cases hver

/-- C44: validation of a document never panics. -/
theorem C44_validate_total (d : Document) : (validate u d).isPanic = false := by
  have h1 : ∀ path ids ops, (validateOps path ids ops).isPanic = false := by
    intro path ids ops
    induction ops generalizing ids with
    | nil => rfl
    | cons o ops ih =>
      simp only [validateOps]
      split
      · split
        · rfl
        · exact ih _
      · rfl
  have h2 : ∀ paths ids, (validatePaths ids paths).isPanic = false := by
    intro paths
    induction paths with
    | nil => intro ids; rfl
    | cons p paths ih =>
      intro ids
      obtain ⟨path, item⟩ := p
      cases item with
      | none => rfl
      | some ops =>
        simp only [validatePaths]
        have := h1 path ids ops
        cases hv : validateOps path ids ops with
        | ok r => exact ih r
        | err _ => rfl
        | panic _ => rw [hv] at this; cases this
  unfold validate
  cases hv : validateVersion u d.version with
  | ok _ =>
    have := h2 d.paths []
    cases hp : validatePaths [] d.paths with
    | ok r => rfl
    | err _ => rfl
    | panic _ => rw [hp] at this; cases this
  | err _ => rfl
  | panic _ =>
    unfold validateVersion at hv
    split at hv <;> cases hv

/-! ## C43 -/

theorem processOne_id {types : Types} {o : Str × Str × RawOperation} {p : Processed}
    (h : processOne u types o = .ok p) :
    ∃ id, o.2.2.id = some id ∧ p.op.operationId = sanitize u .snake id ∧ p.op.tags = o.2.2.op.tags := by
  obtain ⟨path, m, o⟩ := o
  cases hid : o.id with
  | none => simp only [processOne, hid] at h; cases h
  | some id =>
    refine ⟨id, rfl, ?_⟩
    simp only [processOne, hid, processOperation] at h
    obtain ⟨_, -, h⟩ := bind_ok_inv h
    obtain ⟨_, -, h⟩ := bind_ok_inv h
    obtain ⟨_, -, h⟩ := bind_ok_inv h
    obtain ⟨_, -, h⟩ := bind_ok_inv h
    obtain ⟨_, -, h⟩ := bind_ok_inv h
    obtain ⟨_, -, h⟩ := bind_ok_inv h
    obtain ⟨_, -, h⟩ := bind_ok_inv h
    cases h
    exact ⟨rfl, rfl⟩

theorem processAll_ids {types : Types} {os : List (Str × Str × RawOperation)} {ps : List Processed}
    (h : processAll u types os = .ok ps) :
    Forall₂ (fun o p => ∃ id, o.2.2.id = some id ∧ p.op.operationId = sanitize u .snake id ∧ p.op.tags = o.2.2.op.tags) os ps := by
  induction os generalizing ps with
  | nil => cases h; exact .nil
  | cons o os ih =>
    obtain ⟨p, h1, h⟩ := bind_ok_inv h
    obtain ⟨ps', h2, h⟩ := bind_ok_inv h
    cases h
    exact .cons (processOne_id h1) (ih h2)

theorem rawMethods_ok {types : Types} {d : Document} {ms : List Processed} (h : rawMethods u types d = .ok ms) :
    (validate u d).isOk = true ∧ processAll u types (operations d) = .ok ms := by
  obtain ⟨_, h1, h⟩ := bind_ok_inv h
  exact ⟨by rw [h1]; rfl, h⟩

theorem operations_ops (d : Document) : (operations d).map (fun o => o.2.2) = opsOf d := by
  unfold operations opsOf
  rw [List.map_flatMap]
  congr 1
  funext p
  obtain ⟨path, item⟩ := p
  cases item with
  | none => rfl
  | some ops => simp [List.map_map, Function.comp_def]

/-- Method names in terms of operation ids. -/
theorem method_names {types : Types} {d : Document} {ms : List Processed} (h : rawMethods u types d = .ok ms) :
    ms.map (fun p => p.op.operationId) = (opsOf d).map fun o => sanitize u .snake (o.id.getD []) := by
  have h2 := processAll_ids (rawMethods_ok h).2
  rw [← operations_ops, List.map_map]
  clear h
  generalize operations d = os at h2
  induction h2 with
  | nil => rfl
  | cons h _ ih =>
    obtain ⟨id, h1, h2, -⟩ := h
    simp [h1, h2, ih]

theorem withUnderscores_eq (ws : List Str) : withUnderscores ws = joinWords ws := by
  induction ws with
  | nil => rfl
  | cons w ws ih =>
    cases ws with
    | nil => rfl
    | cons v ws => simp only [withUnderscores, joinWords, ih]

theorem low_ascii {c : Char} (h : c.isLower = true ∨ c.isDigit = true) :
    c.toNat < 128 ∧ c.isAlphanum = true ∧ c.isUpper = false ∧ c.toLower = c := by
  have ha : c.isAlphanum = true := by
    rcases h with h | h <;> simp [Char.isAlphanum, Char.isAlpha, h]
  have hlt := alphanum_ascii ha
  have key : ∀ n : Fin 128, ((Char.ofNat n).isLower = true ∨ (Char.ofNat n).isDigit = true) →
    (Char.ofNat n).isUpper = false ∧ (Char.ofNat n).toLower = Char.ofNat n := by decide +kernel
  have := key ⟨c.toNat, hlt⟩
  simp only [Char.ofNat_toNat] at this
  exact ⟨hlt, ha, this h⟩

theorem low_settled (h : Lawful u) {ws : List Str} (hws : ∀ w ∈ ws, LowWord w) : SettledWords u ws :=
  fun w hw => ⟨(hws w hw).1, ascii_word_settled h w fun c hc => low_ascii ((hws w hw).2 c hc)⟩

theorem keywords_reserved : ∀ k ∈ keywords, ∃ r ∈ reserved, r.toList = k := by decide

/-- A snake case name stays as it is. -/
theorem snake_fixed (h : Lawful u) {s : Str} (hs : SnakeName s) : sanitize u .snake s = s := by
  obtain ⟨⟨ws, hne, hws, rfl⟩, hd, hk⟩ := hs
  rw [withUnderscores_eq] at *
  have hset := low_settled h hws
  have hcont := join_cont h hset
  have hfin : finished u (started u .snake (joinWords ws)) = joinWords ws := by
    cases hj : joinWords ws with
    | nil => exact absurd hj (joinWords_ne (fun w hw => (hset w hw).1) hne)
    | cons c cs =>
      have hc : u.xidStart c = true := by
        cases ws with
        | nil => exact absurd rfl hne
        | cons w ws =>
          obtain ⟨hw, hwc⟩ := hws w (by simp)
          cases w with
          | nil => exact absurd rfl hw
          | cons x w =>
            have hx : x = c := by
              cases ws with
              | nil => simp only [joinWords] at hj; injection hj
              | cons v ws => simp only [joinWords, List.cons_append] at hj; injection hj
            subst hx
            have hl := hwc x (by simp)
            have hnd : x.isDigit = false := hd x (by rw [hj]; rfl)
            have hlow : x.isLower = true := by
              rcases hl with hl | hl
              · exact hl
              · rw [hnd] at hl; cases hl
            rw [h.start_ascii _ (low_ascii hl).1]
            simp [Char.isAlpha, hlow]
      simp only [started, hc, if_true, finished]
      rw [if_pos]
      simp only [parsesIdent, identText, hc, Bool.or_true, Bool.true_and, Bool.and_eq_true, List.all_eq_true]
      refine ⟨fun d hd => hcont d (by rw [hj]; simp [hd]), ?_⟩
      simp only [Bool.not_eq_true', List.contains_eq_mem, decide_eq_false_iff_not]
      intro hmem
      obtain ⟨r, hr, he⟩ := keywords_reserved _ hmem
      exact hk r hr (by rw [hj, he])
  have := again h hset hne
  rw [hfin] at this
  exact this

/-- C43: if all operation ids are in snake case, methods have the names of the operations and are distinct. -/
theorem C43_snake_partial (h : Lawful u) {types : Types} {d : Document} {ms : List Processed}
    (hm : rawMethods u types d = .ok ms) (hs : ∀ o ∈ opsOf d, ∀ id, o.id = some id → SnakeName id) :
    (ms.map fun p => p.op.operationId).map some = (opsOf d).map RawOperation.id ∧
    (ms.map fun p => p.op.operationId).Nodup := by
  have hv := (C44_validate_iff h d).mp (rawMethods_ok hm).1
  have h1 : (ms.map fun p => p.op.operationId).map some = (opsOf d).map RawOperation.id := by
    rw [method_names hm, List.map_map]
    refine List.map_congr_left fun o ho => ?_
    cases hid : o.id with
    | none => exact absurd hid (hv.hasId o ho)
    | some id => simp [hid, snake_fixed h (hs o ho id hid)]
  refine ⟨h1, ?_⟩
  have h2 := hv.distinct
  rw [← h1] at h2
  exact List.Pairwise.of_map _ (fun a b hab hc => hab (by rw [hc])) h2

theorem started_join (h : Lawful u) {ws : List Str} (hws : SettledWords u ws) (hne : ws ≠ []) :
    words u (finished u (started u .snake (joinWords ws))) = ws := by
  have hj := joinWords_ne (fun w hw => (hws w hw).1) hne
  have hst : started u .snake (joinWords ws) = joinWords ws ∨ started u .snake (joinWords ws) = '_' :: joinWords ws := by
    generalize hjw : joinWords ws = j at *
    cases j with
    | nil => exact absurd rfl hj
    | cons c cs =>
      simp only [started]
      split
      · exact .inl rfl
      · exact .inr rfl
  unfold finished
  rcases hst with hst | hst <;> rw [hst] <;> split
  · have := words_join h hws hne [] (.inl rfl)
    rwa [List.append_nil] at this
  · exact words_join h hws hne ['_'] (.inr rfl)
  · rw [words_underscore h]
    have := words_join h hws hne [] (.inl rfl)
    rwa [List.append_nil] at this
  · rw [List.cons_append, words_underscore h]
    exact words_join h hws hne ['_'] (.inr rfl)

/-- The words of an operation id as they appear in the method name. -/
def nameWords (u : Unicode) (s : Str) : List Str := (words u (clean u s)).map (lowercase u)

theorem nameWords_settled (h : Lawful u) {s : Str} (hs : Ascii s) : SettledWords u (nameWords u s) := by
  intro x hx
  obtain ⟨v, hv, rfl⟩ := List.mem_map.mp hx
  have hvs := words_spec hv
  constructor
  · cases v with
    | nil => exact absurd rfl hvs.1
    | cons c cs =>
      cases cs with
      | nil =>
        simp only [lowercase]
        split
        · simp
        · exact h.toLower_ne c
      | cons d ds => simp [lowercase, h.toLower_ne c]
  · intro d hd
    rcases lowercase_chars d hd with ⟨rfl, _⟩ | ⟨c, hc, hd⟩
    · exact ⟨h.sigma_final.1, h.sigma_cont, h.sigma_final.2⟩
    · have := word_cont h hv c hc
      have hca := hs c this.1
      exact ascii_settled h c hca (by rw [← h.alnum_ascii c hca]; exact this.2.1) d hd

/-- C43: exactly when two operation ids become the same method name: their words are the same when case and everything
else is ignored. -/
theorem C43_collision_iff (h : Lawful u) {s t : Str} (hs : Ascii s) (ht : Ascii t)
    (hs1 : ∃ c ∈ s, c.isAlphanum = true) (ht1 : ∃ c ∈ t, c.isAlphanum = true)
    (hsn : s ≠ "+1".toList ∧ s ≠ "-1".toList) (htn : t ≠ "+1".toList ∧ t ≠ "-1".toList) :
    sanitize u .snake s = sanitize u .snake t ↔ nameWords u s = nameWords u t := by
  have hne : ∀ {r : Str}, Ascii r → (∃ c ∈ r, c.isAlphanum = true) → nameWords u r ≠ [] := by
    intro r hr ⟨c, hc, hca⟩ hw
    have hw : words u (clean u r) = [] := List.map_eq_nil_iff.mp hw
    have hcl : c ∈ clean u r := by
      refine List.mem_map.mpr ⟨c, List.mem_filter.mpr ⟨hc, decide_eq_true ?_⟩, ?_⟩
      · rintro rfl; exact absurd hca (by decide)
      · rw [if_pos]; rw [h.cont_ascii c (hr c hc), hca]; rfl
    -- some piece contains it
    have hpiece : ∀ x : Str, c ∈ x → ∃ w ∈ splitOn (fun c => !u.alnum c) x, w ≠ [] := by
      intro x
      induction x with
      | nil => intro hx; cases hx
      | cons d x ih =>
        intro hx
        unfold splitOn
        split
        · rename_i hd
          rcases List.mem_cons.mp hx with rfl | hx
          · rw [h.alnum_ascii c (hr c hc), hca] at hd; cases hd
          · obtain ⟨w, hw, hwn⟩ := ih hx
            exact ⟨w, by simp [hw], hwn⟩
        · split
          · exact ⟨[d], by simp⟩
          · exact ⟨_, List.mem_cons_self, List.cons_ne_nil _ _⟩
    obtain ⟨w, hw1, hw2⟩ := hpiece _ hcl
    have : splitWord u [] .boundary w = [] := by
      unfold words at hw
      exact List.flatMap_eq_nil_iff.mp hw w hw1
    have hsp : ∀ (x cur : Str) (mode : Mode), x ≠ [] → splitWord u cur mode x ≠ [] := by
      intro x
      induction x with
      | nil => intro _ _ hx; exact absurd rfl hx
      | cons a x ih =>
        intro cur mode _
        cases x with
        | nil => simp [splitWord]
        | cons b x =>
          simp only [splitWord]
          split
          · simp
          · split
            · simp
            · exact ih _ _ (by simp)
    exact hsp w [] .boundary hw2 this
  have hsan : ∀ {r : Str}, r ≠ "+1".toList ∧ r ≠ "-1".toList →
      sanitize u .snake r = finished u (started u .snake (joinWords (nameWords u r))) := by
    intro r hr
    unfold sanitize cased
    rw [if_neg hr.1, if_neg hr.2]
    rfl
  rw [hsan hsn, hsan htn]
  constructor
  · intro he
    rw [← started_join h (nameWords_settled h hs) (hne hs hs1), he, started_join h (nameWords_settled h ht) (hne ht ht1)]
  · intro he; rw [he]

/-- An operation without parameters, body and documented responses. -/
def plainOp (id : Str) (tags : List Str := []) : RawOperation where
  id := some id
  op := { operationId := [], tags, pathLevel := [], opLevel := [], body := none, default := none, codes := [],
          websocket := false, pagination := none }

/-- `GET` operations with the given ids and tags, each with its own path. -/
def getDoc (ops : List (String × List String)) : Document where
  version := "3.0.3".toList
  paths := ops.map fun (id, tags) =>
    (('/' :: id.toList), some [("get".toList, plainOp id.toList (tags.map String.toList))])

theorem plain_valid (h : Lawful u) {ops : List (String × List String)} (hn : (ops.map Prod.fst).Nodup) :
    ValidDoc u (getDoc ops) := by
  have hops : opsOf (getDoc ops) = ops.map fun o => plainOp o.1.toList (o.2.map String.toList) := by
    unfold opsOf getDoc
    induction ops with
    | nil => rfl
    | cons o ops ih =>
      rw [List.map_cons, List.nodup_cons] at hn
      simp only [List.map_cons, List.flatMap_cons]
      rw [ih hn.2]
      rfl
  refine ⟨⟨[], ['3'], rfl, by simp⟩, ?_, ?_, ?_⟩
  · intro p hp
    obtain ⟨o, -, rfl⟩ := List.mem_map.mp hp
    simp
  · rw [hops]
    intro o ho
    obtain ⟨x, -, rfl⟩ := List.mem_map.mp ho
    simp [plainOp]
  · rw [hops, List.map_map]
    have : (RawOperation.id ∘ fun o : String × List String => plainOp o.1.toList (o.2.map String.toList)) =
        (fun s : String => some s.toList) ∘ Prod.fst := rfl
    rw [this, ← List.map_map]
    exact List.Pairwise.map _ (fun a b hab hc => hab (String.toList_inj.mp (Option.some.inj hc))) hn

theorem plain_methods (h : Lawful u) {types : Types} {ops : List (String × List String)} {ms : List Processed}
    (hn : (ops.map Prod.fst).Nodup) (hp : processAll u types (operations (getDoc ops)) = .ok ms) :
    rawMethods u types (getDoc ops) = .ok ms := by
  have hv := (C44_validate_iff h _).mpr (plain_valid h hn)
  unfold rawMethods
  rw [hp]
  cases hx : validate u (getDoc ops) with
  | ok _ => rfl
  | err _ => rw [hx] at hv; cases hv
  | panic _ => rw [hx] at hv; cases hv

/-- C43: not for all operation ids. -/
theorem C43_distinct_fails (h : Lawful u) (types : Types) :
    ∃ (d : Document) (ms : List Processed), ValidDoc u d ∧ rawMethods u types d = .ok ms ∧
      ms.map (fun p => p.op.operationId) = ["get_foo".toList, "get_foo".toList] := by
  have e1 : sanitize u .snake "getFoo".toList = "get_foo".toList := by
    rw [sanitize_agree h exUnicode_lawful _ (by unfold Ascii; decide)]; rfl
  have e2 : sanitize u .snake "get_foo".toList = "get_foo".toList := by
    rw [sanitize_agree h exUnicode_lawful _ (by unfold Ascii; decide)]; rfl
  have hr := plain_methods h (types := types) (ops := [("getFoo", []), ("get_foo", [])]) (by decide) rfl
  refine ⟨_, _, plain_valid h (by decide), hr, ?_⟩
  rw [method_names hr]
  show [sanitize u .snake "getFoo".toList, sanitize u .snake "get_foo".toList] = _
  rw [e1, e2]

example : sanitize exUnicode .snake "list-all Things2".toList = "list_all_things2".toList := rfl

/-- The document of the example is accepted, and its names satisfy the hypotheses. -/
example : ∃ ms, rawMethods exUnicode (fun _ => none) (getDoc [("list_things", ["a"]), ("get_thing2", [])]) = .ok ms ∧
    ms.map (fun p => p.op.operationId) = ["list_things".toList, "get_thing2".toList] :=
  ⟨_, plain_methods exUnicode_lawful (by decide) rfl, rfl⟩

example : SnakeName "get_thing2".toList :=
  ⟨⟨["get".toList, "thing2".toList], by decide, by unfold LowWord; decide, rfl⟩, by decide, by decide⟩

/-! ## C51 -/

theorem get_pushAt {V : Type} (k t : Str) (v : V) (m : BTree.Map (List V)) :
    BTree.get k (pushAt t v m) = if k = t then some ((BTree.get t m).getD [] ++ [v]) else BTree.get k m := by
  unfold pushAt
  rw [BTree.get_insert]
  by_cases hk : t = k
  · rw [if_pos hk, if_pos hk.symm]
  · rw [if_neg hk, if_neg fun h => hk h.symm]

/-- What the map holds for a key, given the list of values for it. -/
def held {V : Type} (l : List V) : Option (List V) := if l = [] then none else some l

theorem held_getD {V : Type} (l : List V) : (held l).getD [] = l := by
  unfold held; split <;> simp_all

theorem get_pushTags {V : Type} (k : Str) (v : V) (tags : List Str) (m : BTree.Map (List V)) (l : List V)
    (h : BTree.get k m = held l) :
    BTree.get k (tags.foldl (fun ext tag => pushAt tag v ext) m) = held (l ++ List.replicate (tags.count k) v) := by
  induction tags generalizing m l with
  | nil => simpa using h
  | cons t tags ih =>
    simp only [List.foldl_cons]
    by_cases hk : k = t
    · subst hk
      rw [ih (pushAt k v m) (l ++ [v])]
      · rw [List.append_assoc, List.count_cons_self, List.replicate_succ]; rfl
      · rw [get_pushAt, if_pos rfl, h, held_getD]
        unfold held
        rw [if_neg (by simp)]
    · rw [ih (pushAt t v m) l]
      · rw [List.count_cons_of_ne (fun h => hk h.symm)]
      · rw [get_pushAt, if_neg hk, h]

theorem pushTags_sorted {V : Type} (v : V) (tags : List Str) {m : BTree.Map (List V)} (h : BTree.Sorted m) :
    BTree.Sorted (tags.foldl (fun ext tag => pushAt tag v ext) m) := by
  induction tags generalizing m with
  | nil => exact h
  | cons t tags ih => exact ih (BTree.insert_sorted _ _ h)

theorem builderTags_spec (ms base : List Processed) (ext : BTree.Map (List Processed)) (hs : BTree.Sorted ext) :
    (builderTags ms (base, ext)).1 = base ++ ms.filter (fun m => m.op.tags = []) ∧
    BTree.Sorted (builderTags ms (base, ext)).2 ∧
    ∀ k l, BTree.get k ext = held l →
      BTree.get k (builderTags ms (base, ext)).2 = held (l ++ ms.flatMap fun m => List.replicate (m.op.tags.count k) m) := by
  induction ms generalizing base ext with
  | nil => exact ⟨by simp [builderTags], hs, fun k l h => by simpa [builderTags] using h⟩
  | cons m ms ih =>
    unfold builderTags
    split
    · rename_i ht
      obtain ⟨h1, h2, h3⟩ := ih (base ++ [m]) ext hs
      refine ⟨by rw [h1]; simp [ht], h2, fun k l hk => ?_⟩
      rw [h3 k l hk]
      simp [ht]
    · rename_i ht
      obtain ⟨h1, h2, h3⟩ := ih base _ (pushTags_sorted m m.op.tags hs)
      refine ⟨by rw [h1]; simp [ht], h2, fun k l hk => ?_⟩
      rw [h3 k _ (get_pushTags k m m.op.tags ext l hk), List.flatMap_cons, List.append_assoc]

/-- C51: the base client exposes the operations without tags, in order. -/
theorem C51_base (ms : List Processed) :
    (builderTags ms ([], [])).1 = ms.filter fun m => m.op.tags = [] := by
  simpa using (builderTags_spec ms [] [] .nil).1

/-- C51: the trait of a tag has the operations with the tag, in order, once for each mention. -/
theorem C51_trait_methods (ms : List Processed) (tag : Str) :
    (BTree.get tag (builderTags ms ([], [])).2).getD [] =
      ms.flatMap fun m => List.replicate (m.op.tags.count tag) m := by
  rw [(builderTags_spec ms [] [] .nil).2.2 tag [] rfl, held_getD]
  rfl

/-- C51: an operation is exposed by a trait exactly if it has the tag of the trait; every trait has methods; there is one entry
per tag. -/
theorem C51_partition (ms : List Processed) :
    (∀ p, p ∈ (builderTags ms ([], [])).1 ↔ p ∈ ms ∧ p.op.tags = []) ∧
    (∀ p tag, (∃ l, (tag, l) ∈ (builderTags ms ([], [])).2 ∧ p ∈ l) ↔ p ∈ ms ∧ tag ∈ p.op.tags) ∧
    (∀ e ∈ (builderTags ms ([], [])).2, e.2 ≠ []) ∧
    ((builderTags ms ([], [])).2.map Prod.fst).Nodup := by
  have hs := (builderTags_spec ms [] [] .nil).2.1
  have hg := fun k => (builderTags_spec ms [] [] .nil).2.2 k [] rfl
  simp only [List.nil_append] at hg
  refine ⟨fun p => by rw [C51_base]; simp, fun p tag => ?_, fun e he => ?_, BTree.values_nodup_keys hs⟩
  · have hmem : p ∈ (ms.flatMap fun m => List.replicate (m.op.tags.count tag) m) ↔ p ∈ ms ∧ tag ∈ p.op.tags := by
      rw [List.mem_flatMap]
      constructor
      · rintro ⟨m, hm, hp⟩
        rw [List.mem_replicate] at hp
        obtain ⟨hc, rfl⟩ := hp
        exact ⟨hm, List.count_pos_iff.mp (Nat.pos_of_ne_zero hc)⟩
      · rintro ⟨hm, ht⟩
        exact ⟨p, hm, List.mem_replicate.mpr ⟨Nat.ne_of_gt (List.count_pos_iff.mpr ht), rfl⟩⟩
    rw [← hmem]
    constructor
    · rintro ⟨l, hl, hp⟩
      have := (BTree.mem_iff_get hs).mp hl
      rw [hg] at this
      unfold held at this
      split at this
      · cases this
      · cases this; exact hp
    · intro hp
      refine ⟨_, (BTree.mem_iff_get hs).mpr ((hg tag).trans ?_), hp⟩
      unfold held
      rw [if_neg]
      intro he; rw [he] at hp; cases hp
  · obtain ⟨k, l⟩ := e
    have := (BTree.mem_iff_get hs).mp he
    rw [hg] at this
    unfold held at this
    split at this
    · cases this
    · rename_i hne; cases this; exact hne

/-! ## C52 -/

theorem insertLine_perm (x : Str) (l : List Str) : (insertLine x l).Perm (x :: l) := by
  induction l with
  | nil => exact .refl _
  | cons y l ih =>
    unfold insertLine
    split
    · exact (List.Perm.cons y ih).trans (List.Perm.swap x y l)
    · exact .refl _

theorem sortLines_perm (l : List Str) : (sortLines l).Perm l := by
  induction l with
  | nil => exact .refl _
  | cons x l ih => exact (insertLine_perm x _).trans (List.Perm.cons x ih)

theorem strCmp_le_trans {a b c : Str} (h1 : strCmp a b ≠ .gt) (h2 : strCmp b c ≠ .gt) : strCmp a c ≠ .gt := by
  cases hab : strCmp a b with
  | gt => exact absurd hab h1
  | eq => rw [strCmp_eq.mp hab]; exact h2
  | lt =>
    cases hbc : strCmp b c with
    | gt => exact absurd hbc h2
    | eq => rw [← strCmp_eq.mp hbc, hab]; intro h; cases h
    | lt => rw [strCmp_lt_trans hab hbc]; intro h; cases h

theorem insertLine_sorted (x : Str) {l : List Str} (h : l.Pairwise fun a b => strCmp a b ≠ .gt) :
    (insertLine x l).Pairwise fun a b => strCmp a b ≠ .gt := by
  induction l with
  | nil => simp [insertLine]
  | cons y l ih =>
    rw [List.pairwise_cons] at h
    unfold insertLine
    split
    · rename_i hg
      rw [List.pairwise_cons]
      refine ⟨fun z hz => ?_, ih h.2⟩
      rcases List.mem_cons.mp ((insertLine_perm x l).mem_iff.mp hz) with rfl | hz
      · rw [strCmp_gt.mp hg]; intro h; cases h
      · exact h.1 z hz
    · rename_i hg
      rw [List.pairwise_cons]
      refine ⟨fun z hz => ?_, List.pairwise_cons.mpr h⟩
      rcases List.mem_cons.mp hz with rfl | hz
      · exact hg
      · exact strCmp_le_trans hg (h.1 z hz)

theorem sortLines_sorted (l : List Str) : (sortLines l).Pairwise fun a b => strCmp a b ≠ .gt := by
  induction l with
  | nil => exact .nil
  | cons x l ih => exact insertLine_sorted x ih

theorem ascending_of {l : List Str} (h : l.Pairwise fun a b => strCmp a b ≠ .gt) (hn : l.Nodup) : Ascending l := by
  induction l with
  | nil => trivial
  | cons a l ih =>
    rw [List.pairwise_cons] at h
    rw [List.nodup_cons] at hn
    cases l with
    | nil => trivial
    | cons b l =>
      refine ⟨?_, ih h.2 hn.2⟩
      cases hc : strCmp a b with
      | lt => rfl
      | eq => exact absurd (by rw [strCmp_eq.mp hc]; simp) hn.1
      | gt => exact absurd hc (h.1 b (by simp))

theorem when_map {b : Bool} {l : List Str} (f : Str → Str) : (when b l).map f = when b (l.map f) := by
  cases b <;> rfl

theorem depLines_crates (f : Features) : (depLines f).map crateOf =
    ["bytes", "futures-core", "reqwest", "serde", "serde_urlencoded"].map String.toList ++
    (if f.includeClient then ["percent-encoding".toList] else ["progenitor-client".toList]) ++
    when f.regress ["regress".toList] ++ when f.uuid ["uuid".toList] ++ when f.chrono ["chrono".toList] ++
    when f.futures ["futures".toList] ++ when f.websockets ["base64".toList, "rand".toList] ++
    when (f.serdeJson || f.includeClient) ["serde_json".toList] := by
  unfold depLines
  simp only [List.map_append, when_map]
  congr 1
  congr 1
  congr 1
  congr 1
  congr 1
  congr 1
  congr 1
  cases f.includeClient <;> rfl

theorem depLines_nodup (f : Features) : ((depLines f).map crateOf).Nodup := by
  rw [depLines_crates]
  have key : ∀ a b c d e g k : Bool,
      (["bytes", "futures-core", "reqwest", "serde", "serde_urlencoded"].map String.toList ++
        (if a then ["percent-encoding".toList] else ["progenitor-client".toList]) ++
        when b ["regress".toList] ++ when c ["uuid".toList] ++ when d ["chrono".toList] ++
        when e ["futures".toList] ++ when g ["base64".toList, "rand".toList] ++
        when (k || a) ["serde_json".toList]).Nodup := by decide +kernel
  exact key _ _ _ _ _ _ _

/-- C52: the lines are in ascending order, and no crate is listed twice. -/
theorem C52_sorted (f : Features) : Ascending (dependencies f) ∧ ((dependencies f).map crateOf).Nodup := by
  have hn : ((dependencies f).map crateOf).Nodup :=
    ((sortLines_perm (depLines f)).map crateOf).nodup_iff.mpr (depLines_nodup f)
  exact ⟨ascending_of (sortLines_sorted _) (List.Pairwise.of_map _ (fun a b hab hc => hab (by rw [hc])) hn), hn⟩

/-- C52: the crates listed are the ones needed. -/
theorem C52_complete (f : Features) (ms : List Processed) (hf : f.futures = usesFutures ms)
    (hw : f.websockets = usesWebsockets ms) (x : String) :
    x.toList ∈ (dependencies f).map crateOf ↔ Needs f ms x := by
  have hfu : f.futures = true ↔ ∃ p ∈ ms, p.paginated ≠ none := by
    rw [hf]
    simp [usesFutures, Option.isSome_iff_ne_none]
  have hwe : f.websockets = true ↔ ∃ p ∈ ms, p.op.websocket = true := by
    rw [hw]
    simp [usesWebsockets]
  have hinj : ∀ y : String, x.toList = y.toList ↔ x = y := fun y => String.toList_inj
  have hwhen : ∀ (b : Bool) (l : List Str), x.toList ∈ when b l ↔ b = true ∧ x.toList ∈ l := by
    intro b l; cases b <;> simp [when]
  show x.toList ∈ (sortLines (depLines f)).map crateOf ↔ _
  rw [((sortLines_perm (depLines f)).map crateOf).mem_iff, depLines_crates]
  simp only [List.mem_append, hwhen, List.map_cons, List.map_nil, List.mem_cons, List.not_mem_nil, or_false, hinj, hfu, hwe,
    Bool.or_eq_true_iff]
  constructor
  · intro hx
    rcases hx with ((((((hx | hx) | hx) | hx) | hx) | hx) | hx) | hx
    · rcases hx with rfl | rfl | rfl | rfl | rfl
      · exact .bytes
      · exact .futuresCore
      · exact .reqwest
      · exact .serde
      · exact .serdeUrlencoded
    · split at hx
      · rename_i hi
        rw [List.mem_singleton, hinj] at hx; subst hx; exact .percent hi
      · rename_i hi
        rw [List.mem_singleton, hinj] at hx; subst hx; exact .client (by simpa using hi)
    · obtain ⟨h, rfl⟩ := hx; exact .regress h
    · obtain ⟨h, rfl⟩ := hx; exact .uuid h
    · obtain ⟨h, rfl⟩ := hx; exact .chrono h
    · obtain ⟨⟨p, hp, h⟩, rfl⟩ := hx; exact .stream hp h
    · obtain ⟨⟨p, hp, h⟩, rfl | rfl⟩ := hx
      · exact .key hp h
      · exact .random hp h
    · obtain ⟨h | h, rfl⟩ := hx
      · exact .json h
      · exact .clientJson h
  · intro hx
    cases hx with
    | bytes => exact (.inl (.inl (.inl (.inl (.inl (.inl (.inl (.inl rfl))))))))
    | futuresCore => exact (.inl (.inl (.inl (.inl (.inl (.inl (.inl (.inr (.inl rfl)))))))))
    | reqwest => exact (.inl (.inl (.inl (.inl (.inl (.inl (.inl (.inr (.inr (.inl rfl))))))))))
    | serde => exact (.inl (.inl (.inl (.inl (.inl (.inl (.inl (.inr (.inr (.inr (.inl rfl)))))))))))
    | serdeUrlencoded => exact (.inl (.inl (.inl (.inl (.inl (.inl (.inl (.inr (.inr (.inr (.inr rfl)))))))))))
    | client h => exact (.inl (.inl (.inl (.inl (.inl (.inl (.inr (by rw [h, if_neg (by simp), List.mem_singleton]))))))))
    | percent h => exact (.inl (.inl (.inl (.inl (.inl (.inl (.inr (by rw [h, if_pos rfl, List.mem_singleton]))))))))
    | clientJson h => exact .inr ⟨.inr h, rfl⟩
    | json h => exact .inr ⟨.inl h, rfl⟩
    | regress h => exact (.inl (.inl (.inl (.inl (.inl (.inr ⟨h, rfl⟩))))))
    | uuid h => exact (.inl (.inl (.inl (.inl (.inr ⟨h, rfl⟩)))))
    | chrono h => exact (.inl (.inl (.inl (.inr ⟨h, rfl⟩))))
    | stream hp h => exact .inl (.inl (.inr ⟨⟨_, hp, h⟩, rfl⟩))
    | key hp h => exact .inl (.inr ⟨⟨_, hp, h⟩, .inl rfl⟩)
    | random hp h => exact .inl (.inr ⟨⟨_, hp, h⟩, .inr rfl⟩)

/-! ## Pascal case -/

/-- Words of lower case letters and digits that start with letters. -/
def LetterWords (ws : List Str) : Prop := ∀ w ∈ ws, LowWord w ∧ ∀ c, w.head? = some c → c.isLower = true

/-- The first letter in upper case. -/
def capFirst : Str → Str
  | [] => []
  | c :: cs => c.toUpper :: cs

theorem upper_aux : ∀ n : Fin 128, (Char.ofNat n).isLower = true →
    (Char.ofNat n).toUpper.isUpper = true ∧ (Char.ofNat n).toUpper.isAlpha = true ∧ (Char.ofNat n).toUpper.toLower = Char.ofNat n ∧
    (Char.ofNat n).toUpper.toNat < 128 ∧ (Char.ofNat n).toUpper ≠ '_' := by decide +kernel

theorem upper_of_lower {c : Char} (h : c.isLower = true) :
    c.toUpper.isUpper = true ∧ c.toUpper.isAlpha = true ∧ c.toUpper.toLower = c ∧ c.toUpper.toNat < 128 ∧ c.toUpper ≠ '_' := by
  have := upper_aux ⟨c.toNat, (low_ascii (.inl h)).1⟩
  simp only [Char.ofNat_toNat] at this
  exact this h

theorem takeWhile_until {p : Char → Bool} {a r : Str} (ha : ∀ c ∈ a, p c = true) (hr : ∀ c, r.head? = some c → p c = false) :
    (a ++ r).takeWhile p = a ∧ (a ++ r).dropWhile p = r := by
  induction a with
  | nil =>
    cases r with
    | nil => simp
    | cons c r => simp [hr c rfl]
  | cons c a ih =>
    have := ih fun d hd => ha d (by simp [hd])
    simp [ha c (by simp), this]

theorem caps_head {ws : List Str} (h : LetterWords ws) : ∀ c, (ws.flatMap capFirst).head? = some c → c.isUpper = true := by
  cases ws with
  | nil => intro c hc; cases hc
  | cons w ws =>
    have hw := h w (by simp)
    cases w with
    | nil => exact absurd rfl hw.1.1
    | cons x w =>
      intro c hc
      simp only [List.flatMap_cons, capFirst, List.cons_append, List.head?_cons, Option.some.injEq] at hc
      subst hc
      exact (upper_of_lower (hw.2 x rfl)).1

theorem caps_inj {ws vs : List Str} (hw : LetterWords ws) (hv : LetterWords vs)
    (h : ws.flatMap capFirst = vs.flatMap capFirst) : ws = vs := by
  induction ws generalizing vs with
  | nil =>
    cases vs with
    | nil => rfl
    | cons v vs =>
      have := hv v (by simp)
      cases v with
      | nil => exact absurd rfl this.1.1
      | cons d v => simp [capFirst] at h
  | cons w ws ih =>
    have hw1 := hw w (by simp)
    cases w with
    | nil => exact absurd rfl hw1.1.1
    | cons c w =>
      cases vs with
      | nil => simp [capFirst] at h
      | cons v vs =>
        have hv1 := hv v (by simp)
        cases v with
        | nil => exact absurd rfl hv1.1.1
        | cons d v =>
          simp only [List.flatMap_cons, capFirst, List.cons_append, List.cons.injEq] at h
          obtain ⟨h1, h2⟩ := h
          have hcd : c = d := by
            rw [← (upper_of_lower (hw1.2 c rfl)).2.2.1, h1, (upper_of_lower (hv1.2 d rfl)).2.2.1]
          have hws' : LetterWords ws := fun x hx => hw x (by simp [hx])
          have hvs' : LetterWords vs := fun x hx => hv x (by simp [hx])
          have t1 := takeWhile_until (p := fun c => !c.isUpper) (a := w) (r := ws.flatMap capFirst)
            (fun x hx => by simp [(low_ascii (hw1.1.2 x (by simp [hx]))).2.2.1]) (fun x hx => by simp [caps_head hws' x hx])
          have t2 := takeWhile_until (p := fun c => !c.isUpper) (a := v) (r := vs.flatMap capFirst)
            (fun x hx => by simp [(low_ascii (hv1.1.2 x (by simp [hx]))).2.2.1]) (fun x hx => by simp [caps_head hvs' x hx])
          rw [h2] at t1
          have hwv : w = v := t1.1.symm.trans t2.1
          have hr : ws.flatMap capFirst = vs.flatMap capFirst := t1.2.symm.trans t2.2
          rw [hcd, hwv, ih hws' hvs' hr]

theorem caps_no_underscore {ws : List Str} (hw : LetterWords ws) : '_' ∉ ws.flatMap capFirst := by
  intro h
  obtain ⟨w, hm, hc⟩ := List.mem_flatMap.mp h
  have hw := hw w hm
  cases w with
  | nil => cases hc
  | cons x w =>
    simp only [capFirst, List.mem_cons] at hc
    rcases hc with hc | hc
    · exact (upper_of_lower (hw.2 x rfl)).2.2.2.2 hc.symm
    · have := (low_ascii (hw.1.2 '_' (by simp [hc]))).2.1
      exact absurd this (by decide)

theorem capitalize_low (h : Lawful u) {w : Str} (hw : LowWord w) : capitalize u w = capFirst w := by
  cases w with
  | nil => rfl
  | cons c w =>
    simp only [capitalize, capFirst]
    have hc := low_ascii (hw.2 c (by simp))
    rw [h.toUpper_ascii c hc.1, lowercase_settled h (ascii_word_settled h w fun d hd => low_ascii (hw.2 d (by simp [hd])))]
    rfl

theorem flatMap_congr {α β} {f g : α → List β} {l : List α} (h : ∀ x ∈ l, f x = g x) : l.flatMap f = l.flatMap g := by
  induction l with
  | nil => rfl
  | cons w ws ih => rw [List.flatMap_cons, List.flatMap_cons, h w (by simp), ih fun x hx => h x (by simp [hx])]

/-- The name in Pascal case of a snake case name. -/
theorem pascal_letter (h : Lawful u) {ws : List Str} (hws : LetterWords ws) (hne : ws ≠ []) :
    sanitize u .pascal (joinWords ws) = finished u (ws.flatMap capFirst) := by
  have hset : SettledWords u ws := low_settled h fun w hw => (hws w hw).1
  have hcont := join_cont h hset
  have hcased : cased u .pascal (joinWords ws) = ws.flatMap capFirst := by
    unfold cased
    have hp : u.xidCont '+' = false := by rw [h.cont_ascii '+' (by decide)]; decide
    have hm : u.xidCont '-' = false := by rw [h.cont_ascii '-' (by decide)]; decide
    rw [if_neg, if_neg]
    · rw [clean_id h hcont]
      show toPascal u _ = _
      unfold toPascal
      have := words_join h hset hne [] (.inl rfl)
      rw [List.append_nil] at this
      rw [this]
      have hc : ∀ w ∈ ws, capitalize u w = capFirst w := fun w hw => capitalize_low h (hws w hw).1
      exact flatMap_congr hc
    · intro he
      have := hcont '-' (by rw [he]; simp)
      rw [hm] at this; cases this
    · intro he
      have := hcont '+' (by rw [he]; simp)
      rw [hp] at this; cases this
  unfold sanitize
  rw [hcased]
  congr 1
  have hh := caps_head hws
  cases ws with
  | nil => exact absurd rfl hne
  | cons w ws =>
    have hw := hws w (by simp)
    cases w with
    | nil => exact absurd rfl hw.1.1
    | cons c w =>
      simp only [List.flatMap_cons, capFirst, List.cons_append, started]
      rw [if_pos]
      have := upper_of_lower (hw.2 c rfl)
      rw [h.start_ascii _ this.2.2.2.1, this.2.1]

theorem finished_inj {x y : Str} (hx : '_' ∉ x) (hy : '_' ∉ y) (h : finished u x = finished u y) : x = y := by
  unfold finished at h
  split at h <;> split at h
  · exact h
  · exact absurd (by rw [h]; simp) hx
  · exact absurd (by rw [← h]; simp) hy
  · exact List.append_cancel_right h

/-- Different names with letters at the start of words give different Pascal case names. -/
theorem pascal_inj (h : Lawful u) {s t : Str} (hs : LetterName s) (ht : LetterName t)
    (he : sanitize u .pascal s = sanitize u .pascal t) : s = t := by
  obtain ⟨-, ws, hne, hws, rfl⟩ := hs
  obtain ⟨-, vs, hne', hvs, rfl⟩ := ht
  rw [withUnderscores_eq, withUnderscores_eq, pascal_letter h hws hne, pascal_letter h hvs hne'] at he
  rw [caps_inj hws hvs (finished_inj (caps_no_underscore hws) (caps_no_underscore hvs) he)]

theorem pascal_upper (h : Lawful u) {s : Str} (hs : LetterName s) :
    ∃ c cs, sanitize u .pascal s = c :: cs ∧ c.isUpper = true := by
  obtain ⟨-, ws, hne, hws, rfl⟩ := hs
  rw [withUnderscores_eq, pascal_letter h hws hne]
  have hh := caps_head hws
  cases hc : ws.flatMap capFirst with
  | nil =>
    cases ws with
    | nil => exact absurd rfl hne
    | cons w ws =>
      have := hws w (by simp)
      cases w with
      | nil => exact absurd rfl this.1.1
      | cons c w => simp [capFirst] at hc
  | cons c cs =>
    rw [hc] at hh
    unfold finished
    split
    · exact ⟨c, cs, rfl, hh c rfl⟩
    · exact ⟨c, cs ++ ['_'], rfl, hh c rfl⟩

/-! ## C64 -/

theorem nodup_some {α} {l : List α} (h : (l.map some).Nodup) : l.Nodup :=
  List.Pairwise.of_map _ (fun a b hab hc => hab (by rw [hc])) h

theorem nodup_append_of {l m : List Str} (hl : l.Nodup) (hm : m.Nodup) (h : ∀ x ∈ m, x ∉ l) : (l ++ m).Nodup := by
  rw [List.nodup_append]
  exact ⟨hl, hm, fun a ha b hb hab => h b hb (hab ▸ ha)⟩

theorem clientOwn_nodup (inner : Bool) : (clientOwn inner).Nodup := by cases inner <;> decide

/-- All operation ids of the document satisfy `P`. -/
def AllIds (d : Document) (P : Str → Prop) : Prop := ∀ o ∈ opsOf d, ∀ id, o.id = some id → P id

theorem method_id_mem (h : Lawful u) {types : Types} {d : Document} {ms : List Processed}
    (hm : rawMethods u types d = .ok ms) (hs : AllIds d SnakeName) {p : Processed} (hp : p ∈ ms) :
    ∃ o ∈ opsOf d, o.id = some p.op.operationId := by
  have h1 := (C43_snake_partial h hm hs).1
  have : some p.op.operationId ∈ (opsOf d).map RawOperation.id := by
    rw [← h1]
    exact List.mem_map_of_mem (List.mem_map_of_mem hp)
  obtain ⟨o, ho, he⟩ := List.mem_map.mp this
  exact ⟨o, ho, he⟩

/-- C64: in the positional style method names are distinct if ids are in snake case, none is the name of a method of `Client`,
and none is the name of a paginated operation followed by `_stream`. -/
theorem C64_positional_partial (h : Lawful u) {types : Types} (tt : TypeTable B) {d : Document} {ms : List Processed} (inner : Bool)
    (t : TagStyle) (hm : rawMethods u types d = .ok ms) (hs : AllIds d SnakeName)
    (hown : AllIds d fun id => id ∉ clientOwn inner)
    (hstream : ∀ p ∈ ms, p.paginated ≠ none → AllIds d fun id => id ≠ p.op.operationId ++ "_stream".toList) :
    namesOk u tt inner .positional t ms = true := by
  refine decide_eq_true ?_
  have hn := (C43_snake_partial h hm hs).2
  have hmem := fun p => method_id_mem h hm hs (p := p)
  have hflat : ∀ x, x ∈ ms.flatMap positionalNames →
      ∃ p ∈ ms, x = p.op.operationId ∨ (p.paginated ≠ none ∧ x = p.op.operationId ++ "_stream".toList) := by
    intro x hx
    obtain ⟨p, hp, hx⟩ := List.mem_flatMap.mp hx
    refine ⟨p, hp, ?_⟩
    unfold positionalNames at hx
    rcases List.mem_cons.mp hx with rfl | hx
    · exact .inl rfl
    · split at hx
      · rename_i hpg
        exact .inr ⟨Option.isSome_iff_ne_none.mp hpg, List.mem_singleton.mp hx⟩
      · cases hx
  refine nodup_append_of (clientOwn_nodup inner) ?_ ?_
  · -- names of operations and streams
    have key : ∀ l : List Processed, (∀ p ∈ l, p ∈ ms) → (l.map fun p => p.op.operationId).Nodup →
        (l.flatMap positionalNames).Nodup := by
      intro l
      induction l with
      | nil => intro _ _; exact .nil
      | cons p l ih =>
        intro hl hnd
        rw [List.map_cons, List.nodup_cons] at hnd
        rw [List.flatMap_cons]
        rw [List.nodup_append]
        have hpm := hl p (by simp)
        refine ⟨?_, ih (fun q hq => hl q (by simp [hq])) hnd.2, ?_⟩
        · unfold positionalNames
          split
          · refine List.nodup_cons.mpr ⟨?_, (by simp)⟩
            rw [List.mem_singleton]
            intro he
            have := congrArg List.length he
            simp at this
          · exact (by simp)
        · intro x hx y hy hxy
          subst hxy
          obtain ⟨q, hq, hy⟩ := List.mem_flatMap.mp hy
          have hqm := hl q (by simp [hq])
          have hpq : p.op.operationId ≠ q.op.operationId := fun he => hnd.1 (by rw [he]; exact List.mem_map_of_mem hq)
          obtain ⟨po, hpo, hpid⟩ := hmem p hpm
          obtain ⟨qo, hqo, hqid⟩ := hmem q hqm
          unfold positionalNames at hx hy
          rcases List.mem_cons.mp hx with hx | hx <;> rcases List.mem_cons.mp hy with hy | hy
          · exact hpq (hx.symm.trans hy)
          · split at hy
            · rename_i hpg
              exact hstream q hqm (Option.isSome_iff_ne_none.mp hpg) po hpo _ hpid (hx.symm.trans (List.mem_singleton.mp hy))
            · cases hy
          · split at hx
            · rename_i hpg
              exact hstream p hpm (Option.isSome_iff_ne_none.mp hpg) qo hqo _ hqid (hy.symm.trans (List.mem_singleton.mp hx))
            · cases hx
          · split at hx
            · split at hy
              · have h1 := List.mem_singleton.mp hx
                have h2 := List.mem_singleton.mp hy
                exact hpq (List.append_cancel_right (h1.symm.trans h2))
              · cases hy
            · cases hx
    exact key ms (fun _ h => h) hn
  · intro x hx hxo
    obtain ⟨p, hp, hx⟩ := hflat x hx
    rcases hx with rfl | ⟨_, rfl⟩
    · obtain ⟨o, ho, hid⟩ := hmem p hp
      exact hown o ho _ hid hxo
    · -- no method of `Client` ends in `_stream`
      have key : ∀ inner, ∀ y ∈ clientOwn inner, ¬ "_stream".toList <:+ y := by decide
      exact key inner _ hxo ⟨_, rfl⟩

/-- Operation ids whose structs would hide or clash with a name in `mod builder`. -/
def builderReserved : List Str :=
  ["byte_stream", "error", "request_builder_ext", "response_value", "result", "string", "option", "from", "unpin"].map String.toList

theorem letterName_of (ws : List Str) (hne : ws ≠ []) (hw : ∀ w ∈ ws, w ≠ [] ∧ ∀ c ∈ w, c.isLower = true)
    (hk : ∀ k ∈ reserved, withUnderscores ws ≠ k.toList) : LetterName (withUnderscores ws) := by
  have hl : ∀ w ∈ ws, LowWord w ∧ ∀ c, w.head? = some c → c.isLower = true := fun w hw' =>
    ⟨⟨(hw w hw').1, fun c hc => .inl ((hw w hw').2 c hc)⟩, fun c hc => (hw w hw').2 c (List.mem_of_mem_head? hc)⟩
  refine ⟨⟨⟨ws, hne, fun w hw' => (hl w hw').1, rfl⟩, ?_, hk⟩, ws, hne, hl, rfl⟩
  intro c hc
  cases ws with
  | nil => exact absurd rfl hne
  | cons w ws =>
    have hw1 := hw w (by simp)
    cases w with
    | nil => exact absurd rfl hw1.1
    | cons x w =>
      have hx : x = c := by
        cases ws with
        | nil => simpa [withUnderscores] using hc
        | cons v ws => simpa [withUnderscores] using hc
      subst hx
      have hlx := hw1.2 x (by simp)
      have aux : ∀ n : Fin 128, (Char.ofNat n).isLower = true → (Char.ofNat n).isDigit = false := by decide +kernel
      have := aux ⟨x.toNat, (low_ascii (.inl hlx)).1⟩
      simp only [Char.ofNat_toNat] at this
      exact this hlx

/-- The structs of reserved names, computed. -/
theorem reserved_structs (h : Lawful u) {n : Str}
    (hn : n ∈ ["ByteStream", "Error", "RequestBuilderExt", "ResponseValue", "Result", "String", "Option", "From", "Unpin"].map String.toList) :
    ∃ r ∈ builderReserved, LetterName r ∧ sanitize u .pascal r = n := by
  have mk : ∀ (ws : List Str) (n : Str), ws ≠ [] → (∀ w ∈ ws, w ≠ [] ∧ ∀ c ∈ w, c.isLower = true) →
      (∀ k ∈ reserved, withUnderscores ws ≠ k.toList) → withUnderscores ws ∈ builderReserved → Ascii (withUnderscores ws) →
      sanitize exUnicode .pascal (withUnderscores ws) = n →
      ∃ r ∈ builderReserved, LetterName r ∧ sanitize u .pascal r = n := by
    intro ws n h1 h2 h3 h4 h5 h6
    exact ⟨_, h4, letterName_of ws h1 h2 h3, by rw [sanitize_agree h exUnicode_lawful _ h5, h6]⟩
  simp only [List.map_cons, List.map_nil, List.mem_cons, List.not_mem_nil, or_false] at hn
  rcases hn with rfl | rfl | rfl | rfl | rfl | rfl | rfl | rfl | rfl
  · exact mk ["byte".toList, "stream".toList] _ (by simp) (by decide) (by decide) (by decide) (by unfold Ascii; decide) rfl
  · exact mk ["error".toList] _ (by simp) (by decide) (by decide) (by decide) (by unfold Ascii; decide) rfl
  · exact mk ["request".toList, "builder".toList, "ext".toList] _ (by simp) (by decide) (by decide) (by decide) (by unfold Ascii; decide) rfl
  · exact mk ["response".toList, "value".toList] _ (by simp) (by decide) (by decide) (by decide) (by unfold Ascii; decide) rfl
  · exact mk ["result".toList] _ (by simp) (by decide) (by decide) (by decide) (by unfold Ascii; decide) rfl
  · exact mk ["string".toList] _ (by simp) (by decide) (by decide) (by decide) (by unfold Ascii; decide) rfl
  · exact mk ["option".toList] _ (by simp) (by decide) (by decide) (by decide) (by unfold Ascii; decide) rfl
  · exact mk ["from".toList] _ (by simp) (by decide) (by decide) (by decide) (by unfold Ascii; decide) rfl
  · exact mk ["unpin".toList] _ (by simp) (by decide) (by decide) (by decide) (by unfold Ascii; decide) rfl

theorem struct_not_reserved (h : Lawful u) {p : Processed} (hl : LetterName p.op.operationId)
    (hr : p.op.operationId ∉ builderReserved) : structName u p ∉
      ["ByteStream", "Error", "RequestBuilderExt", "ResponseValue", "Result", "String", "Option", "From", "Unpin"].map String.toList := by
  intro hn
  obtain ⟨r, h1, h2, h3⟩ := reserved_structs h hn
  have := pascal_inj h hl h2 h3.symm
  rw [this] at hr
  exact hr h1

theorem builderUses_names (tt : TypeTable B) (p : Processed) : ∀ x ∈ builderUses tt p, x ∈
    ["ByteStream", "Error", "RequestBuilderExt", "ResponseValue", "Result", "String", "Option", "From", "Unpin"].map String.toList := by
  have key : ∀ a b c d : Bool, ∀ x ∈ (["Result".toList] ++ (if a then [] else ["String".toList]) ++ (if b then ["Option".toList] else []) ++
      (if c then ["From".toList] else []) ++ (if d then ["Unpin".toList] else [])), x ∈
    ["ByteStream", "Error", "RequestBuilderExt", "ResponseValue", "Result", "String", "Option", "From", "Unpin"].map String.toList := by
    decide
  intro x hx
  unfold builderUses at hx
  rw [show (if p.op.params = [] then ([] : List Str) else ["String".toList]) =
      (if decide (p.op.params = []) then [] else ["String".toList]) by simp] at hx
  exact key _ _ _ _ x hx

theorem structs_ok (h : Lawful u) (tt : TypeTable B) {ms : List Processed} (hn : (ms.map fun p => p.op.operationId).Nodup)
    (hl : ∀ p ∈ ms, LetterName p.op.operationId) (hr : ∀ p ∈ ms, p.op.operationId ∉ builderReserved) :
    builderModOk u tt ms = true := by
  unfold builderModOk
  rw [Bool.and_eq_true]
  constructor
  · refine decide_eq_true (nodup_append_of (by decide) ?_ ?_)
    · have : ∀ l : List Processed, (∀ p ∈ l, p ∈ ms) → (l.map fun p => p.op.operationId).Nodup → (l.map (structName u)).Nodup := by
        intro l
        induction l with
        | nil => intro _ _; exact .nil
        | cons p l ih =>
          intro hm hnd
          rw [List.map_cons, List.nodup_cons] at hnd ⊢
          refine ⟨fun hc => ?_, ih (fun q hq => hm q (by simp [hq])) hnd.2⟩
          obtain ⟨q, hq, he⟩ := List.mem_map.mp hc
          have := pascal_inj h (hl q (hm q (by simp [hq]))) (hl p (hm p (by simp))) he
          exact hnd.1 (by rw [← this]; exact List.mem_map_of_mem hq)
      exact this ms (fun _ h => h) hn
    · intro x hx hi
      obtain ⟨p, hp, rfl⟩ := List.mem_map.mp hx
      have hns := struct_not_reserved h (hl p hp) (hr p hp)
      have hsub : ∀ y ∈ builderImports, y = "types".toList ∨ y ∈
          ["ByteStream", "Error", "RequestBuilderExt", "ResponseValue", "Result", "String", "Option", "From", "Unpin"].map String.toList := by
        decide
      rcases hsub _ hi with hy | hy
      · obtain ⟨c, cs, h1, h2⟩ := pascal_upper h (hl p hp)
        have : c :: cs = "types".toList := h1.symm.trans hy
        injection this with hc _
        subst hc
        exact absurd h2 (by decide)
      · exact hns hy
  · rw [List.all_eq_true]
    intro p hp
    rw [List.all_eq_true]
    intro q hq
    rw [Bool.not_eq_true', List.contains_eq_mem, decide_eq_false_iff_not]
    intro hmem
    exact struct_not_reserved h (hl p hp) (hr p hp) (builderUses_names tt q _ hmem)

/-- C64: in the builder style with merged tags names are distinct and usable if ids are in snake case with words that start with
letters, and neither names of methods of `Client` nor the snake case form of a name that is needed. -/
theorem C64_builder_merged_partial (h : Lawful u) {types : Types} (tt : TypeTable B) {d : Document} {ms : List Processed} (inner : Bool)
    (hm : rawMethods u types d = .ok ms) (hs : AllIds d LetterName)
    (hown : AllIds d fun id => id ∉ clientOwn inner) (hres : AllIds d fun id => id ∉ builderReserved) :
    namesOk u tt inner .builder .merged ms = true := by
  have hsn : AllIds d SnakeName := fun o ho id hid => (hs o ho id hid).1
  have hn := (C43_snake_partial h hm hsn).2
  have hmem := fun p => method_id_mem h hm hsn (p := p)
  unfold namesOk
  simp only [Bool.and_eq_true]
  refine ⟨decide_eq_true (nodup_append_of (clientOwn_nodup inner) hn ?_), structs_ok h tt hn ?_ ?_⟩
  · intro x hx
    obtain ⟨p, hp, rfl⟩ := List.mem_map.mp hx
    obtain ⟨o, ho, hid⟩ := hmem p hp
    exact hown o ho _ hid
  · intro p hp
    obtain ⟨o, ho, hid⟩ := hmem p hp
    exact hs o ho _ hid
  · intro p hp
    obtain ⟨o, ho, hid⟩ := hmem p hp
    exact hres o ho _ hid

theorem tag_entry {ms : List Processed} {e : Str × List Processed} (he : e ∈ (builderTags ms ([], [])).2) :
    e.2 = ms.flatMap fun m => List.replicate (m.op.tags.count e.1) m := by
  have hs := (builderTags_spec ms [] [] .nil).2.1
  have := (BTree.mem_iff_get hs).mp he
  have h2 := C51_trait_methods ms e.1
  rw [this] at h2
  exact h2

/-- C64: with separate tags, in addition tags of an operation must not be repeated and different tags must have different
names in Pascal case. -/
theorem C64_builder_separate_partial (h : Lawful u) {types : Types} (tt : TypeTable B) {d : Document} {ms : List Processed} (inner : Bool)
    (hm : rawMethods u types d = .ok ms) (hs : AllIds d LetterName)
    (hown : ∀ o ∈ opsOf d, o.op.tags = [] → ∀ id, o.id = some id → id ∉ clientOwn inner)
    (hres : AllIds d fun id => id ∉ builderReserved)
    (htags : ∀ o ∈ opsOf d, o.op.tags.Nodup)
    (hpas : ∀ o ∈ opsOf d, ∀ o' ∈ opsOf d, ∀ t ∈ o.op.tags, ∀ t' ∈ o'.op.tags,
      sanitize u .pascal t = sanitize u .pascal t' → t = t') :
    namesOk u tt inner .builder .separate ms = true := by
  have hsn : AllIds d SnakeName := fun o ho id hid => (hs o ho id hid).1
  have hn := (C43_snake_partial h hm hsn).2
  have hmem : ∀ p ∈ ms, ∃ o ∈ opsOf d, o.id = some p.op.operationId ∧ p.op.tags = o.op.tags := by
    intro p hp
    have hf := processAll_ids (rawMethods_ok hm).2
    obtain ⟨o, ho, id, h1, h2, h3⟩ := forall₂_mem_right hf p hp
    have ho' : o.2.2 ∈ opsOf d := by rw [← operations_ops]; exact List.mem_map_of_mem ho
    refine ⟨o.2.2, ho', ?_, h3⟩
    rw [h1, h2, snake_fixed h (hsn _ ho' _ h1)]
  unfold namesOk
  simp only [Bool.and_eq_true]
  refine ⟨⟨⟨decide_eq_true ?_, structs_ok h tt hn ?_ ?_⟩, decide_eq_true ?_⟩, ?_⟩
  · rw [C51_base]
    refine nodup_append_of (clientOwn_nodup inner) ?_ ?_
    · exact hn.sublist (List.Sublist.map _ List.filter_sublist)
    · intro x hx
      obtain ⟨p, hp, rfl⟩ := List.mem_map.mp hx
      obtain ⟨hp, ht⟩ := List.mem_filter.mp hp
      obtain ⟨o, ho, hid, hot⟩ := hmem p hp
      exact hown o ho (by rw [← hot]; exact of_decide_eq_true ht) _ hid
  · intro p hp
    obtain ⟨o, ho, hid, -⟩ := hmem p hp
    exact hs o ho _ hid
  · intro p hp
    obtain ⟨o, ho, hid, -⟩ := hmem p hp
    exact hres o ho _ hid
  · -- traits
    have hk := (C51_partition ms).2.2.2
    have huse : ∀ e ∈ (builderTags ms ([], [])).2, ∃ o ∈ opsOf d, e.1 ∈ o.op.tags := by
      intro e he
      have hne := (C51_partition ms).2.2.1 e he
      cases hl : e.2 with
      | nil => exact absurd hl hne
      | cons p l =>
        obtain ⟨hp, ht⟩ := ((C51_partition ms).2.1 p e.1).mp ⟨e.2, he, by rw [hl]; simp⟩
        obtain ⟨o, ho, -, hot⟩ := hmem p hp
        exact ⟨o, ho, by rw [← hot]; exact ht⟩
    generalize (builderTags ms ([], [])).2 = ext at hk huse
    induction ext with
    | nil => exact .nil
    | cons e ext ih =>
      rw [List.map_cons, List.nodup_cons] at hk ⊢
      refine ⟨fun hc => ?_, ih hk.2 fun x hx => huse x (by simp [hx])⟩
      obtain ⟨e', he', heq⟩ := List.mem_map.mp hc
      obtain ⟨o, ho, ht⟩ := huse e (by simp)
      obtain ⟨o', ho', ht'⟩ := huse e' (by simp [he'])
      have : sanitize u .pascal e'.1 = sanitize u .pascal e.1 := by
        unfold traitName at heq
        exact List.append_cancel_left (List.append_cancel_right heq)
      have := hpas o' ho' o ho _ ht' _ ht this
      exact hk.1 (by rw [← this]; exact List.mem_map_of_mem he')
  · rw [List.all_eq_true]
    intro e he
    refine decide_eq_true ?_
    rw [tag_entry he]
    have hsub : (ms.flatMap fun m => List.replicate (m.op.tags.count e.1) m).Sublist ms := by
      have htag : ∀ p ∈ ms, p.op.tags.Nodup := fun p hp => by
        obtain ⟨o, ho, -, hot⟩ := hmem p hp
        rw [hot]; exact htags o ho
      clear hm hs hown hres htags hpas hsn hn hmem he
      induction ms with
      | nil => exact .slnil
      | cons p ms ih =>
        rw [List.flatMap_cons]
        have hle : p.op.tags.count e.1 ≤ 1 := List.nodup_iff_count.mp (htag p (by simp)) _
        have ih := ih fun q hq => htag q (by simp [hq])
        rcases Nat.le_one_iff_eq_zero_or_eq_one.mp hle with h0 | h1
        · rw [h0]; exact .cons _ ih
        · rw [h1]; exact .cons₂ _ ih
    exact hn.sublist (List.Sublist.map _ hsub)

/-- C64: an operation `new` clashes with the constructor in both styles. -/
theorem C64_own_fails (h : Lawful u) (types : Types) (tt : TypeTable B) (inner : Bool) :
    ∃ (d : Document) (ms : List Processed), ValidDoc u d ∧ rawMethods u types d = .ok ms ∧
      namesOk u tt inner .positional .merged ms = false ∧ namesOk u tt inner .builder .merged ms = false := by
  have e : sanitize u .snake "new".toList = "new".toList := by
    rw [sanitize_agree h exUnicode_lawful _ (by unfold Ascii; decide)]; rfl
  have hr := plain_methods h (types := types) (ops := [("new", [])]) (by decide) rfl
  refine ⟨_, _, plain_valid h (by decide), hr, ?_⟩
  have hf : ∀ inner, ¬ (clientOwn inner ++ ["new".toList]).Nodup := by decide
  constructor
  · refine decide_eq_false ?_
    show ¬ (clientOwn inner ++ [sanitize u .snake "new".toList]).Nodup
    rw [e]; exact hf inner
  · unfold namesOk
    simp only [Bool.and_eq_false_iff]
    refine .inl (decide_eq_false ?_)
    show ¬ (clientOwn inner ++ [sanitize u .snake "new".toList]).Nodup
    rw [e]; exact hf inner

/-- C64: structs clash though method names differ: `a_1` and `a1`. -/
theorem C64_struct_fails (h : Lawful u) (types : Types) (tt : TypeTable B) (inner : Bool) (t : TagStyle) :
    ∃ (d : Document) (ms : List Processed), ValidDoc u d ∧ rawMethods u types d = .ok ms ∧
      (clientOwn inner ++ ms.map fun p => p.op.operationId).Nodup ∧ namesOk u tt inner .builder t ms = false := by
  have e1 : sanitize u .snake "a_1".toList = "a_1".toList := by
    rw [sanitize_agree h exUnicode_lawful _ (by unfold Ascii; decide)]; rfl
  have e2 : sanitize u .snake "a1".toList = "a1".toList := by
    rw [sanitize_agree h exUnicode_lawful _ (by unfold Ascii; decide)]; rfl
  have p1 : sanitize u .pascal "a_1".toList = "A1".toList := by
    rw [sanitize_agree h exUnicode_lawful _ (by unfold Ascii; decide)]; rfl
  have p2 : sanitize u .pascal "a1".toList = "A1".toList := by
    rw [sanitize_agree h exUnicode_lawful _ (by unfold Ascii; decide)]; rfl
  have hr := plain_methods h (types := types) (ops := [("a_1", []), ("a1", [])]) (by decide) rfl
  refine ⟨_, _, plain_valid h (by decide), hr, ?_, ?_⟩
  · show (clientOwn inner ++ [sanitize u .snake "a_1".toList, sanitize u .snake "a1".toList]).Nodup
    rw [e1, e2]
    cases inner <;> decide
  · have hb : ∀ ms : List Processed, ms.map (structName u) = ["A1".toList, "A1".toList] → builderModOk u tt ms = false := by
      intro ms hm
      unfold builderModOk
      rw [hm, decide_eq_false (by decide), Bool.false_and]
    unfold namesOk
    cases t
    · simp only [Bool.and_eq_false_iff]
      refine .inr (hb _ ?_)
      show [sanitize u .pascal (sanitize u .snake "a_1".toList), sanitize u .pascal (sanitize u .snake "a1".toList)] = _
      rw [e1, e2, p1, p2]
    · simp only [Bool.and_eq_false_iff]
      refine .inl (.inl (.inr (hb _ ?_)))
      show [sanitize u .pascal (sanitize u .snake "a_1".toList), sanitize u .pascal (sanitize u .snake "a1".toList)] = _
      rw [e1, e2, p1, p2]

/-- C64: an operation `result` hides `Result`, which every builder uses. -/
theorem C64_hidden_fails (h : Lawful u) (types : Types) (tt : TypeTable B) (inner : Bool) (t : TagStyle) :
    ∃ (d : Document) (ms : List Processed), ValidDoc u d ∧ rawMethods u types d = .ok ms ∧
      namesOk u tt inner .builder t ms = false := by
  have e1 : sanitize u .snake "result".toList = "result".toList := by
    rw [sanitize_agree h exUnicode_lawful _ (by unfold Ascii; decide)]; rfl
  have p1 : sanitize u .pascal "result".toList = "Result".toList := by
    rw [sanitize_agree h exUnicode_lawful _ (by unfold Ascii; decide)]; rfl
  have hr := plain_methods h (types := types) (ops := [("result", [])]) (by decide) rfl
  refine ⟨_, _, plain_valid h (by decide), hr, ?_⟩
  have hb : ∀ p : Processed, structName u p = "Result".toList → builderModOk u tt [p] = false := by
    intro p hm
    unfold builderModOk
    rw [Bool.and_eq_false_iff]
    refine .inr ?_
    simp only [List.all_cons, List.all_nil, Bool.and_true, hm]
    unfold builderUses
    simp
  unfold namesOk
  cases t
  · simp only [Bool.and_eq_false_iff]
    refine .inr (hb _ ?_)
    show sanitize u .pascal (sanitize u .snake "result".toList) = _
    rw [e1, p1]
  · simp only [Bool.and_eq_false_iff]
    refine .inl (.inl (.inr (hb _ ?_)))
    show sanitize u .pascal (sanitize u .snake "result".toList) = _
    rw [e1, p1]

/-- C64: with separate tags, a tag listed twice gives a trait with two methods of the same name; tags `a b` and `a-b`
give two traits of the same name. -/
theorem C64_tags_fails (h : Lawful u) (types : Types) (tt : TypeTable B) (inner : Bool) :
    (∃ (d : Document) (ms : List Processed), ValidDoc u d ∧ rawMethods u types d = .ok ms ∧
      namesOk u tt inner .builder .merged ms = true ∧
      ∃ e ∈ (builderTags ms ([], [])).2, ¬ (e.2.map fun p => p.op.operationId).Nodup) ∧
    (∃ (d : Document) (ms : List Processed), ValidDoc u d ∧ rawMethods u types d = .ok ms ∧
      namesOk u tt inner .builder .merged ms = true ∧
      ¬ ((builderTags ms ([], [])).2.map fun e => traitName u e.1).Nodup) := by
  have ln : LetterName "list".toList := letterName_of ["list".toList] (by simp) (by decide) (by decide)
  have lm : LetterName "make".toList := letterName_of ["make".toList] (by simp) (by decide) (by decide)
  constructor
  · have hr := plain_methods h (types := types) (ops := [("list", ["a", "a"])]) (by decide) rfl
    refine ⟨_, _, plain_valid h (by decide), hr, ?_, ?_⟩
    · refine C64_builder_merged_partial h tt inner hr ?_ ?_ ?_
      · intro o ho id hid
        rcases List.mem_singleton.mp ho with rfl
        cases hid; exact ln
      · intro o ho id hid
        rcases List.mem_singleton.mp ho with rfl
        cases hid; cases inner <;> decide
      · intro o ho id hid
        rcases List.mem_singleton.mp ho with rfl
        cases hid; decide
    · refine ⟨("a".toList, _), List.mem_singleton.mpr rfl, ?_⟩
      show ¬ [sanitize u .snake "list".toList, sanitize u .snake "list".toList].Nodup
      simp
  · have hr := plain_methods h (types := types) (ops := [("list", ["a b"]), ("make", ["a-b"])]) (by decide) rfl
    have e1 : sanitize u .pascal "a b".toList = "AB".toList := by
      rw [sanitize_agree h exUnicode_lawful _ (by unfold Ascii; decide)]; rfl
    have e2 : sanitize u .pascal "a-b".toList = "AB".toList := by
      rw [sanitize_agree h exUnicode_lawful _ (by unfold Ascii; decide)]; rfl
    refine ⟨_, _, plain_valid h (by decide), hr, ?_, ?_⟩
    · have hops : ∀ o ∈ opsOf (getDoc [("list", ["a b"]), ("make", ["a-b"])]), o.id = some "list".toList ∨ o.id = some "make".toList := by
        intro o ho
        rcases List.mem_cons.mp ho with rfl | ho
        · exact .inl rfl
        · rcases List.mem_singleton.mp ho with rfl
          exact .inr rfl
      refine C64_builder_merged_partial h tt inner hr ?_ ?_ ?_
      · intro o ho id hid
        rcases hops o ho with h1 | h1 <;> rw [h1] at hid <;> cases hid
        · exact ln
        · exact lm
      · intro o ho id hid
        rcases hops o ho with h1 | h1 <;> rw [h1] at hid <;> cases hid <;> cases inner <;> decide
      · intro o ho id hid
        rcases hops o ho with h1 | h1 <;> rw [h1] at hid <;> cases hid <;> decide
    · show ¬ [traitName u "a b".toList, traitName u "a-b".toList].Nodup
      unfold traitName
      rw [e1, e2]
      decide

/-! ## C65 -/

theorem find_op {l : List Processed} (hn : (l.map fun p => p.op.operationId).Nodup) {p : Processed} (hp : p ∈ l) :
    (l.find? fun q => q.op.operationId = p.op.operationId) = some p := by
  induction l with
  | nil => cases hp
  | cons q l ih =>
    rw [List.map_cons, List.nodup_cons] at hn
    rcases List.mem_cons.mp hp with rfl | hp
    · simp
    · have hne : q.op.operationId ≠ p.op.operationId := fun he => hn.1 (by rw [he]; exact List.mem_map_of_mem hp)
      rw [List.find?_cons_of_neg (by simpa using hne)]
      exact ih hn.2 hp

theorem name_eq {l : List Processed} (hn : (l.map fun p => p.op.operationId).Nodup) {p q : Processed} (hp : p ∈ l) (hq : q ∈ l)
    (h : q.op.operationId = p.op.operationId) : q = p := by
  have h1 := find_op hn hp
  have h2 := find_op hn hq
  rw [h, h1] at h2
  exact (Option.some.inj h2).symm

theorem entry_find {ms : List Processed} (hn : (ms.map fun p => p.op.operationId).Nodup) {p : Processed} (hp : p ∈ ms)
    {e : Str × List Processed} (he : e ∈ (builderTags ms ([], [])).2) :
    (e.2.find? fun q => q.op.operationId = p.op.operationId) = if e.1 ∈ p.op.tags then some p else none := by
  have hpart := (C51_partition ms).2.1
  split
  · rename_i ht
    obtain ⟨l, hl, hpl⟩ := (hpart p e.1).mpr ⟨hp, ht⟩
    have hs := (builderTags_spec ms [] [] .nil).2.1
    have hle : l = e.2 := by
      have h1 := (BTree.mem_iff_get hs).mp hl
      have h2 := (BTree.mem_iff_get hs).mp (show (e.1, e.2) ∈ _ from he)
      rw [h1] at h2
      exact Option.some.inj h2
    rw [hle] at hpl
    cases hf : e.2.find? fun q => q.op.operationId = p.op.operationId with
    | none => exact absurd (List.find?_eq_none.mp hf p hpl) (by simp)
    | some q =>
      have hq := List.mem_of_find?_eq_some hf
      have hqn := List.find?_some hf
      have hqm := ((hpart q e.1).mp ⟨e.2, he, hq⟩).1
      rw [name_eq hn hp hqm (of_decide_eq_true hqn)]
  · rename_i ht
    rw [List.find?_eq_none]
    intro q hq hqn
    obtain ⟨hqm, hqt⟩ := (hpart q e.1).mp ⟨e.2, he, hq⟩
    rw [name_eq hn hp hqm (of_decide_eq_true hqn)] at hqt
    exact ht hqt

/-- No method of the standard library is meant by the name: `Into` and `TryInto` come before all others, `Clone` and `ToOwned` before
those of traits. -/
def NotStandard (trait : Prop) (name : Str) : Prop :=
  (name ≠ "into".toList ∧ name ≠ "try_into".toList) ∧
  (trait → name ≠ "clone".toList ∧ name ≠ "clone_into".toList ∧ name ≠ "to_owned".toList)

theorem standardValue_iff {name : Str} : name ∉ standardValue ↔ name ≠ "into".toList ∧ name ≠ "try_into".toList := by
  unfold standardValue
  simp only [List.mem_cons, List.not_mem_nil, or_false, not_or]

theorem standardRef_iff {name : Str} :
    name ∉ standardRef ↔ name ≠ "clone".toList ∧ name ≠ "clone_into".toList ∧ name ≠ "to_owned".toList := by
  unfold standardRef
  simp only [List.mem_cons, List.not_mem_nil, or_false, not_or]

/-- C65: without traits, exactly when `client.name()` reaches the operation `name`. -/
theorem C65_merged_iff {ms : List Processed} (hn : (ms.map fun p => p.op.operationId).Nodup) (inner : Bool) {p : Processed}
    (hp : p ∈ ms) :
    Reaches (resolve inner p.op.operationId (ms, [])) p ↔
      NotStandard False p.op.operationId ∧ p.op.operationId ∉ clientOwn inner := by
  unfold resolve NotStandard
  rw [← standardValue_iff]
  dsimp only
  rw [find_op hn hp]
  split
  · rename_i hs
    constructor
    · rintro (h | ⟨_, h⟩) <;> cases h
    · rintro ⟨⟨h, -⟩, -⟩; exact absurd hs h
  · rename_i hs
    split
    · rename_i ho
      constructor
      · rintro (h | ⟨_, h⟩) <;> cases h
      · rintro ⟨-, h⟩; exact absurd ho h
    · rename_i ho
      exact ⟨fun _ => ⟨⟨hs, False.elim⟩, ho⟩, fun _ => .inl rfl⟩

/-- C65: exactly when `client.name()` reaches the operation `name`: the name is none of the methods that every client has, no method of
the standard library comes first, and the operation has at most one tag. -/
theorem C65_reaches_iff {ms : List Processed} (hn : (ms.map fun p => p.op.operationId).Nodup) (inner : Bool) {p : Processed}
    (hp : p ∈ ms) :
    Reaches (resolve inner p.op.operationId (builderTags ms ([], []))) p ↔
      NotStandard (p.op.tags ≠ []) p.op.operationId ∧
      p.op.operationId ∉ clientOwn inner ∧ ∀ t ∈ p.op.tags, ∀ t' ∈ p.op.tags, t = t' := by
  unfold resolve NotStandard
  rw [← standardValue_iff, ← standardRef_iff]
  split
  · rename_i hs
    constructor
    · rintro (h | ⟨_, h⟩) <;> cases h
    · rintro ⟨⟨h, -⟩, -⟩; exact absurd hs h
  rename_i hs
  split
  · rename_i ho
    constructor
    · rintro (h | ⟨_, h⟩) <;> cases h
    · rintro ⟨-, h, -⟩; exact absurd ho h
  · rename_i ho
    rw [C51_base]
    have hnf : ((ms.filter fun m => m.op.tags = []).map fun p => p.op.operationId).Nodup :=
      hn.sublist (List.Sublist.map _ List.filter_sublist)
    by_cases ht : p.op.tags = []
    · rw [find_op hnf (List.mem_filter.mpr ⟨hp, decide_eq_true ht⟩)]
      exact ⟨fun _ => ⟨⟨hs, fun h => absurd ht h⟩, ho, by rw [ht]; simp⟩, fun _ => .inl rfl⟩
    · have hnone : ((ms.filter fun m => m.op.tags = []).find? fun q => q.op.operationId = p.op.operationId) = none := by
        rw [List.find?_eq_none]
        intro q hq hqn
        obtain ⟨hqm, hqt⟩ := List.mem_filter.mp hq
        rw [name_eq hn hp hqm (of_decide_eq_true hqn)] at hqt
        exact ht (of_decide_eq_true hqt)
      rw [hnone]
      dsimp only
      split
      · rename_i hr
        constructor
        · split <;> (rintro (h | ⟨_, h⟩) <;> cases h)
        · rintro ⟨⟨-, h⟩, -⟩; exact absurd hr (h ht)
      rename_i hr
      -- the traits
      have hcong : ∀ ext : BTree.Map (List Processed), (∀ e ∈ ext, e ∈ (builderTags ms ([], [])).2) →
          (ext.filterMap fun e => (e.2.find? fun q => q.op.operationId = p.op.operationId).map fun q => (e.1, q)) =
          (ext.filter fun e => e.1 ∈ p.op.tags).map fun e => (e.1, p) := by
        intro ext
        induction ext with
        | nil => intro _; rfl
        | cons e ext ih =>
          intro hm
          have ih := ih fun x hx => hm x (by simp [hx])
          have he := entry_find hn hp (hm e (by simp))
          by_cases hte : e.1 ∈ p.op.tags
          · rw [if_pos hte] at he
            rw [List.filterMap_cons, he, List.filter_cons, if_pos (decide_eq_true hte), List.map_cons, ← ih]
            rfl
          · rw [if_neg hte] at he
            rw [List.filterMap_cons, he, List.filter_cons, if_neg (by simpa using hte), ← ih]
            rfl
      unfold resolveTrait
      rw [hcong _ fun _ h => h]
      have hmemtag : ∀ t ∈ p.op.tags, ∃ l, (t, l) ∈ (builderTags ms ([], [])).2.filter fun e => e.1 ∈ p.op.tags := by
        intro t htm
        obtain ⟨l, hl, -⟩ := ((C51_partition ms).2.1 p t).mpr ⟨hp, htm⟩
        exact ⟨l, List.mem_filter.mpr ⟨hl, decide_eq_true htm⟩⟩
      have hkeys : (((builderTags ms ([], [])).2.filter fun e => e.1 ∈ p.op.tags).map Prod.fst).Nodup :=
        (C51_partition ms).2.2.2.sublist (List.Sublist.map _ List.filter_sublist)
      have hin : ∀ e ∈ (builderTags ms ([], [])).2.filter fun e => e.1 ∈ p.op.tags, e.1 ∈ p.op.tags :=
        fun e he => of_decide_eq_true (List.mem_filter.mp he).2
      generalize (builderTags ms ([], [])).2.filter (fun e => decide (e.1 ∈ p.op.tags)) = fl at hmemtag hkeys hin
      match fl with
      | [] =>
        cases hts : p.op.tags with
        | nil => exact absurd hts ht
        | cons t ts =>
          obtain ⟨l, hl⟩ := hmemtag t (by rw [hts]; simp)
          cases hl
      | [e] =>
        refine ⟨fun _ => ⟨⟨hs, fun _ => hr⟩, ho, ?_⟩, fun _ => .inr ⟨e.1, rfl⟩⟩
        intro t h1 t' h2
        obtain ⟨l, hl⟩ := hmemtag t h1
        obtain ⟨l', hl'⟩ := hmemtag t' h2
        have a := congrArg Prod.fst (List.mem_singleton.mp hl)
        have b := congrArg Prod.fst (List.mem_singleton.mp hl')
        exact a.trans b.symm
      | e :: e' :: rest =>
        constructor
        · rintro (h | ⟨_, h⟩) <;> cases h
        · rintro ⟨-, -, hall⟩
          have := hall e.1 (hin e (by simp)) e'.1 (hin e' (by simp))
          rw [List.map_cons, List.nodup_cons] at hkeys
          exact absurd (by rw [this]; simp) hkeys.1

/-- C65: with two tags the call is ambiguous. -/
theorem C65_two_tags_fails (h : Lawful u) (types : Types) (inner : Bool) :
    ∃ (d : Document) (ms : List Processed), ValidDoc u d ∧ rawMethods u types d = .ok ms ∧
      ∃ p ∈ ms, resolve inner p.op.operationId (builderTags ms ([], [])) = .ambiguous := by
  have e1 : sanitize u .snake "list".toList = "list".toList := by
    rw [sanitize_agree h exUnicode_lawful _ (by unfold Ascii; decide)]; rfl
  have hr := plain_methods h (types := types) (ops := [("list", ["a", "b"])]) (by decide) rfl
  refine ⟨_, _, plain_valid h (by decide), hr, _, List.mem_singleton.mpr rfl, ?_⟩
  have n1 : ∀ l : List Str, "list".toList ∉ l → sanitize u .snake "list".toList ∉ l := fun l hl => by rw [e1]; exact hl
  unfold resolve
  refine (if_neg (n1 _ (by decide))).trans ((if_neg (n1 _ (by cases inner <;> decide))).trans ?_)
  show ite _ _ _ = _
  refine (if_neg (n1 _ (by decide))).trans ?_
  unfold resolveTrait
  simp [builderTags, pushAt, BTree.insert, BTree.get, plainOp, strCmp]

/-- C65: an operation called `into` cannot be called by method syntax, though the client compiles. -/
theorem C65_into_fails (h : Lawful u) (types : Types) (tt : TypeTable B) (inner : Bool) (t : TagStyle) :
    ∃ (d : Document) (ms : List Processed), ValidDoc u d ∧ rawMethods u types d = .ok ms ∧
      namesOk u tt inner .builder t ms = true ∧
      ∃ p ∈ ms, ∀ tags, resolve inner p.op.operationId tags = .standard := by
  have ln : LetterName "into".toList := letterName_of ["into".toList] (by simp) (by decide) (by decide)
  have e1 : sanitize u .snake "into".toList = "into".toList := snake_fixed h ln.1
  have hr := plain_methods h (types := types) (ops := [("into", [])]) (by decide) rfl
  refine ⟨_, _, plain_valid h (by decide), hr, ?_, _, List.mem_singleton.mpr rfl, fun tags => ?_⟩
  · have hops : ∀ o ∈ opsOf (getDoc [("into", [])]), o = plainOp "into".toList [] :=
      fun o ho => List.mem_singleton.mp ho
    have ids : AllIds (getDoc [("into", [])]) LetterName := by
      intro o ho id hid
      rw [hops o ho] at hid; cases hid; exact ln
    have own : AllIds (getDoc [("into", [])]) fun id => id ∉ clientOwn inner := by
      intro o ho id hid
      rw [hops o ho] at hid; cases hid; cases inner <;> decide
    have res : AllIds (getDoc [("into", [])]) fun id => id ∉ builderReserved := by
      intro o ho id hid
      rw [hops o ho] at hid; cases hid; decide
    cases t with
    | merged => exact C64_builder_merged_partial h tt inner hr ids own res
    | separate =>
      refine C64_builder_separate_partial h tt inner hr ids (fun o ho _ => own o ho) res ?_ ?_
      · intro o ho
        rw [hops o ho]; exact List.nodup_nil
      · intro o ho o' ho' t ht
        rw [hops o ho] at ht; cases ht
  · unfold resolve
    rw [if_pos]
    show sanitize u .snake "into".toList ∈ _
    rw [e1]; decide

/-- C65: an operation with a tag called `clone` cannot be called by method syntax, though the client compiles; without a tag it can. -/
theorem C65_clone_fails (h : Lawful u) (types : Types) (tt : TypeTable B) (inner : Bool) :
    (∃ (d : Document) (ms : List Processed), ValidDoc u d ∧ rawMethods u types d = .ok ms ∧
      namesOk u tt inner .builder .separate ms = true ∧
      ∃ p ∈ ms, resolve inner p.op.operationId (builderTags ms ([], [])) = .ambiguous) ∧
    ∃ (d : Document) (ms : List Processed), ValidDoc u d ∧ rawMethods u types d = .ok ms ∧
      ∃ p ∈ ms, p.op.operationId = "clone".toList ∧ resolve inner p.op.operationId (builderTags ms ([], [])) = .inherent p := by
  have ln : LetterName "clone".toList := letterName_of ["clone".toList] (by simp) (by decide) (by decide)
  have e1 : sanitize u .snake "clone".toList = "clone".toList := snake_fixed h ln.1
  have n1 : ∀ l : List Str, "clone".toList ∉ l → sanitize u .snake "clone".toList ∉ l := fun l hl => by rw [e1]; exact hl
  constructor
  · have hr := plain_methods h (types := types) (ops := [("clone", ["a"])]) (by decide) rfl
    refine ⟨_, _, plain_valid h (by decide), hr, ?_, _, List.mem_singleton.mpr rfl, ?_⟩
    · have hops : ∀ o ∈ opsOf (getDoc [("clone", ["a"])]), o = plainOp "clone".toList ["a".toList] :=
        fun o ho => List.mem_singleton.mp ho
      refine C64_builder_separate_partial h tt inner hr ?_ ?_ ?_ ?_ ?_
      · intro o ho id hid
        rw [hops o ho] at hid; cases hid; exact ln
      · intro o ho ht
        rw [hops o ho] at ht; cases ht
      · intro o ho id hid
        rw [hops o ho] at hid; cases hid; decide
      · intro o ho
        rw [hops o ho]; simp [plainOp]
      · intro o ho o' ho' t ht t' ht' _
        rw [hops o ho] at ht
        rw [hops o' ho'] at ht'
        exact (List.mem_singleton.mp ht).trans (List.mem_singleton.mp ht').symm
    · unfold resolve
      refine (if_neg (n1 _ (by decide))).trans ((if_neg (n1 _ (by cases inner <;> decide))).trans ?_)
      show ite _ _ _ = _
      refine (if_pos (by show sanitize u .snake "clone".toList ∈ _; rw [e1]; decide)).trans ?_
      unfold resolveTrait
      simp [builderTags, pushAt, BTree.insert, BTree.get, plainOp, strCmp]
  · have hr := plain_methods h (types := types) (ops := [("clone", [])]) (by decide) rfl
    refine ⟨_, _, plain_valid h (by decide), hr, _, List.mem_singleton.mpr rfl, e1, ?_⟩
    unfold resolve
    refine (if_neg (n1 _ (by decide))).trans ((if_neg (n1 _ (by cases inner <;> decide))).trans ?_)
    simp [builderTags, plainOp]

/-- C65: an operation with a tag named like a method of the client cannot be called by method syntax. -/
theorem C65_own_fails (h : Lawful u) (types : Types) (tt : TypeTable B) (inner : Bool) :
    ∃ (d : Document) (ms : List Processed), ValidDoc u d ∧ rawMethods u types d = .ok ms ∧
      namesOk u tt inner .builder .separate ms = true ∧
      ∃ p ∈ ms, resolve inner p.op.operationId (builderTags ms ([], [])) = .own := by
  have ln : LetterName "client".toList := letterName_of ["client".toList] (by simp) (by decide) (by decide)
  have e1 : sanitize u .snake "client".toList = "client".toList := snake_fixed h ln.1
  have hr := plain_methods h (types := types) (ops := [("client", ["a"])]) (by decide) rfl
  refine ⟨_, _, plain_valid h (by decide), hr, ?_, _, List.mem_singleton.mpr rfl, ?_⟩
  · have hops : ∀ o ∈ opsOf (getDoc [("client", ["a"])]), o = plainOp "client".toList ["a".toList] :=
      fun o ho => List.mem_singleton.mp ho
    refine C64_builder_separate_partial h tt inner hr ?_ ?_ ?_ ?_ ?_
    · intro o ho id hid
      rw [hops o ho] at hid; cases hid; exact ln
    · intro o ho ht
      rw [hops o ho] at ht; cases ht
    · intro o ho id hid
      rw [hops o ho] at hid; cases hid; decide
    · intro o ho
      rw [hops o ho]; simp [plainOp]
    · intro o ho o' ho' t ht t' ht' _
      rw [hops o ho] at ht
      rw [hops o' ho'] at ht'
      exact (List.mem_singleton.mp ht).trans (List.mem_singleton.mp ht').symm
  · unfold resolve
    rw [if_neg, if_pos]
    · show sanitize u .snake "client".toList ∈ _
      rw [e1]; cases inner <;> decide
    · show sanitize u .snake "client".toList ∉ _
      rw [e1]; decide

/-! ## Examples -/

example : validate exUnicode { version := " 3.0.1".toList, paths := [] } = .ok () := rfl
example : (validate exUnicode { version := "3.1.0".toList, paths := [] }).isOk = false := rfl
example : (validate exUnicode { version := "3.0.0".toList, paths := [("/".toList, none)] }).isOk = false := rfl

example : LetterName "list_things".toList :=
  letterName_of ["list".toList, "things".toList] (by simp) (by decide) (by decide)

example : dependencies ⟨true, "*".toList, false, true, false, true, false, false⟩ =
    ["bytes = \"1.9\"", "futures = \"0.3\"", "futures-core = \"0.3\"", "percent-encoding = \"2.3\"",
     "reqwest = { version = \"0.12\", default-features=false, features = [\"json\", \"stream\"] }",
     "serde = { version = \"1.0\", features = [\"derive\"] }", "serde_json = \"1.0\"", "serde_urlencoded = \"0.7\"",
     "uuid = { version = \"1.0\", features = [\"serde\", \"v4\"] }"].map String.toList := by decide +kernel

end Progenitor.Props

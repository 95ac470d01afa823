import Verif.Spec.Response
import Verif.Lemmas.Params

/-! # Lemmas on responses -/

namespace Progenitor.Resp

open Progenitor Progenitor.Spec Progenitor.Params

/-- Pure `to_value`. -/
def val : Status → Nat
  | .code c => c
  | .range r => r * 100
  | .default => 1000

def lessV (a b : Response) : Bool := decide (val a.status < val b.status)

theorem toValue_ok {s : Status} (h : s.isSuccessOrDefault = true ∨ s.isErrorOrDefault = true) :
    s.toValue = .ok (val s) := by
  cases s with
  | code c =>
    have : c < 1000 := by simp [Status.isSuccessOrDefault, Status.isErrorOrDefault] at h; omega
    simp only [Status.toValue, if_pos this, val]
  | range r =>
    have : r < 10 := by simp [Status.isSuccessOrDefault, Status.isErrorOrDefault] at h; omega
    simp only [Status.toValue, if_pos this, val]
  | default => rfl

theorem lessStatus_pure {a b : Response}
    (ha : a.status.isSuccessOrDefault = true ∨ a.status.isErrorOrDefault = true)
    (hb : b.status.isSuccessOrDefault = true ∨ b.status.isErrorOrDefault = true) :
    lessStatus a b = .ok (lessV a b) := by
  simp only [lessStatus, toValue_ok ha, toValue_ok hb, Res.bind_ok, Res.pure_eq, lessV]

/-- The filters that `method_sig_body` uses. -/
def IsFilter (f : Status → Bool) : Prop :=
  ∀ s, f s = true → s.isSuccessOrDefault = true ∨ s.isErrorOrDefault = true

theorem isFilter_success : IsFilter Status.isSuccessOrDefault := fun _ h => .inl h
theorem isFilter_error : IsFilter Status.isErrorOrDefault := fun _ h => .inr h

/-- The sorted items. -/
def sorted (f : Status → Bool) (rs : List Response) : List Response :=
  sortP lessV [] (rs.filter fun r => f r.status)

theorem sort_pure {f : Status → Bool} (hf : IsFilter f) (rs : List Response) :
    sortLoop lessStatus [] (rs.filter fun r => f r.status) = .ok (sorted f rs) := by
  apply sortLoop_pure (by simp)
  rw [List.pairwise_iff_forall_sublist]
  intro a b hab
  have ha : a ∈ rs.filter fun r => f r.status := hab.subset (by simp)
  have hb : b ∈ rs.filter fun r => f r.status := hab.subset (by simp)
  exact lessStatus_pure (hf _ (List.mem_filter.mp hb).2) (hf _ (List.mem_filter.mp ha).2)

theorem mem_sorted {f : Status → Bool} {rs : List Response} {r : Response} :
    r ∈ sorted f rs ↔ r ∈ rs ∧ f r.status = true := by
  unfold sorted
  rw [(sortP_perm lessV [] _).mem_iff]
  simp [List.mem_filter]

/-- Either nothing is dropped, or a default response and the range 2XX stays. -/
theorem popDefault_cases (items : List Response) :
    popDefault items = items ∨
    ∃ k k' rest, items = rest ++ [⟨.range 2, k'⟩, ⟨.default, k⟩] ∧
      popDefault items = rest ++ [⟨.range 2, k'⟩] := by
  unfold popDefault
  split
  · rename_i k k' rest h
    right
    refine ⟨k, k', rest.reverse, ?_, by simp⟩
    have := congrArg List.reverse h
    simpa using this
  · exact .inl rfl

theorem popDefault_append (rest : List Response) (k k') :
    popDefault (rest ++ [⟨.range 2, k'⟩, ⟨.default, k⟩]) = rest ++ [⟨.range 2, k'⟩] := by
  unfold popDefault
  simp

theorem mem_popDefault {items : List Response} {r : Response} (h : r ∈ popDefault items) : r ∈ items := by
  rcases popDefault_cases items with e | ⟨k, k', rest, e1, e2⟩
  · rwa [e] at h
  · rw [e2] at h; rw [e1]
    simp at h ⊢
    rcases h with h | h
    · exact .inl h
    · exact .inr (.inl h)

theorem mem_popDefault_of {items : List Response} {r : Response} (h : r ∈ items) :
    r ∈ popDefault items ∨ (r.status = .default ∧ ∃ k, ⟨.range 2, k⟩ ∈ popDefault items) := by
  rcases popDefault_cases items with e | ⟨k, k', rest, e1, e2⟩
  · rw [e]; exact .inl h
  · rw [e1] at h; rw [e2]
    simp at h
    rcases h with h | h | h
    · exact .inl (by simp [h])
    · exact .inl (by simp [h])
    · exact .inr ⟨by rw [h], k', by simp⟩

/-- What a successful `extract_responses` returns. -/
theorem extract_ok {f : Status → Bool} (hf : IsFilter f) {rs items : List Response} {k : Kind}
    (h : extract f rs = .ok (items, k)) :
    items = popDefault (sorted f rs) ∧ ∀ r ∈ items, r.kind = k := by
  simp only [extract, sort_pure hf, Res.bind_ok] at h
  cases hp : popDefault (sorted f rs) with
  | nil => rw [hp] at h; cases h; exact ⟨rfl, by simp⟩
  | cons r rest =>
    rw [hp] at h
    dsimp only at h
    split at h
    · rename_i hall
      cases h
      refine ⟨rfl, ?_⟩
      intro r' hr'
      rcases List.mem_cons.mp hr' with rfl | hr'
      · rfl
      · simpa using List.all_eq_true.mp hall r' hr'
    · cases h

/-- `extract_responses` succeeds if the kinds agree. -/
theorem extract_of_agree {f : Status → Bool} (hf : IsFilter f) {rs : List Response}
    (h : ∀ r ∈ popDefault (sorted f rs), ∀ r' ∈ popDefault (sorted f rs), r.kind = r'.kind) :
    ∃ k, extract f rs = .ok (popDefault (sorted f rs), k) := by
  simp only [extract, sort_pure hf, Res.bind_ok]
  cases hp : popDefault (sorted f rs) with
  | nil => exact ⟨_, rfl⟩
  | cons r rest =>
    rw [hp] at h
    dsimp only
    rw [if_pos]
    · exact ⟨_, rfl⟩
    · rw [List.all_eq_true]
      intro r' hr'
      simpa using (h r' (by simp [hr']) r (by simp))

/-- `extract_responses` panics if the kinds do not agree. -/
theorem extract_of_disagree {f : Status → Bool} (hf : IsFilter f) {rs : List Response} {r r' : Response}
    (h : r ∈ popDefault (sorted f rs)) (h' : r' ∈ popDefault (sorted f rs)) (hk : r.kind ≠ r'.kind) :
    (extract f rs).isPanic = true := by
  simp only [extract, sort_pure hf, Res.bind_ok]
  cases hp : popDefault (sorted f rs) with
  | nil => rw [hp] at h; cases h
  | cons x rest =>
    dsimp only
    rw [if_neg]
    · rfl
    · intro hall
      rw [List.all_eq_true] at hall
      rw [hp] at h h'
      apply hk
      have e : ∀ y ∈ x :: rest, y.kind = x.kind := by
        intro y hy
        rcases List.mem_cons.mp hy with rfl | hy
        · rfl
        · simpa using hall y hy
      rw [e r h, e r' h']

theorem error_items {rs : List Response} : popDefault (sorted Status.isErrorOrDefault rs) =
    sorted Status.isErrorOrDefault rs := by
  rcases popDefault_cases (sorted Status.isErrorOrDefault rs) with e | ⟨k, k', rest, e1, _⟩
  · exact e
  · have : (⟨.range 2, k'⟩ : Response) ∈ sorted Status.isErrorOrDefault rs := by rw [e1]; simp
    have := (mem_sorted.mp this).2
    simp [Status.isErrorOrDefault] at this

theorem errorArms_ok {items : List Response} {arms : List Arm} (h : errorArms items = .ok arms) :
    ∀ r ∈ items, r.kind = .upgrade → r.status = .default := by
  induction items generalizing arms with
  | nil => simp
  | cons r rs ih =>
    simp only [errorArms] at h
    obtain ⟨a, h1, h⟩ := bind_ok_inv h
    obtain ⟨as, h2, h⟩ := bind_ok_inv h
    intro r' hr'
    rcases List.mem_cons.mp hr' with rfl | hr'
    · intro hk
      unfold errorArm at h1
      simp only [hk] at h1
      split at h1
      · assumption
      · cases h1
    · exact ih h2 r' hr'

theorem errorArms_of {items : List Response}
    (h : ∀ r ∈ items, r.kind = .upgrade → r.status = .default) : ∃ arms, errorArms items = .ok arms := by
  induction items with
  | nil => exact ⟨[], rfl⟩
  | cons r rs ih =>
    obtain ⟨as, has⟩ := ih fun r hr => h r (by simp [hr])
    have : ∃ a, errorArm r = .ok a := by
      unfold errorArm
      cases hk : r.kind with
      | upgrade => simp only [if_pos (h r (by simp) hk)]; exact ⟨_, rfl⟩
      | _ => exact ⟨_, rfl⟩
    obtain ⟨a, ha⟩ := this
    exact ⟨a ++ as, by simp only [errorArms, ha, has, Res.bind_ok]; rfl⟩

/-- Does the arm of an error response match? -/
def errPat (r : Response) : Pat :=
  match r.status with
  | .code c => .lit c
  | .range n => .between (n * 100) (n * 100 + 99)
  | .default => .wild

theorem dispatch_append (a b : List Arm) (s : Nat) :
    dispatch (a ++ b) s = (dispatch a s).or (dispatch b s) := by
  simp only [dispatch, List.find?_append]
  cases List.find? (fun a => a.pat.matches s) a <;> simp

theorem dispatch_none {a : List Arm} {s : Nat} (h : ∀ x ∈ a, x.pat.matches s = false) :
    dispatch a s = none := by
  have : a.find? (fun a => a.pat.matches s) = none := by
    rw [List.find?_eq_none]; intro x hx; simp [h x hx]
  simp [dispatch, this]

theorem dispatch_some {a : List Arm} {s : Nat} {act : Act} (h1 : ∃ x ∈ a, x.pat.matches s = true)
    (h2 : ∀ x ∈ a, x.act = act) : dispatch a s = some act := by
  cases hf : a.find? (fun a => a.pat.matches s) with
  | none =>
    rw [List.find?_eq_none] at hf
    obtain ⟨x, hx, hm⟩ := h1
    exact absurd hm (hf x hx)
  | some x => simp [dispatch, hf, h2 x (List.mem_of_find?_eq_some hf)]

theorem mem_errorArms {items : List Response} {arms : List Arm} (h : errorArms items = .ok arms)
    (x : Arm) : x ∈ arms ↔ ∃ r ∈ items, r.kind ≠ .upgrade ∧ x = ⟨errPat r, .err r.kind⟩ := by
  induction items generalizing arms with
  | nil => cases h; simp
  | cons r rs ih =>
    simp only [errorArms] at h
    obtain ⟨a, h1, h⟩ := bind_ok_inv h
    obtain ⟨as, h2, h⟩ := bind_ok_inv h
    cases h
    have e : x ∈ a ↔ (r.kind ≠ .upgrade ∧ x = ⟨errPat r, .err r.kind⟩) := by
      unfold errorArm at h1
      cases hk : r.kind with
      | upgrade =>
        rw [hk] at h1
        dsimp only at h1
        split at h1 <;> cases h1
        simp
      | _ =>
        rw [hk] at h1
        dsimp only at h1
        cases h1
        simp only [List.mem_singleton, errPat, ne_eq, reduceCtorEq, not_false_eq_true, true_and]
        cases r.status <;> exact Iff.rfl
    rw [List.mem_append, e, ih h2]
    simp [List.mem_cons, or_and_right, exists_or]

/-- The parts of an accepted `match`. -/
theorem genMatch_ok {rs : List Response} {d : Dispatch} (h : genMatch rs = .ok d) :
    ∃ eArms, d.arms = (popDefault (sorted Status.isSuccessOrDefault rs)).map successArm ++ eArms ++
        catchAll rs ∧
      (∀ r ∈ popDefault (sorted Status.isSuccessOrDefault rs), r.kind = d.success) ∧
      (∀ r ∈ rs, r.status.isErrorOrDefault = true → r.kind = d.error) ∧
      (∀ r ∈ rs, r.status.isErrorOrDefault = true → r.kind = .upgrade → r.status = .default) ∧
      (∀ x, x ∈ eArms ↔ ∃ r ∈ rs, r.status.isErrorOrDefault = true ∧ r.kind ≠ .upgrade ∧
        x = ⟨errPat r, .err r.kind⟩) := by
  simp only [genMatch] at h
  obtain ⟨⟨si, sk⟩, h1, h⟩ := bind_ok_inv h
  obtain ⟨⟨ei, ek⟩, h2, h⟩ := bind_ok_inv h
  obtain ⟨ea, h3, h⟩ := bind_ok_inv h
  dsimp only at h h3
  cases h
  obtain ⟨rfl, hsk⟩ := extract_ok isFilter_success h1
  obtain ⟨rfl, hek⟩ := extract_ok isFilter_error h2
  rw [error_items] at hek h3
  refine ⟨ea, rfl, hsk, ?_, ?_, ?_⟩
  · intro r hr he; exact hek r (mem_sorted.mpr ⟨hr, he⟩)
  · intro r hr he; exact errorArms_ok h3 r (mem_sorted.mpr ⟨hr, he⟩)
  · intro x
    rw [mem_errorArms h3]
    constructor
    · rintro ⟨r, hr, hk, e⟩
      have := mem_sorted.mp hr
      exact ⟨r, this.1, this.2, hk, e⟩
    · rintro ⟨r, hr, he, hk, e⟩
      exact ⟨r, mem_sorted.mpr ⟨hr, he⟩, hk, e⟩

theorem success_pat {r : Response} {s : Nat} (h : r.status.isSuccessOrDefault = true) :
    (successArm r).pat.matches s = true ↔
      DocumentsSuccess r s ∨ (r.status = .default ∧ 200 ≤ s ∧ s < 300) := by
  unfold successArm DocumentsSuccess
  cases hs : r.status with
  | code c =>
    rw [hs] at h
    simp [Status.isSuccessOrDefault] at h
    simp [Pat.matches, Covers]
    omega
  | range n =>
    rw [hs] at h
    simp [Status.isSuccessOrDefault] at h
    subst h
    simp [Pat.matches, Covers]
    omega
  | default =>
    simp [Pat.matches, Covers]
    omega

theorem documentsSuccess_item {r : Response} {s : Nat} (h : DocumentsSuccess r s) :
    r.status.isSuccessOrDefault = true := by
  unfold DocumentsSuccess at h
  cases hs : r.status with
  | code c => rw [hs] at h; simp [Covers] at h; simp [Status.isSuccessOrDefault]; omega
  | range n => rw [hs] at h; simp [Covers] at h; simp [Status.isSuccessOrDefault]; omega
  | default => rfl

theorem documentsError_item {r : Response} {s : Nat} (h : DocumentsError r s) :
    r.status.isErrorOrDefault = true ∧ r.status ≠ .default := by
  unfold DocumentsError at h
  cases hs : r.status with
  | code c => rw [hs] at h; simp [Covers] at h; simp [Status.isErrorOrDefault]; omega
  | range n => rw [hs] at h; simp [Covers] at h; simp [Status.isErrorOrDefault]; omega
  | default => rw [hs] at h; simp [Covers] at h

theorem error_pat {r : Response} {s : Nat} (h : r.status.isErrorOrDefault = true) :
    (errPat r).matches s = true ↔ DocumentsError r s ∨ r.status = .default := by
  unfold errPat DocumentsError
  cases hs : r.status with
  | code c =>
    rw [hs] at h
    simp [Status.isErrorOrDefault] at h
    simp [Pat.matches, Covers]
    omega
  | range n =>
    rw [hs] at h
    simp [Status.isErrorOrDefault] at h
    simp [Pat.matches, Covers]
    omega
  | default => simp [Pat.matches]

theorem successArm_act (r : Response) : (successArm r).act = .ok r.kind := by
  unfold successArm; split <;> rfl

/-- The generated dispatch follows the specification. -/
theorem dispatch_of_classified {rs : List Response} {d : Dispatch} (h : genMatch rs = .ok d)
    (hlast : ∀ k, rs.getLast? = some ⟨.default, k⟩ → k ≠ .upgrade) {s : Nat} {act : Act}
    (hc : Classified rs s act) : dispatch d.arms s = some act := by
  obtain ⟨ea, harms, hsk, hek, hup, hea⟩ := genMatch_ok h
  rw [harms, dispatch_append, dispatch_append]
  have succ : ∀ r₀ ∈ popDefault (sorted Status.isSuccessOrDefault rs), (successArm r₀).pat.matches s = true →
      dispatch ((popDefault (sorted Status.isSuccessOrDefault rs)).map successArm) s =
        some (.ok r₀.kind) := by
    intro r₀ h₀ hm
    apply dispatch_some
    · exact ⟨_, List.mem_map.mpr ⟨r₀, h₀, rfl⟩, hm⟩
    · intro x hx
      obtain ⟨r, hr, rfl⟩ := List.mem_map.mp hx
      rw [successArm_act, hsk r hr, hsk r₀ h₀]
  have nosucc : (∀ r ∈ rs, ¬ DocumentsSuccess r s) →
      (∀ r ∈ rs, r.status = .default → ¬ (200 ≤ s ∧ s < 300)) →
      dispatch ((popDefault (sorted Status.isSuccessOrDefault rs)).map successArm) s = none := by
    intro h1 h2
    apply dispatch_none
    intro x hx
    obtain ⟨r, hr, rfl⟩ := List.mem_map.mp hx
    have hr' := mem_sorted.mp (mem_popDefault hr)
    have := mt (success_pat hr'.2 (s := s)).mp (by
      rintro (h | h)
      · exact h1 r hr'.1 h
      · exact h2 r hr'.1 h.1 h.2)
    simpa using this
  have eact : ∀ x ∈ ea, x.act = .err d.error := by
    intro x hx
    obtain ⟨r, hr, he, _, rfl⟩ := (hea x).mp hx
    simp [hek r hr he]
  cases hc with
  | success r hr hd =>
    have hm := mem_sorted.mpr ⟨hr, documentsSuccess_item hd⟩
    rcases mem_popDefault_of hm with hp | ⟨hdef, _⟩
    · rw [succ r hp ((success_pat (documentsSuccess_item hd)).mpr (.inl hd))]; rfl
    · rw [DocumentsSuccess, hdef] at hd; exact absurd hd.1 (by simp [Covers])
  | successByDefault dr hr hdef h200 h300 hno =>
    have hm : dr ∈ sorted Status.isSuccessOrDefault rs :=
      mem_sorted.mpr ⟨hr, by rw [hdef]; rfl⟩
    rcases mem_popDefault_of hm with hp | ⟨_, k, hk⟩
    · rw [succ dr hp ((success_pat (by rw [hdef]; rfl)).mpr (.inr ⟨hdef, h200, h300⟩))]; rfl
    · have := (mem_sorted.mp (mem_popDefault hk)).1
      exact absurd ⟨by simp [Covers]; omega, .inl ⟨h200, h300⟩⟩ (hno _ this)
  | error r hr hd =>
    have hno : ∀ r' ∈ rs, ¬ DocumentsSuccess r' s := by
      intro r' _ hs
      rcases hs.2 with hs2 | hs2
      · have := hd.2; omega
      · have h1 := hs.1; rw [hs2] at h1; simp only [Covers] at h1
        have := hd.2; omega
    rw [nosucc hno (fun _ _ _ hc => by have := hd.2; omega)]
    have hi := documentsError_item hd
    have hnu : r.kind ≠ .upgrade := fun hk => hi.2 (hup r hr hi.1 hk)
    rw [dispatch_some ⟨_, (hea _).mpr ⟨r, hr, hi.1, hnu, rfl⟩, (error_pat hi.1).mpr (.inl hd)⟩ eact,
      hek r hr hi.1]
    rfl
  | errorByDefault dr hr hdef hn2 hno hnu =>
    rw [nosucc (fun r hr => (hno r hr).1) (fun _ _ _ => hn2)]
    have hi : dr.status.isErrorOrDefault = true := by rw [hdef]; rfl
    rw [dispatch_some ⟨_, (hea _).mpr ⟨dr, hr, hi, hnu, rfl⟩, (error_pat hi).mpr (.inr hdef)⟩ eact,
      hek dr hr hi]
    rfl
  | unexpected hno hdef =>
    rw [nosucc (fun r hr => (hno r hr).1) (fun r hr h => (hdef r hr h).1)]
    have hen : dispatch ea s = none := by
      apply dispatch_none
      intro x hx
      obtain ⟨r, hr, he, hk, rfl⟩ := (hea x).mp hx
      have := mt (error_pat he (s := s)).mp (by
        rintro (h | h)
        · exact (hno r hr).2 h
        · exact hk (hdef r hr h).2)
      simpa using this
    rw [hen]
    have hcatch : catchAll rs = [⟨.wild, .unexpected⟩] := by
      unfold catchAll
      split
      · rename_i k hl
        exact absurd (hdef _ (List.mem_of_getLast? hl) rfl).2 (hlast k hl)
      · rfl
    rw [hcatch]; rfl

/-- Every status is classified. -/
theorem classified_total (rs : List Response) (s : Nat) : ∃ act, Classified rs s act := by
  by_cases h1 : ∃ r ∈ rs, DocumentsSuccess r s
  · obtain ⟨r, hr, hd⟩ := h1; exact ⟨_, .success r hr hd⟩
  by_cases h2 : ∃ r ∈ rs, DocumentsError r s
  · obtain ⟨r, hr, hd⟩ := h2; exact ⟨_, .error r hr hd⟩
  have h1' : ∀ r ∈ rs, ¬ DocumentsSuccess r s := fun r hr hd => h1 ⟨r, hr, hd⟩
  have h2' : ∀ r ∈ rs, ¬ DocumentsError r s := fun r hr hd => h2 ⟨r, hr, hd⟩
  by_cases h3 : 200 ≤ s ∧ s < 300
  · by_cases h4 : ∃ d ∈ rs, d.status = .default
    · obtain ⟨d, hd, e⟩ := h4; exact ⟨_, .successByDefault d hd e h3.1 h3.2 h1'⟩
    · exact ⟨_, .unexpected (fun r hr => ⟨h1' r hr, h2' r hr⟩) fun d hd e => absurd ⟨d, hd, e⟩ h4⟩
  · by_cases h4 : ∃ d ∈ rs, d.status = .default ∧ d.kind ≠ .upgrade
    · obtain ⟨d, hd, e, hk⟩ := h4
      exact ⟨_, .errorByDefault d hd e h3 (fun r hr => ⟨h1' r hr, h2' r hr⟩) hk⟩
    · exact ⟨_, .unexpected (fun r hr => ⟨h1' r hr, h2' r hr⟩) fun d hd e =>
        ⟨h3, Classical.byContradiction fun hk => h4 ⟨d, hd, e, hk⟩⟩⟩

/-! ## The responses of a document -/

theorem kindOf_upgrade {ws : Bool} {r : DocResponse} (h : kindOf ws r = .ok .upgrade) : ws = true := by
  unfold kindOf at h
  split at h
  · split at h
    · split at h <;> cases h
    · cases h
  · cases ws
    · simp at h; split at h <;> cases h
    · rfl

theorem convertAll_kinds {ws : Bool} {l : List (Status × DocResponse)} {rs : List Response}
    (h : convertAll ws l = .ok rs) :
    Spec.Forall₂ (fun e r => r.status = e.1 ∧ kindOf ws e.2 = .ok r.kind) l rs := by
  induction l generalizing rs with
  | nil => cases h; exact .nil
  | cons e l ih =>
    obtain ⟨s, r⟩ := e
    simp only [convertAll] at h
    obtain ⟨k, h1, h⟩ := bind_ok_inv h
    obtain ⟨rs', h2, h⟩ := bind_ok_inv h
    cases h
    exact .cons ⟨rfl, h1⟩ (ih h2)

theorem processResponses_last {ws : Bool} {df : Option DocResponse}
    {codes : List (DocStatus × DocResponse)} {rs : List Response}
    (h : processResponses ws df codes = .ok rs) :
    ∀ k, rs.getLast? = some ⟨.default, k⟩ → k ≠ .upgrade := by
  simp only [processResponses] at h
  obtain ⟨rs', h1, h⟩ := bind_ok_inv h
  intro k hk hu
  subst hu
  cases ws with
  | true => simp at h; subst h; simp at hk
  | false =>
    have hf := convertAll_kinds h1
    have hall : ∀ r ∈ rs', r.kind ≠ .upgrade :=
      forall₂_right (P := fun r => r.kind ≠ .upgrade) (fun {e r} h hk => by
        have := kindOf_upgrade (hk ▸ h.2); cases this) hf
    have hm := List.mem_of_getLast? hk
    simp at h
    subst h
    split at hm
    · exact hall _ hm rfl
    · simp at hm; exact hall _ hm rfl

theorem processResponses_websocket {df : Option DocResponse}
    {codes : List (DocStatus × DocResponse)} {rs : List Response}
    (h : processResponses true df codes = .ok rs) : ⟨.code 101, .upgrade⟩ ∈ rs := by
  simp only [processResponses] at h
  obtain ⟨rs', _, h⟩ := bind_ok_inv h
  simp at h; subst h; simp

/-- The documented responses are all there, with their kinds. -/
theorem processResponses_mem {ws : Bool} {df : Option DocResponse}
    {codes : List (DocStatus × DocResponse)} {rs : List Response}
    (h : processResponses ws df codes = .ok rs) (r : Response) :
    r ∈ rs ↔
      (∃ x, df = some x ∧ r.status = .default ∧ kindOf ws x = .ok r.kind) ∨
      (∃ e ∈ codes, r.status = e.1.toStatus ∧ kindOf ws e.2 = .ok r.kind) ∨
      (r = ⟨.range 2, .raw⟩ ∧ df = none ∧ ∀ e ∈ codes, coversSuccess e.1.toStatus = false) ∨
      (ws = true ∧ r = ⟨.code 101, .upgrade⟩) := by
  simp only [processResponses] at h
  obtain ⟨rs', h1, h⟩ := bind_ok_inv h
  have hf := convertAll_kinds h1
  have mem1 : ∀ r, r ∈ rs' ↔ (∃ x, df = some x ∧ r.status = .default ∧ kindOf ws x = .ok r.kind) ∨
      (∃ e ∈ codes, r.status = e.1.toStatus ∧ kindOf ws e.2 = .ok r.kind) := by
    have gen : ∀ {l : List (Status × DocResponse)} {rs : List Response},
        Spec.Forall₂ (fun e r => r.status = e.1 ∧ kindOf ws e.2 = .ok r.kind) l rs →
        ∀ r, r ∈ rs ↔ ∃ e ∈ l, r.status = e.1 ∧ kindOf ws e.2 = .ok r.kind := by
      intro l rs hlr
      induction hlr with
      | nil => simp
      | cons hp _ ih =>
        rename_i e r₀ _ _ _
        intro r
        rw [List.mem_cons, ih]
        constructor
        · rintro (rfl | ⟨e', he', h⟩)
          · exact ⟨_, by simp, hp⟩
          · exact ⟨e', by simp [he'], h⟩
        · rintro ⟨e', he', h1, h2⟩
          rcases List.mem_cons.mp he' with rfl | he'
          · left
            have hk : r.kind = r₀.kind := by
              have := h2.symm.trans hp.2; simpa using this
            have hs : r.status = r₀.status := h1.trans hp.1.symm
            cases r; cases r₀; simp_all
          · exact .inr ⟨e', he', h1, h2⟩
    intro r
    rw [gen hf]
    constructor
    · rintro ⟨e, he, h1, h2⟩
      rcases List.mem_append.mp he with he | he
      · obtain ⟨x, hx, rfl⟩ := List.mem_map.mp he
        exact .inl ⟨x, by simpa using hx, h1, h2⟩
      · obtain ⟨x, hx, rfl⟩ := List.mem_map.mp he
        exact .inr ⟨x, hx, h1, h2⟩
    · rintro (⟨x, hx, h1, h2⟩ | ⟨e, he, h1, h2⟩)
      · exact ⟨_, List.mem_append.mpr (.inl (List.mem_map.mpr ⟨x, by simpa using hx, rfl⟩)), h1, h2⟩
      · exact ⟨_, List.mem_append.mpr (.inr (List.mem_map.mpr ⟨e, he, rfl⟩)), h1, h2⟩
  have hany : rs'.any (fun r => coversSuccess r.status) = false ↔
      (df = none ∧ ∀ e ∈ codes, coversSuccess e.1.toStatus = false) := by
    have gen : ∀ {l : List (Status × DocResponse)} {rs : List Response},
        Spec.Forall₂ (fun e r => r.status = e.1 ∧ kindOf ws e.2 = .ok r.kind) l rs →
        rs.any (fun r => coversSuccess r.status) = l.any (fun e => coversSuccess e.1) := by
      intro l rs hlr
      induction hlr with
      | nil => rfl
      | cons hp _ ih => simp only [List.any_cons, ih, hp.1]
    rw [gen hf, List.any_append, Bool.or_eq_false_iff]
    constructor
    · rintro ⟨h1, h2⟩
      constructor
      · cases df with
        | none => rfl
        | some x => simp [coversSuccess] at h1
      · simpa using h2
    · rintro ⟨rfl, h2⟩
      exact ⟨rfl, by simpa using h2⟩
  have mem2 : ∀ r, r ∈ (if rs'.any (fun r => coversSuccess r.status) then rs' else rs' ++ [⟨.range 2, .raw⟩]) ↔
      r ∈ rs' ∨ (r = ⟨.range 2, .raw⟩ ∧ df = none ∧ ∀ e ∈ codes, coversSuccess e.1.toStatus = false) := by
    intro r
    cases ha : rs'.any (fun r => coversSuccess r.status) with
    | true =>
      have : ¬ (df = none ∧ ∀ e ∈ codes, coversSuccess e.1.toStatus = false) := by
        rw [← hany, ha]; simp
      simp only [if_true]
      exact ⟨.inl, fun h => h.elim id fun h => absurd h.2 this⟩
    | false =>
      simp only [Bool.false_eq_true, if_false, List.mem_append, List.mem_singleton]
      exact ⟨fun h => h.imp id fun h => ⟨h, hany.mp ha⟩, fun h => h.imp id fun h => h.1⟩
  cases ws with
  | true =>
    simp only [if_true, Res.pure_eq, Res.ok.injEq] at h
    subst h
    rw [List.mem_append, mem2, mem1]
    simp only [List.mem_singleton, true_and]
    constructor
    · rintro ((h | h) | h)
      · rcases h with h | h
        · exact .inl h
        · exact .inr (.inl h)
      · exact .inr (.inr (.inl h))
      · exact .inr (.inr (.inr h))
    · rintro (h | h | h | h)
      · exact .inl (.inl (.inl h))
      · exact .inl (.inl (.inr h))
      · exact .inl (.inr h)
      · exact .inr h
  | false =>
    simp only [Bool.false_eq_true, if_false, Res.pure_eq, Res.ok.injEq] at h
    subst h
    rw [mem2, mem1]
    simp [or_assoc]

end Progenitor.Resp

namespace Progenitor.Resp

open Progenitor Progenitor.Spec Progenitor.Params

/-- `genMatch` succeeds if kinds agree. -/
theorem genMatch_of {rs : List Response}
    (h1 : ∀ r ∈ popDefault (sorted Status.isSuccessOrDefault rs),
      ∀ r' ∈ popDefault (sorted Status.isSuccessOrDefault rs), r.kind = r'.kind)
    (h2 : ∀ r ∈ rs, ∀ r' ∈ rs, r.status.isErrorOrDefault = true → r'.status.isErrorOrDefault = true →
      r.kind = r'.kind)
    (h3 : ∀ r ∈ rs, r.status.isErrorOrDefault = true → r.kind = .upgrade → r.status = .default) :
    ∃ d, genMatch rs = .ok d := by
  obtain ⟨k, hk⟩ := extract_of_agree isFilter_success h1
  obtain ⟨k', hk'⟩ := extract_of_agree isFilter_error (rs := rs) (by
    rw [error_items]
    intro r hr r' hr'
    have := mem_sorted.mp hr
    have h' := mem_sorted.mp hr'
    exact h2 r this.1 r' h'.1 this.2 h'.2)
  obtain ⟨a, ha⟩ := errorArms_of (items := popDefault (sorted Status.isErrorOrDefault rs)) (by
    rw [error_items]
    intro r hr
    have := mem_sorted.mp hr
    exact h3 r this.1 this.2)
  exact ⟨_, by simp only [genMatch, hk, hk', ha, Res.bind_ok]; rfl⟩

theorem lessV_swo (s : List Response) : Swo lessV s := by
  constructor
  · intro a _ b _; simp [lessV]; omega
  · intro a _ b _ c _; simp [lessV]; omega

/-- With 2XX documented and no single 2xx code, the default response is not a success. -/
theorem popDefault_range {d : Response} {rs : List Response} (hd : d.status = .default)
    (hnd : ∀ r ∈ rs, r.status ≠ .default) (hr : ∃ r ∈ rs, r.status = .range 2)
    (hc : ∀ r ∈ rs, ∀ c, r.status = .code c → ¬ (200 ≤ c ∧ c < 300)) :
    ∀ r ∈ popDefault (sorted Status.isSuccessOrDefault (d :: rs)), r ∈ rs := by
  have hperm : (sorted Status.isSuccessOrDefault (d :: rs)).Perm
      (d :: rs.filter fun r => r.status.isSuccessOrDefault) := by
    have := sortP_perm lessV [] ((d :: rs).filter fun r => r.status.isSuccessOrDefault)
    unfold sorted
    refine this.trans ?_
    simp [hd, Status.isSuccessOrDefault]
  have hsort : (sorted Status.isSuccessOrDefault (d :: rs)).Pairwise (fun a b => lessV b a = false) :=
    sortP_sorted (lessV_swo _) (by simp) (fun y hy => hy) List.Pairwise.nil
  generalize sorted Status.isSuccessOrDefault (d :: rs) = L at hperm hsort
  have hne : L ≠ [] := by
    intro e; rw [e] at hperm; exact absurd hperm.length_eq (by simp)
  obtain ⟨init, last, rfl⟩ : ∃ init last, L = init ++ [last] :=
    ⟨L.dropLast, L.getLast hne, (List.dropLast_concat_getLast hne).symm⟩
  have hsp := List.pairwise_append.mp hsort
  -- the last one is the default
  have hmem : d ∈ init ++ [last] := hperm.mem_iff.mpr (by simp)
  have hlast : last = d := by
    rcases List.mem_append.mp hmem with hm | hm
    · have hv := hsp.2.2 d hm last (by simp)
      have hlm : last ∈ d :: rs.filter fun r => r.status.isSuccessOrDefault :=
        hperm.mem_iff.mp (by simp)
      rcases List.mem_cons.mp hlm with rfl | hlm
      · rfl
      · have hx := List.mem_filter.mp hlm
        exfalso
        simp [lessV, hd, val] at hv
        cases hs : last.status with
        | default => exact hnd _ hx.1 hs
        | code c =>
          have h2 := hx.2
          rw [hs] at hv h2
          simp [Status.isSuccessOrDefault] at h2
          simp [val] at hv
          omega
        | range n =>
          have h2 := hx.2
          rw [hs] at hv h2
          simp [Status.isSuccessOrDefault] at h2
          simp [val] at hv
          omega
    · simp at hm; exact hm.symm
  subst hlast
  have hperm' : init.Perm (rs.filter fun r => r.status.isSuccessOrDefault) :=
    ((List.perm_append_comm (l₁ := init) (l₂ := [last])).symm.trans hperm).cons_inv
  obtain ⟨r, hr1, hr2⟩ := hr
  have hri : r ∈ init := hperm'.mem_iff.mpr (List.mem_filter.mpr ⟨hr1, by rw [hr2]; rfl⟩)
  have hne' : init ≠ [] := by intro e; rw [e] at hri; cases hri
  obtain ⟨init2, last2, rfl⟩ : ∃ i l, init = i ++ [l] :=
    ⟨init.dropLast, init.getLast hne', (List.dropLast_concat_getLast hne').symm⟩
  have hl2 : last2 ∈ rs.filter fun r => r.status.isSuccessOrDefault := hperm'.mem_iff.mp (by simp)
  have hx := List.mem_filter.mp hl2
  have hs2 : last2.status = .range 2 := by
    have hge : 200 ≤ val last2.status := by
      rcases List.mem_append.mp hri with hm | hm
      · have hv := (List.pairwise_append.mp hsp.1).2.2 r hm last2 (by simp)
        simp [lessV, hr2, val] at hv
        cases hs : last2.status <;> rw [hs] at hv <;> simp [val] <;> simp at hv <;> omega
      · simp at hm; rw [← hm, hr2]; simp [val]
    cases hs : last2.status with
    | default => exact absurd hs (hnd _ hx.1)
    | code c =>
      have h2 := hx.2
      rw [hs] at hge h2
      simp [Status.isSuccessOrDefault] at h2
      simp [val] at hge
      exact absurd (by omega) (hc _ hx.1 c hs)
    | range n =>
      have h2 := hx.2
      rw [hs] at h2
      simp [Status.isSuccessOrDefault] at h2
      rw [h2]
  have hform : init2 ++ [last2] ++ [last] = init2 ++ [⟨.range 2, last2.kind⟩, ⟨.default, last.kind⟩] := by
    have e1 : last2 = ⟨.range 2, last2.kind⟩ := by rw [← hs2]
    have e2 : last = ⟨.default, last.kind⟩ := by rw [← hd]
    rw [List.append_assoc]
    congr 1
    rw [← e1, ← e2]; rfl
  rw [hform, popDefault_append]
  intro x hx
  have e1 : last2 = ⟨.range 2, last2.kind⟩ := by rw [← hs2]
  rw [← e1] at hx
  exact (List.mem_filter.mp (hperm'.mem_iff.mp hx)).1

theorem convertAll_of {ws : Bool} {l : List (Status × DocResponse)}
    (h : ∀ e ∈ l, ∃ k, kindOf ws e.2 = .ok k) : ∃ rs, convertAll ws l = .ok rs := by
  induction l with
  | nil => exact ⟨[], rfl⟩
  | cons e l ih =>
    obtain ⟨s, r⟩ := e
    obtain ⟨k, hk⟩ := h (s, r) (by simp)
    obtain ⟨rs, hrs⟩ := ih fun e he => h e (by simp [he])
    exact ⟨⟨s, k⟩ :: rs, by simp only [convertAll, hrs, Res.bind_ok]; dsimp only at hk; rw [hk]; rfl⟩

theorem processResponses_of {ws : Bool} {df : Option DocResponse}
    {codes : List (DocStatus × DocResponse)} (h1 : ∀ x, df = some x → ∃ k, kindOf ws x = .ok k)
    (h2 : ∀ e ∈ codes, ∃ k, kindOf ws e.2 = .ok k) : ∃ rs, processResponses ws df codes = .ok rs := by
  obtain ⟨rs, hrs⟩ := convertAll_of (ws := ws)
    (l := df.toList.map (fun r => (Status.default, r)) ++ codes.map (fun e => (e.1.toStatus, e.2))) (by
      intro e he
      rcases List.mem_append.mp he with he | he
      · obtain ⟨x, hx, rfl⟩ := List.mem_map.mp he; exact h1 x (by simpa using hx)
      · obtain ⟨x, hx, rfl⟩ := List.mem_map.mp he; exact h2 x hx)
  exact ⟨_, by simp only [processResponses, hrs, Res.bind_ok]; rfl⟩

theorem toStatus_ne_default (s : DocStatus) : s.toStatus ≠ .default := by cases s <;> simp [DocStatus.toStatus]

/-- The default response comes first. -/
theorem processResponses_default {ws : Bool} {x : DocResponse}
    {codes : List (DocStatus × DocResponse)} {rs : List Response}
    (h : processResponses ws (some x) codes = .ok rs) :
    ∃ k rest, rs = ⟨.default, k⟩ :: rest ∧ kindOf ws x = .ok k ∧ (∀ r ∈ rest, r.status ≠ .default) := by
  simp only [processResponses] at h
  obtain ⟨rs', h1, h⟩ := bind_ok_inv h
  simp only [Option.toList, List.map_cons, List.map_nil, List.singleton_append, convertAll] at h1
  obtain ⟨k, hk, h1⟩ := bind_ok_inv h1
  obtain ⟨rest, hrest, h1⟩ := bind_ok_inv h1
  cases h1
  have hnd : ∀ r ∈ rest, r.status ≠ .default := by
    have hf := convertAll_kinds hrest
    have gen : ∀ {l : List (Status × DocResponse)} {rs : List Response},
        Spec.Forall₂ (fun e r => r.status = e.1 ∧ kindOf ws e.2 = .ok r.kind) l rs →
        (∀ e ∈ l, e.1 ≠ .default) → ∀ r ∈ rs, r.status ≠ .default := by
      intro l rs hlr
      induction hlr with
      | nil => simp
      | cons hp _ ih =>
        intro hl r hr
        rcases List.mem_cons.mp hr with rfl | hr
        · rw [hp.1]; exact hl _ (by simp)
        · exact ih (fun e he => hl e (by simp [he])) r hr
    refine gen hf ?_
    intro e he
    obtain ⟨y, _, rfl⟩ := List.mem_map.mp he
    exact toStatus_ne_default _
  simp only [List.any_cons, coversSuccess, Bool.true_or, if_true, Res.pure_eq, Res.ok.injEq] at h
  subst h
  cases ws with
  | true => 
    refine ⟨k, rest ++ [⟨.code 101, .upgrade⟩], by simp, hk, ?_⟩
    intro r hr
    rcases List.mem_append.mp hr with hr | hr
    · exact hnd r hr
    · simp at hr; subst hr; simp
  | false => exact ⟨k, rest, by simp, hk, hnd⟩

end Progenitor.Resp

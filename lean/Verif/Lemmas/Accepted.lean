import Verif.Lemmas.Response
import Verif.Spec.Accepted

/-! # Lemmas on the order of responses -/

namespace Progenitor.Resp

open Progenitor Progenitor.Spec Progenitor.Params

/-- Something greater than the rest stays at the end. -/
theorem sortP_top {α} (l : α → α → Bool) (D : α) (xs : List α) (h : ∀ x ∈ xs, l x D = true) (acc : List α) :
    sortP l (D :: acc) xs = sortP l acc xs ++ [D] := by
  induction xs generalizing acc with
  | nil => simp [sortP]
  | cons x xs ih =>
    have hx := h x (by simp)
    simp only [sortP, insertP, hx, if_true]
    exact ih (fun y hy => h y (by simp [hy])) _

/-- The last one of the greatest comes last. -/
theorem sortP_last (xs : List Response) (acc : List Response) :
    (∀ x ∈ xs, ∀ y ∈ acc.head?, lessV x y = true) ∧ (sortP lessV acc xs).getLast? = acc.head? ∨
    ∃ pre y post, xs = pre ++ y :: post ∧ (∀ z ∈ pre, val z.status ≤ val y.status) ∧ (∀ z ∈ acc.head?, val z.status ≤ val y.status) ∧
      (∀ z ∈ post, val z.status < val y.status) ∧ (sortP lessV acc xs).getLast? = some y := by
  induction xs generalizing acc with
  | nil => left; simp [sortP, List.getLast?_reverse]
  | cons x xs ih =>
    simp only [sortP]
    have hh : (insertP lessV x acc).head? = (match acc.head? with
        | none => some x
        | some y => if lessV x y = true then some y else some x) := by
      cases acc with
      | nil => rfl
      | cons a acc => simp only [insertP, List.head?_cons]; split <;> rfl
    rcases ih (insertP lessV x acc) with ⟨h1, h2⟩ | ⟨pre, y, post, rfl, h1, h2, h3, h4⟩
    · rw [hh] at h1 h2
      cases ha : acc.head? with
      | none =>
        rw [ha] at h1 h2
        right
        refine ⟨[], x, xs, rfl, by simp, by simp, ?_, h2⟩
        intro z hz
        simpa [lessV] using h1 z hz x (by simp)
      | some y =>
        rw [ha] at h1 h2
        dsimp only at h1 h2
        by_cases hl : lessV x y = true
        · rw [if_pos hl] at h1 h2
          left
          refine ⟨?_, h2⟩
          intro z hz w hw
          cases hw
          rcases List.mem_cons.mp hz with rfl | hz
          · exact hl
          · exact h1 z hz y (by simp)
        · rw [if_neg hl] at h1 h2
          right
          refine ⟨[], x, xs, rfl, by simp, ?_, ?_, h2⟩
          · intro w hw; cases hw
            simp [lessV] at hl; exact hl
          · intro z hz
            simpa [lessV] using h1 z hz x (by simp)
    · right
      rw [hh] at h2
      refine ⟨x :: pre, y, post, rfl, ?_, ?_, h3, h4⟩
      · intro z hz
        rcases List.mem_cons.mp hz with rfl | hz
        · cases ha : acc.head? with
          | none => rw [ha] at h2; exact h2 z (by simp)
          | some w =>
            rw [ha] at h2
            dsimp only at h2
            by_cases hl : lessV z w = true
            · rw [if_pos hl] at h2
              have := h2 w (by simp)
              simp [lessV] at hl; omega
            · rw [if_neg hl] at h2; exact h2 z (by simp)
        · exact h1 z hz
      · intro z hz
        cases ha : acc.head? with
        | none => rw [ha] at hz; cases hz
        | some w =>
          rw [ha] at hz h2
          cases hz
          dsimp only at h2
          by_cases hl : lessV x z = true
          · rw [if_pos hl] at h2; exact h2 z (by simp)
          · rw [if_neg hl] at h2
            have := h2 x (by simp)
            simp [lessV] at hl; omega

theorem sortP_last_nil {xs : List Response} (h : xs ≠ []) :
    ∃ pre y post, xs = pre ++ y :: post ∧ (∀ z ∈ pre, val z.status ≤ val y.status) ∧
      (∀ z ∈ post, val z.status < val y.status) ∧ (sortP lessV [] xs).getLast? = some y := by
  rcases sortP_last xs [] with ⟨_, h2⟩ | ⟨pre, y, post, h1, h2, _, h3, h4⟩
  · exfalso
    simp only [List.head?_nil, List.getLast?_eq_none_iff] at h2
    have := (sortP_perm lessV [] xs).length_eq
    rw [h2] at this
    simp at this
    exact h (List.length_eq_zero_iff.mp this.symm)
  · exact ⟨pre, y, post, h1, h2, h3, h4⟩

/-- The default response goes exactly if the range 2XX is in front of it. -/
theorem popDefault_snoc (S : List Response) (k : Kind) :
    popDefault (S ++ [⟨.default, k⟩]) = if (S.getLast?.map Response.status) = some (.range 2) then S else S ++ [⟨.default, k⟩] := by
  unfold popDefault
  rw [List.reverse_append]
  simp only [List.reverse_cons, List.reverse_nil, List.nil_append, List.cons_append]
  rw [← List.head?_reverse]
  cases h : S.reverse with
  | nil => simp
  | cons r R =>
    have hS : S = (r :: R).reverse := by rw [← h, List.reverse_reverse]
    obtain ⟨st, k'⟩ := r
    simp only [List.head?_cons, Option.map_some, Option.some.injEq]
    by_cases hs : st = .range 2
    · subst hs; simp [hS]
    · rw [if_neg hs]
      split
      · rename_i heq
        simp only [List.cons.injEq, Response.mk.injEq] at heq
        exact absurd heq.2.1.1 hs
      · rfl

/-- With a default response nothing is added but the connection of a websocket. -/
theorem processResponses_shape {ws : Bool} {x : DocResponse} {codes : List (DocStatus × DocResponse)} {rs : List Response}
    (h : processResponses ws (some x) codes = .ok rs) :
    ∃ k cs W, rs = ⟨.default, k⟩ :: (cs ++ W) ∧ cs.map Response.status = codes.map (fun e => e.1.toStatus) ∧
      (W = [] ∨ W = [⟨.code 101, .upgrade⟩]) := by
  simp only [processResponses] at h
  obtain ⟨rs', h1, h⟩ := bind_ok_inv h
  have hf := convertAll_kinds h1
  simp only [Option.toList_some, List.map_cons, List.map_nil, List.cons_append, List.nil_append] at h1 hf
  cases hf with
  | cons hpa hrest =>
    rename_i r cs
    obtain ⟨st, k⟩ := r
    simp only at hpa
    obtain ⟨rfl, hk⟩ := hpa
    have hst : cs.map Response.status = codes.map (fun e => e.1.toStatus) := by
      have : ∀ {l : List (Status × DocResponse)} {cs : List Response},
          Spec.Forall₂ (fun e r => r.status = e.1 ∧ kindOf ws e.2 = .ok r.kind) l cs → cs.map Response.status = l.map Prod.fst := by
        intro l cs h
        induction h with
        | nil => rfl
        | cons hpa _ ih => simp only [List.map_cons, hpa.1, ih]
      rw [this hrest, List.map_map]
      rfl
    have hany : ((⟨.default, k⟩ :: cs : List Response).any fun r => coversSuccess r.status) = true := by
      simp [coversSuccess]
    rw [if_pos hany] at h
    cases ws with
    | true => cases h; exact ⟨k, cs, _, rfl, hst, .inr rfl⟩
    | false => cases h; exact ⟨k, cs, [], by simp, hst, .inl rfl⟩

theorem val_success {s : Status} (h : s.isSuccessOrDefault = true) (hd : s ≠ .default) : val s < 1000 := by
  cases s with
  | code c => simp [Status.isSuccessOrDefault] at h; simp only [val]; omega
  | range r => simp [Status.isSuccessOrDefault] at h; simp only [val]; omega
  | default => exact absurd rfl hd

/-- When the default response is dropped from the successes. -/
theorem hidden_iff {codes : List (DocStatus × DocResponse)} {k : Kind} {cs W : List Response}
    (hst : cs.map Response.status = codes.map (fun e => e.1.toStatus)) (hW : W = [] ∨ W = [⟨.code 101, .upgrade⟩]) :
    (⟨.default, k⟩ ∈ popDefault (sorted Status.isSuccessOrDefault (⟨.default, k⟩ :: (cs ++ W)))) ↔ ¬ DefaultHidden codes := by
  have hnd : ∀ r ∈ cs ++ W, r.status ≠ .default := by
    intro r hr e
    rcases List.mem_append.mp hr with hr | hr
    · have : r.status ∈ codes.map (fun e => e.1.toStatus) := hst ▸ List.mem_map_of_mem hr
      obtain ⟨e', _, he'⟩ := List.mem_map.mp this
      rw [e] at he'
      cases h : e'.1 <;> rw [h] at he' <;> cases he'
    · rcases hW with rfl | rfl
      · cases hr
      · simp at hr; subst hr; cases e
  -- the successes without the default
  have hsort : sorted Status.isSuccessOrDefault (⟨.default, k⟩ :: (cs ++ W)) =
      sorted Status.isSuccessOrDefault (cs ++ W) ++ [⟨.default, k⟩] := by
    unfold sorted
    rw [List.filter_cons_of_pos (by rfl)]
    change sortP lessV [⟨.default, k⟩] _ = _
    apply sortP_top
    intro r hr
    obtain ⟨h1, h2⟩ := List.mem_filter.mp hr
    have := val_success h2 (hnd r h1)
    exact decide_eq_true this
  have hD : (⟨.default, k⟩ : Response) ∉ sorted Status.isSuccessOrDefault (cs ++ W) := by
    intro h
    exact hnd _ (mem_sorted.mp h).1 rfl
  rw [hsort, popDefault_snoc]
  have key : (sorted Status.isSuccessOrDefault (cs ++ W)).getLast?.map Response.status = some (.range 2) ↔ DefaultHidden codes := by
    -- the statuses of the successes
    have hT : ((cs ++ W).filter fun r => r.status.isSuccessOrDefault).map Response.status =
        ((codes.map fun e => e.1.toStatus).filter Status.isSuccessOrDefault) ++ W.map Response.status := by
      rw [List.filter_append, List.map_append]
      congr 1
      · rw [← hst, List.filter_map]; rfl
      · rcases hW with rfl | rfl <;> rfl
    constructor
    · intro h
      have hne : ((cs ++ W).filter fun r => r.status.isSuccessOrDefault) ≠ [] := by
        intro e
        unfold sorted at h
        rw [e] at h
        simp [sortP] at h
      obtain ⟨pre, y, post, hx, h1, h2, h3⟩ := sortP_last_nil hne
      unfold sorted at h
      rw [h3] at h
      have hy : y.status = .range 2 := by simpa using h
      rw [hy] at h1 h2
      have hall : ∀ s ∈ (codes.map fun e => e.1.toStatus).filter Status.isSuccessOrDefault, val s ≤ 200 := by
        intro s hs
        have : s ∈ ((cs ++ W).filter fun r => r.status.isSuccessOrDefault).map Response.status := by rw [hT]; simp [hs]
        rw [hx] at this
        obtain ⟨z, hz, rfl⟩ := List.mem_map.mp this
        rcases List.mem_append.mp hz with hz | hz
        · exact h1 z hz
        · rcases List.mem_cons.mp hz with rfl | hz
          · rw [hy]; decide
          · exact Nat.le_of_lt (h2 z hz)
      rw [hx, List.map_append, List.map_cons, hy] at hT
      -- where 2XX is
      have hin : ∃ B, (codes.map fun e => e.1.toStatus).filter Status.isSuccessOrDefault =
          pre.map Response.status ++ Status.range 2 :: B ∧ ∀ s ∈ B, val s < 200 := by
        have hlt : ∀ s ∈ post.map Response.status, val s < 200 := by
          intro s hs
          obtain ⟨z, hz, rfl⟩ := List.mem_map.mp hs
          exact h2 z hz
        rcases List.append_eq_append_iff.mp hT with ⟨M, hM1, hM2⟩ | ⟨M, hM1, hM2⟩
        · cases M with
          | nil =>
            exfalso
            rcases hW with rfl | rfl
            · simp at hM2
            · simp at hM2
          | cons m M =>
            simp only [List.cons_append, List.cons.injEq] at hM2
            obtain ⟨rfl, hM2⟩ := hM2
            refine ⟨M, hM1, fun s hs => hlt s ?_⟩
            rw [hM2]; simp [hs]
        · exfalso
          rcases hW with rfl | rfl
          · simp at hM2
          · have : (Status.range 2) ∈ M ++ Status.range 2 :: post.map Response.status := by simp
            rw [← hM2] at this
            simp at this
      obtain ⟨B, hB, hlt⟩ := hin
      refine ⟨?_, ?_⟩
      · intro e he c hc hcc
        have : e.1.toStatus ∈ (codes.map fun e => e.1.toStatus).filter Status.isSuccessOrDefault := by
          refine List.mem_filter.mpr ⟨List.mem_map_of_mem (f := fun e => e.1.toStatus) he, ?_⟩
          rw [hc]; simp [DocStatus.toStatus, Status.isSuccessOrDefault]; omega
        have := hall _ this
        rw [hc] at this
        simp only [DocStatus.toStatus, val] at this
        omega
      · obtain ⟨l1, l2, hl, _, hl2⟩ := List.filter_eq_append_iff.mp hB
        obtain ⟨m1, m2, hm, _, _, hm2⟩ := List.filter_eq_cons_iff.mp hl2
        rw [hm, ← List.append_assoc] at hl
        obtain ⟨c1, c2, hc, hc1, hc2⟩ := List.map_eq_append_iff.mp hl
        obtain ⟨e, c3, rfl, he, hc3⟩ := List.map_eq_cons_iff.mp hc2
        obtain ⟨es, ex⟩ := e
        have hes : es = .range 2 := by
          cases es with
          | code c => cases he
          | range r => simp only [DocStatus.toStatus, Status.range.injEq] at he; rw [he]
        subst hes
        refine ⟨c1, ex, c3, hc, ?_⟩
        intro e' he' h200
        have : e'.1.toStatus ∈ m2 := hc3 ▸ List.mem_map_of_mem (f := fun e => e.1.toStatus) he'
        have : e'.1.toStatus ∈ B := by
          rw [← hm2]
          exact List.mem_filter.mpr ⟨this, by rw [h200]; rfl⟩
        have := hlt _ this
        rw [h200] at this
        simp [DocStatus.toStatus, val] at this
    · rintro ⟨hno, P, x, Q, hc, hQ⟩
      have hmid : (codes.map fun e => e.1.toStatus).filter Status.isSuccessOrDefault =
          (P.map fun e => e.1.toStatus).filter Status.isSuccessOrDefault ++ Status.range 2 ::
            (Q.map fun e => e.1.toStatus).filter Status.isSuccessOrDefault := by
        rw [hc, List.map_append, List.map_cons, List.filter_append, List.filter_cons_of_pos (by rfl)]
        rfl
      have hne : ((cs ++ W).filter fun r => r.status.isSuccessOrDefault) ≠ [] := by
        intro e
        rw [e, hmid] at hT
        simp at hT
      obtain ⟨pre, y, post, hx, h1, h2, h3⟩ := sortP_last_nil hne
      unfold sorted
      rw [h3]
      simp only [Option.map_some, Option.some.injEq]
      have hysucc : y.status.isSuccessOrDefault = true := by
        have : y ∈ (cs ++ W).filter fun r => r.status.isSuccessOrDefault := by rw [hx]; simp
        exact (List.mem_filter.mp this).2
      rw [hx, hmid, List.map_append, List.map_cons, List.append_assoc, List.cons_append] at hT
      have hge : 200 ≤ val y.status := by
        have : (Status.range 2) ∈ pre.map Response.status ++ y.status :: post.map Response.status := by rw [hT]; simp
        rcases List.mem_append.mp this with h | h
        · obtain ⟨z, hz, hz'⟩ := List.mem_map.mp h
          have := h1 z hz; rw [hz'] at this; simpa [val] using this
        · rcases List.mem_cons.mp h with h | h
          · rw [← h]; decide
          · obtain ⟨z, hz, hz'⟩ := List.mem_map.mp h
            have := h2 z hz; rw [hz'] at this; exact Nat.le_of_lt (by simpa [val] using this)
      have hmem : ∀ s ∈ (codes.map fun e => e.1.toStatus) ++ W.map Response.status, s.isSuccessOrDefault = true →
          s ≠ .default → 200 ≤ val s → s = .range 2 ∨ s = .code 200 := by
        intro s hs hss hsd hv
        cases s with
        | default => exact absurd rfl hsd
        | range r => simp [Status.isSuccessOrDefault] at hss; exact .inl (by rw [hss])
        | code c =>
          right
          simp only [val] at hv
          rcases List.mem_append.mp hs with hs | hs
          · obtain ⟨e, he, hes⟩ := List.mem_map.mp hs
            have hec : e.1 = .code c := by
              cases h : e.1 with
              | code c' => rw [h] at hes; simp only [DocStatus.toStatus, Status.code.injEq] at hes; rw [hes]
              | range r => rw [h] at hes; cases hes
            have := hno e he c hec
            simp [Status.isSuccessOrDefault] at hss
            have : c = 200 := by omega
            rw [this]
          · rcases hW with rfl | rfl
            · simp at hs
            · simp at hs; omega
      rcases List.append_eq_append_iff.mp hT with ⟨M, hM1, hM2⟩ | ⟨M, hM1, hM2⟩
      · cases M with
        | nil =>
          simp only [List.nil_append, List.cons.injEq] at hM2
          exact hM2.1
        | cons m M =>
          simp only [List.cons_append, List.cons.injEq] at hM2
          exfalso
          have : (Status.range 2) ∈ post.map Response.status := by rw [hM2.2]; simp
          obtain ⟨z, hz, hz'⟩ := List.mem_map.mp this
          have hlt := h2 z hz
          rw [hz'] at hlt
          have hmy : y.status ∈ (codes.map fun e => e.1.toStatus) ++ W.map Response.status := by
            have hy2 : y.status ∈ (P.map fun e => e.1.toStatus).filter Status.isSuccessOrDefault := by rw [hM1, ← hM2.1]; simp
            have := (List.mem_filter.mp hy2).1
            rw [hc]; simp only [List.map_append, List.mem_append]; exact .inl (.inl this)
          have hyd : y.status ≠ .default := by
            intro e
            rw [e] at hmy
            rcases List.mem_append.mp hmy with h | h
            · obtain ⟨e', _, he'⟩ := List.mem_map.mp h
              cases h' : e'.1 <;> rw [h'] at he' <;> cases he'
            · rcases hW with rfl | rfl <;> simp at h
          rcases hmem _ hmy hysucc hyd hge with h | h
          · rw [h] at hlt; simp [val] at hlt
          · rw [h] at hlt; simp [val] at hlt
      · cases M with
        | nil =>
          simp only [List.nil_append, List.cons.injEq] at hM2
          exact hM2.1.symm
        | cons m M =>
          simp only [List.cons_append, List.cons.injEq] at hM2
          have hyin : y.status ∈ (Q.map fun e => e.1.toStatus).filter Status.isSuccessOrDefault ++ W.map Response.status := by
            rw [hM2.2]; simp
          rcases List.mem_append.mp hyin with h | h
          · have hq := (List.mem_filter.mp h).1
            have hmy : y.status ∈ (codes.map fun e => e.1.toStatus) ++ W.map Response.status := by
              rw [hc]; simp only [List.map_append, List.map_cons, List.mem_append, List.mem_cons]; exact .inl (.inr (.inr hq))
            obtain ⟨e, he, hes⟩ := List.mem_map.mp hq
            have hyd : y.status ≠ .default := by
              intro e'
              rw [e'] at hes
              cases h' : e.1 <;> rw [h'] at hes <;> cases hes
            rcases hmem _ hmy hysucc hyd hge with h | h
            · exact h
            · exfalso
              rw [h] at hes
              refine hQ e he ?_
              cases h' : e.1 with
              | code c' => rw [h'] at hes; simp only [DocStatus.toStatus, Status.code.injEq] at hes; rw [hes]
              | range r => rw [h'] at hes; cases hes
          · exfalso
            rcases hW with rfl | rfl
            · simp at h
            · simp at h; rw [h] at hge; simp [val] at hge
  by_cases hh : DefaultHidden codes
  · rw [if_pos (key.mpr hh)]
    exact ⟨fun h => absurd h hD, fun h => absurd hh h⟩
  · rw [if_neg (fun h => hh (key.mp h))]
    simp [hh]

end Progenitor.Resp

import Verif.Props.Doc
import Verif.Props.Mock

/-!
# C67: the structs of mock code
-/

namespace Progenitor.Props

open Progenitor Progenitor.Names Progenitor.Spec Progenitor.Mock Progenitor.Doc

variable {u : Unicode}

theorem splitOn_append {p : Char → Bool} {c : Char} (hc : p c = true) (s t : Str) :
    splitOn p (s ++ c :: t) = splitOn p s ++ splitOn p t := by
  induction s with
  | nil => simp [splitOn, hc]
  | cons x s ih =>
    rw [List.cons_append]
    simp only [splitOn]
    split
    · rw [ih]; rfl
    · obtain ⟨v, vs, hv⟩ := List.exists_cons_of_ne_nil (splitOn_ne p s)
      rw [ih, hv]
      rfl

theorem words_append {c : Char} (hc : u.alnum c = false) (s t : Str) : words u (s ++ c :: t) = words u s ++ words u t := by
  unfold words
  rw [splitOn_append (by simp [hc]), List.flatMap_append]

/-- A suffix after `-` or `_` gives the same name. -/
theorem wrapper_suffix (h : Lawful u) (s suf : Str) (hl : 2 ≤ suf.length) :
    sanitize u .pascal (s ++ '-' :: suf) = sanitize u .pascal (s ++ '_' :: suf) := by
  have hu : u.alnum '_' = false := by rw [h.alnum_ascii '_' (by decide)]; decide
  have hm : u.alnum '-' = false := by rw [h.alnum_ascii '-' (by decide)]; decide
  have hn : ∀ (c : Char) (k : Str), k.length = 2 → s ++ c :: suf ≠ k := by
    rintro c k hk rfl
    simp at hk
    omega
  have hcl : ∀ c, c ≠ '\'' → clean u (s ++ c :: suf) = clean u s ++ (if u.xidCont c then c else '-') :: clean u suf := by
    intro c hc
    simp [clean, hc]
  have hca : cased u .pascal (s ++ '-' :: suf) = cased u .pascal (s ++ '_' :: suf) := by
    unfold cased
    rw [if_neg (hn _ _ rfl), if_neg (hn _ _ rfl), if_neg (hn _ _ rfl), if_neg (hn _ _ rfl)]
    show toPascal u _ = toPascal u _
    unfold toPascal
    rw [hcl _ (by decide), hcl _ (by decide), words_append (by split <;> assumption), words_append (by split <;> assumption)]
  unfold sanitize
  rw [hca]

theorem withUnderscores_snoc {ws : List Str} (hne : ws ≠ []) (w : Str) :
    withUnderscores (ws ++ [w]) = withUnderscores ws ++ '_' :: w := by
  induction ws with
  | nil => exact absurd rfl hne
  | cons v ws ih =>
    cases ws with
    | nil => rfl
    | cons v' ws =>
      have := ih (by simp)
      simp only [List.cons_append] at this ⊢
      simp only [withUnderscores, this, List.append_assoc, List.cons_append]

theorem letterName_suffix {s suf : Str} (hs : LetterName s) (hne : suf ≠ []) (hlow : ∀ c ∈ suf, c.isLower = true)
    (hk : ∀ k ∈ reserved, ¬ ('_' :: suf) <:+ k.toList) : LetterName (s ++ '_' :: suf) := by
  obtain ⟨⟨-, hd, -⟩, ws, hws, hl, rfl⟩ := hs
  have hw : ∀ w ∈ ws ++ [suf], LowWord w ∧ ∀ c, w.head? = some c → c.isLower = true := by
    intro w hw
    rcases List.mem_append.mp hw with hw | hw
    · exact hl w hw
    · rw [List.mem_singleton.mp hw]
      exact ⟨⟨hne, fun c hc => .inl (hlow c hc)⟩, fun c hc => hlow c (List.mem_of_mem_head? hc)⟩
  have hsn := (withUnderscores_snoc hws suf).symm
  refine ⟨⟨⟨ws ++ [suf], by simp, fun w h => (hw w h).1, hsn⟩, ?_, fun k hk' he => hk k hk' ⟨_, he⟩⟩, ws ++ [suf], by simp, hw, hsn⟩
  intro c hc
  apply hd c
  cases hq : withUnderscores ws with
  | nil =>
    cases ws with
    | nil => exact absurd rfl hws
    | cons w ws =>
      have := (hl w (by simp)).1.1
      cases ws with
      | nil => exact absurd hq this
      | cons v ws => simp [withUnderscores] at hq
  | cons x xs =>
    rw [hq] at hc
    simpa using hc

theorem when_name (h : Lawful u) (s : Str) : sanitize u .pascal (s ++ "-when".toList) = sanitize u .pascal (s ++ '_' :: "when".toList) :=
  wrapper_suffix h s "when".toList (by decide)

theorem then_name (h : Lawful u) (s : Str) : sanitize u .pascal (s ++ "-then".toList) = sanitize u .pascal (s ++ '_' :: "then".toList) :=
  wrapper_suffix h s "then".toList (by decide)

/-- C67: the wrappers of different operations have different names if ids are in snake case with words that start with letters.
Missing: other ids, for which this can fail. -/
theorem C67_wrappers_partial (h : Lawful u) {ids : List Str} (hn : ids.Nodup) (hl : ∀ id ∈ ids, LetterName id) :
    (wrapperNames u ids).Nodup := by
  have hwhen : ∀ {s}, LetterName s → LetterName (s ++ '_' :: "when".toList) := fun hs =>
    letterName_suffix hs (by decide) (by decide) (by decide)
  have hthen : ∀ {s}, LetterName s → LetterName (s ++ '_' :: "then".toList) := fun hs =>
    letterName_suffix hs (by decide) (by decide) (by decide)
  have hne : ∀ {s t : Str}, s ++ '_' :: "when".toList ≠ t ++ '_' :: "then".toList := by
    intro s t he
    have := congrArg (fun l => l.reverse.take 4) he
    simp at this
  induction ids with
  | nil => exact .nil
  | cons id ids ih =>
    rw [List.nodup_cons] at hn
    have h0 := hl id (by simp)
    have ih := ih hn.2 fun i hi => hl i (by simp [hi])
    have hx : ∀ x ∈ wrapperNames u ids, ∃ i ∈ ids, x = sanitize u .pascal (i ++ '_' :: "when".toList) ∨
        x = sanitize u .pascal (i ++ '_' :: "then".toList) := by
      intro x hx
      obtain ⟨i, hi, hx⟩ := List.mem_flatMap.mp hx
      refine ⟨i, hi, ?_⟩
      rw [List.mem_cons, List.mem_singleton, when_name h, then_name h] at hx
      exact hx
    show (sanitize u .pascal (id ++ "-when".toList) :: sanitize u .pascal (id ++ "-then".toList) :: wrapperNames u ids).Nodup
    rw [when_name h, then_name h, List.nodup_cons, List.nodup_cons, List.mem_cons, not_or]
    refine ⟨⟨fun he => hne (pascal_inj h (hwhen h0) (hthen h0) he), fun hm => ?_⟩, fun hm => ?_, ih⟩
    · obtain ⟨i, hi, he | he⟩ := hx _ hm
      · exact hn.1 (List.append_cancel_right (pascal_inj h (hwhen h0) (hwhen (hl i (by simp [hi]))) he) ▸ hi)
      · exact hne (pascal_inj h (hwhen h0) (hthen (hl i (by simp [hi]))) he)
    · obtain ⟨i, hi, he | he⟩ := hx _ hm
      · exact hne (pascal_inj h (hwhen (hl i (by simp [hi]))) (hthen h0) he.symm)
      · exact hn.1 (List.append_cancel_right (pascal_inj h (hthen h0) (hthen (hl i (by simp [hi]))) he) ▸ hi)

example : ∀ id ∈ ["get_item".toList, "put_item".toList], LetterName id := by
  intro id hid
  simp only [List.mem_cons, List.not_mem_nil, or_false] at hid
  rcases hid with rfl | rfl
  · exact letterName_of ["get".toList, "item".toList] (by simp) (by decide) (by decide)
  · exact letterName_of ["put".toList, "item".toList] (by simp) (by decide) (by decide)

/-- C67 fails as stated: `a1` and `a_1` have different methods, and the same wrappers. -/
theorem C67_wrappers_fails (h : Lawful u) (types : Types) :
    ∃ (d : Document) (ms : List Processed), ValidDoc u d ∧ rawMethods u types d = .ok ms ∧
      (ms.map fun p => p.op.operationId).Nodup ∧ ¬ (wrapperNames u (ms.map fun p => p.op.operationId)).Nodup := by
  have e1 : sanitize u .snake "a_1".toList = "a_1".toList := by
    rw [sanitize_agree h exUnicode_lawful _ (by unfold Ascii; decide)]; rfl
  have e2 : sanitize u .snake "a1".toList = "a1".toList := by
    rw [sanitize_agree h exUnicode_lawful _ (by unfold Ascii; decide)]; rfl
  have p1 : sanitize u .pascal ("a_1".toList ++ "-when".toList) = "A1When".toList := by
    rw [sanitize_agree h exUnicode_lawful _ (by unfold Ascii; decide)]; rfl
  have p2 : sanitize u .pascal ("a1".toList ++ "-when".toList) = "A1When".toList := by
    rw [sanitize_agree h exUnicode_lawful _ (by unfold Ascii; decide)]; rfl
  have hr := plain_methods h (types := types) (ops := [("a_1", []), ("a1", [])]) (by decide) rfl
  refine ⟨_, _, plain_valid h (by decide), hr, ?_, ?_⟩
  · show [sanitize u .snake "a_1".toList, sanitize u .snake "a1".toList].Nodup
    rw [e1, e2]
    decide
  · show ¬ (wrapperNames u [sanitize u .snake "a_1".toList, sanitize u .snake "a1".toList]).Nodup
    rw [e1, e2]
    simp only [wrapperNames, List.flatMap_cons, List.flatMap_nil, p1, p2]
    simp

end Progenitor.Props

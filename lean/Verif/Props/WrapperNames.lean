import Verif.Props.MockNames
import Verif.Spec.MockDoc

/-!
# C87: names of wrappers
-/

namespace Progenitor.Props

open Progenitor Progenitor.Names Progenitor.Spec Progenitor.Mock Progenitor.Doc

variable {u : Unicode}

/-- The part of the name of a wrapper that is for the operation. -/
def wrapperStem (u : Unicode) (s : Str) : Str := toPascal u (clean u s)

theorem clean_append (s t : Str) : clean u (s ++ t) = clean u s ++ clean u t := by
  simp [clean]

theorem cased_suffix (h : Lawful u) (s suf cap : Str) (hl : 2 ≤ suf.length) (ha : Ascii suf)
    (hw : toPascal exUnicode (clean exUnicode suf) = cap) : cased u .pascal (s ++ '-' :: suf) = wrapperStem u s ++ cap := by
  have hn : ∀ k : Str, k.length = 2 → s ++ '-' :: suf ≠ k := by
    rintro k hk rfl
    simp at hk
    omega
  unfold cased
  rw [if_neg (hn _ rfl), if_neg (hn _ rfl)]
  have hd : u.xidCont '-' = false := by rw [h.cont_ascii '-' (by decide)]; decide
  have hcl : clean u (s ++ '-' :: suf) = clean u s ++ '-' :: clean u suf := by
    rw [clean_append]
    simp [clean, hd]
  show toPascal u _ = _
  rw [hcl]
  unfold wrapperStem
  have ht : toPascal u (clean u suf) = cap := by
    rw [← hw, clean_agree (agree h exUnicode_lawful) ha]
    exact toCase_agree (agree h exUnicode_lawful) .pascal (clean_ascii ha)
  rw [← ht]
  unfold toPascal
  rw [words_append (dash_alnum h), List.flatMap_append]

theorem wrapper_shape (h : Lawful u) (s suf cap : Str) (hl : 2 ≤ suf.length) (ha : Ascii suf)
    (hw : toPascal exUnicode (clean exUnicode suf) = cap) (hk : ∀ k ∈ keywords, ¬ cap <:+ k) :
    sanitize u .pascal (s ++ '-' :: suf) = started u .pascal (wrapperStem u s ++ cap) := by
  have hc := cased_suffix h s suf cap hl ha hw
  have hi := started_ident h .pascal _ (cased_cont h .pascal (s ++ '-' :: suf))
  unfold sanitize finished
  rw [hc] at hi ⊢
  rw [if_pos]
  unfold parsesIdent
  rw [hi, Bool.true_and, Bool.not_eq_true', List.contains_eq_mem, decide_eq_false_iff_not]
  intro hm
  refine hk _ hm ?_
  have hx : ∀ c cs, started u .pascal (c :: cs) = c :: cs ∨ started u .pascal (c :: cs) = '_' :: c :: cs := by
    intro c cs
    simp only [started]
    split
    · exact .inl rfl
    · exact .inr rfl
  cases hs : wrapperStem u s ++ cap with
  | nil =>
    have : cap = [] := (List.append_eq_nil_iff.mp hs).2
    rw [this]
    exact List.nil_suffix
  | cons c cs =>
    rcases hx c cs with e | e
    · rw [e, ← hs]; exact List.suffix_append _ _
    · rw [e, ← hs]; exact (List.suffix_append _ _).trans (List.suffix_cons _ _)

theorem when_shape (h : Lawful u) (s : Str) :
    sanitize u .pascal (s ++ "-when".toList) = started u .pascal (wrapperStem u s ++ "When".toList) :=
  wrapper_shape h s "when".toList "When".toList (by decide) (by unfold Ascii; decide) (by decide) (by decide)

theorem then_shape (h : Lawful u) (s : Str) :
    sanitize u .pascal (s ++ "-then".toList) = started u .pascal (wrapperStem u s ++ "Then".toList) :=
  wrapper_shape h s "then".toList "Then".toList (by decide) (by unfold Ascii; decide) (by decide) (by decide)

theorem started_inj (h : Lawful u) {s t : Str} (hs : s ≠ []) (ht : t ≠ []) (he : started u .pascal s = started u .pascal t) : s = t := by
  have hu : u.xidStart '_' = false := by rw [h.start_ascii '_' (by decide)]; decide
  cases s with
  | nil => exact absurd rfl hs
  | cons c cs =>
    cases t with
    | nil => exact absurd rfl ht
    | cons d ds =>
      simp only [started] at he
      split at he <;> split at he
      · exact he
      · rename_i h1 _
        rw [List.cons.injEq] at he
        rw [he.1, hu] at h1
        cases h1
      · rename_i _ h1
        rw [List.cons.injEq] at he
        rw [← he.1, hu] at h1
        cases h1
      · rw [List.cons.injEq] at he
        exact he.2

theorem stem_ne (u : Unicode) (s : Str) (k : String) (hk : k.toList ≠ []) : wrapperStem u s ++ k.toList ≠ [] := by
  simp [hk]

theorem when_eq_iff (h : Lawful u) (s t : Str) :
    sanitize u .pascal (s ++ "-when".toList) = sanitize u .pascal (t ++ "-when".toList) ↔ wrapperStem u s = wrapperStem u t := by
  rw [when_shape h, when_shape h]
  constructor
  · intro e
    exact List.append_cancel_right (started_inj h (stem_ne u s "When" (by decide)) (stem_ne u t "When" (by decide)) e)
  · intro e; rw [e]

theorem then_eq_iff (h : Lawful u) (s t : Str) :
    sanitize u .pascal (s ++ "-then".toList) = sanitize u .pascal (t ++ "-then".toList) ↔ wrapperStem u s = wrapperStem u t := by
  rw [then_shape h, then_shape h]
  constructor
  · intro e
    exact List.append_cancel_right (started_inj h (stem_ne u s "Then" (by decide)) (stem_ne u t "Then" (by decide)) e)
  · intro e; rw [e]

theorem when_ne_then (h : Lawful u) (s t : Str) :
    sanitize u .pascal (s ++ "-when".toList) ≠ sanitize u .pascal (t ++ "-then".toList) := by
  rw [when_shape h, then_shape h]
  intro e
  have := started_inj h (stem_ne u s "When" (by decide)) (stem_ne u t "Then" (by decide)) e
  have := congrArg (fun l => l.reverse.take 4) this
  simp at this

theorem nodup_map_iff {α β : Type} {f : α → β} {l : List α} (hl : l.Nodup) : (l.map f).Nodup ↔ ∀ a ∈ l, ∀ b ∈ l, f a = f b → a = b :=
  ⟨nodup_map_inj, nodup_map_of_inj hl⟩

theorem stems_iff (h : Lawful u) (l : List Str) : (wrapperNames u l).Nodup ↔ (l.map (wrapperStem u)).Nodup := by
  induction l with
  | nil => simp [wrapperNames]
  | cons s l ih =>
    have hcons : wrapperNames u (s :: l) =
        sanitize u .pascal (s ++ "-when".toList) :: sanitize u .pascal (s ++ "-then".toList) :: wrapperNames u l := rfl
    have hmem : ∀ x, x ∈ wrapperNames u l ↔ ∃ t ∈ l, x = sanitize u .pascal (t ++ "-when".toList) ∨
        x = sanitize u .pascal (t ++ "-then".toList) := by
      intro x
      unfold wrapperNames
      rw [List.mem_flatMap]
      simp
    rw [hcons, List.nodup_cons, List.nodup_cons, ih, List.map_cons, List.nodup_cons, List.mem_cons, not_or, hmem, hmem]
    constructor
    · rintro ⟨⟨_, h1⟩, h2, h3⟩
      refine ⟨fun hm => ?_, h3⟩
      obtain ⟨t, ht, e⟩ := List.mem_map.mp hm
      exact h1 ⟨t, ht, .inl ((when_eq_iff h s t).mpr e.symm)⟩
    · rintro ⟨h1, h3⟩
      refine ⟨⟨when_ne_then h s s, ?_⟩, ?_, h3⟩
      · rintro ⟨t, ht, e | e⟩
        · exact h1 (List.mem_map.mpr ⟨t, ht, ((when_eq_iff h s t).mp e).symm⟩)
        · exact when_ne_then h s t e
      · rintro ⟨t, ht, e | e⟩
        · exact when_ne_then h t s e.symm
        · exact h1 (List.mem_map.mpr ⟨t, ht, ((then_eq_iff h s t).mp e).symm⟩)

/-- The names of wrappers and the names of methods are distinct exactly if the names of the `When` wrappers are. -/
theorem wrappers_iff (h : Lawful u) (l : List Str) :
    (wrapperNames u l).Nodup ∧ l.Nodup ↔ (l.map fun s => sanitize u .pascal (s ++ "-when".toList)).Nodup := by
  have hnd : ∀ {f : Str → Str}, (l.map f).Nodup → l.Nodup := by
    intro f hf
    induction l with
    | nil => simp
    | cons a l ih =>
      rw [List.map_cons, List.nodup_cons] at hf
      exact List.nodup_cons.mpr ⟨fun hm => hf.1 (List.mem_map_of_mem hm), ih hf.2⟩
  rw [stems_iff h]
  constructor
  · rintro ⟨h1, h2⟩
    refine (nodup_map_iff h2).mpr fun a ha b hb e => ?_
    exact (nodup_map_iff h2).mp h1 a ha b hb ((when_eq_iff h a b).mp e)
  · intro h1
    have h2 := hnd h1
    exact ⟨(nodup_map_iff h2).mpr fun a ha b hb e => (nodup_map_iff h2).mp h1 a ha b hb ((when_eq_iff h a b).mpr e), h2⟩

end Progenitor.Props

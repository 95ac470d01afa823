import Verif.Props.Names

/-!
# On ASCII texts all lawful tables give the same names
-/

namespace Progenitor.Props

open Progenitor Progenitor.Names Progenitor.Spec

variable {u v : Unicode}

/-- The tables agree on ASCII. -/
structure Agree (u v : Unicode) : Prop where
  alnum : ∀ c : Char, c.toNat < 128 → u.alnum c = v.alnum c
  lower : ∀ c : Char, c.toNat < 128 → u.lower c = v.lower c
  upper : ∀ c : Char, c.toNat < 128 → u.upper c = v.upper c
  toLower : ∀ c : Char, c.toNat < 128 → u.toLower c = v.toLower c
  toUpper : ∀ c : Char, c.toNat < 128 → u.toUpper c = v.toUpper c
  start : ∀ c : Char, c.toNat < 128 → u.xidStart c = v.xidStart c
  cont : ∀ c : Char, c.toNat < 128 → u.xidCont c = v.xidCont c

theorem agree (hu : Lawful u) (hv : Lawful v) : Agree u v where
  alnum c h := by rw [hu.alnum_ascii c h, hv.alnum_ascii c h]
  lower c h := by rw [hu.lower_ascii c h, hv.lower_ascii c h]
  upper c h := by rw [hu.upper_ascii c h, hv.upper_ascii c h]
  toLower c h := by rw [hu.toLower_ascii c h, hv.toLower_ascii c h]
  toUpper c h := by rw [hu.toUpper_ascii c h, hv.toUpper_ascii c h]
  start c h := by rw [hu.start_ascii c h, hv.start_ascii c h]
  cont c h := by rw [hu.cont_ascii c h, hv.cont_ascii c h]

theorem clean_agree (h : Agree u v) {s : Str} (hs : Ascii s) : clean u s = clean v s := by
  unfold clean
  refine List.map_congr_left fun c hc => ?_
  rw [h.cont c (hs c (List.mem_filter.mp hc).1)]

theorem clean_ascii {s : Str} (hs : Ascii s) : Ascii (clean u s) := by
  intro c hc
  rcases clean_spec c hc with rfl | ⟨hc, -⟩
  · decide
  · exact hs c hc

theorem splitOn_congr {p q : Char → Bool} {s : Str} (h : ∀ c ∈ s, p c = q c) : splitOn p s = splitOn q s := by
  induction s with
  | nil => rfl
  | cons c s ih =>
    unfold splitOn
    rw [h c (by simp), ih fun d hd => h d (by simp [hd])]

theorem splitWord_agree (h : Agree u v) {s cur : Str} {mode : Mode} (hs : Ascii s) :
    splitWord u cur mode s = splitWord v cur mode s := by
  induction s generalizing cur mode with
  | nil => rfl
  | cons c s ih =>
    have hc := hs c (by simp)
    have ih := fun cur mode => ih (cur := cur) (mode := mode) fun d hd => hs d (by simp [hd])
    cases s with
    | nil => rfl
    | cons d s =>
      have hd := hs d (by simp)
      have hn : nextMode u mode c = nextMode v mode c := by
        unfold nextMode
        rw [h.lower c hc, h.upper c hc]
      simp only [splitWord, hn, h.upper c hc, h.upper d hd, h.lower d hd, ih]

theorem words_agree (h : Agree u v) {s : Str} (hs : Ascii s) : words u s = words v s := by
  unfold words
  rw [splitOn_congr (q := fun c => !v.alnum c) fun c hc => by rw [h.alnum c (hs c hc)]]
  have : ∀ w ∈ splitOn (fun c => !v.alnum c) s, splitWord u [] .boundary w = splitWord v [] .boundary w :=
    fun w hw => splitWord_agree h fun c hc => hs c (splitOn_chars hw c hc).1
  generalize splitOn (fun c => !v.alnum c) s = ws at this
  induction ws with
  | nil => rfl
  | cons w ws ih =>
    rw [List.flatMap_cons, List.flatMap_cons, this w (by simp), ih fun x hx => this x (by simp [hx])]

theorem words_ascii {s w : Str} (hs : Ascii s) (hw : w ∈ words u s) : Ascii w :=
  fun c hc => hs c ((words_spec hw).2 c hc).1

theorem lowercase_agree (h : Agree u v) {s : Str} (hs : Ascii s) : lowercase u s = lowercase v s := by
  induction s with
  | nil => rfl
  | cons c s ih =>
    have ih := ih fun d hd => hs d (by simp [hd])
    cases s with
    | nil => simp only [lowercase, h.toLower c (hs c (by simp))]
    | cons d s => simp only [lowercase] at ih ⊢; rw [h.toLower c (hs c (by simp)), ih]

theorem capitalize_agree (h : Agree u v) {s : Str} (hs : Ascii s) : capitalize u s = capitalize v s := by
  cases s with
  | nil => rfl
  | cons c s =>
    simp only [capitalize]
    rw [h.toUpper c (hs c (by simp)), lowercase_agree h fun d hd => hs d (by simp [hd])]

theorem toCase_agree (h : Agree u v) (case : Case) {s : Str} (hs : Ascii s) : toCase u case s = toCase v case s := by
  cases case
  · show toPascal u s = toPascal v s
    unfold toPascal
    rw [words_agree h hs]
    have : ∀ w ∈ words v s, capitalize u w = capitalize v w := fun w hw => capitalize_agree h (words_ascii hs hw)
    generalize words v s = ws at this
    induction ws with
    | nil => rfl
    | cons w ws ih =>
      rw [List.flatMap_cons, List.flatMap_cons, this w (by simp), ih fun x hx => this x (by simp [hx])]
  · show toSnake u s = toSnake v s
    unfold toSnake
    rw [words_agree h hs]
    congr 1
    exact List.map_congr_left fun w hw => lowercase_agree h (words_ascii hs hw)

theorem toLower_ascii_aux : ∀ n : Fin 128, (Char.ofNat n).toLower.toNat < 128 := by decide +kernel
theorem toUpper_ascii_aux : ∀ n : Fin 128, (Char.ofNat n).toUpper.toNat < 128 := by decide +kernel

theorem lowercase_ascii (h : Lawful u) {s : Str} (hs : Ascii s) : Ascii (lowercase u s) := by
  intro d hd
  rcases lowercase_chars d hd with ⟨-, hc⟩ | ⟨c, hc, hd⟩
  · exact absurd (hs _ hc) (by decide)
  · rw [h.toLower_ascii c (hs c hc), List.mem_singleton] at hd
    subst hd
    have := toLower_ascii_aux ⟨c.toNat, hs c hc⟩
    simpa only [Char.ofNat_toNat] using this

theorem capitalize_ascii (h : Lawful u) {s : Str} (hs : Ascii s) : Ascii (capitalize u s) := by
  cases s with
  | nil => intro d hd; cases hd
  | cons c s =>
    intro d hd
    simp only [capitalize, List.mem_append] at hd
    rcases hd with hd | hd
    · rw [h.toUpper_ascii c (hs c (by simp)), List.mem_singleton] at hd
      subst hd
      have := toUpper_ascii_aux ⟨c.toNat, hs c (by simp)⟩
      simpa only [Char.ofNat_toNat] using this
    · exact lowercase_ascii h (fun d hd => hs d (by simp [hd])) d hd

theorem toCase_ascii (h : Lawful u) (case : Case) {s : Str} (hs : Ascii s) : Ascii (toCase u case s) := by
  cases case
  · intro d hd
    obtain ⟨w, hw, hd⟩ := List.mem_flatMap.mp (show d ∈ (words u s).flatMap (capitalize u) from hd)
    exact capitalize_ascii h (words_ascii hs hw) d hd
  · intro d hd
    rcases joinWords_chars d (show d ∈ joinWords ((words u s).map (lowercase u)) from hd) with rfl | ⟨w, hw, hd⟩
    · decide
    · obtain ⟨x, hx, rfl⟩ := List.mem_map.mp hw
      exact lowercase_ascii h (words_ascii hs hx) d hd

theorem cased_ascii (h : Lawful u) (case : Case) {s : Str} (hs : Ascii s) : Ascii (cased u case s) := by
  unfold cased
  split
  · unfold Ascii; decide
  · split
    · unfold Ascii; decide
    · exact toCase_ascii h case (clean_ascii hs)

theorem cased_agree (h : Agree u v) (case : Case) {s : Str} (hs : Ascii s) : cased u case s = cased v case s := by
  unfold cased
  rw [clean_agree h hs, toCase_agree h case (clean_ascii hs)]

theorem started_agree (h : Agree u v) (case : Case) {s : Str} (hs : Ascii s) : started u case s = started v case s := by
  cases s with
  | nil => exact toCase_agree h case (by unfold Ascii; decide)
  | cons c s => simp only [started, h.start c (hs c (by simp))]

theorem started_ascii (h : Lawful u) (case : Case) {s : Str} (hs : Ascii s) : Ascii (started u case s) := by
  cases s with
  | nil => exact toCase_ascii h case (by unfold Ascii; decide)
  | cons c s =>
    simp only [started]
    split
    · exact hs
    · intro d hd
      rcases List.mem_cons.mp hd with rfl | hd
      · decide
      · exact hs d hd

theorem finished_agree (h : Agree u v) {s : Str} (hs : Ascii s) : finished u s = finished v s := by
  have aux : ∀ t : Str, Ascii t → t.all u.xidCont = t.all v.xidCont := by
    intro t ht
    induction t with
    | nil => rfl
    | cons c t ih => simp only [List.all_cons, h.cont c (ht c (by simp)), ih fun d hd => ht d (by simp [hd])]
  have : parsesIdent u s = parsesIdent v s := by
    unfold parsesIdent
    congr 1
    cases s with
    | nil => rfl
    | cons c s =>
      simp only [identText, h.start c (hs c (by simp)), aux s fun d hd => hs d (by simp [hd])]
  unfold finished
  rw [this]

/-- Names of ASCII texts can be computed with any lawful tables. -/
theorem sanitize_agree (hu : Lawful u) (hv : Lawful v) (case : Case) {s : Str} (hs : Ascii s) :
    sanitize u case s = sanitize v case s := by
  have h := agree hu hv
  unfold sanitize
  rw [cased_agree h case hs, started_agree h case (cased_ascii hv case hs),
    finished_agree h (started_ascii hv case (cased_ascii hv case hs))]

end Progenitor.Props

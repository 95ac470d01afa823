import Verif.Spec.Names

/-!
# Names: C41, C42
-/

namespace Progenitor.Props

open Progenitor Progenitor.Names
open Progenitor.Spec (Lawful reserved ValidIdent Ascii Settled)

variable {u : Unicode}

/-! ## Characters of words -/

theorem splitOn_ne (p : Char → Bool) (s : Str) : splitOn p s ≠ [] := by
  cases s with
  | nil => simp [splitOn]
  | cons c cs =>
    simp only [splitOn]
    split
    · simp
    · split <;> simp

theorem splitOn_cons_neg {p : Char → Bool} {c : Char} {cs w : Str} {ws : List Str} (hc : p c = false)
    (h : splitOn p cs = w :: ws) : splitOn p (c :: cs) = (c :: w) :: ws := by
  simp [splitOn, hc, h]

theorem splitOn_chars {p : Char → Bool} {s w : Str} (hw : w ∈ splitOn p s) : ∀ c ∈ w, c ∈ s ∧ p c = false := by
  induction s generalizing w with
  | nil => simp [splitOn] at hw; subst hw; simp
  | cons a s ih =>
    intro c hc
    cases hp : p a with
    | true =>
      simp only [splitOn, hp, if_true, List.mem_cons] at hw
      rcases hw with rfl | hw
      · cases hc
      · exact ⟨List.mem_cons_of_mem _ (ih hw c hc).1, (ih hw c hc).2⟩
    | false =>
      obtain ⟨v, vs, hv⟩ := List.exists_cons_of_ne_nil (splitOn_ne p s)
      rw [splitOn_cons_neg hp hv] at hw
      rcases List.mem_cons.mp hw with rfl | hw
      · rcases List.mem_cons.mp hc with rfl | hc
        · exact ⟨by simp, hp⟩
        · have := ih (w := v) (by rw [hv]; simp) c hc
          exact ⟨List.mem_cons_of_mem _ this.1, this.2⟩
      · have := ih (w := w) (by rw [hv]; simp [hw]) c hc
        exact ⟨List.mem_cons_of_mem _ this.1, this.2⟩

theorem splitWord_chars {s cur w : Str} {mode : Mode} (hw : w ∈ splitWord u cur mode s) : ∀ c ∈ w, c ∈ cur ∨ c ∈ s := by
  induction s generalizing cur mode w with
  | nil => simp [splitWord] at hw
  | cons a s ih =>
    intro c hc
    cases s with
    | nil =>
      simp only [splitWord, List.mem_singleton] at hw
      subst hw
      simpa using hc
    | cons b s =>
      simp only [splitWord] at hw
      split at hw
      · rcases List.mem_cons.mp hw with rfl | hw
        · simp at hc ⊢; grind
        · have := ih hw c hc
          simp at this ⊢; grind
      · split at hw
        · rcases List.mem_cons.mp hw with rfl | hw
          · exact .inl hc
          · have := ih hw c hc
            simp at this ⊢; grind
        · have := ih hw c hc
          simp at this ⊢; grind

theorem splitWord_ne {s cur w : Str} {mode : Mode} (hm : mode = .uppercase → cur ≠ [])
    (hw : w ∈ splitWord u cur mode s) : w ≠ [] := by
  induction s generalizing cur mode w with
  | nil => simp [splitWord] at hw
  | cons a s ih =>
    cases s with
    | nil =>
      simp only [splitWord, List.mem_singleton] at hw
      subst hw
      simp
    | cons b s =>
      simp only [splitWord] at hw
      split at hw
      · rcases List.mem_cons.mp hw with rfl | hw
        · simp
        · exact ih (by intro h; cases h) hw
      · split at hw
        · rename_i h
          rcases List.mem_cons.mp hw with rfl | hw
          · exact hm h.1
          · exact ih (by intro h; cases h) hw
        · exact ih (by intro _; simp) hw

theorem words_spec {s w : Str} (hw : w ∈ words u s) : w ≠ [] ∧ ∀ c ∈ w, c ∈ s ∧ u.alnum c = true := by
  obtain ⟨p, hp, hw⟩ := List.mem_flatMap.mp hw
  refine ⟨splitWord_ne (by intro h; cases h) hw, fun c hc => ?_⟩
  rcases splitWord_chars hw c hc with h | h
  · cases h
  · have := splitOn_chars hp c h
    exact ⟨this.1, by simpa using this.2⟩

theorem lowercase_chars {s : Str} : ∀ d ∈ lowercase u s, d = 'ς' ∧ 'Σ' ∈ s ∨ ∃ c ∈ s, d ∈ u.toLower c := by
  induction s with
  | nil => simp [lowercase]
  | cons c cs ih =>
    intro d hd
    cases cs with
    | nil =>
      simp only [lowercase] at hd
      split at hd
      · rename_i h; subst h; simp at hd; exact .inl ⟨hd, by simp⟩
      · exact .inr ⟨c, by simp, hd⟩
    | cons c' cs =>
      simp only [lowercase, List.mem_append] at hd
      rcases hd with hd | hd
      · exact .inr ⟨c, by simp, hd⟩
      · rcases ih d hd with ⟨h1, h2⟩ | ⟨c1, h1, h2⟩
        · exact .inl ⟨h1, by simp [h2]⟩
        · exact .inr ⟨c1, by simp [h1], h2⟩

theorem joinWords_chars {ws : List Str} : ∀ d ∈ joinWords ws, d = '_' ∨ ∃ w ∈ ws, d ∈ w := by
  induction ws with
  | nil => simp [joinWords]
  | cons w ws ih =>
    intro d hd
    cases ws with
    | nil => exact .inr ⟨w, by simp, hd⟩
    | cons w' ws =>
      simp only [joinWords, List.mem_append, List.mem_cons] at hd
      rcases hd with hd | hd | hd
      · exact .inr ⟨w, by simp, hd⟩
      · exact .inl hd
      · rcases ih d hd with h | ⟨v, h1, h2⟩
        · exact .inl h
        · exact .inr ⟨v, by simp [h1], h2⟩

/-! ## C41 -/

theorem underscore_cont (h : Lawful u) : u.xidCont '_' = true := by
  rw [h.cont_ascii '_' (by decide)]; decide

theorem clean_spec {s : Str} : ∀ c ∈ clean u s, c = '-' ∨ (c ∈ s ∧ u.xidCont c = true) := by
  intro c hc
  obtain ⟨d, hd, rfl⟩ := List.mem_map.mp hc
  split
  · rename_i h
    exact .inr ⟨(List.mem_filter.mp hd).1, h⟩
  · exact .inl rfl

theorem dash_alnum (h : Lawful u) : u.alnum '-' = false := by
  rw [h.alnum_ascii '-' (by decide)]; decide

theorem word_cont (h : Lawful u) {s w : Str} (hw : w ∈ words u (clean u s)) :
    ∀ c ∈ w, c ∈ s ∧ u.alnum c = true ∧ u.xidCont c = true := by
  intro c hc
  obtain ⟨h1, h2⟩ := (words_spec hw).2 c hc
  rcases clean_spec c h1 with rfl | h3
  · rw [dash_alnum h] at h2; cases h2
  · exact ⟨h3.1, h2, h3.2⟩

theorem lowercase_cont (h : Lawful u) {w : Str} (hw : ∀ c ∈ w, u.xidCont c = true) :
    ∀ d ∈ lowercase u w, u.xidCont d = true := by
  intro d hd
  rcases lowercase_chars d hd with ⟨rfl, _⟩ | ⟨c, hc, hd⟩
  · exact h.sigma_cont
  · exact h.toLower_cont c (hw c hc) d hd

theorem ascii_cont (h : Lawful u) {s : Str} (hs : ∀ c ∈ s, c.toNat < 128 ∧ (c.isAlphanum || c = '_') = true) :
    ∀ c ∈ s, u.xidCont c = true := by
  intro c hc
  rw [h.cont_ascii c (hs c hc).1]
  exact (hs c hc).2

theorem cased_cont (h : Lawful u) (case : Case) (s : Str) : ∀ d ∈ cased u case s, u.xidCont d = true := by
  unfold cased
  split
  · exact ascii_cont h (by decide)
  · split
    · exact ascii_cont h (by decide)
    · intro d hd
      cases case with
      | snake =>
        rcases joinWords_chars d hd with rfl | ⟨w, hw, hd⟩
        · exact underscore_cont h
        · obtain ⟨v, hv, rfl⟩ := List.mem_map.mp hw
          exact lowercase_cont h (fun c hc => (word_cont h hv c hc).2.2) d hd
      | pascal =>
        obtain ⟨w, hw, hd⟩ := List.mem_flatMap.mp hd
        cases w with
        | nil => simp [capitalize] at hd
        | cons c cs =>
          simp only [capitalize, List.mem_append] at hd
          rcases hd with hd | hd
          · exact h.toUpper_cont c (word_cont h hw c (by simp)).2.2 d hd
          · exact lowercase_cont h (fun c hc => (word_cont h hw c (by simp [hc])).2.2) d hd

theorem words_x (h : Lawful u) : words u ['x'] = [['x']] := by
  have : u.alnum 'x' = true := by rw [h.alnum_ascii 'x' (by decide)]; decide
  simp [words, splitOn, this, splitWord]

theorem toCase_x (h : Lawful u) (case : Case) : toCase u case ['x'] = match case with | .pascal => ['X'] | .snake => ['x'] := by
  cases case with
  | snake =>
    simp only [toCase, toSnake, words_x h, List.map_cons, List.map_nil, joinWords, lowercase]
    rw [if_neg (by decide), h.toLower_ascii 'x' (by decide)]
    rfl
  | pascal =>
    simp only [toCase, toPascal, words_x h, List.flatMap_cons, List.flatMap_nil, capitalize, lowercase, List.append_nil]
    rw [h.toUpper_ascii 'x' (by decide)]
    rfl

theorem started_ident (h : Lawful u) (case : Case) (s : Str) (hs : ∀ d ∈ s, u.xidCont d = true) :
    identText u (started u case s) = true := by
  cases s with
  | nil =>
    unfold started
    rw [toCase_x h]
    cases case with
    | pascal =>
      have : u.xidStart 'X' = true := by rw [h.start_ascii 'X' (by decide)]; decide
      simp [identText, this]
    | snake =>
      have : u.xidStart 'x' = true := by rw [h.start_ascii 'x' (by decide)]; decide
      simp [identText, this]
  | cons c cs =>
    simp only [started]
    cases hc : u.xidStart c with
    | true =>
      simp only [if_true, identText, hc, Bool.or_true, Bool.true_and, List.all_eq_true]
      exact fun d hd => hs d (by simp [hd])
    | false =>
      simp only [Bool.false_eq_true, if_false, identText, decide_true, Bool.true_or, Bool.true_and, List.all_eq_true]
      exact fun d hd => hs d hd

theorem reserved_keywords : ∀ k ∈ reserved, k.toList ∈ keywords := by decide
theorem reserved_underscore : ∀ k ∈ reserved, k.toList.getLast? = some '_' → k.toList = ['_'] := by decide

theorem identText_inv {s : Str} (h : identText u s = true) :
    ∃ c cs, s = c :: cs ∧ (c = '_' ∨ u.xidStart c = true) ∧ ∀ d ∈ cs, u.xidCont d = true := by
  cases s with
  | nil => cases h
  | cons c cs =>
    simp only [identText, Bool.and_eq_true, Bool.or_eq_true, decide_eq_true_eq, List.all_eq_true] at h
    exact ⟨c, cs, rfl, h.1, h.2⟩

/-- C41: sanitized names are legal identifiers and not reserved, for every input. -/
theorem C41_valid (h : Lawful u) (case : Case) (s : Str) : ValidIdent u (sanitize u case s) := by
  have hi := started_ident h case _ (cased_cont h case s)
  unfold sanitize finished
  generalize started u case (cased u case s) = r at hi
  have hi' := identText_inv hi
  split
  · rename_i hp
    refine ⟨hi', fun k hk he => ?_⟩
    simp only [parsesIdent, hi, Bool.true_and, Bool.not_eq_true', List.contains_eq_mem, decide_eq_false_iff_not] at hp
    exact hp (he ▸ reserved_keywords k hk)
  · obtain ⟨c, cs, rfl, h1, h2⟩ := hi'
    refine ⟨⟨c, cs ++ ['_'], by simp, h1, ?_⟩, fun k hk he => ?_⟩
    · intro d hd
      rcases List.mem_append.mp hd with hd | hd
      · exact h2 d hd
      · rw [List.mem_singleton.mp hd]; exact underscore_cont h
    · have := reserved_underscore k hk (by rw [← he, List.getLast?_concat])
      rw [← he] at this
      simp at this

/-! ## C42 -/

theorem splitOn_nosep {p : Char → Bool} {w : Str} (h : ∀ c ∈ w, p c = false) : splitOn p w = [w] := by
  induction w with
  | nil => rfl
  | cons c cs ih => exact splitOn_cons_neg (h c (by simp)) (ih fun d hd => h d (by simp [hd]))

theorem splitOn_sep {p : Char → Bool} {w s : Str} {c : Char} (h : ∀ d ∈ w, p d = false) (hc : p c = true) :
    splitOn p (w ++ c :: s) = w :: splitOn p s := by
  induction w with
  | nil => simp [splitOn, hc]
  | cons d w ih => exact splitOn_cons_neg (h d (by simp)) (ih fun e he => h e (by simp [he]))

theorem splitWord_settled {w cur : Str} {mode : Mode} (hm : mode ≠ .uppercase)
    (hw : ∀ c ∈ w, u.upper c = false) (hne : w ≠ []) : splitWord u cur mode w = [cur ++ w] := by
  induction w generalizing cur mode with
  | nil => exact absurd rfl hne
  | cons c w ih =>
    cases w with
    | nil => rfl
    | cons d w =>
      have hd : u.upper d = false := hw d (by simp)
      have hcu : u.upper c = false := hw c (by simp)
      have hn : nextMode u mode c ≠ .uppercase := by
        unfold nextMode
        split
        · intro h; cases h
        · simp [hcu, hm]
      simp only [splitWord, hd, hcu]
      simp only [Bool.false_eq_true, and_false, if_false, false_and]
      rw [ih hn (fun e he => hw e (by simp [he])) (by simp)]
      simp

/-- Non-empty words of settled characters. -/
def SettledWords (u : Unicode) (ws : List Str) : Prop := ∀ w ∈ ws, w ≠ [] ∧ ∀ c ∈ w, Settled u c

theorem words_join (h : Lawful u) {ws : List Str} (hws : SettledWords u ws) (hne : ws ≠ []) (post : Str)
    (hpost : post = [] ∨ post = ['_']) : words u (joinWords ws ++ post) = ws := by
  have hu : u.alnum '_' = false := by rw [h.alnum_ascii '_' (by decide)]; decide
  have hsep : (fun c => !u.alnum c) '_' = true := by simp [hu]
  induction ws with
  | nil => exact absurd rfl hne
  | cons w ws ih =>
    have hw := hws w (by simp)
    have hn : ∀ c ∈ w, (fun c => !u.alnum c) c = false := fun c hc => by simp [(hw.2 c hc).1]
    have hsw : splitWord u [] .boundary w = [w] := by
      rw [splitWord_settled (by intro h; cases h) (fun c hc => (hw.2 c hc).2.2.1) hw.1]; rfl
    cases ws with
    | nil =>
      unfold words
      rcases hpost with rfl | rfl
      · simp only [joinWords, List.append_nil]
        rw [splitOn_nosep hn]
        simp [hsw]
      · simp only [joinWords]
        rw [splitOn_sep hn hsep]
        simp [hsw, splitOn, splitWord]
    | cons v ws =>
      have ih := ih (fun x hx => hws x (by simp [hx])) (by simp)
      unfold words at ih ⊢
      have : joinWords (w :: v :: ws) ++ post = w ++ '_' :: (joinWords (v :: ws) ++ post) := by simp [joinWords]
      rw [this, splitOn_sep hn hsep, List.flatMap_cons, hsw, ih]
      rfl

theorem words_underscore (h : Lawful u) (s : Str) : words u ('_' :: s) = words u s := by
  have hu : u.alnum '_' = false := by rw [h.alnum_ascii '_' (by decide)]; decide
  unfold words
  simp [splitOn, hu, splitWord]

theorem lowercase_settled (h : Lawful u) {w : Str} (hw : ∀ c ∈ w, Settled u c) : lowercase u w = w := by
  induction w with
  | nil => rfl
  | cons c w ih =>
    have hc := hw c (by simp)
    have ih := ih fun d hd => hw d (by simp [hd])
    cases w with
    | nil =>
      simp only [lowercase]
      rw [if_neg, hc.2.2.2]
      rintro rfl
      exact absurd h.sigma_upper (by rw [hc.2.2.1]; simp)
    | cons d w =>
      simp only [lowercase] at ih ⊢
      rw [ih, hc.2.2.2]
      rfl

theorem map_lowercase_settled (h : Lawful u) {ws : List Str} (hws : SettledWords u ws) : ws.map (lowercase u) = ws := by
  have : ∀ w ∈ ws, lowercase u w = id w := fun w hw => lowercase_settled h (hws w hw).2
  rw [List.map_congr_left this, List.map_id]

theorem clean_id (h : Lawful u) {s : Str} (hs : ∀ c ∈ s, u.xidCont c = true) : clean u s = s := by
  unfold clean
  have hq : u.xidCont '\'' = false := by rw [h.cont_ascii '\'' (by decide)]; decide
  have h1 : s.filter (· ≠ '\'') = s := by
    rw [List.filter_eq_self]
    intro c hc
    refine decide_eq_true ?_
    rintro rfl
    rw [hs _ hc] at hq
    cases hq
  rw [h1]
  have h2 : ∀ c ∈ s, (if u.xidCont c then c else '-') = id c := fun c hc => by rw [if_pos (hs c hc)]; rfl
  rw [List.map_congr_left h2, List.map_id]

theorem joinWords_ne {ws : List Str} (hws : ∀ w ∈ ws, w ≠ []) (hne : ws ≠ []) : joinWords ws ≠ [] := by
  cases ws with
  | nil => exact absurd rfl hne
  | cons w ws =>
    cases ws with
    | nil => exact hws w (by simp)
    | cons v ws => simp [joinWords]

theorem join_cont (h : Lawful u) {ws : List Str} (hws : SettledWords u ws) : ∀ d ∈ joinWords ws, u.xidCont d = true := by
  intro d hd
  rcases joinWords_chars d hd with rfl | ⟨w, hw, hd⟩
  · exact underscore_cont h
  · exact ((hws w hw).2 d hd).2.1

/-- `sanitize` adds at most an underscore on each side. -/
theorem decorated (ws : List Str) (hj : joinWords ws ≠ []) : ∃ pre post : Str, (pre = [] ∨ pre = ['_']) ∧ (post = [] ∨ post = ['_']) ∧
    finished u (started u .snake (joinWords ws)) = pre ++ (joinWords ws ++ post) := by
  have hst : started u .snake (joinWords ws) = joinWords ws ∨ started u .snake (joinWords ws) = '_' :: joinWords ws := by
    generalize hjw : joinWords ws = j at *
    cases j with
    | nil => exact absurd rfl hj
    | cons c cs =>
      simp only [started]
      split
      · exact .inl rfl
      · exact .inr rfl
  unfold finished
  rcases hst with hst | hst <;> rw [hst]
  · split
    · exact ⟨[], [], .inl rfl, .inl rfl, by simp⟩
    · exact ⟨[], ['_'], .inl rfl, .inr rfl, by simp⟩
  · split
    · exact ⟨['_'], [], .inr rfl, .inl rfl, by simp⟩
    · exact ⟨['_'], ['_'], .inr rfl, .inr rfl, by simp⟩

theorem words_decorated (h : Lawful u) {ws : List Str} (hws : SettledWords u ws) (hne : ws ≠ []) {pre post : Str}
    (hpre : pre = [] ∨ pre = ['_']) (hpost : post = [] ∨ post = ['_']) : words u (pre ++ (joinWords ws ++ post)) = ws := by
  rcases hpre with rfl | rfl
  · exact words_join h hws hne post hpost
  · rw [show ['_'] ++ (joinWords ws ++ post) = '_' :: (joinWords ws ++ post) from rfl, words_underscore h]
    exact words_join h hws hne post hpost

/-- The result of `sanitize` for a case-converted text, sanitized again. -/
theorem again (h : Lawful u) {ws : List Str} (hws : SettledWords u ws) (hne : ws ≠ []) :
    sanitize u .snake (finished u (started u .snake (joinWords ws))) = finished u (started u .snake (joinWords ws)) := by
  have hcont := join_cont h hws
  have hj := joinWords_ne (fun w hw => (hws w hw).1) hne
  -- the sanitized name
  obtain ⟨pre, post, hpre, hpost, hr⟩ := decorated (u := u) ws hj
  have hrc : ∀ c ∈ pre ++ (joinWords ws ++ post), u.xidCont c = true := by
    intro c hc
    simp only [List.mem_append] at hc
    rcases hc with hc | hc | hc
    · rcases hpre with rfl | rfl
      · cases hc
      · rw [List.mem_singleton.mp hc]; exact underscore_cont h
    · exact hcont c hc
    · rcases hpost with rfl | rfl
      · cases hc
      · rw [List.mem_singleton.mp hc]; exact underscore_cont h
  have hcased : cased u .snake (pre ++ (joinWords ws ++ post)) = joinWords ws := by
    unfold cased
    have hp : u.xidCont '+' = false := by rw [h.cont_ascii '+' (by decide)]; decide
    have hm : u.xidCont '-' = false := by rw [h.cont_ascii '-' (by decide)]; decide
    rw [if_neg, if_neg]
    · rw [clean_id h hrc]
      show toSnake u _ = _
      unfold toSnake
      rw [words_decorated h hws hne hpre hpost, map_lowercase_settled h hws]
    · intro he
      have := hrc '-' (by rw [he]; simp)
      rw [hm] at this; cases this
    · intro he
      have := hrc '+' (by rw [he]; simp)
      rw [hp] at this; cases this
  rw [hr]
  unfold sanitize
  rw [hcased, hr]

/-- Facts about ASCII characters. -/
theorem ascii_settled_aux : ∀ n : Fin 128, (Char.ofNat n).isAlphanum = true →
    (Char.ofNat n).toLower.toNat < 128 ∧ (Char.ofNat n).toLower.isAlphanum = true ∧
    (Char.ofNat n).toLower.isUpper = false ∧ (Char.ofNat n).toLower.toLower = (Char.ofNat n).toLower := by decide +kernel

theorem ascii_settled (h : Lawful u) (c : Char) (hc : c.toNat < 128) (ha : c.isAlphanum = true) :
    ∀ d ∈ u.toLower c, Settled u d := by
  have hcn : Char.ofNat c.toNat = c := by simp
  have := ascii_settled_aux ⟨c.toNat, hc⟩
  simp only [hcn] at this
  obtain ⟨h1, h2, h3, h4⟩ := this ha
  intro d hd
  rw [h.toLower_ascii c hc, List.mem_singleton] at hd
  subst hd
  exact ⟨by rw [h.alnum_ascii _ h1, h2], by rw [h.cont_ascii _ h1, h2]; rfl, by rw [h.upper_ascii _ h1, h3],
    by rw [h.toLower_ascii _ h1, h4]⟩

theorem ascii_word_settled (h : Lawful u) (s : Str) (hs : ∀ c ∈ s, c.toNat < 128 ∧ c.isAlphanum = true ∧ c.isUpper = false ∧ c.toLower = c) :
    ∀ c ∈ s, Settled u c := by
  intro c hc
  obtain ⟨h1, h2, h3, h4⟩ := hs c hc
  exact ⟨by rw [h.alnum_ascii _ h1, h2], by rw [h.cont_ascii _ h1, h2]; rfl, by rw [h.upper_ascii _ h1, h3],
    by rw [h.toLower_ascii _ h1, h4]⟩

/-- Sanitized names are settled words. -/
theorem snake_words (h : Lawful u) (s : Str)
    (hs : ∀ c ∈ s, u.alnum c = true → u.xidCont c = true → ∀ d ∈ u.toLower c, Settled u d) :
    ∃ ws, SettledWords u ws ∧ ws ≠ [] ∧ sanitize u .snake s = finished u (started u .snake (joinWords ws)) := by
  unfold sanitize
  unfold cased
  split
  · exact ⟨["plus1".toList], by
      intro w hw; rw [List.mem_singleton.mp hw]; exact ⟨by decide, ascii_word_settled h _ (by decide)⟩, by simp, rfl⟩
  · split
    · exact ⟨["minus1".toList], by
        intro w hw; rw [List.mem_singleton.mp hw]; exact ⟨by decide, ascii_word_settled h _ (by decide)⟩, by simp, rfl⟩
    · show ∃ ws, SettledWords u ws ∧ ws ≠ [] ∧
        finished u (started u .snake (joinWords ((words u (clean u s)).map (lowercase u)))) = _
      cases hw : words u (clean u s) with
      | nil =>
        refine ⟨[['x']], ?_, by simp, ?_⟩
        · intro w hw; rw [List.mem_singleton.mp hw]; exact ⟨by decide, ascii_word_settled h _ (by decide)⟩
        · have hx : u.xidStart 'x' = true := by rw [h.start_ascii 'x' (by decide)]; decide
          simp [joinWords, started, toCase_x h, hx]
      | cons w ws =>
        refine ⟨(w :: ws).map (lowercase u), ?_, by simp, rfl⟩
        rw [← hw]
        intro x hx
        obtain ⟨v, hv, rfl⟩ := List.mem_map.mp hx
        have hvs := words_spec hv
        constructor
        · cases v with
          | nil => exact absurd rfl hvs.1
          | cons c cs =>
            cases cs with
            | nil =>
              simp only [lowercase]
              split
              · simp
              · exact h.toLower_ne c
            | cons d ds => simp [lowercase, h.toLower_ne c]
        · intro d hd
          rcases lowercase_chars d hd with ⟨rfl, _⟩ | ⟨c, hc, hd⟩
          · exact ⟨h.sigma_final.1, h.sigma_cont, h.sigma_final.2⟩
          · have := word_cont h hv c hc
            exact hs c this.1 this.2.1 this.2.2 d hd

/-- C42: snake-case sanitization is idempotent on texts whose letters have ordinary lower case forms. -/
theorem C42_idempotent_partial (h : Lawful u) (s : Str)
    (hs : ∀ c ∈ s, u.alnum c = true → u.xidCont c = true → ∀ d ∈ u.toLower c, Settled u d) :
    sanitize u .snake (sanitize u .snake s) = sanitize u .snake s := by
  obtain ⟨ws, h1, h2, h3⟩ := snake_words h s hs
  rw [h3]
  exact again h h1 h2

/-- C42: in particular for ASCII names. -/
theorem C42_ascii_partial (h : Lawful u) (s : Str) (hs : Ascii s) :
    sanitize u .snake (sanitize u .snake s) = sanitize u .snake s := by
  refine C42_idempotent_partial h s fun c hc ha _ => ?_
  exact ascii_settled h c (hs c hc) (by rw [← h.alnum_ascii c (hs c hc)]; exact ha)

/-- C42: not for all names: U+0130 becomes two characters of which the second separates words. -/
theorem C42_idempotent_fails (h : Lawful u) (h1 : u.alnum 'İ' = true) (h2 : u.xidCont 'İ' = true)
    (h3 : u.toLower 'İ' = ['i', '̇']) (h4 : u.xidCont '̇' = true) (h5 : u.alnum '̇' = false) :
    sanitize u .snake ['İ'] = ['i', '̇'] ∧ sanitize u .snake ['i', '̇'] = ['i'] := by
  have hi : u.xidStart 'i' = true := by rw [h.start_ascii 'i' (by decide)]; decide
  have hia : u.alnum 'i' = true := by rw [h.alnum_ascii 'i' (by decide)]; decide
  have hil : u.toLower 'i' = ['i'] := by rw [h.toLower_ascii 'i' (by decide)]; decide
  have hic := h.start_cont _ hi
  have k1 : ['i', '̇'] ∉ keywords := by decide
  have k2 : ['i'] ∉ keywords := by decide
  have e1 : (['İ'] : Str) ≠ "+1".toList := by decide
  have e2 : (['İ'] : Str) ≠ "-1".toList := by decide
  have e3 : (['i', '̇'] : Str) ≠ "+1".toList := by decide
  have e4 : (['i', '̇'] : Str) ≠ "-1".toList := by decide
  constructor
  · simp [sanitize, cased, e1, e2, clean, h2, toCase, toSnake, words, splitOn, h1, splitWord, joinWords, lowercase, h3,
      started, hi, finished, parsesIdent, identText, h4, k1]
  · simp [sanitize, cased, e3, e4, clean, hic, h4, toCase, toSnake, words, splitOn, hia, h5, splitWord, joinWords, lowercase, hil,
      started, hi, finished, parsesIdent, identText, k2]

/-! ## Examples -/

/-- Tables for ASCII, the sigmas, U+0130 and U+0307. -/
def exUnicode : Unicode where
  alnum c := c.isAlphanum || c = 'ς' || c = 'Σ' || c = 'İ'
  lower c := c.isLower || c = 'ς'
  upper c := c.isUpper || c = 'Σ' || c = 'İ'
  toLower c := if c = 'İ' then ['i', '̇'] else if c = 'Σ' then ['σ'] else [c.toLower]
  toUpper c := [c.toUpper]
  white c := c = ' ' ∨ (9 ≤ c.toNat ∧ c.toNat ≤ 13)
  xidStart c := c.isAlpha || c = 'ς' || c = 'Σ' || c = 'İ' || c = 'σ'
  xidCont c := c.isAlphanum || c = '_' || c = 'ς' || c = 'Σ' || c = 'İ' || c = '̇' || c = 'σ'

theorem ascii_ne {c d : Char} (hc : c.toNat < 128) (hd : 128 ≤ d.toNat) : c ≠ d := by
  rintro rfl; omega

theorem toLower_alnum_aux : ∀ n : Fin 128, (Char.ofNat n).isAlphanum = true → (Char.ofNat n).toLower.isAlphanum = true := by
  decide +kernel
theorem toUpper_alnum_aux : ∀ n : Fin 128, (Char.ofNat n).isAlphanum = true → (Char.ofNat n).toUpper.isAlphanum = true := by
  decide +kernel

theorem alphanum_ascii {c : Char} (h : c.isAlphanum = true) : c.toNat < 128 := by
  simp only [Char.isAlphanum, Char.isAlpha, Char.isUpper, Char.isLower, Char.isDigit, Bool.or_eq_true, Bool.and_eq_true,
    decide_eq_true_eq] at h
  have hv : c.toNat = c.val.toNat := rfl
  rw [hv]
  rcases h with (⟨_, h⟩ | ⟨_, h⟩) | ⟨_, h⟩ <;>
  · have := UInt32.le_iff_toNat_le.mp h
    simp at this
    omega

theorem exUnicode_lawful : Lawful exUnicode where
  alnum_ascii c h := by simp [exUnicode, ascii_ne h (d := 'ς') (by decide), ascii_ne h (d := 'Σ') (by decide), ascii_ne h (d := 'İ') (by decide)]
  lower_ascii c h := by simp [exUnicode, ascii_ne h (d := 'ς') (by decide)]
  upper_ascii c h := by simp [exUnicode, ascii_ne h (d := 'Σ') (by decide), ascii_ne h (d := 'İ') (by decide)]
  toLower_ascii c h := by simp [exUnicode, ascii_ne h (d := 'Σ') (by decide), ascii_ne h (d := 'İ') (by decide)]
  toUpper_ascii c h := rfl
  start_ascii c h := by
    simp [exUnicode, ascii_ne h (d := 'ς') (by decide), ascii_ne h (d := 'Σ') (by decide), ascii_ne h (d := 'İ') (by decide),
      ascii_ne h (d := 'σ') (by decide)]
  cont_ascii c h := by
    simp [exUnicode, ascii_ne h (d := 'ς') (by decide), ascii_ne h (d := 'Σ') (by decide), ascii_ne h (d := 'İ') (by decide),
      ascii_ne h (d := 'σ') (by decide), ascii_ne h (d := '̇') (by decide)]
  white_ascii c h := rfl
  start_cont c h := by
    simp only [exUnicode, Char.isAlphanum, Bool.or_eq_true, decide_eq_true_eq] at h ⊢
    grind
  toLower_ne c := by simp only [exUnicode]; split <;> (try split) <;> simp
  toUpper_ne c := by simp [exUnicode]
  toLower_cont c h := by
    intro d hd
    simp only [exUnicode] at h hd ⊢
    split at hd
    · simp at hd; rcases hd with rfl | rfl <;> decide
    · split at hd
      · simp at hd; subst hd; decide
      · rw [List.mem_singleton] at hd
        subst hd
        simp only [Bool.or_eq_true, decide_eq_true_eq] at h
        rcases h with (((((h | rfl) | rfl) | rfl) | rfl) | rfl) | rfl <;> try decide
        have hcn : Char.ofNat c.toNat = c := by simp
        have := toLower_alnum_aux ⟨c.toNat, alphanum_ascii h⟩
        simp only [hcn] at this
        simp [this h]
  toUpper_cont c h := by
    intro d hd
    simp only [exUnicode, List.mem_singleton] at h hd ⊢
    subst hd
    simp only [Bool.or_eq_true, decide_eq_true_eq] at h
    rcases h with (((((h | rfl) | rfl) | rfl) | rfl) | rfl) | rfl <;> try decide
    have hcn : Char.ofNat c.toNat = c := by simp
    have := toUpper_alnum_aux ⟨c.toNat, alphanum_ascii h⟩
    simp only [hcn] at this
    simp [this h]
  sigma_cont := by decide
  sigma_final := by decide
  sigma_upper := by decide

example : sanitize exUnicode .snake "getHTTPResponse-v2's".toList = "get_http_response_v2s".toList := by decide
example : sanitize exUnicode .snake "type".toList = "type_".toList := by decide
example : sanitize exUnicode .snake "2fa".toList = "_2fa".toList := by decide
example : sanitize exUnicode .pascal "a_1".toList = "A1".toList := by decide
example : sanitize exUnicode .snake "'".toList = "x".toList := by decide
/- The hypotheses of C42_idempotent_fails. -/
example : exUnicode.alnum 'İ' = true ∧ exUnicode.xidCont 'İ' = true ∧ exUnicode.toLower 'İ' = ['i', '̇'] ∧
    exUnicode.xidCont '̇' = true ∧ exUnicode.alnum '̇' = false := by decide

end Progenitor.Props

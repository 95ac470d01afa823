import Verif.Spec.Words
import Verif.Props.Doc

/-!
# C82: names consist of the words of the document
-/

namespace Progenitor.Props

open Progenitor Progenitor.Names Progenitor.Params Progenitor.Doc Progenitor.Spec

/-! ## The words are unique -/

section
variable {an up low : Char → Bool}

theorem wordsAt_unique {pre s : Str} {ws vs : List Str} (h : WordsAt an up low pre s ws) (h' : WordsAt an up low pre s vs) : ws = vs := by
  induction h generalizing vs with
  | nil pre =>
    generalize hs : ([] : Str) = s at h'
    cases h' with
    | nil => rfl
    | sep => cases hs
    | word => cases hs
  | sep pre c s ws hc hw ih =>
    generalize hs : c :: s = s' at h'
    cases h' with
    | nil => cases hs
    | sep _ c' s' _ hc' hw' => cases hs; exact ih hw'
    | word _ c' cs s' ws' ha =>
      rw [List.cons_append] at hs
      cases hs
      rw [ha c (by simp)] at hc
      cases hc
  | word pre c cs s ws ha hi he hw ih =>
    generalize hs : c :: cs ++ s = s' at h'
    cases h' with
    | nil => cases hs
    | sep _ c' s' _ hc' hw' =>
      rw [List.cons_append] at hs
      cases hs
      rw [ha c (by simp)] at hc'
      cases hc'
    | word _ c' cs' s'' ws' ha' hi' he' hw' =>
      simp only [List.cons_append, List.cons.injEq] at hs
      obtain ⟨rfl, hs⟩ := hs
      have key : ∀ {cs cs' s s' : Str}, (∀ d ∈ c :: cs', an d = true) →
          (∀ a x b, cs' = a ++ x :: b → ¬ Hump an up low (pre ++ c :: a) x (b ++ s')) →
          (∀ x b, s = x :: b → an x = false ∨ Hump an up low (pre ++ c :: cs) x b) → ∀ m, cs' = cs ++ m → s = m ++ s' → m = [] := by
        intro cs cs' s s' ha' hi' he m hm hs
        cases m with
        | nil => rfl
        | cons x b =>
          rcases he x (b ++ s') hs with h | h
          · rw [ha' x (by rw [hm]; simp)] at h
            cases h
          · exact absurd h (hi' cs x b hm)
      have hcs : cs = cs' ∧ s = s'' := by
        rcases List.append_eq_append_iff.mp hs with ⟨m, h1, h2⟩ | ⟨m, h1, h2⟩
        · have := key ha' hi' he m h1 h2
          subst this
          exact ⟨by simpa using h1.symm, by simpa using h2⟩
        · have := key ha hi he' m h1 h2
          subst this
          exact ⟨by simpa using h1, by simpa using h2.symm⟩
      obtain ⟨rfl, rfl⟩ := hcs
      rw [ih hw']

end

/-! ## The loop finds them -/

section
variable {u : Unicode}

/-- What the loop should know: the case of the last letter with a case since the last separator. -/
def caseAfter (u : Unicode) : Mode → Str → Mode
  | m, [] => m
  | m, c :: cs => caseAfter u (if u.alnum c then nextMode u m c else .boundary) cs

theorem caseAfter_append (m : Mode) (a b : Str) : caseAfter u m (a ++ b) = caseAfter u (caseAfter u m a) b := by
  induction a generalizing m with
  | nil => rfl
  | cons c a ih => exact ih _

theorem caseAfter_concat (m : Mode) (a : Str) (c : Char) :
    caseAfter u m (a ++ [c]) = if u.alnum c then nextMode u (caseAfter u m a) c else .boundary := by
  rw [caseAfter_append]; rfl

theorem eq_nil_or_concat {α : Type} (l : List α) : l = [] ∨ ∃ a x, l = a ++ [x] := by
  rcases List.eq_nil_or_concat l with h | ⟨a, x, h⟩
  · exact .inl h
  · exact .inr ⟨a, x, by simpa using h⟩

theorem append_snoc_inv {α : Type} {a b m : List α} {x c : α} (h : a ++ [c] = b ++ x :: m) :
    (m = [] ∧ a = b ∧ c = x) ∨ ∃ m', m = m' ++ [c] ∧ a = b ++ x :: m' := by
  rcases eq_nil_or_concat m with rfl | ⟨m', y, rfl⟩
  · have := List.append_inj' h rfl
    exact .inl ⟨rfl, this.1, by simpa using this.2⟩
  · have h' : a ++ [c] = (b ++ x :: m') ++ [y] := by simpa using h
    have := List.append_inj' h' rfl
    refine .inr ⟨m', ?_, this.1⟩
    have : c = y := by simpa using this.2
    rw [this]

/-- Between two separators. -/
theorem caseAfter_iff (pre : Str) :
    (caseAfter u .boundary pre = .lowercase ↔ ∃ a x m, pre = a ++ x :: m ∧ u.alnum x = true ∧
      (∀ d ∈ m, u.alnum d = true ∧ u.upper d = false ∧ u.lower d = false) ∧ u.lower x = true) ∧
    (caseAfter u .boundary pre = .uppercase ↔ ∃ a x m, pre = a ++ x :: m ∧ u.alnum x = true ∧
      (∀ d ∈ m, u.alnum d = true ∧ u.upper d = false ∧ u.lower d = false) ∧ u.upper x = true ∧ u.lower x = false) := by
  have key : ∀ n (pre : Str), pre.length = n →
    (caseAfter u .boundary pre = .lowercase ↔ ∃ a x m, pre = a ++ x :: m ∧ u.alnum x = true ∧
      (∀ d ∈ m, u.alnum d = true ∧ u.upper d = false ∧ u.lower d = false) ∧ u.lower x = true) ∧
    (caseAfter u .boundary pre = .uppercase ↔ ∃ a x m, pre = a ++ x :: m ∧ u.alnum x = true ∧
      (∀ d ∈ m, u.alnum d = true ∧ u.upper d = false ∧ u.lower d = false) ∧ u.upper x = true ∧ u.lower x = false) := by
    intro n
    induction n with
    | zero =>
      intro pre h
      rw [List.length_eq_zero_iff.mp h]
      simp [caseAfter]
    | succ n ih =>
      intro pre h
      rcases eq_nil_or_concat pre with rfl | ⟨a, c, rfl⟩
      · simp at h
      · obtain ⟨ih1, ih2⟩ := ih a (by simpa using h)
        rw [caseAfter_concat]
        have split : ∀ P : Char → Prop, (∃ b x m, a ++ [c] = b ++ x :: m ∧ u.alnum x = true ∧
            (∀ d ∈ m, u.alnum d = true ∧ u.upper d = false ∧ u.lower d = false) ∧ P x) ↔
            (u.alnum c = true ∧ P c) ∨ ((u.alnum c = true ∧ u.upper c = false ∧ u.lower c = false) ∧
              ∃ b x m, a = b ++ x :: m ∧ u.alnum x = true ∧ (∀ d ∈ m, u.alnum d = true ∧ u.upper d = false ∧ u.lower d = false) ∧ P x) := by
          intro P
          constructor
          · rintro ⟨b, x, m, h1, h2, h3, h4⟩
            rcases append_snoc_inv h1 with ⟨rfl, rfl, rfl⟩ | ⟨m', rfl, rfl⟩
            · exact .inl ⟨h2, h4⟩
            · exact .inr ⟨h3 c (by simp), b, x, m', rfl, h2, fun d hd => h3 d (by simp [hd]), h4⟩
          · rintro (⟨h1, h2⟩ | ⟨h1, b, x, m, rfl, h2, h3, h4⟩)
            · exact ⟨a, c, [], rfl, h1, by simp, h2⟩
            · refine ⟨b, x, m ++ [c], by simp, h2, ?_, h4⟩
              intro d hd
              rcases List.mem_append.mp hd with hd | hd
              · exact h3 d hd
              · rw [List.mem_singleton.mp hd]; exact h1
        rw [split fun x => u.lower x = true, split fun x => u.upper x = true ∧ u.lower x = false, ← ih1, ← ih2]
        unfold nextMode
        cases u.alnum c <;> cases u.lower c <;> cases u.upper c <;> simp
  exact key _ pre rfl

theorem hump_iff (hd : ∀ c, u.lower c = true → u.upper c = false) (pre : Str) (c : Char) (post : Str) :
    Hump u.alnum u.upper u.lower pre c post ↔ u.upper c = true ∧ (caseAfter u .boundary pre = .lowercase ∨
      caseAfter u .boundary pre = .uppercase ∧ ∃ d r, post = d :: r ∧ u.lower d = true) := by
  rw [(caseAfter_iff pre).1, (caseAfter_iff pre).2]
  unfold Hump
  refine and_congr_right fun _ => ?_
  constructor
  · rintro ⟨a, x, m, h1, h2, h3, h4 | ⟨h4, h5⟩⟩
    · exact .inl ⟨a, x, m, h1, h2, h3, h4⟩
    · refine .inr ⟨⟨a, x, m, h1, h2, h3, h4, ?_⟩, h5⟩
      cases hl : u.lower x with
      | false => rfl
      | true => rw [hd x hl] at h4; cases h4
  · rintro (⟨a, x, m, h1, h2, h3, h4⟩ | ⟨⟨a, x, m, h1, h2, h3, h4, -⟩, h5⟩)
    · exact ⟨a, x, m, h1, h2, h3, .inl h4⟩
    · exact ⟨a, x, m, h1, h2, h3, .inr ⟨h4, h5⟩⟩

/-- After a hump the loop starts anew; that makes no difference. -/
theorem splitWord_upper {cur r : Str} {n : Char} (hn : u.upper n = true) (hl : u.lower n = false) :
    splitWord u cur .boundary (n :: r) = splitWord u cur .lowercase (n :: r) := by
  cases r with
  | nil => rfl
  | cons d r => simp [splitWord, nextMode, hn, hl]

theorem splitWord_lower {cur r : Str} {n : Char} (hn : u.upper n = false) (hl : u.lower n = true) :
    splitWord u cur .boundary (n :: r) = splitWord u cur .uppercase (n :: r) := by
  cases r with
  | nil => rfl
  | cons d r => simp [splitWord, nextMode, hn, hl]

abbrev WordsIn (u : Unicode) := WordsAt u.alnum u.upper u.lower

theorem splitWord_words (hd : ∀ c, u.lower c = true → u.upper c = false) (hla : ∀ c, u.lower c = true → u.alnum c = true)
    {t : Str} {vs : List Str} (ht : ∀ x b, t = x :: b → u.alnum x = false) (s : Str) (hs : s ≠ []) (ha : ∀ d ∈ s, u.alnum d = true)
    (base cur : Str) (hcur : ∀ d ∈ cur, u.alnum d = true) (hv : WordsIn u (base ++ cur ++ s) t vs)
    (h1 : ∀ a x b, cur = a ++ x :: b → a ≠ [] → ¬ Hump u.alnum u.upper u.lower (base ++ a) x (b ++ s ++ t))
    (h3 : cur ≠ [] → ∀ c r, s = c :: r → ¬ (caseAfter u .boundary (base ++ cur) = .lowercase ∧ u.upper c = true))
    (h4 : cur = [] → caseAfter u .boundary base ≠ .uppercase) :
    WordsIn u base (cur ++ s ++ t) (splitWord u cur (caseAfter u .boundary (base ++ cur)) s ++ vs) := by
  induction s generalizing base cur with
  | nil => exact absurd rfl hs
  | cons c s ih =>
    have hc := ha c (by simp)
    -- a word is `cur` and what follows up to a hump or separator
    have mk : ∀ (w rest : Str) (ws : List Str), w ≠ [] → (∀ d ∈ w, u.alnum d = true) →
        (∀ a x b, w = a ++ x :: b → a ≠ [] → ¬ Hump u.alnum u.upper u.lower (base ++ a) x (b ++ rest)) →
        (∀ x b, rest = x :: b → u.alnum x = false ∨ Hump u.alnum u.upper u.lower (base ++ w) x b) →
        WordsIn u (base ++ w) rest ws → WordsIn u base (w ++ rest) (w :: ws) := by
      intro w rest ws hw hwa hin hend hrest
      cases w with
      | nil => exact absurd rfl hw
      | cons x w => exact .word base x w rest ws hwa (fun a y b hwb => hin (x :: a) y b (by rw [hwb]; rfl) (by simp)) hend hrest
    -- no hump at `c` unless the loop sees it
    have inside : ∀ rest : Str, ¬ (caseAfter u .boundary (base ++ cur) = .uppercase ∧ u.upper c = true ∧ ∃ d r, rest = d :: r ∧ u.lower d = true) →
        (∀ a x b, cur = a ++ x :: b → a ≠ [] → ¬ Hump u.alnum u.upper u.lower (base ++ a) x (b ++ c :: rest)) →
        ∀ a x b, cur ++ [c] = a ++ x :: b → a ≠ [] → ¬ Hump u.alnum u.upper u.lower (base ++ a) x (b ++ rest) := by
      intro rest hno hcurin a x b hab hane
      rcases append_snoc_inv hab with ⟨rfl, rfl, rfl⟩ | ⟨b', rfl, hb⟩
      · rw [hump_iff hd]
        rintro ⟨hu, hl | ⟨hm, hlow⟩⟩
        · exact h3 hane c s rfl ⟨hl, hu⟩
        · exact hno ⟨hm, hu, by simpa using hlow⟩
      · have := hcurin a x b' hb hane
        simpa using this
    cases s with
    | nil =>
      show WordsIn u base (cur ++ [c] ++ t) ((cur ++ [c]) :: vs)
      refine mk (cur ++ [c]) t vs (by simp) ?_ (inside t ?_ ?_) (fun x b hx => .inl (ht x b hx)) (by simpa using hv)
      · intro d hd'
        rcases List.mem_append.mp hd' with h | h
        · exact hcur d h
        · rw [List.mem_singleton.mp h]; exact hc
      · rintro ⟨-, -, d, r, hdr, hl⟩
        have := ht d r hdr
        rw [hla d hl] at this
        cases this
      · intro a x b h hane
        simpa using h1 a x b h hane
    | cons n r =>
      have hmode : caseAfter u .boundary (base ++ (cur ++ [c])) = nextMode u (caseAfter u .boundary (base ++ cur)) c := by
        rw [← List.append_assoc, caseAfter_concat, if_pos hc]
      have hcc : ∀ d ∈ cur ++ [c], u.alnum d = true := by
        intro d hd'
        rcases List.mem_append.mp hd' with h | h
        · exact hcur d h
        · rw [List.mem_singleton.mp h]; exact hc
      have hcin : ∀ a x b, cur = a ++ x :: b → a ≠ [] → ¬ Hump u.alnum u.upper u.lower (base ++ a) x (b ++ c :: (n :: r ++ t)) := by
        intro a x b h hane
        simpa using h1 a x b h hane
      simp only [splitWord]
      split
      · rename_i hr
        have hnl : u.lower n = false := by
          cases hl : u.lower n with
          | false => rfl
          | true => rw [hd n hl] at hr; exact absurd hr.2 (by simp)
        have hrec := ih (by simp) (fun d hd' => ha d (by simp [hd'])) (base ++ (cur ++ [c])) [] (by simp)
          (by simpa using hv) (by simp) (by simp) (by rw [hmode, hr.1]; simp)
        rw [List.append_nil, hmode, hr.1, ← splitWord_upper hr.2 hnl] at hrec
        have := mk (cur ++ [c]) (n :: r ++ t) _ (by simp) hcc (inside (n :: r ++ t) ?_ hcin) ?_ hrec
        · simpa using this
        · rintro ⟨-, -, d, r', hdr, hl⟩
          simp only [List.cons_append, List.cons.injEq] at hdr
          rw [hdr.1, hl] at hnl
          cases hnl
        · intro x b hx
          simp only [List.cons_append, List.cons.injEq] at hx
          obtain ⟨rfl, rfl⟩ := hx
          exact .inr ((hump_iff hd _ _ _).mpr ⟨hr.2, .inl (by rw [hmode, hr.1])⟩)
      · rename_i hr1
        split
        · rename_i hr
          obtain ⟨hm, hcu, hnl⟩ := hr
          have hcne : cur ≠ [] := by
            rintro rfl
            exact h4 rfl (by simpa using hm)
          have hcl : u.lower c = false := by
            cases hl : u.lower c with
            | false => rfl
            | true => rw [hd c hl] at hcu; cases hcu
          have hm' : caseAfter u .boundary (base ++ cur ++ [c]) = .uppercase := by
            rw [caseAfter_concat, if_pos hc]
            simp [nextMode, hcl, hcu]
          have hrec := ih (by simp) (fun d hd' => ha d (by simp [hd'])) (base ++ cur) [c] (by simpa using hc)
            (by simpa using hv) (by
              intro a x b hab hane
              cases a with
              | nil => exact absurd rfl hane
              | cons y a =>
                simp only [List.cons_append, List.cons.injEq] at hab
                simp at hab)
            (by rw [hm']; simp) (by simp)
          rw [hm', ← splitWord_lower (hd n hnl) hnl] at hrec
          have := mk cur (c :: n :: r ++ t) _ hcne hcur (by simpa using h1) ?_ hrec
          · simpa using this
          · intro x b hx
            simp only [List.cons_append, List.cons.injEq] at hx
            obtain ⟨rfl, rfl⟩ := hx
            exact .inr ((hump_iff hd _ _ _).mpr ⟨hcu, .inr ⟨hm, n, _, rfl, hnl⟩⟩)
        · rename_i hr2
          have hrec := ih (by simp) (fun d hd' => ha d (by simp [hd'])) base (cur ++ [c]) hcc (by simpa using hv)
            (by
              have := inside (n :: r ++ t) (by
                rintro ⟨h, h', d, r', hdr, hl⟩
                simp only [List.cons_append, List.cons.injEq] at hdr
                exact hr2 ⟨h, h', by rw [hdr.1]; exact hl⟩) hcin
              intro a x b hab hane
              simpa using this a x b hab hane)
            (by
              intro _ x b hx
              simp only [List.cons.injEq] at hx
              rw [hmode, ← hx.1]
              exact hr1)
            (by simp)
          rw [hmode] at hrec
          simpa using hrec

theorem words_wordsAt (hd : ∀ c, u.lower c = true → u.upper c = false) (hla : ∀ c, u.lower c = true → u.alnum c = true)
    (s pre : Str) (hpre : caseAfter u .boundary pre = .boundary) : WordsIn u pre s (words u s) := by
  have key : ∀ n (s pre : Str), s.length ≤ n → caseAfter u .boundary pre = .boundary → WordsIn u pre s (words u s) := by
    intro n
    induction n with
    | zero =>
      intro s pre hs _
      rw [List.length_eq_zero_iff.mp (Nat.le_zero.mp hs)]
      exact .nil pre
    | succ n ih =>
      intro s pre hs hpre
      -- the first piece
      obtain ⟨p, rest, rfl, hp, hrest⟩ : ∃ p rest, s = p ++ rest ∧ (∀ d ∈ p, u.alnum d = true) ∧ ∀ x b, rest = x :: b → u.alnum x = false :=
        ⟨s.takeWhile u.alnum, s.dropWhile u.alnum, (List.takeWhile_append_dropWhile).symm,
          fun d hd' => by simpa using List.all_eq_true.mp (List.all_takeWhile) d hd',
          fun x b h => by
            have := List.head?_dropWhile_not u.alnum s
            rw [h] at this
            simpa using this⟩
      have hw : words u (p ++ rest) = splitWord u [] .boundary p ++ words u rest := by
        have hn : ∀ d ∈ p, (fun c => !u.alnum c) d = false := fun d hd' => by simp [hp d hd']
        cases rest with
        | nil =>
          unfold words
          rw [List.append_nil, splitOn_nosep hn]
          simp [splitOn, splitWord]
        | cons x b =>
          have hx := hrest x b rfl
          unfold words
          rw [splitOn_sep hn (by simp [hx])]
          simp [splitOn, hx, splitWord]
      rw [hw]
      have hrest' : ∀ pre', WordsIn u pre' rest (words u rest) := by
        intro pre'
        cases rest with
        | nil => exact .nil pre'
        | cons x b =>
          have hx := hrest x b rfl
          have : words u (x :: b) = words u b := by
            unfold words
            simp [splitOn, hx, splitWord]
          rw [this]
          refine .sep pre' x b _ hx (ih b (pre' ++ [x]) ?_ ?_)
          · simp at hs; omega
          · rw [caseAfter_concat, hx]; rfl
      by_cases hpe : p = []
      · subst hpe
        simpa [splitWord] using hrest' pre
      · have := splitWord_words hd hla hrest p hpe hp pre [] (by simp) (hrest' _) (by simp) (by simp) (by rw [hpre]; simp)
        rw [List.append_nil, hpre] at this
        simpa using this
  exact key _ s pre (Nat.le_refl _) hpre

end

/-! ## ASCII names -/

section
variable {u : Unicode}

/-- Tables that know ASCII only. -/
def asciiTables : Unicode where
  alnum := Char.isAlphanum
  lower := Char.isLower
  upper := Char.isUpper
  toLower c := [c.toLower]
  toUpper c := [c.toUpper]
  white c := c = ' ' ∨ (9 ≤ c.toNat ∧ c.toNat ≤ 13)
  xidStart := Char.isAlpha
  xidCont c := c.isAlphanum || c = '_'

theorem ascii_agree (h : Lawful u) : Agree u asciiTables where
  alnum c hc := h.alnum_ascii c hc
  lower c hc := h.lower_ascii c hc
  upper c hc := h.upper_ascii c hc
  toLower c hc := h.toLower_ascii c hc
  toUpper c hc := h.toUpper_ascii c hc
  start c hc := h.start_ascii c hc
  cont c hc := h.cont_ascii c hc

theorem lower_not_upper (c : Char) (h : c.isLower = true) : c.isUpper = false := by
  simp only [Char.isLower, Char.isUpper, Bool.and_eq_true, decide_eq_true_eq, decide_eq_false_iff_not] at h ⊢
  have h1 := UInt32.le_iff_toNat_le.mp h.1
  intro h2
  have h3 := UInt32.le_iff_toNat_le.mp h2.2
  simp at h1 h3
  omega

theorem lower_alphanum (c : Char) (h : c.isLower = true) : c.isAlphanum = true := by
  simp [Char.isAlphanum, Char.isAlpha, h]

theorem wordsOf_words (s : Str) : WordsOf s (words asciiTables s) :=
  words_wordsAt (u := asciiTables) lower_not_upper lower_alphanum s [] rfl

/-- Characters that separate words are all the same. -/
theorem splitOn_map {p : Char → Bool} {f : Char → Char} {s : Str} (h : ∀ c ∈ s, (p c = true → p (f c) = true) ∧ (p c = false → f c = c)) :
    splitOn p (s.map f) = splitOn p s := by
  induction s with
  | nil => rfl
  | cons c s ih =>
    have ih := ih fun d hd => h d (by simp [hd])
    obtain ⟨h1, h2⟩ := h c (by simp)
    rw [List.map_cons]
    unfold splitOn
    cases hp : p c with
    | true => rw [h1 hp, ih, if_pos rfl, if_pos rfl]
    | false => rw [h2 hp, hp, ih]

theorem words_clean (s : Str) : words asciiTables (clean asciiTables s) = words asciiTables (s.filter (· ≠ '\'')) := by
  unfold words clean
  rw [splitOn_map]
  intro c hc
  constructor
  · intro h
    split
    · exact h
    · decide
  · intro h
    have h : c.isAlphanum = true := by simpa [asciiTables] using h
    rw [if_pos]
    simp [asciiTables, h]

theorem lowercase_small (h : Lawful u) {w : Str} (hw : Ascii w) : lowercase u w = small w := by
  rw [lowercase_agree (ascii_agree h) hw]
  clear h
  induction w with
  | nil => rfl
  | cons c w ih =>
    have ih := ih fun d hd => hw d (by simp [hd])
    cases w with
    | nil =>
      simp only [lowercase, small]
      rw [if_neg]
      · rfl
      · rintro rfl
        exact absurd (hw 'Σ' (by simp)) (by decide)
    | cons d w =>
      simp only [lowercase] at ih ⊢
      rw [ih]
      rfl

theorem nameWords_ascii (h : Lawful u) {s : Str} (hs : Ascii s) :
    nameWords u s = (words asciiTables (s.filter (· ≠ '\''))).map small := by
  have ha := ascii_agree h
  unfold nameWords
  rw [clean_agree ha hs, words_agree ha (clean_ascii hs), words_clean s]
  refine List.map_congr_left fun w hw => ?_
  exact lowercase_small h (words_ascii (fun c hc => hs c (List.mem_filter.mp hc).1) hw)

theorem joinWords_underscored (ws : List Str) : joinWords ws = underscored ws := by
  unfold underscored
  induction ws with
  | nil => rfl
  | cons w ws ih =>
    cases ws with
    | nil => simp [joinWords, List.intercalate]
    | cons v ws =>
      simp only [joinWords]
      rw [ih]
      simp [List.intercalate]

theorem keywords_iff (s : Str) : s ∈ keywords ↔ s ∈ reserved.map String.toList := by
  have h1 : ∀ k ∈ keywords, k ∈ reserved.map String.toList := by decide
  have h2 : ∀ k ∈ reserved.map String.toList, k ∈ keywords := by decide
  exact ⟨h1 s, h2 s⟩

theorem keyword_start : ∀ k ∈ keywords, k.head? = some '_' → k = ['_'] := by decide

theorem alnum_digit (c : Char) (h : c.isAlphanum = true) : c.isAlpha = !c.isDigit := by
  cases hd : c.isDigit with
  | false =>
    simp only [Char.isAlphanum, hd, Bool.or_false] at h
    simp [h]
  | true =>
    simp only [Char.isAlpha, Char.isDigit, Char.isLower, Char.isUpper, Bool.and_eq_true, decide_eq_true_eq, Bool.not_true, Bool.or_eq_false_iff,
      Bool.and_eq_false_iff, decide_eq_false_iff_not] at hd ⊢
    have h1 := UInt32.le_iff_toNat_le.mp hd.1
    have h2 := UInt32.le_iff_toNat_le.mp hd.2
    refine ⟨fun h3 => ?_, .inl fun h3 => ?_⟩
    · have h3 := UInt32.le_iff_toNat_le.mp h3.1
      simp at h1 h2 h3
      omega
    · have h3 := UInt32.le_iff_toNat_le.mp h3
      simp at h1 h2 h3
      omega

/-- What is done to the text of a name. -/
theorem finished_legal (h : Lawful u) (case : Case) {c : Char} {cs : Str} (hc : c.toNat < 128) (ha : c.isAlphanum = true)
    (hcs : ∀ d ∈ cs, u.xidCont d = true) : finished u (started u case (c :: cs)) = legal (c :: cs) := by
  have hcc : u.xidCont c = true := by rw [h.cont_ascii c hc, ha]; rfl
  have hi := started_ident h case (c :: cs) (by
    intro d hd
    rcases List.mem_cons.mp hd with rfl | hd
    · exact hcc
    · exact hcs d hd)
  have hst : u.xidStart c = !c.isDigit := by rw [h.start_ascii c hc, alnum_digit c ha]
  have hp : parsesIdent u (started u case (c :: cs)) = true ↔ started u case (c :: cs) ∉ keywords := by
    unfold parsesIdent
    rw [hi]
    simp
  unfold finished legal
  by_cases hd : c.isDigit = true
  · have hs : started u case (c :: cs) = '_' :: c :: cs := by simp [started, hst, hd]
    rw [hs] at hp ⊢
    rw [if_pos (hp.mpr fun hk => by simpa using keyword_start _ hk rfl), if_pos (by simpa using hd)]
  · have hs : started u case (c :: cs) = c :: cs := by simp [started, hst, hd]
    rw [hs, keywords_iff] at hp
    rw [hs, if_neg (c := Option.any _ _ = true) (by simpa using hd)]
    by_cases hk : c :: cs ∈ reserved.map String.toList
    · rw [if_neg (fun h => hp.mp h hk), if_pos hk]
    · rw [if_pos (hp.mpr hk), if_neg hk]

/-- The words of names are unique. -/
theorem nameWords_iff {s : Str} {ws : List Str} : NameWords s ws ↔
    ws = if s = "+1".toList then ["plus1".toList] else if s = "-1".toList then ["minus1".toList]
      else if words asciiTables (s.filter (· ≠ '\'')) = [] then ["x".toList] else words asciiTables (s.filter (· ≠ '\'')) := by
  have hu : ∀ {t vs}, WordsOf t vs → vs = words asciiTables t := fun h => wordsAt_unique h (wordsOf_words _)
  have hp : words asciiTables ("+1".toList.filter (· ≠ '\'')) ≠ [] := by decide
  have hm : words asciiTables ("-1".toList.filter (· ≠ '\'')) ≠ [] := by decide
  constructor
  · intro h
    cases h with
    | plus => rfl
    | minus => rfl
    | none _ h =>
      have := hu h
      rw [if_neg, if_neg, if_pos this.symm]
      · rintro rfl; exact hm this.symm
      · rintro rfl; exact hp this.symm
    | some _ _ h1 h2 h3 h4 =>
      have := hu h3
      rw [if_neg h1, if_neg h2, if_neg (by rw [← this]; exact h4)]
      exact this
  · rintro rfl
    split
    · rename_i h; rw [h]; exact .plus
    · rename_i h1
      split
      · rename_i h; rw [h]; exact .minus
      · rename_i h2
        split
        · rename_i h; exact .none s (h ▸ wordsOf_words _)
        · rename_i h; exact .some s _ h1 h2 (wordsOf_words _) h

theorem words_ascii_spec {s w : Str} (hw : w ∈ words asciiTables s) : w ≠ [] ∧ ∀ c ∈ w, c.isAlphanum = true := by
  have := words_spec hw
  exact ⟨this.1, fun c hc => (this.2 c hc).2⟩

theorem small_settled (h : Lawful u) {s : Str} (hs : Ascii s) {ws : List Str} (hw : NameWords s ws) :
    SettledWords u (ws.map small) ∧ ws.map small ≠ [] := by
  have lit : ∀ t : Str, t ≠ [] → (∀ c ∈ t, c.toNat < 128 ∧ c.isAlphanum = true ∧ c.isUpper = false ∧ c.toLower = c) →
      SettledWords u [t] := by
    intro t hne ht w hw
    rw [List.mem_singleton.mp hw]
    exact ⟨hne, ascii_word_settled h t ht⟩
  cases hw with
  | plus => exact ⟨lit _ (by decide) (by decide), by simp⟩
  | minus => exact ⟨lit _ (by decide) (by decide), by simp⟩
  | none => exact ⟨lit _ (by decide) (by decide), by simp⟩
  | some _ _ h1 h2 h3 h4 =>
    refine ⟨?_, by simpa using h4⟩
    have := nameWords_settled h hs
    rwa [nameWords_ascii h hs, ← wordsAt_unique h3 (wordsOf_words _)] at this

theorem sanitize_words (h : Lawful u) {s : Str} (hs : Ascii s) {ws : List Str} (hw : NameWords s ws) :
    sanitize u .snake s = finished u (started u .snake (joinWords (ws.map small))) := by
  cases hw with
  | plus => rfl
  | minus => rfl
  | none _ hn =>
    have he := wordsAt_unique hn (wordsOf_words _)
    have hnw : nameWords u s = [] := by rw [nameWords_ascii h hs, ← he]; rfl
    have hp : s ≠ "+1".toList := by rintro rfl; revert he; decide
    have hm : s ≠ "-1".toList := by rintro rfl; revert he; decide
    unfold sanitize cased
    rw [if_neg hp, if_neg hm]
    show finished u (started u .snake (joinWords (nameWords u s))) = _
    rw [hnw]
    have hx : u.xidStart 'x' = true := by rw [h.start_ascii 'x' (by decide)]; decide
    have : ["x".toList].map small = [['x']] := by decide
    rw [this]
    simp [joinWords, started, toCase_x h, hx]
  | some _ _ h1 h2 h3 h4 =>
    unfold sanitize cased
    rw [if_neg h1, if_neg h2]
    show finished u (started u .snake (joinWords (nameWords u s))) = _
    rw [nameWords_ascii h hs, wordsAt_unique h3 (wordsOf_words _)]

/-- C82: the name of a method, parameter or function for an ASCII text: its words in small letters with underscores in between, made
an identifier. -/
theorem C82_snake (h : Lawful u) {s : Str} (hs : Ascii s) {ws : List Str} (hw : NameWords s ws) :
    sanitize u .snake s = legal (underscored (ws.map small)) := by
  have hset := small_settled h hs hw
  rw [sanitize_words h hs hw, ← joinWords_underscored]
  have hj := joinWords_ne (fun w hw => (hset.1 w hw).1) hset.2
  have hcont := join_cont h hset.1
  obtain ⟨w, ws', hws⟩ := List.exists_cons_of_ne_nil hset.2
  have hcw := hset.1 w (by rw [hws]; simp)
  obtain ⟨c, cs, hwc⟩ := List.exists_cons_of_ne_nil hcw.1
  -- the first character is of the first word
  have hfirst : ∃ rest, joinWords (ws.map small) = c :: rest := by
    rw [hws, hwc]
    cases ws' with
    | nil => exact ⟨cs, rfl⟩
    | cons v vs => exact ⟨cs ++ '_' :: joinWords (v :: vs), rfl⟩
  obtain ⟨rest, hr⟩ := hfirst
  have hca : c.toNat < 128 ∧ c.isAlphanum = true := by
    have hm : w ∈ ws.map small := by rw [hws]; simp
    obtain ⟨v, hv, hvw⟩ := List.mem_map.mp hm
    have hvs : ∀ d ∈ v, d.isAlphanum = true := by
      cases hw with
      | plus => rw [List.mem_singleton.mp hv]; decide
      | minus => rw [List.mem_singleton.mp hv]; decide
      | none => rw [List.mem_singleton.mp hv]; decide
      | some _ _ h1 h2 h3 h4 =>
        rw [wordsAt_unique h3 (wordsOf_words _)] at hv
        exact (words_ascii_spec hv).2
    obtain ⟨d, hd, hdc⟩ : ∃ d ∈ v, d.toLower = c := by
      have : c ∈ small v := by rw [hvw, hwc]; simp
      simpa [small] using this
    have h1 := alphanum_ascii (hvs d hd)
    have h2 := toLower_ascii_aux ⟨d.toNat, h1⟩
    have h3 := toLower_alnum_aux ⟨d.toNat, h1⟩
    simp only [Char.ofNat_toNat] at h2 h3
    rw [← hdc]
    exact ⟨h2, h3 (hvs d hd)⟩
  rw [hr]
  refine finished_legal h .snake hca.1 hca.2 fun d hd => hcont d (by rw [hr]; simp [hd])

/-- C82: every ASCII text has exactly one list of words. -/
theorem C82_words (s : Str) : ∃ ws, NameWords s ws ∧ ∀ vs, NameWords s vs → vs = ws :=
  ⟨_, nameWords_iff.mpr rfl, fun _ h => nameWords_iff.mp h⟩

/-- C82: two ASCII texts become the same name exactly if their words are the same apart from case. -/
theorem C82_collision_iff (h : Lawful u) {s t : Str} (hs : Ascii s) (ht : Ascii t) {ws vs : List Str} (hw : NameWords s ws)
    (hv : NameWords t vs) : sanitize u .snake s = sanitize u .snake t ↔ ws.map small = vs.map small := by
  constructor
  · intro he
    have key : ∀ {s ws}, Ascii s → NameWords s ws → words u (sanitize u .snake s) = ws.map small := by
      intro s ws hs hw
      have hset := small_settled h hs hw
      rw [sanitize_words h hs hw]
      exact started_join h hset.1 hset.2
    rw [← key hs hw, he, key ht hv]
  · intro he
    rw [C82_snake h hs hw, C82_snake h ht hv, he]

theorem capitalize_capital (h : Lawful u) {w : Str} (hw : Ascii w) : capitalize u w = capital w := by
  cases w with
  | nil => rfl
  | cons c w =>
    simp only [capitalize, capital]
    rw [h.toUpper_ascii c (hw c (by simp)), lowercase_small h fun d hd => hw d (by simp [hd])]
    rfl

theorem flatMap_congr_mem {α β : Type} {l : List α} {f g : α → List β} (h : ∀ x ∈ l, f x = g x) : l.flatMap f = l.flatMap g := by
  induction l with
  | nil => rfl
  | cons x l ih => rw [List.flatMap_cons, List.flatMap_cons, h x (by simp), ih fun y hy => h y (by simp [hy])]

theorem small_alnum {w : Str} (hw : ∀ c ∈ w, c.isAlphanum = true) : ∀ c ∈ small w, c.toNat < 128 ∧ c.isAlphanum = true := by
  intro c hc
  obtain ⟨d, hd, rfl⟩ := List.mem_map.mp hc
  have h1 := alphanum_ascii (hw d hd)
  have h2 := toLower_ascii_aux ⟨d.toNat, h1⟩
  have h3 := toLower_alnum_aux ⟨d.toNat, h1⟩
  simp only [Char.ofNat_toNat] at h2 h3
  exact ⟨h2, h3 (hw d hd)⟩

theorem capital_alnum {w : Str} (hw : ∀ c ∈ w, c.isAlphanum = true) : ∀ c ∈ capital w, c.toNat < 128 ∧ c.isAlphanum = true := by
  cases w with
  | nil => intro c hc; cases hc
  | cons x w =>
    intro c hc
    rcases List.mem_cons.mp hc with rfl | hc
    · have h1 := alphanum_ascii (hw x (by simp))
      have h2 := toUpper_ascii_aux ⟨x.toNat, h1⟩
      have h3 := toUpper_alnum_aux ⟨x.toNat, h1⟩
      simp only [Char.ofNat_toNat] at h2 h3
      exact ⟨h2, h3 (hw x (by simp))⟩
    · exact small_alnum (fun d hd => hw d (by simp [hd])) c hc

theorem nameWords_alnum {s : Str} {ws : List Str} (hw : NameWords s ws) : ws ≠ [] ∧ ∀ w ∈ ws, w ≠ [] ∧ ∀ c ∈ w, c.isAlphanum = true := by
  have lit : ∀ t : Str, t ≠ [] → (∀ c ∈ t, c.isAlphanum = true) → ∀ w ∈ [t], w ≠ [] ∧ ∀ c ∈ w, c.isAlphanum = true := by
    intro t h1 h2 w hw
    rw [List.mem_singleton.mp hw]
    exact ⟨h1, h2⟩
  cases hw with
  | plus => exact ⟨by simp, lit _ (by decide) (by decide)⟩
  | minus => exact ⟨by simp, lit _ (by decide) (by decide)⟩
  | none => exact ⟨by simp, lit _ (by decide) (by decide)⟩
  | some _ _ h1 h2 h3 h4 =>
    refine ⟨h4, fun w hw => ?_⟩
    rw [wordsAt_unique h3 (wordsOf_words _)] at hw
    exact words_ascii_spec hw

/-- C82: the name of a type, builder or trait for an ASCII text: its words with capitals, made an identifier. -/
theorem C82_pascal (h : Lawful u) {s : Str} (hs : Ascii s) {ws : List Str} (hw : NameWords s ws) (hp : s ≠ "+1".toList)
    (hm : s ≠ "-1".toList) : sanitize u .pascal s = legal (ws.flatMap capital) := by
  have ha := ascii_agree h
  have hval := nameWords_alnum hw
  have hcased : cased u .pascal s = (words asciiTables (s.filter (· ≠ '\''))).flatMap capital := by
    unfold cased
    rw [if_neg hp, if_neg hm]
    show (words u (clean u s)).flatMap (capitalize u) = _
    rw [clean_agree ha hs, words_agree ha (clean_ascii hs), words_clean s]
    exact flatMap_congr_mem fun w hw => capitalize_capital h (words_ascii (fun c hc => hs c (List.mem_filter.mp hc).1) hw)
  have key : ∀ vs : List Str, vs ≠ [] → (∀ w ∈ vs, w ≠ [] ∧ ∀ c ∈ w, c.isAlphanum = true) →
      finished u (started u .pascal (vs.flatMap capital)) = legal (vs.flatMap capital) := by
    intro vs hne hvs
    obtain ⟨v, vs, rfl⟩ := List.exists_cons_of_ne_nil hne
    have hv := hvs v (by simp)
    obtain ⟨c, cs, rfl⟩ := List.exists_cons_of_ne_nil hv.1
    have hall : ∀ d ∈ ((c :: cs) :: vs).flatMap capital, d.toNat < 128 ∧ d.isAlphanum = true := by
      intro d hd
      obtain ⟨w, hw, hd⟩ := List.mem_flatMap.mp hd
      exact capital_alnum (hvs w hw).2 d hd
    have he : ((c :: cs) :: vs).flatMap capital = c.toUpper :: (small cs ++ vs.flatMap capital) := by
      simp [List.flatMap_cons, capital]
    rw [he] at hall ⊢
    have h1 := hall c.toUpper (by simp)
    refine finished_legal h .pascal h1.1 h1.2 fun d hd => ?_
    have h2 := hall d (by simp only [List.mem_cons]; exact .inr hd)
    rw [h.cont_ascii d h2.1, h2.2]
    rfl
  unfold sanitize
  rw [hcased]
  cases hw with
  | plus => exact absurd rfl hp
  | minus => exact absurd rfl hm
  | none _ hn =>
    rw [← wordsAt_unique hn (wordsOf_words _), ← key _ hval.1 hval.2]
    have hx : u.xidStart 'X' = true := by rw [h.start_ascii 'X' (by decide)]; decide
    have : ["x".toList].flatMap capital = ['X'] := by decide
    rw [this]
    simp [started, toCase_x h, hx]
  | some _ _ h1 h2 h3 h4 =>
    rw [← wordsAt_unique h3 (wordsOf_words _)]
    exact key _ hval.1 hval.2

/-- C82 fails for capitals: `+1` has a name without. -/
theorem C82_plus_fails (h : Lawful u) : sanitize u .pascal "+1".toList = "plus1".toList ∧ sanitize u .pascal "-1".toList = "minus1".toList := by
  have key : ∀ s : Str, Ascii s → (∃ c cs, s = c :: cs ∧ c.isAlphanum = true ∧ ∀ d ∈ cs, d.isAlphanum = true) → legal s = s →
      finished u (started u .pascal s) = s := by
    rintro s hs ⟨c, cs, rfl, h1, h2⟩ hl
    rw [finished_legal h .pascal (hs c (by simp)) h1 fun d hd => by rw [h.cont_ascii d (hs d (by simp [hd])), h2 d hd]; rfl, hl]
  exact ⟨key "plus1".toList (by unfold Ascii; decide) ⟨'p', "lus1".toList, by decide, by decide, by decide⟩ (by decide),
    key "minus1".toList (by unfold Ascii; decide) ⟨'m', "inus1".toList, by decide, by decide, by decide⟩ (by decide)⟩

theorem wordsAt_flatten {an up low : Char → Bool} {pre s : Str} {ws : List Str} (h : WordsAt an up low pre s ws) : ws.flatten = s.filter an := by
  induction h with
  | nil => rfl
  | sep pre c s ws hc _ ih => rw [List.filter_cons, if_neg (by simp [hc]), ih]
  | word pre c cs s ws ha _ _ _ ih =>
    rw [List.flatten_cons, List.filter_append, ih]
    congr 1
    exact (List.filter_eq_self.mpr ha).symm

theorem legal_letters (s : Str) : (legal s).filter Char.isAlphanum = s.filter Char.isAlphanum := by
  have h : ('_' : Char).isAlphanum = false := by decide
  unfold legal
  split
  · simp [h]
  · split
    · simp [List.filter_append, h]
    · rfl

theorem toLower_twice_aux : ∀ n : Fin 128, (Char.ofNat n).toLower.toLower = (Char.ofNat n).toLower ∧
    (Char.ofNat n).toUpper.toLower = (Char.ofNat n).toLower := by decide +kernel

theorem toLower_twice {c : Char} (hc : c.toNat < 128) : c.toLower.toLower = c.toLower ∧ c.toUpper.toLower = c.toLower := by
  have := toLower_twice_aux ⟨c.toNat, hc⟩
  simpa only [Char.ofNat_toNat] using this

theorem small_small {w : Str} (hw : ∀ c ∈ w, c.isAlphanum = true) : small (small w) = small w := by
  unfold small
  rw [List.map_map]
  exact List.map_congr_left fun c hc => (toLower_twice (alphanum_ascii (hw c hc))).1

theorem small_capital {w : Str} (hw : ∀ c ∈ w, c.isAlphanum = true) : small (capital w) = small w := by
  cases w with
  | nil => rfl
  | cons c w =>
    have h1 := (toLower_twice (alphanum_ascii (hw c (by simp)))).2
    have h2 := small_small (w := w) fun d hd => hw d (by simp [hd])
    unfold small at h2 ⊢
    simp only [capital, List.map_cons]
    rw [h1]
    congr 1

theorem filter_underscored {ws : List Str} (hw : ∀ w ∈ ws, ∀ c ∈ w, c.isAlphanum = true) :
    (underscored ws).filter Char.isAlphanum = ws.flatten := by
  have hu : ('_' : Char).isAlphanum = false := by decide
  rw [← joinWords_underscored]
  induction ws with
  | nil => rfl
  | cons w ws ih =>
    have ih := ih fun x hx => hw x (by simp [hx])
    have h1 : w.filter Char.isAlphanum = w := List.filter_eq_self.mpr (hw w (by simp))
    cases ws with
    | nil => simpa [joinWords] using h1
    | cons v ws =>
      simp only [joinWords] at ih ⊢
      rw [List.filter_append, h1, List.filter_cons, if_neg (by simp [hu]), ih]
      rfl

theorem small_flatten (ws : List Str) : small ws.flatten = (ws.map small).flatten := by
  unfold small
  induction ws with
  | nil => rfl
  | cons w ws ih => simp [ih]

/-- C82: names have all letters and digits of the text, in order, and no others. -/
theorem C82_letters (h : Lawful u) (case : Case) {s : Str} (hs : Ascii s) (hp : s ≠ "+1".toList) (hm : s ≠ "-1".toList)
    (hne : ∃ c ∈ s, c.isAlphanum = true) :
    small ((sanitize u case s).filter Char.isAlphanum) = small (s.filter Char.isAlphanum) := by
  obtain ⟨ws, hw, -⟩ := C82_words s
  have hval := nameWords_alnum hw
  have hflat : ws.flatten = s.filter Char.isAlphanum := by
    have hq : (s.filter (· ≠ '\'')).filter Char.isAlphanum = s.filter Char.isAlphanum := by
      rw [List.filter_filter]
      refine List.filter_congr fun c _ => ?_
      by_cases hc : c = '\''
      · subst hc; decide
      · simp [hc]
    cases hw with
    | plus => exact absurd rfl hp
    | minus => exact absurd rfl hm
    | none _ hn =>
      have := wordsAt_flatten hn
      rw [hq] at this
      obtain ⟨c, hc, ha⟩ := hne
      exact absurd (List.mem_filter.mpr ⟨hc, ha⟩) (by rw [← this]; simp)
    | some _ _ _ _ hn => rw [wordsAt_flatten hn, hq]
  rw [← hflat]
  cases case with
  | snake =>
    rw [C82_snake h hs hw, legal_letters, filter_underscored, small_flatten, small_flatten, List.map_map]
    · congr 1
      exact List.map_congr_left fun w hw => small_small (hval.2 w hw).2
    · intro w hw c hc
      obtain ⟨v, hv, rfl⟩ := List.mem_map.mp hw
      exact (small_alnum (hval.2 v hv).2 c hc).2
  | pascal =>
    rw [C82_pascal h hs hw hp hm, legal_letters]
    have : (ws.flatMap capital).filter Char.isAlphanum = (ws.map capital).flatten := by
      rw [List.filter_eq_self.mpr]
      · rfl
      · intro c hc
        obtain ⟨w, hw, hc⟩ := List.mem_flatMap.mp hc
        exact (capital_alnum (hval.2 w hw).2 c hc).2
    rw [this, small_flatten, small_flatten, List.map_map]
    congr 1
    exact List.map_congr_left fun w hw => small_capital (hval.2 w hw).2

/-- C82, C43: the methods of a document whose operation ids are ASCII have distinct names exactly if no two operation ids have the
same words apart from case. -/
theorem C82_distinct_iff (h : Lawful u) {types : Types} {d : Document} {ms : List Processed} (hm : rawMethods u types d = .ok ms)
    (ha : AllIds d Ascii) : (ms.map fun p => p.op.operationId).Nodup ↔
      (opsOf d).Pairwise fun o o' => ∀ id id' ws ws', o.id = some id → o'.id = some id' → NameWords id ws → NameWords id' ws' →
        ws.map small ≠ ws'.map small := by
  have hv := (C44_validate_iff h d).mp (rawMethods_ok hm).1
  rw [method_names hm]
  have key : ∀ os : List RawOperation, (∀ o ∈ os, o ∈ opsOf d) →
      ((os.map fun o => sanitize u .snake (o.id.getD [])).Nodup ↔
      os.Pairwise fun o o' => ∀ id id' ws ws', o.id = some id → o'.id = some id' → NameWords id ws → NameWords id' ws' →
        ws.map small ≠ ws'.map small) := by
    intro os hos
    induction os with
    | nil => simp
    | cons o os ih =>
      rw [List.map_cons, List.nodup_cons, List.pairwise_cons, ih fun x hx => hos x (by simp [hx])]
      refine and_congr_left fun _ => ?_
      have ho := hos o (by simp)
      obtain ⟨id, hid⟩ := Option.ne_none_iff_exists'.mp (hv.hasId o ho)
      obtain ⟨ws, hws, -⟩ := C82_words id
      constructor
      · intro hn o' ho' i i' vs vs' hi hi' hvs hvs' he
        refine hn (List.mem_map.mpr ⟨o', ho', ?_⟩)
        rw [hi, hi']
        exact ((C82_collision_iff h (ha o ho i hi) (ha o' (hos o' (by simp [ho'])) i' hi') hvs hvs').mpr he).symm
      · intro hp hn
        obtain ⟨o', ho', he⟩ := List.mem_map.mp hn
        obtain ⟨id', hid'⟩ := Option.ne_none_iff_exists'.mp (hv.hasId o' (hos o' (by simp [ho'])))
        obtain ⟨ws', hws', -⟩ := C82_words id'
        rw [hid, hid'] at he
        exact hp o' ho' id id' ws ws' hid hid' hws hws'
          ((C82_collision_iff h (ha o ho id hid) (ha o' (hos o' (by simp [ho'])) id' hid') hws hws').mp he.symm)
  exact key _ fun _ h => h

end

/-! ## Examples -/

theorem wordsOf_iff {s : Str} {ws : List Str} : WordsOf s ws ↔ ws = words asciiTables s :=
  ⟨fun h => wordsAt_unique h (wordsOf_words _), fun h => h ▸ wordsOf_words _⟩

example : WordsOf "getHTTPResponse-v2B".toList ["get".toList, "HTTP".toList, "Response".toList, "v2".toList, "B".toList] :=
  wordsOf_iff.mpr (by decide)
example : NameWords "it's_2Big".toList ["its".toList, "2Big".toList] := nameWords_iff.mpr (by decide)
example : NameWords "getFoo".toList ["get".toList, "Foo".toList] ∧ NameWords "GET foo".toList ["GET".toList, "foo".toList] :=
  ⟨nameWords_iff.mpr (by decide), nameWords_iff.mpr (by decide)⟩
example : Hump Char.isAlphanum Char.isUpper Char.isLower "a1".toList 'B' [] :=
  ⟨by decide, [], 'a', ['1'], rfl, by decide, by decide, .inl (by decide)⟩
example : AllIds (getDoc [("getFoo", []), ("GET foo", [])]) Ascii := by
  intro o ho id hid
  simp [opsOf, getDoc] at ho
  rcases ho with rfl | rfl <;> cases hid <;> (unfold Ascii; decide)
example : legal (underscored (["Type".toList].map small)) = "type_".toList := by decide

end Progenitor.Props

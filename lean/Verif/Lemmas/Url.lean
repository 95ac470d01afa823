import Verif.Lemmas.Template
import Verif.Lemmas.Encode

namespace Progenitor

open Progenitor.Spec Progenitor.Template

/-! ### Structure of accepted templates, stray braces included -/

/-- Constants are non-empty, contain no `{`, a `}` only in first position, and
no double slash. -/
def LaxComp : Component → Prop
  | .const s => ∃ c r, s = c :: r ∧ c ≠ '{' ∧ (∀ d ∈ r, d ≠ '{' ∧ d ≠ '}') ∧ collapse s = s
  | .param n => ∀ c ∈ n, c ≠ '{' ∧ c ≠ '}' ∧ c ≠ '/'

def isConst : Component → Bool
  | .const _ => true
  | .param _ => false

/-- No two neighbouring constants. -/
inductive Alternating : PathTemplate → Prop
  | nil : Alternating []
  | param (n p) : Alternating p → Alternating (.param n :: p)
  | const (s p) : (∀ x, p.head? = some x → isConst x = false) → Alternating p →
      Alternating (.const s :: p)

theorem Alternating.snoc_param {p : PathTemplate} (h : Alternating p) (n) :
    Alternating (p ++ [.param n]) := by
  induction h with
  | nil => exact .param _ _ .nil
  | param m p _ ih => exact .param _ _ ih
  | const s p hh _ ih =>
    refine .const _ _ ?_ ih
    intro x hx
    cases p with
    | nil => simp at hx; subst hx; rfl
    | cons y p => simp at hx; subst hx; exact hh _ rfl

theorem Alternating.snoc_const {p : PathTemplate} (h : Alternating p) (s)
    (hl : ∀ x, p.getLast? = some x → isConst x = false) : Alternating (p ++ [.const s]) := by
  induction h with
  | nil => exact .const _ _ (by simp) .nil
  | param m p hp ih =>
    refine .param _ _ ?_
    cases p with
    | nil => exact .const _ _ (by simp) .nil
    | cons y p => exact ih fun x hx => hl x (by simpa using hx)
  | const s' p hh hp ih =>
    cases p with
    | nil => exact absurd (hl _ rfl) (by simp [isConst])
    | cons y p =>
      refine .const _ _ ?_ (ih fun x hx => hl x (by simpa using hx))
      intro x hx; simp at hx; subst hx; exact hh _ rfl

theorem collapseFrom_snoc (t : Str) (c : Char) : ∀ b, collapseFrom b t = t →
    (c ≠ '/' ∨ (if t = [] then b else endsWithSlash t) = false) → collapseFrom b (t ++ [c]) = t ++ [c] := by
  induction t with
  | nil => intro b _ h; simp [collapseFrom] at *; intro h1; simp_all
  | cons d t ih =>
    intro b h1 h2
    rw [List.cons_append]
    simp only [collapseFrom] at h1 ⊢
    by_cases h3 : d = '/' ∧ b = true
    · rw [if_pos h3] at h1
      have hlen : ∀ (b : Bool) (t : Str), (collapseFrom b t).length ≤ t.length := by
        intro b t
        induction t generalizing b with
        | nil => simp [collapseFrom]
        | cons e t ih' =>
          simp only [collapseFrom]; split
          · have := ih' true; simp; omega
          · have := ih' (e == '/'); simp; omega
      have := hlen true t
      rw [h1] at this; simp at this; omega
    · rw [if_neg h3] at h1 ⊢
      simp at h1
      congr 1
      apply ih _ h1
      rcases h2 with h2 | h2
      · exact .inl h2
      · right
        cases t with
        | nil => simpa [endsWithSlash] using h2
        | cons e t => simpa [endsWithSlash] using h2

theorem struct_run (t : Str) : ∀ (a : Str) (cs : List Component) (p),
    (∀ x ∈ cs, LaxComp x) → Alternating cs →
    ((LaxComp (.const a) → (∀ x, cs.getLast? = some x → isConst x = false) →
      runFinish ⟨.const, a, cs⟩ t = .ok p →
      (∀ x ∈ p, LaxComp x) ∧ Alternating p) ∧
    ((∀ x, cs.getLast? = some x → isConst x = false) → runFinish ⟨.constOrParam, a, cs⟩ t = .ok p →
      (∀ x ∈ p, LaxComp x) ∧ Alternating p) ∧
    ('}' ∉ a → runFinish ⟨.param, a, cs⟩ t = .ok p → (∀ x ∈ p, LaxComp x) ∧ Alternating p)) := by
  induction t with
  | nil =>
    intro a cs p hcs halt
    refine ⟨?_, ?_, ?_⟩
    · intro ha hl; simp [finish]
      rintro rfl
      refine ⟨?_, halt.snoc_const _ hl⟩
      intro x hx
      rcases List.mem_append.1 hx with hx | hx
      · exact hcs x hx
      · simp at hx; subst hx; exact ha
    · simp [finish]; rintro _ rfl; exact ⟨hcs, halt⟩
    · simp [finish]
  | cons c t ih =>
    intro a cs p hcs halt
    simp only [runFinish_cons]
    refine ⟨?_, ?_, ?_⟩
    · intro ha hl
      have hcs' : ∀ x ∈ cs ++ [.const a], LaxComp x := by
        intro x hx
        rcases List.mem_append.1 hx with hx | hx
        · exact hcs x hx
        · simp at hx; subst hx; exact ha
      by_cases h1 : c = '{'
      · subst h1
        simp only [step, if_true]
        exact (ih [] _ p hcs' (halt.snoc_const _ hl)).2.2 (by simp)
      · by_cases h2 : c = '}'
        · simp [step, h2]
        by_cases h3 : c ≠ '/' ∨ endsWithSlash a = false
        · simp only [step, h1, h2, if_false, if_pos h3]
          refine (ih _ _ p hcs halt).1 ?_ hl
          obtain ⟨d, r, rfl, hd, hr, hc⟩ := ha
          refine ⟨d, r ++ [c], by simp, hd, ?_, ?_⟩
          · intro e he
            rcases List.mem_append.1 he with he | he
            · exact hr e he
            · simp at he; subst he; exact ⟨h1, h2⟩
          · rw [collapse_eq] at hc ⊢
            exact collapseFrom_snoc _ _ _ hc (by simpa using h3)
        · simp only [step, h1, h2, if_false, if_neg h3]
          exact (ih _ _ p hcs halt).1 ha hl
    · intro hl
      by_cases h1 : c = '{'
      · subst h1
        simp only [step, if_true]
        exact (ih [] _ p hcs halt).2.2 (by simp)
      · simp only [step, h1, if_false]
        exact (ih _ _ p hcs halt).1 ⟨c, [], rfl, h1, by simp, by simp [collapse]⟩ hl
    · intro ha
      by_cases h1 : c = '}'
      · subst h1
        by_cases h2 : '/' ∈ a ∨ '{' ∈ a
        · simp [step, h2]
        · simp only [step, if_true, if_neg h2]
          refine (ih _ _ p ?_ (halt.snoc_param _)).2.1 (by simp [isConst])
          intro x hx
          rcases List.mem_append.1 hx with hx | hx
          · exact hcs x hx
          · simp at hx; subst hx
            intro d hd
            refine ⟨?_, ?_, ?_⟩ <;> (rintro rfl; simp_all)
      · simp only [step, h1, if_false]
        exact (ih _ _ p hcs halt).2.2 (by simp [ha, Ne.symm h1])

theorem parse_struct {t : Str} {p : PathTemplate} (h : parse t = .ok p) :
    (∀ x ∈ p, LaxComp x) ∧ Alternating p := by
  rw [parse_eq, runFinish_start] at h
  obtain ⟨r', h1, h2⟩ := h
  exact (struct_run r' _ _ p (by simp) .nil).1
    ⟨'/', [], rfl, by decide, by simp, by simp [collapse]⟩ (by simp) h2

/-! ### Stray braces never format -/

def dirty : Component → Bool
  | .const s => s.head? == some '}'
  | .param _ => false

theorem rustFormat_dirty (p : PathTemplate) (hp : ∀ x ∈ p, LaxComp x) (ha : Alternating p)
    (hd : ∃ x ∈ p, dirty x = true) : ∀ args, rustFormat (fmtOf p) args = none := by
  induction ha with
  | nil => simp at hd
  | param n p _ ih =>
    intro args
    have ih := ih (fun x hx => hp x (by simp [hx])) (by simpa [dirty] using hd)
    rw [fmt_cons_param]
    cases args with
    | nil => simp [rustFormat]
    | cons x args => simp [rustFormat, ih]
  | const s p hh _ ih =>
    intro args
    obtain ⟨c, r, rfl, hc, hr, _⟩ := hp (.const s) (by simp)
    rw [fmt_cons_const]
    by_cases h : c = '}'
    · subst h
      -- what follows the stray brace is not a closing brace
      have hnext : (r ++ fmtOf p).head? ≠ some '}' := by
        cases r with
        | cons d r => simp; exact (hr d (by simp)).2
        | nil =>
          cases p with
          | nil => simp [fmtOf]
          | cons y p =>
            cases y with
            | const s => have := hh _ rfl; simp [isConst] at this
            | param n => simp [fmt_cons_param]
      rw [List.cons_append]
      generalize r ++ fmtOf p = q at hnext
      cases q with
      | nil => simp [rustFormat]
      | cons d q =>
        have : d ≠ '}' := by simpa using hnext
        rw [rustFormat]
        simp [this]
    · have ih := ih (fun x hx => hp x (by simp [hx])) (by simpa [dirty, h] using hd)
      rw [rustFormat_lit (c :: r), ih]
      · rfl
      · intro d hd'
        simp at hd'
        rcases hd' with rfl | hd'
        · exact ⟨hc, h⟩
        · exact hr d hd'

theorem clean_of_not_dirty (x : Component) (h : LaxComp x) (hd : dirty x = false) : CleanComp x := by
  cases x with
  | param n => exact h
  | const s =>
    obtain ⟨c, r, rfl, hc, hr, _⟩ := h
    intro d hd'
    simp at hd'
    rcases hd' with rfl | hd'
    · simp [dirty] at hd; exact ⟨hc, hd⟩
    · exact hr d hd'

theorem pathTail_lit (s r : Str) (hs : ∀ c ∈ s, c ≠ '{' ∧ c ≠ '}') (hr : PathTail r) : PathTail (s ++ r) := by
  induction s with
  | nil => exact hr
  | cons c s ih =>
    exact .char c _ (hs c (by simp)).1 (hs c (by simp)).2 (ih fun d hd => hs d (by simp [hd]))

theorem pathTail_toString (p : PathTemplate) (hp : ∀ x ∈ p, CleanComp x) : PathTail (toString p) := by
  induction p with
  | nil => exact .nil
  | cons x p ih =>
    have ih := ih fun y hy => hp y (by simp [hy])
    have hx := hp x (by simp)
    cases x with
    | const s =>
      rw [show Template.toString (.const s :: p) = s ++ Template.toString p by simp [Template.toString, Component.toStr]]
      exact pathTail_lit s _ hx ih
    | param n =>
      rw [show Template.toString (.param n :: p) = '{' :: n ++ '}' :: Template.toString p by
        simp [Template.toString, Component.toStr]]
      exact .param n _ hx ih

theorem noDoubleClose_collapse (t : Str) (b) (h : NoDoubleClose (collapseFrom b t)) :
    NoDoubleClose t := by
  rintro ⟨a, r, rfl⟩
  apply h
  have : ∀ (a : Str) b, ∃ a', collapseFrom b (a ++ '}' :: '}' :: r) = a' ++ '}' :: '}' :: collapseFrom false r := by
    intro a
    induction a with
    | nil => intro b; exact ⟨[], by simp [collapseFrom]⟩
    | cons c a ih =>
      intro b
      simp only [List.cons_append, collapseFrom]
      split
      · exact ih true
      · obtain ⟨a', h⟩ := ih (c == '/')
        exact ⟨c :: a', by simp [h]⟩
  obtain ⟨a', h'⟩ := this a b
  exact ⟨a', _, h'⟩

/-- Accepted paths without stray brace are the well-formed ones. -/
theorem wellFormed_of_clean {t : Str} {p : PathTemplate} (h : parse t = .ok p)
    (hp : ∀ x ∈ p, CleanComp x) : WellFormedPath t := by
  obtain ⟨r, rfl, hr⟩ := (parse_accepts t).1 ⟨p, h⟩
  refine ⟨r, rfl, Template.LaxTail.clean hr ?_⟩
  rw [parse_eq, runFinish_start] at h
  obtain ⟨r', h1, h2⟩ := h
  simp at h1; subst h1
  have hs := (printed r ['/'] [] p).1 h2
  have ht := (Template.PathTail.noDoubleClose (pathTail_toString p hp)).1
  rw [hs] at ht
  apply noDoubleClose_collapse r (endsWithSlash ['/'])
  rintro ⟨a, b, h⟩
  exact ht ⟨'/' :: a, b, by simp [h]⟩

/-! ### Slash-separated templates -/

/-- What `segsText` becomes when parameters are replaced. -/
def segsUrl (f : Str → Str) (l : List Seg) : Str :=
  l.flatMap fun | .lit s => '/' :: s | .par n pre post => '/' :: (pre ++ f n ++ post)

theorem affix_plain {s : Str} (h : s.all affixChar = true) : s.all plainChar = true := by
  rw [List.all_eq_true] at h ⊢
  intro c hc
  have := h c hc
  simp only [affixChar, Bool.and_eq_true] at this
  exact this.1.2

theorem plain_no_brace {s : Str} (h : s.all plainChar = true) : ∀ c ∈ s, c ≠ '{' ∧ c ≠ '}' := by
  intro c hc
  have := List.all_eq_true.1 h c hc
  constructor <;> (rintro rfl; simp [plainChar] at this)

theorem pathTail_segs (l : List Seg) (h : SegsOk l) : PathTail (segsText l) := by
  induction l with
  | nil => exact .nil
  | cons x l ih =>
    cases x with
    | lit s =>
      obtain ⟨_, hs, _, _, hl⟩ := h
      rw [show segsText (.lit s :: l) = ('/' :: s) ++ segsText l by simp [segsText]]
      refine pathTail_lit _ _ ?_ (ih hl)
      intro c hc
      simp at hc
      rcases hc with rfl | hc
      · decide
      · have := List.all_eq_true.1 hs c hc
        constructor <;> (rintro rfl; simp [plainChar] at this)
    | par n pre post =>
      obtain ⟨hn, hp, hq, hl⟩ := h
      rw [show segsText (.par n pre post :: l) = '/' :: (pre ++ ('{' :: n ++ '}' :: (post ++ segsText l))) by simp [segsText]]
      exact .char _ _ (by decide) (by decide) (pathTail_lit _ _ (plain_no_brace (affix_plain hp))
        (.param n _ hn (pathTail_lit _ _ (plain_no_brace (affix_plain hq)) (ih hl))))

theorem wellFormed_segs (l : List Seg) (h : SegsOk l) (hne : l ≠ []) : WellFormedPath (segsText l) := by
  have ht := pathTail_segs l h
  cases l with
  | nil => exact absurd rfl hne
  | cons x l =>
    have : ∃ r, segsText (x :: l) = '/' :: r := by
      cases x <;> simp [segsText]
    obtain ⟨r, hr⟩ := this
    rw [hr] at ht
    exact ⟨r, hr, (pathTail_char _ _ (by decide) ht).2⟩

theorem collapseFrom_append_lit (s r : Str) (hs : ∀ c ∈ s, c ≠ '/') :
    ∀ b, collapseFrom b (s ++ r) = s ++ collapseFrom (if s = [] then b else false) r := by
  induction s with
  | nil => intro b; simp
  | cons c s ih =>
    intro b
    have hc := hs c (by simp)
    rw [List.cons_append, collapseFrom_of_ne _ _ _ hc, ih fun d hd => hs d (by simp [hd])]
    simp

theorem plain_ne_slash {s : Str} (h : s.all plainChar = true) : ∀ c ∈ s, c ≠ '/' := by
  rintro c hc rfl
  have := List.all_eq_true.1 h _ hc
  simp [plainChar] at this

theorem collapse_segs (l : List Seg) (h : SegsOk l) : collapseFrom false (segsText l) = segsText l := by
  induction l with
  | nil => rfl
  | cons x l ih =>
    cases x with
    | lit s =>
      obtain ⟨hs0, hs, _, _, hl⟩ := h
      rw [show segsText (.lit s :: l) = '/' :: (s ++ segsText l) by simp [segsText]]
      simp only [collapseFrom, Bool.false_eq_true, and_false, if_false]
      rw [collapseFrom_append_lit s _ (plain_ne_slash hs)]
      by_cases h0 : s = []
      · have := hs0 h0; subst this; simp [segsText, collapseFrom]
      · simp [h0, ih hl]
    | par n pre post =>
      obtain ⟨hn, hp, hq, hl⟩ := h
      rw [show segsText (.par n pre post :: l) = '/' :: ((pre ++ '{' :: n ++ '}' :: post) ++ segsText l) by simp [segsText]]
      simp only [collapseFrom, Bool.false_eq_true, and_false, if_false]
      rw [collapseFrom_append_lit (pre ++ '{' :: n ++ '}' :: post) _ (by
        intro c hc
        simp only [List.mem_append, List.mem_cons] at hc
        rcases hc with (hc | rfl | hc) | rfl | hc
        · exact plain_ne_slash (affix_plain hp) c hc
        · decide
        · exact (hn c hc).2.2
        · decide
        · exact plain_ne_slash (affix_plain hq) c hc)]
      simp [ih hl]

theorem substGroups_segs (f : Str → Str) (l : List Seg) (h : SegsOk l) :
    substGroups f (segsText l) = segsUrl f l := by
  induction l with
  | nil => simp [segsText, segsUrl, substGroups_nil]
  | cons x l ih =>
    cases x with
    | lit s =>
      obtain ⟨_, hs, _, _, hl⟩ := h
      rw [show segsText (.lit s :: l) = ('/' :: s) ++ segsText l by simp [segsText]]
      rw [substGroups_lit, ih hl]
      · simp [segsUrl]
      · intro c hc
        simp at hc
        rcases hc with rfl | hc
        · decide
        · have := List.all_eq_true.1 hs c hc
          constructor <;> (rintro rfl; simp [plainChar] at this)
    | par n pre post =>
      obtain ⟨hn, hp, hq, hl⟩ := h
      rw [show segsText (.par n pre post :: l) = ['/'] ++ (pre ++ ('{' :: n ++ '}' :: (post ++ segsText l))) by simp [segsText]]
      rw [substGroups_lit _ _ _ (by simp), substGroups_lit _ _ _ (plain_no_brace (affix_plain hp)),
        substGroups_param f n _ (fun c hc => (hn c hc).2.1), substGroups_lit _ _ _ (plain_no_brace (affix_plain hq)), ih hl]
      simp [segsUrl]

/-! ### URL parsing of slash-separated paths -/

theorem splitAt_lit (p : Char → Bool) (s r : Str) (hs : ∀ c ∈ s, p c = false) :
    ∃ x xs, splitAt p r = x :: xs ∧ splitAt p (s ++ r) = (s ++ x) :: xs := by
  induction s with
  | nil =>
    have : ∃ x xs, splitAt p r = x :: xs := by
      cases r with
      | nil => exact ⟨_, _, rfl⟩
      | cons c r =>
        simp only [splitAt]
        split
        · exact ⟨_, _, rfl⟩
        · split <;> exact ⟨_, _, rfl⟩
    obtain ⟨x, xs, h⟩ := this
    exact ⟨x, xs, h, by simpa using h⟩
  | cons c s ih =>
    obtain ⟨x, xs, h1, h2⟩ := ih fun d hd => hs d (by simp [hd])
    refine ⟨x, xs, h1, ?_⟩
    simp only [List.cons_append, splitAt, hs c (by simp), h2]
    rfl

/-- Text of segments joined by leading slashes. -/
def joinSegs (l : List Str) : Str := l.flatMap ('/' :: ·)

theorem splitAt_joinSegs (p : Char → Bool) (hp : p '/' = true) (l : List Str)
    (hl : ∀ s ∈ l, ∀ c ∈ s, p c = false) : splitAt p (joinSegs l) = [] :: l := by
  induction l with
  | nil => rfl
  | cons s l ih =>
    have ih := ih fun t ht => hl t (by simp [ht])
    rw [show joinSegs (s :: l) = '/' :: (s ++ joinSegs l) by simp [joinSegs]]
    obtain ⟨x, xs, h1, h2⟩ := splitAt_lit p s (joinSegs l) (hl s (by simp))
    rw [ih] at h1
    simp at h1
    obtain ⟨rfl, rfl⟩ := h1
    simp [splitAt, hp, h2]

theorem normSegs_id (l : List Str) (hl : ∀ s ∈ l, isSingleDot s = false ∧ isDoubleDot s = false) :
    ∀ acc, normSegs acc l = acc.reverse ++ l := by
  induction l with
  | nil => simp [normSegs]
  | cons s l ih =>
    intro acc
    have hs := hl s (by simp)
    simp [normSegs, hs, ih fun t ht => hl t (by simp [ht])]

/-- The character neither ends a path segment nor the path, nor is dropped. -/
def inert (c : Char) : Bool :=
  !(c == '/' || c == '\\' || c == '?' || c == '#' || c == '\t' || c == '\n' || c == '\r')

theorem takeWhile_all {α} (p : α → Bool) (l : List α) (h : ∀ x ∈ l, p x = true) :
    l.takeWhile p = l ∧ l.dropWhile p = [] := by
  induction l with
  | nil => simp
  | cons a l ih =>
    have := ih fun x hx => h x (by simp [hx])
    have ha := h a (by simp)
    simp [ha, this]

theorem parseUrlTail_joinSegs (l : List Str)
    (hl : ∀ s ∈ l, s.all inert = true ∧ isSingleDot s = false ∧ isDoubleDot s = false) :
    parseUrlTail (joinSegs l) = ⟨l, none, none⟩ := by
  have hmem : ∀ c ∈ joinSegs l, c = '/' ∨ inert c = true := by
    intro c hc
    simp only [joinSegs, List.mem_flatMap, List.mem_cons] at hc
    obtain ⟨s, hs, rfl | hc⟩ := hc
    · exact .inl rfl
    · exact .inr (List.all_eq_true.1 (hl s hs).1 c hc)
  have hfil : (joinSegs l).filter (fun c => !(c == '\t' || c == '\n' || c == '\r')) = joinSegs l := by
    rw [List.filter_eq_self]
    intro c hc
    rcases hmem c hc with rfl | h
    · decide
    · simp [inert] at h ⊢; simp [h]
  have h1 := takeWhile_all (fun c : Char => decide (c ≠ '#')) (joinSegs l) (by
    intro c hc
    rcases hmem c hc with rfl | h
    · decide
    · simp [inert] at h ⊢; simp [h])
  have h2 := takeWhile_all (fun c : Char => decide (c ≠ '?')) (joinSegs l) (by
    intro c hc
    rcases hmem c hc with rfl | h
    · decide
    · simp [inert] at h ⊢; simp [h])
  unfold parseUrlTail
  simp only [hfil, h1.1, h1.2, h2.1, h2.2]
  rw [splitAt_joinSegs _ (by decide) l (by
    intro s hs c hc
    have := List.all_eq_true.1 (hl s hs).1 c hc
    simp [inert] at this ⊢; simp [this])]
  simp [normSegs_id l (fun s hs => (hl s hs).2)]

theorem splitAt_injective (p : Char → Bool) (hp : p '/' = true) (l l' : List Str)
    (hl : ∀ s ∈ l, ∀ c ∈ s, p c = false) (hl' : ∀ s ∈ l', ∀ c ∈ s, p c = false)
    (h : joinSegs l = joinSegs l') : l = l' := by
  have h1 := splitAt_joinSegs p hp l hl
  rw [h, splitAt_joinSegs p hp l' hl'] at h1
  simpa using h1.symm

/-! ### Dots and backslashes in encoded arguments -/

theorem encodePath_no_backslash (s : Str) (hs : '\\' ∉ s) : '\\' ∉ encodePath s := by
  intro h
  simp only [encodePath, List.mem_flatMap] at h
  obtain ⟨b, hb, hc⟩ := h
  have key : ∀ b : UInt8, '\\' ∈ pathByte b → b = 92 := by
    apply forall_uint8; decide +kernel
  have hb92 := key b hc
  subst hb92
  simp only [utf8, List.mem_flatMap] at hb
  obtain ⟨c, hc', hb⟩ := hb
  have hcne : c ≠ '\\' := fun h => hs (h ▸ hc')
  -- only the backslash itself has the byte 92
  apply hcne
  have : ∀ c : Char, (92 : UInt8) ∈ String.utf8EncodeChar c → c.val.toNat = 92 := by
    intro c h
    unfold String.utf8EncodeChar at h
    simp only at h
    have hv := c.val.toNat_lt
    split at h
    · simp at h
      have := congrArg UInt8.toNat h
      rename_i hle; simp at this; have : c.val.toNat = c.toNat := rfl; omega
    · split at h
      · simp at h
        rcases h with h | h <;> (have := congrArg UInt8.toNat h; simp at this; omega)
      · split at h
        · simp at h
          rcases h with h | h | h <;> (have := congrArg UInt8.toNat h; simp at this; omega)
        · simp at h
          rcases h with h | h | h | h <;> (have := congrArg UInt8.toNat h; simp at this; omega)
  have h := this c hb
  exact Char.ext (UInt32.toNat_inj.1 h)

theorem encodePath_injective {s t : Str} (h : encodePath s = encodePath t) : s = t := by
  apply utf8_injective
  rw [← percentDecode_encodePath, ← percentDecode_encodePath, h]

theorem encodePath_inert (s : Str) (hs : '\\' ∉ s) : (encodePath s).all inert = true := by
  rw [List.all_eq_true]
  intro c hc
  have h1 := encodePath_alphabet s c hc
  have h2 : c ≠ '\\' := fun h => encodePath_no_backslash s hs (h ▸ hc)
  simp only [inert, Bool.not_eq_true', Bool.or_eq_false_iff, beq_eq_false_iff_ne]
  refine ⟨⟨⟨⟨⟨⟨?_, h2⟩, ?_⟩, ?_⟩, ?_⟩, ?_⟩, ?_⟩ <;> (rintro rfl; revert h1; decide)

theorem pathByte_head_lits : ∀ b : UInt8,
    (pathByte b = [Char.ofNat b.toNat] ∧ Char.ofNat b.toNat ≠ '%') ∨
    (∃ h l, pathByte b = ['%', h, l] ∧ hexVal h = some (b.toNat / 16) ∧ hexVal l = some (b.toNat % 16)) := by
  intro b
  rcases pathByte_cases b with ⟨h, h1, h2⟩ | ⟨h, _⟩
  · left
    refine ⟨h, fun h3 => ?_⟩
    rw [inPathSet_pct b h1 h3] at h2; simp at h2
  · right
    refine ⟨_, _, h, hexVal_hexDigit _ (by have := b.toNat_lt; omega), hexVal_hexDigit _ (by omega)⟩

theorem dot_pathByte : pathByte 46 = ['.'] := by decide

theorem utf8_dot : utf8 ['.'] = [46] := by decide
theorem utf8_dotdot : utf8 ['.', '.'] = [46, 46] := by decide

theorem encodePath_dots (s : Str) (h : s ≠ ['.'] ∧ s ≠ ['.', '.']) :
    isSingleDot (encodePath s) = false ∧ isDoubleDot (encodePath s) = false := by
  -- if the encoding were a dot segment, its percent-decoding would be "." or ".."
  have hd := percentDecode_encodePath s
  have h1 : utf8 s ≠ [46] := fun e => h.1 (utf8_injective (e.trans utf8_dot.symm))
  have h2 : utf8 s ≠ [46, 46] := fun e => h.2 (utf8_injective (e.trans utf8_dotdot.symm))
  constructor
  · rw [Bool.eq_false_iff]; intro hs
    simp only [isSingleDot, Bool.or_eq_true, beq_iff_eq] at hs
    rcases hs with (hs | hs) | hs <;> (rw [hs] at hd; exact h1 (hd.symm.trans (by decide)))
  · rw [Bool.eq_false_iff]; intro hs
    simp only [isDoubleDot, Bool.or_eq_true, beq_iff_eq] at hs
    rcases hs with (((((((hs | hs) | hs) | hs) | hs) | hs) | hs) | hs) | hs <;>
      (rw [hs] at hd; exact h2 (hd.symm.trans (by decide)))

/-! ### Text around a parameter -/

theorem encodePath_affix (s : Str) (h : s.all affixChar = true) : encodePath s = s := by
  have key : ∀ b : UInt8, b.toNat < 128 → affixChar (Char.ofNat b.toNat) = true →
      (String.utf8EncodeChar (Char.ofNat b.toNat)).flatMap pathByte = [Char.ofNat b.toNat] := by
    apply forall_uint8; decide +kernel
  rw [List.all_eq_true] at h
  induction s with
  | nil => rfl
  | cons c s ih =>
    have ih := ih fun d hd => h d (by simp [hd])
    have hc := h c (by simp)
    have hlt : c.toNat < 128 := by
      have hc := hc
      simp only [affixChar, Bool.and_eq_true, decide_eq_true_eq] at hc
      have : c.toNat ≤ ('~' : Char).toNat := hc.1.1.2
      simp at this
      omega
    have h2 := key (UInt8.ofNat c.toNat) (by simp; omega)
    have h3 : (UInt8.ofNat c.toNat).toNat = c.toNat := by simp; omega
    rw [h3, Char.ofNat_toNat] at h2
    have h2 := h2 hc
    simp only [encodePath, utf8_cons, List.flatMap_append] at ih ⊢
    rw [h2, ih]; rfl

theorem affix_no_backslash {s : Str} (h : s.all affixChar = true) : '\\' ∉ s := by
  intro hc
  have := List.all_eq_true.1 (affix_plain h) _ hc
  simp [plainChar] at this

theorem percentDecode_affix {s : Str} (h : s.all affixChar = true) : percentDecode s = utf8 s := by
  rw [← percentDecode_encodePath, encodePath_affix s h]

/-- A parameter with text around it is like one with a longer argument. -/
theorem encodePath_around {pre post : Str} (hp : pre.all affixChar = true) (hq : post.all affixChar = true) (s : Str) :
    pre ++ encodePath s ++ post = encodePath (pre ++ s ++ post) := by
  have ha : ∀ a b, encodePath (a ++ b) = encodePath a ++ encodePath b := fun a b => by simp [encodePath, utf8_append]
  rw [ha, ha, encodePath_affix pre hp, encodePath_affix post hq]

theorem utf8_around {pre post : Str} (hp : pre.all affixChar = true) (hq : post.all affixChar = true) (s : Str) :
    percentDecode pre ++ utf8 s ++ percentDecode post = utf8 (pre ++ s ++ post) := by
  rw [percentDecode_affix hp, percentDecode_affix hq, utf8_append, utf8_append]

theorem backslash_around {pre post : Str} (hp : pre.all affixChar = true) (hq : post.all affixChar = true) {s : Str} :
    '\\' ∈ pre ++ s ++ post ↔ '\\' ∈ s := by
  simp [affix_no_backslash hp, affix_no_backslash hq]

end Progenitor

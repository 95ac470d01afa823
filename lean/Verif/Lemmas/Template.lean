import Verif.Model.Template
import Verif.Spec.Template

namespace Progenitor.Template

open Progenitor Progenitor.Spec

/-- Run the loop and the final match from an arbitrary state. -/
def runFinish (l : Loc) (t : Str) : Except Str PathTemplate :=
  match run l t with
  | .ok l => finish l
  | .error e => .error e

theorem parse_eq (t : Str) : parse t = runFinish ⟨.start, [], []⟩ t := rfl

@[simp] theorem runFinish_nil (l : Loc) : runFinish l [] = finish l := rfl

theorem runFinish_cons (l : Loc) (c : Char) (t : Str) :
    runFinish l (c :: t) =
      match step l c with
      | .ok l' => runFinish l' t
      | .error e => .error e := by
  simp only [runFinish, run]
  cases step l c <;> rfl

theorem runFinish_start (a cs) (t : Str) (p) :
    runFinish ⟨.start, a, cs⟩ t = .ok p ↔
      ∃ r, t = '/' :: r ∧ runFinish ⟨.const, ['/'], cs⟩ r = .ok p := by
  cases t with
  | nil => simp [finish]
  | cons c t =>
    rw [runFinish_cons]
    by_cases h : c = '/' <;> simp [step, h]

theorem laxTail_close (r : Str) : ¬ LaxTail ('}' :: r) := by
  intro h
  cases h with
  | char _ _ h1 h2 _ => exact h2 rfl

theorem laxTail_char (c : Char) (r : Str) (h1 : c ≠ '{') (h2 : c ≠ '}') :
    LaxTail (c :: r) ↔ LaxTail r := by
  constructor
  · intro h
    cases h with
    | char _ _ _ _ h => exact h
    | param => exact absurd rfl h1
    | stray => exact absurd rfl h1
  · exact LaxTail.char c r h1 h2

/-- Acceptance language after a closing brace. -/
def AfterParam (t : Str) : Prop := LaxTail t ∨ ∃ r, t = '}' :: r ∧ LaxTail r

theorem laxTail_open (t : Str) :
    LaxTail ('{' :: t) ↔
      ∃ n r, t = n ++ '}' :: r ∧ (∀ c ∈ n, c ≠ '{' ∧ c ≠ '}' ∧ c ≠ '/') ∧ AfterParam r := by
  constructor
  · intro h
    generalize hs : ('{' :: t) = s at h
    cases h with
    | nil => simp at hs
    | char _ _ h1 => simp at hs; exact absurd hs.1.symm h1
    | param n r hn hr => simp at hs; exact ⟨n, r, hs, hn, .inl hr⟩
    | stray n r hn hr => simp at hs; exact ⟨n, _, hs, hn, .inr ⟨r, rfl, hr⟩⟩
  · rintro ⟨n, r, rfl, hn, hr | ⟨r', rfl, hr⟩⟩
    · exact LaxTail.param n r hn hr
    · exact LaxTail.stray n r' hn hr

/-- Exact acceptance from each state. -/
theorem accepts (t : Str) : ∀ (a : Str) (cs : List Component),
    ((∃ p, runFinish ⟨.const, a, cs⟩ t = .ok p) ↔ LaxTail t) ∧
    ((∃ p, runFinish ⟨.constOrParam, a, cs⟩ t = .ok p) ↔ AfterParam t) ∧
    ('}' ∉ a → ((∃ p, runFinish ⟨.param, a, cs⟩ t = .ok p) ↔
      ∃ n r, t = n ++ '}' :: r ∧ (∀ c ∈ a ++ n, c ≠ '{' ∧ c ≠ '}' ∧ c ≠ '/') ∧ AfterParam r)) := by
  induction t with
  | nil =>
    intro a cs
    refine ⟨?_, ?_, ?_⟩
    · simp [finish, LaxTail.nil]
    · simp [finish, AfterParam, LaxTail.nil]
    · intro _; simp [finish]
  | cons c t ih =>
    intro a cs
    have hconst : ∀ a cs, (∃ p, runFinish ⟨.const, a, cs⟩ (c :: t) = .ok p) ↔ LaxTail (c :: t) := by
      intro a cs
      rw [runFinish_cons]
      by_cases h1 : c = '{'
      · subst h1
        simp only [step, if_true]
        rw [(ih [] (cs ++ [Component.const a])).2.2 (by simp), laxTail_open]
        simp
      · by_cases h2 : c = '}'
        · subst h2; simp [step, laxTail_close]
        · rw [laxTail_char c t h1 h2]
          by_cases h3 : c ≠ '/' ∨ endsWithSlash a = false
          · simp only [step, h1, h2, if_false, if_pos h3]; exact (ih _ _).1
          · simp only [step, h1, h2, if_false, if_neg h3]; exact (ih _ _).1
    refine ⟨hconst a cs, ?_, ?_⟩
    · rw [runFinish_cons]
      by_cases h1 : c = '{'
      · subst h1
        simp only [step, if_true]
        rw [(ih [] cs).2.2 (by simp)]
        simp only [AfterParam, laxTail_open]
        simp
      · simp only [step, h1, if_false]
        rw [(ih [c] cs).1]
        by_cases h2 : c = '}'
        · subst h2; simp [AfterParam, laxTail_close]
        · simp [AfterParam, laxTail_char c t h1 h2, h2]
    · intro ha
      rw [runFinish_cons]
      by_cases h1 : c = '}'
      · subst h1
        by_cases h2 : '/' ∈ a ∨ '{' ∈ a
        · simp only [step, if_true, if_pos h2]
          constructor
          · rintro ⟨_, h⟩; cases h
          · rintro ⟨n, r, _, hn, _⟩
            rcases h2 with h2 | h2
            · exact absurd rfl (hn _ (List.mem_append_left _ h2)).2.2
            · exact absurd rfl (hn _ (List.mem_append_left _ h2)).1
        · simp only [step, if_true, if_neg h2]
          rw [(ih [] _).2.1]
          constructor
          · intro h
            refine ⟨[], t, by simp, ?_, h⟩
            intro c hc
            simp at hc
            refine ⟨?_, ?_, ?_⟩ <;> (rintro rfl; simp_all)
          · rintro ⟨n, r, h, hn, hr⟩
            cases n with
            | nil => simp at h; rw [h]; exact hr
            | cons d n =>
              simp at h
              exact absurd h.1.symm (hn d (by simp)).2.1
      · simp only [step, h1, if_false]
        rw [(ih (a ++ [c]) cs).2.2 (by simp [ha, Ne.symm h1])]
        constructor
        · rintro ⟨n, r, rfl, hn, hr⟩
          exact ⟨c :: n, r, by simp, by simpa using hn, hr⟩
        · rintro ⟨n, r, h, hn, hr⟩
          cases n with
          | nil => simp at h; exact absurd h.1 h1
          | cons d n =>
            simp at h
            obtain ⟨rfl, rfl⟩ := h
            exact ⟨n, r, rfl, by simpa using hn, hr⟩

theorem parse_accepts (t : Str) : (∃ p, parse t = .ok p) ↔ LaxPath t := by
  simp only [parse_eq, runFinish_start, LaxPath]
  constructor
  · rintro ⟨p, r, h, hp⟩; exact ⟨r, h, ((accepts r _ _).1).1 ⟨p, hp⟩⟩
  · rintro ⟨r, h, hr⟩
    obtain ⟨p, hp⟩ := ((accepts r ['/'] []).1).2 hr
    exact ⟨p, r, h, hp⟩

theorem PathTail.lax {t : Str} (h : PathTail t) : LaxTail t := by
  induction h with
  | nil => exact .nil
  | char c r h1 h2 _ ih => exact .char c r h1 h2 ih
  | param n r hn _ ih => exact .param n r hn ih

theorem LaxTail.clean {t : Str} (h : LaxTail t) (hd : NoDoubleClose t) : PathTail t := by
  induction h with
  | nil => exact .nil
  | char c r h1 h2 _ ih =>
    exact .char c r h1 h2 (ih fun ⟨a, b, h⟩ => hd ⟨c :: a, b, by simp [h]⟩)
  | param n r hn _ ih =>
    exact .param n r hn (ih fun ⟨a, b, h⟩ => hd ⟨'{' :: n ++ '}' :: a, b, by simp [h]⟩)
  | stray n r hn _ ih => exact absurd ⟨'{' :: n, r, by simp⟩ hd

theorem PathTail.noDoubleClose {t : Str} (h : PathTail t) : NoDoubleClose t ∧ t.head? ≠ some '}' := by
  induction h with
  | nil => simp [NoDoubleClose]
  | char c r h1 h2 hr ih =>
    refine ⟨?_, by simp [h2]⟩
    rintro ⟨a, b, h⟩
    cases a with
    | nil => simp at h; exact h2 h.1
    | cons x a => simp at h; exact ih.1 ⟨a, b, h.2⟩
  | param n r hn hr ih =>
    refine ⟨?_, by simp⟩
    rintro ⟨a, b, h⟩
    cases a with
    | nil => simp at h
    | cons x a =>
      simp at h
      obtain ⟨-, h⟩ := h
      have key : ∀ (n : Str) (a : Str), (∀ c ∈ n, c ≠ '}') → n ++ '}' :: r = a ++ '}' :: '}' :: b → False := by
        intro n
        induction n with
        | nil =>
          intro a _ h
          cases a with
          | nil => simp at h; subst h; simp at ih
          | cons y a => simp at h; exact ih.1 ⟨a, b, h.2⟩
        | cons d n ihn =>
          intro a hn h
          cases a with
          | nil => simp at h; exact hn d (by simp) h.1
          | cons y a => simp at h; exact ihn a (fun c hc => hn c (by simp [hc])) h.2
      exact key n a (fun c hc => (hn c hc).2.1) h

/-! ### Printing -/

/-- `collapse` with memory of the previous character. -/
def collapseFrom : Bool → Str → Str
  | _, [] => []
  | b, c :: t => if c = '/' ∧ b = true then collapseFrom true t
      else c :: collapseFrom (c == '/') t

theorem collapse_cons (c : Char) (t : Str) :
    collapse (c :: t) = c :: collapseFrom (c == '/') t := by
  induction t generalizing c with
  | nil => simp [collapse, collapseFrom]
  | cons d t ih =>
    simp only [collapse, collapseFrom]
    by_cases h1 : c = '/' <;> by_cases h2 : d = '/' <;> simp [h1, h2, ih]

theorem collapse_eq (t : Str) : collapse t = collapseFrom false t := by
  cases t with
  | nil => rfl
  | cons c t => simp [collapse_cons, collapseFrom]

theorem toString_append (p q : PathTemplate) : toString (p ++ q) = toString p ++ toString q := by
  simp [toString]

@[simp] theorem toString_nil : toString [] = [] := rfl
@[simp] theorem toString_const (s) : toString [.const s] = s := by simp [toString, Component.toStr]
@[simp] theorem toString_param (s) : toString [.param s] = '{' :: s ++ ['}'] := by
  simp [toString, Component.toStr]

theorem param_slash_error (t : Str) : ∀ (a : Str) (cs) (p), '/' ∈ a →
    runFinish ⟨.param, a, cs⟩ t ≠ .ok p := by
  induction t with
  | nil => intro a cs p _; simp [finish]
  | cons c t ih =>
    intro a cs p h
    rw [runFinish_cons]
    by_cases h1 : c = '}'
    · simp [step, h1, h]
    · simp only [step, h1, if_false]
      exact ih _ cs p (by simp [h])

theorem endsWithSlash_snoc (a : Str) (c : Char) : endsWithSlash (a ++ [c]) = (c == '/') := by
  simp [endsWithSlash]

theorem printed (t : Str) : ∀ (a : Str) (cs : List Component) (p),
    (runFinish ⟨.const, a, cs⟩ t = .ok p →
      toString p = toString cs ++ a ++ collapseFrom (endsWithSlash a) t) ∧
    (runFinish ⟨.constOrParam, a, cs⟩ t = .ok p →
      toString p = toString cs ++ collapseFrom false t) ∧
    (runFinish ⟨.param, a, cs⟩ t = .ok p →
      toString p = toString cs ++ '{' :: a ++ collapseFrom false t) := by
  induction t with
  | nil =>
    intro a cs p
    refine ⟨?_, ?_, ?_⟩ <;> simp [finish, collapseFrom]
    · rintro rfl; simp [toString_append]
    · rintro rfl; rfl
  | cons c t ih =>
    intro a cs p
    simp only [runFinish_cons]
    refine ⟨?_, ?_, ?_⟩
    · by_cases h1 : c = '{'
      · subst h1
        simp only [step, if_true]
        intro h
        have := (ih _ _ _).2.2 h
        simp [this, toString_append, collapseFrom]
      · by_cases h2 : c = '}'
        · simp [step, h2]
        · by_cases h3 : c ≠ '/' ∨ endsWithSlash a = false
          · simp only [step, h1, h2, if_false, if_pos h3]
            intro h
            have := (ih _ _ _).1 h
            rw [this, endsWithSlash_snoc]
            have h4 : ¬ (c = '/' ∧ endsWithSlash a = true) := by
              rintro ⟨rfl, h'⟩; simp [h'] at h3
            simp [collapseFrom, h4]
          · simp only [step, h1, h2, if_false, if_neg h3]
            intro h
            have := (ih _ _ _).1 h
            rw [this]
            simp at h3
            simp [collapseFrom, h3]
    · by_cases h1 : c = '{'
      · subst h1
        simp only [step, if_true]
        intro h
        have := (ih _ _ _).2.2 h
        simp [this, collapseFrom]
      · simp only [step, h1, if_false]
        intro h
        have := (ih _ _ _).1 h
        rw [this]
        simp [collapseFrom, endsWithSlash]
    · by_cases h1 : c = '}'
      · subst h1
        by_cases h2 : '/' ∈ a ∨ '{' ∈ a
        · simp [step, h2]
        · simp only [step, if_true, if_neg h2]
          intro h
          have := (ih _ _ _).2.1 h
          simp [this, toString_append, collapseFrom]
      · simp only [step, h1, if_false]
        intro h
        by_cases h2 : c = '/'
        · exact absurd h (param_slash_error t _ _ _ (by simp [h2]))
        · have := (ih _ _ _).2.2 h
          simp [this, collapseFrom, h2, beq_false_of_ne h2]

theorem collapseFrom_of_ne (b : Bool) (c : Char) (t : Str) (h : c ≠ '/') :
    collapseFrom b (c :: t) = c :: collapseFrom false t := by
  simp [collapseFrom, h, beq_false_of_ne h]

theorem reparse (t : Str) : ∀ (a : Str) (cs : List Component) (p),
    (runFinish ⟨.const, a, cs⟩ t = .ok p →
      runFinish ⟨.const, a, cs⟩ (collapseFrom (endsWithSlash a) t) = .ok p) ∧
    (runFinish ⟨.constOrParam, a, cs⟩ t = .ok p →
      runFinish ⟨.constOrParam, a, cs⟩ (collapseFrom false t) = .ok p) ∧
    (runFinish ⟨.param, a, cs⟩ t = .ok p →
      runFinish ⟨.param, a, cs⟩ (collapseFrom false t) = .ok p) := by
  induction t with
  | nil =>
    intro a cs p
    refine ⟨?_, ?_, ?_⟩ <;> simp [collapseFrom]
  | cons c t ih =>
    intro a cs p
    rw [runFinish_cons, runFinish_cons, runFinish_cons]
    refine ⟨?_, ?_, ?_⟩
    · by_cases h1 : c = '{'
      · subst h1
        simp only [step, if_true]
        intro h
        rw [collapseFrom_of_ne _ _ _ (by decide), runFinish_cons]
        simp only [step, if_true]
        exact (ih _ _ _).2.2 h
      · by_cases h2 : c = '}'
        · simp [step, h2]
        · by_cases h3 : c ≠ '/' ∨ endsWithSlash a = false
          · simp only [step, h1, h2, if_false, if_pos h3]
            intro h
            have h4 : ¬ (c = '/' ∧ endsWithSlash a = true) := by
              rintro ⟨rfl, h'⟩; simp [h'] at h3
            simp only [collapseFrom, if_neg h4, runFinish_cons, step, h1, h2, if_false, if_pos h3]
            have := (ih _ _ _).1 h
            rw [endsWithSlash_snoc] at this
            exact this
          · simp only [step, h1, h2, if_false, if_neg h3]
            intro h
            simp at h3
            have := (ih _ _ _).1 h
            simp only [collapseFrom, h3, and_self, if_true]
            rw [h3.2] at this
            exact this
    · by_cases h1 : c = '{'
      · subst h1
        simp only [step, if_true]
        intro h
        rw [collapseFrom_of_ne _ _ _ (by decide), runFinish_cons]
        simp only [step, if_true]
        exact (ih _ _ _).2.2 h
      · simp only [step, h1, if_false]
        intro h
        have := (ih _ _ _).1 h
        simp only [collapseFrom, runFinish_cons, step, h1, if_false]
        simpa [endsWithSlash, runFinish_cons, step, h1] using this
    · by_cases h1 : c = '}'
      · subst h1
        by_cases h2 : '/' ∈ a ∨ '{' ∈ a
        · simp [step, h2]
        · simp only [step, if_true, if_neg h2]
          intro h
          rw [collapseFrom_of_ne _ _ _ (by decide), runFinish_cons]
          simp only [step, if_true, if_neg h2]
          exact (ih _ _ _).2.1 h
      · simp only [step, h1, if_false]
        intro h
        by_cases h2 : c = '/'
        · exact absurd h (param_slash_error t _ _ _ (by simp [h2]))
        · rw [collapseFrom_of_ne _ _ _ h2, runFinish_cons]
          simp only [step, h1, if_false]
          exact (ih _ _ _).2.2 h

/-! ### Names -/

@[simp] theorem names_append (p q : PathTemplate) : names (p ++ q) = names p ++ names q := by
  simp [names]
@[simp] theorem names_nil : names [] = [] := rfl
@[simp] theorem names_const (s) (p) : names (.const s :: p) = names p := by simp [names]
@[simp] theorem names_param (s) (p) : names (.param s :: p) = s :: names p := by simp [names]

theorem braceGroups_cons_of_ne (c : Char) (t : Str) (h : c ≠ '{') :
    braceGroups (c :: t) = braceGroups t := by simp [braceGroups, h]

theorem param_brace_error (t : Str) : ∀ (a : Str) (cs) (p), '{' ∈ a →
    runFinish ⟨.param, a, cs⟩ t ≠ .ok p := by
  induction t with
  | nil => intro a cs p _; simp [finish]
  | cons c t ih =>
    intro a cs p h
    rw [runFinish_cons]
    by_cases h1 : c = '}'
    · simp [step, h1, h]
    · simp only [step, h1, if_false]
      exact ih _ cs p (by simp [h])

theorem names_run (t : Str) : ∀ (a : Str) (cs : List Component) (p),
    (runFinish ⟨.const, a, cs⟩ t = .ok p → names p = names cs ++ braceGroups t) ∧
    (runFinish ⟨.constOrParam, a, cs⟩ t = .ok p → names p = names cs ++ braceGroups t) ∧
    (runFinish ⟨.param, a, cs⟩ t = .ok p →
      names p = names cs ++ (a ++ t.takeWhile (· ≠ '}')) :: braceGroups t) := by
  induction t with
  | nil =>
    intro a cs p
    refine ⟨?_, ?_, ?_⟩ <;> simp [finish, braceGroups]
    · rintro rfl; simp
    · rintro rfl; rfl
  | cons c t ih =>
    intro a cs p
    simp only [runFinish_cons]
    refine ⟨?_, ?_, ?_⟩
    · by_cases h1 : c = '{'
      · subst h1
        simp only [step, if_true]
        intro h
        simp [(ih _ _ _).2.2 h, braceGroups]
      · rw [braceGroups_cons_of_ne _ _ h1]
        by_cases h2 : c = '}'
        · simp [step, h2]
        · by_cases h3 : c ≠ '/' ∨ endsWithSlash a = false
          · simp only [step, h1, h2, if_false, if_pos h3]
            exact fun h => (ih _ _ _).1 h
          · simp only [step, h1, h2, if_false, if_neg h3]
            exact fun h => (ih _ _ _).1 h
    · by_cases h1 : c = '{'
      · subst h1
        simp only [step, if_true]
        intro h
        simp [(ih _ _ _).2.2 h, braceGroups]
      · rw [braceGroups_cons_of_ne _ _ h1]
        simp only [step, h1, if_false]
        exact fun h => (ih _ _ _).1 h
    · by_cases h1 : c = '}'
      · subst h1
        by_cases h2 : '/' ∈ a ∨ '{' ∈ a
        · simp [step, h2]
        · simp only [step, if_true, if_neg h2]
          intro h
          simp [(ih _ _ _).2.1 h, braceGroups]
      · simp only [step, h1, if_false]
        intro h
        by_cases h2 : c = '{'
        · exact absurd h (param_brace_error t _ _ _ (by simp [h2]))
        · simp [(ih _ _ _).2.2 h, braceGroups, h1, h2]

/-! ### Structure of accepted templates -/

/-- Constants without braces, parameter names without braces and slashes. -/
def CleanComp : Component → Prop
  | .const s => ∀ c ∈ s, c ≠ '{' ∧ c ≠ '}'
  | .param n => ∀ c ∈ n, c ≠ '{' ∧ c ≠ '}' ∧ c ≠ '/'

theorem pathTail_char (c : Char) (r : Str) (h1 : c ≠ '{') :
    PathTail (c :: r) → c ≠ '}' ∧ PathTail r := by
  intro h
  cases h with
  | char _ _ _ h2 h => exact ⟨h2, h⟩
  | param => exact absurd rfl h1

theorem pathTail_open (t : Str) (h : PathTail ('{' :: t)) :
      ∃ n r, t = n ++ '}' :: r ∧ (∀ c ∈ n, c ≠ '{' ∧ c ≠ '}' ∧ c ≠ '/') ∧ PathTail r := by
  generalize hs : ('{' :: t) = s at h
  cases h with
  | nil => simp at hs
  | char _ _ h1 => simp at hs; exact absurd hs.1.symm h1
  | param n r hn hr => simp at hs; exact ⟨n, r, hs, hn, hr⟩

theorem clean_run (t : Str) : ∀ (a : Str) (cs : List Component) (p),
    (∀ x ∈ cs, CleanComp x) →
    (PathTail t → CleanComp (.const a) → runFinish ⟨.const, a, cs⟩ t = .ok p →
      ∀ x ∈ p, CleanComp x) ∧
    (PathTail t → runFinish ⟨.constOrParam, a, cs⟩ t = .ok p → ∀ x ∈ p, CleanComp x) ∧
    (∀ n r, t = n ++ '}' :: r → (∀ c ∈ a ++ n, c ≠ '{' ∧ c ≠ '}' ∧ c ≠ '/') → PathTail r →
      runFinish ⟨.param, a, cs⟩ t = .ok p → ∀ x ∈ p, CleanComp x) := by
  induction t with
  | nil =>
    intro a cs p hcs
    refine ⟨?_, ?_, ?_⟩
    · intro _ ha; simp [finish]
      rintro rfl x hx
      rcases List.mem_append.1 hx with hx | hx
      · exact hcs x hx
      · simp at hx; subst hx; exact ha
    · simp [finish]; rintro _ rfl; exact hcs
    · simp
  | cons c t ih =>
    intro a cs p hcs
    simp only [runFinish_cons]
    refine ⟨?_, ?_, ?_⟩
    · intro ht ha
      have hcs' : ∀ x ∈ cs ++ [.const a], CleanComp x := by
        intro x hx
        rcases List.mem_append.1 hx with hx | hx
        · exact hcs x hx
        · simp at hx; subst hx; exact ha
      by_cases h1 : c = '{'
      · subst h1
        simp only [step, if_true]
        intro h
        obtain ⟨n, r, h2, hn, hr⟩ := pathTail_open t ht
        exact (ih [] _ p hcs').2.2 n r h2 (by simpa using hn) hr h
      · obtain ⟨h2, ht⟩ := pathTail_char c t h1 ht
        by_cases h3 : c ≠ '/' ∨ endsWithSlash a = false
        · simp only [step, h1, h2, if_false, if_pos h3]
          refine (ih _ _ p hcs).1 ht ?_
          intro d hd
          rcases List.mem_append.1 hd with hd | hd
          · exact ha d hd
          · simp at hd; subst hd; exact ⟨h1, h2⟩
        · simp only [step, h1, h2, if_false, if_neg h3]
          exact (ih _ _ p hcs).1 ht ha
    · intro ht
      by_cases h1 : c = '{'
      · subst h1
        simp only [step, if_true]
        intro h
        obtain ⟨n, r, h2, hn, hr⟩ := pathTail_open t ht
        exact (ih [] _ p hcs).2.2 n r h2 (by simpa using hn) hr h
      · obtain ⟨h2, ht⟩ := pathTail_char c t h1 ht
        simp only [step, h1, if_false]
        refine (ih _ _ p hcs).1 ht ?_
        intro d hd; simp at hd; subst hd; exact ⟨h1, h2⟩
    · intro n r hnr hn hr
      cases n with
      | nil =>
        simp at hnr
        obtain ⟨rfl, rfl⟩ := hnr
        by_cases h2 : '/' ∈ a ∨ '{' ∈ a
        · simp [step, h2]
        · simp only [step, if_true, if_neg h2]
          refine (ih _ _ p ?_).2.1 hr
          intro x hx
          rcases List.mem_append.1 hx with hx | hx
          · exact hcs x hx
          · simp at hx; subst hx
            intro d hd; exact hn d (by simp [hd])
      | cons d n =>
        simp at hnr
        obtain ⟨rfl, rfl⟩ := hnr
        have h1 : c ≠ '}' := (hn c (by simp)).2.1
        simp only [step, h1, if_false]
        exact (ih _ _ p hcs).2.2 n r rfl (by simpa using hn) hr

theorem parse_clean {t : Str} {p : PathTemplate} (ht : WellFormedPath t) (h : parse t = .ok p) :
    ∀ x ∈ p, CleanComp x := by
  obtain ⟨r, rfl, hr⟩ := ht
  rw [parse_eq, runFinish_start] at h
  obtain ⟨r', h1, h2⟩ := h
  simp at h1; subst h1
  exact (clean_run r _ _ p (by simp)).1 hr (by intro c hc; simp at hc; subst hc; decide) h2

/-- No constant contains two slashes in a row, none is empty, no two constants
are adjacent; the flag says whether a constant may come first. -/
def Canonical : Bool → PathTemplate → Prop
  | _, [] => True
  | _, .param _ :: p => Canonical true p
  | b, .const s :: p => b = true ∧ s ≠ [] ∧ collapse s = s ∧ Canonical false p

/-! ### Format strings -/

theorem rustFormat_lit (s : Str) (hs : ∀ c ∈ s, c ≠ '{' ∧ c ≠ '}') (r : Str) (args) :
    rustFormat (s ++ r) args = (rustFormat r args).map (s ++ ·) := by
  induction s with
  | nil => cases h : rustFormat r args <;> simp [h]
  | cons c s ih =>
    have hc := hs c (by simp)
    have ih := ih fun d hd => hs d (by simp [hd])
    rw [List.cons_append, rustFormat]
    · rw [ih]; cases rustFormat r args <;> simp
    all_goals (intros; simp_all)

/-- The text a template denotes when parameters are replaced by `f name`. -/
def render (f : Str → Str) (p : PathTemplate) : Str :=
  p.flatMap fun | .const s => s | .param n => f n

@[simp] theorem render_nil (f) : render f [] = [] := rfl
@[simp] theorem render_const (f s p) : render f (.const s :: p) = s ++ render f p := by simp [render]
@[simp] theorem render_param (f n p) : render f (.param n :: p) = f n ++ render f p := by simp [render]

/-- The format string of a component list. -/
def fmtOf (p : PathTemplate) : Str :=
  p.flatMap fun | .const s => s | .param _ => ['{', '}']

theorem fmt_cons_const (s p) : fmtOf (.const s :: p) = s ++ fmtOf p := by simp [fmtOf]
theorem fmt_cons_param (n p) : fmtOf (.param n :: p) = '{' :: '}' :: fmtOf p := by simp [fmtOf]
theorem compileFmt_eq (p) : compileFmt p = '{' :: '}' :: fmtOf p := rfl

theorem rustFormat_comps (p : PathTemplate) (hp : ∀ x ∈ p, CleanComp x) (f : Str → Str) :
    rustFormat (fmtOf p) ((names p).map f) = some (render f p) := by
  induction p with
  | nil => simp [rustFormat, fmtOf]
  | cons x p ih =>
    have ih := ih fun y hy => hp y (by simp [hy])
    have hx := hp x (by simp)
    cases x with
    | const s =>
      simp only [fmt_cons_const, names_const]
      rw [rustFormat_lit s hx, ih]; simp
    | param n =>
      simp only [fmt_cons_param, names_param, List.map_cons]
      simp only [rustFormat]
      rw [ih]; simp

theorem substGroups_nil (f) : substGroups f [] = [] := by simp [substGroups]

theorem substGroups_lit (f : Str → Str) (s r : Str) (hs : ∀ c ∈ s, c ≠ '{' ∧ c ≠ '}') :
    substGroups f (s ++ r) = s ++ substGroups f r := by
  induction s with
  | nil => simp
  | cons c s ih =>
    have hc := hs c (by simp)
    rw [List.cons_append, substGroups]
    simp [hc.1, ih fun d hd => hs d (by simp [hd])]

theorem takeWhile_close (n r : Str) (hn : ∀ c ∈ n, c ≠ '}') :
    (n ++ '}' :: r).takeWhile (· ≠ '}') = n ∧
    (n ++ '}' :: r).dropWhile (· ≠ '}') = '}' :: r := by
  induction n with
  | nil => simp
  | cons c n ih =>
    have := ih fun d hd => hn d (by simp [hd])
    have hc := hn c (by simp)
    simp_all

theorem substGroups_param (f : Str → Str) (n r : Str) (hn : ∀ c ∈ n, c ≠ '}') :
    substGroups f ('{' :: n ++ '}' :: r) = f n ++ substGroups f r := by
  rw [List.cons_append, substGroups]
  obtain ⟨h1, h2⟩ := takeWhile_close n r hn
  simp only [if_true, h1, h2, List.drop_succ_cons, List.drop_zero]

theorem substGroups_toString (f : Str → Str) (p : PathTemplate) (hp : ∀ x ∈ p, CleanComp x) :
    substGroups f (toString p) = render f p := by
  induction p with
  | nil => simp [substGroups_nil]
  | cons x p ih =>
    have ih := ih fun y hy => hp y (by simp [hy])
    have hx := hp x (by simp)
    cases x with
    | const s =>
      rw [show toString (.const s :: p) = s ++ toString p by simp [toString, Component.toStr]]
      rw [substGroups_lit f s _ hx, ih]; simp
    | param n =>
      rw [show toString (.param n :: p) = '{' :: n ++ '}' :: toString p by
        simp [toString, Component.toStr]]
      rw [substGroups_param f n _ (fun c hc => (hx c hc).2.1), ih]; simp

theorem compileArgs_ok (rename : Str → Option Str) (p : PathTemplate) (is : List Str) :
    compileArgs rename p = .ok is ↔ (names p).map rename = is.map some := by
  induction p generalizing is with
  | nil => cases is <;> simp [compileArgs]
  | cons x p ih =>
    cases x with
    | const s => simpa [compileArgs] using ih is
    | param n =>
      simp only [compileArgs, names_param, List.map_cons]
      cases hr : rename n with
      | none => cases is <;> simp
      | some i =>
        cases hc : compileArgs rename p with
        | ok js =>
          have := (ih js).1 hc
          cases is with
          | nil => simp
          | cons k is =>
            simp only [Res.ok.injEq, List.cons.injEq, this, Option.some.injEq, List.map_cons]
            constructor
            · rintro ⟨rfl, rfl⟩; simp
            · rintro ⟨rfl, h⟩
              exact ⟨rfl, (List.map_inj_right (fun _ _ h => Option.some.inj h)).1 h⟩
        | err m =>
          cases is with
          | nil => simp
          | cons k is =>
            simp only [List.map_cons, List.cons.injEq, not_and, reduceCtorEq, false_iff]
            intro _ h; have := (ih is).2 h; simp [hc] at this
        | panic m =>
          cases is with
          | nil => simp
          | cons k is =>
            simp only [List.map_cons, List.cons.injEq, not_and, reduceCtorEq, false_iff]
            intro _ h; have := (ih is).2 h; simp [hc] at this

theorem compileArgs_no_err (rename : Str → Option Str) (p : PathTemplate) (m) :
    compileArgs rename p ≠ .err m := by
  induction p generalizing m with
  | nil => simp [compileArgs]
  | cons x p ih =>
    cases x with
    | const s => simpa [compileArgs] using ih m
    | param n =>
      simp only [compileArgs]
      cases hr : rename n with
      | none => simp
      | some i =>
        cases hc : compileArgs rename p with
        | ok js => simp
        | err m => exact absurd hc (ih m)
        | panic m => simp

end Progenitor.Template

import Verif.Model.Names

/-!
# Spacing of generated source

Model of `/repo/progenitor-impl/src/lib.rs:645-654` (`space_out_items`, not on Windows): replacement of
all matches of `(\n\s*})(\n\s{0,8}[^} ])` by `$1\n$2`.  Matching is leftmost, with greedy repetition and
backtracking.
-/

namespace Progenitor.Space

open Progenitor Progenitor.Names

variable (u : Unicode)

/-- `\s*}`: the whitespace and the brace, and what follows.  (`}` is no whitespace, so that there is one way to match.) -/
def braceAfter : Str → Option (Str × Str)
  | [] => none
  | c :: cs =>
    if u.white c then (braceAfter cs).map fun (a, b) => (c :: a, b)
    else if c = '}' then some (['}'], cs) else none

/-- `\s{0,n}[^} ]`, greedy: first one more whitespace, then the last character. -/
def itemAfter : Nat → Str → Option (Str × Str)
  | _, [] => none
  | 0, c :: cs => if c = '}' ∨ c = ' ' then none else some ([c], cs)
  | n + 1, c :: cs =>
    match (if u.white c then itemAfter n cs else none) with
    | some (a, b) => some (c :: a, b)
    | none => if c = '}' ∨ c = ' ' then none else some ([c], cs)

/-- A match at the start of the text: the two groups and the rest. -/
def matchHere : Str → Option (Str × Str × Str)
  | '\n' :: cs => match braceAfter u cs with
    | some (g1, '\n' :: rest) => match itemAfter u 8 rest with
      | some (g2, rest') => some ('\n' :: g1, '\n' :: g2, rest')
      | none => none
    | _ => none
  | _ => none

theorem braceAfter_spec {s a b : Str} (h : braceAfter u s = some (a, b)) :
    s = a ++ b ∧ ∃ w, a = w ++ ['}'] ∧ ∀ c ∈ w, u.white c = true := by
  induction s generalizing a with
  | nil => cases h
  | cons c cs ih =>
    unfold braceAfter at h
    split at h
    · rename_i hc
      cases hb : braceAfter u cs with
      | none => rw [hb] at h; cases h
      | some p =>
        obtain ⟨a', b'⟩ := p
        rw [hb] at h
        cases h
        obtain ⟨h1, w, h2, h3⟩ := ih hb
        refine ⟨by rw [h1]; rfl, c :: w, by rw [h2]; rfl, ?_⟩
        intro d hd
        rcases List.mem_cons.mp hd with rfl | hd
        · exact hc
        · exact h3 d hd
    · split at h
      · rename_i hc
        cases h
        exact ⟨by rw [hc]; rfl, [], rfl, by simp⟩
      · cases h

theorem itemAfter_spec {n : Nat} {s a b : Str} (h : itemAfter u n s = some (a, b)) :
    s = a ++ b ∧ ∃ w c, a = w ++ [c] ∧ w.length ≤ n ∧ (∀ d ∈ w, u.white d = true) ∧ c ≠ '}' ∧ c ≠ ' ' := by
  induction s generalizing n a with
  | nil => cases n <;> cases h
  | cons c cs ih =>
    cases n with
    | zero =>
      simp only [itemAfter] at h
      split at h
      · cases h
      · rename_i hc
        cases h
        exact ⟨rfl, [], c, rfl, Nat.le_refl _, by simp, fun h => hc (.inl h), fun h => hc (.inr h)⟩
    | succ n =>
      simp only [itemAfter] at h
      split at h
      · rename_i x a' b' hx
        split at hx
        · rename_i hw
          cases h
          obtain ⟨h1, w, d, h2, h3, h4, h5⟩ := ih hx
          refine ⟨by rw [h1]; rfl, c :: w, d, by rw [h2]; rfl, by simpa using h3, ?_, h5⟩
          intro e he
          rcases List.mem_cons.mp he with rfl | he
          · exact hw
          · exact h4 e he
        · cases hx
      · split at h
        · cases h
        · rename_i hc
          cases h
          exact ⟨rfl, [], c, rfl, by simp, by simp, fun h => hc (.inl h), fun h => hc (.inr h)⟩

theorem matchHere_spec {s g1 g2 r : Str} (h : matchHere u s = some (g1, g2, r)) :
    s = g1 ++ g2 ++ r ∧
    (∃ w, g1 = '\n' :: (w ++ ['}']) ∧ ∀ c ∈ w, u.white c = true) ∧
    (∃ w c, g2 = '\n' :: (w ++ [c]) ∧ w.length ≤ 8 ∧ (∀ d ∈ w, u.white d = true) ∧ c ≠ '}' ∧ c ≠ ' ') := by
  unfold matchHere at h
  split at h
  · rename_i cs
    split at h
    · rename_i a rest hb
      split at h
      · rename_i b rest' hi
        cases h
        obtain ⟨h1, h2⟩ := braceAfter_spec u hb
        obtain ⟨h3, h4⟩ := itemAfter_spec u hi
        refine ⟨by rw [h1, h3]; simp, ?_, ?_⟩
        · obtain ⟨w, rfl, hw⟩ := h2; exact ⟨w, rfl, hw⟩
        · obtain ⟨w, c, rfl, hw⟩ := h4; exact ⟨w, c, rfl, hw⟩
      · cases h
    · cases h
  · cases h

theorem matchHere_shorter {s g1 g2 r : Str} (h : matchHere u s = some (g1, g2, r)) : r.length < s.length := by
  obtain ⟨h1, ⟨w, h2, -⟩, -⟩ := matchHere_spec u h
  rw [h1, h2]
  simp
  omega

/-- lib.rs:646-654 `space_out_items`: `Regex::replace_all` with `$1\n$2`. -/
def spaceOut (s : Str) : Str :=
  match h : matchHere u s with
  | some (g1, g2, rest) => g1 ++ '\n' :: g2 ++ spaceOut rest
  | none => match s with
    | [] => []
    | c :: cs => c :: spaceOut cs
termination_by s.length
decreasing_by
  · exact matchHere_shorter u h
  · simp

end Progenitor.Space

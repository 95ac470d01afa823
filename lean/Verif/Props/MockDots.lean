import Verif.Props.Mock

/-!
# C48: dots in templates
-/

namespace Progenitor.Props

open Progenitor Progenitor.Params Progenitor.Exec Progenitor.Spec Progenitor.Template Progenitor.Mock

/-- Constants have a meaning of their own in a regular expression at most for `.`. -/
def DotConsts (t : PathTemplate) : Prop := ∀ s, .const s ∈ t → ∀ c ∈ s, plainRegex c = true ∨ c = '.'

/-- `path` is the template with values in place of the parameters, and any characters but line breaks in place of dots. -/
def DotInstance : PathTemplate → Str → Prop
  | [], path => path = []
  | .const s :: t, path => ∃ u rest, path = u ++ rest ∧ Forall₂ (fun c d => d = c ∨ (c = '.' ∧ d ≠ '\n')) s u ∧ DotInstance t rest
  | .param _ :: t, path => ∃ v rest, path = v ++ rest ∧ '/' ∉ v ∧ DotInstance t rest

theorem dotConsts_ok {t : PathTemplate} (h : DotConsts t) : ∀ x ∈ t.map Regex.wildPiece, x.Ok := by
  intro x hx
  obtain ⟨y, hy, rfl⟩ := List.mem_map.mp hx
  cases y with
  | const s =>
    intro c hc
    rcases h s hy c hc with h | h <;> simp [Regex.plainOrDot, h]
  | param n => trivial

theorem sameChar_iff (c d : Char) : Regex.sameChar c d ↔ d = c ∨ (c = '.' ∧ d ≠ '\n') := by
  unfold Regex.sameChar
  exact or_congr eq_comm Iff.rfl

theorem forall₂_congr {α β} {R S : α → β → Prop} (h : ∀ a b, R a b ↔ S a b) {l : List α} {m : List β} : Forall₂ R l m ↔ Forall₂ S l m := by
  constructor
  · intro hl
    induction hl with
    | nil => exact .nil
    | cons h' _ ih => exact .cons ((h _ _).mp h') ih
  · intro hl
    induction hl with
    | nil => exact .nil
    | cons h' _ ih => exact .cons ((h _ _).mpr h') ih

theorem lang_dots (t : PathTemplate) : ∀ p, Regex.Lang (t.map Regex.wildPiece) p ↔ DotInstance t p := by
  induction t with
  | nil => intro p; rfl
  | cons x t ih =>
    intro p
    cases x with
    | const s => simp only [List.map_cons, Regex.wildPiece, Regex.Lang, DotInstance, ih, forall₂_congr sameChar_iff]
    | param n => simp only [List.map_cons, Regex.wildPiece, Regex.Lang, DotInstance, ih]

/-- C48, guarded: a mock of an operation expects its method and exactly the texts that the template gives, where a dot of the template
stands for any character.  Missing for the full claim: dots that stand for dots, and other constants with a special meaning in a regular
expression. -/
theorem C48_dots_partial [JsonLib] (op : OperationMethod) (h : DotConsts op.path) :
    ∃ w, whenNew op = .when w ∧ ∀ s, w.Matches s ↔ op.method = s.method ∧ DotInstance op.path s.path := by
  obtain ⟨l, hl, hm⟩ := parse_wildcard (dotConsts_ok h)
  refine ⟨⟨op.method, [] ++ [.path l]⟩, by simp only [whenNew, pathMatches, hl], fun s => ?_⟩
  rw [matches_new, hm, lang_dots]

/-! ## Dots are the only inexact ones -/

/-- The dots of the template. -/
def templateDots : PathTemplate → Nat
  | [] => 0
  | .const s :: t => s.count '.' + templateDots t
  | .param _ :: t => templateDots t

theorem instance_dots {ok : Str → Str → Prop} {t : PathTemplate} {p : Str} (h : Instance ok t p) : templateDots t ≤ p.count '.' := by
  induction t generalizing p with
  | nil => exact Nat.zero_le _
  | cons x t ih =>
    cases x with
    | const s =>
      obtain ⟨rest, rfl, h⟩ := h
      have := ih h
      rw [List.count_append]
      exact Nat.add_le_add_left this _
    | param n =>
      obtain ⟨v, rest, rfl, _, h⟩ := h
      have := ih h
      rw [List.count_append]
      exact Nat.le_trans this (Nat.le_add_left _ _)

theorem dots_self (s : Str) : Forall₂ (fun c d => d = c ∨ (c = '.' ∧ d ≠ '\n')) s s := by
  induction s with
  | nil => exact .nil
  | cons c s ih => exact .cons (.inl rfl) ih

/-- All parameters empty. -/
theorem dots_plain (t : PathTemplate) : ∃ p, DotInstance t p ∧ p.count '.' = templateDots t := by
  induction t with
  | nil => exact ⟨[], rfl, rfl⟩
  | cons x t ih =>
    obtain ⟨p, hp, hc⟩ := ih
    cases x with
    | const s => exact ⟨s ++ p, ⟨s, p, rfl, dots_self s, hp⟩, by rw [List.count_append, hc]; rfl⟩
    | param n => exact ⟨p, ⟨[], p, rfl, by simp, hp⟩, hc⟩

/-- One dot replaced. -/
theorem dots_replaced {t : PathTemplate} (h : templateDots t ≠ 0) : ∃ p, DotInstance t p ∧ p.count '.' < templateDots t := by
  induction t with
  | nil => exact absurd rfl h
  | cons x t ih =>
    cases x with
    | const s =>
      by_cases hs : '.' ∈ s
      · obtain ⟨a, b, rfl⟩ := List.append_of_mem hs
        obtain ⟨p, hp, hc⟩ := dots_plain t
        refine ⟨(a ++ 'x' :: b) ++ p, ⟨_, p, rfl, ?_, hp⟩, ?_⟩
        · clear h hs hp hc
          induction a with
          | nil => exact .cons (.inr ⟨rfl, by decide⟩) (dots_self b)
          | cons c a iha => exact .cons (.inl rfl) iha
        · simp only [templateDots, List.count_append, List.count_cons, hc]
          simp
      · have h0 : s.count '.' = 0 := List.count_eq_zero.mpr hs
        obtain ⟨p, hp, hc⟩ := ih (by simpa [templateDots, h0] using h)
        exact ⟨s ++ p, ⟨s, p, rfl, dots_self s, hp⟩, by rw [List.count_append, h0, templateDots, h0]; omega⟩
    | param n =>
      obtain ⟨p, hp, hc⟩ := ih h
      exact ⟨p, ⟨[], p, rfl, by simp, hp⟩, hc⟩

theorem templateDots_zero {t : PathTemplate} (h : templateDots t = 0) : ∀ s, .const s ∈ t → '.' ∉ s := by
  induction t with
  | nil => intro s hs; cases hs
  | cons x t ih =>
    intro s hs
    cases x with
    | const s' =>
      have h' : s'.count '.' + templateDots t = 0 := h
      rcases List.mem_cons.mp hs with e | hs
      · cases e; exact List.count_eq_zero.mp (by omega)
      · exact ih (by omega) s hs
    | param n =>
      rcases List.mem_cons.mp hs with e | hs
      · cases e
      · exact ih h s hs

/-- C48, guarded: if the constants of the template have a special meaning at most for dots, the mock expects exactly the instances of the
template if and only if there are no dots. -/
theorem C48_exact_iff_partial [JsonLib] (op : OperationMethod) (h : DotConsts op.path) :
    (∃ w, whenNew op = .when w ∧ ∀ s, w.Matches s ↔ op.method = s.method ∧ Instance (fun _ v => '/' ∉ v) op.path s.path) ↔
      PlainConsts op.path := by
  constructor
  · rintro ⟨w, hw, hm⟩ s hs c hc
    rcases h s hs c hc with hp | rfl
    · exact hp
    · exfalso
      obtain ⟨w', hw', hm'⟩ := C48_dots_partial op h
      rw [hw] at hw'
      cases hw'
      have h0 : templateDots op.path ≠ 0 := fun h0 => templateDots_zero h0 s hs hc
      obtain ⟨p, hp, hlt⟩ := dots_replaced h0
      have := (hm ⟨op.method, p, [], []⟩).mp ((hm' ⟨op.method, p, [], []⟩).mpr ⟨rfl, hp⟩)
      exact absurd (instance_dots this.2) (by dsimp only; omega)
  · intro hp
    exact C48_exact_partial op hp

/-- A template with a version. -/
example : DotConsts [.const "/v1.0/".toList, .param "id".toList] ∧ ¬ PlainConsts [.const "/v1.0/".toList, .param "id".toList] := by
  refine ⟨?_, fun h => absurd (h "/v1.0/".toList (by simp) '.' (by decide)) (by decide)⟩
  intro s hs
  simp only [List.mem_cons, Component.const.injEq, reduceCtorEq, List.not_mem_nil, or_false] at hs
  subst hs
  decide

example : DotInstance [.const "/v1.0/".toList, .param "id".toList] "/v1x0/7".toList :=
  ⟨"/v1x0/".toList, "7".toList, rfl,
    .cons (.inl rfl) (.cons (.inl rfl) (.cons (.inl rfl) (.cons (.inr ⟨rfl, by decide⟩) (.cons (.inl rfl) (.cons (.inl rfl) .nil))))),
    "7".toList, [], rfl, by decide, rfl⟩

end Progenitor.Props

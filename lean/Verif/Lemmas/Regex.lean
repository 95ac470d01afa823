import Verif.Spec.Mock
import Verif.Lemmas.Url

/-!
# Lemmas on the regular expressions of mocks
-/

namespace Progenitor.Regex

open Progenitor Progenitor.Template Progenitor.Spec

/-- Parts of an emitted expression. -/
inductive Piece where
  | text (s : Str)
  | segment
  | any

def Piece.str : Piece → Str
  | .text s => s
  | .segment => "[^/]*".toList
  | .any => ".*".toList

def charItem (c : Char) : Item := .chars (if c = '.' then .dot else .lit c) .one

def Piece.items : Piece → List Item
  | .text s => s.map charItem
  | .segment => [.chars (.cls true ['/']) .star]
  | .any => [.chars .dot .star]

/-- Text that is read character by character. -/
def plainOrDot (c : Char) : Bool := plainRegex c || c == '.'

def Piece.Ok : Piece → Prop
  | .text s => ∀ c ∈ s, plainOrDot c = true
  | _ => True

theorem plainOrDot_not {c : Char} (h : plainOrDot c = true) : quantOf c = none ∧ c ≠ '^' ∧ c ≠ '$' ∧ c ≠ '[' ∧ c ≠ ')' ∧
    ¬(c = '(' ∨ c = '|' ∨ c = '\\' ∨ c = '{') := by
  have key : ∀ d, plainOrDot d = false → c ≠ d := by rintro d hd rfl; rw [h] at hd; cases hd
  refine ⟨?_, key _ (by decide), key _ (by decide), key _ (by decide), key _ (by decide), ?_⟩
  · unfold quantOf
    split
    · exact absurd rfl (key '?' (by decide))
    · exact absurd rfl (key '*' (by decide))
    · exact absurd rfl (key '+' (by decide))
    · rfl
  · rintro (rfl | rfl | rfl | rfl)
    · exact key '(' (by decide) rfl
    · exact key '|' (by decide) rfl
    · exact key '\\' (by decide) rfl
    · exact key '{' (by decide) rfl

/-- The text does not start with a repetition operator. -/
def NoQuant : Str → Prop
  | [] => True
  | c :: _ => quantOf c = none

theorem parseFrom_flush (acc : List Item) (last : Option CharSet) (r : Str) (hr : NoQuant r) :
    parseFrom acc (.top last) r = parseFrom (acc ++ pending last) (.top none) r := by
  cases r with
  | nil => simp [parseFrom, pending]
  | cons c r =>
    have hq : quantOf c = none := hr
    rw [parseFrom, parseFrom, hq]
    simp only [pending, List.append_nil]

theorem parseFrom_text (s r : Str) (hs : ∀ c ∈ s, plainOrDot c = true) (hr : NoQuant r) : ∀ acc,
    parseFrom acc (.top none) (s ++ r) = parseFrom (acc ++ s.map charItem) (.top none) r := by
  induction s with
  | nil => intro acc; simp
  | cons c s ih =>
    intro acc
    have ih := ih fun d hd => hs d (by simp [hd])
    obtain ⟨h1, h2, h3, h4, h5, h6⟩ := plainOrDot_not (hs c (by simp))
    rw [List.cons_append, parseFrom, h1]
    simp only [h2, h3, h4, h5, h6, if_false]
    rw [parseFrom_flush, ih]
    · simp [pending, charItem]
    · cases s with
      | nil => exact hr
      | cons d s => exact (plainOrDot_not (hs d (by simp))).1

theorem noQuant_pieces (l : List Piece) (hl : ∀ x ∈ l, x.Ok) : NoQuant (l.flatMap Piece.str ++ ['$']) := by
  induction l with
  | nil => rfl
  | cons x l ih =>
    have ih := ih fun y hy => hl y (by simp [hy])
    rw [List.flatMap_cons, List.append_assoc]
    cases x with
    | text s =>
      cases s with
      | nil => exact ih
      | cons c s => exact (plainOrDot_not (hl (.text (c :: s)) (by simp) c (by simp))).1
    | segment => rfl
    | any => rfl

theorem parseFrom_pieces (l : List Piece) (hl : ∀ x ∈ l, x.Ok) : ∀ acc,
    parseFrom acc (.top none) (l.flatMap Piece.str ++ ['$']) = .regex (acc ++ l.flatMap Piece.items ++ [.stop]) := by
  induction l with
  | nil => intro acc; simp [parseFrom, quantOf, pending]
  | cons x l ih =>
    intro acc
    have hl' : ∀ y ∈ l, y.Ok := fun y hy => hl y (by simp [hy])
    have ih := ih hl'
    have hq := noQuant_pieces l hl'
    rw [List.flatMap_cons, List.append_assoc]
    cases x with
    | text s =>
      rw [show Piece.str (.text s) = s from rfl, parseFrom_text s _ (hl (.text s) (by simp)) hq, ih]
      simp [Piece.items]
    | segment =>
      have : parseFrom acc (.top none) (Piece.segment.str ++ (l.flatMap Piece.str ++ ['$'])) =
          parseFrom (acc ++ Piece.segment.items) (.top none) (l.flatMap Piece.str ++ ['$']) := by
        simp [Piece.str, Piece.items, parseFrom, quantOf, pending, classSpecial]
      rw [this, ih]; simp
    | any =>
      have : parseFrom acc (.top none) (Piece.any.str ++ (l.flatMap Piece.str ++ ['$'])) =
          parseFrom (acc ++ Piece.any.items) (.top none) (l.flatMap Piece.str ++ ['$']) := by
        simp [Piece.str, Piece.items, parseFrom, quantOf, pending]
      rw [this, ih]; simp

theorem parse_pieces (l : List Piece) (hl : ∀ x ∈ l, x.Ok) :
    parse ('^' :: l.flatMap Piece.str ++ ['$']) = .regex (.start :: l.flatMap Piece.items ++ [.stop]) := by
  rw [parse, List.cons_append, parseFrom]
  simp only [quantOf, if_true, pending, List.append_nil, List.nil_append]
  rw [parseFrom_pieces l hl]
  rfl

/-- `.` stands for any character but a line break. -/
def sameChar (c d : Char) : Prop := c = d ∨ (c = '.' ∧ d ≠ '\n')

/-- The texts that pieces stand for. -/
def Lang : List Piece → Str → Prop
  | [], p => p = []
  | .text s :: l, p => ∃ a b, p = a ++ b ∧ Forall₂ sameChar s a ∧ Lang l b
  | .segment :: l, p => ∃ a b, p = a ++ b ∧ '/' ∉ a ∧ Lang l b
  | .any :: l, p => ∃ a b, p = a ++ b ∧ '\n' ∉ a ∧ Lang l b

theorem has_charItem (c d : Char) : (if c = '.' then CharSet.dot else CharSet.lit c).has d = true ↔ sameChar c d ∧
    (c = '.' → d ≠ '\n') := by
  unfold sameChar
  split
  · rename_i h; subst h
    simp only [CharSet.has, bne_iff_ne, true_and]
    constructor
    · intro h; exact ⟨.inr h, fun _ => h⟩
    · intro h; exact h.2 trivial
  · rename_i h
    simp [CharSet.has, h]

theorem sameChar_newline {c d : Char} (h : sameChar c d) : c = '.' → d ≠ '\n' := by
  rintro rfl
  rcases h with rfl | ⟨_, h⟩
  · decide
  · exact h

theorem matchFrom_text (s : Str) (l : List Item) : ∀ pre post, MatchFrom (s.map charItem ++ l) pre post ↔
    ∃ a b, post = a ++ b ∧ Forall₂ sameChar s a ∧ MatchFrom l (pre ++ a) b := by
  induction s with
  | nil =>
    intro pre post
    constructor
    · intro h; exact ⟨[], post, rfl, .nil, by simpa using h⟩
    · rintro ⟨a, b, rfl, h1, h2⟩
      cases h1
      simpa using h2
  | cons c s ih =>
    intro pre post
    rw [List.map_cons, List.cons_append, charItem, MatchFrom]
    constructor
    · rintro ⟨a, b, rfl, hn, hc, hm⟩
      obtain ⟨a', b', rfl, h1, h2⟩ := (ih _ _).mp hm
      have : ∃ d, a = [d] := by
        simp only [Quant.allows, beq_iff_eq] at hn
        match a, hn with
        | [d], _ => exact ⟨d, rfl⟩
      obtain ⟨d, rfl⟩ := this
      refine ⟨d :: a', b', by simp, .cons ((has_charItem c d).mp (hc d (by simp))).1 h1, ?_⟩
      simpa using h2
    · rintro ⟨a, b, rfl, h1, h2⟩
      cases h1 with
      | @cons _ d _ a hcd h1 =>
        refine ⟨[d], a ++ b, by simp, rfl, ?_, (ih _ _).mpr ⟨a, b, rfl, h1, by simpa using h2⟩⟩
        intro x hx
        rw [List.mem_singleton] at hx
        subst hx
        exact (has_charItem c x).mpr ⟨hcd, sameChar_newline hcd⟩

theorem matchFrom_pieces (l : List Piece) : ∀ pre post,
    MatchFrom (l.flatMap Piece.items ++ [.stop]) pre post ↔ Lang l post := by
  induction l with
  | nil => intro pre post; simp [MatchFrom, Lang]
  | cons x l ih =>
    intro pre post
    rw [List.flatMap_cons, List.append_assoc]
    cases x with
    | text s =>
      rw [show Piece.items (.text s) = s.map charItem from rfl, matchFrom_text]
      simp only [Lang, ih]
    | segment =>
      simp only [Piece.items, List.cons_append, List.nil_append, MatchFrom, Lang, ih, Quant.allows, true_and]
      constructor
      · rintro ⟨a, b, h1, h2, h3⟩
        exact ⟨a, b, h1, fun h => by simpa [CharSet.has] using h2 _ h, h3⟩
      · rintro ⟨a, b, h1, h2, h3⟩
        refine ⟨a, b, h1, ?_, h3⟩
        rintro c hc
        have : c ≠ '/' := fun h => h2 (h ▸ hc)
        simp [CharSet.has, this]
    | any =>
      simp only [Piece.items, List.cons_append, List.nil_append, MatchFrom, Lang, ih, Quant.allows, true_and]
      constructor
      · rintro ⟨a, b, h1, h2, h3⟩
        exact ⟨a, b, h1, fun h => by simpa [CharSet.has] using h2 _ h, h3⟩
      · rintro ⟨a, b, h1, h2, h3⟩
        refine ⟨a, b, h1, ?_, h3⟩
        rintro c hc
        have : c ≠ '\n' := fun h => h2 (h ▸ hc)
        simp [CharSet.has, this]

theorem isMatch_pieces (l : List Piece) (p : Str) :
    IsMatch (.start :: l.flatMap Piece.items ++ [.stop]) p ↔ Lang l p := by
  rw [List.cons_append]
  constructor
  · rintro ⟨pre, post, rfl, h⟩
    rw [MatchFrom] at h
    obtain ⟨rfl, h⟩ := h
    exact (matchFrom_pieces l _ _).mp h
  · intro h
    exact ⟨[], p, rfl, rfl, (matchFrom_pieces l _ _).mpr h⟩

/-! ## Deciding -/

def matchB : List Item → Bool → Str → Bool
  | [], _, _ => true
  | .start :: l, b, post => b && matchB l b post
  | .stop :: l, b, post => post.isEmpty && matchB l b post
  | .chars s q :: l, b, post => (List.range (post.length + 1)).any fun k =>
      q.allows k && (post.take k).all s.has && matchB l (b && k == 0) (post.drop k)

theorem matchB_iff (l : List Item) : ∀ pre post, matchB l pre.isEmpty post = true ↔ MatchFrom l pre post := by
  induction l with
  | nil => simp [matchB, MatchFrom]
  | cons x l ih =>
    intro pre post
    cases x with
    | start => simp [matchB, MatchFrom, ih, List.isEmpty_iff]
    | stop => simp [matchB, MatchFrom, ih, List.isEmpty_iff]
    | chars s q =>
      simp only [matchB, MatchFrom, List.any_eq_true, List.mem_range, Bool.and_eq_true, List.all_eq_true]
      constructor
      · rintro ⟨k, hk, ⟨h1, h2⟩, h3⟩
        have hlen : (post.take k).length = k := by rw [List.length_take]; omega
        refine ⟨post.take k, post.drop k, (List.take_append_drop k post).symm, by rw [hlen]; exact h1, h2, ?_⟩
        rw [← ih]
        rw [show (pre ++ post.take k).isEmpty = (pre.isEmpty && k == 0) by
          rw [Bool.eq_iff_iff]
          simp only [List.isEmpty_iff, List.append_eq_nil_iff, Bool.and_eq_true, beq_iff_eq]
          rw [← List.length_eq_zero_iff (l := post.take k), hlen]]
        exact h3
      · rintro ⟨a, b, rfl, h1, h2, h3⟩
        refine ⟨a.length, by simp; omega, ⟨h1, by simpa using h2⟩, ?_⟩
        rw [← ih] at h3
        rw [show (pre.isEmpty && a.length == 0) = (pre ++ a).isEmpty by
          rw [Bool.eq_iff_iff]
          simp [List.isEmpty_iff]]
        simpa using h3

instance (l : List Item) (text : Str) : Decidable (IsMatch l text) :=
  decidable_of_iff ((List.range (text.length + 1)).any fun k => matchB l (text.take k).isEmpty (text.drop k)) (by
    simp only [List.any_eq_true, List.mem_range, matchB_iff, IsMatch]
    constructor
    · rintro ⟨k, _, h⟩; exact ⟨_, _, (List.take_append_drop k text).symm, h⟩
    · rintro ⟨pre, post, rfl, h⟩
      exact ⟨pre.length, by simp; omega, by simpa using h⟩)

/-! ## Templates -/

def wildPiece : Component → Piece
  | .const s => .text s
  | .param _ => .segment

theorem asWildcard_pieces (t : PathTemplate) : asWildcard t = '^' :: (t.map wildPiece).flatMap Piece.str ++ ['$'] := by
  unfold asWildcard
  congr 2
  induction t with
  | nil => rfl
  | cons x t ih =>
    rw [List.flatMap_cons, List.map_cons, List.flatMap_cons, ih]
    cases x <;> rfl

/-- The template for a value of one parameter. -/
def paramPiece (n v : Str) : Component → Piece
  | .const s => .text s
  | .param m => if m = n then .text v else .any

/-- Constants without braces. -/
def NoBraces (t : PathTemplate) : Prop := ∀ s, .const s ∈ t → ∀ c ∈ s, c ≠ '{' ∧ c ≠ '}'

def paramText (n : Str) : Component → Str
  | .const s => s
  | .param q => if q = n then ['{', '}'] else ".*".toList

theorem rustFormat_param (n v : Str) (t : PathTemplate) (ht : NoBraces t) :
    rustFormat (t.flatMap (paramText n) ++ ['$']) (List.replicate ((names t).count n) v) =
      some ((t.map (paramPiece n v)).flatMap Piece.str ++ ['$']) := by
  induction t with
  | nil => simp [rustFormat, names]
  | cons x t ih =>
    have ih := ih fun s hs => ht s (by simp [hs])
    cases x with
    | const s =>
      have hs := ht s (by simp)
      have hn : names (.const s :: t) = names t := by simp [names]
      simp only [List.flatMap_cons, List.append_assoc, List.map_cons, hn, paramText]
      rw [rustFormat_lit s hs, ih]
      simp [paramPiece, Piece.str]
    | param m =>
      have hn : names (.param m :: t) = m :: names t := by simp [names]
      by_cases hm : m = n
      · subst hm
        simp only [List.flatMap_cons, List.map_cons, hn, paramText, if_true, List.count_cons_self,
          List.replicate_succ, List.cons_append, List.nil_append, rustFormat]
        rw [ih]
        simp [paramPiece, Piece.str]
      · simp only [List.flatMap_cons, List.append_assoc, List.map_cons, hn, paramText, if_neg hm,
          List.count_cons_of_ne hm]
        rw [rustFormat_lit ".*".toList (by decide), ih]
        simp [paramPiece, Piece.str, hm]

theorem rustFormat_param_none (n : Str) (t : PathTemplate) (ht : NoBraces t) : ∀ args : List Str,
    args.length ≠ (names t).count n → rustFormat (t.flatMap (paramText n) ++ ['$']) args = none := by
  induction t with
  | nil =>
    intro args h
    cases args with
    | nil => simp [names] at h
    | cons x args => simp [rustFormat]
  | cons x t ih =>
    intro args h
    have ih := ih fun s hs => ht s (by simp [hs])
    cases x with
    | const s =>
      have hs := ht s (by simp)
      have hn : names (.const s :: t) = names t := by simp [names]
      simp only [List.flatMap_cons, List.append_assoc, paramText]
      rw [rustFormat_lit s hs, ih args (hn ▸ h)]
      rfl
    | param m =>
      have hn : names (.param m :: t) = m :: names t := by simp [names]
      by_cases hm : m = n
      · subst hm
        simp only [List.flatMap_cons, paramText, if_true, List.cons_append, List.nil_append]
        cases args with
        | nil => simp [rustFormat]
        | cons a args =>
          rw [hn, List.count_cons_self, List.length_cons] at h
          rw [rustFormat, ih args (by omega)]
          rfl
      · simp only [List.flatMap_cons, List.append_assoc, paramText, if_neg hm]
        rw [hn, List.count_cons_of_ne hm] at h
        rw [rustFormat_lit ".*".toList (by decide), ih args h]
        rfl

theorem asWildcardParam_eq (t : PathTemplate) (n : Str) :
    asWildcardParam t n = ['^'] ++ (t.flatMap (paramText n) ++ ['$']) := by
  unfold asWildcardParam
  rw [List.cons_append, show ∀ r : Str, '^' :: r = ['^'] ++ r from fun _ => rfl]
  congr 2

/-- The expression of a value, if the parameter occurs once in the template. -/
theorem rustFormat_wildcardParam (n v : Str) (t : PathTemplate) (ht : NoBraces t) :
    rustFormat (asWildcardParam t n) [v] = if (names t).count n = 1 then
      some ('^' :: (t.map (paramPiece n v)).flatMap Piece.str ++ ['$']) else none := by
  rw [asWildcardParam_eq, rustFormat_lit _ (by decide)]
  by_cases h : (names t).count n = 1
  · have := rustFormat_param n v t ht
    rw [h] at this
    rw [show [v] = List.replicate 1 v from rfl, this]
    simp [h]
  · rw [rustFormat_param_none n t ht [v] (fun e => h e.symm)]
    simp [h]

/-! ## Instances -/

theorem instance_mono {ok ok' : Str → Str → Prop} {t : PathTemplate} (h : ∀ n ∈ names t, ∀ v, ok n v → ok' n v) :
    ∀ {p : Str}, Instance ok t p → Instance ok' t p := by
  induction t with
  | nil => intro p hp; exact hp
  | cons x t ih =>
    intro p hp
    cases x with
    | const s =>
      obtain ⟨r, rfl, hp⟩ := hp
      exact ⟨r, rfl, ih (fun n hn => h n (by simpa [names] using hn)) hp⟩
    | param n =>
      obtain ⟨v, r, rfl, hv, hp⟩ := hp
      exact ⟨v, r, rfl, h n (by simp [names]) v hv, ih (fun m hm => h m (by simp [names] at hm ⊢; exact .inr hm)) hp⟩

theorem instance_congr {ok ok' : Str → Str → Prop} {t : PathTemplate} (h : ∀ n ∈ names t, ∀ v, ok n v ↔ ok' n v)
    {p : Str} : Instance ok t p ↔ Instance ok' t p :=
  ⟨instance_mono fun n hn v => (h n hn v).mp, instance_mono fun n hn v => (h n hn v).mpr⟩

theorem instance_render (ok : Str → Str → Prop) (f : Str → Str) (t : PathTemplate) (h : ∀ n ∈ names t, ok n (f n)) :
    Instance ok t (render f t) := by
  induction t with
  | nil => rfl
  | cons x t ih =>
    cases x with
    | const s => exact ⟨_, by simp, ih fun n hn => h n (by simpa [names] using hn)⟩
    | param n => exact ⟨_, _, by simp, h n (by simp [names]), ih fun m hm => h m (by simp [names] at hm ⊢; exact .inr hm)⟩

theorem forall₂_same {s a : Str} (hs : ∀ c ∈ s, plainRegex c = true) : Forall₂ sameChar s a ↔ a = s := by
  constructor
  · intro h
    induction h with
    | nil => rfl
    | @cons c d s a h1 _ ih =>
      rw [ih fun x hx => hs x (by simp [hx])]
      rcases h1 with rfl | ⟨rfl, _⟩
      · rfl
      · exact absurd (hs '.' (by simp)) (by decide)
  · rintro rfl
    clear hs
    induction a with
    | nil => exact .nil
    | cons c a ih => exact .cons (.inl rfl) ih

theorem plainConsts_cons {x : Component} {t : PathTemplate} (h : PlainConsts (x :: t)) : PlainConsts t :=
  fun s hs => h s (by simp [hs])

theorem lang_wild (t : PathTemplate) (ht : PlainConsts t) : ∀ p,
    Lang (t.map wildPiece) p ↔ Instance (fun _ v => '/' ∉ v) t p := by
  induction t with
  | nil => intro p; rfl
  | cons x t ih =>
    intro p
    have ih := ih (plainConsts_cons ht)
    cases x with
    | const s =>
      simp only [List.map_cons, wildPiece, Lang, Instance, ih]
      constructor
      · rintro ⟨a, b, rfl, h1, h2⟩
        rw [(forall₂_same (ht s (by simp))).mp h1]
        exact ⟨b, rfl, h2⟩
      · rintro ⟨b, rfl, h2⟩
        exact ⟨s, b, rfl, (forall₂_same (ht s (by simp))).mpr rfl, h2⟩
    | param n => simp only [List.map_cons, wildPiece, Lang, Instance, ih]

theorem lang_param (n v : Str) (t : PathTemplate) (ht : PlainConsts t) (hv : ∀ c ∈ v, plainRegex c = true) : ∀ p,
    Lang (t.map (paramPiece n v)) p ↔ Instance (fun m x => if m = n then x = v else '\n' ∉ x) t p := by
  induction t with
  | nil => intro p; rfl
  | cons x t ih =>
    intro p
    have ih := ih (plainConsts_cons ht)
    cases x with
    | const s =>
      simp only [List.map_cons, paramPiece, Lang, Instance, ih]
      constructor
      · rintro ⟨a, b, rfl, h1, h2⟩
        rw [(forall₂_same (ht s (by simp))).mp h1]
        exact ⟨b, rfl, h2⟩
      · rintro ⟨b, rfl, h2⟩
        exact ⟨s, b, rfl, (forall₂_same (ht s (by simp))).mpr rfl, h2⟩
    | param m =>
      by_cases hm : m = n
      · simp only [List.map_cons, paramPiece, hm, if_true, Lang, Instance, ih]
        constructor
        · rintro ⟨a, b, rfl, h1, h2⟩
          exact ⟨a, b, rfl, (forall₂_same hv).mp h1, h2⟩
        · rintro ⟨a, b, rfl, h1, h2⟩
          exact ⟨a, b, rfl, (forall₂_same hv).mpr h1, h2⟩
      · simp only [List.map_cons, paramPiece, hm, if_false, Lang, Instance, ih]

theorem plainConsts_ok {t : PathTemplate} (ht : PlainConsts t) : ∀ x ∈ t.map wildPiece, x.Ok := by
  intro x hx
  obtain ⟨y, hy, rfl⟩ := List.mem_map.mp hx
  cases y with
  | const s => intro c hc; simp [plainOrDot, ht s hy c hc]
  | param n => trivial

theorem plainConsts_ok_param {t : PathTemplate} (ht : PlainConsts t) (n : Str) {v : Str}
    (hv : ∀ c ∈ v, plainRegex c = true) : ∀ x ∈ t.map (paramPiece n v), x.Ok := by
  intro x hx
  obtain ⟨y, hy, rfl⟩ := List.mem_map.mp hx
  cases y with
  | const s => intro c hc; simp [plainOrDot, ht s hy c hc]
  | param m =>
    by_cases hm : m = n
    · simp only [paramPiece, hm, if_true]; intro c hc; simp [plainOrDot, hv c hc]
    · simp only [paramPiece, hm, if_false]; trivial

theorem plainConsts_noBraces {t : PathTemplate} (ht : PlainConsts t) : NoBraces t := by
  intro s hs c hc
  have := ht s hs c hc
  constructor <;> (rintro rfl; exact absurd this (by decide))

/-! ## Combining expectations -/

/-- The number of slashes in the constants. -/
def constSlashes : PathTemplate → Nat
  | [] => 0
  | .const s :: t => s.count '/' + constSlashes t
  | .param _ :: t => constSlashes t

theorem instance_slashes {ok : Str → Str → Prop} {t : PathTemplate} : ∀ {p : Str}, Instance ok t p →
    constSlashes t ≤ p.count '/' ∧ (p.count '/' = constSlashes t → Instance (fun n v => ok n v ∧ '/' ∉ v) t p) := by
  induction t with
  | nil => rintro p rfl; exact ⟨by simp [constSlashes], fun _ => rfl⟩
  | cons x t ih =>
    intro p hp
    cases x with
    | const s =>
      obtain ⟨r, rfl, hp⟩ := hp
      obtain ⟨h1, h2⟩ := ih hp
      simp only [List.count_append, constSlashes]
      exact ⟨by omega, fun h => ⟨r, rfl, h2 (by omega)⟩⟩
    | param n =>
      obtain ⟨v, r, rfl, hv, hp⟩ := hp
      obtain ⟨h1, h2⟩ := ih hp
      simp only [List.count_append, constSlashes]
      refine ⟨by omega, fun h => ⟨v, r, rfl, ⟨hv, ?_⟩, h2 (by omega)⟩⟩
      exact List.count_eq_zero.mp (by omega)

theorem instance_slashes_eq {t : PathTemplate} : ∀ {p : Str}, Instance (fun _ v => '/' ∉ v) t p →
    p.count '/' = constSlashes t := by
  induction t with
  | nil => rintro p rfl; rfl
  | cons x t ih =>
    intro p hp
    cases x with
    | const s =>
      obtain ⟨r, rfl, hp⟩ := hp
      simp [List.count_append, constSlashes, ih hp]
    | param n =>
      obtain ⟨v, r, rfl, hv, hp⟩ := hp
      simp [List.count_append, constSlashes, ih hp, List.count_eq_zero.mpr hv]

theorem instance_and_slash {ok : Str → Str → Prop} {t : PathTemplate} {p : Str} :
    (Instance (fun _ v => '/' ∉ v) t p ∧ Instance ok t p) ↔ Instance (fun n v => ok n v ∧ '/' ∉ v) t p := by
  constructor
  · rintro ⟨h1, h2⟩
    exact (instance_slashes h2).2 (instance_slashes_eq h1)
  · intro h
    exact ⟨instance_mono (fun _ _ _ h => h.2) h, instance_mono (fun _ _ _ h => h.1) h⟩

/-- A text is split uniquely at its first slash. -/
theorem split_first {v w s0 x y : Str} (hv : '/' ∉ v) (hw : '/' ∉ w) (hs : '/' ∉ s0)
    (h : v ++ (s0 ++ '/' :: x) = w ++ (s0 ++ '/' :: y)) : v = w := by
  have key : ∀ (a b : Str), '/' ∉ a → '/' ∉ b → a ++ '/' :: x = b ++ '/' :: y → a = b := by
    intro a
    induction a with
    | nil =>
      intro b _ hb h
      cases b with
      | nil => rfl
      | cons c b => simp only [List.nil_append, List.cons_append, List.cons.injEq] at h; exact absurd h.1 (by simp at hb; exact hb.1)
    | cons c a ih =>
      intro b ha hb h
      cases b with
      | nil => simp only [List.nil_append, List.cons_append, List.cons.injEq] at h; exact absurd h.1.symm (by simp at ha; exact ha.1)
      | cons d b =>
        simp only [List.cons_append, List.cons.injEq] at h
        rw [h.1, ih b (by simp at ha; exact ha.2) (by simp at hb; exact hb.2) h.2]
  rw [← List.append_assoc, ← List.append_assoc] at h
  have := key (v ++ s0) (w ++ s0) (by simp [hv, hs]) (by simp [hw, hs]) h
  exact List.append_cancel_right this

theorem first_slash {s : Str} (h : '/' ∈ s) : ∃ a b, s = a ++ '/' :: b ∧ '/' ∉ a := by
  induction s with
  | nil => cases h
  | cons c s ih =>
    by_cases hc : c = '/'
    · exact ⟨[], s, by simp [hc], by simp⟩
    · obtain ⟨a, b, rfl, ha⟩ := ih (by simpa [Ne.symm hc] using h)
      exact ⟨c :: a, b, rfl, by simp [ha, Ne.symm hc]⟩

/-- If parameters are separated, a path is an instance in one way. -/
theorem instance_and {ok ok' : Str → Str → Prop} {t : PathTemplate} (ht : Separated t) : ∀ {p : Str},
    (Instance (fun n v => ok n v ∧ '/' ∉ v) t p ∧ Instance (fun n v => ok' n v ∧ '/' ∉ v) t p) ↔
    Instance (fun n v => (ok n v ∧ ok' n v) ∧ '/' ∉ v) t p := by
  intro p
  constructor
  · rintro ⟨h, h'⟩
    induction t generalizing p with
    | nil => exact h
    | cons x t ih =>
      cases x with
      | const s =>
        obtain ⟨r, rfl, h⟩ := h
        obtain ⟨r', e, h'⟩ := h'
        rw [List.append_cancel_left_eq] at e
        subst e
        exact ⟨r, rfl, ih (by simpa [Separated] using ht) h h'⟩
      | param n =>
        obtain ⟨v, r, rfl, ⟨hv, hvs⟩, h⟩ := h
        obtain ⟨v', r', e, ⟨hv', hvs'⟩, h'⟩ := h'
        have key : v = v' ∧ Separated t := by
          match t, ht with
          | [], _ =>
            have h1 : r = [] := h
            have h2 : r' = [] := h'
            subst h1; subst h2
            exact ⟨by simpa using e, trivial⟩
          | [.const s], _ =>
            obtain ⟨q, h1, h2⟩ := h
            obtain ⟨q', h3, h4⟩ := h'
            have h2 : q = [] := h2
            have h4 : q' = [] := h4
            subst h1; subst h3; subst h2; subst h4
            exact ⟨List.append_cancel_right e, trivial⟩
          | .const s :: y :: t, hsep =>
            have hsep : '/' ∈ s ∧ Separated (y :: t) := by simpa [Separated] using hsep
            obtain ⟨q, h1, h2⟩ := h
            obtain ⟨q', h3, h4⟩ := h'
            subst h1; subst h3
            obtain ⟨a, b, rfl, ha⟩ := first_slash hsep.1
            refine ⟨split_first hvs hvs' ha (x := b ++ q) (y := b ++ q') (by simpa using e), ?_⟩
            simpa [Separated] using hsep.2
          | .param m :: t, hsep => exact hsep.elim
        obtain ⟨rfl, hsep⟩ := key
        rw [List.append_cancel_left_eq] at e
        subst e
        exact ⟨v, r, rfl, ⟨⟨hv, hv'⟩, hvs⟩, ih hsep h h'⟩
  · intro h
    exact ⟨instance_mono (fun _ _ _ h => ⟨h.1.1, h.2⟩) h, instance_mono (fun _ _ _ h => ⟨h.1.2, h.2⟩) h⟩

end Progenitor.Regex

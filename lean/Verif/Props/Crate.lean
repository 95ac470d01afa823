import Verif.Spec.Crate
import Verif.Props.Doc

/-!
# C74: the crate written by `cargo progenitor`
-/

namespace Progenitor.Props

open Progenitor Progenitor.Spec Progenitor.Spec.Toml Progenitor.Crate Progenitor.Doc

/-! ## Reading -/

theorem lines_line {l : Str} (h : '\n' ∉ l) (r : Str) : lines (l ++ '\n' :: r) = l :: lines r := by
  induction l with
  | nil => rfl
  | cons c l ih =>
    have hc : c ≠ '\n' := fun e => h (by simp [e])
    have := ih fun e => h (List.mem_cons_of_mem _ e)
    rw [List.cons_append, lines, this]
    exact hc

theorem lines_head (s : Str) : ∃ ls, lines s = s.takeWhile (· ≠ '\n') :: ls := by
  induction s with
  | nil => exact ⟨[], rfl⟩
  | cons c s ih =>
    obtain ⟨ls, h⟩ := ih
    by_cases hc : c = '\n'
    · subst hc; exact ⟨_, rfl⟩
    · refine ⟨ls, ?_⟩
      rw [lines, h, List.takeWhile_cons, if_pos (by simpa using hc)]
      exact hc

theorem basic_apart {c : Char} (h : basic c = true) : c ≠ '"' ∧ c ≠ '\\' ∧ c ≠ '\n' := by
  refine ⟨?_, ?_, ?_⟩ <;> (rintro rfl; revert h; decide)

theorem plain_newline {s : Str} (h : Plain s) : '\n' ∉ s := fun e => (basic_apart (h _ e)).2.2 rfl

theorem readString_plain {s : Str} (h : Plain s) (r : Str) : readString (s ++ '"' :: r) = some (s, r) := by
  induction s with
  | nil => rfl
  | cons c s ih =>
    have hc := h c (List.mem_cons_self)
    obtain ⟨h1, h2, _⟩ := basic_apart hc
    rw [List.cons_append, readString, ih fun d hd => h d (List.mem_cons_of_mem _ hd), if_pos hc]
    · rfl
    · exact h1
    · exact fun e => absurd e h2
    · exact fun _ _ e => absurd e h2

theorem readString_bound {t v r : Str} (h : readString t = some (v, r)) :
    v.length + 1 + r.length ≤ t.length ∧ (v.length + 1 + r.length = t.length → t = v ++ '"' :: r ∧ Plain v) := by
  fun_induction readString t generalizing v r with
  | case1 => cases h
  | case2 rest => cases h; exact ⟨by simp; omega, fun _ => ⟨rfl, fun c hc => by cases hc⟩⟩
  | case3 => cases h
  | case4 c rest d hd ih =>
    cases hr : readString rest with
    | none => rw [hr] at h; cases h
    | some p =>
      obtain ⟨v', r'⟩ := p
      rw [hr] at h
      cases h
      obtain ⟨h1, _⟩ := ih hr
      simp only [List.length_cons]
      exact ⟨by omega, fun e => by omega⟩
  | case5 => cases h
  | case6 c rest hc h1 h2 hb ih =>
    cases hr : readString rest with
    | none => rw [hr] at h; cases h
    | some p =>
      obtain ⟨v', r'⟩ := p
      rw [hr] at h
      cases h
      obtain ⟨h1, h2⟩ := ih hr
      simp only [List.length_cons]
      refine ⟨by omega, fun e => ?_⟩
      obtain ⟨h3, h4⟩ := h2 (by omega)
      rw [h3]
      refine ⟨rfl, fun x hx => ?_⟩
      rcases List.mem_cons.mp hx with rfl | hx
      · assumption
      · exact h4 x hx
  | case7 => cases h

/-- A bare key. -/
def BareKey (k : Str) : Prop := k ≠ [] ∧ ∀ c ∈ k, bare c = true

theorem bare_apart {c : Char} (h : bare c = true) : c ≠ ' ' ∧ c ≠ '\t' ∧ c ≠ '[' ∧ c ≠ '#' ∧ c ≠ '\n' := by
  refine ⟨?_, ?_, ?_, ?_, ?_⟩ <;> (rintro rfl; revert h; decide)

theorem skip_key {k : Str} (hk : BareKey k) (t : Str) : skip (k ++ t) = k ++ t := by
  obtain ⟨h1, h2⟩ := hk
  cases k with
  | nil => exact absurd rfl h1
  | cons c k =>
    obtain ⟨h3, h4, _⟩ := bare_apart (h2 c List.mem_cons_self)
    rw [List.cons_append, skip]
    · exact fun _ e => h3 (List.cons.inj e).1
    · exact fun _ e => h4 (List.cons.inj e).1

theorem readKey_key {k : Str} (hk : BareKey k) (t : Str) : readKey (k ++ ' ' :: t) = some (k, ' ' :: t) := by
  obtain ⟨h1, h2⟩ := hk
  have hb : bare ' ' = false := by decide
  have ht : (k ++ ' ' :: t).takeWhile bare = k := by
    rw [List.takeWhile_append_of_pos h2, List.takeWhile_cons, hb]; simp
  have hd : (k ++ ' ' :: t).dropWhile bare = ' ' :: t := by
    rw [List.dropWhile_append_of_pos h2, List.dropWhile_cons, hb]; simp
  unfold readKey
  rw [ht, hd]
  cases k with
  | nil => exact absurd rfl h1
  | cons c k => rfl

/-- The value after `key = `. -/
def valueLine (k r : Str) : Option Line :=
  match readValue r with
  | none => none
  | some (v, r) => if ends r then some (.pair k v) else none

theorem readLine_pair {k : Str} (hk : BareKey k) (c : Char) (hc : c ≠ ' ' ∧ c ≠ '\t') (t : Str) :
    readLine (k ++ ' ' :: '=' :: ' ' :: c :: t) = valueLine k (c :: t) := by
  have hs := skip_key hk (' ' :: '=' :: ' ' :: c :: t)
  have hsk : skip (c :: t) = c :: t := by
    rw [skip]
    · exact fun _ e => hc.1 (List.cons.inj e).1
    · exact fun _ e => hc.2 (List.cons.inj e).1
  have ha : readAssign (k ++ ' ' :: '=' :: ' ' :: c :: t) = some (k, c :: t) := by
    unfold readAssign
    rw [readKey_key hk]
    show some (k, skip (' ' :: c :: t)) = _
    rw [show skip (' ' :: c :: t) = skip (c :: t) from rfl, hsk]
  obtain ⟨h1, h2⟩ := hk
  cases k with
  | nil => exact absurd rfl h1
  | cons d k =>
    obtain ⟨_, _, h3, h4, _⟩ := bare_apart (h2 d List.mem_cons_self)
    have he : ends (d :: k ++ ' ' :: '=' :: ' ' :: c :: t) = false := by
      unfold ends
      rw [hs]
      split
      · rename_i h; cases h
      · rename_i h; cases h; exact absurd rfl h4
      · rfl
    unfold readLine
    rw [he, hs]
    simp only [Bool.false_eq_true, if_false]
    split
    · rename_i h; cases h; exact absurd rfl h3
    · rw [ha]
      rfl

theorem readValue_str (t : Str) : readValue ('"' :: t) = (readString t).map fun p => (.scalar (.str p.1), p.2) := by
  show ((readString t).map fun (v, r) => (Scalar.str v, r)).map (fun (v, r) => (Value.scalar v, r)) = _
  cases readString t <;> rfl

theorem readValue_list (t : Str) : readValue ('[' :: t) = (readList t.length t).map fun p => (.scalar (.list p.1), p.2) := by
  show ((readList t.length t).map fun (v, r) => (Scalar.list v, r)).map (fun (v, r) => (Value.scalar v, r)) = _
  cases readList t.length t <;> rfl

theorem readLine_field {k : Str} (hk : BareKey k) (t : Str) :
    readLine (k ++ (" = \"".toList ++ t)) = match readString t with
      | none => none
      | some (v, r) => if ends r then some (.pair k (.scalar (.str v))) else none := by
  rw [show k ++ (" = \"".toList ++ t) = k ++ ' ' :: '=' :: ' ' :: '"' :: t from rfl, readLine_pair hk _ (by decide)]
  unfold valueLine
  rw [readValue_str]
  cases readString t <;> rfl

theorem takeWhile_line {s : Str} (h : '\n' ∉ s) (r : Str) : (s ++ '\n' :: r).takeWhile (· ≠ '\n') = s := by
  rw [List.takeWhile_append_of_pos (by intro a ha; simp only [ne_eq, decide_eq_true_eq]; rintro rfl; exact h ha)]
  simp

theorem takeWhile_short {s : Str} (h : '\n' ∈ s) (r : Str) : ((s ++ r).takeWhile (· ≠ '\n')).length < s.length := by
  induction s with
  | nil => cases h
  | cons c s ih =>
    by_cases hc : c = '\n'
    · subst hc; simp
    · rw [List.cons_append, List.takeWhile_cons, if_pos (by simpa using hc)]
      rcases List.mem_cons.mp h with e | h
      · exact absurd e.symm hc
      · simpa using ih h

theorem readLines_field {k : Str} (hk : BareKey k) {s : Str} (hs : Plain s) (r : Str) :
    readLines (lines (k ++ (" = \"".toList ++ (s ++ '"' :: '\n' :: r)))) =
      (readLines (lines r)).map (.pair k (.scalar (.str s)) :: ·) := by
  have hn : '\n' ∉ k ++ (" = \"".toList ++ (s ++ ['"'])) := by
    have h1 := plain_newline hs
    have h2 : '\n' ∉ k := fun e => (bare_apart (hk.2 _ e)).2.2.2.2 rfl
    simp [h1, h2]
  have e : k ++ (" = \"".toList ++ (s ++ '"' :: '\n' :: r)) = k ++ (" = \"".toList ++ (s ++ ['"'])) ++ '\n' :: r := by simp
  rw [e, lines_line hn, readLines, readLine_field hk, readString_plain hs]
  rfl

theorem readLines_field_inv {k : Str} (hk : BareKey k) {s r : Str} {l : List Line}
    (h : readLines (lines (k ++ (" = \"".toList ++ (s ++ '"' :: '\n' :: r)))) = some l) :
    ∃ v l', l = .pair k (.scalar (.str v)) :: l' ∧ (v = s → Plain s ∧ readLines (lines r) = some l') := by
  have hk2 : '\n' ∉ k := fun e => (bare_apart (hk.2 _ e)).2.2.2.2 rfl
  obtain ⟨ls, hl⟩ := lines_head (k ++ (" = \"".toList ++ (s ++ '"' :: '\n' :: r)))
  rw [List.takeWhile_append_of_pos (by intro a ha; simp only [ne_eq, decide_eq_true_eq]; rintro rfl; exact hk2 ha),
    List.takeWhile_append_of_pos (by decide)] at hl
  rw [hl, readLines, readLine_field hk] at h
  cases hr : readString ((s ++ '"' :: '\n' :: r).takeWhile (· ≠ '\n')) with
  | none => rw [hr] at h; cases h
  | some p =>
    obtain ⟨v, r'⟩ := p
    rw [hr] at h
    dsimp only at h
    by_cases he : ends r' = true
    · rw [if_pos he] at h
      cases hls : readLines ls with
      | none => rw [hls] at h; cases h
      | some l' =>
        rw [hls] at h
        cases h
        refine ⟨v, l', rfl, ?_⟩
        rintro rfl
        obtain ⟨h1, h2⟩ := readString_bound hr
        by_cases hn : '\n' ∈ v
        · have := takeWhile_short hn ('"' :: '\n' :: r)
          omega
        · have e : v ++ '"' :: '\n' :: r = (v ++ ['"']) ++ '\n' :: r := by simp
          have hn' : '\n' ∉ v ++ ['"'] := by simp [hn]
          have ht : (v ++ '"' :: '\n' :: r).takeWhile (· ≠ '\n') = v ++ ['"'] := by rw [e, takeWhile_line hn']
          rw [ht] at h1 h2 hr
          have hlen : (v ++ ['"']).length = v.length + 1 := by simp
          have hp := (h2 (by omega)).2
          refine ⟨hp, ?_⟩
          have := readLines_field hk hp r
          rw [hl, readLines, readLine_field hk, ht, readString_plain hp [], hls] at this
          cases hx : readLines (lines r) with
          | none => rw [hx] at this; cases this
          | some y => rw [hx] at this; cases this; rfl
    · rw [if_neg he] at h; cases h

theorem readLine_publish (t : Str) :
    readLine ("publish = [\"".toList ++ t) = match readList (t.length + 1) ('"' :: t) with
      | none => none
      | some (l, r) => if ends r then some (.pair "publish".toList (.scalar (.list l))) else none := by
  rw [show "publish = [\"".toList ++ t = "publish".toList ++ ' ' :: '=' :: ' ' :: '[' :: ('"' :: t) from rfl,
    readLine_pair ⟨by decide, by decide⟩ _ (by decide)]
  unfold valueLine
  rw [readValue_list, List.length_cons]
  cases readList (t.length + 1) ('"' :: t) <;> rfl

theorem readList_quote (n : Nat) (t : Str) : readList (n + 1) ('"' :: t) = match readString t with
    | none => none
    | some (v, r) => match skip r with
      | ']' :: r => some ([v], r)
      | ',' :: r => (readList n r).map fun (l, r) => (v :: l, r)
      | _ => none := rfl

theorem readList_one {n : Nat} {t s r : Str} (h : readList (n + 1) ('"' :: t) = some ([s], r)) :
    ∃ r', readString t = some (s, r') ∧ r' ≠ [] := by
  rw [readList_quote] at h
  cases hr : readString t with
  | none => rw [hr] at h; cases h
  | some p =>
    obtain ⟨v, r'⟩ := p
    rw [hr] at h
    dsimp only at h
    cases r' with
    | nil => simp [skip] at h
    | cons c r' =>
      split at h
      · cases h; exact ⟨_, rfl, by simp⟩
      · rename_i x
        cases hx : readList n _ with
        | none => rw [hx] at h; cases h
        | some q =>
          obtain ⟨q1, q2⟩ := q
          rw [hx] at h
          dsimp only [Option.map] at h
          rw [Option.some.injEq, Prod.mk.injEq, List.cons.injEq] at h
          obtain ⟨⟨rfl, _⟩, _⟩ := h
          exact ⟨_, rfl, by simp⟩
      · cases h

theorem readList_single (n : Nat) {s : Str} (hs : Plain s) : readList (n + 1) ('"' :: (s ++ "\"]".toList)) = some ([s], []) := by
  rw [readList_quote]
  have := readString_plain hs [']']
  rw [show s ++ "\"]".toList = s ++ '"' :: [']'] from rfl, this]
  rfl

theorem readLines_publish {s : Str} (hs : Plain s) (r : Str) :
    readLines (lines ("publish = [\"".toList ++ (s ++ '"' :: ']' :: '\n' :: r))) =
      (readLines (lines r)).map (.pair "publish".toList (.scalar (.list [s])) :: ·) := by
  have hn : '\n' ∉ "publish = [\"".toList ++ (s ++ "\"]".toList) := by
    have h1 := plain_newline hs
    simp [h1]
  have e : "publish = [\"".toList ++ (s ++ '"' :: ']' :: '\n' :: r) = "publish = [\"".toList ++ (s ++ "\"]".toList) ++ '\n' :: r := by simp
  rw [e, lines_line hn, readLines, readLine_publish, readList_single _ hs]
  rfl

theorem readLines_publish_inv {s r : Str} {l : List Line}
    (h : readLines (lines ("publish = [\"".toList ++ (s ++ '"' :: ']' :: '\n' :: r))) = some l) :
    ∃ v l', l = .pair "publish".toList (.scalar (.list v)) :: l' ∧ (v = [s] → Plain s ∧ readLines (lines r) = some l') := by
  obtain ⟨ls, hl⟩ := lines_head ("publish = [\"".toList ++ (s ++ '"' :: ']' :: '\n' :: r))
  rw [List.takeWhile_append_of_pos (by decide)] at hl
  rw [hl, readLines, readLine_publish] at h
  cases hr : readList (((s ++ '"' :: ']' :: '\n' :: r).takeWhile (· ≠ '\n')).length + 1) ('"' :: (s ++ '"' :: ']' :: '\n' :: r).takeWhile (· ≠ '\n')) with
  | none => rw [hr] at h; cases h
  | some p =>
    obtain ⟨v, r'⟩ := p
    rw [hr] at h
    dsimp only at h
    by_cases he : ends r' = true
    · rw [if_pos he] at h
      cases hls : readLines ls with
      | none => rw [hls] at h; cases h
      | some l' =>
        rw [hls] at h
        cases h
        refine ⟨v, l', rfl, ?_⟩
        rintro rfl
        obtain ⟨r'', hr', hne⟩ := readList_one hr
        obtain ⟨h1, h2⟩ := readString_bound hr'
        have h0 : 1 ≤ r''.length := List.length_pos_iff.mpr hne
        by_cases hn : '\n' ∈ s
        · have := takeWhile_short hn ('"' :: ']' :: '\n' :: r)
          omega
        · have e : s ++ '"' :: ']' :: '\n' :: r = (s ++ "\"]".toList) ++ '\n' :: r := by simp
          have hn' : '\n' ∉ s ++ "\"]".toList := by simp [hn]
          have ht : (s ++ '"' :: ']' :: '\n' :: r).takeWhile (· ≠ '\n') = s ++ "\"]".toList := by rw [e, takeWhile_line hn']
          rw [ht] at h1 h2 hr hl
          have hlen : (s ++ "\"]".toList).length = s.length + 2 := by simp
          have hp := (h2 (by omega)).2
          refine ⟨hp, ?_⟩
          have := readLines_publish hp r
          rw [hl, readLines, readLine_publish, readList_single _ hp, hls] at this
          cases hx : readLines (lines r) with
          | none => rw [hx] at this; cases this
          | some y => rw [hx] at this; cases this; rfl
    · rw [if_neg he] at h; cases h

/-! ## The manifest -/

theorem readLines_all {ls : List Str} {g : Str → Line} (h : ∀ l ∈ ls, readLine l = some (g l)) : readLines ls = some (ls.map g) := by
  induction ls with
  | nil => rfl
  | cons l ls ih =>
    rw [readLines, h l List.mem_cons_self, ih fun x hx => h x (List.mem_cons_of_mem _ hx)]
    rfl

theorem readLines_append {a b : List Str} {x : List Line} (h : readLines a = some x) :
    readLines (a ++ b) = (readLines b).map (x ++ ·) := by
  induction a generalizing x with
  | nil => cases h; cases hb : readLines b <;> simp [hb]
  | cons l a ih =>
    rw [readLines] at h
    cases hl : readLine l with
    | none => rw [hl] at h; cases h
    | some y =>
      rw [hl] at h
      cases ha : readLines a with
      | none => rw [ha] at h; cases h
      | some z =>
        rw [ha] at h
        cases h
        rw [List.cons_append, readLines, hl, ih ha]
        cases readLines b <;> rfl

theorem lines_join {ls : List Str} (hne : ls ≠ []) (h : ∀ l ∈ ls, '\n' ∉ l) (r : Str) :
    lines (joinLines ls ++ '\n' :: r) = ls ++ lines r := by
  induction ls with
  | nil => exact absurd rfl hne
  | cons l ls ih =>
    cases ls with
    | nil => exact lines_line (h l List.mem_cons_self) r
    | cons m ls =>
      rw [joinLines, List.append_assoc, List.cons_append, lines_line (h l List.mem_cons_self),
        ih (by simp) fun x hx => h x (List.mem_cons_of_mem _ hx)]
      rfl

theorem perm_lift {α β γ : Type} {g : α → γ} {k : β → γ} {l l' : List α} (hp : l'.Perm l) {w : List β} (h : l.map g = w.map k) :
    ∃ w' : List β, w'.Perm w ∧ l'.map g = w'.map k := by
  induction hp generalizing w with
  | nil => exact ⟨w, .refl _, h⟩
  | @cons x l₁ l₂ hp ih =>
    cases w with
    | nil => cases h
    | cons y w =>
      rw [List.map_cons, List.map_cons, List.cons.injEq] at h
      obtain ⟨w', h1, h2⟩ := ih h.2
      exact ⟨y :: w', h1.cons y, by rw [List.map_cons, List.map_cons, h.1, h2]⟩
  | swap x y l =>
    cases w with
    | nil => cases h
    | cons a w =>
      cases w with
      | nil => simp at h
      | cons b w =>
        simp only [List.map_cons, List.cons.injEq] at h
        exact ⟨b :: a :: w, .swap a b w, by simp only [List.map_cons, h.1, h.2.1, h.2.2]⟩
  | trans _ _ ih1 ih2 =>
    obtain ⟨w1, h1, h2⟩ := ih2 h
    obtain ⟨w2, h3, h4⟩ := ih1 h2
    exact ⟨w2, h3.trans h1, h4⟩

/-- The line of a pair. -/
def pairLine (p : Str × Value) : Line := .pair p.1 p.2

theorem depLines_read (f : Features) (hv : Plain f.clientVersion) :
    (depLines f).map readLine = (wantedDeps f).map fun p => some (pairLine p) := by
  have hw : ∀ (b : Bool) (l : List Str) (w : Toml.Pairs), l.map readLine = w.map (fun p => some (pairLine p)) →
      (when b l).map readLine = (if b then w else []).map fun p => some (pairLine p) := by
    intro b l w h
    cases b
    · rfl
    · exact h
  unfold depLines wantedDeps
  simp only [List.map_append, -String.reduceToList]
  have hc : (if f.includeClient then [depLine "percent-encoding" "2.3"]
      else ["progenitor-client = \"".toList ++ f.clientVersion ++ "\"".toList]).map readLine =
      (if f.includeClient then [plainDep "percent-encoding" "2.3"]
        else [("progenitor-client".toList, .scalar (.str f.clientVersion))]).map fun p => some (pairLine p) := by
    cases f.includeClient
    · have := readLine_field (k := "progenitor-client".toList) ⟨by decide, by decide⟩ (f.clientVersion ++ ['"'])
      rw [readString_plain hv] at this
      have e : "progenitor-client = \"".toList ++ f.clientVersion ++ "\"".toList =
          "progenitor-client".toList ++ (" = \"".toList ++ (f.clientVersion ++ ['"'])) := by
        rw [show "progenitor-client = \"".toList = "progenitor-client".toList ++ " = \"".toList by decide]
        rw [List.append_assoc, List.append_assoc]
        rfl
      show [readLine _] = _
      rw [e]
      exact congrArg (fun x => [x]) this
    · show [readLine (depLine "percent-encoding" "2.3")] = [some (pairLine (plainDep "percent-encoding" "2.3"))]
      decide +kernel
  rw [hc, hw f.regress _ [plainDep "regress" "0.10"] (by decide +kernel),
    hw f.uuid _ [featureDep "uuid" "1.0" false ["serde", "v4"]] (by decide +kernel),
    hw f.chrono _ [featureDep "chrono" "0.4" true ["serde"]] (by decide +kernel),
    hw f.futures _ [plainDep "futures" "0.3"] (by decide +kernel),
    hw f.websockets _ [plainDep "base64" "0.22", plainDep "rand" "0.8"] (by decide +kernel),
    hw _ _ [plainDep "serde_json" "1.0"] (by decide +kernel)]
  congr 7

theorem depLines_newline (f : Features) (hv : Plain f.clientVersion) : ∀ l ∈ depLines f, '\n' ∉ l := by
  have hw : ∀ (b : Bool) (x : List Str), (∀ l ∈ x, '\n' ∉ l) → ∀ l ∈ when b x, '\n' ∉ l := by
    intro b x h l hl
    cases b
    · cases hl
    · exact h l hl
  intro l hl
  unfold depLines at hl
  simp only [List.mem_append] at hl
  rcases hl with ((((((hl | hl) | hl) | hl) | hl) | hl) | hl) | hl
  · revert l; decide +kernel
  · split at hl
    · revert l; decide +kernel
    · rw [List.mem_singleton] at hl
      subst hl
      have h1 : '\n' ∉ "progenitor-client = \"".toList := by decide
      have h2 : '\n' ∉ "\"".toList := by decide
      have h3 := plain_newline hv
      simp only [List.mem_append, h1, h2, h3, or_self, not_false_iff]
  all_goals exact hw _ _ (by decide +kernel) l hl

/-- The part of the manifest after the table `package`. -/
theorem deps_read (f : Features) (hv : Plain f.clientVersion) : ∃ ds : Toml.Pairs, ds.Perm (wantedDeps f) ∧
    readLines (lines ("\n[dependencies]\n".toList ++ joinLines (dependencies f) ++ "\n\n".toList)) =
      some (.blank :: .header "dependencies".toList :: (ds.map pairLine ++ [.blank, .blank])) := by
  have hp := sortLines_perm (depLines f)
  obtain ⟨ds, h1, h2⟩ := perm_lift hp (depLines_read f hv)
  refine ⟨ds, h1, ?_⟩
  have hne : sortLines (depLines f) ≠ [] := by
    intro e
    rw [e] at hp
    have hm : depLine "bytes" "1.9" ∈ depLines f := by
      unfold depLines
      simp only [List.mem_append]
      exact .inl (.inl (.inl (.inl (.inl (.inl (.inl List.mem_cons_self))))))
    rw [hp.symm.eq_nil] at hm
    cases hm
  have hnl : ∀ l ∈ sortLines (depLines f), '\n' ∉ l := fun l hl => depLines_newline f hv l (hp.mem_iff.mp hl)
  have e : "\n[dependencies]\n".toList ++ joinLines (dependencies f) ++ "\n\n".toList =
      [] ++ '\n' :: ("[dependencies]".toList ++ '\n' :: (joinLines (sortLines (depLines f)) ++ '\n' :: ['\n'])) := by
    rw [show "\n[dependencies]\n".toList = '\n' :: ("[dependencies]".toList ++ ['\n']) by decide]
    rw [show "\n\n".toList = ['\n', '\n'] by decide]
    unfold dependencies
    simp only [List.append_assoc, List.cons_append, List.nil_append, -String.reduceToList]
  have hr : readLines (sortLines (depLines f)) = some (ds.map pairLine) := by
    rw [readLines_all (g := fun l => (readLine l).getD .blank)]
    · congr 1
      have := congrArg (List.map fun o : Option Line => o.getD .blank) h2
      simpa [List.map_map, Function.comp_def] using this
    · intro l hl
      have : readLine l ∈ (sortLines (depLines f)).map readLine := List.mem_map_of_mem hl
      rw [h2] at this
      obtain ⟨p, _, hp⟩ := List.mem_map.mp this
      rw [← hp]
      rfl
  rw [e, lines_line (by simp), lines_line (by decide), lines_join hne hnl]
  rw [readLines, show readLine [] = some Line.blank from rfl]
  rw [readLines, show readLine "[dependencies]".toList = some (Line.header "dependencies".toList) by decide +kernel]
  rw [readLines_append hr]
  rfl

theorem tables_pairs (ds : Toml.Pairs) (l : List Line) : tables (ds.map pairLine ++ l) = (ds ++ (tables l).1, (tables l).2) := by
  induction ds with
  | nil => rfl
  | cons d ds ih => rw [List.map_cons, List.cons_append, pairLine, tables, ih]; rfl


/-- The arguments that end up in the manifest. -/
structure PlainArgs (a : Crate.Args) : Prop where
  name : Plain a.name
  version : Plain a.version
  license : Plain a.license
  registry : ∀ r, a.registry = some r → Plain r

/-- The manifest in the form in which it is read. -/
theorem manifest_text (a : Crate.Args) (deps : Str) :
    package a ++ publish a ++ deps = "[package]".toList ++ '\n' ::
      ("name".toList ++ (" = \"".toList ++ (a.name ++ '"' :: '\n' ::
      ("version".toList ++ (" = \"".toList ++ (a.version ++ '"' :: '\n' ::
      ("edition".toList ++ (" = \"".toList ++ ("2021".toList ++ '"' :: '\n' ::
      ("license".toList ++ (" = \"".toList ++ (a.license ++ '"' :: '\n' :: (publish a ++ deps))))))))))))) := by
  unfold package
  simp

theorem wantedDeps_nodup (f : Features) : ((wantedDeps f).map Prod.fst).Nodup := by
  have key : ∀ a b c d e g h : Bool, ([plainDep "bytes" "1.9", plainDep "futures-core" "0.3", featureDep "reqwest" "0.12" true ["json", "stream"],
      featureDep "serde" "1.0" false ["derive"], plainDep "serde_urlencoded" "0.7"].map Prod.fst ++
      (if a then ["percent-encoding".toList] else ["progenitor-client".toList]) ++
      (if b then ["regress".toList] else []) ++ (if c then ["uuid".toList] else []) ++ (if d then ["chrono".toList] else []) ++
      (if e then ["futures".toList] else []) ++ (if g then ["base64".toList, "rand".toList] else []) ++
      (if h || a then ["serde_json".toList] else [])).Nodup := by decide +kernel
  have h := key f.includeClient f.regress f.uuid f.chrono f.futures f.websockets f.serdeJson
  unfold wantedDeps
  simp only [List.map_append, -String.reduceToList, apply_ite (List.map Prod.fst)]
  exact h

theorem publish_read (a : Crate.Args) (h : ∀ r, a.registry = some r → Plain r) (deps : Str) :
    ∃ ps : Toml.Pairs, wantedPackage a = [("name".toList, .scalar (.str a.name)), ("version".toList, .scalar (.str a.version)),
        ("edition".toList, .scalar (.str "2021".toList)), ("license".toList, .scalar (.str a.license))] ++ ps ∧
      readLines (lines (publish a ++ deps)) = (readLines (lines deps)).map (ps.map pairLine ++ ·) := by
  unfold publish wantedPackage
  cases hr : a.registry with
  | none => exact ⟨[], rfl, by show readLines (lines deps) = _; cases readLines (lines deps) <;> rfl⟩
  | some r =>
    refine ⟨_, rfl, ?_⟩
    have := readLines_publish (h r hr) deps
    dsimp only
    rw [show "publish = [\"".toList ++ r ++ "\"]\n".toList ++ deps = "publish = [\"".toList ++ (r ++ '"' :: ']' :: '\n' :: deps) by simp, this]
    cases readLines (lines deps) <;> rfl

theorem manifest_reads {a : Crate.Args} {f : Features} (hv : Plain f.clientVersion) (h : PlainArgs a) :
    ManifestSays a f (cargoToml a (dependencies f)) := by
  obtain ⟨ds, hp, hd⟩ := deps_read f hv
  obtain ⟨ps, hw, hpub⟩ := publish_read a h.registry ("\n[dependencies]\n".toList ++ joinLines (dependencies f) ++ "\n\n".toList)
  refine ⟨ds, ?_, hp⟩
  have hl : readLines (lines (cargoToml a (dependencies f))) = some (.header "package".toList ::
      ((wantedPackage a).map pairLine ++ .blank :: .header "dependencies".toList :: (ds.map pairLine ++ [.blank, .blank]))) := by
    unfold cargoToml
    rw [manifest_text, lines_line (by decide), readLines,
      show readLine "[package]".toList = some (Line.header "package".toList) by decide +kernel,
      readLines_field ⟨by decide, by decide⟩ h.name, readLines_field ⟨by decide, by decide⟩ h.version,
      readLines_field ⟨by decide, by decide⟩ (by unfold Plain; decide), readLines_field ⟨by decide, by decide⟩ h.license, hpub, hd, hw]
    rfl
  unfold Toml.read
  rw [hl]
  have ht : tables (.header "package".toList :: ((wantedPackage a).map pairLine ++ .blank :: .header "dependencies".toList ::
      (ds.map pairLine ++ [.blank, .blank]))) = ([], [("package".toList, wantedPackage a), ("dependencies".toList, ds)]) := by
    rw [tables, tables_pairs, tables, tables, tables_pairs]
    simp [tables]
  dsimp only
  rw [ht, if_pos]
  unfold distinct
  have h1 : (ds.map Prod.fst).Nodup := (hp.map Prod.fst).nodup_iff.mpr (wantedDeps_nodup f)
  have h2 : ((wantedPackage a).map Prod.fst).Nodup := by
    unfold wantedPackage
    cases a.registry
    · show (["name", "version", "edition", "license"].map String.toList).Nodup
      decide
    · show (["name", "version", "edition", "license", "publish"].map String.toList).Nodup
      decide
  have h3 : ["package".toList, "dependencies".toList].Nodup := by decide
  simp only [List.map_cons, List.map_nil, List.all_cons, List.all_nil, h1, h2, h3, List.nodup_nil, decide_true, Bool.and_self]

/-- C74: the manifest says what was asked for (name, version, license, registry, and the dependencies with their versions and
features) exactly if no argument contains a quote, a backslash or a control character other than a tab. -/
theorem C74_manifest_iff {a : Crate.Args} {f : Features} (hv : Plain f.clientVersion) :
    ManifestSays a f (cargoToml a (dependencies f)) ↔ PlainArgs a := by
  refine ⟨fun ⟨ds, h, _⟩ => ?_, manifest_reads hv⟩
  unfold Toml.read at h
  split at h
  · cases h
  rename_i ls hls
  split at h
  case isFalse => cases h
  rw [Option.some.injEq] at h
  unfold cargoToml at hls
  rw [manifest_text, lines_line (by decide), readLines,
    show readLine "[package]".toList = some (Line.header "package".toList) by decide +kernel] at hls
  dsimp only at hls
  cases hx : readLines (lines ("name".toList ++ (" = \"".toList ++ (a.name ++ '"' :: '\n' ::
      ("version".toList ++ (" = \"".toList ++ (a.version ++ '"' :: '\n' ::
      ("edition".toList ++ (" = \"".toList ++ ("2021".toList ++ '"' :: '\n' ::
      ("license".toList ++ (" = \"".toList ++ (a.license ++ '"' :: '\n' :: (publish a ++
        ("\n[dependencies]\n".toList ++ joinLines (dependencies f) ++ "\n\n".toList))))))))))))))) with
  | none => rw [hx] at hls; cases hls
  | some l =>
    rw [hx] at hls
    cases hls
    rw [tables, Prod.mk.injEq, List.cons.injEq, Prod.mk.injEq] at h
    have hp := h.2.1.2
    clear h
    obtain ⟨v1, l1, rfl, h1⟩ := readLines_field_inv ⟨by decide, by decide⟩ hx
    have e1 : v1 = a.name := by
      rw [tables] at hp
      unfold wantedPackage at hp
      simp only [List.cons_append, List.cons.injEq, Prod.mk.injEq, Value.scalar.injEq, Toml.Scalar.str.injEq] at hp
      exact hp.1.2
    obtain ⟨p1, h1⟩ := h1 e1
    obtain ⟨v2, l2, rfl, h2⟩ := readLines_field_inv ⟨by decide, by decide⟩ h1
    have e2 : v2 = a.version := by
      rw [tables, tables] at hp
      unfold wantedPackage at hp
      simp only [List.cons_append, List.cons.injEq, Prod.mk.injEq, Value.scalar.injEq, Toml.Scalar.str.injEq] at hp
      exact hp.2.1.2
    obtain ⟨p2, h2⟩ := h2 e2
    obtain ⟨v3, l3, rfl, h3⟩ := readLines_field_inv ⟨by decide, by decide⟩ h2
    have e3 : v3 = "2021".toList := by
      rw [tables, tables, tables] at hp
      unfold wantedPackage at hp
      simp only [List.cons_append, List.cons.injEq, Prod.mk.injEq, Value.scalar.injEq, Toml.Scalar.str.injEq, -String.reduceToList] at hp
      exact hp.2.2.1.2
    obtain ⟨p3, h3⟩ := h3 e3
    obtain ⟨v4, l4, rfl, h4⟩ := readLines_field_inv ⟨by decide, by decide⟩ h3
    have e4 : v4 = a.license := by
      rw [tables, tables, tables, tables] at hp
      unfold wantedPackage at hp
      simp only [List.cons_append, List.cons.injEq, Prod.mk.injEq, Value.scalar.injEq, Toml.Scalar.str.injEq] at hp
      exact hp.2.2.2.1.2
    obtain ⟨p4, h4⟩ := h4 e4
    refine ⟨p1, p2, p4, fun r hr => ?_⟩
    unfold publish at h4
    rw [hr] at h4
    dsimp only at h4
    rw [show ∀ deps, "publish = [\"".toList ++ r ++ "\"]\n".toList ++ deps = "publish = [\"".toList ++ (r ++ '"' :: ']' :: '\n' :: deps) by simp] at h4
    obtain ⟨v5, l5, rfl, h5⟩ := readLines_publish_inv h4
    have e5 : v5 = [r] := by
      rw [tables, tables, tables, tables, tables] at hp
      unfold wantedPackage at hp
      rw [hr] at hp
      simp only [List.cons_append, List.nil_append, List.cons.injEq, Prod.mk.injEq, Value.scalar.injEq, Toml.Scalar.str.injEq, Scalar.list.injEq] at hp
      exact hp.2.2.2.2.1.2
    exact (h5 e5).1

/-- Arguments of the examples. -/
def crateArgs : Crate.Args := ⟨["api.json".toList], ["out".toList], "my-api".toList, "0.1.0".toList, some "corp".toList, "MPL-2.0".toList, true⟩

def crateFeatures : Features := ⟨true, "*".toList, false, true, false, false, false, false⟩

example : PlainArgs crateArgs ∧ Plain crateFeatures.clientVersion :=
  ⟨⟨by unfold Plain; decide, by unfold Plain; decide, by unfold Plain; decide, by rintro r ⟨⟩; unfold Plain; decide⟩, by unfold Plain; decide⟩

/-- C74 fails for a license that contains a quote: it can add any entry to the manifest. -/
theorem C74_manifest_fails : ∃ (a : Crate.Args) (f : Features), Plain f.clientVersion ∧ a.registry = none ∧
    ¬ ManifestSays a f (cargoToml a (dependencies f)) ∧
    ∃ t, Toml.read (cargoToml a (dependencies f)) = some t ∧ ∃ ps, ("package".toList, ps) ∈ t.2 ∧
      ("build".toList, .scalar (.str "evil.rs".toList)) ∈ ps := by
  refine ⟨⟨[], [], "a".toList, "1".toList, none, "x\"\nbuild = \"evil.rs".toList, true⟩, crateFeatures, ?_, rfl, ?_, ?_⟩
  · unfold Plain; decide
  · rw [C74_manifest_iff (by unfold Plain; decide)]
    intro h
    have := h.license
    revert this
    unfold Plain
    decide
  · have key : ((Toml.read (cargoToml ⟨[], [], "a".toList, "1".toList, none, "x\"\nbuild = \"evil.rs".toList, true⟩
        (dependencies crateFeatures))).map fun t => t.2.any fun s => decide (s.1 = "package".toList) &&
          decide (("build".toList, Value.scalar (.str "evil.rs".toList)) ∈ s.2)) = some true := by decide +kernel
    cases ht : Toml.read (cargoToml ⟨[], [], "a".toList, "1".toList, none, "x\"\nbuild = \"evil.rs".toList, true⟩ (dependencies crateFeatures)) with
    | none => rw [ht] at key; cases key
    | some t =>
      rw [ht, Option.map_some, Option.some.injEq, List.any_eq_true] at key
      obtain ⟨⟨n, ps⟩, h1, h2⟩ := key
      rw [Bool.and_eq_true, decide_eq_true_eq, decide_eq_true_eq] at h2
      obtain ⟨rfl, h2⟩ := h2
      exact ⟨t, rfl, ps, h1, h2⟩

/-! ## Files -/

theorem andThen_ok {x : Res Unit × Files} {g : Files → Res Unit × Files} {fs : Files} (h : andThen x g = (.ok (), fs)) :
    ∃ fs', x = (.ok (), fs') ∧ g fs' = (.ok (), fs) := by
  obtain ⟨r, fs'⟩ := x
  cases r with
  | ok _ => exact ⟨fs', rfl, h⟩
  | err m => cases h
  | panic m => cases h

theorem save_ok {os : Os} {p : List Str} {data : Str} {fs fs' : Files} (h : save os p data fs = (.ok (), fs')) :
    fs' = fs.put p (some data) := by
  unfold save at h
  split at h <;> cases h
  rfl

theorem mkdir_ok {os : Os} {p : List Str} {fs fs' : Files} (h : mkdir os p fs = (.ok (), fs')) : fs' = fs := by
  unfold mkdir at h
  split at h <;> cases h
  rfl

/-- The files of the crate. -/
inductive CrateFile (a : Crate.Args) : List Str → Prop
  | manifest : CrateFile a (a.output ++ ["Cargo.toml".toList])
  | lib : CrateFile a (a.output ++ ["src".toList, "lib.rs".toList])
  | client : a.includeClient = true → CrateFile a (a.output ++ ["src".toList, "progenitor_client.rs".toList])

theorem file_names (l : List Str) : l ++ ["Cargo.toml".toList] ≠ l ++ ["src".toList, "lib.rs".toList] ∧
    l ++ ["Cargo.toml".toList] ≠ l ++ ["src".toList, "progenitor_client.rs".toList] ∧
    l ++ ["src".toList, "lib.rs".toList] ≠ l ++ ["src".toList, "progenitor_client.rs".toList] := by
  refine ⟨?_, ?_, ?_⟩ <;> (intro h; have := List.append_cancel_left h; revert this; decide)

section
variable {D : Type} {u : Names.Unicode} {os : Os} {fmt : Str → Option Str} {client : Str} {json yaml : Str → Option D}
  {gen : D → Res (Str × Features)} {a : Crate.Args} {fs fs' : Files}

/-- C74: if `cargo progenitor` succeeds, the document was read as JSON or, if it is not JSON, as YAML; its code was generated; the
manifest and the formatted code were written, together with the support code if that was asked for, and nothing else changed. -/
theorem C74_files (h : main u os fmt client json yaml gen a fs = (.ok (), fs')) :
    ∃ text d code f src, fs a.input = some text ∧ (json text = some d ∨ json text = none ∧ yaml text = some d) ∧
      gen d = .ok (code, f) ∧
      fmt (if a.includeClient then "mod progenitor_client;\n\n".toList ++ code else code) = some src ∧
      fs' (a.output ++ ["Cargo.toml".toList]) = some (cargoToml a (dependencies { f with includeClient := a.includeClient })) ∧
      fs' (a.output ++ ["src".toList, "lib.rs".toList]) = some (Space.spaceOut u src) ∧
      (a.includeClient = true → fs' (a.output ++ ["src".toList, "progenitor_client.rs".toList]) = some client) ∧
      ∀ p, ¬ CrateFile a p → fs' p = fs p := by
  unfold main at h
  cases hl : loadApi json yaml fs a.input with
  | err m => rw [hl] at h; cases h
  | panic m => rw [hl] at h; cases h
  | ok d =>
    rw [hl] at h
    dsimp only at h
    cases hg : gen d with
    | err m => rw [hg] at h; cases h
    | panic m => rw [hg] at h; cases h
    | ok p =>
      obtain ⟨code, f⟩ := p
      rw [hg] at h
      dsimp only at h
      have hin : ∃ text, fs a.input = some text ∧ (json text = some d ∨ json text = none ∧ yaml text = some d) := by
        unfold loadApi at hl
        split at hl
        · cases hl
        · rename_i text ht
          refine ⟨text, ht, ?_⟩
          split at hl
          · rename_i h; cases hl; exact .inl h
          · rename_i h
            split at hl
            · rename_i h'; cases hl; exact .inr ⟨h, h'⟩
            · cases hl
      obtain ⟨text, ht, hd⟩ := hin
      unfold writeCrate at h
      obtain ⟨fs1, h1, h⟩ := andThen_ok h
      obtain ⟨fs2, h2, h⟩ := andThen_ok h
      obtain ⟨fs3, h3, h⟩ := andThen_ok h
      cases mkdir_ok h1
      cases save_ok h2
      cases mkdir_ok h3
      split at h
      · cases h
      rename_i src hs
      obtain ⟨fs4, h4, h⟩ := andThen_ok h
      cases save_ok h4
      obtain ⟨n1, n2, n3⟩ := file_names a.output
      refine ⟨text, d, code, f, src, ht, hd, hg, hs, ?_, ?_, ?_, ?_⟩
      · split at h
        · cases save_ok h
          simp only [Files.put, if_neg n1, if_neg n2, if_true]
        · cases h
          simp only [Files.put, if_neg n1, if_true]
      · split at h
        · cases save_ok h
          simp only [Files.put, if_neg n3, if_true]
        · cases h
          simp only [Files.put, if_true]
      · intro hi
        rw [if_pos hi] at h
        cases save_ok h
        simp only [Files.put, if_true]
      · intro p hp
        have m1 : p ≠ a.output ++ ["Cargo.toml".toList] := fun e => hp (e ▸ .manifest)
        have m2 : p ≠ a.output ++ ["src".toList, "lib.rs".toList] := fun e => hp (e ▸ .lib)
        split at h
        · rename_i hi
          have m3 : p ≠ a.output ++ ["src".toList, "progenitor_client.rs".toList] := fun e => hp (e ▸ .client hi)
          cases save_ok h
          simp only [Files.put, if_neg m1, if_neg m2, if_neg m3]
        · cases h
          simp only [Files.put, if_neg m1, if_neg m2]

theorem save_frame (os : Os) (q : List Str) (data : Str) (fs : Files) {p : List Str} (h : p ≠ q) : (save os q data fs).2 p = fs p := by
  unfold save
  split <;> simp only [Files.put, if_neg h]

theorem andThen_frame {x : Res Unit × Files} {g : Files → Res Unit × Files} {p : List Str} {y : Option Str} (h1 : x.2 p = y)
    (h2 : ∀ fs, fs p = y → (g fs).2 p = y) : (andThen x g).2 p = y := by
  obtain ⟨r, fs⟩ := x
  cases r with
  | ok _ => exact h2 fs h1
  | err _ => exact h1
  | panic _ => exact h1

theorem mkdir_frame (os : Os) (q : List Str) (fs : Files) : (mkdir os q fs).2 = fs := by
  unfold mkdir
  split <;> rfl

/-- C74: no file other than those of the crate changes, whatever happens; and no file at all if the document cannot be read or
no code is generated. -/
theorem C74_frame (u : Names.Unicode) (os : Os) (fmt : Str → Option Str) (client : Str) (json yaml : Str → Option D)
    (gen : D → Res (Str × Features)) (a : Crate.Args) (fs : Files) :
    (∀ p, ¬ CrateFile a p → (main u os fmt client json yaml gen a fs).2 p = fs p) ∧
    ((∀ d, loadApi json yaml fs a.input = .ok d → (gen d).isOk = false) → (main u os fmt client json yaml gen a fs).2 = fs ∧
      (main u os fmt client json yaml gen a fs).1.isOk = false) := by
  unfold main
  constructor
  · intro p hp
    have m1 : p ≠ a.output ++ ["Cargo.toml".toList] := fun e => hp (e ▸ .manifest)
    have m2 : p ≠ a.output ++ ["src".toList, "lib.rs".toList] := fun e => hp (e ▸ .lib)
    split
    · rfl
    · rfl
    · split
      · rfl
      · rfl
      · unfold writeCrate
        refine andThen_frame (by rw [mkdir_frame]) fun fs hfs => ?_
        refine andThen_frame (by rw [save_frame _ _ _ _ m1, hfs]) fun fs hfs => ?_
        refine andThen_frame (by rw [mkdir_frame, hfs]) fun fs hfs => ?_
        split
        · exact hfs
        · refine andThen_frame (by rw [save_frame _ _ _ _ m2, hfs]) fun fs hfs => ?_
          split
          · rename_i hi
            have m3 : p ≠ a.output ++ ["src".toList, "progenitor_client.rs".toList] := fun e => hp (e ▸ .client hi)
            rw [save_frame _ _ _ _ m3, hfs]
          · exact hfs
  · intro h
    split
    · exact ⟨rfl, rfl⟩
    · exact ⟨rfl, rfl⟩
    · rename_i d hd
      have := h d hd
      cases hg : gen d with
      | ok p => rw [hg] at this; cases this
      | err m => exact ⟨rfl, rfl⟩
      | panic m => exact ⟨rfl, rfl⟩

end

/-- Everything succeeds. -/
def crateOs : Os := ⟨fun _ _ => true, fun _ _ _ => none⟩

example : ∃ fs', main exUnicode crateOs some "c".toList (fun _ => none) some (fun _ => .ok ("x".toList, crateFeatures)) crateArgs
    (fun p => if p = ["api.json".toList] then some "y".toList else none) = (.ok (), fs') := ⟨_, rfl⟩

end Progenitor.Props

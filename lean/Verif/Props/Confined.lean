import Verif.Props.Paths

/-!
# C05: exactly which arguments stay one segment
-/

namespace Progenitor.Props

open Progenitor Progenitor.Template Progenitor.Spec

/-! ## Decoding to dots and backslashes -/

theorem encodeChar_ascii {b : UInt8} (hb : b.toNat < 128) {c : Char} (h : b ∈ String.utf8EncodeChar c) :
    c = Char.ofNat b.toNat := by
  have key : c.val.toNat = b.toNat := by
    unfold String.utf8EncodeChar at h
    simp only at h
    have hv := c.val.toNat_lt
    split at h
    · simp at h
      have := congrArg UInt8.toNat h
      rename_i hle; simp at this; have : c.val.toNat = c.toNat := rfl; omega
    · split at h
      · simp at h
        rcases h with h | h <;> (have := congrArg UInt8.toNat h; simp at this; omega)
      · split at h
        · simp at h
          rcases h with h | h | h <;> (have := congrArg UInt8.toNat h; simp at this; omega)
        · simp at h
          rcases h with h | h | h | h <;> (have := congrArg UInt8.toNat h; simp at this; omega)
  have : c.toNat = b.toNat := key
  rw [← this, Char.ofNat_toNat]

theorem backslash_byte {s : Str} (h : (92 : UInt8) ∈ utf8 s) : '\\' ∈ s := by
  simp only [utf8, List.mem_flatMap] at h
  obtain ⟨c, hc, hb⟩ := h
  have := encodeChar_ascii (by decide) hb
  rw [this] at hc
  exact hc

theorem backslash_utf8 {s : Str} (h : '\\' ∈ s) : (92 : UInt8) ∈ utf8 s := by
  simp only [utf8, List.mem_flatMap]
  exact ⟨'\\', h, by decide⟩

/-- What begins with a dot once decoded. -/
theorem decode_dot {s : Str} {bs : List UInt8} (h : percentDecode s = 46 :: bs) :
    ∃ r, percentDecode r = bs ∧ (s = '.' :: r ∨ s = '%' :: '2' :: 'e' :: r ∨ s = '%' :: '2' :: 'E' :: r) := by
  have plain : ∀ (c : Char) (r : Str), String.utf8EncodeChar c ++ percentDecode r = 46 :: bs → c = '.' ∧ percentDecode r = bs := by
    intro c r h
    cases he : String.utf8EncodeChar c with
    | nil =>
      have : (String.utf8EncodeChar c).length ≠ 0 := by
        unfold String.utf8EncodeChar
        simp only
        split
        · simp
        · split
          · simp
          · split <;> simp
      rw [he] at this
      exact absurd rfl this
    | cons b t =>
      rw [he] at h
      have hb : b = 46 := (List.cons.inj h).1
      have hc : c = '.' := by
        have := encodeChar_ascii (b := 46) (by decide) (c := c) (by rw [he, hb]; simp)
        rw [this]; rfl
      subst hc
      have : b :: t = [46] := he.symm.trans (by decide)
      rw [(List.cons.inj this).2] at h
      exact ⟨rfl, (List.cons.inj h).2⟩
  unfold percentDecode at h
  split at h
  · rename_i a b r
    split at h
    · rename_i x y hx hy
      obtain ⟨h1, h2⟩ := List.cons.inj h
      refine ⟨r, h2, ?_⟩
      have key : ∀ a : Char, ∀ x, hexVal a = some x → x < 16 ∧ (x = 2 → a = '2') ∧ (x = 14 → a = 'e' ∨ a = 'E') := by
        intro a x ha
        unfold hexVal at ha
        have e : ∀ c : Char, a.toNat = c.toNat → a = c := fun c h => Char.ext (UInt32.toNat_inj.1 h)
        split at ha
        · rename_i h
          cases ha
          have h1 : ('0' : Char).toNat ≤ a.toNat := h.1
          have h2 : a.toNat ≤ ('9' : Char).toNat := h.2
          simp at h1 h2
          refine ⟨by omega, fun h => e '2' (by simp; omega), fun h => by omega⟩
        · split at ha
          · rename_i h
            cases ha
            have h1 : ('A' : Char).toNat ≤ a.toNat := h.1
            have h2 : a.toNat ≤ ('F' : Char).toNat := h.2
            simp at h1 h2
            refine ⟨by omega, fun h => by omega, fun h => .inr (e 'E' (by simp; omega))⟩
          · split at ha
            · rename_i h
              cases ha
              have h1 : ('a' : Char).toNat ≤ a.toNat := h.1
              have h2 : a.toNat ≤ ('f' : Char).toNat := h.2
              simp at h1 h2
              refine ⟨by omega, fun h => by omega, fun h => .inl (e 'e' (by simp; omega))⟩
            · cases ha
      obtain ⟨x1, x2, _⟩ := key a x hx
      obtain ⟨y1, _, y3⟩ := key b y hy
      have h1 := congrArg UInt8.toNat h1
      simp at h1
      have : x = 2 ∧ y = 14 := by omega
      rcases y3 this.2 with e | e <;> rw [x2 this.1, e] <;> simp
    · exact absurd (plain _ _ h).1 (by decide)
  · rename_i c r _
    obtain ⟨h1, h2⟩ := plain _ _ h
    exact ⟨r, h2, by rw [h1]; simp⟩
  · cases h

theorem decode_nil {s : Str} (h : percentDecode s = []) : s = [] := by
  have ne : ∀ (c : Char) (r : List UInt8), String.utf8EncodeChar c ++ r ≠ [] := by
    intro c r h
    have h := (List.append_eq_nil_iff.mp h).1
    have : (String.utf8EncodeChar c).length ≠ 0 := by
      unfold String.utf8EncodeChar
      simp only
      split
      · simp
      · split
        · simp
        · split <;> simp
    rw [h] at this
    exact this rfl
  unfold percentDecode at h
  split at h
  · split at h
    · cases h
    · exact absurd h (ne _ _)
  · exact absurd h (ne _ _)
  · rfl

theorem decode_single {s : Str} (h : percentDecode s = utf8 ['.']) : isSingleDot s = true := by
  rw [utf8_dot] at h
  obtain ⟨r, hr, h⟩ := decode_dot h
  rw [decode_nil hr] at h
  rcases h with rfl | rfl | rfl <;> decide

theorem decode_double {s : Str} (h : percentDecode s = utf8 ['.', '.']) : isDoubleDot s = true := by
  rw [utf8_dotdot] at h
  obtain ⟨r, hr, h⟩ := decode_dot h
  obtain ⟨r', hr', h'⟩ := decode_dot hr
  rw [decode_nil hr'] at h'
  rcases h with rfl | rfl | rfl <;> rcases h' with rfl | rfl | rfl <;> decide

/-! ## Splitting and resolving segments -/

def isSep (c : Char) : Bool := c == '/' || c == '\\'

theorem splitAt_ne_nil (p : Char → Bool) (s : Str) : splitAt p s ≠ [] := by
  cases s with
  | nil => simp [splitAt]
  | cons c s =>
    unfold splitAt
    split
    · simp
    · split <;> simp

theorem splitAt_cons (p : Char → Bool) (c : Char) (s : Str) : splitAt p (c :: s) =
    if p c then [] :: splitAt p s else match splitAt p s with
      | [] => [[c]]
      | x :: xs => (c :: x) :: xs := rfl

theorem splitAt_append (p : Char → Bool) {c : Char} (hc : p c = true) (s r : Str) :
    splitAt p (s ++ c :: r) = splitAt p s ++ splitAt p r := by
  induction s with
  | nil => simp [splitAt, hc]
  | cons d s ih =>
    rw [List.cons_append, splitAt_cons, splitAt_cons, ih]
    split
    · rfl
    · cases h : splitAt p s with
      | nil => exact absurd h (splitAt_ne_nil p s)
      | cons x xs => rfl

theorem splitAt_join (l : List Str) : splitAt isSep (joinSegs l) = [] :: l.flatMap (splitAt isSep) := by
  have key : ∀ (l : List Str) (s : Str), splitAt isSep (s ++ joinSegs l) = splitAt isSep s ++ l.flatMap (splitAt isSep) := by
    intro l
    induction l with
    | nil => intro s; simp [joinSegs]
    | cons x l ih =>
      intro s
      have : s ++ joinSegs (x :: l) = s ++ '/' :: (x ++ joinSegs l) := by simp [joinSegs]
      rw [this, splitAt_append isSep (by decide), ih]
      simp
  have := key l []
  simpa [splitAt] using this

/-- The parts of an encoded argument are the encodings of its parts between backslashes. -/
theorem splitAt_encode (s : Str) : splitAt isSep (encodePath s) = (splitAt (· == '\\') s).map encodePath := by
  induction s with
  | nil => rfl
  | cons c s ih =>
    have hs : encodePath (c :: s) = encodePath [c] ++ encodePath s := C04_append [c] s
    rw [hs]
    by_cases hc : c = '\\'
    · subst hc
      have : encodePath ['\\'] = ['\\'] := by decide
      rw [this, List.singleton_append, splitAt_cons, splitAt_cons, if_pos (by decide), if_pos (by decide), ih]
      rfl
    · have hn : ∀ d ∈ encodePath [c], isSep d = false := by
        intro d hd
        have h1 := (C04_alphabet _ d hd).2.2
        have h2 : d ≠ '\\' := fun e => encodePath_no_backslash [c] (by simpa using Ne.symm hc) (e ▸ hd)
        simp at h1
        simp [isSep, h1, h2]
      obtain ⟨x, xs, h1, h2⟩ := splitAt_lit isSep (encodePath [c]) (encodePath s) hn
      rw [h2]
      rw [ih] at h1
      rw [splitAt_cons, if_neg (by simpa using hc)]
      cases hx : splitAt (· == '\\') s with
      | nil => exact absurd hx (splitAt_ne_nil _ s)
      | cons y ys =>
        rw [hx] at h1
        simp only [List.map_cons, List.cons.injEq] at h1
        rw [List.map_cons, ← h1.1, ← h1.2]
        have : encodePath (c :: y) = encodePath [c] ++ encodePath y := C04_append [c] y
        rw [this]

theorem splitAt_parts (p : Char → Bool) (s : Str) : ∀ x ∈ splitAt p s, ∀ c ∈ x, p c = false := by
  induction s with
  | nil => simp [splitAt]
  | cons c s ih =>
    unfold splitAt
    split
    · intro x hx
      rcases List.mem_cons.mp hx with rfl | hx
      · intro c hc; cases hc
      · exact ih x hx
    · rename_i hc
      split
      · intro x hx d hd
        simp only [List.mem_cons, List.not_mem_nil, or_false] at hx
        subst hx
        simp only [List.mem_cons, List.not_mem_nil, or_false] at hd
        subst hd
        simpa using hc
      · rename_i y ys he
        rw [he] at ih
        intro x hx
        rcases List.mem_cons.mp hx with rfl | hx
        · intro d hd
          rcases List.mem_cons.mp hd with rfl | hd
          · simpa using hc
          · exact ih y (by simp) d hd
        · exact ih x (by simp [hx])

/-- The segments that remain are empty or among those there were; dot segments do not remain. -/
theorem normSegs_mem (l : List Str) : ∀ acc, ∀ x ∈ normSegs acc l, x ∈ acc ∨ x = [] ∨ (x ∈ l ∧ isSingleDot x = false ∧ isDoubleDot x = false) := by
  induction l with
  | nil => intro acc x hx; left; simpa [normSegs] using hx
  | cons s l ih =>
    intro acc x hx
    unfold normSegs at hx
    split at hx
    · split at hx
      · simp at hx
        rcases hx with hx | hx
        · exact .inl (List.mem_of_mem_tail hx)
        · exact .inr (.inl hx)
      · rcases ih _ x hx with h | h | h
        · exact .inl (List.mem_of_mem_drop h)
        · exact .inr (.inl h)
        · exact .inr (.inr ⟨by simp [h.1], h.2⟩)
    · rename_i hd
      split at hx
      · split at hx
        · simp at hx
          rcases hx with hx | hx
          · exact .inl hx
          · exact .inr (.inl hx)
        · rcases ih _ x hx with h | h | h
          · exact .inl h
          · exact .inr (.inl h)
          · exact .inr (.inr ⟨by simp [h.1], h.2⟩)
      · rename_i hs
        rcases ih _ x hx with h | h | h
        · rcases List.mem_cons.mp h with rfl | h
          · exact .inr (.inr ⟨by simp, by simpa using hs, by simpa using hd⟩)
          · exact .inl h
        · exact .inr (.inl h)
        · exact .inr (.inr ⟨by simp [h.1], h.2⟩)

theorem countP_drop_le {α : Type} (p : α → Bool) (l : List α) : (l.drop 1).countP p ≤ l.countP p := by
  cases l with
  | nil => simp
  | cons a l => simp [List.countP_cons]

theorem normSegs_count (P : Str → Bool) (hP : P [] = false) (l : List Str) :
    ∀ acc, (normSegs acc l).countP P ≤ acc.countP P + l.countP P := by
  induction l with
  | nil => intro acc; simp [normSegs]
  | cons s l ih =>
    intro acc
    have hd := countP_drop_le P acc
    unfold normSegs
    split
    · split
      · rw [List.countP_reverse, List.countP_cons, List.countP_cons, hP, if_neg (by decide)]; omega
      · have := ih (acc.drop 1); rw [List.countP_cons]; omega
    · split
      · split
        · rw [List.countP_reverse, List.countP_cons, List.countP_cons, hP, if_neg (by decide)]; omega
        · have := ih acc; rw [List.countP_cons]; omega
      · have := ih (s :: acc); rw [List.countP_cons] at *; omega

/-! ## C05 -/

/-- A byte that only backslashes and literals have. -/
def hasBackslash (x : List UInt8) : Bool := decide ((92 : UInt8) ∈ x)

theorem plain_parts {t : Str} (h : t.all plainChar = true) : splitAt isSep t = [t] := by
  obtain ⟨x, xs, e1, e2⟩ := splitAt_lit isSep t [] (by
    intro c hc
    have := List.all_eq_true.1 h c hc
    simp [plainChar] at this
    simp [isSep, this])
  simp [splitAt] at e1
  rw [List.append_nil] at e2
  rw [e2, e1.1, e1.2]
  simp

theorem count_lits (f : Str → Str) (v : Str → Str) (hf : f = fun n => encodePath (v n)) (l : List Seg) (hl : SegsOk l) :
    ((urlSegs f l).flatMap (splitAt isSep)).countP (fun x => hasBackslash (percentDecode x)) +
      ((pars l).countP fun n => decide ('\\' ∈ v n)) =
    (expectedSegs (fun n => utf8 (v n)) l).countP hasBackslash := by
  induction l with
  | nil => rfl
  | cons s l ih =>
    cases s with
    | lit t =>
      obtain ⟨_, h1, _, _, h4⟩ := hl
      have ih := ih h4
      have ht := plain_parts h1
      simp only [urlSegs, pars, expectedSegs, List.flatMap_cons, ht, List.countP_append, List.countP_cons, List.countP_nil]
      omega
    | par n pre post =>
      obtain ⟨_, hp, hq, h4⟩ := hl
      have ih := ih h4
      have hz : (splitAt isSep (pre ++ f n ++ post)).countP (fun x => hasBackslash (percentDecode x)) = 0 := by
        rw [hf]
        dsimp only
        rw [encodePath_around hp hq, splitAt_encode, List.countP_eq_zero]
        intro x hx hb
        obtain ⟨y, hy, rfl⟩ := List.mem_map.mp hx
        rw [percentDecode_encodePath] at hb
        have := backslash_byte (of_decide_eq_true hb)
        have := splitAt_parts _ _ y hy _ this
        simp at this
      have hu : hasBackslash (percentDecode pre ++ utf8 (v n) ++ percentDecode post) = decide ('\\' ∈ v n) := by
        rw [utf8_around hp hq]
        by_cases h : '\\' ∈ v n
        · rw [hasBackslash, decide_eq_true (backslash_utf8 ((backslash_around hp hq).mpr h)), decide_eq_true h]
        · simp only [hasBackslash, h, decide_false]
          exact decide_eq_false fun hb => h ((backslash_around hp hq).mp (backslash_byte hb))
      simp only [urlSegs, pars, expectedSegs, List.flatMap_cons, List.countP_append, List.countP_cons, hz, hu]
      omega

theorem expected_mem {f : Str → List UInt8} {l : List Seg} {n pre post : Str} (h : Seg.par n pre post ∈ l) :
    percentDecode pre ++ f n ++ percentDecode post ∈ expectedSegs f l := by
  induction l with
  | nil => cases h
  | cons s l ih =>
    rcases List.mem_cons.mp h with rfl | h'
    · simp [expectedSegs]
    · cases s <;> exact List.mem_cons_of_mem _ (ih h')

theorem segsOk_mem {l : List Seg} (hl : SegsOk l) {n pre post : Str} (h : Seg.par n pre post ∈ l) :
    pre.all affixChar = true ∧ post.all affixChar = true := by
  induction l with
  | nil => cases h
  | cons s l ih =>
    rcases List.mem_cons.mp h with rfl | h'
    · exact ⟨hl.2.1, hl.2.2.1⟩
    · cases s with
      | lit t => exact ih hl.2.2.2.2 h'
      | par m a b => exact ih hl.2.2.2 h'

/-- Whatever the arguments are, the segments of the URL. -/
theorem segments_eq (l : List Seg) (hl : SegsOk l) (b : List Str) (hb : BaseOk b) (v : Str → Str) :
    (parseUrlTail (joinSegs b ++ segsUrl (fun n => encodePath (v n)) l)).segments =
      normSegs [] (b ++ (urlSegs (fun n => encodePath (v n)) l).flatMap (splitAt isSep)) := by
  have hchars : ∀ c ∈ joinSegs b ++ segsUrl (fun n => encodePath (v n)) l, c ≠ '#' ∧ c ≠ '?' ∧ c ≠ '\t' ∧ c ≠ '\n' ∧ c ≠ '\r' := by
    have plain : ∀ {s : Str}, s.all plainChar = true → ∀ c ∈ s, c ≠ '#' ∧ c ≠ '?' ∧ c ≠ '\t' ∧ c ≠ '\n' ∧ c ≠ '\r' := by
      intro s hs c hc
      have := List.all_eq_true.1 hs c hc
      simp [plainChar] at this; simp [this]
    have slash : ('/' : Char) ≠ '#' ∧ ('/' : Char) ≠ '?' ∧ ('/' : Char) ≠ '\t' ∧ ('/' : Char) ≠ '\n' ∧ ('/' : Char) ≠ '\r' := by decide
    have enc : ∀ (s : Str), ∀ c ∈ encodePath s, c ≠ '#' ∧ c ≠ '?' ∧ c ≠ '\t' ∧ c ≠ '\n' ∧ c ≠ '\r' := by
      intro s c hc
      obtain ⟨h1, _, h3⟩ := C04_alphabet s c hc
      have h1 : ('!' : Char).toNat ≤ c.toNat := h1
      simp at h1 h3
      refine ⟨by simp [h3], by simp [h3], ?_, ?_, ?_⟩ <;> (rintro rfl; simp at h1)
    intro c hc
    rcases List.mem_append.mp hc with hc | hc
    · simp only [joinSegs, List.mem_flatMap, List.mem_cons] at hc
      obtain ⟨s, hs, rfl | hc⟩ := hc
      · exact slash
      · exact plain (hb s hs).1 c hc
    · rename_i hcold
      clear hb hcold
      induction l with
      | nil => simp [segsUrl] at hc
      | cons x l ih =>
        cases x with
        | lit q =>
          obtain ⟨_, h1, _, _, h4⟩ := hl
          have : segsUrl (fun n => encodePath (v n)) (.lit q :: l) =
            '/' :: q ++ segsUrl (fun n => encodePath (v n)) l := by simp [segsUrl]
          rw [this] at hc
          simp only [List.cons_append, List.mem_cons, List.mem_append] at hc
          rcases hc with rfl | hc | hc
          · exact slash
          · exact plain h1 c hc
          · exact ih h4 hc
        | par n pre post =>
          obtain ⟨_, hp, hq, h4⟩ := hl
          have : segsUrl (fun n => encodePath (v n)) (.par n pre post :: l) =
            '/' :: encodePath (pre ++ v n ++ post) ++ segsUrl (fun n => encodePath (v n)) l := by
            rw [← encodePath_around hp hq]; simp [segsUrl]
          rw [this] at hc
          simp only [List.cons_append, List.mem_cons, List.mem_append] at hc
          rcases hc with rfl | hc | hc
          · exact slash
          · exact enc _ c hc
          · exact ih h4 hc
  have hjoin : joinSegs b ++ segsUrl (fun n => encodePath (v n)) l = joinSegs (b ++ urlSegs (fun n => encodePath (v n)) l) := by
    rw [segsUrl_join]; simp [joinSegs]
  have hbs : b.flatMap (splitAt isSep) = b := by
    clear hchars hjoin
    induction b with
    | nil => rfl
    | cons s b ih =>
      rw [List.flatMap_cons, plain_parts (hb s (by simp)).1, ih fun t ht => hb t (by simp [ht])]
      rfl
  rw [hjoin] at hchars ⊢
  have hfil : (joinSegs (b ++ urlSegs (fun n => encodePath (v n)) l)).filter (fun c => !(c == '\t' || c == '\n' || c == '\r')) =
      joinSegs (b ++ urlSegs (fun n => encodePath (v n)) l) := by
    rw [List.filter_eq_self]
    intro c hc
    have := hchars c hc
    simp [this]
  have h1 := takeWhile_all (fun c : Char => decide (c ≠ '#')) _ (fun c hc => decide_eq_true (hchars c hc).1)
  have h2 := takeWhile_all (fun c : Char => decide (c ≠ '?')) _ (fun c hc => decide_eq_true (hchars c hc).2.1)
  unfold parseUrlTail
  simp only [hfil, h1.1, h2.1]
  rw [show (fun c : Char => c == '/' || c == '\\') = isSep from rfl, splitAt_join, List.flatMap_append, hbs]
  rfl

theorem confined_iff (l : List Seg) (hl : SegsOk l) (b : List Str) (hb : BaseOk b) (v : Str → Str)
    (hyes : (∀ n pre post, Seg.par n pre post ∈ l → '\\' ∉ v n ∧ pre ++ v n ++ post ≠ ['.'] ∧ pre ++ v n ++ post ≠ ['.', '.']) →
      (parseUrlTail (joinSegs b ++ segsUrl (fun n => encodePath (v n)) l)).segments.map percentDecode =
        b.map percentDecode ++ expectedSegs (fun n => utf8 (v n)) l) :
    (parseUrlTail (joinSegs b ++ segsUrl (fun n => encodePath (v n)) l)).segments.map percentDecode =
        b.map percentDecode ++ expectedSegs (fun n => utf8 (v n)) l ↔
      ∀ n pre post, Seg.par n pre post ∈ l → '\\' ∉ v n ∧ pre ++ v n ++ post ≠ ['.'] ∧ pre ++ v n ++ post ≠ ['.', '.'] := by
  refine ⟨fun h n pre post hn => ?_, hyes⟩
  rw [segments_eq l hl b hb v] at h
  have hdots : ∀ x ∈ (normSegs [] (b ++ (urlSegs (fun n => encodePath (v n)) l).flatMap (splitAt isSep))).map percentDecode,
      x ≠ utf8 ['.'] ∧ x ≠ utf8 ['.', '.'] := by
    intro x hx
    obtain ⟨y, hy, rfl⟩ := List.mem_map.mp hx
    rcases normSegs_mem _ _ y hy with hy | rfl | ⟨_, h1, h2⟩
    · cases hy
    · exact ⟨by decide, by decide⟩
    · refine ⟨fun e => ?_, fun e => ?_⟩
      · rw [decode_single e] at h1; cases h1
      · rw [decode_double e] at h2; cases h2
  obtain ⟨hp, hq⟩ := segsOk_mem hl hn
  have hin : utf8 (pre ++ v n ++ post) ∈ b.map percentDecode ++ expectedSegs (fun n => utf8 (v n)) l :=
    List.mem_append_right _ (by rw [← utf8_around hp hq]; exact expected_mem (f := fun n => utf8 (v n)) hn)
  rw [← h] at hin
  refine ⟨fun hbs => ?_, fun e => (hdots _ hin).1 (by rw [e]), fun e => (hdots _ hin).2 (by rw [e])⟩
  have hc := congrArg (List.countP hasBackslash) h
  rw [List.countP_append, ← count_lits _ v rfl l hl, List.countP_map, List.countP_map] at hc
  have hle := normSegs_count (hasBackslash ∘ percentDecode) (by decide)
    (b ++ (urlSegs (fun n => encodePath (v n)) l).flatMap (splitAt isSep)) []
  rw [List.countP_append, List.countP_nil] at hle
  have hpos : 0 < (pars l).countP fun n => decide ('\\' ∈ v n) := 
    List.countP_pos_iff.mpr ⟨n, mem_pars.mpr ⟨pre, post, hn⟩, decide_eq_true hbs⟩
  have : (hasBackslash ∘ percentDecode) = fun x => hasBackslash (percentDecode x) := rfl
  rw [this] at hc hle
  omega

/-- C05: the URL parses to the base segments followed by one segment per template segment, each
parameter segment decoding to its argument, exactly if no argument contains a backslash or makes its segment `.` or `..`. -/
theorem C05_confined_iff (l : List Seg) (hl : SegsOk l) (hne : l ≠ []) (auth : Str) (b : List Str) (hb : BaseOk b) (v : Str → Str) :
    ∃ p e tail, parse (segsText l) = .ok p ∧ compile p some = .ok e ∧
      rustFormat e.fmt ((auth ++ joinSegs b) :: e.args.map fun i => encodePath (v i)) = some (auth ++ tail) ∧
      ((parseUrlTail tail).segments.map percentDecode = b.map percentDecode ++ expectedSegs (fun n => utf8 (v n)) l ↔
        ∀ n pre post, Seg.par n pre post ∈ l → '\\' ∉ v n ∧ pre ++ v n ++ post ≠ ['.'] ∧ pre ++ v n ++ post ≠ ['.', '.']) := by
  obtain ⟨p, e, hp, he, hf⟩ := segs_url l hl hne (auth ++ joinSegs b) v
  refine ⟨p, e, joinSegs b ++ segsUrl (fun n => encodePath (v n)) l, hp, he, by rw [hf]; simp, confined_iff l hl b hb v fun hv => ?_⟩
  obtain ⟨p', e', tail, hp', he', hf', _, _, hseg⟩ := C05_confined_partial l hl hne auth b hb v hv
  rw [hp] at hp'; cases hp'
  rw [he] at he'; cases he'
  rw [hf, Option.some.injEq] at hf'
  rw [List.append_assoc] at hf'
  rw [List.append_cancel_left hf']
  exact hseg

/-- With text around the parameter, arguments that are dots are harmless. -/
example : (parseUrlTail (segsUrl (fun _ => encodePath "..".toList) [.lit "files".toList, .par "id".toList [] ".json".toList])).segments.map percentDecode =
    [utf8 "files".toList, utf8 "...json".toList] :=
  (confined_iff [.lit "files".toList, .par "id".toList [] ".json".toList]
    ⟨by simp, by decide, by decide, by decide, by decide, by decide, by decide, trivial⟩ [] (by intro s hs; cases hs)
    (fun _ => "..".toList) (fun _ => by decide +kernel)).mpr (by
      intro n pre post h
      simp only [List.mem_cons, reduceCtorEq, Seg.par.injEq, List.not_mem_nil, or_false, false_or] at h
      obtain ⟨rfl, rfl, rfl⟩ := h
      decide)

example : SegsOk [.lit "v1".toList, .par "id".toList] ∧ BaseOk ["api".toList] := by
  refine ⟨⟨by simp, by decide, by decide, by decide, by decide, by decide, by decide, trivial⟩, ?_⟩
  intro s hs
  simp only [List.mem_cons, List.not_mem_nil, or_false] at hs
  subst hs
  decide

end Progenitor.Props

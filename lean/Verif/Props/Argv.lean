import Verif.Spec.Argv
import Verif.Props.CliItems
import Verif.Props.Reply

/-!
# C79: commands given as text
-/

namespace Progenitor.Props

open Progenitor Progenitor.Params Progenitor.Client Progenitor.Exec Progenitor.Builder Progenitor.Cli
open Progenitor.Spec

variable {u : Names.Unicode} {ct : CliTypes} {pg : Option Pagination} {B P V : Type}

/-! ## Words -/

theorem splitEq_plain {n : Str} (h : '=' ∉ n) : splitEq n = (n, none) := by
  induction n with
  | nil => rfl
  | cons c s ih =>
    rw [List.mem_cons, not_or] at h
    unfold splitEq
    rw [if_neg (fun hc => h.1 hc.symm), ih h.2]

theorem splitEq_attached {n : Str} (h : '=' ∉ n) (v : Str) : splitEq (n ++ '=' :: v) = (n, some v) := by
  induction n with
  | nil => rfl
  | cons c s ih =>
    rw [List.mem_cons, not_or] at h
    rw [List.cons_append]
    unfold splitEq
    rw [if_neg (fun hc => h.1 hc.symm), ih h.2]

theorem splitEq_inv : ∀ (s : Str), '=' ∉ (splitEq s).1 ∧
    ((splitEq s).2 = none ∧ s = (splitEq s).1 ∨ ∃ v, (splitEq s).2 = some v ∧ s = (splitEq s).1 ++ '=' :: v)
  | [] => ⟨by simp [splitEq], .inl ⟨rfl, rfl⟩⟩
  | c :: s => by
    obtain ⟨h1, h2⟩ := splitEq_inv s
    unfold splitEq
    split
    · rename_i hc
      exact ⟨by simp, .inr ⟨s, rfl, by rw [hc]; rfl⟩⟩
    · rename_i hc
      refine ⟨by simp only [List.mem_cons, not_or]; exact ⟨fun h => hc h.symm, h1⟩, ?_⟩
      rcases h2 with ⟨h2, h3⟩ | ⟨v, h2, h3⟩
      · exact .inl ⟨h2, by simp only [← h3]⟩
      · exact .inr ⟨v, h2, by simp only [List.cons_append]; rw [← h3]⟩

theorem longArg_attached {n : Str} (h : '=' ∉ n) (v : Str) : longArg ("--".toList ++ n ++ '=' :: v) = some (n, some v) := by
  have := splitEq_attached h v
  cases n with
  | nil => rfl
  | cons c s => exact congrArg some this

theorem longArg_plain {n : Str} (hne : n ≠ []) (h : '=' ∉ n) : longArg ("--".toList ++ n) = some (n, none) := by
  have := splitEq_plain h
  cases n with
  | nil => exact absurd rfl hne
  | cons c s => exact congrArg some this

theorem longArg_inv {w n : Str} {v : Option Str} (h : longArg w = some (n, v)) :
    '=' ∉ n ∧ ((v = none ∧ n ≠ [] ∧ w = "--".toList ++ n) ∨ ∃ x, v = some x ∧ w = "--".toList ++ n ++ '=' :: x) := by
  unfold longArg at h
  split at h
  · rename_i c s
    have h := Option.some.inj h
    obtain ⟨h1, h2⟩ := splitEq_inv (c :: s)
    rw [h] at h1 h2
    refine ⟨h1, ?_⟩
    rcases h2 with ⟨h2, h3⟩ | ⟨x, h2, h3⟩
    · simp only at h2 h3
      refine .inl ⟨h2, ?_, by rw [h3]; rfl⟩
      rw [← h3]; simp
    · simp only at h2 h3
      exact .inr ⟨x, h2, by rw [h3]; rfl⟩
  · cases h

theorem hyphenated_iff (v : Str) : hyphenated v = false ↔ v = "-".toList ∨ ∀ s, v ≠ '-' :: s := by
  unfold hyphenated
  split
  · simp
  · rename_i h
    constructor
    · intro _
      cases v with
      | nil => exact .inr (by simp)
      | cons c s =>
        by_cases hc : c = '-'
        · subst hc
          cases s with
          | nil => exact .inl rfl
          | cons d s => exact absurd rfl (h d s)
        · exact .inr fun s' he => hc (List.cons.inj he).1
    · exact fun _ => rfl

/-! ## Values -/

theorem Clap.bind_ok {α β : Type} {x : Clap α} {f : α → Clap β} {b : β} : x.bind f = .ok b ↔ ∃ a, x = .ok a ∧ f a = .ok b := by
  cases x with
  | ok a => simp [Clap.bind]
  | rejected => simp [Clap.bind]
  | panicked => simp [Clap.bind]

theorem parse_iff (ps : Parsers) (t : TypeId) (s : Str) (a : Arg) : ps.parse t s = .ok a ↔ Parses ps t s a := by
  unfold Parsers.parse Parses
  cases h : ps.simple t with
  | none =>
    simp only [reduceCtorEq, false_and, exists_false, true_and, false_or]
    cases h2 : ps.value t s with
    | none => simp
    | some b => simp
  | some names =>
    simp only [Option.some.injEq, exists_eq_left', reduceCtorEq, false_and, or_false]
    split
    · rename_i hs
      simp only [hs, true_and]
      cases h2 : ps.tryFrom t s with
      | none => simp
      | some b => simp
    · rename_i hs
      simp [hs]

/-- What is read for an argument. -/
def Reads (ps : Parsers) (args : Args) : Str × Option Str → Str × Given → Prop
  | (n, some s), (m, g) => m = n ∧ ∃ k, argKind args n = some k ∧ k ≠ .switch ∧ givenValue ps k s = .ok g
  | (n, none), (m, g) => m = n ∧ argKind args n = some .switch ∧ g = .switch

theorem cons_ok {n : Str} {g : Clap Given} {r : Clap (List (Str × Given))} {gs : List (Str × Given)} :
    Clap.cons n g r = .ok gs ↔ ∃ x rest, g = .ok x ∧ r = .ok rest ∧ gs = (n, x) :: rest := by
  unfold Clap.cons
  rw [Clap.bind_ok]
  constructor
  · rintro ⟨x, h1, h2⟩
    obtain ⟨l, h3, h4⟩ := Clap.bind_ok.mp h2
    exact ⟨x, l, h1, h3, (Clap.ok.inj h4).symm⟩
  · rintro ⟨x, rest, h1, h2, rfl⟩
    exact ⟨x, h1, Clap.bind_ok.mpr ⟨rest, h2, rfl⟩⟩

theorem givenValue_switch (ps : Parsers) (s : Str) (g : Given) : givenValue ps .switch s ≠ .ok g := by
  unfold givenValue
  simp

theorem readWords_sound (ps : Parsers) (args : Args) : ∀ (ws seen : List Str) {gs : List (Str × Given)},
    readWords ps args seen ws = .ok gs →
    ∃ l, Writes l ws ∧ Forall₂ (Reads ps args) l gs ∧ (l.map Prod.fst).Nodup ∧ ∀ n ∈ l.map Prod.fst, n ∉ seen
  | [], seen, gs, h => by
    unfold readWords at h
    cases h
    exact ⟨[], .nil, .nil, by simp, by simp⟩
  | w :: ws, seen, gs, h => by
    unfold readWords at h
    split at h
    · split at h
      · rename_i hw
        cases h
        rw [hw.1, hw.2]
        exact ⟨[], .dashes, .nil, by simp, by simp⟩
      · cases h
    · rename_i n attached hl
      obtain ⟨heq, hform⟩ := longArg_inv hl
      split at h
      · cases h
      · rename_i k hk
        split at h
        · cases h
        · rename_i hseen
          have next : ∀ {l : List (Str × Option Str)} {o : Option Str}, (l.map Prod.fst).Nodup →
              (∀ m ∈ l.map Prod.fst, m ∉ n :: seen) →
              (((n, o) :: l).map Prod.fst).Nodup ∧ ∀ m ∈ ((n, o) :: l).map Prod.fst, m ∉ seen := by
            intro l o h1 h2
            simp only [List.map_cons]
            refine ⟨List.nodup_cons.mpr ⟨fun hm => h2 n hm (by simp), h1⟩, ?_⟩
            intro m hm
            rcases List.mem_cons.mp hm with rfl | hm
            · exact hseen
            · exact fun h => h2 m hm (List.mem_cons_of_mem _ h)
          split at h
          · rename_i v
            obtain ⟨g, rest, h1, h2, rfl⟩ := cons_ok.mp h
            obtain ⟨l, i1, i2, i3, i4⟩ := readWords_sound ps args ws (n :: seen) h2
            obtain ⟨hn, hs⟩ := next (o := some v) i3 i4
            rcases hform with ⟨hx, _⟩ | ⟨x, hx, hw⟩
            · cases hx
            · cases hx
              rw [hw]
              refine ⟨_, .attached n v heq i1, .cons ⟨rfl, k, hk, ?_, h1⟩ i2, hn, hs⟩
              rintro rfl
              exact givenValue_switch _ _ _ h1
          · rcases hform with ⟨_, hne, hw⟩ | ⟨x, hx, _⟩
            · split at h
              · rename_i hkk
                subst hkk
                obtain ⟨g, rest, h1, h2, rfl⟩ := cons_ok.mp h
                obtain ⟨l, i1, i2, i3, i4⟩ := readWords_sound ps args ws (n :: seen) h2
                obtain ⟨hn, hs⟩ := next (o := none) i3 i4
                rw [hw]
                exact ⟨_, .switch n hne heq i1, .cons ⟨rfl, hk, (Clap.ok.inj h1).symm⟩ i2, hn, hs⟩
              · rename_i hkk
                split at h
                · cases h
                · rename_i v ws'
                  split at h
                  · cases h
                  · rename_i hv
                    obtain ⟨g, rest, h1, h2, rfl⟩ := cons_ok.mp h
                    obtain ⟨l, i1, i2, i3, i4⟩ := readWords_sound ps args ws' (n :: seen) h2
                    obtain ⟨hn, hs⟩ := next (o := some v) i3 i4
                    rw [hw]
                    exact ⟨_, .apart n v hne heq ((hyphenated_iff v).mp (by simpa using hv)) i1, .cons ⟨rfl, k, hk, hkk, h1⟩ i2, hn, hs⟩
            · cases hx

theorem readWords_complete (ps : Parsers) (args : Args) {l : List (Str × Option Str)} {ws : List Str} (hw : Writes l ws) :
    ∀ {seen : List Str} {gs : List (Str × Given)}, Forall₂ (Reads ps args) l gs → (l.map Prod.fst).Nodup →
      (∀ n ∈ l.map Prod.fst, n ∉ seen) → readWords ps args seen ws = .ok gs := by
  induction hw with
  | nil => intro seen gs h _ _; cases h; rfl
  | dashes => intro seen gs h _ _; cases h; unfold readWords; simp [longArg]
  | attached n v heq _ ih =>
    intro seen gs h hn hs
    obtain _ | ⟨hr, hrest⟩ := h
    rename_i g gs
    obtain ⟨m, g⟩ := g
    obtain ⟨rfl, k, hk, _, hg⟩ := hr
    simp only [List.map_cons, List.nodup_cons] at hn
    have hms : m ∉ seen := hs m (by simp)
    unfold readWords
    rw [longArg_attached heq v]
    simp only [hk, if_neg hms]
    refine cons_ok.mpr ⟨g, gs, hg, ih hrest hn.2 ?_, rfl⟩
    intro x hx hmem
    rcases List.mem_cons.mp hmem with rfl | hmem
    · exact hn.1 hx
    · exact hs x (by simp only [List.map_cons]; exact List.mem_cons_of_mem _ hx) hmem
  | apart n v hne heq hv _ ih =>
    intro seen gs h hn hs
    obtain _ | ⟨hr, hrest⟩ := h
    rename_i g gs
    obtain ⟨m, g⟩ := g
    obtain ⟨rfl, k, hk, hkk, hg⟩ := hr
    simp only [List.map_cons, List.nodup_cons] at hn
    have hms : m ∉ seen := hs m (by simp)
    have hvv := (hyphenated_iff v).mpr hv
    unfold readWords
    rw [longArg_plain hne heq]
    simp only [hk, if_neg hms, if_neg hkk, hvv, Bool.false_eq_true, if_false]
    refine cons_ok.mpr ⟨g, gs, hg, ih hrest hn.2 ?_, rfl⟩
    intro x hx hmem
    rcases List.mem_cons.mp hmem with rfl | hmem
    · exact hn.1 hx
    · exact hs x (by simp only [List.map_cons]; exact List.mem_cons_of_mem _ hx) hmem
  | switch n hne heq _ ih =>
    intro seen gs h hn hs
    obtain _ | ⟨hr, hrest⟩ := h
    rename_i g gs
    obtain ⟨m, g⟩ := g
    obtain ⟨rfl, hk, rfl⟩ := hr
    simp only [List.map_cons, List.nodup_cons] at hn
    have hms : m ∉ seen := hs m (by simp)
    unfold readWords
    rw [longArg_plain hne heq]
    simp only [hk, if_neg hms, if_true]
    refine cons_ok.mpr ⟨.switch, gs, rfl, ih hrest hn.2 ?_, rfl⟩
    intro x hx hmem
    rcases List.mem_cons.mp hmem with rfl | hmem
    · exact hn.1 hx
    · exact hs x (by simp only [List.map_cons]; exact List.mem_cons_of_mem _ hx) hmem

/-- Reading the words: what the words give, each at most once. -/
theorem readWords_iff (ps : Parsers) (args : Args) (ws : List Str) (gs : List (Str × Given)) :
    readWords ps args [] ws = .ok gs ↔ ∃ l, Writes l ws ∧ Forall₂ (Reads ps args) l gs ∧ (l.map Prod.fst).Nodup := by
  constructor
  · intro h
    obtain ⟨l, h1, h2, h3, -⟩ := readWords_sound ps args ws [] h
    exact ⟨l, h1, h2, h3⟩
  · rintro ⟨l, h1, h2, h3⟩
    exact readWords_complete ps args h1 h2 h3 (by simp)

/-! ## Matches -/

theorem argKind_typed {args : Args} (hs : BTree.Sorted args.flags) (n : Str) (t : TypeId) :
    argKind args n = some (.typed t) ↔ ∃ f, (n, f) ∈ args.flags ∧ f.type = t := by
  unfold argKind
  cases h : BTree.get n args.flags with
  | none =>
    rw [get_none_iff] at h
    constructor
    · intro hx
      simp only at hx
      split at hx
      · cases hx
      · split at hx
        · cases hx
        · split at hx <;> cases hx
    · rintro ⟨f, hf, -⟩
      exact absurd (List.mem_map_of_mem (f := Prod.fst) hf) h
  | some f =>
    simp only [Option.some.injEq, ArgKind.typed.injEq]
    constructor
    · exact fun hx => ⟨f, BTree.mem_of_get h, hx⟩
    · rintro ⟨f', hf', rfl⟩
      rw [BTree.get_of_mem hs hf'] at h
      rw [Option.some.inj h]

theorem not_flag {args : Args} {n : Str} : BTree.get n args.flags = none ↔ ∀ f, (n, f) ∉ args.flags := by
  rw [get_none_iff]
  constructor
  · exact fun h f hf => h (List.mem_map_of_mem (f := Prod.fst) hf)
  · intro h hm
    obtain ⟨⟨m, f⟩, hf, rfl⟩ := List.mem_map.mp hm
    exact h f hf

theorem argKind_path (args : Args) (n : Str) : argKind args n = some .path ↔ FileArg args n "json-body".toList := by
  unfold argKind FileArg
  cases h : BTree.get n args.flags with
  | none =>
    have h' := not_flag.mp h
    simp only [h', not_false_eq_true, implies_true, and_true]
    split
    · rename_i hb; simp [hb]
    · rename_i hb
      split
      · rename_i hn; simp [hn, hb]
      · rename_i hn
        split
        · exact ⟨fun hx => (by cases hx), fun hx => absurd hx.1 hn⟩
        · exact ⟨fun hx => (by cases hx), fun hx => absurd hx.1 hn⟩
  | some f =>
    have h' : ¬ ∀ f, (n, f) ∉ args.flags := fun hx => by rw [not_flag.mpr hx] at h; cases h
    simp [h']

theorem argKind_switch (args : Args) (n : Str) : argKind args n = some .switch ↔ FileArg args n "json-body-template".toList := by
  unfold argKind FileArg
  cases h : BTree.get n args.flags with
  | none =>
    have h' := not_flag.mp h
    simp only [h', not_false_eq_true, implies_true, and_true]
    split
    · rename_i hb; simp [hb]
    · rename_i hb
      split
      · rename_i hn
        rw [hn]
        simp
      · split
        · rename_i hn; simp [hn, hb]
        · rename_i hn
          exact ⟨fun hx => (by cases hx), fun hx => absurd hx.1 hn⟩
  | some f =>
    have h' : ¬ ∀ f, (n, f) ∉ args.flags := fun hx => by rw [not_flag.mpr hx] at h; cases h
    simp [h']

/-- What is read, by what is meant. -/
theorem reads_iff {ps : Parsers} {args : Args} (hs : BTree.Sorted args.flags) (x : Str × Option Str) (y : Str × Given) :
    Reads ps args x y ↔ y.1 = x.1 ∧
      ((∃ s a, x.2 = some s ∧ y.2 = .value a ∧ FlagGiven ps args x.1 s a) ∨
       (∃ s, x.2 = some s ∧ y.2 = .path s ∧ FileArg args x.1 "json-body".toList ∧ s ≠ []) ∨
       (x.2 = none ∧ y.2 = .switch ∧ FileArg args x.1 "json-body-template".toList)) := by
  obtain ⟨n, o⟩ := x
  obtain ⟨m, g⟩ := y
  cases o with
  | none =>
    show (m = n ∧ argKind args n = some .switch ∧ g = .switch) ↔ _
    rw [argKind_switch]
    simp
    intro _
    exact And.comm
  | some s =>
    unfold Reads
    simp only [Option.some.injEq, reduceCtorEq, false_and, or_false]
    refine and_congr_right fun _ => ?_
    constructor
    · rintro ⟨k, hk, hks, hg⟩
      unfold givenValue at hg
      cases k with
      | switch => exact absurd rfl hks
      | path =>
        simp only at hg
        split at hg
        · cases hg
        · rename_i hne
          exact .inr ⟨s, rfl, (Clap.ok.inj hg).symm, (argKind_path args n).mp hk, hne⟩
      | typed t =>
        obtain ⟨a, h1, h2⟩ := Clap.bind_ok.mp hg
        obtain ⟨f, hf, ht⟩ := (argKind_typed hs n t).mp hk
        exact .inl ⟨s, a, rfl, (Clap.ok.inj h2).symm, f, hf, by rw [ht]; exact (parse_iff ps t s a).mp h1⟩
    · rintro (⟨s', a, hs', rfl, f, hf, hp⟩ | ⟨s', hs', rfl, hfile, hne⟩)
      · subst hs'
        refine ⟨.typed f.type, (argKind_typed hs n _).mpr ⟨f, hf, rfl⟩, by simp, ?_⟩
        exact Clap.bind_ok.mpr ⟨a, (parse_iff ps _ s a).mpr hp, rfl⟩
      · subst hs'
        refine ⟨.path, (argKind_path args n).mpr hfile, by simp, ?_⟩
        show (if s = [] then Clap.rejected else .ok (Cli.Given.path s)) = _
        rw [if_neg hne]

theorem meant_iff {ps : Parsers} {args : Args} (hs : BTree.Sorted args.flags) (x : Str × Option Str) :
    Meant ps args x ↔ ∃ y, Reads ps args x y := by
  obtain ⟨n, o⟩ := x
  cases o with
  | none =>
    unfold Meant
    constructor
    · exact fun h => ⟨(n, .switch), (reads_iff hs _ _).mpr ⟨rfl, .inr (.inr ⟨rfl, rfl, h⟩)⟩⟩
    · rintro ⟨y, hy⟩
      rcases ((reads_iff hs _ _).mp hy).2 with ⟨s, a, h, -⟩ | ⟨s, h, -⟩ | ⟨-, -, h⟩
      · cases h
      · cases h
      · exact h
  | some s =>
    unfold Meant
    constructor
    · rintro (⟨a, h⟩ | ⟨h, hne⟩)
      · exact ⟨(n, .value a), (reads_iff hs _ _).mpr ⟨rfl, .inl ⟨s, a, rfl, rfl, h⟩⟩⟩
      · exact ⟨(n, .path s), (reads_iff hs _ _).mpr ⟨rfl, .inr (.inl ⟨s, rfl, rfl, h, hne⟩)⟩⟩
    · rintro ⟨y, hy⟩
      rcases ((reads_iff hs _ _).mp hy).2 with ⟨s', a, h, -, hf⟩ | ⟨s', h, -, hf, hne⟩ | ⟨h, -⟩
      · cases h; exact .inl ⟨a, hf⟩
      · cases h; exact .inr ⟨hf, hne⟩
      · cases h

theorem meant_all {ps : Parsers} {args : Args} (hs : BTree.Sorted args.flags) (l : List (Str × Option Str)) :
    (∀ x ∈ l, Meant ps args x) ↔ ∃ gs, Forall₂ (Reads ps args) l gs := by
  induction l with
  | nil => exact ⟨fun _ => ⟨[], .nil⟩, fun _ x hx => by cases hx⟩
  | cons x l ih =>
    constructor
    · intro h
      obtain ⟨y, hy⟩ := (meant_iff hs x).mp (h x (by simp))
      obtain ⟨gs, hgs⟩ := ih.mp fun z hz => h z (List.mem_cons_of_mem _ hz)
      exact ⟨y :: gs, .cons hy hgs⟩
    · rintro ⟨_, _ | ⟨h1, h2⟩⟩ z hz
      rcases List.mem_cons.mp hz with rfl | hz
      · exact (meant_iff hs _).mpr ⟨_, h1⟩
      · exact ih.mpr ⟨_, h2⟩ z hz

theorem parses_unique {ps : Parsers} {t : TypeId} {s : Str} {a b : Arg} (h : Parses ps t s a) (h' : Parses ps t s b) : a = b := by
  have h1 := (parse_iff ps t s a).mpr h
  rw [(parse_iff ps t s b).mpr h'] at h1
  exact (Clap.ok.inj h1).symm

theorem flagGiven_unique {ps : Parsers} {args : Args} (hs : BTree.Sorted args.flags) {n s : Str} {a b : Arg}
    (h : FlagGiven ps args n s a) (h' : FlagGiven ps args n s b) : a = b := by
  obtain ⟨f, hf, h1⟩ := h
  obtain ⟨f', hf', h2⟩ := h'
  have := BTree.get_of_mem hs hf
  rw [BTree.get_of_mem hs hf'] at this
  rw [Option.some.inj this] at h2
  exact parses_unique h1 h2

theorem givenGet_iff {ps : Parsers} {args : Args} (hs : BTree.Sorted args.flags) {l : List (Str × Option Str)}
    {gs : List (Str × Given)} (h : Forall₂ (Reads ps args) l gs) (hn : (l.map Prod.fst).Nodup) (n : Str) (a : Arg) :
    givenGet gs n = some a ↔ ∃ s, (n, some s) ∈ l ∧ FlagGiven ps args n s a := by
  induction h with
  | nil => simp [givenGet]
  | @cons x y l gs hr hrest ih =>
    obtain ⟨m, o⟩ := x
    obtain ⟨m', g⟩ := y
    simp only [List.map_cons, List.nodup_cons] at hn
    obtain ⟨hm, hr⟩ := (reads_iff hs _ _).mp hr
    simp only at hm hr
    subst hm
    have step : ∀ {s : Str}, (m', some s) = (m', o) → (∃ b, g = .value b ∧ FlagGiven ps args m' s b) ∨ ∀ b, ¬ FlagGiven ps args m' s b := by
      intro s hso
      rcases hr with ⟨s', b, ho, hg, hf⟩ | ⟨s', ho, hg, hf, -⟩ | ⟨ho, hg, hf⟩
      · rw [ho] at hso
        cases hso
        exact .inl ⟨b, hg, hf⟩
      · exact .inr fun b ⟨f, hf', _⟩ => hf.2.2 f hf'
      · exact .inr fun b ⟨f, hf', _⟩ => hf.2.2 f hf'
    have skip : (∀ b, g ≠ .value b) → (givenGet ((m', g) :: gs) n = some a ↔
        ∃ s, (n, some s) ∈ (m', o) :: l ∧ FlagGiven ps args n s a) := by
      intro hg
      have : givenGet ((m', g) :: gs) n = givenGet gs n := by
        cases g with
        | value b => exact absurd rfl (hg b)
        | path p => rfl
        | switch => rfl
      rw [this, ih hn.2]
      constructor
      · rintro ⟨s, h1, h2⟩
        exact ⟨s, List.mem_cons_of_mem _ h1, h2⟩
      · rintro ⟨s, h1, h2⟩
        rcases List.mem_cons.mp h1 with h1 | h1
        · have hmn : n = m' := (Prod.mk.inj h1).1
          subst hmn
          rcases step h1 with ⟨b, hb, -⟩ | h3
          · exact absurd hb (hg b)
          · exact absurd h2 (h3 a)
        · exact ⟨s, h1, h2⟩
    cases g with
    | path p => exact skip (by simp)
    | switch => exact skip (by simp)
    | value b =>
      rcases hr with ⟨s', b', ho, hg, hf⟩ | ⟨s', ho, hg, hf, -⟩ | ⟨ho, hg, hf⟩
      · cases hg
        subst ho
        unfold givenGet
        split
        · rename_i hmn
          subst hmn
          constructor
          · intro hb
            cases hb
            exact ⟨s', by simp, hf⟩
          · rintro ⟨s, h1, h2⟩
            rcases List.mem_cons.mp h1 with h1 | h1
            · cases h1
              rw [flagGiven_unique hs hf h2]
            · exact absurd (List.mem_map_of_mem (f := Prod.fst) h1) hn.1
        · rename_i hmn
          rw [ih hn.2]
          constructor
          · rintro ⟨s, h1, h2⟩
            exact ⟨s, List.mem_cons_of_mem _ h1, h2⟩
          · rintro ⟨s, h1, h2⟩
            rcases List.mem_cons.mp h1 with h1 | h1
            · exact absurd (Prod.mk.inj h1).1.symm hmn
            · exact ⟨s, h1, h2⟩
      · cases hg
      · cases hg

theorem givenPath_iff {ps : Parsers} {args : Args} (hs : BTree.Sorted args.flags) {l : List (Str × Option Str)}
    {gs : List (Str × Given)} (h : Forall₂ (Reads ps args) l gs) (hn : (l.map Prod.fst).Nodup) (p : Str) :
    givenPath gs = some p ↔ ("json-body".toList, some p) ∈ l ∧ FileArg args "json-body".toList "json-body".toList := by
  induction h with
  | nil => simp [givenPath]
  | @cons x y l gs hr hrest ih =>
    obtain ⟨m, o⟩ := x
    obtain ⟨m', g⟩ := y
    simp only [List.map_cons, List.nodup_cons] at hn
    obtain ⟨hm, hr⟩ := (reads_iff hs _ _).mp hr
    simp only at hm hr
    subst hm
    rcases hr with ⟨s, b, rfl, rfl, f, hf, hp⟩ | ⟨s, rfl, rfl, hf, hne⟩ | ⟨rfl, rfl, hf⟩
    · unfold givenPath
      rw [ih hn.2, List.mem_cons]
      constructor
      · exact fun ⟨h1, h2⟩ => ⟨.inr h1, h2⟩
      · rintro ⟨h1 | h1, h2⟩
        · have := (Prod.mk.inj h1).1
          rw [← this] at hf
          exact absurd hf (h2.2.2 f)
        · exact ⟨h1, h2⟩
    · unfold givenPath
      have hm := hf.1
      subst hm
      constructor
      · intro h
        cases h
        exact ⟨by simp, hf⟩
      · rintro ⟨h1, -⟩
        rcases List.mem_cons.mp h1 with h1 | h1
        · cases h1; rfl
        · exact absurd (List.mem_map_of_mem (f := Prod.fst) h1) hn.1
    · unfold givenPath
      rw [ih hn.2, List.mem_cons]
      constructor
      · exact fun ⟨h1, h2⟩ => ⟨.inr h1, h2⟩
      · rintro ⟨h1 | h1, h2⟩
        · cases (Prod.mk.inj h1).2
        · exact ⟨h1, h2⟩

theorem readBody_iff (ps : Parsers) (body : Option TypeId) (p : Str) (a : Arg) : readBody ps body p = some a ↔ FileBody ps body p a := by
  unfold readBody FileBody
  cases body with
  | none => simp
  | some t => simp [Option.bind_eq_some_iff]

theorem lineOf_for {ps : Parsers} {args : Args} (hs : BTree.Sorted args.flags) (body : Option TypeId) {l : List (Str × Option Str)}
    {gs : List (Str × Given)} (h : Forall₂ (Reads ps args) l gs) (hn : (l.map Prod.fst).Nodup) :
    LineFor ps args body l (lineOf ps body gs) where
  value := givenGet_iff hs h hn
  file := by
    intro r
    show (givenPath gs).map (readBody ps body) = some r ↔ _
    rw [Option.map_eq_some_iff]
    constructor
    · rintro ⟨p, hp, rfl⟩
      obtain ⟨h1, h2⟩ := (givenPath_iff hs h hn p).mp hp
      exact ⟨p, h1, h2, readBody_iff ps body p⟩
    · rintro ⟨p, h1, h2, h3⟩
      refine ⟨p, (givenPath_iff hs h hn p).mpr ⟨h1, h2⟩, ?_⟩
      apply Option.ext
      intro a
      rw [readBody_iff, h3]

/-- There is only one `Line` for what is given. -/
theorem lineFor_unique {ps : Parsers} {args : Args} {body : Option TypeId} {l : List (Str × Option Str)}
    {x y : Line} (hx : LineFor ps args body l x) (hy : LineFor ps args body l y) : x = y := by
  obtain ⟨g, j⟩ := x
  obtain ⟨g', j'⟩ := y
  have h1 : g = g' := funext fun n => Option.ext fun a => (hx.value n a).trans (hy.value n a).symm
  have h2 : j = j' := Option.ext fun r => (hx.file r).trans (hy.file r).symm
  rw [h1, h2]

theorem lineFor_perm {ps : Parsers} {args : Args} {body : Option TypeId} {l l' : List (Str × Option Str)} (hp : l.Perm l')
    {x : Line} (hx : LineFor ps args body l x) : LineFor ps args body l' x where
  value n a := by simpa only [hp.mem_iff] using hx.value n a
  file r := by simpa only [hp.mem_iff] using hx.file r

theorem accepts_iff {args : Args} {line : Line} (hb : args.body = .none → line.json = none) :
    accepts args line = true ↔ Complete args line := by
  unfold accepts
  rw [Bool.and_eq_true, List.all_eq_true]
  constructor
  · rintro ⟨h1, h2⟩
    refine ⟨fun e he hv => ?_, fun e he hv => ?_, fun hr => ?_⟩
    · have := h1 e he
      simp only [flagAccepts, hv] at this
      exact Option.isSome_iff_ne_none.mp this
    · have := h1 e he
      simp only [flagAccepts, hv, Bool.or_eq_true] at this
      exact this.imp Option.isSome_iff_ne_none.mp Option.isSome_iff_ne_none.mp
    · rw [hr] at h2
      exact Option.isSome_iff_ne_none.mp h2
  · rintro ⟨h1, h2, h3⟩
    refine ⟨fun e he => ?_, ?_⟩
    · unfold flagAccepts
      cases hv : e.2.volition with
      | optional => rfl
      | required => exact Option.isSome_iff_ne_none.mpr (h1 e he hv)
      | requiredIfNoBody =>
        simp only [Bool.or_eq_true]
        exact (h2 e he hv).imp Option.isSome_iff_ne_none.mpr Option.isSome_iff_ne_none.mpr
    · cases hbody : args.body with
      | none => simp only [jsonAccepts, hb hbody]; rfl
      | required => exact Option.isSome_iff_ne_none.mpr (h3 hbody)
      | optional => rfl

theorem lineFor_none {ps : Parsers} {args : Args} {body : Option TypeId} {l : List (Str × Option Str)} {x : Line}
    (hx : LineFor ps args body l x) (hb : args.body = .none) : x.json = none := by
  cases hj : x.json with
  | none => rfl
  | some r =>
    obtain ⟨p, -, h, -⟩ := (hx.file r).mp hj
    exact absurd hb h.2.1

/-- C79: a command line is accepted exactly if it is made of arguments of the command, each at most once and with a value that can be
read, and all that is required is there; the values are those written. -/
theorem C79_words_iff {params : List Param} {args : Args} (h : cliArgs u ct pg params = .ok args) (ps : Parsers)
    (body : Option TypeId) (ws : List Str) (line : Line) :
    matchesOf ps args body ws = .ok line ↔
      ∃ l, Writes l ws ∧ Admissible ps args l ∧ LineFor ps args body l line ∧ Complete args line := by
  obtain ⟨_, -, -, hs, -⟩ := cliArgs_ok h
  unfold matchesOf
  rw [Clap.bind_ok]
  constructor
  · rintro ⟨gs, h1, h2⟩
    obtain ⟨l, hw, hr, hn⟩ := (readWords_iff ps args ws gs).mp h1
    split at h2
    · rename_i ha
      have hl := lineOf_for hs body hr hn
      rw [← Clap.ok.inj h2]
      exact ⟨l, hw, ⟨hn, (meant_all hs l).mpr ⟨gs, hr⟩⟩, hl, (accepts_iff (lineFor_none hl)).mp ha⟩
    · cases h2
  · rintro ⟨l, hw, ha, hl, hc⟩
    obtain ⟨gs, hr⟩ := (meant_all hs l).mp ha.meant
    have := lineFor_unique hl (lineOf_for hs body hr ha.once)
    refine ⟨gs, (readWords_iff ps args ws gs).mpr ⟨l, hw, hr, ha.once⟩, ?_⟩
    rw [← this, if_pos ((accepts_iff (lineFor_none hl)).mpr hc)]

/-- C79: neither the order of arguments nor the way they are written matters. -/
theorem C79_order {params : List Param} {args : Args} (h : cliArgs u ct pg params = .ok args) (ps : Parsers)
    (body : Option TypeId) {l l' : List (Str × Option Str)} {ws ws' : List Str} (hw : Writes l ws) (hw' : Writes l' ws')
    (hp : l.Perm l') (ha : Admissible ps args l) : matchesOf ps args body ws = matchesOf ps args body ws' := by
  obtain ⟨_, -, -, hs, -⟩ := cliArgs_ok h
  have hn' : (l'.map Prod.fst).Nodup := (hp.map _).nodup_iff.mp ha.once
  obtain ⟨gs, hr⟩ := (meant_all hs l).mp ha.meant
  obtain ⟨gs', hr'⟩ := (meant_all hs l').mp fun x hx => ha.meant x (hp.mem_iff.mpr hx)
  have e := lineFor_unique (lineFor_perm hp (lineOf_for hs body hr ha.once)) (lineOf_for hs body hr' hn')
  unfold matchesOf
  rw [(readWords_iff ps args ws gs).mpr ⟨l, hw, hr, ha.once⟩, (readWords_iff ps args ws' gs').mpr ⟨l', hw', hr', hn'⟩]
  simp only [Clap.bind, e]

/-- C79: for enums, exactly the names of the variants are accepted, and nothing panics, if the names are read as values. -/
theorem C79_enum {ps : Parsers} (he : EnumsRead ps) {t : TypeId} {names : List Str} (ht : ps.simple t = some names) (s : Str) :
    (s ∈ names → ∃ a, ps.tryFrom t s = some a ∧ ps.parse t s = .ok a) ∧ (s ∉ names → ps.parse t s = .rejected) := by
  unfold Parsers.parse
  simp only [ht]
  refine ⟨fun hs => ?_, fun hs => by rw [if_neg hs]⟩
  obtain ⟨a, ha⟩ := he t names ht s hs
  exact ⟨a, ha, by rw [if_pos hs, ha]⟩

theorem parse_safe {ps : Parsers} (he : EnumsRead ps) (t : TypeId) (s : Str) : ps.parse t s ≠ .panicked := by
  cases ht : ps.simple t with
  | none =>
    unfold Parsers.parse
    simp only [ht]
    cases ps.value t s <;> simp
  | some names =>
    by_cases hs : s ∈ names
    · obtain ⟨a, -, h⟩ := (C79_enum he ht s).1 hs
      rw [h]; simp
    · rw [(C79_enum he ht s).2 hs]; simp

theorem Clap.bind_safe {α β : Type} {x : Clap α} {f : α → Clap β} (hx : x ≠ .panicked) (hf : ∀ a, f a ≠ .panicked) :
    x.bind f ≠ .panicked := by
  cases x with
  | ok a => exact hf a
  | rejected => simp [Clap.bind]
  | panicked => exact absurd rfl hx

theorem givenValue_safe {ps : Parsers} (he : EnumsRead ps) (k : ArgKind) (s : Str) : givenValue ps k s ≠ .panicked := by
  cases k with
  | typed t => exact Clap.bind_safe (parse_safe he t s) (by simp)
  | path => unfold givenValue; simp only; split <;> simp
  | switch => simp [givenValue]

theorem cons_safe {n : Str} {g : Clap Given} {r : Clap (List (Str × Given))} (hg : g ≠ .panicked) (hr : r ≠ .panicked) :
    Clap.cons n g r ≠ .panicked := Clap.bind_safe hg fun _ => Clap.bind_safe hr (by simp)

theorem readWords_safe {ps : Parsers} (he : EnumsRead ps) (args : Args) : ∀ (ws seen : List Str), readWords ps args seen ws ≠ .panicked
  | [], seen => by unfold readWords; simp
  | w :: ws, seen => by
    unfold readWords
    split
    · split <;> simp
    · split
      · simp
      · split
        · simp
        · split
          · exact cons_safe (givenValue_safe he _ _) (readWords_safe he args ws _)
          · split
            · exact cons_safe (by simp) (readWords_safe he args ws _)
            · split
              · simp
              · rename_i v ws'
                split
                · simp
                · exact cons_safe (givenValue_safe he _ _) (readWords_safe he args ws' _)

/-- C79: reading a command line does not panic, whatever the words, if the names of variants are read as values. -/
theorem C79_safe {ps : Parsers} (he : EnumsRead ps) (args : Args) (body : Option TypeId) (ws : List Str) :
    matchesOf ps args body ws ≠ .panicked := by
  refine Clap.bind_safe (readWords_safe he args ws []) fun l => ?_
  split <;> simp

/-- C79 fails for enums with a variant whose name is not read as a value: `clap` accepts the name, and the command panics. -/
theorem C79_enum_fails (ps : Parsers) (args : Args) (body : Option TypeId) {n : Str} (heq : '=' ∉ n) {f : Flag}
    (hf : BTree.get n args.flags = some f) {names : List Str} (ht : ps.simple f.type = some names) {s : Str} (hs : s ∈ names)
    (hno : ps.tryFrom f.type s = none) (ws : List Str) :
    matchesOf ps args body (("--".toList ++ n ++ '=' :: s) :: ws) = .panicked := by
  have hk : argKind args n = some (.typed f.type) := by unfold argKind; rw [hf]
  have hpz : ps.parse f.type s = .panicked := by
    unfold Parsers.parse
    simp only [ht, if_pos hs, hno]
  unfold matchesOf readWords
  rw [longArg_attached heq]
  simp only [hk, List.not_mem_nil, if_false, givenValue, hpz]
  rfl

/-- C79 fails for values that begin with `-`, if they are written as a word of their own: whatever the parser makes of the value, the
command line is not accepted. -/
theorem C79_hyphen_fails (ps : Parsers) (args : Args) (body : Option TypeId) {n : Str} (hne : n ≠ []) (heq : '=' ∉ n) {f : Flag}
    (hf : BTree.get n args.flags = some f) (c : Char) (v : Str) (ws : List Str) :
    matchesOf ps args body (("--".toList ++ n) :: ('-' :: c :: v) :: ws) = .rejected := by
  have hk : argKind args n = some (.typed f.type) := by unfold argKind; rw [hf]
  unfold matchesOf readWords
  rw [longArg_plain hne heq]
  simp only [hk, List.not_mem_nil, if_false, reduceCtorEq, hyphenated, if_true]
  rfl

/-- C79: `--json-body-template` has no effect. -/
theorem C79_template {params : List Param} {args : Args} (h : cliArgs u ct pg params = .ok args) (ps : Parsers)
    (body : Option TypeId) {l : List (Str × Option Str)} {ws : List Str} (hw : Writes l ws) (ha : Admissible ps args l)
    (hf : FileArg args "json-body-template".toList "json-body-template".toList) (hn : "json-body-template".toList ∉ l.map Prod.fst) :
    matchesOf ps args body ("--json-body-template".toList :: ws) = matchesOf ps args body ws := by
  obtain ⟨_, -, -, hs, -⟩ := cliArgs_ok h
  obtain ⟨gs, hr⟩ := (meant_all hs l).mp ha.meant
  have hn' : ((("json-body-template".toList, none) :: l).map Prod.fst).Nodup := List.nodup_cons.mpr ⟨hn, ha.once⟩
  have hr' : Forall₂ (Reads ps args) (("json-body-template".toList, none) :: l) (("json-body-template".toList, .switch) :: gs) :=
    .cons ((reads_iff hs _ _).mpr ⟨rfl, .inr (.inr ⟨rfl, rfl, hf⟩)⟩) hr
  have hw' : Writes (("json-body-template".toList, none) :: l) ("--json-body-template".toList :: ws) :=
    .switch "json-body-template".toList (by decide) (by decide) hw
  unfold matchesOf
  rw [(readWords_iff ps args ws gs).mpr ⟨l, hw, hr, ha.once⟩, (readWords_iff ps args _ _).mpr ⟨_, hw', hr', hn'⟩]
  rfl

/-- C79: the names of the arguments of the command differ, exactly if those of its own do, and none is called `help`. -/
theorem C79_names_iff (args : Args) : (clapNames args).Nodup ↔ (flagNames args).Nodup ∧ ∀ e ∈ args.flags, e.1 ≠ "help".toList := by
  unfold clapNames
  rw [List.nodup_append]
  constructor
  · rintro ⟨h1, -, h2⟩
    exact ⟨h1, fun e he => h2 e.1 (List.mem_append.mpr (.inl (List.mem_map_of_mem he))) _ (by simp)⟩
  · rintro ⟨h1, h2⟩
    refine ⟨h1, by simp, fun a ha b hb => ?_⟩
    rw [List.mem_singleton.mp hb]
    unfold flagNames at ha
    rcases List.mem_append.mp ha with ha | ha
    · obtain ⟨e, he, rfl⟩ := List.mem_map.mp ha
      exact h2 e he
    · split at ha
      · cases ha
      · have key : ∀ x ∈ ["json-body".toList, "json-body-template".toList], x ≠ "help".toList := by decide
        exact key a ha

/-- C79 fails for parameters called `help`: their argument clashes with that of `clap`. -/
theorem C79_help_fails (h : Lawful u) (ct : CliTypes) :
    ∃ args, cliArgs u ct none [⟨"help".toList, "help".toList, .type 0, .query false⟩] = .ok args ∧ (flagNames args).Nodup ∧
      ¬ (clapNames args).Nodup := by
  have hk : toKebab u "help".toList = "help".toList := by
    rw [toKebab_agree h exUnicode_lawful (by unfold Ascii; decide)]; rfl
  refine ⟨⟨[("help".toList, ⟨0, .optional, .param (Names.sanitize u .snake "help".toList)⟩)], .none⟩, ?_, ?_, ?_⟩
  · show Res.ok (Args.mk [(toKebab u "help".toList, _)] _) = _
    rw [hk]
    rfl
  · exact List.nodup_cons.mpr ⟨by simp, by simp⟩
  · rw [C79_names_iff]
    rintro ⟨-, hx⟩
    exact hx _ (List.mem_singleton.mpr rfl) rfl

/-! ## Running commands -/

/-- C79: without an override, the function does what was proved for `execute`. -/
theorem C79_default (cfg : Config) (hooks : Hooks) (w : World) (decode : TypeId → Bytes → Except P V)
    {set : Str → Arg → B → B} {tt : TypeTable B} {params : List Param} (hs : structOk tt params false = true) (c : Code)
    (m : Args × Resp.Kind × Resp.Kind) (hist : List Event) (l : Line) :
    executeWith noOverride cfg hooks w decode ct tt set params c m hist l =
      execute cfg hooks w decode ct tt set params c m hist l := by
  unfold executeWith execute callBuilder
  rw [hs, Bool.and_true]
  simp only [noOverride, if_true]
  cases cliCompiles ct tt params m.1 with
  | false => rfl
  | true =>
    simp only [if_true]
    cases lineCalls set m.1 l with
    | none => rfl
    | some calls =>
      simp only
      cases setAll tt (new tt params) calls with
      | none => rfl
      | some s => rfl

/-- C79: the override gets the request made of the command line.  If it fails, so does the command, without a report and without
sending anything; otherwise, what is sent is the request as the override leaves it. -/
theorem C79_override (cfg : Config) (hooks : Hooks) (w : World) (decode : TypeId → Bytes → Except P V)
    {set : Str → Arg → B → B} {tt : TypeTable B} {params : List Param} {args : Args} {l : Line}
    (hn : Named u params) (h : cliArgs u ct none params = .ok args) (hj : l.json ≠ some none)
    (hs : structOk tt params false = true) (hc : cliCompiles ct tt params args = true) (c : Code) (ks : Resp.Kind × Resp.Kind)
    (hist : List Event) :
    ∃ calls s, lineCalls set args l = some calls ∧ setAll tt (new tt params) calls = some s ∧ ∀ over : Override B,
      (over l s = none → executeWith over cfg hooks w decode ct tt set params c (args, ks) hist l = (.done [] true, hist)) ∧
      (∀ s' o h', over l s = some s' → send cfg hooks w decode tt c hist s' = (.returned o, h') →
        executeWith over cfg hooks w decode ct tt set params c (args, ks) hist l = (output ks.1 ks.2 o, h')) := by
  have hl : ∃ calls, lineCalls set args l = some calls := by
    unfold lineCalls
    rcases hx : l.json with _ | _ | a
    · cases args.body <;> exact ⟨_, rfl⟩
    · exact absurd hx hj
    · cases args.body <;> exact ⟨_, rfl⟩
  obtain ⟨calls, hl⟩ := hl
  obtain ⟨s, hs'⟩ := (calls_compile tt params calls (structOk_nodup hs)).mpr (calls_ok hn h hl hc)
  refine ⟨calls, s, hl, hs', fun over => ⟨fun ho => ?_, fun s' o h' ho hsend => ?_⟩⟩
  · unfold executeWith
    simp only [hs, hc, Bool.and_true, if_true, hl, hs', ho]
  · unfold executeWith
    simp only [hs, hc, Bool.and_true, if_true, hl, hs', ho, hsend]

/-- C79: a command line that is not accepted has no effect: nothing is sent. -/
theorem C79_silent (ps : Parsers) (over : Override B) (cfg : Config) (hooks : Hooks) (w : World)
    (decode : TypeId → Bytes → Except P V) (tt : TypeTable B) (set : Str → Arg → B → B) (params : List Param) (c : Code)
    (m : Args × Resp.Kind × Resp.Kind) (hist : List Event) (ws : List Str)
    (hno : ∀ line, matchesOf ps m.1 (Cli.bodyType params) ws ≠ .ok line) :
    (runWords ps over cfg hooks w decode ct tt set params c m hist ws).2 = hist ∧
      ∀ o, (runWords ps over cfg hooks w decode ct tt set params c m hist ws).1 ≠ .ok o := by
  unfold runWords
  cases hm : matchesOf ps m.1 (Cli.bodyType params) ws with
  | ok line => exact absurd hm (hno line)
  | rejected => exact ⟨rfl, by simp⟩
  | panicked => exact ⟨rfl, by simp⟩

/-- C79: the argument of a parameter is what is read from the text given with its flag; nothing, if it is not given. -/
theorem C79_argument {ps : Parsers} {params : List Param} {args : Args} (h : cliArgs u ct pg params = .ok args)
    {body : Option TypeId} {l : List (Str × Option Str)} {line : Line} (hl : LineFor ps args body l line) {p : Param} (hp : p ∈ params)
    (hf : Flagged pg p) {v : Value} (hv : LineValue u line p v) :
    (∃ t s a, p.typ = .type t ∧ (toKebab u p.name, some s) ∈ l ∧ Parses ps t s a ∧ (v = .plain a ∨ v = .opt (some a))) ∨
    (v = .opt none ∧ Optional p ∧ ∀ s a, (toKebab u p.name, some s) ∈ l → ¬ FlagGiven ps args (toKebab u p.name) s a) := by
  obtain ⟨_, -, -, hs, -⟩ := cliArgs_ok h
  obtain ⟨e, he, hfe⟩ := flag_of h hp hf
  have given : ∀ a, line.get (toKebab u p.name) = some a →
      ∃ t s, p.typ = .type t ∧ (toKebab u p.name, some s) ∈ l ∧ Parses ps t s a := by
    intro a ha
    obtain ⟨s, h1, f, hfm, h2⟩ := (hl.value _ a).mp ha
    have e1 := BTree.get_of_mem hs hfm
    rw [← hfe.name, BTree.get_of_mem hs (show (e.1, e.2) ∈ args.flags from he)] at e1
    rw [← Option.some.inj e1] at h2
    exact ⟨e.2.type, s, hfe.type, h1, h2⟩
  rcases hv with ⟨ho, rfl⟩ | ⟨_, a, ha, rfl⟩
  · cases hg : line.get (toKebab u p.name) with
    | none =>
      refine .inr ⟨rfl, ho, fun s a h1 h2 => ?_⟩
      rw [(hl.value _ a).mpr ⟨s, h1, h2⟩] at hg
      cases hg
    | some a =>
      obtain ⟨t, s, h1, h2, h3⟩ := given a hg
      exact .inl ⟨t, s, a, h1, h2, h3, .inr rfl⟩
  · obtain ⟨t, s, h1, h2, h3⟩ := given a ha
    exact .inl ⟨t, s, a, h1, h2, h3, .inl rfl⟩

/-- C79, guarded: a command given as text is a call of the service.  The server that answers by `serve` from what it reads for the
parameters reads the values of the command line, and its answer is reported. -/
theorem C79_remote_partial {san types path method d pr c} (hp : processOperation san types path method d = .ok pr)
    (hc : methodSigBody pr.op = .ok c) (hws : d.websocket = false)
    {segs : List Seg} (hpath : path = segsText segs) (hl : SegsOk segs) (hne : segs ≠ [])
    (hdp : NoDuplicates d.pathLevel) (hdo : NoDuplicates d.opLevel) (hun : NamesUnambiguous (d.pathLevel ++ d.opLevel))
    (hh : HeadersApart d.pathLevel d.opLevel)
    {cfg : Config} {auth : Str} {base : List Str} (hbase : BaseUrl cfg auth base)
    (hooks : Hooks) (w : World) (decode : TypeId → Bytes → Except P V) (hist : List Event) (hlook : LooksOn hooks w)
    (keys : Str → List Str) (serve : (DocParam → List (Bytes × Bytes)) → HttpResponse)
    (hserve : ∀ hist r, r.method.print = method → Routed segs (tailSegments auth base r) →
      w.server hist r = .ok (serve fun p => reads keys auth base segs r p))
    (hdoc : ∀ f, ∃ x, Documented d (serve f).status x)
    (hstat : ∀ f, (200 ≤ (serve f).status ∧ (serve f).status < 300) ∨ (400 ≤ (serve f).status ∧ (serve f).status < 600))
    {set : Str → Arg → B → B} {tt : TypeTable B} {args : Args} {s e : Resp.Kind}
    (hn : Named u pr.op.params) (hm : cliMethod u ct none pr.op = .ok (args, s, e))
    (hst : structOk tt pr.op.params false = true) (hcc : cliCompiles ct tt pr.op.params args = true)
    (hlaw : ∀ p ∈ pr.op.params, ∀ tb, HasBuilder tt p tb → ∀ a, tb.finish (tb.ofValue a) = .ok a)
    (hsk : (∃ t, s = .type t) ∨ s = .none) (hek : (∃ t, e = .type t) ∨ e = .none)
    {ps : Parsers} {ws : List Str} {line : Line} (hmatch : matchesOf ps args (Cli.bodyType pr.op.params) ws = .ok line)
    (hj : line.json ≠ some none) {vs : List Value} (hv : Forall₂ (LineArg u tt set none args line) pr.op.params vs)
    {r : Request} (hr : Issues cfg pr.op vs r) (hrec : Recoverable keys segs pr.op.params vs) :
    ∃ f x k out rep failed hist', (∀ p, Effective d.pathLevel d.opLevel p → ∃ a v, (a, v) ∈ pr.op.params.zip vs ∧ Describes p a ∧
        Expected segs p v (f p)) ∧
      Documented d (serve f).status x ∧ Carries false x k ∧ Delivered decode (serve f) k out ∧
      runWords ps noOverride cfg hooks w decode ct tt set pr.op.params c (args, s, e) hist ws = (.ok (.done [rep] failed), hist') ∧
      Reported out s rep ∧ (failed = true ↔ ∃ y, out = .error y) := by
  obtain ⟨args', ha, hm'⟩ := bind_ok_inv hm
  obtain ⟨ks, hks, hm'⟩ := bind_ok_inv hm'
  have e1 : args' = args := (Prod.mk.inj (Res.ok.inj hm')).1
  subst e1
  obtain ⟨l, -, -, hlf, hcomp⟩ := (C79_words_iff ha ps _ ws line).mp hmatch
  have hacc := (accepts_iff (lineFor_none hlf)).mpr hcomp
  obtain ⟨f, x, k, out, h1, h2, h3, h4, h5⟩ := C72_remote_partial hp hc hws hpath hl hne hdp hdo hun hh hbase hr hrec hooks w decode hist
    hlook serve hserve hdoc hstat
  obtain ⟨rep, failed, h6, h7, h8⟩ := C68_execute_partial cfg hooks w decode hn ha hacc hj hst hcc hlaw hv c s e hist
    (o := out) (hist' := (call cfg hooks w decode pr.op.params c hist vs).2) (by rw [← h5]) hsk hek
  refine ⟨f, x, k, out, rep, failed, (call cfg hooks w decode pr.op.params c hist vs).2, h1, h2, h3, h4, ?_, h7, h8⟩
  unfold runWords
  simp only [hmatch]
  rw [C79_default cfg hooks w decode hst, h6]

/-! ## Examples -/

/-- Types: 0 text, 3 an enum with the variants `on` and `off`. -/
def exParsers : Parsers where
  simple := fun t => if t = 3 then some ["on".toList, "off".toList] else none
  tryFrom := fun _ s => if s = "on".toList ∨ s = "off".toList then some ⟨s, .str s⟩ else none
  value := fun _ s => some ⟨s, .str s⟩
  files := fun p => if p = "f.json".toList then some "{}".toList else none
  fromJson := fun _ s => if s = "{}".toList then some (txt "{}") else none

theorem exParsers_enums : EnumsRead exParsers := by
  intro t names ht s hs
  simp only [exParsers] at ht
  split at ht
  · cases ht
    exact ⟨⟨s, .str s⟩, by simp only [exParsers]; rw [if_pos (by simpa using hs)]⟩
  · cases ht

def lineText : Clap Line → Option (List (Option Str) × Option (Option Str))
  | .ok l => some (["id", "q", "x", "note"].map (fun n => (l.get n.toList).map Arg.display), l.json.map (Option.map Arg.display))
  | _ => none

def exRun (ws : List String) : Option (List (Option Str) × Option (Option Str)) :=
  lineText (matchesOf exParsers exArgs (some 1) (ws.map String.toList))

/- The command of `bodyOp`. -/
example : exRun ["--id", "i", "--x=7"] = some ([some "i".toList, none, some "7".toList, none], none) := by decide +kernel
example : exRun ["--x", "7", "--id=i"] = exRun ["--id", "i", "--x=7"] := by decide +kernel
example : exRun ["--id", "i", "--json-body", "f.json", "--json-body-template"] =
    some ([some "i".toList, none, none, none], some (some "{}".toList)) := by decide +kernel
example : exRun ["--id", "i", "--json-body", "g.json"] = some ([some "i".toList, none, none, none], some none) := by decide +kernel
example : exRun ["--id", "i"] = none ∧ exRun ["--id", "i", "--id", "i", "--x=7"] = none ∧ exRun ["--id", "-1", "--x=7"] = none ∧
    exRun ["i", "--x=7"] = none ∧ exRun ["--no", "i"] = none ∧ exRun ["--help"] = none ∧ exRun ["--id"] = none := by decide +kernel
example : exRun ["--id=-1", "--x=a=b", "--"] = some ([some "-1".toList, none, some "a=b".toList, none], none) := by decide +kernel

example : Writes [("id".toList, some "i".toList), ("x".toList, some "7".toList)] ["--id".toList, "i".toList, "--x=7".toList] :=
  .apart "id".toList "i".toList (by decide) (by decide) (.inr fun s h => absurd (List.cons.inj h).1 (by decide))
    (.attached "x".toList "7".toList (by decide) .nil)

example : Admissible exParsers exArgs [("id".toList, some "i".toList), ("x".toList, some "7".toList)] where
  once := by decide
  meant := by
    intro x hx
    simp only [List.mem_cons, List.not_mem_nil, or_false] at hx
    rcases hx with rfl | rfl
    · exact .inl ⟨_, _, List.mem_cons_self, .inr ⟨rfl, rfl⟩⟩
    · exact .inl ⟨_, _, List.mem_cons_of_mem _ (List.mem_cons_of_mem _ (List.mem_cons_of_mem _ List.mem_cons_self)), .inr ⟨rfl, rfl⟩⟩

example : FileArg exArgs "json-body-template".toList "json-body-template".toList := by
  refine ⟨rfl, by decide, not_flag.mp (by decide)⟩

/-- The operation `wireOp` as it is in a generated command line interface. -/
def cliWireOp : OperationMethod := { wireOp with
  params := [⟨"id".toList, "id".toList, .type 0, .path⟩, ⟨"q".toList, "q".toList, .type 1, .query true⟩,
    ⟨"x_tok".toList, "X-Tok".toList, .type 2, .header false⟩] }

theorem cliWireProcessed : processOperation (Names.sanitize exUnicode .snake) typesNone (segsText wirePath) "get".toList wireDoc =
    .ok ⟨cliWireOp, none⟩ := rfl

def cliWireTypes : CliTypes := ⟨fun _ => none, fun _ => none, fun _ => true, fun _ => true, fun _ => none⟩

def cliWireArgs : Args where
  flags := [("id".toList, ⟨0, .required, .param "id".toList⟩), ("q".toList, ⟨1, .required, .param "q".toList⟩),
    ("x-tok".toList, ⟨2, .optional, .param "x_tok".toList⟩)]
  body := .none

theorem cliWireMethod : cliMethod exUnicode cliWireTypes none cliWireOp = .ok (cliWireArgs, .none, .none) := by decide +kernel

def cliWireWords : List Str := ["--x-tok".toList, "t".toList, "--q=a&b".toList, "--id".toList, "x".toList]

def cliWireGiven : List (Str × Cli.Given) :=
  [("x-tok".toList, .value (txt "t")), ("q".toList, .value (txt "a&b")), ("id".toList, .value (txt "x"))]

theorem cliWireMatches : matchesOf exParsers cliWireArgs (Cli.bodyType cliWireOp.params) cliWireWords =
    .ok (lineOf exParsers (Cli.bodyType cliWireOp.params) cliWireGiven) := by
  have h : readWords exParsers cliWireArgs [] cliWireWords = .ok cliWireGiven := by
    refine (readWords_iff _ _ _ _).mpr ⟨[("x-tok".toList, some "t".toList), ("q".toList, some "a&b".toList),
      ("id".toList, some "x".toList)], ?_, ?_, by decide⟩
    · exact .apart "x-tok".toList "t".toList (by decide) (by decide) (.inr fun s h => absurd (List.cons.inj h).1 (by decide))
        (.attached "q".toList "a&b".toList (by decide) (.apart "id".toList "x".toList (by decide) (by decide)
          (.inr fun s h => absurd (List.cons.inj h).1 (by decide)) .nil))
    · exact .cons ⟨rfl, .typed 2, by decide +kernel, by decide, rfl⟩ (.cons ⟨rfl, .typed 1, by decide +kernel, by decide, rfl⟩
        (.cons ⟨rfl, .typed 0, by decide +kernel, by decide, rfl⟩ .nil))
  unfold matchesOf
  rw [h]
  simp only [Clap.bind]
  rw [if_pos (by decide +kernel)]

example {c} (hc : methodSigBody cliWireOp = .ok c) (hist : List Event) (decode : TypeId → Bytes → Except Unit Nat) :
    ∃ f x k out rep failed hist', (∀ p, Effective wireDoc.pathLevel wireDoc.opLevel p →
        ∃ a v, (a, v) ∈ cliWireOp.params.zip (wireArgs "x") ∧ Describes p a ∧ Expected wirePath p v (f p)) ∧
      Documented wireDoc (echo f).status x ∧ Carries false x k ∧ Delivered decode (echo f) k out ∧
      runWords exParsers noOverride exCfg ⟨true, true, false, true⟩
        ⟨fun _ r => .ok r, fun _ r => .ok (echo fun p => reads ownKey "http://h".toList [] wirePath r p), fun _ _ => .ok ()⟩ decode
        cliWireTypes (⟨fun _ => none, fun _ => []⟩ : TypeTable Unit) (fun _ _ b => b) cliWireOp.params c
        (cliWireArgs, .none, .none) hist cliWireWords = (.ok (.done [rep] failed), hist') ∧
      Reported out .none rep ∧ (failed = true ↔ ∃ y, out = .error y) := by
  refine C79_remote_partial (u := exUnicode) cliWireProcessed hc rfl rfl wireReady.segs wireReady.nonempty wireReady.pathLevel
    wireReady.opLevel wireReady.names wireReady.headers wireBase _ _ decode hist ⟨fun _ _ _ => rfl, fun _ _ _ => rfl⟩ ownKey echo
    (fun _ _ _ _ => rfl) (fun f => ⟨[], .listed (.code 200, []) (by simp [wireDoc, plainDoc]) rfl⟩)
    (fun _ => .inl ⟨Nat.le_refl 200, by simp [echo]⟩) ?_ cliWireMethod (by decide +kernel) (by decide +kernel) ?_ (.inr rfl) (.inr rfl)
    cliWireMatches (by intro h; cases h) (vs := wireArgs "x") ?_ (r := wireReq "x") ⟨_, _, rfl, rfl, rfl⟩ ?_
  · refine ⟨by decide, by decide +kernel, ?_⟩
    intro p hp ⟨c, hc⟩
    simp only [cliWireOp, List.mem_cons, List.not_mem_nil, or_false] at hp
    rcases hp with rfl | rfl | rfl <;> cases hc
  · rintro p hp tb ⟨t, ct, h1, h2, h3⟩
    cases h3
  · exact .cons (.inl ⟨⟨by simp, by simp⟩, .inr ⟨by simp [Optional], txt "x", by rfl, rfl⟩⟩)
      (.cons (.inl ⟨⟨by simp, by simp⟩, .inr ⟨by simp [Optional], txt "a&b", by rfl, rfl⟩⟩)
      (.cons (.inl ⟨⟨by simp, by simp⟩, .inl ⟨.inr rfl, by rfl⟩⟩) .nil))
  · refine ⟨fun p v hpv hk t ht pre post hmem => ?_, fun p v hpv k hk => ?_, fun p _ q _ _ _ _ _ hne x hx hx' => ?_⟩
    · simp only [wirePath, List.mem_cons, reduceCtorEq, Seg.par.injEq, List.not_mem_nil, or_false, false_or] at hmem
      obtain ⟨_, rfl, rfl⟩ := hmem
      simp only [List.nil_append, List.append_nil]
      simp only [cliWireOp, wireArgs, List.zip_cons_cons, List.zip_nil_right, List.mem_cons, List.not_mem_nil, or_false,
        Prod.mk.injEq] at hpv
      rcases hpv with ⟨rfl, rfl⟩ | ⟨rfl, rfl⟩ | ⟨rfl, rfl⟩
      · simp only [argText, txt, Option.some.injEq] at ht
        rw [← ht]; decide
      · cases hk
      · cases hk
    · simp only [cliWireOp, wireArgs, List.zip_cons_cons, List.zip_nil_right, List.mem_cons, List.not_mem_nil, or_false,
        Prod.mk.injEq] at hpv
      rcases hpv with ⟨rfl, rfl⟩ | ⟨rfl, rfl⟩ | ⟨rfl, rfl⟩
      · cases hk
      · exact ⟨_, _, rfl, .item _ _ (.scalar _ _ (.str _)), by simp [ownKey]⟩
      · cases hk
    · simp only [ownKey, List.mem_singleton] at hx hx'
      exact hne (hx.symm.trans hx')

/- A variant that `try_from` does not read. -/
example :=
  C79_enum_fails { exParsers with tryFrom := fun _ _ => none } ⟨[("x".toList, ⟨3, .optional, .param "x".toList⟩)], .none⟩ none
    (n := "x".toList) (by decide) rfl rfl (s := "on".toList) (by decide) rfl []

end Progenitor.Props

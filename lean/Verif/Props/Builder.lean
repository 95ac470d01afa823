import Verif.Spec.Builder
import Verif.Props.Compile
import Verif.Props.Exec

/-!
# The builder interface: C29, C30, C31, C62
-/

namespace Progenitor.Props

open Progenitor Progenitor.Params Progenitor.Client Progenitor.Exec Progenitor.Builder
open Progenitor.Spec (Issues Forall₂ inputsFor Nested HasBuilder Ordinary Optional Outcome CallOk)

variable {B P V : Type}

/-! ## One field -/

/-- The inputs of one parameter applied to its field. -/
def foldField (tt : TypeTable B) (p : Param) : Field B → List (Input B) → Option (Field B)
  | f, [] => some f
  | f, i :: is => match setField tt p f i with
    | none => none
    | some f' => foldField tt p f' is

theorem foldField_append (tt : TypeTable B) (p : Param) (f : Field B) (xs ys : List (Input B)) :
    foldField tt p f (xs ++ ys) = (foldField tt p f xs).bind fun f' => foldField tt p f' ys := by
  induction xs generalizing f with
  | nil => rfl
  | cons i is ih =>
    simp only [List.cons_append, foldField]
    cases setField tt p f i with
    | none => rfl
    | some f' => exact ih f'

/-- What a field knows. -/
def Good (tt : TypeTable B) (p : Param) (ins : List (Input B)) : Field B → Prop
  | .req v => (∃ ty, Ordinary tt p ty) ∧ ¬ Optional p ∧ Outcome tt p ins (v.map .plain)
  | .opt v => (∃ ty, Ordinary tt p ty) ∧ Optional p ∧ Outcome tt p ins (v.map .opt)
  | .raw v => p.typ = .rawBody ∧ Outcome tt p ins (v.map .raw)
  | .nested v => ∃ t tb, p.typ = .type t ∧ HasBuilder tt p tb ∧
      Nested tb (fun e => Spec.failedText (tt.name t) p.name ++ ": ".toList ++ e) ins v

theorem optional_iff (p : Param) : Optional p ↔ isRequired p.kind = false := by
  unfold Optional isRequired
  cases p.kind <;> simp

theorem isBody_iff (k : Kind) : isBody k = true ↔ ∃ ct, k = .body ct := by
  cases k <;> simp [isBody]

theorem builder_of {tt : TypeTable B} {p : Param} {tb : TypeBuilder B} (h : HasBuilder tt p tb)
    {t : TypeId} (ht : p.typ = .type t) : tt.builder t = some tb := by
  obtain ⟨t', ct, h1, _, h2⟩ := h
  rw [h1] at ht
  cases ht
  exact h2

theorem init_good (tt : TypeTable B) (p : Param) : Good tt p [] (initField tt p) := by
  unfold initField
  cases ht : p.typ with
  | rawBody =>
    exact ⟨ht, .missingRaw ht⟩
  | type t =>
    simp only
    have ord : (∀ tb, ¬ HasBuilder tt p tb) →
        Good tt p [] (if isRequired p.kind then .req (.error (notInitialized p.name)) else .opt (.ok none)) := by
      intro hn
      have ho : Ordinary tt p (tt.name t) := ⟨t, ht, rfl, hn⟩
      by_cases hr : isRequired p.kind = true
      · rw [if_pos hr]
        have hno : ¬ Optional p := by rw [optional_iff]; simp [hr]
        exact ⟨⟨_, ho⟩, hno, .missing _ ho hno⟩
      · rw [if_neg hr]
        have hop : Optional p := by rw [optional_iff]; simpa using hr
        exact ⟨⟨_, ho⟩, hop, .absent _ ho hop⟩
    cases hb : isBody p.kind with
    | false =>
      simp only
      refine ord ?_
      rintro tb ⟨_, ct, _, hk, _⟩
      rw [hk] at hb
      simp [isBody] at hb
    | true =>
      cases htb : tt.builder t with
      | none =>
        simp only
        refine ord ?_
        rintro tb h
        rw [builder_of h ht] at htb
        cases htb
      | some tb =>
        simp only
        obtain ⟨ct, hk⟩ := (isBody_iff _).mp hb
        exact ⟨t, tb, ht, ⟨t, ct, ht, hk, htb⟩, .start⟩

theorem setField_good (tt : TypeTable B) (p : Param) (ins : List (Input B)) (f f' : Field B) (i : Input B)
    (hg : Good tt p ins f) (hs : setField tt p f i = some f') : Good tt p (ins ++ [i]) f' := by
  cases f with
  | req v =>
    cases i with
    | value conv =>
      obtain ⟨⟨ty, ho⟩, hno, _⟩ := hg
      obtain ⟨t, ht, hty, hn⟩ := ho
      simp only [setField, ht] at hs
      cases hs
      have ho : Ordinary tt p (tt.name t) := ⟨t, ht, rfl, hn⟩
      refine ⟨⟨_, ho⟩, hno, ?_⟩
      cases conv with
      | ok a => exact .given _ _ a ho hno
      | error e => exact .failed _ _ e ho
    | raw _ => cases hs
    | map _ => cases hs
  | opt v =>
    cases i with
    | value conv =>
      obtain ⟨⟨ty, ho⟩, hop, _⟩ := hg
      obtain ⟨t, ht, hty, hn⟩ := ho
      simp only [setField, ht] at hs
      cases hs
      have ho : Ordinary tt p (tt.name t) := ⟨t, ht, rfl, hn⟩
      refine ⟨⟨_, ho⟩, hop, ?_⟩
      cases conv with
      | ok a => exact .givenOptional _ _ a ho hop
      | error e => exact .failed _ _ e ho
    | raw _ => cases hs
    | map _ => cases hs
  | raw v =>
    cases i with
    | raw conv =>
      obtain ⟨ht, _⟩ := hg
      simp only [setField] at hs
      cases hs
      refine ⟨ht, ?_⟩
      cases conv with
      | ok b => exact .givenRaw _ b ht
      | error e =>
        by_cases hk : ∃ m, p.kind = .body (.text m)
        · obtain ⟨m, hk⟩ := hk
          have : rawTypeName p.kind = "String".toList := by rw [hk]; rfl
          simp only [this, Except.mapError, Except.map]
          exact .failedText _ e m ht hk
        · have : rawTypeName p.kind = "reqwest::Body".toList := by
            unfold rawTypeName
            split
            · rename_i m hm
              exact absurd ⟨m, hm⟩ hk
            · rfl
          simp only [this, Except.mapError, Except.map]
          exact .failedRaw _ e ht fun m hm => hk ⟨m, hm⟩
    | value _ => cases hs
    | map _ => cases hs
  | nested v =>
    obtain ⟨t, tb, ht, hb, hn⟩ := hg
    cases i with
    | value conv =>
      simp only [setField, ht, builder_of hb ht] at hs
      cases hs
      refine ⟨t, tb, ht, hb, ?_⟩
      cases conv with
      | ok a => exact .body _ a
      | error e => exact .failed _ e
    | map f =>
      simp only [setField] at hs
      cases hs
      refine ⟨t, tb, ht, hb, ?_⟩
      cases v with
      | ok b => exact .mapped _ f b hn
      | error m => exact .mappedError _ f m hn
    | raw _ => cases hs

theorem foldField_good (tt : TypeTable B) (p : Param) : ∀ (ins pre : List (Input B)) (f f' : Field B),
    Good tt p pre f → foldField tt p f ins = some f' → Good tt p (pre ++ ins) f'
  | [], pre, f, f', hg, h => by cases h; simpa using hg
  | i :: is, pre, f, f', hg, h => by
    simp only [foldField] at h
    cases hs : setField tt p f i with
    | none => rw [hs] at h; cases h
    | some g =>
      rw [hs] at h
      have := foldField_good tt p is (pre ++ [i]) g f' (setField_good tt p pre f g i hg hs) h
      simpa using this

theorem finalize_good (tt : TypeTable B) (p : Param) (ins : List (Input B)) (f : Field B)
    (hg : Good tt p ins f) : Outcome tt p ins (finalize tt p f) := by
  cases f with
  | req v => exact hg.2.2
  | opt v => exact hg.2.2
  | raw v => exact hg.2
  | nested v =>
    obtain ⟨t, tb, ht, hb, hn⟩ := hg
    simp only [finalize, ht, builder_of hb ht]
    cases v with
    | ok b =>
      cases hf : tb.finish b with
      | ok a => simpa [hf, Except.map] using Outcome.built t tb ins b a ht hb hn hf
      | error e => simpa [hf, Except.map] using Outcome.incomplete t tb ins b e ht hb hn hf
    | error m => exact .failedNested t tb ins m ht hb hn

/-- A list ends in one way only. -/
theorem snoc_inj {α} {xs ys : List α} {x y : α} (h : xs ++ [x] = ys ++ [y]) : xs = ys ∧ x = y := by
  have := List.append_inj' h rfl
  exact ⟨this.1, by simpa using this.2⟩

theorem builder_unique {tt : TypeTable B} {p : Param} {tb tb' : TypeBuilder B} (h : HasBuilder tt p tb)
    (h' : HasBuilder tt p tb') : tb = tb' := by
  obtain ⟨t, _, h1, _, h2⟩ := h
  have := builder_of h' h1
  rw [h2] at this
  exact Option.some.inj this

theorem nested_unique {tb : TypeBuilder B} {err : Str → Str} {ins ins' : List (Input B)} {v v' : Except Str B}
    (h : Nested tb err ins v) (h' : Nested tb err ins' v') (he : ins = ins') : v = v' := by
  induction h generalizing ins' v' with
  | start => cases h' <;> simp at he ⊢
  | body pre a => cases h' <;> simp at he ⊢ <;> simp [he.2]
  | failed pre e => cases h' <;> simp at he ⊢ <;> simp [he.2]
  | mapped pre f b _ ih =>
    cases h' with
    | start => simp at he
    | body => simp at he
    | failed => simp at he
    | mapped pre' f' b' hn' =>
      obtain ⟨h1, h2⟩ := snoc_inj he
      cases h2
      cases ih hn' h1
      rfl
    | mappedError pre' f' m' hn' =>
      obtain ⟨h1, h2⟩ := snoc_inj he
      cases ih hn' h1
  | mappedError pre f m _ ih =>
    cases h' with
    | start => simp at he
    | body => simp at he
    | failed => simp at he
    | mapped pre' f' b' hn' =>
      obtain ⟨h1, h2⟩ := snoc_inj he
      cases ih hn' h1
    | mappedError pre' f' m' hn' =>
      obtain ⟨h1, h2⟩ := snoc_inj he
      cases ih hn' h1
      rfl

theorem outcome_unique {tt : TypeTable B} {p : Param} {ins ins' : List (Input B)} {o o' : Except Str Value}
    (h : Outcome tt p ins o) (h' : Outcome tt p ins' o') (he : ins = ins') : o = o' := by
  have ordraw : ∀ ty, Ordinary tt p ty → p.typ ≠ .rawBody := by
    rintro ty ⟨t, h, _⟩ h'
    rw [h] at h'
    cases h'
  have ordeq : ∀ ty ty', Ordinary tt p ty → Ordinary tt p ty' → ty = ty' := by
    rintro ty ty' ⟨t, h1, h2, _⟩ ⟨t', h1', h2', _⟩
    rw [h1] at h1'
    cases h1'
    rw [← h2, ← h2']
  have ordnest : ∀ ty tb, Ordinary tt p ty → ¬ HasBuilder tt p tb := by
    rintro ty tb ⟨t, _, _, h⟩
    exact h tb
  have nestraw : ∀ tb, HasBuilder tt p tb → p.typ ≠ .rawBody := by
    rintro tb ⟨t, _, h, _⟩ h'
    rw [h] at h'
    cases h'
  have nest : ∀ {t t' tb tb' b b'}, p.typ = .type t → p.typ = .type t' → HasBuilder tt p tb → HasBuilder tt p tb' →
      Nested tb (fun e => Spec.failedText (tt.name t) p.name ++ ": ".toList ++ e) ins b →
      Nested tb' (fun e => Spec.failedText (tt.name t') p.name ++ ": ".toList ++ e) ins' b' →
      tb = tb' ∧ b = b' := by
    intro t t' tb tb' b b' h1 h1' h2 h2' h3 h3'
    rw [h1] at h1'
    cases h1'
    cases builder_unique h2 h2'
    exact ⟨rfl, nested_unique h3 h3' he⟩
  cases h with
  | missing ty h1 h2 =>
    cases h' <;> first
      | rfl
      | exact absurd ‹HasBuilder tt p _› (ordnest _ _ h1)
      | exact absurd ‹p.typ = .rawBody› (ordraw _ h1)
      | exact absurd ‹Optional p› ‹¬ Optional p›
      | (simp at he; done)
      | (simp at he; simp [he.2]; done)
  | missingRaw h1 =>
    cases h' <;> first
      | rfl
      | exact absurd h1 (nestraw _ ‹HasBuilder tt p _›)
      | exact absurd h1 (ordraw _ ‹Ordinary tt p _›)
      | (simp at he; done)
      | (simp at he; simp [he.2]; done)
      | (rename_i hk; exact absurd h2 (hk _))
      | exact absurd ‹p.kind = _› (h2 _)
  | absent ty h1 h2 =>
    cases h' <;> first
      | rfl
      | exact absurd ‹HasBuilder tt p _› (ordnest _ _ h1)
      | exact absurd ‹p.typ = .rawBody› (ordraw _ h1)
      | exact absurd ‹Optional p› ‹¬ Optional p›
      | (simp at he; done)
      | (simp at he; simp [he.2]; done)
  | given ty pre a h1 h2 =>
    cases h' <;> first
      | rfl
      | exact absurd ‹HasBuilder tt p _› (ordnest _ _ h1)
      | exact absurd ‹p.typ = .rawBody› (ordraw _ h1)
      | exact absurd ‹Optional p› ‹¬ Optional p›
      | (simp at he; done)
      | (simp at he; simp [he.2]; done)
  | givenOptional ty pre a h1 h2 =>
    cases h' <;> first
      | rfl
      | exact absurd ‹HasBuilder tt p _› (ordnest _ _ h1)
      | exact absurd ‹p.typ = .rawBody› (ordraw _ h1)
      | exact absurd ‹Optional p› ‹¬ Optional p›
      | (simp at he; done)
      | (simp at he; simp [he.2]; done)
  | failed ty pre e h1 =>
    cases h' with
    | failed ty' pre' e' h1' => rw [ordeq _ _ h1 h1']
    | missing | absent => simp at he
    | given | givenOptional => simp at he
    | missingRaw h | givenRaw _ _ h | failedText _ _ _ h | failedRaw _ _ h => exact absurd h (ordraw _ h1)
    | built _ _ _ _ _ _ h | incomplete _ _ _ _ _ _ h | failedNested _ _ _ _ _ h => exact absurd h (ordnest _ _ h1)
  | givenRaw pre b h1 =>
    cases h' <;> first
      | rfl
      | exact absurd h1 (nestraw _ ‹HasBuilder tt p _›)
      | exact absurd h1 (ordraw _ ‹Ordinary tt p _›)
      | (simp at he; done)
      | (simp at he; simp [he.2]; done)
      | (rename_i hk; exact absurd h2 (hk _))
      | exact absurd ‹p.kind = _› (h2 _)
  | failedText pre e m h1 h2 =>
    cases h' <;> first
      | rfl
      | exact absurd h1 (nestraw _ ‹HasBuilder tt p _›)
      | exact absurd h1 (ordraw _ ‹Ordinary tt p _›)
      | (simp at he; done)
      | (simp at he; simp [he.2]; done)
      | (rename_i hk; exact absurd h2 (hk _))
      | exact absurd ‹p.kind = _› (h2 _)
  | failedRaw pre e h1 h2 =>
    cases h' <;> first
      | rfl
      | exact absurd h1 (nestraw _ ‹HasBuilder tt p _›)
      | exact absurd h1 (ordraw _ ‹Ordinary tt p _›)
      | (simp at he; done)
      | (simp at he; simp [he.2]; done)
      | (rename_i hk; exact absurd h2 (hk _))
      | exact absurd ‹p.kind = _› (h2 _)
  | built t tb _ b a h1 h2 h3 h4 =>
    cases h' with
    | built t' tb' _ b' a' h1' h2' h3' h4' =>
      obtain ⟨e1, e2⟩ := nest h1 h1' h2 h2' h3 h3'
      cases e1; cases e2
      rw [h4] at h4'; cases h4'; rfl
    | incomplete t' tb' _ b' a' h1' h2' h3' h4' =>
      obtain ⟨e1, e2⟩ := nest h1 h1' h2 h2' h3 h3'
      cases e1; cases e2
      rw [h4] at h4'; cases h4'
    | failedNested t' tb' _ m' h1' h2' h3' =>
      obtain ⟨e1, e2⟩ := nest h1 h1' h2 h2' h3 h3'
      cases e2
    | missing ty h => exact absurd h2 (ordnest _ _ h)
    | absent ty h => exact absurd h2 (ordnest _ _ h)
    | given ty _ _ h => exact absurd h2 (ordnest _ _ h)
    | givenOptional ty _ _ h => exact absurd h2 (ordnest _ _ h)
    | failed ty _ _ h => exact absurd h2 (ordnest _ _ h)
    | missingRaw h => exact absurd h (nestraw _ h2)
    | givenRaw _ _ h => exact absurd h (nestraw _ h2)
    | failedText _ _ _ h => exact absurd h (nestraw _ h2)
    | failedRaw _ _ h => exact absurd h (nestraw _ h2)
  | incomplete t tb _ b a h1 h2 h3 h4 =>
    cases h' with
    | built t' tb' _ b' a' h1' h2' h3' h4' =>
      obtain ⟨e1, e2⟩ := nest h1 h1' h2 h2' h3 h3'
      cases e1; cases e2
      rw [h4] at h4'; cases h4'
    | incomplete t' tb' _ b' a' h1' h2' h3' h4' =>
      obtain ⟨e1, e2⟩ := nest h1 h1' h2 h2' h3 h3'
      cases e1; cases e2
      rw [h4] at h4'; cases h4'; rfl
    | failedNested t' tb' _ m' h1' h2' h3' =>
      obtain ⟨e1, e2⟩ := nest h1 h1' h2 h2' h3 h3'
      cases e2
    | missing ty h => exact absurd h2 (ordnest _ _ h)
    | absent ty h => exact absurd h2 (ordnest _ _ h)
    | given ty _ _ h => exact absurd h2 (ordnest _ _ h)
    | givenOptional ty _ _ h => exact absurd h2 (ordnest _ _ h)
    | failed ty _ _ h => exact absurd h2 (ordnest _ _ h)
    | missingRaw h => exact absurd h (nestraw _ h2)
    | givenRaw _ _ h => exact absurd h (nestraw _ h2)
    | failedText _ _ _ h => exact absurd h (nestraw _ h2)
    | failedRaw _ _ h => exact absurd h (nestraw _ h2)
  | failedNested t tb _ m h1 h2 h3 =>
    cases h' with
    | built t' tb' _ b' a' h1' h2' h3' h4' =>
      obtain ⟨e1, e2⟩ := nest h1 h1' h2 h2' h3 h3'
      cases e2
    | incomplete t' tb' _ b' a' h1' h2' h3' h4' =>
      obtain ⟨e1, e2⟩ := nest h1 h1' h2 h2' h3 h3'
      cases e2
    | failedNested t' tb' _ m' h1' h2' h3' =>
      obtain ⟨e1, e2⟩ := nest h1 h1' h2 h2' h3 h3'
      cases e2; rfl
    | missing ty h => exact absurd h2 (ordnest _ _ h)
    | absent ty h => exact absurd h2 (ordnest _ _ h)
    | given ty _ _ h => exact absurd h2 (ordnest _ _ h)
    | givenOptional ty _ _ h => exact absurd h2 (ordnest _ _ h)
    | failed ty _ _ h => exact absurd h2 (ordnest _ _ h)
    | missingRaw h => exact absurd h (nestraw _ h2)
    | givenRaw _ _ h => exact absurd h (nestraw _ h2)
    | failedText _ _ _ h => exact absurd h (nestraw _ h2)
    | failedRaw _ _ h => exact absurd h (nestraw _ h2)

/-! ## All fields -/

theorem setOne_rel (tt : TypeTable B) (c : Call B) : ∀ (s s' : State B), (s.map fun x => x.1.name).Nodup →
    setOne tt c s = some s' → Forall₂ (fun x y => x.1 = y.1 ∧
      (if x.1.name = c.1 then setField tt x.1 x.2 c.2 = some y.2 else y.2 = x.2)) s s'
  | [], s', _, h => by cases h
  | (p, f) :: rest, s', hn, h => by
    simp only [List.map_cons, List.nodup_cons] at hn
    simp only [setOne] at h
    by_cases hp : p.name = c.1
    · rw [if_pos hp] at h
      cases hs : setField tt p f c.2 with
      | none => rw [hs] at h; cases h
      | some f' =>
        rw [hs] at h
        cases h
        refine .cons ⟨rfl, by simp [hp, hs]⟩ ?_
        have : ∀ x ∈ rest, x.1.name ≠ c.1 := by
          intro x hx e
          exact hn.1 (List.mem_map.mpr ⟨x, hx, by rw [e, hp]⟩)
        clear hn
        induction rest with
        | nil => exact .nil
        | cons x xs ih =>
          exact .cons ⟨rfl, by simp [this x (by simp)]⟩ (ih fun y hy => this y (by simp [hy]))
    · rw [if_neg hp] at h
      cases hs : setOne tt c rest with
      | none => rw [hs] at h; cases h
      | some r =>
        rw [hs] at h
        cases h
        exact .cons ⟨rfl, by simp [hp]⟩ (setOne_rel tt c rest r hn.2 hs)

theorem forall₂_comp {α β γ} {R : α → β → Prop} {S : β → γ → Prop} {T : α → γ → Prop}
    (h : ∀ a b c, R a b → S b c → T a c) {xs : List α} {ys : List β} {zs : List γ} (h1 : Forall₂ R xs ys)
    (h2 : Forall₂ S ys zs) : Forall₂ T xs zs := by
  induction h1 generalizing zs with
  | nil => cases h2; exact .nil
  | cons ha _ ih => cases h2 with
    | cons hb h2 => exact .cons (h _ _ _ ha hb) (ih h2)

theorem forall₂_names {s s' : State B} {Q : Param × Field B → Param × Field B → Prop}
    (h : Forall₂ (fun x y => x.1 = y.1 ∧ Q x y) s s') : (s'.map fun x => x.1.name) = s.map fun x => x.1.name := by
  induction h with
  | nil => rfl
  | cons h _ ih => simp [h.1, ih]

theorem setAll_rel (tt : TypeTable B) : ∀ (calls : List (Call B)) (s s' : State B), (s.map fun x => x.1.name).Nodup →
    setAll tt s calls = some s' → Forall₂ (fun x y => x.1 = y.1 ∧
      foldField tt x.1 x.2 (inputsFor calls x.1.name) = some y.2) s s'
  | [], s, s', _, h => by
    cases h
    induction s with
    | nil => exact .nil
    | cons x xs ih =>
      rename_i hn
      simp only [List.map_cons, List.nodup_cons] at hn
      exact .cons ⟨rfl, rfl⟩ (ih hn.2)
  | c :: cs, s, s', hn, h => by
    simp only [setAll] at h
    cases hs : setOne tt c s with
    | none => rw [hs] at h; cases h
    | some s1 =>
      rw [hs] at h
      have h1 := setOne_rel tt c s s1 hn hs
      have hn1 : (s1.map fun x => x.1.name).Nodup := by rw [forall₂_names h1]; exact hn
      have h2 := setAll_rel tt cs s1 s' hn1 h
      refine forall₂_comp ?_ h1 h2
      rintro ⟨p, f⟩ ⟨p1, f1⟩ ⟨p2, f2⟩ ⟨e1, h1⟩ ⟨e2, h2⟩
      cases e1; cases e2
      refine ⟨rfl, ?_⟩
      by_cases hp : p.name = c.1
      · rw [if_pos hp] at h1
        simp only at h1 h2 ⊢
        simp only [inputsFor, hp.symm, decide_true, List.filter_cons_of_pos, List.map_cons, foldField, h1]
        simpa [inputsFor] using h2
      · rw [if_neg hp] at h1
        simp only at h1 h2 ⊢
        subst h1
        have hp' : ¬ c.1 = p.name := fun h => hp h.symm
        simpa [inputsFor, hp'] using h2

theorem new_rel (tt : TypeTable B) (params : List Param) :
    Forall₂ (fun p x => x = (p, initField tt p)) params (new tt params) := by
  unfold new
  induction params with
  | nil => exact .nil
  | cons p ps ih => exact .cons rfl ih

/-- After a chain of calls each field holds what the inputs for its parameter amount to. -/
theorem setAll_new (tt : TypeTable B) (params : List Param) (calls : List (Call B)) (s : State B)
    (hn : (params.map Param.name).Nodup) (h : setAll tt (new tt params) calls = some s) :
    Forall₂ (fun p x => x.1 = p ∧ Outcome tt p (inputsFor calls p.name) (finalize tt p x.2)) params s := by
  have hn' : ((new tt params).map fun x => x.1.name).Nodup := by
    simpa [new, List.map_map, Function.comp_def] using hn
  have h := setAll_rel tt calls _ _ hn' h
  refine forall₂_comp ?_ (new_rel tt params) h
  rintro p _ ⟨q, f⟩ rfl ⟨e, h⟩
  cases e
  refine ⟨rfl, finalize_good tt p _ f ?_⟩
  have := foldField_good tt p _ [] _ _ (init_good tt p) h
  simpa using this

/-- The state of a builder as far as `send` can tell. -/
theorem finalizeAll_error (tt : TypeTable B) {params : List Param} {s : State B} {R : Param → Except Str Value → Prop}
    (hR : ∀ p o o', R p o → R p o' → o = o')
    (h : Forall₂ (fun p x => x.1 = p ∧ R p (finalize tt p x.2)) params s) (pre : List Param) (p : Param)
    (post : List Param) (m : Str) (he : params = pre ++ p :: post) (hpre : ∀ q ∈ pre, ∃ v, R q (.ok v))
    (hp : R p (.error m)) : finalizeAll tt s = .error m := by
  induction pre generalizing params s with
  | nil =>
    subst he
    cases h with
    | @cons _ x _ _ hx _ =>
      obtain ⟨q, f⟩ := x
      obtain ⟨rfl, hx⟩ := hx
      have := hR _ _ _ hx hp
      simp only at this
      simp only [finalizeAll, this]
  | cons q pre ih =>
    subst he
    cases h with
    | @cons _ x _ _ hx h =>
      obtain ⟨q', f⟩ := x
      obtain ⟨rfl, hx⟩ := hx
      obtain ⟨v, hv⟩ := hpre q' (by simp)
      have := hR _ _ _ hx hv
      simp only at this
      simp only [finalizeAll, this, ih h rfl fun r hr => hpre r (by simp [hr])]

theorem finalizeAll_ok (tt : TypeTable B) {params : List Param} {s : State B} {R : Param → Except Str Value → Prop}
    (hR : ∀ p o o', R p o → R p o' → o = o')
    (h : Forall₂ (fun p x => x.1 = p ∧ R p (finalize tt p x.2)) params s) (vs : List Value)
    (hv : Forall₂ (fun p v => R p (.ok v)) params vs) :
    finalizeAll tt s = .ok ((params.map Param.name).zip vs) := by
  induction h generalizing vs with
  | nil => cases hv; rfl
  | @cons p x ps s hx _ ih =>
    cases hv with
    | @cons _ v _ vs hv1 hv2 =>
      obtain ⟨q, f⟩ := x
      obtain ⟨rfl, hx⟩ := hx
      have := hR _ _ _ hx hv1
      simp only at this
      simp [finalizeAll, this, ih vs hv2]

theorem outcome_typed {tt : TypeTable B} {p : Param} {ins : List (Input B)} {v : Value}
    (h : Outcome tt p ins (.ok v)) : typed p v = true := by
  generalize ho : (Except.ok v : Except Str Value) = o at h
  cases h <;> cases ho
  · rename_i ty h1 h2
    obtain ⟨t, h1, _, _⟩ := h1
    rcases h2 with h2 | h2 <;> simp [typed, h1, h2]
  · rename_i ty pre a h1 h2
    obtain ⟨t, h1, _, _⟩ := h1
    unfold Optional at h2
    unfold typed
    rw [h1]
    cases hk : p.kind with
    | query r => cases r <;> simp_all
    | header r => cases r <;> simp_all
    | path => rfl
    | body _ => rfl
  · rename_i ty pre a h1 h2
    obtain ⟨t, h1, _, _⟩ := h1
    rcases h2 with h2 | h2 <;> simp [typed, h1, h2]
  · rename_i pre b h1
    simp [typed, h1]
  · rename_i t tb b a h1 h2 h3 h4
    obtain ⟨t', ct, h1', hk, _⟩ := h2
    simp [typed, h1', hk]

/-! ## Which chains of calls compile -/

/-- The input fits the parameter. -/
def Fits (tt : TypeTable B) (p : Param) (i : Input B) : Prop :=
  match i with
  | .value _ => ∃ t, p.typ = .type t
  | .raw _ => p.typ = .rawBody
  | .map _ => ∃ tb, HasBuilder tt p tb

theorem setField_some {tt : TypeTable B} {p : Param} {ins : List (Input B)} {f : Field B} (hg : Good tt p ins f)
    (i : Input B) : (∃ f', setField tt p f i = some f') ↔ Fits tt p i := by
  cases f with
  | req v =>
    obtain ⟨⟨ty, t, ht, _, hn⟩, _, _⟩ := hg
    cases i with
    | value conv => simp [setField, Fits, ht]
    | raw conv => simp [setField, Fits, ht]
    | map f => simpa [setField, Fits] using hn
  | opt v =>
    obtain ⟨⟨ty, t, ht, _, hn⟩, _, _⟩ := hg
    cases i with
    | value conv => simp [setField, Fits, ht]
    | raw conv => simp [setField, Fits, ht]
    | map f => simpa [setField, Fits] using hn
  | raw v =>
    obtain ⟨ht, _⟩ := hg
    cases i with
    | value conv => simp [setField, Fits, ht]
    | raw conv => simp [setField, Fits, ht]
    | map f =>
      simp only [setField, Fits, reduceCtorEq, exists_false, false_iff, not_exists]
      rintro tb ⟨t, _, h, _⟩
      rw [ht] at h
      cases h
  | nested v =>
    obtain ⟨t, tb, ht, hb, _⟩ := hg
    cases i with
    | value conv => simp [setField, Fits, ht, builder_of hb ht]
    | raw conv => simp [setField, Fits, ht]
    | map f => simpa [setField, Fits] using ⟨tb, hb⟩

theorem setOne_some {tt : TypeTable B} {c : Call B} {s : State B} (hn : (s.map fun x => x.1.name).Nodup)
    (hg : ∀ x ∈ s, ∃ ins, Good tt x.1 ins x.2) :
    (∃ s', setOne tt c s = some s') ↔ ∃ x ∈ s, x.1.name = c.1 ∧ Fits tt x.1 c.2 := by
  induction s with
  | nil => simp [setOne]
  | cons x rest ih =>
    obtain ⟨p, f⟩ := x
    simp only [List.map_cons, List.nodup_cons] at hn
    obtain ⟨ins, hgx⟩ := hg (p, f) (by simp)
    simp only [setOne]
    by_cases hp : p.name = c.1
    · rw [if_pos hp]
      have : (∃ x ∈ (p, f) :: rest, x.1.name = c.1 ∧ Fits tt x.1 c.2) ↔ Fits tt p c.2 := by
        constructor
        · rintro ⟨x, hx, h1, h2⟩
          rcases List.mem_cons.mp hx with rfl | hx
          · exact h2
          · exact absurd (List.mem_map.mpr ⟨x, hx, by rw [h1, hp]⟩) hn.1
        · intro h
          exact ⟨(p, f), by simp, hp, h⟩
      rw [this, ← setField_some hgx c.2]
      constructor
      · rintro ⟨s', h⟩
        cases hs : setField tt p f c.2 with
        | none => rw [hs] at h; cases h
        | some f' => exact ⟨f', rfl⟩
      · rintro ⟨f', h⟩
        exact ⟨_, by rw [h]; rfl⟩
    · rw [if_neg hp]
      have : (∃ x ∈ (p, f) :: rest, x.1.name = c.1 ∧ Fits tt x.1 c.2) ↔
          ∃ x ∈ rest, x.1.name = c.1 ∧ Fits tt x.1 c.2 := by
        constructor
        · rintro ⟨x, hx, h1, h2⟩
          rcases List.mem_cons.mp hx with rfl | hx
          · exact absurd h1 hp
          · exact ⟨x, hx, h1, h2⟩
        · rintro ⟨x, hx, h⟩
          exact ⟨x, by simp [hx], h⟩
      rw [this, ← ih hn.2 fun y hy => hg y (by simp [hy])]
      constructor
      · rintro ⟨s', h⟩
        cases hs : setOne tt c rest with
        | none => rw [hs] at h; cases h
        | some r => exact ⟨r, rfl⟩
      · rintro ⟨r, h⟩
        exact ⟨_, by rw [h]; rfl⟩

theorem forall₂_mem_right {α β} {R : α → β → Prop} {xs : List α} {ys : List β} (h : Forall₂ R xs ys) :
    ∀ y ∈ ys, ∃ x ∈ xs, R x y := by
  induction h with
  | nil => simp
  | @cons a b _ _ hab _ ih =>
    intro y hy
    rcases List.mem_cons.mp hy with rfl | hy
    · exact ⟨a, by simp, hab⟩
    · obtain ⟨x, hx, h⟩ := ih y hy
      exact ⟨x, by simp [hx], h⟩

theorem setAll_some {tt : TypeTable B} : ∀ (calls : List (Call B)) (s : State B),
    (s.map fun x => x.1.name).Nodup → (∀ x ∈ s, ∃ ins, Good tt x.1 ins x.2) →
    ((∃ s', setAll tt s calls = some s') ↔ ∀ c ∈ calls, ∃ p ∈ s.map Prod.fst, p.name = c.1 ∧ Fits tt p c.2)
  | [], s, _, _ => by simp [setAll]
  | c :: cs, s, hn, hg => by
    have h1 := setOne_some (c := c) hn hg
    simp only [List.forall_mem_cons]
    have e1 : (∃ p ∈ s.map Prod.fst, p.name = c.1 ∧ Fits tt p c.2) ↔ ∃ s', setOne tt c s = some s' := by
      rw [h1]
      simp only [List.mem_map]
      constructor
      · rintro ⟨p, ⟨x, hx, rfl⟩, h⟩
        exact ⟨x, hx, h⟩
      · rintro ⟨x, hx, h⟩
        exact ⟨x.1, ⟨x, hx, rfl⟩, h⟩
    rw [e1]
    simp only [setAll]
    cases hs : setOne tt c s with
    | none => simp
    | some s1 =>
      have hr := setOne_rel tt c s s1 hn hs
      have hn1 : (s1.map fun x => x.1.name).Nodup := by rw [forall₂_names hr]; exact hn
      have hp1 : s1.map Prod.fst = s.map Prod.fst := by
        clear hs hn hn1 hg h1 e1
        induction hr with
        | nil => rfl
        | cons h _ ih => simp [h.1, ih]
      have hg1 : ∀ x ∈ s1, ∃ ins, Good tt x.1 ins x.2 := by
        intro y hy
        obtain ⟨x, hx, he, hxy⟩ := forall₂_mem_right hr y hy
        obtain ⟨ins, hgx⟩ := hg x hx
        by_cases hp : x.1.name = c.1
        · rw [if_pos hp] at hxy
          rw [← he]
          exact ⟨_, setField_good tt x.1 ins x.2 y.2 c.2 hgx hxy⟩
        · rw [if_neg hp] at hxy
          rw [← he, hxy]
          exact ⟨_, hgx⟩
      have := setAll_some cs s1 hn1 hg1
      rw [hp1] at this
      simp [this]

theorem calls_compile (tt : TypeTable B) (params : List Param) (calls : List (Call B))
    (hn : (params.map Param.name).Nodup) :
    (∃ s, setAll tt (new tt params) calls = some s) ↔ ∀ c ∈ calls, CallOk tt params c := by
  have hn' : ((new tt params).map fun x => x.1.name).Nodup := by
    simpa [new, List.map_map, Function.comp_def] using hn
  have hm : (new tt params).map Prod.fst = params := by
    simp [new, List.map_map, Function.comp_def]
  have := setAll_some (tt := tt) calls (new tt params) hn' (by
    intro x hx
    obtain ⟨p, _, rfl⟩ := List.mem_map.mp hx
    exact ⟨_, init_good tt p⟩)
  rw [this, hm]
  rfl

/-! ## The emitted struct -/

/-- The parameters do not get in the way of the methods of the builder: their names are distinct
from each other, from `new` and `send`, from `stream` and `clone` if the operation is paginated, and from
`body_map` if the body has a builder; and only bodies are of types with builders. -/
def NoClash (tt : TypeTable B) (params : List Param) (paginated : Bool) : Prop :=
  (params.map Param.name).Nodup ∧
  (∀ p ∈ params, p.name ≠ "new".toList ∧ p.name ≠ "send".toList ∧ (paginated = true → p.name ≠ "stream".toList ∧ p.name ≠ "clone".toList) ∧
    ∀ q ∈ params, ∀ tb, HasBuilder tt q tb → p.name ≠ "body_map".toList) ∧
  (∀ p ∈ params, ∀ t tb, p.typ = .type t → tt.builder t = some tb → ∃ ct, p.kind = .body ct)

theorem initField_nested (tt : TypeTable B) (p : Param) :
    (∃ v, initField tt p = .nested v) ↔ ∃ tb, HasBuilder tt p tb := by
  have hg := init_good tt p
  cases hf : initField tt p with
  | nested v =>
    rw [hf] at hg
    obtain ⟨t, tb, _, hb, _⟩ := hg
    simpa using ⟨tb, hb⟩
  | req v =>
    rw [hf] at hg
    obtain ⟨⟨ty, t, ht, _, hn⟩, _, _⟩ := hg
    simpa using hn
  | opt v =>
    rw [hf] at hg
    obtain ⟨⟨ty, t, ht, _, hn⟩, _, _⟩ := hg
    simpa using hn
  | raw v =>
    rw [hf] at hg
    simp only [reduceCtorEq, exists_false, false_iff, not_exists]
    rintro tb ⟨t, _, h, _⟩
    rw [hg.1] at h
    cases h

theorem setterNames_of_nested {tt : TypeTable B} {p : Param} (h : ∃ tb, HasBuilder tt p tb) :
    setterNames tt p = [p.name, "body_map".toList] := by
  obtain ⟨v, hv⟩ := (initField_nested tt p).mpr h
  unfold setterNames
  rw [hv]

theorem setterNames_of_not {tt : TypeTable B} {p : Param} (h : ¬ ∃ tb, HasBuilder tt p tb) :
    setterNames tt p = [p.name] := by
  unfold setterNames
  split
  · rename_i v hv
    exact absurd ((initField_nested tt p).mp ⟨v, hv⟩) h
  · rfl

theorem mem_setters {tt : TypeTable B} {params : List Param} {x : Str} :
    x ∈ params.flatMap (setterNames tt) ↔ (∃ p ∈ params, p.name = x) ∨
      (x = "body_map".toList ∧ ∃ p ∈ params, ∃ tb, HasBuilder tt p tb) := by
  simp only [List.mem_flatMap]
  constructor
  · rintro ⟨p, hp, hx⟩
    by_cases h : ∃ tb, HasBuilder tt p tb
    · rw [setterNames_of_nested h] at hx
      simp only [List.mem_cons, List.not_mem_nil, or_false] at hx
      rcases hx with rfl | rfl
      · exact .inl ⟨p, hp, rfl⟩
      · exact .inr ⟨rfl, p, hp, h⟩
    · rw [setterNames_of_not h, List.mem_singleton] at hx
      exact .inl ⟨p, hp, hx.symm⟩
  · rintro (⟨p, hp, rfl⟩ | ⟨rfl, p, hp, h⟩)
    · refine ⟨p, hp, ?_⟩
      by_cases h : ∃ tb, HasBuilder tt p tb
      · rw [setterNames_of_nested h]; simp
      · rw [setterNames_of_not h]; simp
    · exact ⟨p, hp, by rw [setterNames_of_nested h]; exact List.mem_cons_of_mem _ (List.mem_singleton.mpr rfl)⟩

theorem setters_nodup {tt : TypeTable B} {params : List Param}
    (hb : ∀ p ∈ params, ∀ tb, HasBuilder tt p tb → p.name = "body".toList) :
    (params.flatMap (setterNames tt)).Nodup ↔ (params.map Param.name).Nodup ∧
      ∀ p ∈ params, ∀ q ∈ params, ∀ tb, HasBuilder tt q tb → p.name ≠ "body_map".toList := by
  induction params with
  | nil => simp
  | cons p ps ih =>
    have ih := ih fun q hq => hb q (by simp [hq])
    rw [List.flatMap_cons, List.nodup_append, ih]
    simp only [List.map_cons, List.nodup_cons]
    by_cases h : ∃ tb, HasBuilder tt p tb
    · have hpn : p.name = "body".toList := by obtain ⟨tb, h⟩ := h; exact hb p (by simp) tb h
      rw [setterNames_of_nested h]
      constructor
      · rintro ⟨h1, ⟨h2, h3⟩, h4⟩
        have hnb : ∀ q ∈ ps, q.name ≠ "body_map".toList := by
          intro q hq e
          exact h4 "body_map".toList (by simp) _ (mem_setters.mpr (.inl ⟨q, hq, e⟩)) rfl
        refine ⟨⟨?_, h2⟩, ?_⟩
        · intro hm
          obtain ⟨q, hq, e⟩ := List.mem_map.mp hm
          exact h4 p.name (by simp) _ (mem_setters.mpr (.inl ⟨q, hq, e⟩)) rfl
        · intro q hq r hr tb _
          rcases List.mem_cons.mp hq with rfl | hq
          · rw [hpn]; decide
          · exact hnb q hq
      · rintro ⟨⟨h1, h2⟩, h3⟩
        obtain ⟨tb, h⟩ := h
        have hnb : ∀ q ∈ p :: ps, q.name ≠ "body_map".toList := fun q hq => h3 q hq p (by simp) tb h
        refine ⟨?_, ⟨h2, fun q hq r hr tb hr' => h3 q (by simp [hq]) r (by simp [hr]) tb hr'⟩, ?_⟩
        · simpa using hnb p (by simp)
        · intro a ha b hb' e
          subst e
          simp only [List.mem_cons, List.not_mem_nil, or_false] at ha
          rcases mem_setters.mp hb' with ⟨q, hq, e⟩ | ⟨e, q, hq, tb', hq'⟩
          · rcases ha with rfl | rfl
            · exact h1 (List.mem_map.mpr ⟨q, hq, e⟩)
            · exact hnb q (by simp [hq]) e
          · have := hb q (by simp [hq]) tb' hq'
            exact h1 (List.mem_map.mpr ⟨q, hq, by rw [this, hpn]⟩)
    · rw [setterNames_of_not h]
      constructor
      · rintro ⟨_, ⟨h2, h3⟩, h4⟩
        refine ⟨⟨?_, h2⟩, ?_⟩
        · intro hm
          obtain ⟨q, hq, e⟩ := List.mem_map.mp hm
          exact h4 p.name (by simp) _ (mem_setters.mpr (.inl ⟨q, hq, e⟩)) rfl
        · intro q hq r hr tb hr'
          rcases List.mem_cons.mp hr with rfl | hr2
          · exact absurd ⟨tb, hr'⟩ h
          · rcases List.mem_cons.mp hq with rfl | hq
            · intro e
              exact h4 q.name (by simp) _ (mem_setters.mpr (.inr ⟨e, r, hr2, tb, hr'⟩)) rfl
            · exact h3 q hq r hr2 tb hr'
      · rintro ⟨⟨h1, h2⟩, h3⟩
        refine ⟨by simp, ⟨h2, fun q hq r hr tb hr' => h3 q (by simp [hq]) r (by simp [hr]) tb hr'⟩, ?_⟩
        intro a ha b hb' e
        subst e
        rw [List.mem_singleton] at ha
        subst ha
        rcases mem_setters.mp hb' with ⟨q, hq, e⟩ | ⟨e, q, hq, tb', hq'⟩
        · exact h1 (List.mem_map.mpr ⟨q, hq, e⟩)
        · exact h3 p (by simp) q (by simp [hq]) tb' hq' e

theorem genParam_body {tt : TypeTable B} {p : Param} (h : genParam tt p = .ok ()) {tb : TypeBuilder B}
    (hb : HasBuilder tt p tb) : p.name = "body".toList := by
  obtain ⟨t, ct, ht, hk, htb⟩ := hb
  unfold genParam at h
  simp only [ht, htb, hk, isRequired, if_true] at h
  split at h
  · assumption
  · cases h

theorem genParams_all {tt : TypeTable B} {params : List Param} :
    genParams tt params = .ok () ↔ ∀ p ∈ params, genParam tt p = .ok () := by
  induction params with
  | nil => simp [genParams]
  | cons p ps ih =>
    simp only [genParams, List.forall_mem_cons, ← ih]
    constructor
    · intro h
      obtain ⟨_, h1, h2⟩ := bind_ok_inv h
      exact ⟨h1, h2⟩
    · rintro ⟨h1, h2⟩
      rw [h1, h2]
      rfl

/-- C62: when generation succeeds, the emitted struct compiles (as far as names go) iff no parameter
gets in the way. -/
theorem C62_struct (tt : TypeTable B) (params : List Param) (paginated : Bool) (hg : genParams tt params = .ok ()) :
    structOk tt params paginated = true ↔ NoClash tt params paginated := by
  have hg := genParams_all.mp hg
  have hs := setters_nodup (tt := tt) (params := params) fun p hp tb hb => genParam_body (hg p hp) hb
  have hm : methodNames tt params paginated =
      "new".toList :: (params.flatMap (setterNames tt)) ++ "send".toList :: (if paginated then ["stream".toList, "clone".toList] else []) := by
    rfl
  unfold structOk NoClash
  rw [Bool.and_eq_true, decide_eq_true_iff, hm, List.all_eq_true]
  have e3 : (∀ p ∈ params, builderPlaced tt p = true) ↔
      ∀ p ∈ params, ∀ t tb, p.typ = .type t → tt.builder t = some tb → ∃ ct, p.kind = .body ct := by
    refine forall_congr' fun p => forall_congr' fun _ => ?_
    unfold builderPlaced
    cases ht : p.typ with
    | rawBody => simp
    | type t =>
      simp only [Bool.or_eq_true, PType.type.injEq, isBody_iff, Option.isNone_iff_eq_none]
      constructor
      · rintro (h | h) t' tb rfl htb
        · exact h
        · rw [h] at htb; cases htb
      · intro h
        cases htb : tt.builder t with
        | none => exact .inr rfl
        | some tb => exact .inl (h t tb rfl htb)
  rw [e3, ← and_assoc]
  refine and_congr_left fun _ => ?_
  rw [List.cons_append, List.nodup_cons, List.nodup_append, hs]
  simp only [List.mem_append, not_or, mem_setters, List.mem_cons]
  have nb : "new".toList ≠ "body_map".toList := by decide
  have ns : "new".toList ≠ "send".toList := by decide
  have nst : "new".toList ≠ "stream".toList := by decide
  have sst : "send".toList ≠ "stream".toList := by decide
  have sb : "send".toList ≠ "body_map".toList := by decide
  have stb : "stream".toList ≠ "body_map".toList := by decide
  have nc : "new".toList ≠ "clone".toList := by decide
  have sc : "send".toList ≠ "clone".toList := by decide
  have cb : "clone".toList ≠ "body_map".toList := by decide
  constructor
  · rintro ⟨⟨⟨h1, _⟩, h2⟩, ⟨h3, h4⟩, _, h5⟩
    refine ⟨h3, fun p hp => ⟨fun e => h1 ⟨p, hp, e⟩, fun e => h5 _ (.inl ⟨p, hp, rfl⟩) _ (.inl rfl) e, ?_, fun q hq tb hb => h4 p hp q hq tb hb⟩⟩
    intro hpg
    exact ⟨fun e => h5 _ (.inl ⟨p, hp, rfl⟩) _ (.inr (by rw [if_pos hpg]; simp)) e,
      fun e => h5 _ (.inl ⟨p, hp, rfl⟩) _ (.inr (by rw [if_pos hpg]; simp)) e⟩
  · rintro ⟨h1, h2⟩
    refine ⟨⟨⟨?_, fun h => nb h.1⟩, ns, ?_⟩, ⟨h1, fun p hp => (h2 p hp).2.2.2⟩, ?_, ?_⟩
    · rintro ⟨p, hp, e⟩
      exact (h2 p hp).1 e
    · cases paginated
      · simp
      · simpa using ⟨nst, nc⟩
    · cases paginated
      · simp
      · simpa using ⟨sst, sc⟩
    · rintro a ha b hb rfl
      rcases ha with ⟨p, hp, rfl⟩ | ⟨rfl, _⟩
      · rcases hb with hb | hb
        · exact (h2 p hp).2.1 hb
        · cases paginated
          · simp at hb
          · rw [if_pos rfl, List.mem_cons, List.mem_singleton] at hb
            rcases hb with hb | hb
            · exact ((h2 p hp).2.2.1 rfl).1 hb
            · exact ((h2 p hp).2.2.1 rfl).2 hb
      · rcases hb with hb | hb
        · exact sb hb.symm
        · cases paginated
          · simp at hb
          · rw [if_pos rfl, List.mem_cons, List.mem_singleton] at hb
            rcases hb with hb | hb
            · exact stb hb.symm
            · exact cb hb.symm

theorem structOk_nodup {tt : TypeTable B} {params : List Param} {paginated : Bool}
    (h : structOk tt params paginated = true) : (params.map Param.name).Nodup := by
  unfold structOk methodNames at h
  rw [Bool.and_eq_true, decide_eq_true_iff, List.cons_append, List.nodup_cons, List.nodup_append] at h
  have h := h.1.2.1
  have hsub : ∀ ps : List Param, (ps.map Param.name).Sublist (ps.flatMap (setterNames tt)) := by
    intro ps
    induction ps with
    | nil => exact List.Sublist.slnil
    | cons p ps ih =>
      rw [List.map_cons, List.flatMap_cons]
      by_cases hb : ∃ tb, HasBuilder tt p tb
      · rw [setterNames_of_nested hb]
        exact (ih.cons _).cons₂ _
      · rw [setterNames_of_not hb]
        exact ih.cons₂ _
  exact h.sublist (hsub params)

/-! ## C29 -/

theorem forall₂_imp_mem {α β} {R S : α → β → Prop} {xs : List α} {ys : List β}
    (h : ∀ a ∈ xs, ∀ b, R a b → S a b) (hr : Forall₂ R xs ys) : Forall₂ S xs ys := by
  induction hr with
  | nil => exact .nil
  | cons h1 _ ih => exact .cons (h _ (by simp) _ h1) (ih fun a ha => h a (by simp [ha]))

theorem finalizeAll_congr (tt : TypeTable B) {params : List Param} {s s' : State B} {R : Param → Except Str Value → Prop}
    (hR : ∀ p ∈ params, ∀ o o', R p o → R p o' → o = o')
    (h : Forall₂ (fun p x => x.1 = p ∧ R p (finalize tt p x.2)) params s)
    (h' : Forall₂ (fun p x => x.1 = p ∧ R p (finalize tt p x.2)) params s') : finalizeAll tt s = finalizeAll tt s' := by
  induction h generalizing s' with
  | nil => cases h'; rfl
  | @cons p x ps s hx _ ih =>
    cases h' with
    | @cons _ x' _ s' hx' h' =>
      obtain ⟨q, f⟩ := x
      obtain ⟨q', f'⟩ := x'
      obtain ⟨rfl, hx⟩ := hx
      obtain ⟨e, hx'⟩ := hx'
      cases e
      have := hR q (by simp) _ _ hx hx'
      simp only at this
      simp only [finalizeAll, this, ih (fun p hp => hR p (by simp [hp])) h']

/-- C29: the result of a builder depends only on what the inputs of each parameter amount to. -/
theorem C29_outcomes (cfg : Config) (hooks : Hooks) (w : World) (decode : TypeId → Bytes → Except P V)
    (tt : TypeTable B) (params : List Param) (paginated : Bool) (c : Code) (hist : List Event)
    (calls calls' : List (Call B)) (h1 : ∀ c ∈ calls, CallOk tt params c) (h2 : ∀ c ∈ calls', CallOk tt params c)
    (h : ∀ p ∈ params, ∀ o, Outcome tt p (inputsFor calls p.name) o → Outcome tt p (inputsFor calls' p.name) o) :
    callBuilder cfg hooks w decode tt params paginated c hist calls =
      callBuilder cfg hooks w decode tt params paginated c hist calls' := by
  unfold callBuilder
  split
  · rename_i hs
    have hn := structOk_nodup hs
    obtain ⟨s, hs⟩ := (calls_compile tt params calls hn).mpr h1
    obtain ⟨s', hs'⟩ := (calls_compile tt params calls' hn).mpr h2
    rw [hs, hs']
    have r := setAll_new tt params calls s hn hs
    have r' := setAll_new tt params calls' s' hn hs'
    have : finalizeAll tt s = finalizeAll tt s' :=
      finalizeAll_congr tt (params := params) (R := fun p o => Outcome tt p (inputsFor calls' p.name) o)
        (fun p _ o o' h h' => outcome_unique h h' rfl)
        (forall₂_imp_mem (fun p hp x hx => ⟨hx.1, h p hp _ hx.2⟩) r) r'
    simp only [send, this]
  · rfl

theorem inputsFor_append (xs ys : List (Call B)) (n : Str) : inputsFor (xs ++ ys) n = inputsFor xs n ++ inputsFor ys n := by
  simp [inputsFor]

/-- C29: setters of different parameters commute. -/
theorem C29_commute (cfg : Config) (hooks : Hooks) (w : World) (decode : TypeId → Bytes → Except P V)
    (tt : TypeTable B) (params : List Param) (paginated : Bool) (c : Code) (hist : List Event)
    (pre post : List (Call B)) (a b : Call B) (hab : a.1 ≠ b.1)
    (h : ∀ c ∈ pre ++ a :: b :: post, CallOk tt params c) :
    callBuilder cfg hooks w decode tt params paginated c hist (pre ++ a :: b :: post) =
      callBuilder cfg hooks w decode tt params paginated c hist (pre ++ b :: a :: post) := by
  refine C29_outcomes cfg hooks w decode tt params paginated c hist _ _ h ?_ ?_
  · intro x hx
    refine h x ?_
    simp only [List.mem_append, List.mem_cons] at hx ⊢
    rcases hx with h | h | h | h
    · exact .inl h
    · exact .inr (.inr (.inl h))
    · exact .inr (.inl h)
    · exact .inr (.inr (.inr h))
  · intro p _ o ho
    have e : inputsFor (pre ++ a :: b :: post) p.name = inputsFor (pre ++ b :: a :: post) p.name := by
      rw [inputsFor_append, inputsFor_append]
      congr 1
      by_cases ha : a.1 = p.name
      · have hb : ¬ b.1 = p.name := fun e => hab (ha.trans e.symm)
        simp [inputsFor, ha, hb]
      · by_cases hb : b.1 = p.name <;> simp [inputsFor, ha, hb]
    rw [← e]
    exact ho

/-- Not a `body_map`. -/
def Sets (i : Input B) : Prop := ∀ f, i ≠ .map f

/-- A list that contains a value ends in it or goes on. -/
theorem nested_forget {tb : TypeBuilder B} {err : Str → Str} {ins : List (Input B)} {v : Except Str B}
    (h : Nested tb err ins v) : ∀ xs i ys, Sets i → ins = xs ++ i :: ys → Nested tb err (i :: ys) v := by
  induction h with
  | start => intro xs i ys _ h; simp at h
  | body pre a =>
    intro xs i ys hi he
    rcases List.eq_nil_or_concat ys with rfl | ⟨ys, y, rfl⟩
    · obtain ⟨rfl, rfl⟩ := snoc_inj he
      exact .body [] a
    · rw [List.concat_eq_append, ← List.cons_append, ← List.append_assoc] at he
      obtain ⟨rfl, rfl⟩ := snoc_inj he
      rw [List.concat_eq_append, ← List.cons_append]
      exact .body _ a
  | failed pre e =>
    intro xs i ys hi he
    rcases List.eq_nil_or_concat ys with rfl | ⟨ys, y, rfl⟩
    · obtain ⟨rfl, rfl⟩ := snoc_inj he
      exact .failed [] e
    · rw [List.concat_eq_append, ← List.cons_append, ← List.append_assoc] at he
      obtain ⟨rfl, rfl⟩ := snoc_inj he
      rw [List.concat_eq_append, ← List.cons_append]
      exact .failed _ e
  | mapped pre f b _ ih =>
    intro xs i ys hi he
    rcases List.eq_nil_or_concat ys with rfl | ⟨ys, y, rfl⟩
    · obtain ⟨rfl, rfl⟩ := snoc_inj he
      exact absurd rfl (hi f)
    · rw [List.concat_eq_append, ← List.cons_append, ← List.append_assoc] at he
      obtain ⟨rfl, rfl⟩ := snoc_inj he
      rw [List.concat_eq_append, ← List.cons_append]
      exact .mapped _ f b (ih xs i ys hi rfl)
  | mappedError pre f m _ ih =>
    intro xs i ys hi he
    rcases List.eq_nil_or_concat ys with rfl | ⟨ys, y, rfl⟩
    · obtain ⟨rfl, rfl⟩ := snoc_inj he
      exact absurd rfl (hi f)
    · rw [List.concat_eq_append, ← List.cons_append, ← List.append_assoc] at he
      obtain ⟨rfl, rfl⟩ := snoc_inj he
      rw [List.concat_eq_append, ← List.cons_append]
      exact .mappedError _ f m (ih xs i ys hi rfl)

theorem suffix_snoc {α} {pre xs ys : List α} {x i : α} (h : pre ++ [x] = xs ++ i :: ys) :
    ∃ pre', i :: ys = pre' ++ [x] := by
  rcases List.eq_nil_or_concat ys with rfl | ⟨ys, y, rfl⟩
  · obtain ⟨rfl, rfl⟩ := snoc_inj h
    exact ⟨[], rfl⟩
  · rw [List.concat_eq_append, ← List.cons_append, ← List.append_assoc] at h
    obtain ⟨rfl, rfl⟩ := snoc_inj h
    exact ⟨i :: ys, by simp⟩

theorem outcome_forget {tt : TypeTable B} {p : Param} {ins : List (Input B)} {o : Except Str Value}
    (h : Outcome tt p ins o) (xs : List (Input B)) (i : Input B) (ys : List (Input B)) (hi : Sets i)
    (he : ins = xs ++ i :: ys) : Outcome tt p (i :: ys) o := by
  cases h with
  | missing | missingRaw | absent => simp at he
  | given ty pre a h1 h2 => obtain ⟨pre', e⟩ := suffix_snoc he; rw [e]; exact .given ty pre' a h1 h2
  | givenOptional ty pre a h1 h2 => obtain ⟨pre', e⟩ := suffix_snoc he; rw [e]; exact .givenOptional ty pre' a h1 h2
  | failed ty pre e h1 => obtain ⟨pre', e'⟩ := suffix_snoc he; rw [e']; exact .failed ty pre' e h1
  | givenRaw pre b h1 => obtain ⟨pre', e'⟩ := suffix_snoc he; rw [e']; exact .givenRaw pre' b h1
  | failedText pre e m h1 h2 => obtain ⟨pre', e'⟩ := suffix_snoc he; rw [e']; exact .failedText pre' e m h1 h2
  | failedRaw pre e h1 h2 => obtain ⟨pre', e'⟩ := suffix_snoc he; rw [e']; exact .failedRaw pre' e h1 h2
  | built t tb _ b a h1 h2 h3 h4 => exact .built t tb _ b a h1 h2 (nested_forget h3 xs i ys hi he) h4
  | incomplete t tb _ b a h1 h2 h3 h4 => exact .incomplete t tb _ b a h1 h2 (nested_forget h3 xs i ys hi he) h4
  | failedNested t tb _ m h1 h2 h3 => exact .failedNested t tb _ m h1 h2 (nested_forget h3 xs i ys hi he)

/-- C29: setting a parameter makes all earlier calls for it irrelevant, failed or not. -/
theorem C29_overwrite (cfg : Config) (hooks : Hooks) (w : World) (decode : TypeId → Bytes → Except P V)
    (tt : TypeTable B) (params : List Param) (paginated : Bool) (c : Code) (hist : List Event)
    (pre post : List (Call B)) (n : Str) (i : Input B) (hi : Sets i)
    (h : ∀ c ∈ pre ++ (n, i) :: post, CallOk tt params c) :
    callBuilder cfg hooks w decode tt params paginated c hist (pre ++ (n, i) :: post) =
      callBuilder cfg hooks w decode tt params paginated c hist ((pre.filter fun c => c.1 ≠ n) ++ (n, i) :: post) := by
  refine C29_outcomes cfg hooks w decode tt params paginated c hist _ _ h ?_ ?_
  · intro x hx
    refine h x ?_
    simp only [List.mem_append, List.mem_filter] at hx ⊢
    rcases hx with hx | hx
    · exact .inl hx.1
    · exact .inr hx
  · intro p _ o ho
    by_cases hp : n = p.name
    · have e1 : inputsFor (pre ++ (n, i) :: post) p.name = inputsFor pre p.name ++ i :: inputsFor post p.name := by
        simp [inputsFor, hp]
      have e2 : inputsFor ((pre.filter fun c => c.1 ≠ n) ++ (n, i) :: post) p.name = i :: inputsFor post p.name := by
        have : (pre.filter fun c => c.1 ≠ n).filter (fun c => c.1 = p.name) = [] := by
          rw [List.filter_filter, List.filter_eq_nil_iff]
          intro a _
          simp [hp]
        simp only [inputsFor, List.filter_append, this]
        simp [hp]
      rw [e1] at ho
      rw [e2]
      exact outcome_forget ho _ _ _ hi rfl
    · have : inputsFor (pre.filter fun c => c.1 ≠ n) p.name = inputsFor pre p.name := by
        unfold inputsFor
        rw [List.filter_filter]
        congr 1
        apply List.filter_congr
        intro a _
        by_cases ha : a.1 = p.name
        · have : a.1 ≠ n := fun e => hp (e.symm.trans ha)
          simp [ha, this]
          exact fun e => hp e.symm
        · simp [ha]
      rw [inputsFor_append] at ho ⊢
      rw [this]
      exact ho

/-! ## C30, C31 -/

/-- C30: if some parameter has no value, `send` returns the reason for the first such parameter in
signature order, and nothing is sent. -/
theorem C30_invalid (cfg : Config) (hooks : Hooks) (w : World) (decode : TypeId → Bytes → Except P V)
    (tt : TypeTable B) (params : List Param) (paginated : Bool) (c : Code) (hist : List Event)
    (calls : List (Call B)) (hs : structOk tt params paginated = true) (hc : ∀ c ∈ calls, CallOk tt params c)
    (pre : List Param) (p : Param) (post : List Param) (m : Str) (he : params = pre ++ p :: post)
    (hpre : ∀ q ∈ pre, ∃ v, Outcome tt q (inputsFor calls q.name) (.ok v))
    (hp : Outcome tt p (inputsFor calls p.name) (.error m)) :
    callBuilder cfg hooks w decode tt params paginated c hist calls =
      (.returned (.error (.invalidRequest m)), hist) := by
  have hn := structOk_nodup hs
  obtain ⟨s, hs'⟩ := (calls_compile tt params calls hn).mpr hc
  have r := setAll_new tt params calls s hn hs'
  unfold callBuilder send
  rw [if_pos hs, hs']
  simp only
  rw [finalizeAll_error tt (R := fun p o => Outcome tt p (inputsFor calls p.name) o)
    (fun p o o' h h' => outcome_unique h h' rfl) r pre p post m he hpre hp]

/-- C30: the reason names the parameter, unless it comes from an incomplete body builder. -/
theorem C30_message {tt : TypeTable B} {p : Param} {ins : List (Input B)} {m : Str}
    (h : Outcome tt p ins (.error m)) :
    (∃ a b, m = a ++ p.name ++ b) ∨ ∃ tb b, HasBuilder tt p tb ∧ tb.finish b = .error m := by
  have key : ∀ ty, ∃ a b, Spec.failedText ty p.name = a ++ p.name ++ b := fun ty =>
    ⟨"conversion to `".toList ++ ty ++ "` for ".toList, " failed".toList, rfl⟩
  generalize ho : (Except.error m : Except Str Value) = o at h
  cases h <;> first | cases ho | skip
  · exact .inl ⟨[], " was not initialized".toList, rfl⟩
  · exact .inl ⟨[], " was not initialized".toList, rfl⟩
  · exact .inl (key _)
  · exact .inl (key _)
  · exact .inl (key _)
  · rename_i t tb b h1 h2 h3 h4
    exact .inr ⟨tb, b, h2, h4⟩
  · rename_i t tb h1 h2 h3
    left
    generalize hv : (Except.error m : Except Str B) = v at h3
    induction h3 with
    | start => cases hv
    | body => cases hv
    | failed pre e =>
      cases hv
      obtain ⟨a, b, h⟩ := key (tt.name t)
      exact ⟨a, b ++ (": ".toList ++ e), by rw [h]; simp⟩
    | mapped => cases hv
    | mappedError pre f m' _ ih => exact ih hv

/-- Every chain of calls has an outcome for every parameter. -/
theorem C30_total (tt : TypeTable B) (params : List Param) (calls : List (Call B))
    (hn : (params.map Param.name).Nodup) (hc : ∀ c ∈ calls, CallOk tt params c) (p : Param) (hp : p ∈ params) :
    ∃ o, Outcome tt p (inputsFor calls p.name) o ∧ ∀ o', Outcome tt p (inputsFor calls p.name) o' → o' = o := by
  obtain ⟨s, hs⟩ := (calls_compile tt params calls hn).mpr hc
  have r := setAll_new tt params calls s hn hs
  have : ∃ x, Outcome tt p (inputsFor calls p.name) (finalize tt p x) := by
    clear hn hc hs
    induction r with
    | nil => simp at hp
    | @cons q x ps s hx _ ih =>
      rcases List.mem_cons.mp hp with rfl | hp
      · exact ⟨x.2, hx.2⟩
      · exact ih hp
  obtain ⟨x, hx⟩ := this
  exact ⟨_, hx, fun o' h => outcome_unique h hx rfl⟩

/-- C31: if every parameter has a value, `send` does exactly what the positional method does with these
values. -/
theorem C31_values (cfg : Config) (hooks : Hooks) (w : World) (decode : TypeId → Bytes → Except P V)
    (tt : TypeTable B) (params : List Param) (paginated : Bool) (c : Code) (hist : List Event)
    (calls : List (Call B)) (hs : structOk tt params paginated = true) (hc : ∀ c ∈ calls, CallOk tt params c)
    (vs : List Value) (hv : Forall₂ (fun p v => Outcome tt p (inputsFor calls p.name) (.ok v)) params vs) :
    callBuilder cfg hooks w decode tt params paginated c hist calls = call cfg hooks w decode params c hist vs := by
  have hn := structOk_nodup hs
  obtain ⟨s, hs'⟩ := (calls_compile tt params calls hn).mpr hc
  have r := setAll_new tt params calls s hn hs'
  have hlen : params.length = vs.length ∧ (params.zip vs).all (fun pv => typed pv.1 pv.2) = true := by
    clear r hs' hs hn hc
    induction hv with
    | nil => exact ⟨rfl, rfl⟩
    | cons h _ ih => exact ⟨by simp [ih.1], by simp only [List.zip_cons_cons, List.all_cons, outcome_typed h, ih.2, Bool.and_self]⟩
  have hb : bindArgs params vs = some ((params.map Param.name).zip vs) := by
    unfold bindArgs
    rw [if_pos ⟨hn, hlen.1, hlen.2⟩]
  unfold callBuilder send call
  rw [if_pos hs, hs', hb]
  simp only
  rw [finalizeAll_ok tt (R := fun p o => Outcome tt p (inputsFor calls p.name) o)
    (fun p o o' h h' => outcome_unique h h' rfl) r vs hv]

/-- The calls for one parameter set it to the argument `v` of the positional method. -/
def SetTo (ins : List (Input B)) : Value → Prop
  | .plain a => ∃ pre, ins = pre ++ [.value (.ok a)]
  | .opt (some a) => ∃ pre, ins = pre ++ [.value (.ok a)]
  | .opt none => ins = []
  | .raw b => ∃ pre, ins = pre ++ [.raw (.ok b)]
  | .internal => False

/-- C31: a builder whose parameters have been set to the arguments of a well-typed positional call does
exactly what that call does.  The hypothesis on nested builders (`From<T>` then `TryFrom`
gives the value back) is about typify. -/
theorem C31_agree (cfg : Config) (hooks : Hooks) (w : World) (decode : TypeId → Bytes → Except P V)
    (tt : TypeTable B) (params : List Param) (paginated : Bool) (c : Code) (hist : List Event)
    (calls : List (Call B)) (hs : structOk tt params paginated = true) (hc : ∀ c ∈ calls, CallOk tt params c)
    (hlaw : ∀ p ∈ params, ∀ tb, HasBuilder tt p tb → ∀ a, tb.finish (tb.ofValue a) = .ok a)
    (args : List Value) (env : Env) (hb : bindArgs params args = some env)
    (hv : Forall₂ (fun p v => SetTo (inputsFor calls p.name) v) params args) :
    callBuilder cfg hooks w decode tt params paginated c hist calls = call cfg hooks w decode params c hist args := by
  refine C31_values cfg hooks w decode tt params paginated c hist calls hs hc args ?_
  unfold bindArgs at hb
  split at hb
  case isFalse => cases hb
  rename_i hcond
  have hty := hcond.2.2
  clear hcond hb hs hc
  induction hv with
  | nil => exact .nil
  | @cons p v ps vs h _ ih =>
    simp only [List.zip_cons_cons, List.all_cons, Bool.and_eq_true] at hty
    refine .cons ?_ (ih (fun q hq => hlaw q (by simp [hq])) hty.2)
    have hty := hty.1
    have hlaw := hlaw p (by simp)
    unfold typed at hty
    cases ht : p.typ with
    | rawBody =>
      rw [ht] at hty
      cases v with
      | raw b =>
        obtain ⟨pre, e⟩ := h
        rw [e]
        exact .givenRaw pre b ht
      | _ => cases hty
    | type t =>
      rw [ht] at hty
      by_cases hbd : ∃ tb, HasBuilder tt p tb
      · obtain ⟨tb, hbd⟩ := hbd
        have hk : ∃ ct, p.kind = .body ct := by
          obtain ⟨_, ct, _, hk, _⟩ := hbd
          exact ⟨ct, hk⟩
        obtain ⟨ct, hk⟩ := hk
        rw [hk] at hty
        cases v with
        | plain a =>
          obtain ⟨pre, e⟩ := h
          rw [e]
          exact .built t tb _ (tb.ofValue a) a ht hbd (.body pre a) (hlaw tb hbd a)
        | _ => cases hty
      · have ho : Ordinary tt p (tt.name t) := ⟨t, ht, rfl, fun tb h => hbd ⟨tb, h⟩⟩
        by_cases hop : Optional p
        · have hop' := hop
          rcases hop' with hk | hk
          all_goals
            rw [hk] at hty
            cases v with
            | opt a =>
              cases a with
              | none =>
                unfold SetTo at h
                rw [h]
                exact .absent _ ho hop
              | some a =>
                obtain ⟨pre, e⟩ := h
                rw [e]
                exact .givenOptional _ pre a ho hop
            | _ => cases hty
        · cases v with
          | plain a =>
            obtain ⟨pre, e⟩ := h
            rw [e]
            exact .given _ pre a ho hop
          | _ =>
            exfalso
            unfold Optional at hop
            cases hk : p.kind with
            | query r => cases r <;> simp_all
            | header r => cases r <;> simp_all
            | path => rw [hk] at hty; cases hty
            | body _ => rw [hk] at hty; cases hty

/-! ## C62: where the two styles differ -/

/-- C62: builder generation goes through iff every type with a builder is that of a required parameter
called `body`, and raw bodies are octets or text. -/
theorem C62_generates (tt : TypeTable B) (params : List Param) :
    genParams tt params = .ok () ↔ ∀ p ∈ params,
      (∀ t tb, p.typ = .type t → tt.builder t = some tb → ¬ Optional p ∧ p.name = "body".toList) ∧
      (p.typ = .rawBody → p.kind = .body .octetStream ∨ ∃ m, p.kind = .body (.text m)) := by
  rw [genParams_all]
  refine forall_congr' fun p => forall_congr' fun _ => ?_
  unfold genParam
  cases ht : p.typ with
  | rawBody =>
    simp only [reduceCtorEq, false_implies, implies_true, true_and, forall_const]
    split <;> simp_all
  | type t =>
    simp only [PType.type.injEq, reduceCtorEq, false_implies, and_true]
    cases htb : tt.builder t with
    | none =>
      simp only [true_iff]
      rintro _ tb rfl h
      rw [htb] at h
      cases h
    | some tb =>
      simp only [optional_iff]
      constructor
      · intro h t' tb' e htb'
        split at h
        · rename_i hr
          split at h
          · rename_i hn
            exact ⟨by simp [hr], hn⟩
          · cases h
        · cases h
      · intro h
        obtain ⟨h1, h2⟩ := h t tb rfl htb
        rw [if_pos (by simpa using h1), if_pos h2]

/-- C62, guarded: without object types outside the body, both styles generate from the same documents,
and the same code. -/
theorem C62_generation_partial (tt : TypeTable B) (op : OperationMethod) (c : Code) (hc : methodSigBody op = .ok c)
    (hbody : BodyNamed op.params)
    (h : ∀ p ∈ op.params, ∀ t, p.typ = .type t → (∀ ct, p.kind ≠ .body ct) → tt.builder t = none)
    (hraw : ∀ p ∈ op.params, p.typ = .rawBody → ∃ ct, p.kind = .body ct) : builderStruct tt op = .ok c := by
  have hg : genParams tt op.params = .ok () := by
    rw [C62_generates]
    intro p hp
    refine ⟨?_, ?_⟩
    · intro t tb ht htb
      by_cases hk : ∃ ct, p.kind = .body ct
      · obtain ⟨ct, hk⟩ := hk
        exact ⟨by simp [Optional, hk], hbody p hp ct hk⟩
      · rw [h p hp t ht fun ct hct => hk ⟨ct, hct⟩] at htb
        cases htb
    · intro ht
      obtain ⟨ct, hk⟩ := hraw p hp ht
      unfold methodSigBody at hc
      obtain ⟨_, _, hc⟩ := bind_ok_inv hc
      obtain ⟨bs, hbs, _⟩ := bind_ok_inv hc
      have : ∀ ps : List Param, ∀ bs, bodyFuncs ps = .ok bs → p ∈ ps →
          p.kind = .body .octetStream ∨ ∃ m, p.kind = .body (.text m) := by
        intro ps
        induction ps with
        | nil => simp
        | cons q qs ih =>
          intro bs h hm
          simp only [bodyFuncs] at h
          obtain ⟨r, hr, h⟩ := bind_ok_inv h
          rcases List.mem_cons.mp hm with rfl | hm
          · rw [hk, ht] at h
            cases ct with
            | octetStream => exact .inl hk
            | text m => exact .inr ⟨m, hk⟩
            | json => cases h
            | form => cases h
          · exact ih r hr hm
      exact this _ bs hbs hp
  unfold builderStruct
  rw [hg]
  exact hc

/-- Types: 0 is a string, 1 is an object. -/
def exTypes : TypeTable Arg where
  builder := fun t => if t = 1 then some ⟨txt "{}", id, fun a => if a.display = [] then .error "no value supplied for x".toList else .ok a⟩ else none
  name := fun t => if t = 0 then "String".toList else "Thing".toList

/-- An operation with an object-typed optional query parameter. -/
def objQueryOp : OperationMethod where
  operationId := "get_it".toList
  tags := []
  method := .get
  path := [.const "/v1".toList]
  params := [⟨"filter".toList, "filter".toList, .type 1, .query false⟩]
  responses := []
  websocket := false

/-- C62: a document that is fine for the positional style makes generation panic in the builder style. -/
theorem C62_generation_fails : ∃ (op : OperationMethod) (c : Code), methodSigBody op = .ok c ∧
    (builderStruct exTypes op).isPanic = true := ⟨objQueryOp, _, rfl, rfl⟩

/-- An operation with a query parameter called `send`. -/
def sendOp : OperationMethod where
  operationId := "get_it".toList
  tags := []
  method := .get
  path := [.const "/v1".toList]
  params := [⟨"send".toList, "send".toList, .type 0, .query false⟩]
  responses := []
  websocket := false

/-- C62: a parameter called `send`: the positional method issues a request, the builder does not
compile. -/
theorem C62_clash_fails : ∃ (op : OperationMethod) (c : Code), methodSigBody op = .ok c ∧
    builderStruct exTypes op = .ok c ∧ structOk exTypes op.params false = false ∧
    ∃ r, Issues exCfg op [.opt (some (txt "x"))] r :=
  ⟨sendOp, _, rfl, rfl, by decide, _, _, _, rfl, rfl, rfl⟩

/-- An operation with a body that has a builder. -/
def bodyOp : OperationMethod where
  operationId := "put_it".toList
  tags := []
  method := .put
  path := [.const "/v1/".toList, .param "id".toList]
  params := [⟨"id".toList, "id".toList, .type 0, .path⟩, ⟨"q".toList, "q".toList, .type 0, .query false⟩,
    ⟨"body".toList, "body".toList, .type 1, .body .json⟩]
  responses := []
  websocket := false

def exCalls : List (Call Arg) :=
  [("id".toList, .value (.error "bad".toList)), ("body".toList, .value (.ok (txt "b"))),
   ("id".toList, .value (.ok (txt "i"))), ("body".toList, .map fun a => ⟨a.display ++ ['!'], a.ser⟩)]

/-- C30: a body with a builder counts as set to the default of the builder: if that is complete, a
request is sent although the body was never set. -/
theorem C30_unset_body : ∃ (calls : List (Call Arg)) (v : Value), (∀ c ∈ calls, CallOk exTypes bodyOp.params c) ∧
    inputsFor calls "body".toList = [] ∧
    Outcome exTypes ⟨"body".toList, "body".toList, .type 1, .body .json⟩ (inputsFor calls "body".toList) (.ok v) := by
  refine ⟨[("id".toList, .value (.ok (txt "i")))], .plain (txt "{}"), ?_, rfl, ?_⟩
  · intro c hc
    rw [List.mem_singleton] at hc
    subst hc
    exact ⟨⟨"id".toList, "id".toList, .type 0, .path⟩, by simp [bodyOp], rfl, 0, rfl⟩
  · exact .built 1 _ [] (txt "{}") (txt "{}") rfl ⟨1, .json, rfl, rfl, rfl⟩ .start rfl

/- The hypotheses are met by a chain of calls with a failed conversion that is corrected, and a
mapped body. -/
example : structOk exTypes bodyOp.params false = true := by decide
example : (∃ s, setAll exTypes (new exTypes bodyOp.params) exCalls = some s) := ⟨_, rfl⟩
example : ∀ c ∈ exCalls, CallOk exTypes bodyOp.params c :=
  (calls_compile exTypes bodyOp.params exCalls (by decide)).mp ⟨_, rfl⟩
example : Forall₂ (fun p v => Outcome exTypes p (inputsFor exCalls p.name) (.ok v)) bodyOp.params
    [.plain (txt "i"), .opt none, .plain ⟨"b!".toList, .str "b".toList⟩] := by
  have no : ∀ tb, ¬ HasBuilder exTypes ⟨"id".toList, "id".toList, .type 0, .path⟩ tb := by
    rintro tb ⟨_, _, _, h, _⟩; cases h
  have no' : ∀ tb, ¬ HasBuilder exTypes ⟨"q".toList, "q".toList, .type 0, .query false⟩ tb := by
    rintro tb ⟨_, _, _, h, _⟩; cases h
  refine .cons ?_ (.cons ?_ (.cons ?_ .nil))
  · exact .given "String".toList [.value (.error "bad".toList)] (txt "i") ⟨0, rfl, rfl, no⟩ (by simp [Optional])
  · exact .absent "String".toList ⟨0, rfl, rfl, no'⟩ (.inl rfl)
  · exact .built 1 _ _ ⟨"b!".toList, .str "b".toList⟩ _ rfl ⟨1, .json, rfl, rfl, rfl⟩
      (.mapped [.value (.ok (txt "b"))] _ (txt "b") (.body [] (txt "b"))) rfl
example : Outcome exTypes ⟨"id".toList, "id".toList, .type 0, .path⟩
    (inputsFor (exCalls.take 2) "id".toList) (.error "conversion to `String` for id failed".toList) :=
  .failed "String".toList [] "bad".toList ⟨0, rfl, rfl, by rintro tb ⟨_, _, _, h, _⟩; cases h⟩

end Progenitor.Props

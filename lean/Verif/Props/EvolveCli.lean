import Verif.Spec.EvolveCli
import Verif.Props.EvolveStream
import Verif.Props.CliDoc

/-!
# C91: documents can grow without changes for users of the command line
-/

namespace Progenitor.Props

open Progenitor Progenitor.Params Progenitor.Spec Progenitor.Names Progenitor.Doc
open Progenitor.Client Progenitor.Exec Progenitor.Builder Progenitor.Stream Progenitor.Cli

variable {u : Unicode} {ct : CliTypes} {types : Types}

/-! ## Flags -/

/-- Arguments with further flags, named by `N`. -/
structure ArgsAlike (N : Str → Prop) (a a' : Args) : Prop where
  body : a'.body = a.body
  same : ∀ n, ¬ N n → BTree.get n a'.flags = BTree.get n a.flags
  added : ∀ n, N n → BTree.get n a.flags = none
  optional : ∀ n f, N n → BTree.get n a'.flags = some f → f.volition = .optional

theorem paramArgs_alike {N : Str → Prop} {old : Param → Bool} {pg : Option Pagination} {ps : List Param} {a a' b b' : Args}
    (h : ArgsAlike N a a') (ho : ∀ p ∈ ps, old p = true → hasFlag pg p = true → ¬ N (toKebab u p.name))
    (hn : ∀ p ∈ ps, old p = false → hasFlag pg p = true → N (toKebab u p.name) ∧ paramVolition pg p = .optional)
    (hb : paramArgs u pg (ps.filter old) a = .ok b) (hb' : paramArgs u pg ps a' = .ok b') : ArgsAlike N b b' := by
  induction ps generalizing a a' with
  | nil =>
    cases hb
    cases hb'
    exact h
  | cons p ps ih =>
    have ho' : ∀ p ∈ ps, old p = true → hasFlag pg p = true → ¬ N (toKebab u p.name) := fun q hq => ho q (by simp [hq])
    have hn' : ∀ p ∈ ps, old p = false → hasFlag pg p = true → N (toKebab u p.name) ∧ paramVolition pg p = .optional :=
      fun q hq => hn q (by simp [hq])
    obtain ⟨c', hc', hb'⟩ := bind_ok_inv hb'
    cases hop : old p with
    | true =>
      rw [List.filter_cons_of_pos hop] at hb
      obtain ⟨c, hc, hb⟩ := bind_ok_inv hb
      refine ih ?_ ho' hn' hb hb'
      unfold paramArg at hc hc'
      split at hc
      · rename_i hf
        rw [if_pos hf] at hc'
        have hN := ho p (by simp) hop hf
        split at hc
        · cases hc
        · rename_i t ht
          simp only [ht] at hc'
          dsimp only at hc
          split at hc
          · cases hc
          · split at hc'
            · cases hc'
            · cases hc
              cases hc'
              refine ⟨h.body, fun n hx => ?_, fun n hx => ?_, fun n f hx hg => ?_⟩
              · rw [BTree.get_insert, BTree.get_insert, h.same n hx]
              · rw [BTree.get_insert, if_neg (by rintro rfl; exact hN hx)]
                exact h.added n hx
              · rw [BTree.get_insert, if_neg (by rintro rfl; exact hN hx)] at hg
                exact h.optional n f hx hg
      · rename_i hf
        rw [if_neg hf] at hc'
        cases hc
        cases hc'
        exact h
    | false =>
      rw [List.filter_cons_of_neg (by simp [hop])] at hb
      refine ih ?_ ho' hn' hb hb'
      unfold paramArg at hc'
      split at hc'
      · rename_i hf
        obtain ⟨hN, hv⟩ := hn p (by simp) hop hf
        split at hc'
        · cases hc'
        · dsimp only at hc'
          split at hc'
          · cases hc'
          · cases hc'
            refine ⟨h.body, fun n hx => ?_, h.added, fun n f hx hg => ?_⟩
            · rw [BTree.get_insert, if_neg (by rintro rfl; exact hx hN)]
              exact h.same n hx
            · rw [BTree.get_insert] at hg
              split at hg
              · cases hg
                exact hv
              · exact h.optional n f hx hg
      · cases hc'
        exact h

theorem propArg_alike {N : Str → Prop} {a a' : Args} (h : ArgsAlike N a a') {i : PropInfo}
    (hi : ct.fromStr (propType ct i) = true → ¬ N (toKebab u i.name)) : ArgsAlike N (propArg u ct a i) (propArg u ct a' i) := by
  have e : (ct.inner i.type).getD i.type = propType ct i := (propType_eq i).symm
  unfold propArg
  dsimp only
  rw [e]
  cases hf : ct.fromStr (propType ct i) with
  | true =>
    have hN := hi hf
    rw [h.same _ hN]
    simp only [Bool.true_and]
    split
    · refine ⟨h.body, fun n hx => ?_, fun n hx => ?_, fun n f hx hg => ?_⟩
      · rw [BTree.get_insert, BTree.get_insert, h.same n hx]
      · rw [BTree.get_insert, if_neg (by rintro rfl; exact hN hx)]
        exact h.added n hx
      · rw [BTree.get_insert, if_neg (by rintro rfl; exact hN hx)] at hg
        exact h.optional n f hx hg
    · split
      · exact ⟨rfl, h.same, h.added, h.optional⟩
      · exact h
  | false =>
    simp only [Bool.false_and, Bool.false_eq_true, if_false]
    split
    · exact ⟨rfl, h.same, h.added, h.optional⟩
    · exact h

theorem propArgs_alike {N : Str → Prop} {ps : List PropInfo} {a a' : Args} (h : ArgsAlike N a a')
    (hi : ∀ i ∈ ps, ct.fromStr (propType ct i) = true → ¬ N (toKebab u i.name)) :
    ArgsAlike N (ps.foldl (propArg u ct) a) (ps.foldl (propArg u ct) a') := by
  induction ps generalizing a a' with
  | nil => exact h
  | cons i ps ih => exact ih (propArg_alike h (hi i (by simp))) fun j hj => hi j (by simp [hj])

theorem bodyArgs_alike {N : Str → Prop} {t : Params.TypeId} {a a' : Args} (h : ArgsAlike N a a')
    (hi : ∀ ps, ct.props t = some ps → ∀ i ∈ ps, ct.fromStr (propType ct i) = true → ¬ N (toKebab u i.name)) :
    ArgsAlike N (bodyArgs u ct t a) (bodyArgs u ct t a') := by
  unfold bodyArgs
  cases hp : ct.props t with
  | none => exact ⟨rfl, h.same, h.added, h.optional⟩
  | some ps => exact propArgs_alike ⟨rfl, h.same, h.added, h.optional⟩ (hi ps hp)

theorem omissible_not_body {p : Param} (h : Omissible p) : isBody p.kind = false := by
  rcases h.1 with e | e <;> rw [e] <;> rfl

theorem bodyType_grown {old : Param → Bool} {ps : List Param} (h : ∀ p ∈ ps, old p = false → Omissible p) :
    Cli.bodyType (ps.filter old) = Cli.bodyType ps := by
  have : (ps.filter old).find? (fun p => isBody p.kind) = ps.find? fun p => isBody p.kind := by
    induction ps with
    | nil => rfl
    | cons p ps ih =>
      have ih := ih fun q hq => h q (by simp [hq])
      cases ho : old p with
      | true => rw [List.filter_cons_of_pos ho, List.find?_cons, List.find?_cons, ih]
      | false =>
        rw [List.filter_cons_of_neg (by simp [ho]), List.find?_cons, omissible_not_body (h p (by simp) ho)]
        exact ih
  unfold Cli.bodyType
  rw [this]

/-- The names of the new flags. -/
def NewFlag (u : Unicode) (old : Param → Bool) (pg : Option Pagination) (ps : List Param) (n : Str) : Prop :=
  ∃ p ∈ ps, old p = false ∧ hasFlag pg p = true ∧ toKebab u p.name = n

theorem cliArgs_alike {old : Param → Bool} {pg : Option Pagination} {ps : List Param} {args args' : Args}
    (hopt : ∀ p ∈ ps, old p = false → Omissible p)
    (hfirst : ∀ d, pg = some d → ∀ p ∈ ps, old p = false → p.apiName ∉ d.firstPageParams)
    (hfree : ∀ t, Cli.bodyType ps = some t → ∀ props, ct.props t = some props → ∀ i ∈ props, ct.fromStr (propType ct i) = true →
      ¬ NewFlag u old pg ps (toKebab u i.name))
    (h : cliArgs u ct pg (ps.filter old) = .ok args) (h' : cliArgs u ct pg ps = .ok args') :
    ArgsAlike (NewFlag u old pg ps) args args' := by
  have hdiff := ((C39_generates_iff (pg := pg) (u := u) ct ps).mp ⟨_, h'⟩).2
  have hkey : ∀ p ∈ ps, ∀ q ∈ ps, hasFlag pg p = true → hasFlag pg q = true → toKebab u p.name = toKebab u q.name → old p = true →
      old q = true := by
    intro p hp q hq hpf hqf e ho
    have hnd := hdiff (ps.filter (hasFlag pg)) List.filter_sublist fun x hx => (hasFlag_iff x).mp (List.mem_filter.mp hx).2
    have : p = q := nodup_inj hnd (List.mem_filter.mpr ⟨hp, hpf⟩) (List.mem_filter.mpr ⟨hq, hqf⟩) e
    rw [← this]
    exact ho
  unfold cliArgs at h h'
  obtain ⟨a, ha, h⟩ := bind_ok_inv h
  obtain ⟨a', ha', h'⟩ := bind_ok_inv h'
  cases h
  cases h'
  have hal : ArgsAlike (NewFlag u old pg ps) a a' := by
    refine paramArgs_alike ⟨rfl, fun _ _ => rfl, fun _ _ => rfl, fun n f _ hg => (by cases hg)⟩ ?_ ?_ ha ha'
    · rintro p hp ho hf ⟨q, hq, hqo, hqf, e⟩
      rw [hkey p hp q hq hf hqf e.symm ho] at hqo
      cases hqo
    · intro p hp ho hf
      refine ⟨⟨p, hp, ho, hf, rfl⟩, ?_⟩
      unfold paramVolition
      have h1 : innatelyRequired p.kind = false := by rcases (hopt p hp ho).1 with e | e <;> rw [e] <;> rfl
      rw [h1]
      cases pg with
      | none => rfl
      | some d =>
        have : d.firstPageParams.contains p.apiName = false := by
          have := hfirst d rfl p hp ho
          simpa using this
        simp only [this]
        rfl
  rw [bodyType_grown hopt]
  cases hb : Cli.bodyType ps with
  | none => exact hal
  | some t => exact bodyArgs_alike hal (hfree t hb)

/-! ## Words -/

theorem alike_kind {N : Str → Prop} {a a' : Args} (h : ArgsAlike N a a')
    (hN : a.body ≠ .none → ¬ N "json-body".toList ∧ ¬ N "json-body-template".toList) {n : Str} {k : ArgKind}
    (hk : argKind a n = some k) : argKind a' n = some k := by
  have hn : ¬ N n := by
    intro hx
    unfold argKind at hk
    rw [h.added n hx] at hk
    dsimp only at hk
    split at hk
    · cases hk
    · rename_i hb
      split at hk
      · rename_i e; subst e; exact (hN hb).1 hx
      · split at hk
        · rename_i e; subst e; exact (hN hb).2 hx
        · cases hk
  unfold argKind at hk ⊢
  rw [h.same n hn, h.body]
  exact hk

theorem alike_given {ps : Parsers} {N : Str → Prop} {a a' : Args} (h : ArgsAlike N a a')
    {l : List (Str × Option Str)} {gs : List (Str × Given)} (hr : Forall₂ (Reads ps a) l gs) {n : Str} (hn : N n) : givenGet gs n = none := by
  induction hr with
  | nil => rfl
  | @cons x y l gs hxy _ ih =>
    obtain ⟨m, g⟩ := y
    cases g with
    | value v =>
      rw [givenGet, if_neg]
      · exact ih
      · rintro rfl
        obtain ⟨k, o⟩ := x
        cases o with
        | none => cases hxy.2.2
        | some s =>
          obtain ⟨rfl, k, h1, _, h2⟩ := hxy
          unfold argKind at h1
          rw [h.added m hn] at h1
          dsimp only at h1
          split at h1
          · cases h1
          · split at h1
            · cases h1
              unfold givenValue at h2
              dsimp only at h2
              split at h2 <;> cases h2
            · split at h1
              · cases h1
                cases h2
              · cases h1
    | path p => exact ih
    | switch => exact ih

theorem alike_matches {ps : Parsers} {N : Str → Prop} {a a' : Args} (h : ArgsAlike N a a')
    (hs' : BTree.Sorted a'.flags) (hN : a.body ≠ .none → ¬ N "json-body".toList ∧ ¬ N "json-body-template".toList)
    {body : Option Params.TypeId} {ws : List Str} {line : Line} (hm : matchesOf ps a body ws = .ok line) :
    matchesOf ps a' body ws = .ok line ∧ ∀ n, N n → line.get n = none := by
  unfold matchesOf at hm ⊢
  obtain ⟨gs, h1, h2⟩ := Clap.bind_ok.mp hm
  obtain ⟨l, hw, hr, hnd⟩ := (readWords_iff ps a ws gs).mp h1
  split at h2
  · rename_i hacc
    cases h2
    refine ⟨Clap.bind_ok.mpr ⟨gs, (readWords_iff ps a' ws gs).mpr ⟨l, hw, ?_, hnd⟩, ?_⟩, fun n hn => alike_given h hr hn⟩
    · refine forall₂_imp' hr fun x _ y _ hxy => ?_
      obtain ⟨n, o⟩ := x
      cases o with
      | none => exact ⟨hxy.1, alike_kind h hN hxy.2.1, hxy.2.2⟩
      | some s =>
        obtain ⟨e, k, h1, h2⟩ := hxy
        exact ⟨e, k, alike_kind h hN h1, h2⟩
    · rw [if_pos]
      unfold accepts at hacc ⊢
      rw [Bool.and_eq_true, List.all_eq_true] at hacc ⊢
      rw [h.body]
      refine ⟨fun e he => ?_, hacc.2⟩
      obtain ⟨n, f⟩ := e
      have hg := BTree.get_of_mem hs' he
      by_cases hn : N n
      · unfold flagAccepts
        dsimp only
        rw [h.optional n f hn hg]
      · rw [h.same n hn] at hg
        exact hacc.1 _ (BTree.mem_of_get hg)
  · cases h2

theorem get_filter {V : Type} (f : Str → Bool) (m : BTree.Map V) (n : Str) :
    BTree.get n (m.filter fun e => f e.1) = if f n then BTree.get n m else none := by
  induction m with
  | nil => cases f n <;> rfl
  | cons x m ih =>
    obtain ⟨k, v⟩ := x
    cases hf : f k with
    | true =>
      rw [List.filter_cons_of_pos (p := fun e : Str × V => f e.1) hf, BTree.get_cons, BTree.get_cons, ih]
      by_cases e : k = n
      · subst e; simp [hf]
      · simp [e]
    | false =>
      rw [List.filter_cons_of_neg (p := fun e : Str × V => f e.1) (by simp [hf]), BTree.get_cons, ih]
      by_cases e : k = n
      · subst e; simp [hf]
      · simp [e]

theorem alike_calls {B : Type} {N : Str → Prop} {a a' : Args} (h : ArgsAlike N a a') (hs : BTree.Sorted a.flags)
    (hs' : BTree.Sorted a'.flags) {line : Line} (hl : ∀ n, N n → line.get n = none) (set : Str → Arg → B → B) :
    lineCalls set a' line = lineCalls set a line := by
  classical
  have hf : a.flags = a'.flags.filter fun e => decide (¬ N e.1) := by
    refine BTree.ext hs (hs'.filter _) fun k => ?_
    rw [get_filter fun n => decide (¬ N n)]
    by_cases hk : N k
    · rw [h.added k hk, if_neg (by simp [hk])]
    · rw [h.same k hk, if_pos (by simp [hk])]
  have hc : flagCalls set a' line = flagCalls set a line := by
    unfold flagCalls
    rw [hf, List.filterMap_filter]
    congr 1
    funext e
    by_cases hk : N e.1
    · rw [hl _ hk, if_neg (by simp [hk])]
      rfl
    · rw [if_pos (by simp [hk])]
  unfold lineCalls
  rw [h.body, hc]

/-! ## Commands -/

variable {B P V I : Type}

/-- What C91 is about: an operation and the one it has become, with the commands for them. -/
structure GrownCommand (u : Unicode) (types : Types) (ct : CliTypes) (tt : TypeTable B) (old : Str → Bool) (path method : Str)
    (d d' : DocOperation) (pr pr' : Processed) (c c' : Code) (m m' : Args × Resp.Kind × Resp.Kind) : Prop where
  grown : Grown old d d'
  before : processOperation (sanitize u .snake) types path method d = .ok pr
  after : processOperation (sanitize u .snake) types path method d' = .ok pr'
  oldCode : builderStruct tt pr.op = .ok c
  newCode : builderStruct tt pr'.op = .ok c'
  oldCommand : cliMethod u ct pr.paginated pr.op = .ok m
  newCommand : cliMethod u ct pr'.paginated pr'.op = .ok m'
  method : MethodSound (sanitize u .snake) path method d'
  builder : BuilderSound (sanitize u .snake) tt (pr'.paginated ≠ none) d'
  command : CommandSound u types ct tt d'

theorem GrownCommand.alike {tt : TypeTable B} {old : Str → Bool} {path method : Str} {d d' : DocOperation} {pr pr' : Processed} {c c' : Code}
    {m m' : Args × Resp.Kind × Resp.Kind} (h : GrownCommand u types ct tt old path method d d' pr pr' c c' m m') (hd : PropsDistinct types)
    (hfl : FlagsFree u types ct old d')
    (hpg : pr'.paginated = pr.paginated) (hfirst : pr.paginated ≠ none → FirstPageOld old d') :
    m'.2 = m.2 ∧ Cli.bodyType pr'.op.params = Cli.bodyType pr.op.params ∧ BTree.Sorted m.1.flags ∧ BTree.Sorted m'.1.flags ∧
    ∃ N, ArgsAlike N m.1 m'.1 ∧ (m.1.body ≠ .none → ¬ N "json-body".toList ∧ ¬ N "json-body-template".toList) := by
  have hG := grown_growth h.grown h.before h.after h.method
  have ho := h.oldCommand
  have hn := h.newCommand
  unfold cliMethod at ho hn
  obtain ⟨args, ha, ho⟩ := bind_ok_inv ho
  obtain ⟨ks, hk, ho⟩ := bind_ok_inv ho
  obtain ⟨args', ha', hn⟩ := bind_ok_inv hn
  obtain ⟨ks', hk', hn⟩ := bind_ok_inv hn
  cases ho
  cases hn
  have hbt := bodyType_grown hG.optional
  rw [← hG.params] at hbt
  have hnew : ∀ n, NewFlag u (oldParam old) pr'.paginated pr'.op.params n → ∃ p, DocFlag u types d' p ∧ old p.name = false ∧ flagName u p = n := by
    rintro n ⟨a, hap, hao, haf, rfl⟩
    obtain ⟨p, h1, h2, h3, _⟩ := doc_flagged hd h.after hap ((hasFlag_iff a).mp haf)
    refine ⟨p, h1, ?_, by rw [h3]; rfl⟩
    unfold oldParam at hao
    rw [Bool.or_eq_false_iff] at hao
    rw [← h2.1]
    exact hao.2
  refine ⟨?_, hbt.symm, ?_, ?_, NewFlag u (oldParam old) pr'.paginated pr'.op.params, ?_, ?_⟩
  · have e : pr'.op.responses = pr.op.responses := by rw [hG.rest]
    rw [e, hpg, hk] at hk'
    exact (Res.ok.inj hk').symm
  · obtain ⟨_, -, -, hs, -⟩ := cliArgs_ok ha
    exact hs
  · obtain ⟨_, -, -, hs, -⟩ := cliArgs_ok ha'
    exact hs
  · rw [hG.params, ← hpg] at ha
    refine cliArgs_alike hG.optional ?_ ?_ ha ha'
    · intro dd hdd p hp hpo hmem
      rw [hpg] at hdd
      have := hfirst (by rw [hdd]; simp)
      obtain ⟨item, req⟩ := dd
      have hreq := ((C37_paginated hd h.after item req).mp (hpg.trans hdd)).1
      exact new_api hpo (this req hreq _ hmem) rfl
    · intro t ht props hprops i hi hfs hN
      obtain ⟨p, h1, h2, h3⟩ := hnew _ hN
      exact ((hfl p h1 h2 t ((cli_bodyType_iff h.after _).mp ht)).2.2 props hprops i hi hfs) h3.symm
  · intro hb
    have : ∃ t, Cli.bodyType pr'.op.params = some t := by
      rw [← hbt]
      cases hx : Cli.bodyType pr.op.params with
      | some t => exact ⟨t, rfl⟩
      | none =>
        obtain ⟨_, -, -, -, h5⟩ := cliArgs_ok ha
        rw [hx] at h5
        exact absurd h5.1 hb
    obtain ⟨t, ht⟩ := this
    have ht := (cli_bodyType_iff h.after _).mp ht
    constructor
    · intro hN
      obtain ⟨p, h1, h2, h3⟩ := hnew _ hN
      exact (hfl p h1 h2 t ht).1 h3
    · intro hN
      obtain ⟨p, h1, h2, h3⟩ := hnew _ hN
      exact (hfl p h1 h2 t ht).2.1 h3

/-- C91: a command line that was accepted still is, and means the same. -/
theorem C91_words {tt : TypeTable B} {old : Str → Bool} {path method : Str} {d d' : DocOperation} {pr pr' : Processed} {c c' : Code}
    {m m' : Args × Resp.Kind × Resp.Kind} (h : GrownCommand u types ct tt old path method d d' pr pr' c c' m m') (hd : PropsDistinct types)
    (hfl : FlagsFree u types ct old d')
    (hpg : pr'.paginated = pr.paginated) (hfirst : pr.paginated ≠ none → FirstPageOld old d') (ps : Parsers) (ws : List Str) (line : Line)
    (hm : matchesOf ps m.1 (Cli.bodyType pr.op.params) ws = .ok line) (set : Str → Arg → B → B) :
    matchesOf ps m'.1 (Cli.bodyType pr'.op.params) ws = .ok line ∧ lineCalls set m'.1 line = lineCalls set m.1 line := by
  obtain ⟨_, hbt, hs, hs', N, hal, hN⟩ := h.alike hd hfl hpg hfirst
  rw [hbt]
  obtain ⟨h1, h2⟩ := alike_matches hal hs' hN hm
  exact ⟨h1, alike_calls hal hs hs' h2 set⟩

/-- C91: commands do the same with the program for a document with further parameters. -/
theorem C91_command {tt : TypeTable B} {old : Str → Bool} {path method : Str} {d d' : DocOperation} {pr pr' : Processed} {c c' : Code}
    {m m' : Args × Resp.Kind × Resp.Kind} (h : GrownCommand u types ct tt old path method d d' pr pr' c c' m m') (hd : PropsDistinct types)
    (hfl : FlagsFree u types ct old d')
    (hpg : pr'.paginated = none)
    {cfg : Config} (hq : NoBareQuery cfg c.url) (hooks : Hooks) (w : World) (decode : Params.TypeId → Bytes → Except P V)
    (set : Str → Arg → B → B) (ps : Parsers) (hist : List Event) (ws : List Str) {o : Cli.Outcome P V} {hist' : List Event}
    (hold : runWords ps noOverride cfg hooks w decode ct tt set pr.op.params c m hist ws = (.ok o, hist')) (ho : o ≠ .noCompile) :
    runWords ps noOverride cfg hooks w decode ct tt set pr'.op.params c' m' hist ws = (.ok o, hist') := by
  have hG := grown_growth h.grown h.before h.after h.method
  have hpg0 : pr.paginated = none := by
    cases hx : pr.paginated with
    | none => rfl
    | some pd =>
      rw [(grown_paged h.grown hd h.before h.after h.method hx).1] at hpg
      cases hpg
  obtain ⟨hks, hbt, -, -, N, hal, -⟩ := h.alike hd hfl (hpg.trans hpg0.symm) (fun hx => absurd hpg0 hx)
  unfold runWords at hold ⊢
  cases hm : matchesOf ps m.1 (Cli.bodyType pr.op.params) ws with
  | rejected => rw [hm] at hold; cases hold
  | panicked => rw [hm] at hold; cases hold
  | ok line =>
    obtain ⟨h1, h2⟩ := C91_words h hd hfl (hpg.trans hpg0.symm) (fun hx => absurd hpg0 hx) ps ws line hm set
    rw [hm] at hold
    rw [h1]
    dsimp only at hold ⊢
    have hc := h.oldCode
    have hc' := h.newCode
    unfold builderStruct at hc hc'
    obtain ⟨_, _, hc⟩ := bind_ok_inv hc
    obtain ⟨_, hg', hc'⟩ := bind_ok_inv hc'
    have hst' : structOk tt pr'.op.params false = true := by
      refine (C62_struct tt _ _ hg').mpr ((noClash_iff h.after tt _).mpr ⟨hG.distinct, ?_⟩)
      refine (builderSound_congr ?_).mp h.builder
      rw [hpg]
      simp
    have hcc' : cliCompiles ct tt pr'.op.params m'.1 = true := by
      have hn := h.newCommand
      unfold cliMethod at hn
      obtain ⟨args', ha', hn⟩ := bind_ok_inv hn
      obtain ⟨ks', hk', hn⟩ := bind_ok_inv hn
      cases hn
      exact (command_sound_iff hd h.after ha' tt).mpr h.command
    have hsame : executeWith noOverride cfg hooks w decode ct tt set pr'.op.params c' m' hist line =
        executeWith noOverride cfg hooks w decode ct tt set pr.op.params c m hist line := by
      have e1 := congrArg Prod.fst hold
      dsimp only at e1
      have e1 : (executeWith noOverride cfg hooks w decode ct tt set pr.op.params c m hist line).1 = o := Clap.ok.inj e1
      unfold executeWith at e1 ⊢
      rw [hcc', hst', h2, hks]
      split at e1
      · rename_i hok
        rw [if_pos hok, if_pos (by rfl)]
        cases hl : lineCalls set m.1 line with
        | none => rfl
        | some calls =>
          rw [hl] at e1
          dsimp only at e1 ⊢
          cases hs : setAll tt (new tt pr.op.params) calls with
          | none =>
            rw [hs] at e1
            exact absurd e1.symm ho
          | some s =>
            obtain ⟨s', hs', hsp⟩ := growth_spread hG hs
            rw [hs']
            dsimp only [noOverride]
            rw [growth_send hG hc hc' hq tt hooks w decode hist hsp.1 hsp.2]
      · exact absurd e1.symm ho
    rw [hsame]
    exact hold

/-- The view of a run of a list command: what was done and reported, how it ended, and what was sent. -/
def listView (r : ListRun B P V I) :
    List (Act Unit (Answer (Error P (Resp.Inner V)) I) (ListReport (Error P (Resp.Inner V)) I)) × ListEnd (Error P (Resp.Inner V)) × List Event :=
  (observable r.1, r.2)

/-- C91: so do commands that list items. -/
theorem C91_list {tt : TypeTable B} {old : Str → Bool} {path method : Str} {d d' : DocOperation} {pr pr' : Processed} {c c' : Code}
    {m m' : Args × Resp.Kind × Resp.Kind} (h : GrownCommand u types ct tt old path method d d' pr pr' c c' m m') (hd : PropsDistinct types)
    (hfl : FlagsFree u types ct old d')
    (hpg : pr.paginated ≠ none) (hfirst : FirstPageOld old d')
    {cfg : Config} (hq : NoBareQuery cfg c.url) (hooks : Hooks) (w : World) (decode : Params.TypeId → Bytes → Except P V)
    (pageOf : V → Page I) (max : Nat) (set : Str → Arg → B → B) (ps : Parsers) (k : Nat) (hist : List Event) (ws : List Str)
    {r : Option (ListRun B P V I)}
    (hold : runList ps noOverride cfg hooks w decode pageOf max ct tt types set pr.op.params c m k hist ws = .ok r)
    (ho : ∀ x, r = some x → x.2.1 ≠ .noCompile) :
    ∃ r', runList ps noOverride cfg hooks w decode pageOf max ct tt types set pr'.op.params c' m' k hist ws = .ok r' ∧
      r'.map listView = r.map listView := by
  have hG := grown_growth h.grown h.before h.after h.method
  obtain ⟨pd, hpd⟩ := Option.ne_none_iff_exists'.mp hpg
  obtain ⟨hpg', ht, _⟩ := grown_paged h.grown hd h.before h.after h.method hpd
  have hsame := hpg'.trans hpd.symm
  obtain ⟨hks, hbt, -, hso', N, hal, hNb⟩ := h.alike hd hfl hsame fun _ => hfirst
  unfold runList at hold ⊢
  obtain ⟨line, hm, hr⟩ := Clap.bind_ok.mp hold
  cases hr
  obtain ⟨h1, h2⟩ := C91_words h hd hfl hsame (fun _ => hfirst) ps ws line hm set
  refine ⟨_, Clap.bind_ok.mpr ⟨line, h1, rfl⟩, ?_⟩
  have hc := h.oldCode
  have hc' := h.newCode
  unfold builderStruct at hc hc'
  obtain ⟨_, _, hc⟩ := bind_ok_inv hc
  obtain ⟨_, hg', hc'⟩ := bind_ok_inv hc'
  have hst' : structOk tt pr'.op.params true = true := by
    refine (C62_struct tt _ _ hg').mpr ((noClash_iff h.after tt _).mpr ⟨hG.distinct, ?_⟩)
    refine (builderSound_congr ?_).mp h.builder
    rw [hpg']
    simp
  have hcc' : cliCompiles ct tt pr'.op.params m'.1 = true := by
    have hn := h.newCommand
    unfold cliMethod at hn
    obtain ⟨args', ha', hn⟩ := bind_ok_inv hn
    obtain ⟨ks', hk', hn⟩ := bind_ok_inv hn
    cases hn
    exact (command_sound_iff hd h.after ha' tt).mpr h.command
  have hlim : listLimit max ct m'.1 line = listLimit max ct m.1 line := by
    unfold listLimit
    cases hg : line.get "limit".toList with
    | none => rfl
    | some a =>
      have hn : ¬ N "limit".toList := by
        intro hx
        have := (alike_matches hal hso' hNb hm).2 _ hx
        rw [hg] at this
        cases this
      rw [hal.same _ hn]
  unfold executeList at ho ⊢
  split at ho
  · rename_i hok
    rw [if_pos hok]
    have hok' : builderStreamOk types pr.op.params = true := by
      rw [Bool.and_eq_true, Bool.and_eq_true] at hok
      exact hok.2.2
    obtain ⟨hbs, hntok⟩ := grown_streamOk hG (fun p _ hp => new_api hp ht) hok'
    rw [if_pos (by rw [hcc', hst', hbs]; rfl), h2, hks, hlim]
    cases hl : lineCalls set m.1 line with
    | none => rfl
    | some calls =>
      rw [hl] at ho
      dsimp only at ho ⊢
      cases hs : setAll tt (new tt pr.op.params) calls with
      | none =>
        rw [hs] at ho
        exact absurd rfl (ho _ rfl)
      | some s =>
        obtain ⟨s', hs', hsp⟩ := growth_spread hG hs
        rw [hs']
        dsimp only [noOverride]
        cases listLimit max ct m.1 line with
        | none => rfl
        | some n =>
          dsimp only
          unfold reportList
          obtain ⟨Rs, g1, g2, g3⟩ := growth_stream hG hc hc' hq tt hooks w decode pageOf hsp hntok
          have hrun := run_rel (Rs := ListRel (SndRel Rs)) (step := cliStep (reportable m.2.2) bldStep)
            (step' := cliStep (reportable m.2.2) bldStep) (fun x x' hx => list_rel (fun _ _ hx => take_rel g2 hx) _ hx) g3 k
            (s := listInit n (bldInit s)) (s' := listInit n (bldInit s')) ⟨rfl, g1⟩ hist
          rw [Option.map_map, Option.map_map]
          match hx : runFor (cliStep (reportable m.2.2) bldStep) (answerOf pageOf fun h q => send cfg hooks w decode tt c h q) k
              (listInit n (bldInit s)) hist,
            hy : runFor (cliStep (reportable m.2.2) bldStep) (answerOf pageOf fun h q => send cfg hooks w decode tt c' h q) k
              (listInit n (bldInit s')) hist, hrun with
          | none, none, _ => rfl
          | some x, some y, hrel =>
            obtain ⟨e1, e2, e3⟩ := hrel
            have e4 : endOf x.2.1 = endOf y.2.1 := by
              match x.2.1, y.2.1, e2 with
              | .init _, .init _, _ => rfl
              | .loop _, .loop _, _ => rfl
              | .over r, .over r', e => exact congrArg ListEnd.returned (show r = r' from e)
              | .panicked, .panicked, _ => rfl
            show some (observable y.1, endOf y.2.1, y.2.2) = some (observable x.1, endOf x.2.1, x.2.2)
            rw [e1, e4, e3]
  · exact absurd rfl (ho _ rfl)

/-! ## Examples -/

namespace EvolveCliExample

open AcceptExample CompileExample EvolveExample CliDocExample

/-- The body has a property `q`. -/
def taken : CliTypes := { exCliTypes with props := fun t => if t = 7 then some [⟨"q".toList, false, 3⟩] else none }

/-- Every text is a value. -/
def parsers : Parsers :=
  ⟨fun _ => none, fun _ _ => none, fun _ s => some ⟨s, .str s⟩, fun _ => none, fun _ _ => none⟩

/-- What the words of a command line set. -/
def told (ct : CliTypes) (d : DocOperation) (ws : List Str) : Option (List Str) :=
  match processOperation (sanitize exUnicode .snake) pageTypes "/things/{id}".toList "put".toList d with
  | .ok pr => match cliMethod exUnicode ct pr.paginated pr.op with
    | .ok m => match matchesOf parsers m.1 (Cli.bodyType pr.op.params) ws with
      | .ok line => (lineCalls (B := Option Arg) (fun _ _ b => b) m.1 line).map fun l => l.map Prod.fst
      | _ => none
    | _ => none
  | _ => none

/-- How a command for a list ends: `none` if the words are refused. -/
def ended (d : DocOperation) (ws : List Str) : Option (Option (Bool × Nat)) :=
  match processOperation (sanitize exUnicode .snake) pageTypes "/things".toList "get".toList d with
  | .ok pr => match builderStruct table pr.op with
    | .ok c => match cliMethod exUnicode exCliTypes pr.paginated pr.op with
      | .ok m =>
        match runList parsers noOverride exCfg ⟨false, false, false, false⟩ world (fun _ b => (.ok b.length : Except Unit Nat))
            (fun _ => (⟨[], none⟩ : Page Nat)) 9 exCliTypes table pageTypes (fun _ _ b => b) pr.op.params c m 9 [] ws with
        | .ok r => some (r.map fun x => ((match x.2.1 with | .noCompile => false | _ => true), x.2.2.length))
        | _ => none
      | _ => none
    | _ => none
  | _ => none

end EvolveCliExample

open EvolveCliExample EvolveExample CompileExample CliDocExample

/-- A command that has grown. -/
theorem grown_command (ct : CliTypes) {path method : Str} {d' : DocOperation} (hgr : Grown isOld (before d') d')
    (hm : MethodSound (sanitize exUnicode .snake) path method d')
    (hb : BuilderSound (sanitize exUnicode .snake) table (Paged pageTypes d') d') (pg : Option Pagination)
    (hd : ∀ d ∈ [before d', d'],
      (do let pr ← processOperation (sanitize exUnicode .snake) pageTypes path method d
          let _ ← builderStruct table pr.op
          let m ← cliMethod exUnicode ct pr.paginated pr.op
          pure (cliCompiles ct table pr.op.params m.1, pr.paginated)) = .ok (true, pg)) :
    ∃ pr pr' c c' m m', pr.paginated = pg ∧ pr'.paginated = pg ∧
      GrownCommand exUnicode pageTypes ct table isOld path method (before d') d' pr pr' c c' m m' := by
  have gen : ∀ d ∈ [before d', d'],
      ∃ pr c m, processOperation (sanitize exUnicode .snake) pageTypes path method d = .ok pr ∧
        builderStruct table pr.op = .ok c ∧ cliMethod exUnicode ct pr.paginated pr.op = .ok m ∧
        cliCompiles ct table pr.op.params m.1 = true ∧ pr.paginated = pg := by
    intro d hm
    obtain ⟨pr, hp, h⟩ := bind_ok_inv (hd d hm)
    obtain ⟨c, hc, h⟩ := bind_ok_inv h
    obtain ⟨m, hm, h⟩ := bind_ok_inv h
    have h := Res.ok.inj h
    exact ⟨pr, c, m, hp, hc, hm, congrArg Prod.fst h, congrArg Prod.snd h⟩
  obtain ⟨pr, c, m, hp, hc, ho, _, hpg⟩ := gen (before d') (by simp)
  obtain ⟨pr', c', m', hp', hc', hn, hcc', hpg'⟩ := gen d' (by simp)
  refine ⟨pr, pr', c, c', m, m', hpg, hpg', hgr, hp, hp', hc, hc', ho, hn, hm, ?_, ?_⟩
  · rw [propext (C86_paged_iff pageTypes_distinct hp')]
    exact hb
  · unfold cliMethod at hn
    obtain ⟨args', ha', hn⟩ := bind_ok_inv hn
    obtain ⟨ks', hk', hn⟩ := bind_ok_inv hn
    cases hn
    exact (command_sound_iff pageTypes_distinct hp' ha' table).mp hcc'

/-- The new parameter takes no flag of the body. -/
theorem good_flags : FlagsFree exUnicode pageTypes exCliTypes isOld AcceptExample.good := by
  intro p hp hn t ht
  have hname : p.name = "q".toList :=
    counts_all (Q := fun p => isOld p.name = false → p.name = "q".toList) _ (by decide +kernel) p hp.1 hn
  have hf : flagName exUnicode p = "q".toList := by
    unfold flagName
    rw [hname]
    decide +kernel
  rw [hf]
  refine ⟨by decide +kernel, by decide +kernel, ?_⟩
  intro ps hps i hi _
  have hall : ∀ i ∈ [(⟨"name".toList, true, 3⟩ : PropInfo), ⟨"size".toList, false, 4⟩, ⟨"more".toList, false, 6⟩],
      toKebab exUnicode i.name ≠ "q".toList := by decide +kernel
  simp only [exCliTypes] at hps
  split at hps
  · cases hps
    exact hall i hi
  · cases hps

/-- All that C91 needs is the case here, for a command without pages and for one with them. -/
example : FlagsFree exUnicode pageTypes exCliTypes isOld AcceptExample.good ∧ ∃ pr pr' c c' m m', pr.paginated = none ∧ pr'.paginated = none ∧
    GrownCommand exUnicode pageTypes exCliTypes table isOld "/things/{id}".toList "put".toList (before AcceptExample.good) AcceptExample.good
      pr pr' c c' m m' :=
  ⟨good_flags, grown_command exCliTypes before_grown good_method good_builder none (by decide +kernel)⟩

theorem wide_command {names : List Str} (hn : names = [] ∨ names = ["q".toList]) : FlagsFree exUnicode pageTypes exCliTypes isOld (wide names) ∧
    ∃ pr pr' c c' m m', pr.paginated = some ⟨13, names⟩ ∧ pr'.paginated = some ⟨13, names⟩ ∧
      GrownCommand exUnicode pageTypes exCliTypes table isOld "/things".toList "get".toList (before (wide names)) (wide names) pr pr' c c' m m' := by
  refine ⟨fun _ _ _ _ ⟨_, _, _, _, he, _⟩ => (nomatch he), grown_command exCliTypes ?_ ?_ ?_ _ ?_⟩
  · exact wide_grown names
  · exact wide_method names
  · exact wide_builder names
  · rcases hn with rfl | rfl <;> decide +kernel

example : FirstPageOld isOld (wide []) := by
  intro ns h n hn
  cases h
  cases hn

example : told exCliTypes (before AcceptExample.good) ["--id".toList, "1".toList, "--name=x".toList] = some ["id".toList, "body".toList] ∧
    told exCliTypes AcceptExample.good ["--id".toList, "1".toList, "--name=x".toList] = some ["id".toList, "body".toList] := by
  decide +kernel

/-- C91 fails for a new parameter with the flag of a property: what was said of the property is then said of the parameter. -/
theorem C91_flags_fails : ¬ ∀ (ct : CliTypes) (old : Str → Bool) (path method : Str) (d d' : DocOperation) (pr pr' : Processed) (c c' : Code)
    (m m' : Args × Resp.Kind × Resp.Kind), GrownCommand exUnicode pageTypes ct table old path method d d' pr pr' c c' m m' →
    pr'.paginated = none → ∀ (ps : Parsers) (ws : List Str) (line : Line),
      matchesOf ps m.1 (Cli.bodyType pr.op.params) ws = .ok line →
      matchesOf ps m'.1 (Cli.bodyType pr'.op.params) ws = .ok line ∧
      lineCalls (B := Option Arg) (fun _ _ b => b) m'.1 line = lineCalls (B := Option Arg) (fun _ _ b => b) m.1 line := by
  intro h
  obtain ⟨pr, pr', c, c', m, m', -, hpg, hg⟩ := grown_command taken before_grown good_method good_builder none (by decide +kernel)
  have e1 : told taken (before AcceptExample.good) ["--id=1".toList, "--q=x".toList] = some ["id".toList, "body".toList] := by
    decide +kernel
  have e2 : told taken AcceptExample.good ["--id=1".toList, "--q=x".toList] = some ["id".toList, "q".toList] := by decide +kernel
  have ne : some ["id".toList, "body".toList] ≠ some ["id".toList, "q".toList] := by decide +kernel
  unfold told at e1 e2
  rw [hg.before] at e1
  dsimp only at e1
  rw [hg.oldCommand] at e1
  dsimp only at e1
  rw [hg.after] at e2
  dsimp only at e2
  rw [hg.newCommand] at e2
  dsimp only at e2
  split at e1
  next line hl =>
    obtain ⟨h1, h2⟩ := h taken isOld _ _ _ _ pr pr' c c' m m' hg hpg parsers _ line hl
    rw [h1] at e2
    dsimp only at e2
    rw [h2] at e2
    exact ne (e1.symm.trans e2)
  next => exact nomatch e1

/-- C91 fails for a new parameter that is needed for the first page: without it the words are refused. -/
theorem C91_first_fails : ¬ ∀ (old : Str → Bool) (path method : Str) (d d' : DocOperation) (pr pr' : Processed) (c c' : Code)
    (m m' : Args × Resp.Kind × Resp.Kind), GrownCommand exUnicode pageTypes exCliTypes table old path method d d' pr pr' c c' m m' →
    FlagsFree exUnicode pageTypes exCliTypes old d' → pr.paginated ≠ none → ∀ (ws : List Str) (r : Option (ListRun (Option Arg) Unit Nat Nat)),
      runList parsers noOverride exCfg ⟨false, false, false, false⟩ world (fun _ b => .ok b.length) (fun _ => ⟨[], none⟩) 9 exCliTypes table
        pageTypes (fun _ _ b => b) pr.op.params c m 9 [] ws = .ok r →
      (∀ x, r = some x → x.2.1 ≠ .noCompile) →
      ∃ r', runList parsers noOverride exCfg ⟨false, false, false, false⟩ world (fun _ b => .ok b.length) (fun _ => ⟨[], none⟩) 9 exCliTypes table
        pageTypes (fun _ _ b => b) pr'.op.params c' m' 9 [] ws = .ok r' ∧ r'.map listView = r.map listView := by
  intro h
  obtain ⟨hfl, pr, pr', c, c', m, m', hpg, _, hg⟩ := wide_command (names := ["q".toList]) (.inr rfl)
  have e1 : ended (before (wide ["q".toList])) [] = some (some (true, 1)) := by decide +kernel
  have e2 : ended (wide ["q".toList]) [] = none := by decide +kernel
  unfold ended at e1 e2
  rw [hg.before] at e1
  dsimp only at e1
  rw [hg.oldCode] at e1
  dsimp only at e1
  rw [hg.oldCommand] at e1
  dsimp only at e1
  rw [hg.after] at e2
  dsimp only at e2
  rw [hg.newCode] at e2
  dsimp only at e2
  rw [hg.newCommand] at e2
  dsimp only at e2
  split at e1
  next r hr =>
    obtain ⟨r', hr', _⟩ := h isOld _ _ _ _ pr pr' c c' m m' hg hfl (by rw [hpg]; exact Option.some_ne_none _) [] r hr (by
      intro x hx hn
      subst hx
      simp [hn] at e1)
    rw [hr'] at e2
    exact nomatch e2
  next => exact nomatch e1

/- A command that refuses what it took before, and one that does not. -/
example : ended (before (wide [])) [] = ended (wide []) [] ∧ ended (wide []) [] = some (some (true, 1)) := by decide +kernel

end Progenitor.Props

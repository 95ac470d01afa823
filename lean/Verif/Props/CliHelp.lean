import Verif.Props.Cli
import Verif.Props.DocText
import Verif.Spec.CliHelp

/-!
# C99: the texts of commands are those of the document
-/

namespace Progenitor.Props

open Progenitor Progenitor.Params Progenitor.Cli Progenitor.DocText Progenitor.Spec

variable {u : Names.Unicode} {pg : Option Pagination} {ht : HelpTypes}

/-! ## The flags are those of the command without texts -/

theorem get_bare (k : Str) (m : BTree.Map HelpFlag) :
    BTree.get k (m.map fun e => (e.1, e.2.flag)) = (BTree.get k m).map HelpFlag.flag := by
  induction m with
  | nil => rfl
  | cons e m ih =>
    obtain ⟨k', v⟩ := e
    rw [List.map_cons, BTree.get_cons, BTree.get_cons, ih]
    split <;> rfl

theorem insert_bare (k : Str) (v : HelpFlag) (m : BTree.Map HelpFlag) :
    (BTree.insert k v m).map (fun e => (e.1, e.2.flag)) = BTree.insert k v.flag (m.map fun e => (e.1, e.2.flag)) :=
  (insert_map HelpFlag.flag k v m).symm

theorem paramHelp_bare (p : Param × Option Str) (args : HelpArgs) :
    (paramHelp u pg p args >>= fun a => .ok a.bare) = paramArg u pg p.1 args.bare := by
  unfold paramHelp paramArg
  split
  · cases p.1.typ with
    | rawBody => rfl
    | type t =>
      simp only [HelpArgs.bare, get_bare, Option.isSome_map]
      split
      · rfl
      · rw [Res.bind_ok]
        simp only [insert_bare]
  · rfl

theorem paramHelps_bare (ps : List (Param × Option Str)) (args : HelpArgs) :
    (paramHelps u pg ps args >>= fun a => .ok a.bare) = paramArgs u pg (ps.map Prod.fst) args.bare := by
  induction ps generalizing args with
  | nil => rfl
  | cons p ps ih =>
    rw [List.map_cons, paramHelps, paramArgs, ← paramHelp_bare]
    cases paramHelp u pg p args with
    | ok a => exact ih a
    | err m => rfl
    | panic m => rfl

theorem propHelp_bare (ct : CliTypes) (args : HelpArgs) (i : PropInfo × Option Str) :
    (propHelp u ct args i).bare = propArg u ct args.bare i.1 := by
  unfold propHelp propArg
  simp only [HelpArgs.bare, get_bare, Option.isNone_map]
  split
  · simp only [insert_bare]
  · split <;> rfl

theorem propHelps_bare (ct : CliTypes) (ps : List (PropInfo × Option Str)) (args : HelpArgs) :
    (ps.foldl (propHelp u ct) args).bare = (ps.map Prod.fst).foldl (propArg u ct) args.bare := by
  induction ps generalizing args with
  | nil => rfl
  | cons i ps ih => rw [List.foldl_cons, ih, propHelp_bare]; rfl

theorem propArg_props (ct : CliTypes) (f : TypeId → Option (List PropInfo)) :
    propArg u { ct with props := f } = propArg u ct := rfl

theorem cliHelps_bare (ps : List (Param × Option Str)) :
    (cliHelps u ht pg ps >>= fun a => .ok a.bare) = cliArgs u ht.bare pg (ps.map Prod.fst) := by
  unfold cliHelps cliArgs
  have h := paramHelps_bare (u := u) (pg := pg) ps ⟨[], .none⟩
  change _ = paramArgs u pg (ps.map Prod.fst) ⟨[], .none⟩ at h
  rw [← h]
  cases paramHelps u pg ps ⟨[], .none⟩ with
  | err m => rfl
  | panic m => rfl
  | ok a =>
    simp only [Res.bind_ok]
    cases Cli.bodyType (ps.map Prod.fst) with
    | none => rfl
    | some t =>
      simp only [pure, Res.bind_ok]
      congr 1
      unfold bodyHelps bodyArgs
      cases hp : ht.props t with
      | none => simp only [HelpTypes.bare, hp, Option.map_none]; rfl
      | some l =>
        simp only [HelpTypes.bare, hp, Option.map_some]
        rw [propHelps_bare]
        rfl

/-! ## Texts -/

/-- The entry of a parameter. -/
def paramEntry (u : Names.Unicode) (pg : Option Pagination) (x : Param × Option Str) (t : TypeId) : Str × HelpFlag :=
  (toKebab u x.1.name, ⟨⟨t, paramVolition pg x.1, .param (Names.sanitize u .snake x.1.name)⟩, x.2⟩)

theorem paramHelps_entries {ps : List (Param × Option Str)} {args args' : HelpArgs} (h : paramHelps u pg ps args = .ok args') :
    (∀ e ∈ args.flags, e ∈ args'.flags) ∧
    (∀ x ∈ ps, hasFlag pg x.1 = true → ∃ t, paramEntry u pg x t ∈ args'.flags) ∧
    ∀ e ∈ args'.flags, e ∈ args.flags ∨ ∃ x ∈ ps, hasFlag pg x.1 = true ∧ ∃ t, e = paramEntry u pg x t := by
  induction ps generalizing args with
  | nil => cases h; exact ⟨fun _ h => h, by simp, fun e he => .inl he⟩
  | cons p ps ih =>
    obtain ⟨a, h1, h2⟩ := Params.bind_ok_inv h
    obtain ⟨k1, k2, k3⟩ := ih h2
    unfold paramHelp at h1
    by_cases hf : hasFlag pg p.1 = true
    · rw [if_pos hf] at h1
      cases ht : p.1.typ with
      | rawBody => rw [ht] at h1; cases h1
      | type t =>
        rw [ht] at h1
        simp only at h1
        split at h1
        · cases h1
        · rename_i hn
          have hp := BTree.insert_perm (m := args.flags)
            (⟨⟨t, paramVolition pg p.1, .param (Names.sanitize u .snake p.1.name)⟩, p.2⟩ : HelpFlag)
            (get_none_iff.mp (by simpa using hn))
          cases h1
          refine ⟨fun e he => k1 e (hp.mem_iff.mpr (List.mem_cons_of_mem _ he)), fun x hx hxf => ?_, fun e he => ?_⟩
          · rcases List.mem_cons.mp hx with rfl | hx
            · exact ⟨t, k1 _ (hp.mem_iff.mpr List.mem_cons_self)⟩
            · exact k2 x hx hxf
          · rcases k3 e he with he | ⟨x, hx, hxf, t', rfl⟩
            · rcases List.mem_cons.mp (hp.mem_iff.mp he) with rfl | he
              · exact .inr ⟨p, List.mem_cons_self, hf, t, rfl⟩
              · exact .inl he
            · exact .inr ⟨x, List.mem_cons_of_mem _ hx, hxf, t', rfl⟩
    · rw [if_neg hf] at h1
      cases h1
      refine ⟨k1, fun x hx hxf => ?_, fun e he => ?_⟩
      · rcases List.mem_cons.mp hx with rfl | hx
        · exact absurd hxf hf
        · exact k2 x hx hxf
      · rcases k3 e he with he | ⟨x, hx, h⟩
        · exact .inl he
        · exact .inr ⟨x, List.mem_cons_of_mem _ hx, h⟩

/-- The entry of a property. -/
def propEntry (u : Names.Unicode) (ct : CliTypes) (i : PropInfo × Option Str) : Str × HelpFlag :=
  (toKebab u i.1.name, ⟨⟨(ct.inner i.1.type).getD i.1.type, if i.1.required then .requiredIfNoBody else .optional,
    .prop (Names.sanitize u .snake i.1.name)⟩, i.2⟩)

theorem oneWord_iff (ct : CliTypes) (i : PropInfo) : OneWord ct i ↔ ct.fromStr ((ct.inner i.type).getD i.type) = true := by
  unfold OneWord
  cases ct.inner i.type <;> rfl

theorem propHelps_entries {ct : CliTypes} {ps : List (PropInfo × Option Str)} {args : HelpArgs} :
    (∀ e ∈ args.flags, e ∈ (ps.foldl (propHelp u ct) args).flags) ∧
    (∀ pre i post, ps = pre ++ i :: post → OneWord ct i.1 → toKebab u i.1.name ∉ args.flags.map Prod.fst →
      (∀ j ∈ pre, OneWord ct j.1 → toKebab u j.1.name ≠ toKebab u i.1.name) → propEntry u ct i ∈ (ps.foldl (propHelp u ct) args).flags) ∧
    ∀ e ∈ (ps.foldl (propHelp u ct) args).flags, e ∈ args.flags ∨ ∃ pre i post, ps = pre ++ i :: post ∧ OneWord ct i.1 ∧
      e = propEntry u ct i ∧ toKebab u i.1.name ∉ args.flags.map Prod.fst ∧
      ∀ j ∈ pre, OneWord ct j.1 → toKebab u j.1.name ≠ toKebab u i.1.name := by
  induction ps generalizing args with
  | nil =>
    refine ⟨fun _ h => h, ?_, fun e he => .inl he⟩
    intro pre i post h
    cases pre <;> cases h
  | cons a ps ih =>
    rw [List.foldl_cons]
    obtain ⟨k1, k2, k3⟩ := ih (args := propHelp u ct args a)
    by_cases hin : OneWord ct a.1 ∧ toKebab u a.1.name ∉ args.flags.map Prod.fst
    · have hp : (propHelp u ct args a).flags.Perm (propEntry u ct a :: args.flags) := by
        unfold propHelp
        simp only
        rw [if_pos (by rw [Bool.and_eq_true, Option.isNone_iff_eq_none, get_none_iff]; exact ⟨(oneWord_iff _ _).mp hin.1, hin.2⟩)]
        exact BTree.insert_perm _ hin.2
      have hkeys : ∀ n, n ∉ (propHelp u ct args a).flags.map Prod.fst ↔ n ≠ toKebab u a.1.name ∧ n ∉ args.flags.map Prod.fst := by
        intro n
        rw [(hp.map Prod.fst).mem_iff, List.map_cons, List.mem_cons, not_or]
        rfl
      refine ⟨fun e he => k1 e (hp.mem_iff.mpr (List.mem_cons_of_mem _ he)), ?_, ?_⟩
      · intro pre i post heq hi hn hpre
        cases pre with
        | nil =>
          cases heq
          exact k1 _ (hp.mem_iff.mpr List.mem_cons_self)
        | cons b pre =>
          cases heq
          refine k2 pre i post rfl hi ((hkeys _).mpr ⟨?_, hn⟩) fun j hj => hpre j (List.mem_cons_of_mem _ hj)
          exact fun e => hpre a List.mem_cons_self hin.1 e.symm
      · intro e he
        rcases k3 e he with he | ⟨pre, i, post, rfl, hi, rfl, hn, hpre⟩
        · rcases List.mem_cons.mp (hp.mem_iff.mp he) with rfl | he
          · exact .inr ⟨[], a, ps, rfl, hin.1, rfl, hin.2, by simp⟩
          · exact .inl he
        · obtain ⟨h1, h2⟩ := (hkeys _).mp hn
          refine .inr ⟨a :: pre, i, post, rfl, hi, rfl, h2, ?_⟩
          intro j hj
          rcases List.mem_cons.mp hj with rfl | hj
          · exact fun _ e => h1 e.symm
          · exact hpre j hj
    · have hflags : (propHelp u ct args a).flags = args.flags := by
        unfold propHelp
        simp only
        rw [if_neg (by rw [Bool.and_eq_true, Option.isNone_iff_eq_none, get_none_iff, ← oneWord_iff]; exact hin)]
        split <;> rfl
      rw [hflags] at k1 k2 k3
      refine ⟨k1, ?_, ?_⟩
      · intro pre i post heq hi hn hpre
        cases pre with
        | nil => cases heq; exact absurd ⟨hi, hn⟩ hin
        | cons b pre =>
          cases heq
          exact k2 pre i post rfl hi hn fun j hj => hpre j (List.mem_cons_of_mem _ hj)
      · intro e he
        rcases k3 e he with he | ⟨pre, i, post, rfl, hi, rfl, hn, hpre⟩
        · exact .inl he
        · refine .inr ⟨a :: pre, i, post, rfl, hi, rfl, hn, ?_⟩
          intro j hj
          rcases List.mem_cons.mp hj with rfl | hj
          · intro hw e
            exact hin ⟨hw, by rw [e]; exact hn⟩
          · exact hpre j hj

theorem bodyProps_iff {params : List Param} {props : List (PropInfo × Option Str)} :
    BodyProps ht params props ↔ ∃ t, Cli.bodyType params = some t ∧ ht.props t = some props := by
  constructor
  · rintro ⟨pre, p, post, t, h1, h2, h3, h4, h5⟩
    exact ⟨t, bodyType_iff.mpr ⟨pre, p, post, h1, h2, h3, h4⟩, h5⟩
  · rintro ⟨t, h, h5⟩
    obtain ⟨pre, p, post, h1, h2, h3, h4⟩ := bodyType_iff.mp h
    exact ⟨pre, p, post, t, h1, h2, h3, h4, h5⟩

/-- C99: the flags of a command that are not for files, with their help, are exactly those about parameters and about properties of the
body, with the descriptions of these. -/
theorem C99_flags_iff {params : List (Param × Option Str)} {args : HelpArgs} (h : cliHelps u ht pg params = .ok args) (name : Str)
    (text : Option Str) :
    (name, text) ∈ args.flags.map (fun e => (e.1, e.2.help)) ↔ FlagAbout u ht pg params name text := by
  unfold cliHelps at h
  obtain ⟨a, h1, h2⟩ := Params.bind_ok_inv h
  have h2 := Res.ok.inj h2
  obtain ⟨-, k2, k3⟩ := paramHelps_entries h1
  have k3 : ∀ e ∈ a.flags, ∃ x ∈ params, hasFlag pg x.1 = true ∧ ∃ t, e = paramEntry u pg x t := by
    intro e he
    rcases k3 e he with he | he
    · cases he
    · exact he
  have hkeys : ∀ n, n ∉ a.flags.map Prod.fst ↔ ∀ x ∈ params, Flagged pg x.1 → toKebab u x.1.name ≠ n := by
    intro n
    constructor
    · intro hn x hx hf e
      obtain ⟨t, he⟩ := k2 x hx ((hasFlag_iff _).mpr hf)
      exact hn (List.mem_map.mpr ⟨_, he, e⟩)
    · intro hn hm
      obtain ⟨e, he, rfl⟩ := List.mem_map.mp hm
      obtain ⟨x, hx, hf, t, rfl⟩ := k3 e he
      exact hn x hx ((hasFlag_iff _).mp hf) rfl
  -- what the body adds
  have hbody : (∀ e ∈ a.flags, e ∈ args.flags) ∧ ∀ e, e ∈ args.flags → e ∈ a.flags ∨ ∃ pre i post,
      BodyProps ht (params.map Prod.fst) (pre ++ i :: post) ∧ OneWord ht.types i.1 ∧ e = propEntry u ht.types i ∧
      toKebab u i.1.name ∉ a.flags.map Prod.fst ∧ ∀ j ∈ pre, OneWord ht.types j.1 → toKebab u j.1.name ≠ toKebab u i.1.name := by
    cases hb : Cli.bodyType (params.map Prod.fst) with
    | none =>
      rw [hb] at h2
      subst h2
      exact ⟨fun _ h => h, fun e he => .inl he⟩
    | some t =>
      rw [hb] at h2
      unfold bodyHelps at h2
      simp only at h2
      cases hp : ht.props t with
      | none =>
        rw [hp] at h2
        subst h2
        exact ⟨fun _ h => h, fun e he => .inl he⟩
      | some ps =>
        rw [hp] at h2
        subst h2
        obtain ⟨q1, _, q3⟩ := propHelps_entries (u := u) (ct := ht.types) (ps := ps) (args := { a with body := .optional })
        refine ⟨q1, fun e he => ?_⟩
        rcases q3 e he with he | ⟨pre, i, post, rfl, hi, he, hn, hpre⟩
        · exact .inl he
        · exact .inr ⟨pre, i, post, bodyProps_iff.mpr ⟨t, hb, hp⟩, hi, he, hn, hpre⟩
  constructor
  · intro hm
    obtain ⟨e, he, heq⟩ := List.mem_map.mp hm
    rcases hbody.2 e he with he | ⟨pre, i, post, hb, hi, rfl, hn, hpre⟩
    · obtain ⟨x, hx, hf, t, rfl⟩ := k3 e he
      cases heq
      exact .param x.1 hx ((hasFlag_iff _).mp hf) rfl
    · cases heq
      exact .prop pre i.1 post hb hi rfl ((hkeys _).mp hn) hpre
  · rintro (⟨p, hp, hf, rfl⟩ | ⟨pre, i, post, hb, hi, rfl, hn, hpre⟩)
    · obtain ⟨t, he⟩ := k2 _ hp ((hasFlag_iff _).mpr hf)
      exact List.mem_map.mpr ⟨_, hbody.1 _ he, rfl⟩
    · obtain ⟨t, hb1, hb2⟩ := bodyProps_iff.mp hb
      rw [hb1] at h2
      unfold bodyHelps at h2
      simp only [hb2] at h2
      subst h2
      have := (propHelps_entries (u := u) (ct := ht.types) (ps := pre ++ (i, text) :: post) (args := { a with body := .optional })).2.1
        pre (i, text) post rfl hi ((hkeys _).mpr hn) hpre
      exact List.mem_map.mpr ⟨_, this, rfl⟩

/-- C99: the command of a method: it has the flags of C39 and the summary and description of the operation; the flag of each
parameter has, as its help, the description that the document has for this parameter. -/
theorem C99_command {types path method d pr} (t : Texts)
    (hp : processOperation (Names.sanitize u .snake) types path method (t.bare d) = .ok pr) {args : Args}
    (ha : cliArgs u ht.bare pr.paginated pr.op.params = .ok args) :
    ∃ mt c, processTexts (Names.sanitize u .snake) path d t = .ok mt ∧ cliCommand u ht pr.paginated mt = .ok c ∧ c.args.bare = args ∧
      c.shown false = nonEmpty t.summary ∧ c.shown true = (nonEmpty t.description).or (nonEmpty t.summary) ∧
      (∀ name text, (name, text) ∈ c.args.flags.map (fun e => (e.1, e.2.help)) ↔ FlagAbout u ht pr.paginated mt.params name text) ∧
      ∀ p ∈ pr.op.params, Flagged pr.paginated p →
        ∃ text, (toKebab u p.name, text) ∈ c.helps ∧ DescribedAs t p.apiName text := by
  obtain ⟨mt, hmt, hps, hs, hd⟩ := C89_texts t hp
  have hb := cliHelps_bare (u := u) (ht := ht) (pg := pr.paginated) mt.params
  rw [hps, ha] at hb
  cases hc : cliHelps u ht pr.paginated mt.params with
  | err m => rw [hc] at hb; cases hb
  | panic m => rw [hc] at hb; cases hb
  | ok a =>
    rw [hc] at hb
    have hiff := C99_flags_iff hc
    refine ⟨mt, ⟨a, mt.summary, mt.description⟩, hmt, by unfold cliCommand; rw [hc]; rfl, Res.ok.inj hb, hs, ?_, hiff, ?_⟩
    · rw [← hs, ← hd]; rfl
    · intro p hpm hf
      rw [← hps] at hpm
      obtain ⟨x, hx, rfl⟩ := List.mem_map.mp hpm
      refine ⟨x.2, List.mem_append_left _ ((hiff _ _).mpr (.param x.1 hx hf rfl)), ?_⟩
      rcases C89_descriptions hmt x hx with ⟨b, hbody, rfl⟩ | ⟨q, _, hq⟩
      · rcases (body_shape hbody b rfl).2 with ⟨ct, _, hk, _⟩ | ⟨ct, _, _, hk, _⟩ <;> exact absurd hk (hf.1 ct)
      · exact ⟨q, hq⟩

/-- C99: the flags that have a help (or none) are the flags of the command, files included. -/
theorem C99_names (c : Command) : c.helps.map Prod.fst = flagNames c.args.bare := by
  unfold Command.helps flagNames fileHelps HelpArgs.bare
  simp only [List.map_append, List.map_map]
  congr 1
  split <;> rfl

/-- C99: besides, the commands with a typed body have flags for files, and no other commands. The texts of these do not come from the
document; that of `--json-body-template` says nothing. -/
theorem C99_files {mt : MethodTexts} {c : Command} (h : cliCommand u ht pg mt = .ok c) :
    ((∃ t, BodyOf (mt.params.map Prod.fst) t) → ∃ pre, c.helps = pre ++
      [("json-body".toList, some "Path to a file that contains the full json body.".toList), ("json-body-template".toList, some "XXX".toList)]) ∧
    ((∀ t, ¬ BodyOf (mt.params.map Prod.fst) t) → ∀ x, x ∈ c.helps ↔ FlagAbout u ht pg mt.params x.1 x.2) := by
  unfold cliCommand at h
  obtain ⟨a, h1, h2⟩ := Params.bind_ok_inv h
  have h2 := Res.ok.inj h2
  subst h2
  have hb := cliHelps_bare (u := u) (ht := ht) (pg := pg) mt.params
  rw [h1] at hb
  have hb : cliArgs u ht.bare pg (mt.params.map Prod.fst) = .ok a.bare := hb.symm
  constructor
  · rintro ⟨t, ht'⟩
    have hn : a.body ≠ .none := by
      intro hn
      cases hp : ht.bare.props t with
      | none =>
        have h := (C39_body_other hb ht' hp).1
        change a.body = _ at h
        rw [hn] at h
        cases h
      | some ps =>
        rcases (C39_body hb ht' hp).2.2.1 with h | h <;> (change a.body = _ at h; rw [hn] at h; cases h)
    unfold Command.helps fileHelps
    simp only [if_neg hn]
    exact ⟨_, rfl⟩
  · intro hno x
    have h := (C39_no_body hb hno).1
    unfold Command.helps fileHelps
    rw [if_pos (show a.body = .none from h), List.append_nil]
    exact C99_flags_iff h1 x.1 x.2

/-! ## Example -/

open AcceptExample TextExample

/-- Bodies of type 7 have a described property `keep`. -/
def helpTypes : HelpTypes :=
  ⟨⟨fun _ => none, fun _ => none, fun _ => true, fun _ => true, fun _ => none⟩,
    fun t => if t = 7 then some [(⟨"keep".toList, false, 5⟩, some "What stays".toList)] else none⟩

def commandHelps : Res Command → List (Str × Option Str)
  | .ok c => c.helps
  | _ => []

def commandOf (r : Res Processed) (mt : Res MethodTexts) : Res Command :=
  match r, mt with
  | .ok pr, .ok mt => cliCommand exUnicode helpTypes pr.paginated mt
  | _, _ => .panic []

example : commandHelps (commandOf
      (processOperation (Names.sanitize exUnicode .snake) noTypes TextExample.path "put".toList (calm.bare good))
      (processTexts (Names.sanitize exUnicode .snake) TextExample.path good calm)) =
    [("id".toList, some "Which\n- one".toList), ("keep".toList, some "What stays".toList), ("q".toList, none),
      ("json-body".toList, some "Path to a file that contains the full json body.".toList), ("json-body-template".toList, some "XXX".toList)] := by
  decide +kernel

end Progenitor.Props

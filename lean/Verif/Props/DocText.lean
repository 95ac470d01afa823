import Verif.Spec.DocText
import Verif.Props.ClientStruct
import Verif.Props.Route
import Verif.Props.ListWords
import Verif.Props.Accepted

/-!
# C89: documentation of the generated code
-/

namespace Progenitor.Props

open Progenitor Progenitor.Params Progenitor.Spec Progenitor.Names Progenitor.Doc Progenitor.DocText
open Progenitor.Client Progenitor.Exec Progenitor.Builder

/-! ## Lines -/

theorem textLines_ne (s : Str) : textLines s ≠ [] := by
  induction s with
  | nil => simp [textLines]
  | cons c s ih =>
    rw [textLines]
    split
    · simp
    · split <;> simp

theorem textLines_cons {l : Str} {ls : List Str} {s : Str} (h : textLines s = l :: ls) (c : Char) (hc : c ≠ '\n') :
    textLines (c :: s) = (c :: l) :: ls := by
  rw [textLines, h]
  exact if_neg hc

theorem textLines_newline (s : Str) : textLines ('\n' :: s) = [] :: textLines s := by
  rw [textLines]
  cases h : textLines s with
  | nil => exact absurd h (textLines_ne s)
  | cons l ls => rfl

/-- A line break ends a line. -/
theorem textLines_append (a b : Str) : textLines (a ++ '\n' :: b) = textLines a ++ textLines b := by
  induction a with
  | nil => exact textLines_newline b
  | cons c a ih =>
    by_cases hc : c = '\n'
    · subst hc
      rw [List.cons_append, textLines_newline, textLines_newline, ih]; rfl
    · cases h : textLines a with
      | nil => exact absurd h (textLines_ne a)
      | cons l ls =>
        rw [h] at ih
        rw [List.cons_append, textLines_cons ih c hc, textLines_cons h c hc]; rfl

/-- Text without line breaks goes before the first line. -/
theorem textLines_prefix {a : Str} (ha : '\n' ∉ a) {b l : Str} {ls : List Str} (h : textLines b = l :: ls) :
    textLines (a ++ b) = (a ++ l) :: ls := by
  induction a with
  | nil => exact h
  | cons c a ih =>
    rw [List.mem_cons, not_or] at ha
    exact textLines_cons (ih ha.2) c (Ne.symm ha.1)

theorem textLines_single {a : Str} (ha : '\n' ∉ a) : textLines a = [a] := by
  have := textLines_prefix ha (b := []) (l := []) (ls := []) rfl
  simpa using this

theorem unlines_textLines (s : Str) : unlines (textLines s) = s := by
  induction s with
  | nil => rfl
  | cons c s ih =>
    by_cases hc : c = '\n'
    · subst hc
      rw [textLines_newline]
      cases h : textLines s with
      | nil => exact absurd h (textLines_ne s)
      | cons l ls => rw [h] at ih; rw [unlines, ih]; rfl
    · cases h : textLines s with
      | nil => exact absurd h (textLines_ne s)
      | cons l ls =>
        rw [textLines_cons h c hc]
        rw [h] at ih
        cases ls with
        | nil => rw [unlines] at ih ⊢; rw [ih]
        | cons m ls => rw [unlines] at ih ⊢; rw [← ih]; rfl

theorem unlines_prefix (a l : Str) (ls : List Str) : unlines ((a ++ l) :: ls) = a ++ unlines (l :: ls) := by
  cases ls with
  | nil => rfl
  | cons m ls => simp [unlines]

/-! ## Reading pieces -/

theorem stripPre_append (p s : Str) : stripPre p (p ++ s) = some s := by
  unfold stripPre
  rw [if_pos (by rw [List.isPrefixOf_iff_prefix]; exact List.prefix_append p s), List.drop_left]

theorem stripSuf_append (p s : Str) : stripSuf p (s ++ p) = some s := by
  unfold stripSuf
  rw [List.reverse_append, stripPre_append]
  simp

theorem upTo_append {c : Char} {a : Str} (h : c ∉ a) (s : Str) : upTo c (a ++ c :: s) = (a, c :: s) := by
  unfold upTo
  have h' : ∀ x ∈ a, decide (x ≠ c) = true := fun x hx => by
    simp only [ne_eq, decide_not, Bool.not_eq_true', decide_eq_false_iff_not]
    rintro rfl; exact h hx
  rw [List.takeWhile_append_of_pos h', List.dropWhile_append_of_pos h']
  simp

theorem isPrefixOf_append (p s : Str) : p.isPrefixOf (p ++ s) = true := by
  rw [List.isPrefixOf_iff_prefix]; exact List.prefix_append p s

theorem afterLast_append (p : Str → Bool) {r : Str} (hr : p r = true) {after : List Str} (ha : ∀ l ∈ after, p l = false)
    (pre : List Str) : afterLast p (pre ++ r :: after) = some (r, after) := by
  have h0 : afterLast p after = none := by
    induction after with
    | nil => rfl
    | cons l ls ih =>
      rw [afterLast, ih fun x hx => ha x (by simp [hx]), ha l (by simp)]
      rfl
  induction pre with
  | nil => rw [List.nil_append, afterLast, h0, hr]; rfl
  | cons l ls ih => rw [List.cons_append, afterLast, ih]; rfl

/-! ## The announcement -/

theorem upperMethod_eq (m : HttpMethod) : upperMethod m = httpName m := by cases m <;> decide

theorem upperMethod_plain (m : HttpMethod) : '`' ∉ upperMethod m ∧ '\n' ∉ upperMethod m := by cases m <;> decide

/-- The text of an announcement. -/
def announce (a : Announces) (op : OperationMethod) : Str :=
  a.before ++ (upperMethod op.method ++ (a.between ++ (Template.toString op.path ++ a.after)))

theorem append_five (a b c d e : Str) : a ++ b ++ c ++ d ++ e = a ++ (b ++ (c ++ (d ++ e))) := by simp

theorem sendText_eq (op : OperationMethod) : sendText op = announce sendsOne op := append_five _ _ _ _ _

theorem repeatText_eq (op : OperationMethod) : repeatText op = announce sendsMany op := append_five _ _ _ _ _

theorem streamText_eq (op : OperationMethod) : streamText op = announce streamsMany op := append_five _ _ _ _ _

/-- Announcements as they occur. -/
def Usual (a : Announces) : Prop := (∃ s, a.between = '`' :: s) ∧ '\n' ∉ a.before ∧ '\n' ∉ a.between ∧ '\n' ∉ a.after ∧
  a.before ≠ [] ∧ a.before.isPrefixOf [] = false ∧ a.before.isPrefixOf "Arguments:".toList = false ∧
  ∀ s, a.before.isPrefixOf ("- `".toList ++ s) = false

theorem sendsOne_usual : Usual sendsOne :=
  ⟨⟨_, rfl⟩, by decide, by decide, by decide, by decide, by decide, by decide, fun _ => rfl⟩

theorem sendsMany_usual : Usual sendsMany :=
  ⟨⟨_, rfl⟩, by decide, by decide, by decide, by decide, by decide, by decide, fun _ => rfl⟩

theorem streamsMany_usual : Usual streamsMany :=
  ⟨⟨_, rfl⟩, by decide, by decide, by decide, by decide, by decide, by decide, fun _ => rfl⟩

theorem readRequest_announce {a : Announces} (ha : Usual a) (op : OperationMethod) :
    readRequest a (announce a op) = some (upperMethod op.method, Template.toString op.path) := by
  obtain ⟨⟨s, hs⟩, _⟩ := ha
  unfold readRequest announce
  rw [stripPre_append]
  simp only [Option.bind_eq_bind, Option.bind_some]
  have : upTo '`' (upperMethod op.method ++ (a.between ++ (Template.toString op.path ++ a.after))) =
      (upperMethod op.method, a.between ++ (Template.toString op.path ++ a.after)) := by
    rw [hs, List.cons_append, upTo_append (upperMethod_plain _).1]
  rw [this]
  simp only
  rw [stripPre_append]
  simp only [Option.bind_some]
  rw [stripSuf_append]
  rfl

/-! ## The arguments -/

/-- Names that can be told from their surroundings. -/
def CleanName (n : Str) : Prop := '`' ∉ n ∧ '\n' ∉ n ∧ '(' ∉ n ∧ ')' ∉ n

/-- The lines of an item. -/
def itemLines (p : Param × Option Str) : List Str :=
  match p.2 with
  | none => ["- `".toList ++ p.1.name ++ "`".toList]
  | some d => textLines ("- `".toList ++ p.1.name ++ "`".toList ++ (": ".toList ++ d))

theorem head_clean {n : Str} (h : CleanName n) : '\n' ∉ "- `".toList ++ n ++ "`".toList := by
  have := h.2.1
  simp [this]

theorem argumentText_lines {p : Param × Option Str} (hn : CleanName p.1.name) (r : Str) :
    textLines (argumentText p ++ r) = itemLines p ++ textLines r := by
  unfold argumentText itemLines
  have e : "\n".toList = ['\n'] := rfl
  rw [e, List.append_assoc, List.singleton_append, textLines_append]
  cases p.2 with
  | none => rw [List.append_nil, textLines_single (head_clean hn)]
  | some d => rfl

theorem arguments_lines {ps : List (Param × Option Str)} (hn : ∀ p ∈ ps, CleanName p.1.name) :
    textLines (ps.flatMap argumentText) = ps.flatMap itemLines ++ [[]] := by
  induction ps with
  | nil => rfl
  | cons p ps ih =>
    rw [List.flatMap_cons, argumentText_lines (hn p (by simp)), ih fun q hq => hn q (by simp [hq]), List.flatMap_cons,
      List.append_assoc]

/-- The first line of an item, and the others. -/
theorem itemLines_shape {p : Param × Option Str} (hn : CleanName p.1.name) :
    ∃ l ls, itemLines p = ("- `".toList ++ l) :: ls ∧
      (∀ x ∈ ls, ∃ d, p.2 = some d ∧ x ∈ (textLines d).tail) ∧ readItem (itemLines p) = some (p.1.name, p.2) := by
  have hu := fun s => upTo_append hn.1 s
  unfold itemLines
  cases h : p.2 with
  | none =>
    refine ⟨p.1.name ++ "`".toList, [], by simp, by simp, ?_⟩
    show readItem ["- `".toList ++ p.1.name ++ "`".toList] = _
    unfold readItem
    rw [unlines, List.append_assoc, stripPre_append]
    simp only [Option.bind_eq_bind, Option.bind_some]
    have := hu []
    rw [show ("`".toList : Str) = ['`'] from rfl, this]
    rfl
  | some d =>
    cases hd : textLines d with
    | nil => exact absurd hd (textLines_ne d)
    | cons l0 ls =>
      have hne : '\n' ∉ "- `".toList ++ p.1.name ++ "`".toList ++ ": ".toList := by
        have := hn.2.1
        simp [this]
      have e : textLines ("- `".toList ++ p.1.name ++ "`".toList ++ (": ".toList ++ d)) =
          ("- `".toList ++ p.1.name ++ "`".toList ++ ": ".toList ++ l0) :: ls := by
        rw [← List.append_assoc]
        exact textLines_prefix hne hd
      refine ⟨p.1.name ++ "`".toList ++ ": ".toList ++ l0, ls, ?_, fun x hx => ⟨d, rfl, by rw [hd]; exact hx⟩, ?_⟩
      · show textLines _ = _
        rw [e]; simp
      · show readItem (textLines _) = _
        unfold readItem
        rw [unlines_textLines]
        simp only [List.append_assoc]
        rw [stripPre_append]
        simp only [Option.bind_eq_bind, Option.bind_some]
        rw [show ("`".toList : Str) = ['`'] from rfl, List.singleton_append, hu]
        simp only
        rw [show ('`' :: (": ".toList ++ d) : Str) = ['`'] ++ (": ".toList ++ d) from rfl, stripPre_append]
        simp only [Option.bind_some]
        rw [if_neg (by simp), stripPre_append]
        rfl

theorem startsItem_append (s : Str) : startsItem ("- `".toList ++ s) = true := isPrefixOf_append _ _

theorem items_other {ls rest : List Str} {gs : List (List Str)} (h : items rest = ([], gs)) (hl : ∀ x ∈ ls, startsItem x = false) :
    items (ls ++ rest) = (ls, gs) := by
  induction ls with
  | nil => exact h
  | cons l ls ih =>
    rw [List.cons_append, items, if_neg (by rw [hl l (by simp)]; simp), ih fun x hx => hl x (by simp [hx])]

theorem items_arguments {a : Announces} {ps : List (Param × Option Str)} (hn : ∀ p ∈ ps, CleanName p.1.name)
    (hq : ∀ p ∈ ps, ∀ d, p.2 = some d → Quiet a d) :
    items (ps.flatMap itemLines) = ([], ps.map itemLines) := by
  induction ps with
  | nil => rfl
  | cons p ps ih =>
    obtain ⟨l, ls, he, hls, _⟩ := itemLines_shape (hn p (by simp))
    have ho := items_other (ih (fun q hq => hn q (by simp [hq])) fun q hq' => hq q (by simp [hq'])) (ls := ls) (by
      intro x hx
      obtain ⟨d, hd, hx⟩ := hls x hx
      exact (hq p (by simp) d hd x hx).1)
    rw [List.flatMap_cons, List.map_cons, he, List.cons_append, items, if_pos (startsItem_append l), ho]

theorem mapM_items {ps : List (Param × Option Str)} (hn : ∀ p ∈ ps, CleanName p.1.name) :
    (ps.map itemLines).mapM readItem = some (ps.map fun p => (p.1.name, p.2)) := by
  induction ps with
  | nil => rfl
  | cons p ps ih =>
    obtain ⟨_, _, _, _, h⟩ := itemLines_shape (hn p (by simp))
    rw [List.map_cons, List.mapM_cons, h, ih fun q hq => hn q (by simp [hq])]
    rfl

/-- No line of the list of arguments is an announcement. -/
theorem arguments_quiet {a : Announces} (ha : Usual a) {ps : List (Param × Option Str)} (hn : ∀ p ∈ ps, CleanName p.1.name)
    (hq : ∀ p ∈ ps, ∀ d, p.2 = some d → Quiet a d) : ∀ l ∈ ps.flatMap itemLines, a.before.isPrefixOf l = false := by
  intro x hx
  obtain ⟨p, hp, hx⟩ := List.mem_flatMap.mp hx
  obtain ⟨l, ls, he, hls, _⟩ := itemLines_shape (hn p hp)
  rw [he] at hx
  rcases List.mem_cons.mp hx with rfl | hx
  · exact ha.2.2.2.2.2.2.2 l
  · obtain ⟨d, hd, hx⟩ := hls x hx
    exact (hq p hp d hd x hx).2

/-! ## Comments -/

/-- The lines of the announcement and of what follows. -/
theorem comment_lines {a : Announces} (ha : Usual a) (op : OperationMethod) (hp : '\n' ∉ Template.toString op.path)
    {ps : List (Param × Option Str)} (hn : ∀ p ∈ ps, CleanName p.1.name) :
    textLines ((announce a op ++ "\n\n".toList) ++ argumentsText ps) =
      announce a op :: [] :: ((if ∃ p ∈ ps, p.2 ≠ none then "Arguments:".toList :: ps.flatMap itemLines else []) ++ [[]]) := by
  have hna : '\n' ∉ announce a op := by
    obtain ⟨_, h1, h2, h3, _⟩ := ha
    unfold announce
    simp [h1, h2, h3, hp, (upperMethod_plain op.method).2]
  have e : (announce a op ++ "\n\n".toList) ++ argumentsText ps = announce a op ++ '\n' :: '\n' :: argumentsText ps := by
    simp
  rw [e, textLines_append, textLines_newline, textLines_single hna]
  unfold argumentsText
  have hc : (ps.filter fun p => p.2.isSome).length > 0 ↔ ∃ p ∈ ps, p.2 ≠ none := by
    rw [gt_iff_lt, List.length_pos_iff_exists_mem]
    constructor
    · rintro ⟨p, hp⟩
      obtain ⟨hp, hs⟩ := List.mem_filter.mp hp
      exact ⟨p, hp, by intro h; rw [h] at hs; cases hs⟩
    · rintro ⟨p, hp, hs⟩
      exact ⟨p, List.mem_filter.mpr ⟨hp, by cases h : p.2 with
        | none => exact absurd h hs
        | some _ => rfl⟩⟩
  by_cases h : ∃ p ∈ ps, p.2 ≠ none
  · rw [if_pos (hc.mpr h), if_pos h]
    have e : "Arguments:\n".toList ++ ps.flatMap argumentText = "Arguments:".toList ++ '\n' :: ps.flatMap argumentText := by
      rw [show "Arguments:\n".toList = "Arguments:".toList ++ ['\n'] from rfl, List.append_assoc]; rfl
    rw [e, textLines_append, arguments_lines hn, textLines_single (by decide)]
    rfl
  · rw [if_neg (fun x => h (hc.mp x)), if_neg h]
    rfl

/-- Reading the lines of a comment. -/
theorem readLinesOf_comment {a : Announces} (ha : Usual a) (op : OperationMethod)
    {ps : List (Param × Option Str)} (hn : ∀ p ∈ ps, CleanName p.1.name) (hq : ∀ p ∈ ps, ∀ d, p.2 = some d → Quiet a d) (pre : List Str) :
    readLinesOf a (pre ++ announce a op :: [] :: (if ∃ p ∈ ps, p.2 ≠ none then "Arguments:".toList :: ps.flatMap itemLines else [])) =
      some ⟨httpName op.method, Template.toString op.path, listed ps⟩ := by
  unfold readLinesOf
  rw [afterLast_append (fun l => a.before.isPrefixOf l) (r := announce a op) (isPrefixOf_append _ _)]
  · simp only [Option.bind_eq_bind, Option.bind_some]
    rw [readRequest_announce ha, upperMethod_eq]
    simp only [Option.bind_some]
    unfold listed
    split
    · rename_i h
      have e : items ([] :: "Arguments:".toList :: ps.flatMap itemLines) = ([[], "Arguments:".toList], ps.map itemLines) :=
        items_other (ls := [[], "Arguments:".toList]) (items_arguments hn hq) (by decide)
      rw [e]
      simp only
      rw [mapM_items hn]
      rfl
    · rfl
  · intro l hl
    rcases List.mem_cons.mp hl with rfl | hl
    · exact ha.2.2.2.2.2.1
    · split at hl
      · rcases List.mem_cons.mp hl with rfl | hl
        · exact ha.2.2.2.2.2.2.1
        · exact arguments_quiet ha hn hq l hl
      · cases hl

/-- What comes before is in lines of its own. -/
theorem before_lines (s e : Option Str) (f : Str → Str) (r : Str) :
    ∃ pre, textLines (((match s with
      | some s => f s ++ "\n\n".toList
      | none => []) ++ descriptionText e) ++ r) = pre ++ textLines r := by
  have step : ∀ x r : Str, ∃ pre, textLines ((x ++ "\n\n".toList) ++ r) = pre ++ textLines r := fun x r =>
    ⟨textLines x ++ [[]], by
      have e : (x ++ "\n\n".toList) ++ r = x ++ '\n' :: '\n' :: r := by simp
      rw [e, textLines_append, textLines_newline]; simp⟩
  have hd : ∃ pre, textLines (descriptionText e ++ r) = pre ++ textLines r := by
    cases e with
    | none => exact ⟨[], rfl⟩
    | some d => exact step d r
  cases s with
  | none => simpa using hd
  | some s =>
    obtain ⟨p1, h1⟩ := step (f s) (descriptionText e ++ r)
    obtain ⟨p2, h2⟩ := hd
    exact ⟨p1 ++ p2, by rw [List.append_assoc (f s ++ "\n\n".toList), h1, h2, List.append_assoc]⟩

/-- Reading a whole comment. -/
theorem readComment_text {a : Announces} (ha : Usual a) (op : OperationMethod) (hp : '\n' ∉ Template.toString op.path)
    {ps : List (Param × Option Str)} (hn : ∀ p ∈ ps, CleanName p.1.name) (hq : ∀ p ∈ ps, ∀ d, p.2 = some d → Quiet a d)
    (s e : Option Str) (f : Str → Str) :
    readComment a (((match s with
      | some s => f s ++ "\n\n".toList
      | none => []) ++ descriptionText e) ++ (announce a op ++ "\n\n".toList) ++ argumentsText ps) =
      some ⟨httpName op.method, Template.toString op.path, listed ps⟩ := by
  rw [List.append_assoc (_ ++ descriptionText e)]
  obtain ⟨pre, h⟩ := before_lines s e f ((announce a op ++ "\n\n".toList) ++ argumentsText ps)
  unfold readComment
  rw [h, comment_lines ha op hp hn, ← List.cons_append, ← List.cons_append, ← List.append_assoc, List.dropLast_concat]
  exact readLinesOf_comment ha op hn hq pre

theorem readComment_doc {op : OperationMethod} {t : MethodTexts} (hp : '\n' ∉ Template.toString op.path)
    (hn : ∀ p ∈ t.params, CleanName p.1.name) (hq : ∀ p ∈ t.params, ∀ d, p.2 = some d → Quiet sendsOne d) :
    readComment sendsOne (docComment op t) = some ⟨httpName op.method, Template.toString op.path, listed t.params⟩ := by
  unfold docComment
  rw [sendText_eq]
  exact readComment_text sendsOne_usual op hp hn hq t.summary t.description trimEnd

theorem readComment_stream {op : OperationMethod} {t : MethodTexts} (hp : '\n' ∉ Template.toString op.path)
    (hn : ∀ p ∈ t.params, CleanName p.1.name) (hq : ∀ p ∈ t.params, ∀ d, p.2 = some d → Quiet sendsMany d) :
    readComment sendsMany (streamDocComment op t) =
      some ⟨httpName op.method, Template.toString op.path, listed (t.params.filter fun p => p.1.apiName ≠ "page_token".toList)⟩ := by
  unfold streamDocComment
  rw [repeatText_eq]
  have := readComment_text sendsMany_usual op hp (ps := t.params.filter fun p => p.1.apiName ≠ "page_token".toList)
    (fun p h => hn p (List.mem_filter.mp h).1) (fun p h => hq p (List.mem_filter.mp h).1) t.summary t.description
    (fun s => trimEnd s ++ " as a Stream".toList)
  rw [← this]
  congr 4
  cases t.summary with
  | none => rfl
  | some s =>
    show _ = (trimEnd s ++ " as a Stream".toList) ++ "\n\n".toList
    rw [List.append_assoc]
    rfl

/-! ## Texts of the document -/

theorem insert_map {V W : Type} (f : V → W) (k : Str) (v : V) (m : BTree.Map V) :
    BTree.insert k (f v) (m.map fun e => (e.1, f e.2)) = (BTree.insert k v m).map fun e => (e.1, f e.2) := by
  induction m with
  | nil => rfl
  | cons e m ih =>
    rw [List.map_cons, BTree.insert, BTree.insert]
    split
    · rfl
    · rfl
    · rw [ih]; rfl

theorem insertAll_map {V W : Type} (f : V → W) (l : List (Str × V)) (m : BTree.Map V) :
    BTree.insertAll (m.map fun e => (e.1, f e.2)) (l.map fun e => (e.1, f e.2)) = (BTree.insertAll m l).map fun e => (e.1, f e.2) := by
  induction l generalizing m with
  | nil => rfl
  | cons e l ih =>
    show BTree.insertAll (BTree.insert e.1 (f e.2) _) (l.map _) = (BTree.insertAll (BTree.insert e.1 e.2 m) l).map _
    rw [insert_map, ih]

theorem combinedTexts_erase (pl ol : List Described) :
    combined (pl.map Prod.fst) (ol.map Prod.fst) = (combinedTexts pl ol).map fun e => (e.1, e.2.1) := by
  unfold combined parameterMap combinedTexts
  have e : ∀ l : List Described, (l.map Prod.fst).map (fun p => (p.name, p)) =
      (l.map fun p => (p.1.name, p)).map fun e => (e.1, e.2.1) := fun l => by
    rw [List.map_map, List.map_map]; rfl
  rw [e, e, ← insertAll_map (fun d : Described => d.1), ← insertAll_map (fun d : Described => d.1)]
  rfl

theorem convertTexts_erase {san : Str → Str} {l : List Described} {qs : List Param} (h : convertAll san (l.map Prod.fst) = .ok qs) :
    ∃ ts, convertTexts san l = .ok ts ∧ ts.map Prod.fst = qs := by
  induction l generalizing qs with
  | nil => cases h; exact ⟨[], rfl, rfl⟩
  | cons p l ih =>
    rw [List.map_cons, convertAll] at h
    obtain ⟨q, hq, h⟩ := bind_ok_inv h
    obtain ⟨qs', hqs, h⟩ := bind_ok_inv h
    cases h
    obtain ⟨ts, ht, rfl⟩ := ih hqs
    exact ⟨(q, p.2) :: ts, by simp only [convertTexts, hq, ht, Res.bind_ok]; rfl, rfl⟩

theorem insertTail_erase {α β : Type} (f : α → β) {less : β → β → Res Bool} {x : α} {l : List α} {r : List β}
    (h : insertTail less (f x) (l.map f) = .ok r) :
    ∃ r', insertTail (fun a b => less (f a) (f b)) x l = .ok r' ∧ r'.map f = r := by
  induction l generalizing r with
  | nil => cases h; exact ⟨[x], rfl, rfl⟩
  | cons y l ih =>
    rw [List.map_cons, insertTail] at h
    obtain ⟨b, hb, h⟩ := bind_ok_inv h
    rw [insertTail, hb]
    cases b with
    | true =>
      obtain ⟨r1, hr, h⟩ := bind_ok_inv h
      cases h
      obtain ⟨r', h', rfl⟩ := ih hr
      exact ⟨y :: r', by simp only [Res.bind_ok, if_pos, h']; rfl, rfl⟩
    | false =>
      cases h
      exact ⟨x :: y :: l, rfl, rfl⟩

theorem sortLoop_erase {α β : Type} (f : α → β) {less : β → β → Res Bool} {acc l : List α} {r : List β}
    (h : sortLoop less (acc.map f) (l.map f) = .ok r) :
    ∃ r', sortLoop (fun a b => less (f a) (f b)) acc l = .ok r' ∧ r'.map f = r := by
  induction l generalizing acc with
  | nil => cases h; exact ⟨acc.reverse, rfl, by simp⟩
  | cons x l ih =>
    rw [List.map_cons, sortLoop] at h
    obtain ⟨acc', ha, h⟩ := bind_ok_inv h
    obtain ⟨a', h', rfl⟩ := insertTail_erase f ha
    obtain ⟨r', hr, rfl⟩ := ih h
    exact ⟨r', by simp only [sortLoop, h', Res.bind_ok]; exact hr, rfl⟩

variable {u : Unicode} {B : Type} {P V : Type}

/-- C89: whenever there is a method there are its texts, and they are about the arguments of the method, in order. -/
theorem C89_texts {san types path method d pr} (t : Texts) (h : processOperation san types path method (t.bare d) = .ok pr) :
    ∃ mt, processTexts san path d t = .ok mt ∧ mt.params.map Prod.fst = pr.op.params ∧
      mt.summary = nonEmpty t.summary ∧ mt.description = nonEmpty t.description := by
  unfold processOperation at h
  obtain ⟨ps, hps, h⟩ := bind_ok_inv h
  obtain ⟨b, hb, h⟩ := bind_ok_inv h
  obtain ⟨tmp, htmp, h⟩ := bind_ok_inv h
  obtain ⟨sps, hsps, h⟩ := bind_ok_inv h
  obtain ⟨rs, hrs, h⟩ := bind_ok_inv h
  obtain ⟨_, hnc, h⟩ := bind_ok_inv h
  obtain ⟨m, hm, h⟩ := bind_ok_inv h
  cases h
  have e : BTree.values (combined (t.pathLevel.map Prod.fst) (t.opLevel.map Prod.fst)) =
      (BTree.values (combinedTexts t.pathLevel t.opLevel)).map Prod.fst := by
    rw [combinedTexts_erase]
    unfold BTree.values
    rw [List.map_map, List.map_map]
    rfl
  change convertAll san (BTree.values (combined (t.pathLevel.map Prod.fst) (t.opLevel.map Prod.fst))) = _ at hps
  change getBodyParam d.body = _ at hb
  rw [e] at hps
  obtain ⟨ts, ht, rfl⟩ := convertTexts_erase hps
  have e2 : ts.map Prod.fst ++ b.toList = (ts ++ (b.map fun b => (b, t.body)).toList).map Prod.fst := by
    cases b <;> simp
  unfold sortParams at hsps
  rw [e2] at hsps
  obtain ⟨r', hr, rfl⟩ := sortLoop_erase Prod.fst (acc := []) hsps
  refine ⟨⟨nonEmpty t.summary, nonEmpty t.description, r'⟩, ?_, rfl, rfl, rfl⟩
  unfold processTexts sortTexts
  simp only [ht, hb, htmp, Res.bind_ok]
  rw [hr]
  rfl

theorem convertTexts_mem {san : Str → Str} {l : List Described} {ts : List (Param × Option Str)} (h : convertTexts san l = .ok ts) :
    ∀ x ∈ ts, ∃ p, (p, x.2) ∈ l ∧ convert san p = .ok x.1 := by
  induction l generalizing ts with
  | nil => cases h; intro x hx; cases hx
  | cons p l ih =>
    rw [convertTexts] at h
    obtain ⟨q, hq, h⟩ := bind_ok_inv h
    obtain ⟨qs, hqs, h⟩ := bind_ok_inv h
    cases h
    intro x hx
    rcases List.mem_cons.mp hx with rfl | hx
    · exact ⟨p.1, by simp, hq⟩
    · obtain ⟨p', hp', hc⟩ := ih hqs x hx
      exact ⟨p', by simp [hp'], hc⟩

theorem lastText_find {l : List Described} {k : Str} {v : Described}
    (h : (((l.map fun p => (p.1.name, p)).reverse.find? fun e => e.1 = k).map Prod.snd) = some v) : LastText l k v := by
  rw [Option.map_eq_some_iff] at h
  obtain ⟨e, he, rfl⟩ := h
  rw [← List.map_reverse, List.find?_map, Option.map_eq_some_iff] at he
  obtain ⟨x, hx, rfl⟩ := he
  obtain ⟨hk, pre, post, hl, hn⟩ := List.find?_eq_some_iff_append.mp hx
  have : l = post.reverse ++ x :: pre.reverse := by
    have := congrArg List.reverse hl
    simpa using this
  refine ⟨post.reverse, pre.reverse, this, by simpa using hk, fun y hy => ?_⟩
  have := hn y (by simpa using hy)
  simpa using this

theorem noneNamed_find {l : List Described} {k : Str}
    (h : (((l.map fun p => (p.1.name, p)).reverse.find? fun e => e.1 = k).map Prod.snd) = none) : ∀ x ∈ l, x.1.name ≠ k := by
  rw [Option.map_eq_none_iff, List.find?_eq_none] at h
  intro x hx
  have := h (x.1.name, x) (by simpa using hx)
  simpa using this

/-- C89: the description shown for an argument is that of the parameter it stands for: of the operation if it has one of
that name, otherwise of the path item; and that of the request body for the body. -/
theorem C89_descriptions {san path d t mt} (h : processTexts san path d t = .ok mt) :
    ∀ x ∈ mt.params,
      (∃ b, getBodyParam d.body = .ok (some b) ∧ x = (b, t.body)) ∨
      ∃ p, convert san p = .ok x.1 ∧
        (LastText t.opLevel x.1.apiName (p, x.2) ∨
          (∀ q ∈ t.opLevel, q.1.name ≠ x.1.apiName) ∧ LastText t.pathLevel x.1.apiName (p, x.2)) := by
  unfold processTexts at h
  obtain ⟨ts, hts, h⟩ := bind_ok_inv h
  obtain ⟨b, hb, h⟩ := bind_ok_inv h
  obtain ⟨tmp, htmp, h⟩ := bind_ok_inv h
  obtain ⟨sps, hsps, h⟩ := bind_ok_inv h
  cases h
  intro x hx
  have hx : x ∈ ts ++ (b.map fun b => (b, t.body)).toList := by
    have := sortLoop_perm hsps
    simpa using this.mem_iff.mp hx
  rcases List.mem_append.mp hx with hx | hx
  · right
    obtain ⟨p, hp, hc⟩ := convertTexts_mem hts x hx
    refine ⟨p, hc, ?_⟩
    have hn : x.1.apiName = p.name := (convert_describes hc).1.1
    unfold BTree.values at hp
    obtain ⟨⟨k, v⟩, hkv, rfl⟩ := List.mem_map.mp hp
    have hk : k = p.name := by
      unfold combinedTexts at hkv
      rcases BTree.mem_insertAll hkv with hm | hm
      · obtain ⟨_, _, e⟩ := List.mem_map.mp hm
        cases e; rfl
      · rcases BTree.mem_insertAll hm with hm | hm
        · obtain ⟨_, _, e⟩ := List.mem_map.mp hm
          cases e; rfl
        · cases hm
    subst hk
    unfold combinedTexts at hkv
    rw [BTree.mem_iff_get (BTree.insertAll_sorted (BTree.insertAll_sorted .nil _) _), BTree.get_insertAll, BTree.get_insertAll] at hkv
    rw [hn]
    cases ho : ((t.opLevel.map fun p => (p.1.name, p)).reverse.find? fun e => e.1 = p.name).map Prod.snd with
    | some v =>
      rw [ho, Option.some_or] at hkv
      cases hkv
      exact .inl (lastText_find ho)
    | none =>
      rw [ho, Option.none_or] at hkv
      refine .inr ⟨noneNamed_find ho, lastText_find ?_⟩
      simpa [BTree.get] using hkv
  · left
    cases b with
    | none => cases hx
    | some b =>
      simp at hx
      exact ⟨b, hb, hx⟩

/-! ## What comments say -/

theorem cont_clean (h : Lawful u) {s : Str} (hs : ∀ c ∈ s, u.xidCont c = true) : CleanName s := by
  have key : ∀ c : Char, c.toNat < 128 → (c.isAlphanum || c = '_') = false → c ∉ s := by
    intro c hc hf hm
    have := hs c hm
    rw [h.cont_ascii c hc, hf] at this
    cases this
  exact ⟨key _ (by decide) (by decide), key _ (by decide) (by decide), key _ (by decide) (by decide), key _ (by decide) (by decide)⟩

theorem ident_clean (h : Lawful u) {s : Str} (hs : ValidIdent u s) : CleanName s := by
  obtain ⟨⟨c, cs, rfl, hc, hcs⟩, _⟩ := hs
  refine cont_clean h fun d hd => ?_
  rcases List.mem_cons.mp hd with rfl | hd
  · rcases hc with rfl | hc
    · rw [h.cont_ascii _ (by decide)]; decide
    · exact h.start_cont _ hc
  · exact hcs d hd

theorem texts_clean (h : Lawful u) {path d t mt} (ht : processTexts (sanitize u .snake) path d t = .ok mt) :
    ∀ p ∈ mt.params, CleanName p.1.name := by
  intro x hx
  rcases C89_descriptions ht x hx with ⟨b, hb, rfl⟩ | ⟨p, hc, _⟩
  · rw [(body_shape hb b rfl).1]
    exact ⟨by decide, by decide, by decide, by decide⟩
  · rw [(convert_describes hc).2]
    exact ident_clean h (C41_valid h _ _)

theorem collapse_mem {s : Str} {c : Char} (h : c ∈ collapse s) : c ∈ s := by
  match s, h with
  | [], h => cases h
  | [_], h => exact h
  | a :: d :: r, h =>
    rw [collapse] at h
    split at h
    · exact List.mem_cons_of_mem _ (collapse_mem h)
    · rcases List.mem_cons.mp h with rfl | h
      · exact List.mem_cons_self
      · exact List.mem_cons_of_mem _ (collapse_mem h)

/-- The printed path has no line breaks if the path has none. -/
theorem printed_clean {san types path method d pr} (h : processOperation san types path method d = .ok pr) (hp : '\n' ∉ path) :
    '\n' ∉ Template.toString pr.op.path := by
  rw [C02_printed _ _ (processOperation_inv h).2.2.1]
  exact fun hm => hp (collapse_mem hm)

/-- Descriptions of parameters and of the body that cannot be taken for anything else. -/
def TextsQuiet (a : Announces) (t : Texts) : Prop :=
  ∀ x, (x = t.body ∨ (∃ p, (p, x) ∈ t.opLevel) ∨ ∃ p, (p, x) ∈ t.pathLevel) → ∀ d, x = some d → Quiet a d

theorem texts_quiet {a : Announces} {san path d t mt} (ht : processTexts san path d t = .ok mt) (hq : TextsQuiet a t) :
    ∀ p ∈ mt.params, ∀ d, p.2 = some d → Quiet a d := by
  intro x hx d hd
  refine hq x.2 ?_ d hd
  rcases C89_descriptions ht x hx with ⟨b, _, rfl⟩ | ⟨p, _, ⟨pre, post, e, _⟩ | ⟨_, pre, post, e, _⟩⟩
  · exact .inl rfl
  · exact .inr (.inl ⟨p, by rw [e]; simp⟩)
  · exact .inr (.inr ⟨p, by rw [e]; simp⟩)

/-- The names that methods have in documents and the names that are shown. -/
theorem parse_httpName {method : Str} {m : HttpMethod} (h : HttpMethod.parse method = .ok m) :
    httpName m = method.map Char.toUpper := by
  rw [(C58_method_only _ _).mp h]
  exact (upperMethod_eq m).symm

/-- C89: the comment of a method can be read: it names the HTTP method and the path of the operation, and as soon as an
argument is described it lists the arguments in the order of the signature with their descriptions.  (Descriptions must not
contain lines that look like items or announcements.) -/
theorem C89_comment_partial (h : Lawful u) {types path method d t pr mt}
    (hp : processOperation (sanitize u .snake) types path method (t.bare d) = .ok pr)
    (ht : processTexts (sanitize u .snake) path d t = .ok mt) (hn : '\n' ∉ path) (hq : TextsQuiet sendsOne t) :
    readComment sendsOne (docComment pr.op mt) = some ⟨method.map Char.toUpper, collapse path, listed mt.params⟩ := by
  rw [readComment_doc (printed_clean hp hn) (texts_clean h ht) (texts_quiet ht hq), C02_printed _ _ (processOperation_inv hp).2.2.1,
    parse_httpName (processOperation_inv hp).2.2.2.2.1]

/-- C89: the same for the method that gives a stream; it lists the arguments that this method has. -/
theorem C89_stream_partial (h : Lawful u) {types path method d t pr mt} (hd : PropsDistinct types)
    (hp : processOperation (sanitize u .snake) types path method (t.bare d) = .ok pr) (hpg : pr.paginated ≠ none)
    (hnd : (pr.op.params.map Param.name).Nodup)
    (ht : processTexts (sanitize u .snake) path d t = .ok mt) (hn : '\n' ∉ path) (hq : TextsQuiet sendsMany t) :
    ∃ ps, readComment sendsMany (streamDocComment pr.op mt) = some ⟨method.map Char.toUpper, collapse path, listed ps⟩ ∧
      ps.Sublist mt.params ∧ ps.map Prod.fst = Stream.streamParams pr.op.params := by
  refine ⟨mt.params.filter fun p => p.1.apiName ≠ "page_token".toList, ?_, List.filter_sublist, ?_⟩
  · rw [readComment_stream (printed_clean hp hn) (texts_clean h ht) (texts_quiet ht hq), C02_printed _ _ (processOperation_inv hp).2.2.1,
      parse_httpName (processOperation_inv hp).2.2.2.2.1]
  · cases hpd : pr.paginated with
    | none => exact absurd hpd hpg
    | some pd =>
      obtain ⟨mt', ht', hm, _⟩ := C89_texts t hp
      rw [ht] at ht'
      cases ht'
      have htk := (tokenNamed_of_document h hd hp hpd hnd).1
      unfold Stream.streamParams
      rw [← hm] at htk ⊢
      rw [List.filter_map]
      congr 1
      apply List.filter_congr
      intro x hx
      have := htk x.1 (List.mem_map_of_mem hx)
      simp only [Function.comp, ne_eq, decide_not, this]

/-- C89: the comments of `send` and `stream` of a builder name the same request. -/
theorem C89_builder_methods {san types path method d pr} (hp : processOperation san types path method d = .ok pr) :
    readRequest sendsOne (sendText pr.op) = some (method.map Char.toUpper, collapse path) ∧
    readRequest streamsMany (streamText pr.op) = some (method.map Char.toUpper, collapse path) := by
  have h1 := (processOperation_inv hp).2.2.1
  have h2 := (processOperation_inv hp).2.2.2.2.1
  rw [sendText_eq, streamText_eq, readRequest_announce sendsOne_usual, readRequest_announce streamsMany_usual, C02_printed _ _ h1,
    upperMethod_eq, parse_httpName h2]
  exact ⟨rfl, rfl⟩

/-- C89: the request that the comment names is the request that the method sends: the HTTP method, and the URL that results
from the path by putting in the arguments. -/
theorem C89_request_partial (h : Lawful u) {types method d t pr mt} {l : List Seg} (hl : SegsOk l) (hne : l ≠ [])
    (hp : processOperation (sanitize u .snake) types (segsText l) method (t.bare d) = .ok pr)
    (ht : processTexts (sanitize u .snake) (segsText l) d t = .ok mt) (hn : '\n' ∉ segsText l) (hq : TextsQuiet sendsOne t)
    {cfg : Config} {auth : Str} {base : List Str} (hbase : BaseUrl cfg auth base) {args : List Value} {r : Request}
    (hi : Issues cfg pr.op args r) :
    ∃ says, readComment sendsOne (docComment pr.op mt) = some says ∧ says.method = httpName r.method ∧ says.path = segsText l ∧
      ∃ v : Str → Str, (∀ n ∈ pars l, PathArg pr.op.params args n (v n)) ∧
        r.url = auth ++ (joinSegs base ++ segsUrl (fun n => encodePath (v n)) l) := by
  obtain ⟨hm, hu⟩ := issues_url_segs hi hl hne (processOperation_inv hp).2.2.1 hbase
  refine ⟨_, C89_comment_partial h hp ht hn hq, ?_, ?_, hu⟩
  · rw [hm, parse_httpName (processOperation_inv hp).2.2.2.2.1]
  · show collapse (segsText l) = _
    rw [Template.collapse_eq, collapse_segs l hl]

/-! ## Examples -/

theorem example_lines {op : OperationMethod} (ho : CleanName op.operationId) (hn : ∀ p ∈ op.params, CleanName p.name) :
    textLines (exampleText op ++ "\n```".toList) =
      ("let response = client.".toList ++ (op.operationId ++ "()".toList)) ::
        ((op.params.map fun p => "    .".toList ++ (p.name ++ ("(".toList ++ (p.name ++ ")".toList)))) ++
          ["    .send()".toList, "    .await;".toList, "```".toList]) := by
  have hf : '\n' ∉ "let response = client.".toList ++ op.operationId ++ "()".toList := by
    have := ho.2.1
    simp [this]
  have key : ∀ (ps : List Param) (a : Str), (∀ p ∈ ps, CleanName p.name) → '\n' ∉ a →
      textLines (a ++ (ps.flatMap fun p => "\n    .".toList ++ p.name ++ "(".toList ++ p.name ++ ")".toList) ++
        "\n    .send()\n    .await;".toList ++ "\n```".toList) =
      a :: ((ps.map fun p => "    .".toList ++ (p.name ++ ("(".toList ++ (p.name ++ ")".toList)))) ++
          ["    .send()".toList, "    .await;".toList, "```".toList]) := by
    intro ps
    induction ps with
    | nil =>
      intro a _ ha
      have e : a ++ (([] : List Param).flatMap fun p => "\n    .".toList ++ p.name ++ "(".toList ++ p.name ++ ")".toList) ++
          "\n    .send()\n    .await;".toList ++ "\n```".toList = a ++ '\n' :: "    .send()\n    .await;\n```".toList := by
        simp
      rw [e, textLines_append, textLines_single ha]
      rfl
    | cons p ps ih =>
      intro a hps ha
      have hp : '\n' ∉ "    .".toList ++ (p.name ++ ("(".toList ++ (p.name ++ ")".toList))) := by
        have := (hps p (by simp)).2.1
        simp [this]
      have e : a ++ ((p :: ps).flatMap fun p => "\n    .".toList ++ p.name ++ "(".toList ++ p.name ++ ")".toList) ++
          "\n    .send()\n    .await;".toList ++ "\n```".toList =
          a ++ '\n' :: (("    .".toList ++ (p.name ++ ("(".toList ++ (p.name ++ ")".toList)))) ++
            (ps.flatMap fun p => "\n    .".toList ++ p.name ++ "(".toList ++ p.name ++ ")".toList) ++
            "\n    .send()\n    .await;".toList ++ "\n```".toList) := by
        rw [List.flatMap_cons, show "\n    .".toList = '\n' :: "    .".toList from rfl]
        simp only [List.append_assoc, List.cons_append]
      rw [e, textLines_append, textLines_single ha, ih _ (fun q hq => hps q (by simp [hq])) hp]
      rfl
  have := key op.params _ hn hf
  unfold exampleText
  rw [this, List.append_assoc]

theorem readCall_text {n : Str} (hn : CleanName n) :
    readCall ("    .".toList ++ (n ++ ("(".toList ++ (n ++ ")".toList)))) = some (n, n) := by
  unfold readCall
  rw [stripPre_append]
  simp only [Option.bind_eq_bind, Option.bind_some]
  rw [show ("(".toList : Str) = ['('] from rfl, List.singleton_append, upTo_append hn.2.2.1]
  simp only
  rw [show ('(' :: (n ++ ")".toList) : Str) = ['('] ++ (n ++ ")".toList) from rfl, stripPre_append]
  simp only [Option.bind_some]
  rw [show (")".toList : Str) = [')'] from rfl, upTo_append hn.2.2.2]
  rfl

theorem call_ne_send {n : Str} (hn : CleanName n) :
    "    .".toList ++ (n ++ ("(".toList ++ (n ++ ")".toList))) ≠ "    .send()".toList := by
  intro e
  have h := readCall_text hn
  rw [e] at h
  have h2 : readCall "    .send()".toList = some ("send".toList, []) := by decide
  rw [h2] at h
  have h3 := Option.some.inj h
  have h4 := congrArg Prod.fst h3
  have h5 := congrArg Prod.snd h3
  simp only at h4 h5
  rw [← h5] at h4
  cases h4

theorem readCalls_lines {ps : List Param} (hn : ∀ p ∈ ps, CleanName p.name) :
    readCalls ((ps.map fun p => "    .".toList ++ (p.name ++ ("(".toList ++ (p.name ++ ")".toList)))) ++
      ["    .send()".toList, "    .await;".toList, "```".toList]) = some (ps.map fun p => (p.name, p.name)) := by
  induction ps with
  | nil => rfl
  | cons p ps ih =>
    rw [List.map_cons, List.cons_append, readCalls, if_neg (call_ne_send (hn p (by simp))), readCall_text (hn p (by simp)),
      ih fun q hq => hn q (by simp [hq])]
    rfl

theorem readExample_lines {op : OperationMethod} (hn : ∀ p ∈ op.params, CleanName p.name) :
    readExample (("let response = client.".toList ++ (op.operationId ++ "()".toList)) ::
        ((op.params.map fun p => "    .".toList ++ (p.name ++ ("(".toList ++ (p.name ++ ")".toList)))) ++
          ["    .send()".toList, "    .await;".toList, "```".toList])) =
      some (op.operationId, op.params.map fun p => (p.name, p.name)) := by
  rw [readExample, stripPre_append]
  simp only [Option.bind_eq_bind, Option.bind_some]
  rw [stripSuf_append, readCalls_lines hn]
  rfl

theorem argumentsText_end (ps : List (Param × Option Str)) : argumentsText ps = [] ∨ ∃ s, argumentsText ps = s ++ ['\n'] := by
  unfold argumentsText
  split
  · rename_i hgt
    right
    rcases List.eq_nil_or_concat ps with e | ⟨i, l, e⟩
    · rw [e] at hgt; cases hgt
    · rw [e, List.concat_eq_append, List.flatMap_append, List.flatMap_singleton, argumentText, show "\n".toList = ['\n'] from rfl, ← List.append_assoc,
        ← List.append_assoc]
      exact ⟨_, rfl⟩
  · exact .inl rfl

/-- C89: the comment of a method that makes a builder can be read: the request and the arguments as above, and an example that
calls this method and then the setter of each parameter, in order, with a variable of the same name. -/
theorem C89_builder_doc_partial (h : Lawful u) {types path method d t pr mt}
    (hp : processOperation (sanitize u .snake) types path method (t.bare d) = .ok pr)
    (ht : processTexts (sanitize u .snake) path d t = .ok mt) (hn : '\n' ∉ path) (hq : TextsQuiet sendsOne t) :
    readBuilderDoc (builderDoc pr.op mt) =
      some (⟨method.map Char.toUpper, collapse path, listed mt.params⟩, pr.op.operationId,
        pr.op.params.map fun p => (p.name, p.name)) := by
  obtain ⟨mt', ht', hm, _⟩ := C89_texts t hp
  rw [ht] at ht'
  cases ht'
  have hcl := texts_clean h ht
  have hcp : ∀ p ∈ pr.op.params, CleanName p.name := by
    rw [← hm]
    intro p hp
    obtain ⟨x, hx, rfl⟩ := List.mem_map.mp hp
    exact hcl x hx
  have hco : CleanName pr.op.operationId := by
    rw [(processOperation_inv hp).2.2.2.2.2.2.1]
    exact ident_clean h (C41_valid h _ _)
  have hpc := printed_clean hp hn
  have hqt := texts_quiet ht hq
  have hm1 : httpName pr.op.method = method.map Char.toUpper := parse_httpName (processOperation_inv hp).2.2.2.2.1
  have hm2 : Template.toString pr.op.path = collapse path := C02_printed _ _ (processOperation_inv hp).2.2.1
  have hlines : ∃ ls, textLines (builderDoc pr.op mt) = ls ++ "```ignore".toList :: textLines (exampleText pr.op ++ "\n```".toList) ∧
      (textLines (docComment pr.op mt)).dropLast = ls := by
    obtain ⟨s, hs⟩ : ∃ s, docComment pr.op mt = s ++ ['\n'] := by
      unfold docComment
      rcases argumentsText_end mt.params with e | ⟨s, e⟩
      · rw [e, List.append_nil, show "\n\n".toList = ['\n'] ++ ['\n'] from rfl, ← List.append_assoc, ← List.append_assoc]
        exact ⟨_, rfl⟩
      · rw [e, ← List.append_assoc]
        exact ⟨_, rfl⟩
    refine ⟨textLines s, ?_, ?_⟩
    · have e : builderDoc pr.op mt = s ++ '\n' :: ("```ignore".toList ++ '\n' :: (exampleText pr.op ++ "\n```".toList)) := by
        unfold builderDoc
        rw [hs, show "```ignore\n".toList = "```ignore".toList ++ ['\n'] from rfl]
        simp only [List.append_assoc, List.cons_append, List.nil_append]
      rw [e, textLines_append, textLines_append, textLines_single (a := "```ignore".toList) (by decide)]
      rfl
    · rw [hs, show (s ++ ['\n'] : Str) = s ++ '\n' :: [] from rfl, textLines_append]
      exact List.dropLast_concat
  obtain ⟨ls, h1, h2⟩ := hlines
  rw [example_lines hco hcp] at h1
  have hread := readComment_doc hpc hcl hqt
  unfold readComment at hread
  rw [h2] at hread
  unfold readBuilderDoc
  dsimp only
  rw [h1, afterLast_append (fun l => decide (l = "```ignore".toList)) (by simp)]
  · simp only [Option.bind_eq_bind, Option.bind_some]
    rw [show (ls ++ "```ignore".toList :: _).take _ = ls from ?_, hread, readExample_lines hcp, hm1, hm2]
    · rfl
    · rw [List.length_append, List.length_cons, List.take_left']
      omega
  · intro l hl
    rcases List.mem_cons.mp hl with rfl | hl
    · rw [decide_eq_false_iff_not]
      intro e
      cases e
    · rcases List.mem_append.mp hl with hl | hl
      · obtain ⟨p, _, rfl⟩ := List.mem_map.mp hl
        rw [decide_eq_false_iff_not]
        intro e
        cases e
      · exact (by decide : ∀ l ∈ ["    .send()".toList, "    .await;".toList, "```".toList], decide (l = "```ignore".toList) = false) l hl

theorem inputs_single {α : Type} (f : α → Str) (g : α → Input B) {l : List α} (hn : (l.map f).Nodup) {p : α} (hp : p ∈ l) :
    inputsFor (l.map fun p => (f p, g p)) (f p) = [g p] := by
  unfold inputsFor
  induction l with
  | nil => cases hp
  | cons x l ih =>
    rw [List.map_cons, List.nodup_cons] at hn
    rcases List.mem_cons.mp hp with rfl | hp
    · rw [List.map_cons, List.filter_cons_of_pos (by simp)]
      have : (l.map fun p => (f p, g p)).filter (fun c => decide (c.1 = f p)) = [] := by
        rw [List.filter_eq_nil_iff]
        intro y hy
        obtain ⟨q, hq, rfl⟩ := List.mem_map.mp hy
        simp only [decide_eq_true_eq]
        exact fun e => hn.1 (by rw [← e]; exact List.mem_map_of_mem hq)
      rw [this]
      rfl
    · rw [List.map_cons, List.filter_cons_of_neg]
      · exact ih hn.2 hp
      · simp only [decide_eq_true_eq]
        exact fun e => hn.1 (by rw [e]; exact List.mem_map_of_mem hp)

/-- C89: the example works: with variables that hold values of the right types it compiles and does what a call of the
positional method with these values does. -/
theorem C89_example (cfg : Config) (hooks : Hooks) (w : World) (decode : TypeId → Bytes → Except P V)
    (tt : TypeTable B) {params : List Param} {paginated : Bool} (c : Code) (hist : List Event)
    (hs : structOk tt params paginated = true)
    (hlaw : ∀ p ∈ params, ∀ tb, HasBuilder tt p tb → ∀ a, tb.finish (tb.ofValue a) = .ok a)
    {ex : List (Str × Str)} (he : ex = params.map fun p => (p.name, p.name)) (var : Str → Input B)
    {args : List Value} {env : Env} (hb : bindArgs params args = some env)
    (hv : Forall₂ (fun p v => Holds (var p.name) v) params args) :
    callBuilder cfg hooks w decode tt params paginated c hist (ex.map fun e => (e.1, var e.2)) =
      call cfg hooks w decode params c hist args := by
  subst he
  rw [List.map_map]
  have hn : (params.map Param.name).Nodup := by
    unfold bindArgs at hb
    split at hb
    · rename_i hc; exact hc.1
    · cases hb
  have hty : (params.zip args).all (fun pv => typed pv.1 pv.2) = true := by
    unfold bindArgs at hb
    split at hb
    · rename_i hc; exact hc.2.2
    · cases hb
  have hin : ∀ p ∈ params, inputsFor (params.map ((fun e : Str × Str => (e.1, var e.2)) ∘ fun p => (p.name, p.name))) p.name =
      [var p.name] := fun p hp => inputs_single Param.name (fun p => var p.name) hn hp
  refine C31_agree cfg hooks w decode tt params paginated c hist _ hs ?_ hlaw args env hb ?_
  · intro x hx
    obtain ⟨p, hp, rfl⟩ := List.mem_map.mp hx
    refine ⟨p, hp, rfl, ?_⟩
    show match var p.name with
      | .value _ => ∃ t, p.typ = .type t
      | .raw _ => p.typ = .rawBody
      | .map _ => ∃ tb, HasBuilder tt p tb
    clear hin hn hb hs hlaw hx
    induction hv with
    | nil => cases hp
    | @cons q v ps vs h _ ih =>
      rw [List.zip_cons_cons, List.all_cons, Bool.and_eq_true] at hty
      rcases List.mem_cons.mp hp with rfl | hp
      · have ht := hty.1
        obtain ⟨n, an, typ, kind⟩ := p
        simp only at h ht ⊢
        cases hvar : var n with
        | value cv =>
          rw [hvar] at h
          cases cv with
          | error e => exact h.elim
          | ok a =>
            cases typ with
            | type t => exact ⟨t, rfl⟩
            | rawBody => rcases h with rfl | rfl <;> simp [typed] at ht
        | raw cv =>
          rw [hvar] at h
          cases cv with
          | error e => exact h.elim
          | ok b =>
            cases typ with
            | rawBody => rfl
            | type t =>
              cases h
              cases kind with
              | query r => cases r <;> simp [typed] at ht
              | header r => cases r <;> simp [typed] at ht
              | _ => simp [typed] at ht
        | map f => rw [hvar] at h; exact h.elim
      · exact ih hty.2 hp
  · have gen : ∀ ps vs, Forall₂ (fun (p : Param) v => Holds (var p.name) v) ps vs → (∀ p ∈ ps, p ∈ params) →
        Forall₂ (fun p v => SetTo (inputsFor (params.map ((fun e : Str × Str => (e.1, var e.2)) ∘ fun p => (p.name, p.name))) p.name) v) ps vs := by
      intro ps vs hv hsub
      induction hv with
      | nil => exact .nil
      | @cons p v ps vs h _ ih =>
        refine .cons ?_ (ih fun q hq => hsub q (by simp [hq]))
        rw [hin p (hsub p (by simp))]
        cases hvar : var p.name with
        | value cv =>
          rw [hvar] at h
          cases cv with
          | error e => exact h.elim
          | ok a => rcases h with rfl | rfl <;> exact ⟨[], rfl⟩
        | raw cv =>
          rw [hvar] at h
          cases cv with
          | error e => exact h.elim
          | ok b => cases h; exact ⟨[], rfl⟩
        | map f => rw [hvar] at h; exact h.elim
    exact gen params args hv fun p hp => hp

/-! ## Links -/

theorem readLink_text {ty : Str} (h1 : '`' ∉ ty) : readLink (linkText ty) = some ty := by
  unfold readLink linkText
  rw [List.append_assoc, List.append_assoc, stripPre_append]
  simp only [Option.bind_eq_bind, Option.bind_some]
  rw [show ("`]: super::".toList ++ ty : Str) = '`' :: ("]: super::".toList ++ ty) from rfl, upTo_append h1]
  simp only
  rw [show ('`' :: ("]: super::".toList ++ ty) : Str) = "`]: super::".toList ++ ty from rfl, stripPre_append]
  simp only [Option.bind_some]
  rw [if_pos trivial]
  rfl

theorem readLink_B (s : Str) : readLink ('B' :: s) = none := rfl
theorem readLink_S (s : Str) : readLink ('S' :: s) = none := rfl

theorem linkText_clean {ty : Str} (h : '\n' ∉ ty) : '\n' ∉ linkText ty := by
  unfold linkText
  simp [h]

/-- The one link of a comment. -/
theorem linkTargets_one {ty : Str} (h1 : '`' ∉ ty) (h2 : '\n' ∉ ty) :
    linkTargets ("Builder for [`".toList ++ ty ++ "`]\n\n".toList ++ linkText ty) = [ty] := by
  have e : "Builder for [`".toList ++ ty ++ "`]\n\n".toList ++ linkText ty =
      ("Builder for [`".toList ++ ty ++ "`]".toList) ++ '\n' :: '\n' :: linkText ty := by
    rw [show "`]\n\n".toList = "`]".toList ++ ['\n', '\n'] from rfl]
    simp only [List.append_assoc, List.cons_append, List.nil_append]
  unfold linkTargets
  rw [e, textLines_append, textLines_newline, textLines_single (linkText_clean h2), textLines_single (by simp [h2])]
  show List.filterMap readLink [_, [], linkText ty] = _
  rw [List.filterMap_cons, show readLink ("Builder for [`".toList ++ ty ++ "`]".toList) = none from rfl]
  simp only
  rw [List.filterMap_cons, show readLink [] = none from rfl]
  simp only
  rw [List.filterMap_cons, readLink_text h1]
  rfl

theorem joinWith_clean {sep : Str} (hs : '\n' ∉ sep) {l : List Str} (hl : ∀ x ∈ l, '\n' ∉ x) : '\n' ∉ joinWith sep l := by
  match l, hl with
  | [], _ => simp [joinWith]
  | [x], hl => exact hl x (by simp)
  | x :: y :: l, hl =>
    rw [joinWith]
    have h1 := hl x (by simp)
    have h2 := joinWith_clean hs (l := y :: l) fun z hz => hl z (by simp [hz])
    simp only [List.mem_append, not_or]
    exact ⟨⟨h1, hs⟩, h2⟩

theorem joinWith_lines {l : List Str} (hne : l ≠ []) (hl : ∀ x ∈ l, '\n' ∉ x) : textLines (joinWith "\n".toList l) = l := by
  match l, hne, hl with
  | [x], _, hl => exact textLines_single (hl x (by simp))
  | x :: y :: l, _, hl =>
    have ih := joinWith_lines (l := y :: l) (by simp) fun z hz => hl z (by simp [hz])
    rw [joinWith, show "\n".toList = ['\n'] from rfl, List.append_assoc, List.singleton_append, textLines_append,
      textLines_single (hl x (by simp))]
    rw [show "\n".toList = ['\n'] from rfl] at ih
    rw [ih]
    rfl

/-- The links of a comment that has one for each of several tags. -/
theorem linkTargets_many {id see : Str} (h1 : CleanName id) (h2 : '\n' ∉ see) {tys : List Str} (hne : tys ≠ [])
    (hc : ∀ ty ∈ tys, '`' ∉ ty ∧ '\n' ∉ ty) :
    linkTargets ("Builder for `".toList ++ id ++ "` operation\n\nSee ".toList ++ see ++ "\n\n".toList ++
      joinWith "\n".toList (tys.map linkText)) = tys := by
  have e : "Builder for `".toList ++ id ++ "` operation\n\nSee ".toList ++ see ++ "\n\n".toList ++
      joinWith "\n".toList (tys.map linkText) =
      ("Builder for `".toList ++ id ++ "` operation".toList) ++ '\n' :: '\n' :: (("See ".toList ++ see) ++
        '\n' :: '\n' :: joinWith "\n".toList (tys.map linkText)) := by
    rw [show "` operation\n\nSee ".toList = "` operation".toList ++ ['\n', '\n'] ++ "See ".toList from rfl,
      show "\n\n".toList = ['\n', '\n'] from rfl]
    simp only [List.append_assoc, List.cons_append, List.nil_append]
  unfold linkTargets
  rw [e, textLines_append, textLines_newline, textLines_append, textLines_newline,
    joinWith_lines (by simpa using hne) (fun x hx => by
      obtain ⟨ty, hty, rfl⟩ := List.mem_map.mp hx
      exact linkText_clean (hc ty hty).2),
    textLines_single (a := "Builder for `".toList ++ id ++ "` operation".toList) (by simp [h1.2.1]),
    textLines_single (a := "See ".toList ++ see) (by simp [h2])]
  rw [List.singleton_append, List.singleton_append, List.filterMap_cons,
    show readLink ("Builder for `".toList ++ id ++ "` operation".toList) = none from rfl]
  simp only
  rw [List.filterMap_cons, show readLink [] = none from rfl]
  simp only
  rw [List.filterMap_cons, show readLink ("See ".toList ++ see) = none from rfl]
  simp only
  rw [List.filterMap_cons, show readLink [] = none from rfl]
  simp only
  clear e hne
  induction tys with
  | nil => rfl
  | cons ty tys ih =>
    rw [List.map_cons, List.filterMap_cons, readLink_text (hc ty (by simp)).1]
    simp only
    rw [ih fun x hx => hc x (by simp [hx])]

theorem trait_clean (h : Lawful u) (tag : Str) {id : Str} (hi : CleanName id) :
    '`' ∉ traitName u tag ++ "::".toList ++ id ∧ '\n' ∉ traitName u tag ++ "::".toList ++ id := by
  have ht := ident_clean h (C41_valid h .pascal tag)
  unfold traitName
  constructor
  · simp [ht.1, hi.1]
  · simp [ht.2.1, hi.2.1]

/-- Links of the comment of a builder. -/
theorem structDoc_links (h : Lawful u) {op : OperationMethod} (hi : CleanName op.operationId) (style : TagStyle) :
    linkTargets (structDoc u style op) =
      if style = .merged ∨ op.tags = [] then ["Client::".toList ++ op.operationId]
      else op.tags.map fun tag => traitName u tag ++ "::".toList ++ op.operationId := by
  have own : linkTargets ("Builder for [`".toList ++ ("Client::".toList ++ op.operationId) ++ "`]\n\n".toList ++
      linkText ("Client::".toList ++ op.operationId)) = ["Client::".toList ++ op.operationId] :=
    linkTargets_one (by simp [hi.1]) (by simp [hi.2.1])
  unfold structDoc
  dsimp only
  cases style with
  | merged => rw [if_pos (.inl rfl)]; exact own
  | separate =>
    cases ht : op.tags with
    | nil => rw [if_pos (.inr rfl)]; exact own
    | cons t ts =>
      rw [if_neg (by simp)]
      cases ts with
      | nil => exact linkTargets_one (trait_clean h t hi).1 (trait_clean h t hi).2
      | cons t' ts =>
        dsimp only
        have := linkTargets_many (id := op.operationId)
          (see := joinWith ", ".toList ((t :: t' :: ts).map fun tag => "[`".toList ++ (traitName u tag ++ "::".toList ++ op.operationId) ++ "`]".toList))
          (tys := (t :: t' :: ts).map fun tag => traitName u tag ++ "::".toList ++ op.operationId) hi ?_ (by simp) ?_
        · rw [List.map_map] at this
          exact this
        · refine joinWith_clean (by decide) fun x hx => ?_
          obtain ⟨tag, _, rfl⟩ := List.mem_map.mp hx
          have := (trait_clean h tag hi).2
          simp only [List.mem_append, not_or]
          simp only [List.mem_append, not_or] at this
          exact ⟨⟨by decide, this⟩, by decide⟩
        · intro ty hty
          obtain ⟨tag, _, rfl⟩ := List.mem_map.mp hty
          exact trait_clean h tag hi

/-- C89: the comment of a builder links to exactly the methods that make it: that of the client, or those of the traits it
belongs to. -/
theorem C89_links (h : Lawful u) {types path method d pr}
    (hp : processOperation (sanitize u .snake) types path method d = .ok pr) {ms : List Processed} (hm : pr ∈ ms) :
    linkTargets (structDoc u .merged pr.op) = ["Client::".toList ++ pr.op.operationId] ∧
    ∀ x, x ∈ linkTargets (structDoc u .separate pr.op) ↔
      pr ∈ (builderTags ms ([], [])).1 ∧ x = "Client::".toList ++ pr.op.operationId ∨
      ∃ tag l, (tag, l) ∈ (builderTags ms ([], [])).2 ∧ pr ∈ l ∧ x = traitName u tag ++ "::".toList ++ pr.op.operationId := by
  have hi : CleanName pr.op.operationId := by
    rw [(processOperation_inv hp).2.2.2.2.2.2.1]
    exact ident_clean h (C41_valid h _ _)
  obtain ⟨h1, h2, -, -⟩ := C51_partition ms
  refine ⟨by rw [structDoc_links h hi, if_pos (.inl rfl)], fun x => ?_⟩
  rw [structDoc_links h hi]
  split
  · rename_i hc
    have ht : pr.op.tags = [] := by rcases hc with hc | hc; cases hc; exact hc
    rw [List.mem_singleton]
    constructor
    · exact fun e => .inl ⟨(h1 pr).mpr ⟨hm, ht⟩, e⟩
    · rintro (⟨_, e⟩ | ⟨tag, l, hl, hpl, _⟩)
      · exact e
      · have := ((h2 pr tag).mp ⟨l, hl, hpl⟩).2
        rw [ht] at this
        cases this
  · rename_i hc
    rw [List.mem_map]
    constructor
    · rintro ⟨tag, htag, e⟩
      obtain ⟨l, hl, hpl⟩ := (h2 pr tag).mpr ⟨hm, htag⟩
      exact .inr ⟨tag, l, hl, hpl, e.symm⟩
    · rintro (⟨hb, _⟩ | ⟨tag, l, hl, hpl, e⟩)
      · exact absurd (.inr ((h1 pr).mp hb).2) hc
      · exact ⟨tag, ((h2 pr tag).mp ⟨l, hl, hpl⟩).2, e.symm⟩

/-! ## Traits, the client, summaries -/

/-- C89: the comment of a trait is the description of its tag: of the last one of that name. -/
theorem C89_trait (tags : List (Str × Option Str)) (tag : Str) (d : Option Str) :
    (LastTag tags tag d → traitDoc tags tag = d) ∧ ((∀ x ∈ tags, x.1 ≠ tag) → traitDoc tags tag = none) := by
  unfold traitDoc
  rw [BTree.get_insertAll]
  constructor
  · rintro ⟨pre, post, rfl, hn⟩
    have : (pre ++ (tag, d) :: post).reverse.find? (fun e => e.1 = tag) = some (tag, d) := by
      rw [List.reverse_append, List.reverse_cons, List.append_assoc, List.find?_append,
        List.find?_eq_none.mpr (fun x hx => by simpa using hn x (by simpa using hx))]
      simp
    rw [this]
    rfl
  · intro hn
    rw [List.find?_eq_none.mpr (fun x hx => by simpa using hn x (by simpa using hx))]
    rfl

open Progenitor.Settings Progenitor.ClientStruct in
/-- C89: the comment of the client begins with the title and ends with the version that `api_version` gives. -/
theorem C89_client {S T R I : Type} {g : Generation S T} {url : Str} {inner : Option I} {c : Client R I} (i : Info) (hv : '\n' ∉ i.version)
    (h : Made (declOf g i.version) url inner c) :
    ("Client for ".toList ++ i.title).isPrefixOf (clientDoc i) = true ∧
    (textLines (clientDoc i)).getLast? = some ("Version: ".toList ++ (declOf g i.version).apiVersion c) ∧
    (∀ d, i.description = some d → ∃ pre post, clientDoc i = pre ++ "\n\n".toList ++ d ++ "\n\n".toList ++ post) ∧
    (∀ d, i.terms = some d → ∃ pre post, clientDoc i = pre ++ "\n\n".toList ++ d ++ "\n\n".toList ++ post) := by
  rw [(C77_accessors h).2.1]
  obtain ⟨a, b, e, ha, hb, hb'⟩ : ∃ a b, clientDoc i = "Client for ".toList ++ i.title ++ a ++ b ++ "\n\n".toList ++ ("Version: ".toList ++ i.version) ∧
      (∀ d, i.description = some d → a = "\n\n".toList ++ d) ∧ (∀ d, i.terms = some d → b = "\n\n".toList ++ d) ∧
      (i.terms = none → b = []) := by
    unfold clientDoc
    rw [show "\n\nVersion: ".toList = "\n\n".toList ++ "Version: ".toList from rfl, List.append_assoc "\n\n".toList, ← List.append_assoc]
    exact ⟨_, _, rfl, fun d hd => by rw [hd], fun d hd => by rw [hd], fun hd => by rw [hd]⟩
  refine ⟨?_, ?_, ?_, ?_⟩
  · rw [e, List.append_assoc, List.append_assoc, List.append_assoc]
    exact isPrefixOf_append _ _
  · have e' : clientDoc i = ("Client for ".toList ++ i.title ++ a ++ b ++ ['\n']) ++ '\n' :: ("Version: ".toList ++ i.version) := by
      rw [e, show "\n\n".toList = ['\n', '\n'] from rfl]
      simp only [List.append_assoc, List.cons_append, List.nil_append]
    rw [e', textLines_append, textLines_single (a := "Version: ".toList ++ i.version) (by simp [hv])]
    simp
  · intro d hd
    rw [e, ha d hd]
    cases ht : i.terms with
    | none =>
      rw [hb' ht]
      exact ⟨"Client for ".toList ++ i.title, "Version: ".toList ++ i.version, by simp only [List.append_assoc, List.append_nil]⟩
    | some x =>
      rw [hb x ht]
      exact ⟨"Client for ".toList ++ i.title, x ++ "\n\n".toList ++ ("Version: ".toList ++ i.version), by simp only [List.append_assoc]⟩
  · intro d hd
    rw [e, hb d hd]
    exact ⟨"Client for ".toList ++ i.title ++ a, "Version: ".toList ++ i.version, by simp only [List.append_assoc]⟩

theorem trimEnd_spec (s : Str) : ∃ e, s = trimEnd s ++ e ∧ (∀ c ∈ e, c = '.' ∨ c = ',') ∧
    ∀ c, (trimEnd s).getLast? = some c → c ≠ '.' ∧ c ≠ ',' := by
  unfold trimEnd
  refine ⟨(s.reverse.takeWhile fun c => c = '.' || c = ',').reverse, ?_, ?_, ?_⟩
  · rw [← List.reverse_append, List.takeWhile_append_dropWhile, List.reverse_reverse]
  · intro c hc
    have := List.all_eq_true.mp List.all_takeWhile c (List.mem_reverse.mp hc)
    simpa using this
  · intro c hc
    rw [List.getLast?_reverse] at hc
    have := List.head?_dropWhile_not (fun c => decide (c = '.') || decide (c = ',')) s.reverse
    rw [hc] at this
    simpa using this

/-- C89: a comment begins with the summary of the operation but for final dots and commas, followed by the description. -/
theorem C89_summary {san path d t mt} (ht : processTexts san path d t = .ok mt) (op : OperationMethod) :
    (∀ s, t.summary = some s → s ≠ [] → ∃ a e rest, s = a ++ e ∧ (∀ c ∈ e, c = '.' ∨ c = ',') ∧
      (∀ c, a.getLast? = some c → c ≠ '.' ∧ c ≠ ',') ∧ docComment op mt = a ++ "\n\n".toList ++ rest) ∧
    (∀ x, t.description = some x → x ≠ [] → ∃ pre post, docComment op mt = pre ++ x ++ "\n\n".toList ++ post) ∧
    ((t.summary = none ∨ t.summary = some []) → (t.description = none ∨ t.description = some []) →
      ∃ rest, docComment op mt = sendText op ++ rest) := by
  have hs : mt.summary = nonEmpty t.summary ∧ mt.description = nonEmpty t.description := by
    unfold processTexts at ht
    obtain ⟨_, _, ht⟩ := bind_ok_inv ht
    obtain ⟨_, _, ht⟩ := bind_ok_inv ht
    obtain ⟨_, _, ht⟩ := bind_ok_inv ht
    obtain ⟨_, _, ht⟩ := bind_ok_inv ht
    cases ht
    exact ⟨rfl, rfl⟩
  have some_ne : ∀ x : Str, x ≠ [] → nonEmpty (some x) = some x := by
    intro x hx
    cases x with
    | nil => exact absurd rfl hx
    | cons c x => rfl
  unfold docComment
  rw [hs.1, hs.2]
  refine ⟨fun s he hne => ?_, fun x he hne => ?_, fun h1 h2 => ?_⟩
  · obtain ⟨e, h1, h2, h3⟩ := trimEnd_spec s
    rw [he, some_ne s hne]
    exact ⟨trimEnd s, e, descriptionText (nonEmpty t.description) ++ ((sendText op ++ "\n\n".toList) ++ argumentsText mt.params),
      h1, h2, h3, by simp only [List.append_assoc]⟩
  · rw [he, some_ne x hne]
    unfold descriptionText
    simp only [List.append_assoc]
    exact ⟨_, sendText op ++ ("\n\n".toList ++ argumentsText mt.params), rfl⟩
  · have e1 : nonEmpty t.summary = none := by rcases h1 with h1 | h1 <;> rw [h1] <;> rfl
    have e2 : nonEmpty t.description = none := by rcases h2 with h2 | h2 <;> rw [h2] <;> rfl
    rw [e1, e2]
    exact ⟨"\n\n".toList ++ argumentsText mt.params, by unfold descriptionText; simp only [List.nil_append, List.append_assoc]⟩

/-! ## Examples, and what guards are for -/

open AcceptExample

namespace TextExample

/-- Texts for `good`; the description of `id` has several lines. -/
def texts (id : Str) : Texts :=
  ⟨some "Change a thing...".toList, some "Changes it.\n\nSends a `GET` request to nothing.".toList,
    [(idParam, some id), (⟨"q".toList, .cookie, false, true, 1⟩, some "old".toList)],
    [(⟨"q".toList, .query true none, false, true, 1⟩, none)], some "What to keep".toList⟩

def calm : Texts := texts "Which\n- one".toList
/-- The second line looks like an item. -/
def loud : Texts := texts "Which\n- `force`: do it".toList

def path : Str := "/things/{id}".toList

end TextExample

open TextExample

theorem calm_ok : ∃ pr mt, processOperation (sanitize exUnicode .snake) noTypes TextExample.path "put".toList (calm.bare good) = .ok pr ∧
    processTexts (sanitize exUnicode .snake) TextExample.path good calm = .ok mt := by
  obtain ⟨pr, h⟩ := (isOk_iff (processOperation (sanitize exUnicode .snake) noTypes TextExample.path "put".toList (calm.bare good))).mp (by decide +kernel)
  obtain ⟨mt, hm, _⟩ := C89_texts calm h
  exact ⟨pr, mt, h, hm⟩

theorem quiet_of {a : Announces} {d : Str}
    (h : ((textLines d).tail.all fun l => !startsItem l && !a.before.isPrefixOf l) = true) : Quiet a d := by
  intro l hl
  have := List.all_eq_true.mp h l hl
  simpa using this

example : TextsQuiet sendsOne calm := by
  rintro x (rfl | ⟨p, hp⟩ | ⟨p, hp⟩) d hd
  · cases hd; exact quiet_of (by decide +kernel)
  · simp only [calm, texts, List.mem_singleton, Prod.mk.injEq] at hp
    rw [hp.2] at hd
    cases hd
  · simp only [calm, texts, List.mem_cons, List.not_mem_nil, or_false, Prod.mk.injEq] at hp
    rcases hp with ⟨_, rfl⟩ | ⟨_, rfl⟩ <;> cases hd <;> exact quiet_of (by decide +kernel)

/-- C89: without the condition on descriptions the comment can list an argument that the method does not have. -/
theorem C89_comment_fails : ∃ (t : Texts) (pr : Processed) (mt : MethodTexts) (says : Says),
    processOperation (sanitize exUnicode .snake) noTypes TextExample.path "put".toList (t.bare good) = .ok pr ∧
    processTexts (sanitize exUnicode .snake) TextExample.path good t = .ok mt ∧
    readComment sendsOne (docComment pr.op mt) = some says ∧
    ∃ a ∈ says.arguments, a.1 ∉ pr.op.params.map Param.name := by
  have key : (match processOperation (sanitize exUnicode .snake) noTypes TextExample.path "put".toList (loud.bare good),
        processTexts (sanitize exUnicode .snake) TextExample.path good loud with
      | .ok pr, .ok mt => (match readComment sendsOne (docComment pr.op mt) with
        | some says => says.arguments.any fun a => !(pr.op.params.map Param.name).contains a.1
        | none => false)
      | _, _ => false) = true := by decide +kernel
  split at key
  · rename_i pr mt hp ht
    split at key
    · rename_i says hs
      obtain ⟨a, ha, hn⟩ := List.any_eq_true.mp key
      exact ⟨loud, pr, mt, says, hp, ht, hs, a, ha, by simpa using hn⟩
    · cases key
  · cases key

/-- Two tags: two links. -/
example : linkTargets (structDoc exUnicode .separate { exOp with tags := ["a".toList, "b".toList] }) =
    ["ClientAExt::get_it".toList, "ClientBExt::get_it".toList] := by decide +kernel

example : LastTag [("a".toList, none), ("b".toList, none), ("a".toList, some "x".toList)] "a".toList (some "x".toList) :=
  ⟨[("a".toList, none), ("b".toList, none)], [], rfl, fun x hx => by cases hx⟩

/-- A path, a query and an optional header parameter, all given by variables. -/
example : structOk noBuilders exOp.params false = true ∧
    (∃ env, bindArgs exOp.params [.plain (txt "i"), .plain (txt "i"), .opt (some (txt "i"))] = some env) ∧
    Forall₂ (fun p v => Holds ((fun _ => .value (.ok (txt "i")) : Str → Input Unit) p.name) v) exOp.params
      [.plain (txt "i"), .plain (txt "i"), .opt (some (txt "i"))] :=
  ⟨by decide, ⟨_, rfl⟩, .cons (.inl rfl) (.cons (.inl rfl) (.cons (.inr rfl) .nil))⟩

end Progenitor.Props

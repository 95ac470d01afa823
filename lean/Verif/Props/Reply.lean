import Verif.Props.Wire
import Verif.Props.Response
import Verif.Spec.Reply

/-!
# Theorems about replies and the documents they follow
-/

namespace Progenitor.Props

open Progenitor Progenitor.Params Progenitor.Exec Progenitor.Query Progenitor.Spec Progenitor.Client

/-- The response that the document describes for status `s`: that of the code, of the range, or
else the default one. -/
inductive Documented (d : DocOperation) (s : Nat) : Resp.DocResponse → Prop
  | listed (e) : e ∈ d.codes → Covers e.1.toStatus s → Documented d s e.2
  | default (x) : d.default = some x → (∀ e ∈ d.codes, ¬ Covers e.1.toStatus s) → Documented d s x

/-- What the caller of an operation gets when the server answers `reply`, which is described as `x`. -/
inductive Delivered {P V : Type} (decode : TypeId → Bytes → Except P V) (reply : HttpResponse) (k : Resp.Kind) :
    Resp.Outcome P V → Prop
  | ok (o) : 200 ≤ reply.status → reply.status < 300 → ReportsOk decode reply k o → Delivered decode reply k o
  | error (o) : 400 ≤ reply.status → reply.status < 600 → ReportsError decode reply k o → Delivered decode reply k o

theorem handle_delivers {P V : Type} (decode : TypeId → Bytes → Except P V) {d : DocOperation} {disp : Resp.Dispatch}
    (hws : d.websocket = false) (hacc : Accepted d.websocket d.default d.codes disp) (reply : HttpResponse)
    (hs : (200 ≤ reply.status ∧ reply.status < 300) ∨ (400 ≤ reply.status ∧ reply.status < 600)) {x : Resp.DocResponse}
    (hx : Documented d reply.status x) :
    ∃ k o, Resp.kindOf false x = .ok k ∧ Resp.handle decode disp (.ok reply) = some o ∧ Delivered decode reply k o := by
  rw [hws] at hacc
  have hacc' := hacc
  obtain ⟨rs, h1, h2⟩ := hacc'
  have hnu : ∀ y k, Resp.kindOf false y = .ok k → k ≠ .upgrade := by
    intro y k hk e
    subst e
    unfold Resp.kindOf at hk
    split at hk
    · split at hk
      · split at hk <;> cases hk
      · cases hk
    · split at hk
      · rename_i h; cases h
      · split at hk <;> cases hk
  rcases hs with hs | hs
  · obtain ⟨ha, hb⟩ := C24_documented_success decode hacc reply hs
    cases hx with
    | listed e he hc =>
      obtain ⟨k, o, h1, h2, h3⟩ := ha e he hc
      exact ⟨k, o, h1, h2, .ok o hs.1 hs.2 h3⟩
    | default x hd hn =>
      obtain ⟨k, hk⟩ := default_kind h1 x hd
      obtain ⟨o, h2, h3⟩ := hb x k hd hk hn
      exact ⟨k, o, hk, h2, .ok o hs.1 hs.2 h3⟩
  · obtain ⟨ha, hb⟩ := C25_documented_errors decode hacc reply hs
    cases hx with
    | listed e he hc =>
      obtain ⟨k, o, h1, h2, h3⟩ := ha e he hc
      exact ⟨k, o, h1, h2, .error o hs.1 hs.2 h3⟩
    | default x hd hn =>
      obtain ⟨k, hk⟩ := default_kind h1 x hd
      obtain ⟨o, h2, h3⟩ := hb x k hd hk (hnu x k hk) hn
      exact ⟨k, o, hk, h2, .error o hs.1 hs.2 h3⟩

theorem handle_carries {P V : Type} (decode : TypeId → Bytes → Except P V) {d : DocOperation} {disp : Resp.Dispatch}
    (hws : d.websocket = false) (hacc : Accepted d.websocket d.default d.codes disp) (reply : HttpResponse)
    (hs : (200 ≤ reply.status ∧ reply.status < 300) ∨ (400 ≤ reply.status ∧ reply.status < 600)) {x : Resp.DocResponse}
    (hx : Documented d reply.status x) :
    ∃ k o, Carries false x k ∧ Resp.handle decode disp (.ok reply) = some o ∧ Delivered decode reply k o := by
  obtain ⟨k, o, h1, h2⟩ := handle_delivers decode hws hacc reply hs hx
  exact ⟨k, o, C24_kind.mp h1, h2⟩

theorem call_reply {P V : Type} {cfg : Config} {hooks : Hooks} {w : World} {decode : TypeId → Bytes → Except P V}
    {op : OperationMethod} {c : Code} {hist : List Event} {args : List Value} {r : Request} (hc : methodSigBody op = .ok c)
    (h : Issues cfg op args r) (hlook : LooksOn hooks w) :
    (call cfg hooks w decode op.params c hist args).1 =
      match Resp.handle decode c.dispatch (w.server (hist ++ beforeSend hooks r) r) with
      | none => .noCompile
      | some o => .returned o := by
  rw [C22_call cfg hooks w decode op c hist args r hc h]
  unfold Exec.perform finish beforeSend
  obtain ⟨h1, h2⟩ := hlook
  cases hp : hooks.preAsync <;> cases hq : hooks.postAsync <;>
    (try simp only [h1 hp]) <;> (try simp only [h2 hq]) <;>
    cases hooks.pre <;> simp only [Bool.false_eq_true, if_false, if_true, List.append_nil, List.nil_append, List.append_assoc, List.cons_append] <;>
    (split <;> rename_i h <;> rw [h])

/-- C72, guarded, for a whole document: what the caller of a generated method gets is what the server answers:
a documented success as `Ok`, a documented error as an error response, each with the value of the documented type
(or the failure to read it), status and headers; a failed exchange as a communication error. -/
theorem C72_document_partial {B P V : Type} {u : Names.Unicode} {types : Types} {tt : Builder.TypeTable B} {i : Doc.Interface} {t : Doc.TagStyle}
    {d : Doc.Document} {ms : List Processed} {cs : List Code} (hg : Doc.generate u types tt i t d = .ok (ms, cs)) :
    Forall₂ (fun o (pc : Processed × Code) => o.2.2.op.websocket = false →
      ∀ (cfg : Config) (hooks : Hooks) (w : World) (decode : TypeId → Bytes → Except P V) (hist : List Event) (args : List Value) (r : Request),
        LooksOn hooks w → Issues cfg pc.1.op args r →
        ∀ reply, reply = w.server (hist ++ beforeSend hooks r) r →
        (∀ e, reply = .error e →
          (call cfg hooks w decode pc.1.op.params pc.2 hist args).1 = .returned (.error (.communicationError e))) ∧
        (∀ answer x, reply = .ok answer → Documented o.2.2.op answer.status x →
          (200 ≤ answer.status ∧ answer.status < 300) ∨ (400 ≤ answer.status ∧ answer.status < 600) →
          ∃ k out, Carries false x k ∧ Delivered decode answer k out ∧
            (call cfg hooks w decode pc.1.op.params pc.2 hist args).1 = .returned out))
      (routes d) (ms.zip cs) := by
  have hcodes := C66_code hg
  have hops := generate_operation hg
  rw [← routes_eq]
  clear hg
  revert hops hcodes
  generalize Doc.operations d = os
  intro hcodes hops
  induction hops generalizing cs with
  | nil => cases hcodes; exact .nil
  | @cons o p os ps hop _ ih =>
    cases hcodes with
    | @cons _ c _ cs hc hcodes =>
      refine .cons ?_ (ih hcodes)
      intro hws cfg hooks w decode hist args r hlook hi reply hr
      obtain ⟨id, hop⟩ := hop
      obtain ⟨_, _, _, hrs, _⟩ := processOperation_inv hop
      obtain ⟨_, _, _, hgen, _⟩ := methodSigBody_ok hc
      rw [call_reply hc hi hlook, ← hr]
      refine ⟨fun e he => ?_, fun answer x ha hx hs => ?_⟩
      · rw [he]; rfl
      · obtain ⟨k, out, hk, hh, hd⟩ := handle_carries (d := o.2.2.op) decode hws ⟨_, hrs, hgen⟩ answer hs hx
        refine ⟨k, out, hk, hd, ?_⟩
        rw [ha, hh]

/-- C72, guarded: calling a generated method is calling the service. If the server answers by `serve` from what
it reads for the parameters, the result of the call is what `serve` answers to the arguments of the call. -/
theorem C72_remote_partial {P V : Type} {san types path method d pr c} (hp : processOperation san types path method d = .ok pr)
    (hc : methodSigBody pr.op = .ok c) (hws : d.websocket = false)
    {l : List Seg} (hpath : path = segsText l) (hl : SegsOk l) (hne : l ≠ [])
    (hdp : NoDuplicates d.pathLevel) (hdo : NoDuplicates d.opLevel) (hun : NamesUnambiguous (d.pathLevel ++ d.opLevel))
    (hh : HeadersApart d.pathLevel d.opLevel)
    {cfg : Config} {auth : Str} {base : List Str} (hbase : BaseUrl cfg auth base)
    {args : List Value} {r : Request} (h : Issues cfg pr.op args r) {keys : Str → List Str} (hrec : Recoverable keys l pr.op.params args)
    (hooks : Hooks) (w : World) (decode : TypeId → Bytes → Except P V) (hist : List Event)
    (hlook : LooksOn hooks w)
    (serve : (DocParam → List (Bytes × Bytes)) → HttpResponse)
    (hserve : ∀ hist r, r.method.print = method → Routed l (tailSegments auth base r) →
      w.server hist r = .ok (serve fun p => reads keys auth base l r p))
    (hdoc : ∀ f, ∃ x, Documented d (serve f).status x)
    (hstat : ∀ f, (200 ≤ (serve f).status ∧ (serve f).status < 300) ∨ (400 ≤ (serve f).status ∧ (serve f).status < 600)) :
    ∃ f x k out, (∀ p, Effective d.pathLevel d.opLevel p → ∃ a v, (a, v) ∈ pr.op.params.zip args ∧ Describes p a ∧
        Expected l p v (f p)) ∧
      Documented d (serve f).status x ∧ Carries false x k ∧ Delivered decode (serve f) k out ∧
      (call cfg hooks w decode pr.op.params c hist args).1 = .returned out := by
  have hr := C70_received_partial hp hpath hl hne hdp hdo hun hh hbase h hrec
  obtain ⟨x, hx⟩ := hdoc fun p => reads keys auth base l r p
  obtain ⟨_, _, _, hrs, _⟩ := processOperation_inv hp
  obtain ⟨_, _, _, hgen, _⟩ := methodSigBody_ok hc
  obtain ⟨k, out, hk, hh', hd⟩ := handle_carries decode hws ⟨_, hrs, hgen⟩ _ (hstat _) hx
  refine ⟨fun p => reads keys auth base l r p, x, k, out, fun p hpe => ?_, hx, hk, hd, ?_⟩
  · obtain ⟨a, v, h1, h2, _, h3⟩ := hr.received p hpe
    exact ⟨a, v, h1, h2, h3⟩
  · rw [call_reply hc h hlook, hserve _ _ hr.sameMethod hr.routed, hh']

/-- A document with the operation of the examples. -/
def wireDocument : Doc.Document := ⟨"3.0.0".toList, [(segsText wirePath, some [("get".toList, ⟨some "op".toList, wireDoc⟩)])]⟩

example : (Doc.generate exUnicode typesNone (⟨fun _ => none, fun _ => []⟩ : Builder.TypeTable Unit) .positional .merged
    wireDocument).isOk = true := by decide +kernel

example : (routes wireDocument).map (fun o => o.2.2.op.websocket) = [false] := rfl

example : Documented wireDoc 200 [] := .listed (.code 200, []) (by simp [wireDoc, plainDoc]) rfl

/-- A server that echoes the path argument. -/
def echo (f : DocParam → List (Bytes × Bytes)) : HttpResponse :=
  ⟨200, [("echo".toList, ((f ⟨"id".toList, .path true, true, true, 0⟩).map Prod.snd).flatten)], .ok [], .ok 0⟩

example : ∃ c, methodSigBody wireOp = .ok c := ⟨_, rfl⟩

example {c} (hc : methodSigBody wireOp = .ok c) (hist : List Event) (decode : TypeId → Bytes → Except Unit Nat) :
    ∃ f x k out, (∀ p, Effective wireDoc.pathLevel wireDoc.opLevel p → ∃ a v, (a, v) ∈ wireOp.params.zip (wireArgs "x") ∧
        Describes p a ∧ Expected wirePath p v (f p)) ∧ Documented wireDoc (echo f).status x ∧ Carries false x k ∧
      Delivered decode (echo f) k out ∧
      (call exCfg ⟨true, true, false, true⟩
        ⟨fun _ r => .ok r, fun _ r => .ok (echo fun p => reads ownKey "http://h".toList [] wirePath r p), fun _ _ => .ok ()⟩
        decode wireOp.params c hist (wireArgs "x")).1 = .returned out :=
  C72_remote_partial wireProcessed hc rfl rfl wireReady.segs wireReady.nonempty wireReady.pathLevel wireReady.opLevel
    wireReady.names wireReady.headers wireBase (wireIssues "x" (by simp)) (wireRecoverable "x" (by decide) (by decide) (by decide))
    _ _ decode hist ⟨fun _ _ _ => rfl, fun _ _ _ => rfl⟩ echo (fun _ _ _ _ => rfl) (fun f => ⟨[], .listed (.code 200, []) (by simp [wireDoc, plainDoc]) rfl⟩)
    (fun _ => .inl ⟨Nat.le_refl 200, by simp [echo]⟩)

/-- C72 fails for documented statuses that are neither successes nor errors: the answer is
`UnexpectedResponse`, or is read as the default response, although the document describes it. -/
theorem C72_redirect_fails :
    (∃ disp, Accepted false none [(.code 200, RespExample.jsonT), (.code 304, RespExample.noContent)] disp ∧
      ∀ (decode : TypeId → Bytes → Except Unit Nat) r, r.status = 304 →
        Resp.handle decode disp (.ok r) = some (.error (.unexpectedResponse r))) ∧
    (∃ disp, Accepted false (some RespExample.jsonT) [(.code 303, RespExample.jsonE)] disp ∧
      ∀ (decode : TypeId → Bytes → Except Unit Nat) r b v, r.status = 303 → r.body = .ok b → decode 1 b = .ok v →
        Resp.handle decode disp (.ok r) = some (.error (.errorResponse ⟨.value v, 303, r.headers⟩))) := by
  refine ⟨⟨_, ⟨_, rfl, rfl⟩, ?_⟩, ⟨_, ⟨_, rfl, rfl⟩, ?_⟩⟩
  · rintro decode ⟨s, hs, b, u⟩ hr
    dsimp only at hr
    subst hr
    rfl
  · rintro decode ⟨s, hs, b', u⟩ b v hr hb hd
    dsimp only at hr hb
    subst hr hb
    show some _ = _
    simp only [Resp.perform, fromResponse, hd]
    rfl

/-! ## C72 for every status -/

section
open Progenitor.Resp

theorem coversSuccess_iff {s : DocStatus} : coversSuccess s.toStatus = false ↔ ∀ n, IsSuccess n → ¬ Covers s.toStatus n := by
  cases s with
  | code c =>
    simp only [DocStatus.toStatus, coversSuccess, Covers, IsSuccess, Bool.and_eq_false_imp, decide_eq_true_eq, decide_eq_false_iff_not]
    exact ⟨fun h n hn e => by omega, fun h h1 h2 => h c ⟨h1, by omega⟩ rfl⟩
  | range r =>
    simp only [DocStatus.toStatus, coversSuccess, Covers, IsSuccess, beq_eq_false_iff_ne]
    exact ⟨fun h n hn hc => by omega, fun h e => h 200 (by omega) (by omega)⟩

/-- C72: for every operation that is accepted and every status, the emitted `match` takes the reply for what the document says. -/
theorem C72_treated {ws df codes disp} (hacc : Accepted ws df codes disp) (s : Nat) (act : Act) :
    dispatch disp.arms s = some act ↔ Treats ws df codes s act := by
  obtain ⟨rs, h1, h2⟩ := hacc
  rw [C23_classified h1 h2]
  have hmem := fun r => processResponses_mem h1 r
  have hlist : ∀ e ∈ codes, ∀ k, Carries ws e.2 k → (⟨e.1.toStatus, k⟩ : Response) ∈ rs := fun e he k hk =>
    (hmem _).mpr (.inr (.inl ⟨e, he, rfl, C24_kind.mpr hk⟩))
  have hdf : ∀ x k, df = some x → Carries ws x k → (⟨.default, k⟩ : Response) ∈ rs := fun x k hx hk =>
    (hmem _).mpr (.inl ⟨x, hx, rfl, C24_kind.mpr hk⟩)
  have hkind : ∀ e ∈ codes, ∃ k, Carries ws e.2 k := fun e he => by
    obtain ⟨k, hk⟩ := codes_kinds h1 e he; exact ⟨k, C24_kind.mp hk⟩
  have hcodes : ∀ e ∈ codes, e.1.toStatus ≠ .default := fun e _ => by cases e.1 <;> simp [DocStatus.toStatus]
  -- nothing listed for a success
  have hns : (∀ r ∈ rs, ¬ DocumentsSuccess r s) → (IsSuccess s → NotListed codes s) ∧ (s = 101 → NoSwitch ws codes) ∧
      (IsSuccess s → df = none → ¬ ∀ s', IsSuccess s' → NotListed codes s') := by
    intro h
    refine ⟨fun hs e he hc => ?_, fun hs => ⟨?_, fun e he hc => ?_⟩, fun hs hn hno => ?_⟩
    · obtain ⟨k, hk⟩ := hkind e he
      exact h _ (hlist e he k hk) ⟨hc, .inl hs⟩
    · cases hw : ws with
      | false => rfl
      | true => exact absurd ⟨hs, .inr rfl⟩ (h ⟨.code 101, .upgrade⟩ ((hmem _).mpr (.inr (.inr (.inr ⟨hw, rfl⟩)))))
    · obtain ⟨k, hk⟩ := hkind e he
      have := hlist e he k hk
      rw [hc] at this
      exact h _ this ⟨hs, .inr rfl⟩
    · refine h ⟨.range 2, .raw⟩ ((hmem _).mpr (.inr (.inr (.inl ⟨rfl, hn, fun e he => ?_⟩)))) ⟨?_, .inl hs⟩
      · exact coversSuccess_iff.mpr fun n hn' => hno n hn' e he
      · have := hs.1; have := hs.2; simp only [Covers]; omega
  have hsn : (IsSuccess s → NotListed codes s) → (s = 101 → NoSwitch ws codes) →
      (IsSuccess s → df = none → ¬ ∀ s', IsSuccess s' → NotListed codes s') → ∀ r ∈ rs, ¬ DocumentsSuccess r s := by
    rintro a b c r hr ⟨hc, hd⟩
    rcases (hmem r).mp hr with ⟨x, _, hx, _⟩ | ⟨e, he, hst, _⟩ | ⟨rfl, hn, hno⟩ | ⟨hw, rfl⟩
    · rw [hx] at hc; exact hc
    · rw [hst] at hc hd
      rcases hd with hd | hd
      · exact a hd e he hc
      · rw [hd] at hc
        refine (b hc).2 e he ?_
        cases h : e.1 with
        | code n => rw [h] at hd; injection hd with hd; rw [hd]
        | range n => rw [h] at hd; cases hd
    · rcases hd with hd | hd
      · exact c hd hn fun s' hs' e he => coversSuccess_iff.mp (hno e he) s' hs'
      · cases hd
    · have hs : s = 101 := hc
      have := (b hs).1
      rw [hw] at this; cases this
  have hne : (∀ r ∈ rs, ¬ DocumentsError r s) ↔ (IsFailure s → NotListed codes s) := by
    constructor
    · intro h hs e he hc
      obtain ⟨k, hk⟩ := hkind e he
      exact h _ (hlist e he k hk) ⟨hc, hs⟩
    · rintro h r hr ⟨hc, hs⟩
      rcases (hmem r).mp hr with ⟨x, _, hx, _⟩ | ⟨e, he, hst, _⟩ | ⟨rfl, _, _⟩ | ⟨_, rfl⟩
      · rw [hx] at hc; exact hc
      · rw [hst] at hc; exact h hs e he hc
      · simp only [Covers] at hc; omega
      · simp only [Covers] at hc; omega
  constructor
  · intro h
    cases h with
    | success r hr hd =>
      obtain ⟨hc, hd⟩ := hd
      rcases (hmem r).mp hr with ⟨x, _, hx, _⟩ | ⟨e, he, hst, hk⟩ | ⟨rfl, hn, hno⟩ | ⟨hw, rfl⟩
      · rw [hx] at hc; exact hc.elim
      · rw [hst] at hc hd
        rcases hd with hd | hd
        · exact .success e r.kind he hc hd (C24_kind.mp hk)
        · rw [hd] at hc
          refine .switch e r.kind he ?_ hc (C24_kind.mp hk)
          cases h : e.1 with
          | code n => rw [h] at hd; injection hd with hd; rw [hd]
          | range n => rw [h] at hd; cases hd
      · rcases hd with hd | hd
        · exact .successOther hn hd fun s' hs' e he => coversSuccess_iff.mp (hno e he) s' hs'
        · cases hd
      · exact .upgrade hw hc
    | successByDefault d hd hst h1' h2' hno =>
      rcases (hmem d).mp hd with ⟨x, hx, _, hk⟩ | ⟨e, he, hst', _⟩ | ⟨rfl, _, _⟩ | ⟨_, rfl⟩
      · exact .successDefault x d.kind hx ⟨h1', h2'⟩ ((hns hno).1 ⟨h1', h2'⟩) (C24_kind.mp hk)
      · exact absurd (hst'.symm.trans hst) (hcodes e he)
      · cases hst
      · cases hst
    | error r hr hd =>
      obtain ⟨hc, hs⟩ := hd
      rcases (hmem r).mp hr with ⟨x, _, hx, _⟩ | ⟨e, he, hst, hk⟩ | ⟨rfl, _, _⟩ | ⟨_, rfl⟩
      · rw [hx] at hc; exact hc.elim
      · rw [hst] at hc; exact .failure e r.kind he hc hs (C24_kind.mp hk)
      · simp only [Covers] at hc; omega
      · simp only [Covers] at hc; omega
    | errorByDefault d hd hst hs hno hk =>
      have hno1 := hns fun r hr => (hno r hr).1
      have hno2 := hne.mp fun r hr => (hno r hr).2
      rcases (hmem d).mp hd with ⟨x, hx, _, hk'⟩ | ⟨e, he, hst', _⟩ | ⟨rfl, _, _⟩ | ⟨_, rfl⟩
      · exact .other x d.kind hx hs hno1.2.1 hno2 (C24_kind.mp hk') hk
      · exact absurd (hst'.symm.trans hst) (hcodes e he)
      · cases hst
      · cases hst
    | unexpected hno hd =>
      have hno1 := hns fun r hr => (hno r hr).1
      have hno2 := hne.mp fun r hr => (hno r hr).2
      have hx : ∀ x, df = some x → ¬ IsSuccess s ∧ Carries ws x .upgrade := by
        intro x hx
        obtain ⟨k, hk⟩ := default_kind h1 x hx
        have := hd _ (hdf x k hx (C24_kind.mp hk)) rfl
        exact ⟨this.1, by rw [← this.2]; exact C24_kind.mp hk⟩
      refine .unexpected hx (fun hs => ⟨hno1.1 hs, ?_⟩) hno1.2.1 hno2
      have hn : df = none := by
        cases hdd : df with
        | none => rfl
        | some x => exact absurd hs (hx x hdd).1
      have := hno1.2.2 hs hn
      simp only [Classical.not_forall] at this
      obtain ⟨s', hs', hl⟩ := this
      exact ⟨s', hs', hl⟩
  · intro h
    cases h with
    | success e k he hc hs hk => exact .success _ (hlist e he k hk) ⟨hc, .inl hs⟩
    | successDefault x k hx hs hno hk =>
      refine .successByDefault _ (hdf x k hx hk) rfl hs.1 hs.2 (hsn (fun _ => hno) (fun e => ?_) fun _ hn => ?_)
      · have := hs.1; omega
      · rw [hx] at hn; cases hn
    | successOther hn hs hno =>
      refine .success ⟨.range 2, .raw⟩ ((hmem _).mpr (.inr (.inr (.inl ⟨rfl, hn, fun e he => ?_⟩)))) ⟨?_, .inl hs⟩
      · exact coversSuccess_iff.mpr fun n hn' => hno n hn' e he
      · have := hs.1; have := hs.2; simp only [Covers]; omega
    | switch e k he hc hs hk =>
      have := hlist e he k hk
      rw [hc] at this
      exact .success _ this ⟨hs, .inr rfl⟩
    | upgrade hw hs =>
      exact .success ⟨.code 101, .upgrade⟩ ((hmem _).mpr (.inr (.inr (.inr ⟨hw, rfl⟩)))) ⟨hs, .inr rfl⟩
    | failure e k he hc hs hk => exact .error _ (hlist e he k hk) ⟨hc, hs⟩
    | other x k hx hs h101 hf hk hu =>
      have ha := hsn (fun h => absurd h hs) h101 (fun h => absurd h hs)
      have hb := hne.mpr hf
      exact .errorByDefault _ (hdf x k hx hk) rfl hs (fun r hr => ⟨ha r hr, hb r hr⟩) hu
    | unexpected hx hs h101 hf =>
      have ha := hsn (fun h => (hs h).1) h101 (fun h _ hno => by
        obtain ⟨_, s', hs', hl⟩ := hs h; exact hl (hno s' hs'))
      have hb := hne.mpr hf
      refine .unexpected (fun r hr => ⟨ha r hr, hb r hr⟩) fun d hd hst => ?_
      rcases (hmem d).mp hd with ⟨x, hx', _, hk⟩ | ⟨e, he, hst', _⟩ | ⟨rfl, _, _⟩ | ⟨_, rfl⟩
      · obtain ⟨h1', h2'⟩ := hx x hx'
        have := C24_kind.mpr h2'
        rw [hk] at this
        injection this with this
        exact ⟨h1', this⟩
      · exact absurd (hst'.symm.trans hst) (hcodes e he)
      · cases hst
      · cases hst

/-- What the caller gets for a reply that is taken for something. -/
inductive Gets {P V : Type} (decode : Params.TypeId → Bytes → Except P V) (reply : HttpResponse) : Act → Outcome P V → Prop
  | ok (k o) : ReportsOk decode reply k o → Gets decode reply (.ok k) o
  | error (k o) : ReportsError decode reply k o → Gets decode reply (.err k) o
  | unexpected : Gets decode reply .unexpected (.error (.unexpectedResponse reply))

end

theorem err_not_upgrade {ws df codes disp} (hacc : Accepted ws df codes disp) {s : Nat} {k : Resp.Kind}
    (h : Resp.dispatch disp.arms s = some (.err k)) : k ≠ .upgrade := by
  obtain ⟨rs, h1, h2⟩ := hacc
  rw [C23_classified h1 h2] at h
  cases h with
  | error r hr hd =>
    intro hu
    obtain ⟨_, _, _, _, hup, _⟩ := Resp.genMatch_ok h2
    have hi := Resp.documentsError_item hd
    exact hi.2 (hup _ hr hi.1 hu)
  | errorByDefault d _ _ _ _ hk => exact hk

/-- C72: every reply to an accepted operation, whatever its status, has an outcome, and it is the one that the document says. -/
theorem C72_every_status {P V : Type} (decode : TypeId → Bytes → Except P V) {ws df codes disp} (hacc : Accepted ws df codes disp)
    (reply : HttpResponse) :
    ∃ act out, Treats ws df codes reply.status act ∧ Gets decode reply act out ∧
      Resp.handle decode disp (.ok reply) = some out := by
  obtain ⟨act, ha⟩ := C23_total hacc reply.status
  refine ⟨act, Resp.perform decode act reply, (C72_treated hacc _ _).mp ha, ?_, by simp only [Resp.handle, ha]; rfl⟩
  cases act with
  | ok k => exact .ok k _ (perform_success decode k reply)
  | err k => exact .error k _ (perform_err decode reply (err_not_upgrade hacc ha))
  | unexpected => exact .unexpected

/-- C72: a status is taken for one thing only. -/
theorem C72_one_treatment {ws df codes disp} (hacc : Accepted ws df codes disp) {s : Nat} {act act' : Resp.Act}
    (h : Treats ws df codes s act) (h' : Treats ws df codes s act') : act = act' := by
  have h1 := (C72_treated hacc s act).mpr h
  rw [(C72_treated hacc s act').mpr h'] at h1
  injection h1 with h1
  exact h1.symm

/-- C72 for a whole document, for all operations (websockets included) and all replies: what the caller gets is what the document
says about the status of the answer. -/
theorem C72_every_reply {B P V : Type} {u : Names.Unicode} {types : Types} {tt : Builder.TypeTable B} {i : Doc.Interface} {t : Doc.TagStyle}
    {d : Doc.Document} {ms : List Processed} {cs : List Code} (hg : Doc.generate u types tt i t d = .ok (ms, cs)) :
    Forall₂ (fun o (pc : Processed × Code) =>
      ∀ (cfg : Config) (hooks : Hooks) (w : World) (decode : TypeId → Bytes → Except P V) (hist : List Event) (args : List Value) (r : Request),
        LooksOn hooks w → Issues cfg pc.1.op args r →
        match w.server (hist ++ beforeSend hooks r) r with
        | .error e => (call cfg hooks w decode pc.1.op.params pc.2 hist args).1 = .returned (.error (.communicationError e))
        | .ok answer => ∃ act out, Treats o.2.2.op.websocket o.2.2.op.default o.2.2.op.codes answer.status act ∧
            Gets decode answer act out ∧ (call cfg hooks w decode pc.1.op.params pc.2 hist args).1 = .returned out)
      (routes d) (ms.zip cs) := by
  have hcodes := C66_code hg
  have hops := generate_operation hg
  rw [← routes_eq]
  clear hg
  revert hops hcodes
  generalize Doc.operations d = os
  intro hcodes hops
  induction hops generalizing cs with
  | nil => cases hcodes; exact .nil
  | @cons o p os ps hop _ ih =>
    cases hcodes with
    | @cons _ c _ cs hc hcodes =>
      refine .cons ?_ (ih hcodes)
      intro cfg hooks w decode hist args r hlook hi
      obtain ⟨id, hop⟩ := hop
      obtain ⟨_, _, _, hrs, _⟩ := processOperation_inv hop
      obtain ⟨_, _, _, hgen, _⟩ := methodSigBody_ok hc
      rw [call_reply hc hi hlook]
      cases w.server (hist ++ beforeSend hooks r) r with
      | error e => rfl
      | ok answer =>
        obtain ⟨act, out, h1, h2, h3⟩ := C72_every_status decode ⟨_, hrs, hgen⟩ answer
        exact ⟨act, out, h1, h2, by rw [h3]⟩

/-- A websocket operation: 101 is a connection, 404 an error with a body, 302 not expected. -/
example : Treats true none RespExample.channel 101 (.ok .upgrade) ∧ Treats true none RespExample.channel 404 (.err (.type 2)) ∧
    Treats true none RespExample.channel 302 .unexpected :=
  ⟨(C72_treated RespExample.channel_accepted _ _).mp rfl, (C72_treated RespExample.channel_accepted _ _).mp rfl,
   (C72_treated RespExample.channel_accepted _ _).mp rfl⟩

end Progenitor.Props

import Verif.Spec.ErrorText

/-!
# C73: messages of errors
-/

namespace Progenitor.Props

open Progenitor Progenitor.Spec Progenitor.Client

variable {P E P' E' : Type}

/-- The text with which messages of a class begin. -/
def classPrefix : ErrorClass → String
  | .invalidRequest => "Invalid Request: "
  | .communication => "Communication Error: "
  | .upgrade => "Invalid Response Upgrade: "
  | .documented => "Error Response: "
  | .body => "Invalid Response Body Bytes: "
  | .payload => "Invalid Response Payload ("
  | .unexpected => "Unexpected Response: "
  | .preHook => "Pre-hook Error: "
  | .postHook => "Post-hook Error: "

theorem prefix_four (a b c d : Str) : a <+: a ++ b ++ c ++ d := ⟨b ++ c ++ d, by simp⟩

theorem message_prefix (p : Printers P E) (e : Error P E) : (classPrefix (classOf e)).toList <+: e.message p := by
  cases e
  case invalidResponsePayload b e =>
    exact prefix_four _ _ _ _
  all_goals exact List.prefix_append _ _

theorem display_plain (p : Printers P E) (e : Error P E) : e.display p false = e.message p := List.append_nil _

theorem display_no_cause (p : Printers P E) (a : Bool) (e : Error P E) (h : e.cause p = none) : e.display p a = e.message p := by
  unfold Error.display
  rw [h]
  cases a <;> exact List.append_nil _

theorem display_prefix (p : Printers P E) (a : Bool) (e : Error P E) :
    (classPrefix (classOf e)).toList <+: e.display p a :=
  (message_prefix p e).trans (List.prefix_append _ _)

theorem prefixes_apart (c d : ErrorClass) (s : Str) (hc : (classPrefix c).toList <+: s) (hd : (classPrefix d).toList <+: s) :
    c = d := by
  have h : (classPrefix c).toList <+: (classPrefix d).toList ∨ (classPrefix d).toList <+: (classPrefix c).toList :=
    List.prefix_or_prefix_of_prefix hc hd
  revert h
  clear hc hd
  cases c <;> cases d <;> simp (config := { decide := true }) only [] <;> decide

/-- C73: the message tells the kind of the error, whatever it contains: in all forms, for errors of any types. -/
theorem C73_class (p : Printers P E) (p' : Printers P' E') (a a' : Bool) (e : Error P E) (e' : Error P' E')
    (h : e.display p a = e'.display p' a') : classOf e = classOf e' :=
  prefixes_apart _ _ _ (display_prefix p a e) (h ▸ display_prefix p' a' e')

theorem causes_head {c : Cause} {l : List Str} (h : Causes c l) : ∃ rest, l = c.text :: rest := by
  cases h with
  | last t => exact ⟨[], rfl⟩
  | «from» t c l _ => exact ⟨l, rfl⟩

theorem loop_joined {c : Cause} {l : List Str} (h : Causes c l) : sourceLoop (some c) = ": ".toList ++ joined l := by
  induction h with
  | last t => rfl
  | «from» t c l hc ih =>
    obtain ⟨rest, rfl⟩ := causes_head hc
    show ": ".toList ++ t ++ sourceLoop (some c) = _
    rw [ih, joined, List.append_assoc, List.append_assoc]

theorem text_loop {c : Cause} {l : List Str} (h : Causes c l) : c.text ++ sourceLoop c.source = joined l := by
  cases h with
  | last t => exact List.append_nil t
  | «from» t c l hc =>
    obtain ⟨rest, rfl⟩ := causes_head hc
    show t ++ sourceLoop (some c) = _
    rw [loop_joined hc, joined, List.append_assoc]

/-- C73: every chain of causes is finite and has one list of messages. -/
theorem causes_total (c : Cause) : ∃ l, Causes c l := by
  induction c with
  | last t => exact ⟨_, .last t⟩
  | «from» t c ih => obtain ⟨l, h⟩ := ih; exact ⟨_, .from t c l h⟩

/-- C73: with `{:#}` the message of an error with a cause ends in the messages of all causes, from the outermost to the
innermost, each once and separated by colons; an error without a cause is shown the same way by `{}` and `{:#}`. -/
theorem C73_causes (p : Printers P E) (e : Error P E) :
    (∀ c l, e.cause p = some c → Causes c l → ∃ start, e.display p false = start ++ c.text ∧
      e.display p true = start ++ joined l ∧ (classPrefix (classOf e)).toList <+: start) ∧
    (e.cause p = none → e.display p true = e.display p false) := by
  constructor
  · intro c l hc hl
    have key : ∀ start, e.message p = start ++ c.text → e.display p true = start ++ joined l := by
      intro start hs
      unfold Error.display
      rw [hs, hc, if_pos rfl, List.append_assoc]
      exact congrArg _ (text_loop hl)
    rw [display_plain]
    cases e with
    | communicationError e => cases hc; exact ⟨_, rfl, key _ rfl, List.prefix_refl _⟩
    | invalidUpgrade e => cases hc; exact ⟨_, rfl, key _ rfl, List.prefix_refl _⟩
    | responseBodyError e => cases hc; exact ⟨_, rfl, key _ rfl, List.prefix_refl _⟩
    | invalidResponsePayload b e =>
      cases hc
      refine ⟨_, rfl, key _ rfl, ?_⟩
      rw [List.append_assoc]
      exact List.prefix_append _ _
    | _ => cases hc
  · intro h
    rw [display_no_cause p _ e h, display_no_cause p _ e h]

/-- C73: the message of an error contains what the error carries: the text of an invalid request or of a hook, the status,
headers and value of a documented error, the bytes that could not be decoded, the unexpected response. -/
theorem C73_content (p : Printers P E) (a : Bool) (e : Error P E) :
    (∀ s, e = .invalidRequest s ∨ e = .preHookError s ∨ e = .postHookError s →
      e.display p a = (classPrefix (classOf e)).toList ++ s) ∧
    (∀ rv, e = .errorResponse rv → ∃ v, e.display p a = "Error Response: status: ".toList ++ p.status rv.status ++
      "; headers: ".toList ++ p.headers rv.headers ++ "; value: ".toList ++ v ∧ ∀ f, p.value = some f → v = f rv.inner) ∧
    (∀ b j, e = .invalidResponsePayload b j → ∃ rest, e.display p a = "Invalid Response Payload (".toList ++ p.bytes b ++ "): ".toList ++ (p.json j).text ++ rest) ∧
    (∀ r, e = .unexpectedResponse r → e.display p a = "Unexpected Response: ".toList ++ p.response r) := by
  refine ⟨?_, ?_, ?_, ?_⟩
  · rintro s (rfl | rfl | rfl) <;> exact display_no_cause p a _ rfl
  · rintro rv rfl
    have hm : Error.display p a (.errorResponse rv) = "Error Response: ".toList ++ p.info rv := display_no_cause p a _ rfl
    rewrite [hm]
    have h0 : "Error Response: status: ".toList = "Error Response: ".toList ++ "status: ".toList := by decide
    rewrite [h0]
    unfold Printers.info
    cases p.value with
    | none =>
      refine ⟨"<stream>".toList, ?_, fun g hg => by cases hg⟩
      have h1 : "; value: <stream>".toList = "; value: ".toList ++ "<stream>".toList := by decide
      dsimp only
      rewrite [h1]
      simp only [List.append_assoc, -String.reduceToList]
    | some f =>
      refine ⟨f rv.inner, ?_, fun g hg => by cases hg; rfl⟩
      dsimp only
      simp only [List.append_assoc, -String.reduceToList]
  · rintro b j rfl
    exact ⟨_, rfl⟩
  · rintro r rfl
    exact display_no_cause p a _ rfl

/-- C73: `Debug` is `Display`. -/
theorem C73_debug (p : Printers P E) (a : Bool) (e : Error P E) : e.debug p a = e.display p a := rfl

/-- C73: an untyped error has the same message, except for the value of a documented error. -/
theorem C73_untyped (p : Printers P E) (q : Printers P Unit) (a : Bool) (e : Error P E)
    (h : q.reqwest = p.reqwest ∧ q.json = p.json ∧ q.bytes = p.bytes ∧ q.response = p.response)
    (hd : classOf e ≠ .documented) : e.intoUntyped.display q a = e.display p a := by
  obtain ⟨h1, h2, h3, h4⟩ := h
  cases p
  cases q
  dsimp only at h1 h2 h3 h4
  subst h1 h2 h3 h4
  cases e
  case errorResponse => exact absurd rfl hd
  all_goals rfl

/-- C73: errors from other libraries keep their message. -/
theorem C73_conversions (p : Printers P E) (r : ReqwestError) (t : Str) :
    (Error.ofReqwest r : Error P E).display p false = "Communication Error: ".toList ++ (p.reqwest r).text ∧
    (Error.ofInvalidHeader t : Error P E).display p false = "Invalid Request: ".toList ++ t :=
  ⟨List.append_nil _, List.append_nil _⟩

/-- Printers of the examples: a transport error with two causes. -/
def exPrinters : Printers Unit Nat :=
  ⟨fun _ => .from "error sending request".toList (.from "connect".toList (.last "refused".toList)), fun _ => .last "eof".toList,
   fun _ => "b".toList, fun _ => "r".toList, fun _ => "404".toList, fun _ => "{}".toList, some fun _ => "7".toList⟩

example : (Error.communicationError ⟨0, none⟩ : Error Unit Nat).display exPrinters true =
    "Communication Error: error sending request: connect: refused".toList := rfl

example : Causes (exPrinters.reqwest ⟨0, none⟩) ["error sending request".toList, "connect".toList, "refused".toList] :=
  .from _ _ _ (.from _ _ _ (.last _))

end Progenitor.Props

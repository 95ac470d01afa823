import Verif.Props.Doc
import Verif.Props.Compile

/-!
# Theorems about generation for a whole document
-/

namespace Progenitor.Props

open Progenitor Progenitor.Params Progenitor.Names Progenitor.Doc Progenitor.Spec Progenitor.Builder Progenitor.Exec

variable {B : Type} {u : Unicode}

theorem routes_eq (d : Document) : operations d = routes d := by
  unfold operations routes
  congr 1
  funext p
  obtain ⟨path, item⟩ := p
  cases item with
  | none => rfl
  | some ops => rfl

theorem processOne_for {types : Types} {o : Str × Str × RawOperation} {p : Processed}
    (h : processOne u types o = .ok p) : MethodFor u o p := by
  obtain ⟨path, m, o⟩ := o
  cases hid : o.id with
  | none => simp only [processOne, hid] at h; cases h
  | some id =>
    simp only [processOne, hid] at h
    obtain ⟨-, -, h1, -, h2, h3, h4, h5, -⟩ := processOperation_inv h
    exact ⟨id, hid, h4, (C58_method_only _ _).mp h2, h1, h5, h3⟩

theorem processAll_for {types : Types} {os : List (Str × Str × RawOperation)} {ps : List Processed}
    (h : processAll u types os = .ok ps) : Forall₂ (MethodFor u) os ps := by
  induction os generalizing ps with
  | nil => cases h; exact .nil
  | cons o os ih =>
    obtain ⟨p, h1, h⟩ := bind_ok_inv h
    obtain ⟨ps', h2, h⟩ := bind_ok_inv h
    cases h
    exact .cons (processOne_for h1) (ih h2)

theorem positionalAll_codes {ps : List Processed} {cs : List Code} (h : positionalAll ps = .ok cs) :
    Forall₂ (fun p c => methodSigBody p.op = .ok c) ps cs := by
  induction ps generalizing cs with
  | nil => cases h; exact .nil
  | cons p ps ih =>
    obtain ⟨c, h1, h⟩ := bind_ok_inv h
    obtain ⟨cs', h2, h⟩ := bind_ok_inv h
    cases h
    exact .cons h1 (ih h2)

theorem builderAll_codes {tt : TypeTable B} {ps : List Processed} {cs : List Code} (h : builderAll tt ps = .ok cs) :
    Forall₂ (fun p c => methodSigBody p.op = .ok c) ps cs := by
  induction ps generalizing cs with
  | nil => cases h; exact .nil
  | cons p ps ih =>
    obtain ⟨c, h1, h⟩ := bind_ok_inv h
    obtain ⟨cs', h2, h⟩ := bind_ok_inv h
    obtain ⟨_, -, h1⟩ := bind_ok_inv h1
    cases h
    exact .cons h1 (ih h2)

/-- C66: each operation of the document gives one method, in the order of the document, for its method and path. -/
theorem C66_methods {types : Types} {tt : TypeTable B} {i : Interface} {t : TagStyle} {d : Document} {ms : List Processed}
    {cs : List Code} (h : generate u types tt i t d = .ok (ms, cs)) : Forall₂ (MethodFor u) (routes d) ms := by
  obtain ⟨ms', h1, h⟩ := bind_ok_inv h
  obtain ⟨cs', h2, h⟩ := bind_ok_inv h
  cases h
  rw [← routes_eq]
  exact processAll_for (rawMethods_ok h1).2

/-- C66: the code of each method is the same in both interface styles; it is that of the operation. -/
theorem C66_code {types : Types} {tt : TypeTable B} {i : Interface} {t : TagStyle} {d : Document} {ms : List Processed}
    {cs : List Code} (h : generate u types tt i t d = .ok (ms, cs)) :
    Forall₂ (fun p c => methodSigBody p.op = .ok c) ms cs := by
  obtain ⟨ms', h1, h⟩ := bind_ok_inv h
  obtain ⟨cs', h2, h⟩ := bind_ok_inv h
  cases h
  unfold operationCode at h2
  split at h2
  · exact positionalAll_codes h2
  · cases h2
  · exact builderAll_codes h2

/-- C66: positional arguments with separate tags are not supported: generation never succeeds. -/
theorem C66_unsupported {types : Types} {tt : TypeTable B} {d : Document} {r : List Processed × List Code} :
    generate u types tt .positional .separate d ≠ .ok r := by
  intro h
  obtain ⟨ms', h1, h⟩ := bind_ok_inv h
  obtain ⟨cs', h2, h⟩ := bind_ok_inv h
  cases h2

example : (generate exUnicode (fun _ => none) (⟨fun _ => none, fun _ => []⟩ : TypeTable Unit) .builder .separate
    (getDoc [("get_b", ["x"]), ("get_a", [])])).isOk = true := by decide +kernel

end Progenitor.Props

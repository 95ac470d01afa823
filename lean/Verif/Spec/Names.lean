import Verif.Model.Names

/-!
# Specification: identifiers, and what is assumed of Unicode tables
-/

namespace Progenitor.Spec

open Progenitor Progenitor.Names

/-- Facts about Unicode that are used.  They hold for Unicode 14 (checked by exhaustive evaluation outside
Lean, see DESIGN.md). -/
structure Lawful (u : Unicode) : Prop where
  alnum_ascii : ∀ c : Char, c.toNat < 128 → u.alnum c = c.isAlphanum
  lower_ascii : ∀ c : Char, c.toNat < 128 → u.lower c = c.isLower
  upper_ascii : ∀ c : Char, c.toNat < 128 → u.upper c = c.isUpper
  toLower_ascii : ∀ c : Char, c.toNat < 128 → u.toLower c = [c.toLower]
  toUpper_ascii : ∀ c : Char, c.toNat < 128 → u.toUpper c = [c.toUpper]
  start_ascii : ∀ c : Char, c.toNat < 128 → u.xidStart c = c.isAlpha
  cont_ascii : ∀ c : Char, c.toNat < 128 → u.xidCont c = (c.isAlphanum || c = '_')
  white_ascii : ∀ c : Char, c.toNat < 128 →
    u.white c = (c = ' ' ∨ (9 ≤ c.toNat ∧ c.toNat ≤ 13) : Bool)
  start_cont : ∀ c, u.xidStart c = true → u.xidCont c = true
  toLower_ne : ∀ c, u.toLower c ≠ []
  toUpper_ne : ∀ c, u.toUpper c ≠ []
  toLower_cont : ∀ c, u.xidCont c = true → ∀ d ∈ u.toLower c, u.xidCont d = true
  toUpper_cont : ∀ c, u.xidCont c = true → ∀ d ∈ u.toUpper c, u.xidCont d = true
  sigma_cont : u.xidCont 'ς' = true
  sigma_final : u.alnum 'ς' = true ∧ u.upper 'ς' = false ∧ u.toLower 'ς' = ['ς']
  sigma_upper : u.upper 'Σ' = true

/-- The reserved words of Rust (strict and reserved, editions 2015 to 2021) and `_`. -/
def reserved : List String :=
  ["as", "break", "const", "continue", "crate", "else", "enum", "extern", "false", "fn", "for", "if", "impl",
   "in", "let", "loop", "match", "mod", "move", "mut", "pub", "ref", "return", "self", "Self", "static",
   "struct", "super", "trait", "true", "type", "unsafe", "use", "where", "while", "async", "await", "dyn",
   "abstract", "become", "box", "do", "final", "macro", "override", "priv", "typeof", "unsized", "virtual",
   "yield", "try", "_"]

/-- A legal identifier (UAX 31 with `_` as additional start) that is not reserved. -/
def ValidIdent (u : Unicode) (s : Str) : Prop :=
  (∃ c cs, s = c :: cs ∧ (c = '_' ∨ u.xidStart c = true) ∧ ∀ d ∈ cs, u.xidCont d = true) ∧
  ∀ k ∈ reserved, s ≠ k.toList

/-- ASCII text. -/
def Ascii (s : Str) : Prop := ∀ c ∈ s, c.toNat < 128

/-- Characters that case conversion leaves alone and that do not end words. -/
def Settled (u : Unicode) (d : Char) : Prop :=
  u.alnum d = true ∧ u.xidCont d = true ∧ u.upper d = false ∧ u.toLower d = [d]

end Progenitor.Spec

import Verif.Model.Encode
import Verif.Spec.Url

namespace Progenitor

open Progenitor.Spec

theorem utf8_nil : utf8 [] = [] := rfl
theorem utf8_cons (c s) : utf8 (c :: s) = String.utf8EncodeChar c ++ utf8 s := by simp [utf8]
theorem utf8_append (s t) : utf8 (s ++ t) = utf8 s ++ utf8 t := by simp [utf8]

theorem utf8_injective {s t : Str} (h : utf8 s = utf8 t) : s = t := by
  have h1 : s.utf8Encode = t.utf8Encode := by
    unfold List.utf8Encode; unfold utf8 at h; rw [h]
  rw [← String.toByteArray_ofList, ← String.toByteArray_ofList] at h1
  exact String.ofList_inj.1 (String.toByteArray_inj.1 h1)

theorem forall_uint8 {P : UInt8 → Prop} (h : ∀ n : Fin 256, P (UInt8.ofNat n.val)) : ∀ b, P b := by
  intro b
  have := h ⟨b.toNat, b.toNat_lt⟩
  simpa using this

theorem utf8EncodeChar_ascii : ∀ b : UInt8, b.toNat < 128 →
    String.utf8EncodeChar (Char.ofNat b.toNat) = [b] := by
  apply forall_uint8; decide +kernel

/-- The characters `pathByte` can produce. -/
theorem pathByte_cases (b : UInt8) :
    (pathByte b = [Char.ofNat b.toNat] ∧ b.toNat < 128 ∧ inPathSet b = false) ∨
    (pathByte b = pctByte b ∧ (b.toNat ≥ 128 ∨ inPathSet b = true)) := by
  unfold pathByte
  by_cases h1 : b.toNat ≥ 128 <;> by_cases h2 : inPathSet b = true <;> simp_all <;> omega

theorem hexVal_hexDigit : ∀ n, n < 16 → hexVal (hexDigit n) = some n := by decide

theorem percentDecode_pct (b : UInt8) (r : Str) :
    percentDecode (pctByte b ++ r) = b :: percentDecode r := by
  have h1 := hexVal_hexDigit (b.toNat / 16) (by have := b.toNat_lt; omega)
  have h2 := hexVal_hexDigit (b.toNat % 16) (by omega)
  simp only [pctByte, List.cons_append, List.nil_append]
  rw [percentDecode]
  simp only [if_true, h1, h2]
  congr 1
  rw [Nat.div_add_mod]
  simp

theorem percentDecode_cons_ne (c : Char) (r : Str) (h : c ≠ '%') :
    percentDecode (c :: r) = String.utf8EncodeChar c ++ percentDecode r := by
  rw [percentDecode]
  intro _ _ _ h'; exact absurd h' h

theorem inPathSet_pct : ∀ b : UInt8, b.toNat < 128 → Char.ofNat b.toNat = '%' → inPathSet b = true := by
  apply forall_uint8; decide +kernel

theorem percentDecode_pathByte (b : UInt8) (r : Str) :
    percentDecode (pathByte b ++ r) = b :: percentDecode r := by
  rcases pathByte_cases b with ⟨h, h1, h2⟩ | ⟨h, _⟩
  · rw [h, List.cons_append, List.nil_append, percentDecode_cons_ne, utf8EncodeChar_ascii b h1]
    · rfl
    · intro h3; rw [inPathSet_pct b h1 h3] at h2; simp at h2
  · rw [h, percentDecode_pct]

theorem percentDecode_flatMap (bs : Bytes) (r : Str) :
    percentDecode (bs.flatMap pathByte ++ r) = bs ++ percentDecode r := by
  induction bs with
  | nil => rfl
  | cons b bs ih => rw [List.flatMap_cons, List.append_assoc, percentDecode_pathByte, ih]; rfl

theorem percentDecode_encodePath (s : Str) : percentDecode (encodePath s) = utf8 s := by
  have := percentDecode_flatMap (utf8 s) []
  simpa [encodePath, percentDecode] using this

/-- Characters which never occur in an encoded argument: all reserved path
characters, controls and non-ASCII. -/
def reservedOut (c : Char) : Bool :=
  c.toNat < 33 || c.toNat ≥ 127 || "\"#<>?`{}/".toList.contains c

theorem pathByte_alphabet : ∀ b : UInt8, (pathByte b).all (fun c => !reservedOut c) = true := by
  apply forall_uint8; decide +kernel

theorem encodePath_alphabet (s : Str) : ∀ c ∈ encodePath s, reservedOut c = false := by
  intro c hc
  simp only [encodePath, List.mem_flatMap] at hc
  obtain ⟨b, _, hb⟩ := hc
  have := List.all_eq_true.1 (pathByte_alphabet b) c hb
  simpa using this

end Progenitor

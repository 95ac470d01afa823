import Verif.Model.Basic

/-!
# Percent encoding of path arguments

Model of `/repo/progenitor-client/src/progenitor_client.rs:408-426`.
-/

namespace Progenitor

/-- The UTF-8 bytes of a text (`str::as_bytes`). -/
def utf8 (s : Str) : Bytes := s.flatMap String.utf8EncodeChar

/-- Upper-case hexadecimal digit, as written by `percent_encoding`. -/
def hexDigit (n : Nat) : Char :=
  if n < 10 then Char.ofNat (48 + n) else Char.ofNat (55 + n)

/-- `percent_encoding::percent_encode_byte`: `%XX`. -/
def pctByte (b : UInt8) : Str := ['%', hexDigit (b.toNat / 16), hexDigit (b.toNat % 16)]

/-- progenitor_client.rs:409-420 `PATH_SET`; `CONTROLS` is 0x00-0x1F and 0x7F.
The listed bytes are: space `"` `#` `<` `>` `?` `` ` `` `{` `}` `/` `%`. -/
def inPathSet (b : UInt8) : Bool :=
  b.toNat < 32 || b.toNat == 127 ||
  [32, 34, 35, 60, 62, 63, 96, 123, 125, 47, 37].contains b.toNat

/-- `AsciiSet::should_percent_encode`: non-ASCII bytes are always encoded. -/
def pathByte (b : UInt8) : Str :=
  if b.toNat ≥ 128 || inPathSet b then pctByte b else [Char.ofNat b.toNat]

/-- progenitor_client.rs:424-426 `encode_path`. -/
def encodePath (s : Str) : Str := (utf8 s).flatMap pathByte

end Progenitor

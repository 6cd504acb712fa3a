import Verif.Model.Basic
/-!
# Specification: text
-/

namespace Securefs.Spec

/-- The numbers that are Unicode characters: all up to 0x10ffff but the surrogates. -/
def IsChar (c : Nat) : Prop := c < 0xD800 ∨ (0xE000 ≤ c ∧ c < 0x110000)

/-- UTF-8 (RFC 3629). -/
def utf8Encode (c : Nat) : Bytes :=
  if c < 0x80 then [UInt8.ofNat c]
  else if c < 0x800 then [UInt8.ofNat (0xC0 + c / 64), UInt8.ofNat (0x80 + c % 64)]
  else if c < 0x10000 then [UInt8.ofNat (0xE0 + c / 4096), UInt8.ofNat (0x80 + c / 64 % 64), UInt8.ofNat (0x80 + c % 64)]
  else [UInt8.ofNat (0xF0 + c / 262144), UInt8.ofNat (0x80 + c / 4096 % 64), UInt8.ofNat (0x80 + c / 64 % 64), UInt8.ofNat (0x80 + c % 64)]

/-- The bytes are text. -/
def IsUtf8 (b : Bytes) : Prop := ∃ cs : List Nat, (∀ c ∈ cs, IsChar c) ∧ b = cs.flatMap utf8Encode

end Securefs.Spec

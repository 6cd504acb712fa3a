import Verif.Model.Basic
/-!
# What the encodings are supposed to be

These definitions do not use the model.  They fix the textbook meaning of hexadecimal, of a bit-string
code with five bits per symbol, and of little-endian numbers.
-/

namespace Securefs.Spec

/-- The character of a hexadecimal digit. -/
def hexDigit (n : Nat) : UInt8 := if n < 10 then UInt8.ofNat (48 + n) else UInt8.ofNat (87 + n)

/-- A lower-case hexadecimal digit. -/
def IsHexDigit (c : UInt8) : Prop := (48 ≤ c.toNat ∧ c.toNat ≤ 57) ∨ (97 ≤ c.toNat ∧ c.toNat ≤ 102)

/-- Bit `n` of a byte string, most significant bit of the first byte first, zeros after the end. -/
def bit (b : Bytes) (n : Nat) : Bool :=
  match b[n / 8]? with
  | none => false
  | some x => x.toNat / 2 ^ (7 - n % 8) % 2 == 1

/-- The number of the five bits from `5 * j` on. -/
def quintet (b : Bytes) (j : Nat) : Nat :=
  16 * (bit b (5 * j)).toNat + 8 * (bit b (5 * j + 1)).toNat + 4 * (bit b (5 * j + 2)).toNat
    + 2 * (bit b (5 * j + 3)).toNat + (bit b (5 * j + 4)).toNat

/-- The alphabet of the base32 code: letters without `L` and `O`, then the digits `2` to `9`. -/
def alphabet32 : List UInt8 := "ABCDEFGHIJKMNPQRSTUVWXYZ23456789".toList.map fun c => UInt8.ofNat c.toNat

/-- The value of a little-endian number. -/
def leValue : Bytes → Nat
  | [] => 0
  | x :: rest => x.toNat + 256 * leValue rest

end Securefs.Spec

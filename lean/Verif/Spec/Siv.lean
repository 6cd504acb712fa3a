import Verif.Model.Basic
/-!
# RFC 5297 (SIV) and RFC 5869 (HKDF)

Written from the RFCs, on numbers, without the model.  `cmac`, `ctr` and `hmac` are AES-CMAC, the AES-CTR
key stream and HMAC-SHA-256.
-/

namespace Securefs.Spec

/-- The number a byte string stands for, most significant byte first. -/
def beValue : Bytes → Nat
  | [] => 0
  | x :: rest => x.toNat * 256 ^ rest.length + beValue rest

/-- RFC 5297 §2.3: doubling in GF(2^128): shift left by one bit; if a one was shifted out, xor with `0x87`. -/
def dbl (d : Nat) : Nat := (2 * d % 2 ^ 128) ^^^ (if d ≥ 2 ^ 127 then 0x87 else 0)

/-- RFC 5297 §2.4: `D` after the strings before the last one, as a number. -/
def s2vD (cmac : Bytes → Bytes) : List Bytes → Nat → Nat
  | [], d => d
  | s :: rest, d => s2vD cmac rest (dbl d ^^^ beValue (cmac s))

/-- RFC 5297 §2.4: `t` is the string the last CMAC is applied to, for the vector `ads, text`.
    If `text` has at least 16 bytes, `t` is `text` with `D` xored onto its last 16 bytes; otherwise
    `dbl(D) xor (text || 1 || 0...)`. -/
def IsS2vInput (cmac : Bytes → Bytes) (ads : List Bytes) (text t : Bytes) : Prop :=
  if text.length ≥ 16 then
    t.length = text.length ∧ t.take (text.length - 16) = text.take (text.length - 16) ∧
      beValue (t.drop (text.length - 16)) =
        beValue (text.drop (text.length - 16)) ^^^ s2vD cmac ads (beValue (cmac (List.replicate 16 0)))
  else
    t.length = 16 ∧
      beValue t = dbl (s2vD cmac ads (beValue (cmac (List.replicate 16 0)))) ^^^
        ((beValue text * 2 + 1) * 2 ^ (127 - 8 * text.length))

/-- RFC 5297 §2.6: `(c, v)` is the SIV encryption of `text` with the strings `ads`: `v` is S2V, and `c` is `text`
    xor the key stream for the counter `v & (1^64 0 1^31 0 1^31)`. -/
def IsSivEncryption (cmac : Bytes → Bytes) (ctr : Bytes → Nat → Bytes) (ads : List Bytes) (text c v : Bytes) : Prop :=
  (∃ t, IsS2vInput cmac ads text t ∧ v = cmac t) ∧
  ∃ q, q.length = 16 ∧ beValue q = beValue v &&& (2 ^ 128 - 1 - 2 ^ 63 - 2 ^ 31) ∧
    c.length = text.length ∧ beValue c = beValue text ^^^ beValue (ctr q text.length)

/-- RFC 5869 §2.3: `T(0)` is empty, `T(k) = HMAC(PRK, T(k-1) | info | k)`. -/
def hkdfT (hmac : Bytes → Bytes → Bytes) (prk info : Bytes) : Nat → Bytes
  | 0 => []
  | k + 1 => hmac prk (hkdfT hmac prk info k ++ info ++ [UInt8.ofNat (k + 1)])

/-- RFC 5869 §2.3: `T(1) | T(2) | ... | T(n)`. -/
def hkdfAll (hmac : Bytes → Bytes → Bytes) (prk info : Bytes) : Nat → Bytes
  | 0 => []
  | k + 1 => hkdfAll hmac prk info k ++ hkdfT hmac prk info (k + 1)

/-- RFC 5869 §2.3: the first `len` bytes of `T(1) | ... | T(N)`, `N = ceil(len / 32)`. -/
def hkdfExpand (hmac : Bytes → Bytes → Bytes) (prk info : Bytes) (len : Nat) : Bytes :=
  (hkdfAll hmac prk info ((len + 31) / 32)).take len

end Securefs.Spec

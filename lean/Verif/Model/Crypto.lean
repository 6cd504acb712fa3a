import Verif.Model.Basic
/-!
# External cryptographic primitives, as parameters

Crypto++ is not modelled.  Its functions appear as parameters (structures of functions) and the
facts used about them are collected in `Lawful` structures, which are hypotheses of theorems.
-/

namespace Securefs

/-- AES-GCM under one key: `EncryptAndAuthenticate` and `DecryptAndVerify` of
    `CryptoPP::GCM<AES>` as called in `/repo/sources/lite_stream.cpp:184-192,230-238` and
    `/repo/sources/streams.cpp:394-402,454-462`.  `dec` returns the verification result together with the
    bytes written to the output buffer (Crypto++ writes them even when verification fails). -/
structure Gcm where
  enc : (iv aad pt : Bytes) → Bytes × Bytes
  dec : (iv aad ct mac : Bytes) → Bool × Bytes

/-- Functional correctness of AES-GCM: lengths, and decryption inverts encryption.  No
    cryptographic strength is assumed here.
    (for the calls in `/repo/sources/lite_stream.cpp:184,230` and `/repo/sources/streams.cpp:394,454,505,525`). -/
structure Gcm.Lawful (G : Gcm) : Prop where
  ct_len : ∀ iv aad pt, (G.enc iv aad pt).1.length = pt.length
  mac_len : ∀ iv aad pt, (G.enc iv aad pt).2.length = 16
  dec_len : ∀ iv aad ct mac, (G.dec iv aad ct mac).2.length = ct.length
  dec_enc : ∀ iv aad pt, G.dec iv aad (G.enc iv aad pt).1 (G.enc iv aad pt).2 = (true, pt)

/-- `generate_random(buf, size)` (`/repo/sources/crypto.cpp:149-153`): the `n`-th request for
    random bytes of this process, for a buffer of `size` bytes. -/
structure Rng where
  draw : (n size : Nat) → Bytes

/-- The generator fills the buffer, and for the sizes used for IVs it does not return all-zero
    buffers `fuel` times in a row (otherwise the retry loops of the code do not end).
    (for `generate_random`, `/repo/sources/crypto.cpp:149-153`). -/
structure Rng.Fair (R : Rng) (fuel : Nat) : Prop where
  len : ∀ n size, (R.draw n size).length = size
  nonzero : ∀ n size, 12 ≤ size → ∃ k, k < fuel ∧ allZeros (R.draw (n + k) size) = false

/-- The retry loop `do generate_random(iv, size); while (is_all_zeros(iv, size));`
    (`/repo/sources/lite_stream.cpp:226-229`, `/repo/sources/streams.cpp:387-390`).
    `fuel` bounds the attempts; running out is the outcome `diverge`.  Returns the IV and the
    number of requests made so far. -/
def drawIv (R : Rng) (size : Nat) : (fuel n : Nat) → Res (Bytes × Nat)
  | 0, _ => .error .diverge
  | fuel + 1, n =>
    if allZeros (R.draw n size) then drawIv R size fuel (n + 1) else .ok (R.draw n size, n + 1)

/-- `to_little_endian(uint32_t)` (`/repo/sources/myutils.h:269-279`); the argument is first
    converted to 32 bits by the callers' `static_cast<std::uint32_t>`. -/
def le32 (n : Nat) : Bytes :=
  [UInt8.ofNat n, UInt8.ofNat (n / 2 ^ 8), UInt8.ofNat (n / 2 ^ 16), UInt8.ofNat (n / 2 ^ 24)]

end Securefs

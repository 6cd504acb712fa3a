import Verif.Model.Basic
/-!
# Deterministic authenticated encryption and key derivation

Models `AES_SIV` and `hkdf` of `/repo/sources/crypto.cpp`.  AES-CMAC, AES counter mode and HMAC-SHA-256
are parameters (Crypto++ is not modelled).
-/

namespace Securefs

/-- The two keyed primitives of an `AES_SIV` object (`/repo/sources/crypto.h:18-19`, keyed in
    `/repo/sources/crypto.cpp:62-66`): `cmac` is `m_cmac.CalculateDigest`; `ctr iv n` is the first `n` bytes of
    the key stream that `m_ctr.ProcessData` xors after `Resynchronize(iv)`. -/
structure Siv where
  cmac : Bytes → Bytes
  ctr : (iv : Bytes) → (n : Nat) → Bytes

/-- What is assumed of the primitives: their output lengths.
    (for the calls in `/repo/sources/crypto.cpp:70-147`). -/
structure Siv.WF (S : Siv) : Prop where
  cmac_len : ∀ m, (S.cmac m).length = 16
  ctr_len : ∀ iv n, (S.ctr iv n).length = n

/-- `CryptoPP::xorbuf(buf, mask, count)` for `count` the length of both buffers
    (`/repo/sources/crypto.cpp:59,84,90,103`). -/
def xorbuf (buf mask : Bytes) : Bytes := List.zipWith (· ^^^ ·) buf mask

/-- `aes256_bitshift_left` (`/repo/sources/crypto.cpp:42-52`); byte `i` is computed from the old bytes `i` and
    `i + 1`. -/
def bitshiftLeft : Bytes → Bytes
  | [] => []
  | [b] => [b <<< 1]
  | b :: c :: rest => ((b <<< 1) ||| ((c >>> 7) &&& 1)) :: bitshiftLeft (c :: rest)

/-- `aes256_cmac_Rb` (`/repo/sources/crypto.cpp:37-38`). -/
def cmacRb : Bytes := [0, 0, 0, 0, 0, 0, 0, 0, 0, 0, 0, 0, 0, 0, 0, 0x87]

/-- `aes256_siv_dbl` (`/repo/sources/crypto.cpp:54-60`). -/
def sivDbl (block : Bytes) : Res Bytes :=
  match (block.head? : Option UInt8) with
  | none => .error .outOfBounds
  | some b =>
    if b >>> 7 == 1 then .ok (xorbuf (bitshiftLeft block) cmacRb) else .ok (bitshiftLeft block)

/-- The first half of `AES_SIV::s2v` (`/repo/sources/crypto.cpp:76-86`): the value of `D` before the text.
    An absent additional data pointer is the empty list; the code treats both alike. -/
def Siv.s2vStart (S : Siv) (ad : Bytes) : Res Bytes :=
  if ad.length = 0 then .ok (S.cmac (zeros 16))
  else do
    let D ← sivDbl (S.cmac (zeros 16))
    .ok (xorbuf D (S.cmac ad))

/-- `AES_SIV::s2v` (`/repo/sources/crypto.cpp:70-106`): the synthetic IV. -/
def Siv.s2v (S : Siv) (text ad : Bytes) : Res Bytes := do
  let D ← S.s2vStart ad
  if text.length ≥ 16 then
    .ok (S.cmac (text.take (text.length - 16) ++ xorbuf (text.drop (text.length - 16)) D))
  else do
    let D ← sivDbl D
    .ok (S.cmac (xorbuf D (text ++ [0x80] ++ zeros (16 - (text.length + 1)))))

/-- `modded_iv[8] &= 0x7f; modded_iv[12] &= 0x7f` (`/repo/sources/crypto.cpp:116-121,135-139`). -/
def sivMask (iv : Bytes) : Res Bytes :=
  match iv[8]?, iv[12]? with
  | some x, some y => .ok ((iv.set 8 (x &&& 0x7f)).set 12 (y &&& 0x7f))
  | _, _ => .error .outOfBounds

/-- `AES_SIV::encrypt_and_authenticate` (`/repo/sources/crypto.cpp:108-126`): ciphertext and synthetic IV. -/
def Siv.encrypt (S : Siv) (text ad : Bytes) : Res (Bytes × Bytes) := do
  let siv ← S.s2v text ad
  let iv ← sivMask siv
  .ok (xorbuf text (S.ctr iv text.length), siv)

/-- `AES_SIV::decrypt_and_verify` (`/repo/sources/crypto.cpp:128-147`): the result and the bytes written to
    `plaintext` (also when the result is `false`). -/
def Siv.decrypt (S : Siv) (ct ad siv : Bytes) : Res (Bool × Bytes) := do
  if siv.length ≠ 16 then .error .outOfBounds
  else do
    let iv ← sivMask siv
    let v ← S.s2v (xorbuf ct (S.ctr iv ct.length)) ad
    .ok (siv == v, xorbuf ct (S.ctr iv ct.length))

/-! ## HKDF -/

/-- HMAC-SHA-256 as a function of key and message (`hmac_sha256_calculate`,
    `/repo/sources/crypto.cpp:155-161`, and the `CryptoPP::HMAC<SHA256>` object of `hkdf_expand`). -/
abbrev Hmac := (key msg : Bytes) → Bytes

/-- The loop of `hkdf_expand` (`/repo/sources/crypto.cpp:207-220`).  `out` is the part of the output written so
    far (`i + j` bytes).  `fuel` bounds the number of iterations. -/
def hkdfLoop (H : Hmac) (key info : Bytes) (outLen : Nat) : (fuel : Nat) → (out : Bytes) → (i j : Nat) → UInt8 → Res Bytes
  | 0, out, i, j, _ => if i + j < outLen then .error .fuel else .ok out
  | fuel + 1, out, i, j, counter =>
    if i + j < outLen then
      hkdfLoop H key info outLen fuel
        (out ++ (H key ((out.drop i).take j ++ info ++ [counter])).take (min (outLen - i - j) 32))
        (i + j) (min (outLen - i - j) 32) (counter + 1)
    else .ok out

/-- `hkdf_expand` (`/repo/sources/crypto.cpp:196-221`). -/
def hkdfExpand (H : Hmac) (key info : Bytes) (outLen : Nat) : Res Bytes :=
  if outLen > 255 * 32 then .error .invalidArg
  else hkdfLoop H key info outLen outLen [] 0 0 1

/-- `hkdf` (`/repo/sources/crypto.cpp:223-243`).  A null salt is the empty list. -/
def hkdf (H : Hmac) (key salt info : Bytes) (outLen : Nat) : Res Bytes :=
  if salt.length ≠ 0 then hkdfExpand H (H salt key) info outLen
  else hkdfExpand H key info outLen

end Securefs

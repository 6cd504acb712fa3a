import Verif.Model.Wire
import Verif.Model.Encoding
import Verif.Model.Siv
/-!
# Encryption of the configuration

`/repo/sources/params_io.cpp`.  The key derivation functions, HMAC-SHA256 and AES-256-GCM of the libraries are parameters, as is the JSON parser.
-/

namespace Securefs

/-- The library functions that the code calls (`/repo/sources/params_io.cpp:11,15-21`).  AES-GCM is split in the key stream that is added to the
    text and the tag over the ciphertext. -/
structure ConfCrypto where
  /-- `argon2id_hash_raw` for a key of 32 bytes; `none` is an error code (`/repo/sources/params_io.cpp:44,164`) -/
  argon2 : (t m p : Nat) → (password salt : Bytes) → Option Bytes
  /-- `Scrypt::DeriveKey`; `none` is an exception (`/repo/sources/params_io.cpp:61`) -/
  scrypt : (n r p : Nat) → (password salt : Bytes) → Option Bytes
  /-- `PKCS5_PBKDF2_HMAC<SHA256>::DeriveKey`; `none` is an exception (`/repo/sources/params_io.cpp:74`) -/
  pbkdf2 : (iterations : Nat) → (password salt : Bytes) → Option Bytes
  /-- `HMAC<SHA256>` over the data of all calls of `Update` (`/repo/sources/params_io.cpp:93-105`) -/
  hmac : (key : Bytes) → (updates : List Bytes) → Bytes
  /-- the key stream of `GCM<AES>` (`/repo/sources/params_io.cpp:205,284,325`) -/
  keystream : (key iv : Bytes) → Nat → Bytes
  /-- the tag of `GCM<AES>`, 16 bytes (`/repo/sources/params_io.cpp:205,284,325`) -/
  tag : (key iv header ciphertext : Bytes) → Bytes
  /-- the lengths of IVs that `SetKeyWithIV` accepts, it throws for others (`/repo/sources/params_io.cpp:206,285,326`) -/
  ivOk : Nat → Bool
  /-- the lengths of MACs that `DecryptAndVerify` accepts, it throws for others (`/repo/sources/params_io.cpp:208,290`) -/
  macOk : Nat → Bool

/-- What is known about the library functions: the lengths of their results, that HMAC does not depend on how the data is cut, and that the
    lengths which the code uses are accepted.
    (for the calls in `/repo/sources/params_io.cpp:44-105,164,205-217,284-301,325-338`). -/
structure ConfCrypto.Lawful (C : ConfCrypto) : Prop where
  hmac_length : ∀ k u, (C.hmac k u).length = 32
  hmac_updates : ∀ k u v, u.flatten = v.flatten → C.hmac k u = C.hmac k v
  keystream_length : ∀ k iv n, (C.keystream k iv n).length = n
  tag_length : ∀ k iv h c, (C.tag k iv h c).length = 16
  iv_ok : C.ivOk 12 = true
  mac_ok : C.macOk 16 = true

/-! ## Key derivation -/

/-- The chunks that the loop of `hmac_sha256` reads (`/repo/sources/params_io.cpp:94-104`), from an offset on. -/
def keyChunks (content : Bytes) : (fuel off : Nat) → Res (List Bytes)
  | 0, _ => .error .fuel
  | fuel + 1, off =>
    let chunk := (content.drop off).take 4096
    if chunk.length = 0 then .ok []
    else
      match keyChunks content fuel (off + chunk.length) with
      | .error e => .error e
      | .ok rest => .ok (chunk :: rest)

/-- `hmac_sha256` (`/repo/sources/params_io.cpp:90-107`) with the content of the key file. -/
def hmacFile (C : ConfCrypto) (base content : Bytes) : Res Bytes :=
  match keyChunks content (content.length + 1) 0 with
  | .error e => .error e
  | .ok chunks => .ok (C.hmac base chunks)

/-- `compute_password_derived_key` (`/repo/sources/params_io.cpp:152-179`): a salt that is not 32 bytes long makes the constructor of the
    array throw. -/
def deriveKey (C : ConfCrypto) (p : EncParams) (password : Bytes) (key : Option Bytes) : Res Bytes :=
  if p.salt.length ≠ 32 then .error .runtime
  else
    match (match key with
      | none => .ok p.salt
      | some content => hmacFile C p.salt content : Res Bytes) with
    | .error e => .error e
    | .ok salt =>
      let a : Argon2Params := match p.argon2 with
        | none => {}
        | some a => a
      match C.argon2 a.time a.memory a.parallelism password salt with
      | none => .error .runtime
      | some k => .ok k

/-! ## Current files -/

/-- `EncryptAndAuthenticate` (`/repo/sources/params_io.cpp:330-338`): ciphertext and tag. -/
def gcmSeal (C : ConfCrypto) (key iv header plaintext : Bytes) : Bytes × Bytes :=
  let ciphertext := xorbuf plaintext (C.keystream key iv plaintext.length)
  (ciphertext, C.tag key iv header ciphertext)

/-- `SetKeyWithIV` and `DecryptAndVerify` (`/repo/sources/params_io.cpp:205-217,284-301`): the tag is compared up to the length of the MAC
    that is given. -/
def gcmOpen (C : ConfCrypto) (key iv header mac ciphertext : Bytes) : Res (Option Bytes) :=
  if C.ivOk iv.length = false then .error .runtime
  else if C.macOk mac.length = false then .error .runtime
  else if (C.tag key iv header ciphertext).take mac.length = mac then .ok (some (xorbuf ciphertext (C.keystream key iv ciphertext.length)))
  else .ok none

/-- `encrypt` (`/repo/sources/params_io.cpp:310-340`), with the random IV and salt as arguments. -/
def encryptParams (C : ConfCrypto) (d : DecParams) (argon : Argon2Params) (password : Bytes) (key : Option Bytes) (iv salt : Bytes) : Res EncParams :=
  let p : EncParams := { salt := salt, iv := iv, argon2 := some argon }
  match deriveKey C p password key with
  | .error e => .error e
  | .ok k =>
    let sealed := gcmSeal C k iv [] d.serialize
    .ok { p with ciphertext := sealed.1, mac := sealed.2 }

/-- `decrypt` of a current file (`/repo/sources/params_io.cpp:279-309`). -/
def decryptParams (C : ConfCrypto) (p : EncParams) (password : Bytes) (key : Option Bytes) : Res DecParams :=
  match deriveKey C p password key with
  | .error e => .error e
  | .ok k =>
    match gcmOpen C k p.iv [] p.mac p.ciphertext with
    | .error e => .error e
    | .ok none => .error .credentials
    | .ok (some plaintext) =>
      match DecParams.parse plaintext with
      | none => .error .runtime
      | some d => .ok d

/-! ## Legacy files -/

/-- `LegacySecurefsJsonParams` (`/repo/protos/params.proto:5-29`); `salt`, `iv`, `mac` and `ciphertext` are hexadecimal. -/
structure LegacyParams where
  version : Nat := 0
  blockSize : Option Nat := none
  ivSize : Option Nat := none
  salt : Bytes := []
  iv : Bytes := []
  mac : Bytes := []
  ciphertext : Bytes := []
  iterations : Nat := 0
  pbkdf : Bytes := []
  scryptR : Nat := 0
  scryptP : Nat := 0
  argonM : Nat := 0
  argonP : Nat := 0
  maxPadding : Nat := 0
  longNameComponent : Bool := false
  deriving DecidableEq

/-- `PBKDF_ALGO_PKCS5` (`/repo/sources/params_io.cpp:32`): `pkcs5-pbkdf2-hmac-sha256`. -/
def pbkdfPkcs5 : Bytes := [112, 107, 99, 115, 53, 45, 112, 98, 107, 100, 102, 50, 45, 104, 109, 97, 99, 45, 115, 104, 97, 50, 53, 54]

/-- `PBKDF_ALGO_SCRYPT` (`/repo/sources/params_io.cpp:33`): `scrypt`. -/
def pbkdfScrypt : Bytes := [115, 99, 114, 121, 112, 116]

/-- `PBKDF_ALGO_ARGON2ID` (`/repo/sources/params_io.cpp:34`): `argon2id`. -/
def pbkdfArgon2id : Bytes := [97, 114, 103, 111, 110, 50, 105, 100]

/-- `legacy_compute_password_derived_key` (`/repo/sources/params_io.cpp:37-88`). -/
def legacyDeriveKey (C : ConfCrypto) (l : LegacyParams) (password salt : Bytes) : Res Bytes :=
  match (if l.pbkdf = pbkdfArgon2id then C.argon2 l.iterations l.argonM l.argonP password salt
    else if l.pbkdf = pbkdfScrypt then C.scrypt l.iterations l.scryptR l.scryptP password salt
    else if l.pbkdf = pbkdfPkcs5 ∨ l.pbkdf = [] then C.pbkdf2 l.iterations password salt
    else none) with
  | none => .error .runtime
  | some k => .ok k

/-- `try_legacy_password_derived_key` (`/repo/sources/params_io.cpp:111-126`); the function gives the plaintext instead of storing it. -/
def tryLegacyKey (C : ConfCrypto) (l : LegacyParams) (password : Bytes) (key : Option Bytes) (tryFunc : Bytes → Res (Option Bytes)) :
    Res (Option Bytes) :=
  match parseHex l.salt with
  | .error e => .error e
  | .ok salt =>
    match key with
    | none =>
      match legacyDeriveKey C l password salt with
      | .error e => .error e
      | .ok k => tryFunc k
    | some content =>
      match hmacFile C salt content with
      | .error e => .error e
      | .ok effective =>
        match legacyDeriveKey C l password effective with
        | .error e => .error e
        | .ok k =>
          match tryFunc k with
          | .error e => .error e
          | .ok (some m) => .ok (some m)
          | .ok none =>
            match legacyDeriveKey C l password salt with
            | .error e => .error e
            | .ok k =>
              match hmacFile C k content with
              | .error e => .error e
              | .ok k => tryFunc k

/-- `get_version_header` (`/repo/sources/params_io.cpp:128-142`): `version=1` or `version=4`. -/
def versionHeader (version : Nat) : Res Bytes :=
  if version = 1 ∨ version = 2 ∨ version = 3 then .ok [118, 101, 114, 115, 105, 111, 110, 61, 49]
  else if version = 4 then .ok [118, 101, 114, 115, 105, 111, 110, 61, 52]
  else .error .invalidArg

/-- The function that is tried with a key (`/repo/sources/params_io.cpp:198-217`). -/
def legacyTry (C : ConfCrypto) (l : LegacyParams) (k : Bytes) : Res (Option Bytes) :=
  match parseHex l.iv with
  | .error e => .error e
  | .ok iv =>
    match parseHex l.mac with
    | .error e => .error e
    | .ok mac =>
      match parseHex l.ciphertext with
      | .error e => .error e
      | .ok ciphertext =>
        match versionHeader l.version with
        | .error e => .error e
        | .ok header => gcmOpen C k iv header mac ciphertext

/-- The lite part of the result of `decrypt` of a legacy file (`/repo/sources/params_io.cpp:223-241,254-257`). -/
def legacyLite (l : LegacyParams) (master : Bytes) : LiteParams :=
  { nameKey := master.take 32, contentKey := (master.drop 32).take 32, xattrKey := (master.drop 64).take 32,
    paddingKey := if master.length = 4 * 32 then (master.drop 96).take 32 else [],
    longNameThreshold := if l.longNameComponent then some 128 else none }

/-- `decrypt` of a legacy file (`/repo/sources/params_io.cpp:181-278`), without the warnings about keys that do not look random. -/
def decryptLegacy (C : ConfCrypto) (l : LegacyParams) (password : Bytes) (key : Option Bytes) : Res DecParams :=
  let size : SizeParams :=
    { blockSize := match l.blockSize with
        | none => 4096
        | some b => b
      ivSize := match l.ivSize with
        | none => 32
        | some b => b
      maxPadding := l.maxPadding }
  match tryLegacyKey C l password key (legacyTry C l) with
  | .error e => .error e
  | .ok none => .error .credentials
  | .ok (some master) =>
    if l.version = 4 then
      if master.length ≠ 3 * 32 ∧ master.length ≠ 4 * 32 then .error .runtime
      else .ok { size := some size, format := .lite (legacyLite l master) }
    else
      .ok { size := some size, format := .full { masterKey := master, legacyFileTableIo := decide (l.version = 1), storeTime := decide (l.version = 3) } }

/-- `decrypt` of the content of a file (`/repo/sources/params_io.cpp:342-358`); `json` is `JsonStringToMessage`. -/
def decryptContent (C : ConfCrypto) (json : Bytes → Option LegacyParams) (content password : Bytes) (key : Option Bytes) : Res DecParams :=
  match EncParams.parse content with
  | some p => decryptParams C p password key
  | none =>
    match json content with
    | none => .error .runtime
    | some l => decryptLegacy C l password key

end Securefs

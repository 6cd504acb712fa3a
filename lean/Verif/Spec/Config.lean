import Verif.Model.Config
/-!
# What a configuration file is

The keys and the files in terms of the library functions alone.
-/

namespace Securefs.Spec

/-- ASCII text as bytes. -/
def ascii (s : String) : Bytes := s.toList.map fun c => UInt8.ofNat c.toNat

/-- The salt after the key file is mixed in. -/
def effectiveSalt (C : ConfCrypto) (salt : Bytes) : Option Bytes → Bytes
  | none => salt
  | some content => C.hmac salt [content]

/-- The key that wraps the parameters in a current file, if Argon2id gives one. -/
def wrapKey (C : ConfCrypto) (argon : Argon2Params) (password : Bytes) (key : Option Bytes) (salt : Bytes) : Option Bytes :=
  C.argon2 argon.time argon.memory argon.parallelism password (effectiveSalt C salt key)

/-- Two credentials collide: other input, same key. -/
inductive KeyCollision (C : ConfCrypto) (argon : Argon2Params) (salt : Bytes) : Bytes × Option Bytes → Bytes × Option Bytes → Prop
  /-- two key files with the same HMAC, or a key file whose HMAC is the salt itself -/
  | hmac {pw pw' key key'} : key ≠ key' → effectiveSalt C salt key = effectiveSalt C salt key' → KeyCollision C argon salt (pw, key) (pw', key')
  /-- two inputs of Argon2id with the same result -/
  | argon {pw pw' key key' k} : (pw, effectiveSalt C salt key) ≠ (pw', effectiveSalt C salt key') →
      wrapKey C argon pw key salt = some k → wrapKey C argon pw' key' salt = some k → KeyCollision C argon salt (pw, key) (pw', key')

/-- A pair of keys for which the same ciphertext has the same tag. -/
def TagCollision (C : ConfCrypto) (iv header ciphertext k k' : Bytes) : Prop :=
  k ≠ k' ∧ C.tag k iv header ciphertext = C.tag k' iv header ciphertext

/-! ## Legacy files -/

/-- The password based key of a legacy file. -/
def legacyKdf (C : ConfCrypto) (l : LegacyParams) (password salt : Bytes) : Option Bytes :=
  if l.pbkdf = ascii "argon2id" then C.argon2 l.iterations l.argonM l.argonP password salt
  else if l.pbkdf = ascii "scrypt" then C.scrypt l.iterations l.scryptR l.scryptP password salt
  else if l.pbkdf = ascii "pkcs5-pbkdf2-hmac-sha256" ∨ l.pbkdf = [] then C.pbkdf2 l.iterations password salt
  else none

/-- The keys of a legacy file: without a key file; with one that is mixed into the salt; with one that is mixed into the derived key. -/
inductive LegacyKey (C : ConfCrypto) (l : LegacyParams) (salt password : Bytes) : Option Bytes → Bytes → Prop
  | plain {k} : legacyKdf C l password salt = some k → LegacyKey C l salt password none k
  | salted {content k} : legacyKdf C l password (C.hmac salt [content]) = some k → LegacyKey C l salt password (some content) k
  | mixed {content k} : legacyKdf C l password salt = some k → LegacyKey C l salt password (some content) (C.hmac k [content])

/-- The header that is authenticated with the master key. -/
def legacyHeader (version : Nat) : Bytes := if version = 4 then ascii "version=4" else ascii "version=1"

/-- The file holds the master key, wrapped with the key `k`. -/
structure LegacyWrapped (C : ConfCrypto) (l : LegacyParams) (k master iv ciphertext : Bytes) : Prop where
  version : 1 ≤ l.version ∧ l.version ≤ 4
  iv_length : iv.length = 12
  iv_hex : hexify iv = .ok l.iv
  text : ciphertext = List.zipWith (· ^^^ ·) master (C.keystream k iv master.length)
  text_hex : hexify ciphertext = .ok l.ciphertext
  mac_hex : hexify (C.tag k iv (legacyHeader l.version) ciphertext) = .ok l.mac

/-- What the parameters of a legacy file mean, given its master key. -/
inductive LegacyMeaning (l : LegacyParams) : Bytes → DecParams → Prop
  | full {master : Bytes} {b i : Nat} : l.version ≠ 4 → (l.blockSize = some b ∨ l.blockSize = none ∧ b = 4096) →
      (l.ivSize = some i ∨ l.ivSize = none ∧ i = 32) →
      LegacyMeaning l master
        { size := some { blockSize := b, ivSize := i, maxPadding := l.maxPadding }
          format := .full { masterKey := master, storeTime := l.version == 3, legacyFileTableIo := l.version == 1 } }
  | lite {name content xattr padding : Bytes} {b i : Nat} : l.version = 4 → (l.blockSize = some b ∨ l.blockSize = none ∧ b = 4096) →
      (l.ivSize = some i ∨ l.ivSize = none ∧ i = 32) →
      name.length = 32 → content.length = 32 → xattr.length = 32 → (padding.length = 32 ∨ padding = []) →
      LegacyMeaning l (name ++ content ++ xattr ++ padding)
        { size := some { blockSize := b, ivSize := i, maxPadding := l.maxPadding }
          format := .lite { nameKey := name, contentKey := content, xattrKey := xattr, paddingKey := padding
                            longNameThreshold := if l.longNameComponent then some 128 else none } }

end Securefs.Spec

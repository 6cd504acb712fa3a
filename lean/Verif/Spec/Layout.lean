import Verif.Model.Wire
import Verif.Spec.Encoding
import Verif.Spec.Siv
import Verif.Spec.Commands
/-!
# Specification: the layout of what is stored

The wire format of protocol buffers as it is published, the messages of `params.proto` in it, and numbers at fixed places.
-/

namespace Securefs.Spec

/-- A number in base 128: the lowest digit first, every byte but the last with its top bit set, and no digits that are not needed. -/
inductive Varint : Nat → Bytes → Prop where
  | last {n : Nat} : n < 128 → Varint n [UInt8.ofNat n]
  | more {d n : Nat} {bs : Bytes} : d < 128 → 0 < n → Varint n bs → Varint (d + 128 * n) (UInt8.ofNat (128 + d) :: bs)

/-- What a field holds: a number (wire type 0), or bytes, which may be a message (wire type 2). -/
inductive ProtoVal where
  | number (n : Nat)
  | bytes (b : Bytes)

/-- The bytes of a message that consists of the given fields, in this order. -/
inductive ProtoMessage : List (Nat × ProtoVal) → Bytes → Prop where
  | nil : ProtoMessage [] []
  | number {num n : Nat} {fs : List (Nat × ProtoVal)} {tag value rest : Bytes} : Varint (8 * num) tag → Varint n value → ProtoMessage fs rest →
      ProtoMessage ((num, .number n) :: fs) (tag ++ value ++ rest)
  | bytes {num : Nat} {b : Bytes} {fs : List (Nat × ProtoVal)} {tag len rest : Bytes} : Varint (8 * num + 2) tag → Varint b.length len →
      ProtoMessage fs rest → ProtoMessage ((num, .bytes b) :: fs) (tag ++ len ++ b ++ rest)

/-- Fields that hold the default value of their type are not written. -/
def ProtoVal.isDefault : ProtoVal → Bool
  | .number n => n == 0
  | .bytes b => b.isEmpty

/-- The fields of a message without those that hold the default value. -/
def present (fs : List (Nat × ProtoVal)) : List (Nat × ProtoVal) := fs.filter fun f => !f.2.isDefault

/-- `EncryptedSecurefsParams`: five numbered fields, the last of them a message which is there if key derivation was chosen. -/
def IsEncParams (salt iv mac ciphertext : Bytes) (argon2 : Option (Nat × Nat × Nat)) (stored : Bytes) : Prop :=
  match argon2 with
  | none => ProtoMessage (present [(1, .bytes salt), (2, .bytes iv), (3, .bytes mac), (4, .bytes ciphertext)]) stored
  | some (time, memory, parallelism) => ∃ sub, ProtoMessage (present [(1, .number time), (2, .number memory), (3, .number parallelism)]) sub ∧
      ProtoMessage (present [(1, .bytes salt), (2, .bytes iv), (3, .bytes mac), (4, .bytes ciphertext)] ++ [(5, .bytes sub)]) stored

/-- `SizeParams`. -/
def IsSizeParams (p : SizeParams) (stored : Bytes) : Prop :=
  ProtoMessage (present [(1, .number p.blockSize), (2, .number p.ivSize), (3, .number p.maxPadding)]) stored

/-- `LiteFormatParams`; the threshold is optional, and written although it is zero. -/
def IsLiteParams (p : LiteParams) (stored : Bytes) : Prop :=
  ProtoMessage (present [(1, .bytes p.nameKey), (2, .bytes p.contentKey), (3, .bytes p.xattrKey), (4, .bytes p.paddingKey)] ++
    (match p.longNameThreshold with | none => [] | some t => [(5, .number t)]) ++ present [(6, .bytes p.longNameSuffix)]) stored

/-- `FullFormatParams`. -/
def IsFullParams (p : FullParams) (stored : Bytes) : Prop :=
  ProtoMessage (present [(1, .bytes p.masterKey), (2, .number p.storeTime.toNat), (3, .number p.legacyFileTableIo.toNat),
    (4, .number p.caseInsensitive.toNat), (5, .number p.unicodeAgnostic.toNat)]) stored

/-- `DecryptedSecurefsParams` with sizes: field 1 holds them, and field 2 or 3 what belongs to the format. -/
def IsDecParams (size : SizeParams) (format : FormatParams) (stored : Bytes) : Prop :=
  ∃ a, IsSizeParams size a ∧
    match format with
    | .none => ProtoMessage [(1, .bytes a)] stored
    | .lite l => ∃ b, IsLiteParams l b ∧ ProtoMessage [(1, .bytes a), (2, .bytes b)] stored
    | .full f => ∃ b, IsFullParams f b ∧ ProtoMessage [(1, .bytes a), (3, .bytes b)] stored

/-- The number of `w` bytes at `off`, lowest byte first, is `v`. -/
def NumberAt (h : Bytes) (off w v : Nat) : Prop := off + w ≤ h.length ∧ leValue ((h.drop off).take w) = v

/-- A point in time at `off`: seconds in eight bytes, in two's complement, and nanoseconds in four. -/
def TimeAt (h : Bytes) (off : Nat) (sec nsec : Int) : Prop :=
  NumberAt h off 8 (sec % 2 ^ 64).toNat ∧ NumberAt h (off + 8) 4 nsec.toNat

/-- Two lower-case hexadecimal digits for each byte. -/
def hexText (b : Bytes) : Bytes := b.flatMap fun x => [hexDigit (x.toNat / 16), hexDigit (x.toNat % 16)]

/-- The path of the contents of a file of the full format: the first byte of the identifier names a directory; in the legacy layout the next five
    name another in it; the rest is the name.  The path of what belongs to the contents ends in `.meta`. -/
def BackingPaths (legacy : Bool) (id data meta_ : Bytes) : Prop :=
  data = hexText (id.take 1) ++ word "/" ++ (if legacy then hexText ((id.drop 1).take 5) ++ word "/" ++ hexText (id.drop 6) else hexText (id.drop 1)) ∧
  meta_ = data ++ word ".meta"

/-- Base 32: a character of the alphabet for every five bits, the last of them filled up with zeros. -/
def IsBase32 (b s : Bytes) : Prop :=
  s.length = (8 * b.length + 4) / 5 ∧ ∀ j, j < s.length → ∃ c, s[j]? = some c ∧ alphabet32[quintet b j]? = some c

/-- The stored form of a name or of the target of a link: base 32 of the synthetic IV of RFC 5297 and then the ciphertext. -/
def IsSealedText (cmac : Bytes → Bytes) (ctr : Bytes → Nat → Bytes) (text s : Bytes) : Prop :=
  ∃ c v, IsSivEncryption cmac ctr [] text c v ∧ IsBase32 (v ++ c) s

/-- The stored name of an extended attribute: `user.` and then base 64 of the synthetic IV and the ciphertext. -/
def IsSealedAttrName (cmac : Bytes → Bytes) (ctr : Bytes → Nat → Bytes) (escape : Bytes → Bytes) (name s : Bytes) : Prop :=
  ∃ c v, IsSivEncryption cmac ctr [] name c v ∧ s = word "user." ++ escape (v ++ c)

end Securefs.Spec

import Verif.Model.Basic
/-!
# The wire format of protocol buffers

The configuration messages are written with `SerializeAsString` and read with `ParseFromString` and `ParseFromArray`
(`/repo/sources/params_io.cpp:303,321,347`, `/repo/sources/commands.cpp:378,491,1183`).  The library is not part of `/repo`; this is the part of its
published wire format that those calls need, for messages as in `/repo/protos/params.proto:31-86`.

Simplified: fields that a message does not know are skipped, the library would also remember them.
-/

namespace Securefs

/-! ## Numbers -/

/-- A number in base 128, least significant digit first, with at most `fuel` digits (serialization of `uint32` and `bool` fields, tags and
    lengths for `/repo/sources/params_io.cpp:321`). -/
def putVarint : (fuel : Nat) → Nat → Bytes
  | 0, _ => []
  | fuel + 1, n => if n < 128 then [UInt8.ofNat n] else UInt8.ofNat (n % 128 + 128) :: putVarint fuel (n / 128)

/-- Reads a number of at most `digits` digits (parsing for `/repo/sources/params_io.cpp:303,347`). -/
def getVarint : (digits : Nat) → Bytes → Option (Nat × Bytes)
  | 0, _ => none
  | _ + 1, [] => none
  | digits + 1, b :: rest =>
    if b.toNat < 128 then some (b.toNat, rest)
    else
      match getVarint digits rest with
      | none => none
      | some (n, r) => some (b.toNat - 128 + 128 * n, r)

/-! ## Fields -/

/-- The value of a field, by wire type.  The contents of a group are not kept.
    (for the messages of `/repo/protos/params.proto:31-86`). -/
inductive WireVal where
  | varint (n : Nat)
  | i64 (b : Bytes)
  | len (b : Bytes)
  | group
  | i32 (b : Bytes)
  deriving DecidableEq

/-- A field with a number or a string of bytes (serialization for `/repo/sources/params_io.cpp:321`). -/
def putField (f : Nat × WireVal) : Bytes :=
  match f.2 with
  | .varint n => putVarint 5 (f.1 * 8) ++ putVarint 10 n
  | .i64 b => putVarint 5 (f.1 * 8 + 1) ++ b
  | .len b => putVarint 5 (f.1 * 8 + 2) ++ putVarint 5 b.length ++ b
  | .group => putVarint 5 (f.1 * 8 + 3) ++ putVarint 5 (f.1 * 8 + 4)
  | .i32 b => putVarint 5 (f.1 * 8 + 5) ++ b

/-- All fields of a message (serialization for `/repo/sources/params_io.cpp:321`). -/
def putFields (fs : List (Nat × WireVal)) : Bytes := fs.flatMap putField

/-- Exactly `n` bytes (parsing for `/repo/sources/params_io.cpp:303,347`). -/
def getBytes (n : Nat) (bs : Bytes) : Option (Bytes × Bytes) := if n ≤ bs.length then some (bs.take n, bs.drop n) else none

/-- The fields of a message up to the end of the input, or, inside a group, up to the end of that group; `depth` is how many more groups may
    be nested.  `none` if the input is malformed (parsing for `/repo/sources/params_io.cpp:303,347`).  A call with more fuel than bytes does
    not run out of it. -/
def getFields : (fuel depth : Nat) → (group : Option Nat) → Bytes → Option (List (Nat × WireVal) × Bytes)
  | 0, _, _, _ => none
  | _ + 1, _, none, [] => some ([], [])
  | _ + 1, _, some _, [] => none
  | fuel + 1, depth, group, b :: bs =>
    match getVarint 5 (b :: bs) with
    | none => none
    | some (tag, rest) =>
      let num := tag % 2 ^ 32 / 8
      if num = 0 then none
      else
        let go (v : WireVal) (r : Bytes) : Option (List (Nat × WireVal) × Bytes) :=
          match getFields fuel depth group r with
          | none => none
          | some (fs, r) => some ((num, v) :: fs, r)
        match tag % 8 with
        | 0 =>
          match getVarint 10 rest with
          | none => none
          | some (n, r) => go (.varint (n % 2 ^ 64)) r
        | 1 =>
          match getBytes 8 rest with
          | none => none
          | some (x, r) => go (.i64 x) r
        | 2 =>
          match getVarint 5 rest with
          | none => none
          | some (n, r) =>
            if n < 2 ^ 31 - 16 then
              match getBytes n r with
              | none => none
              | some (x, r) => go (.len x) r
            else none
        | 3 =>
          match depth with
          | 0 => none
          | depth' + 1 =>
            match getFields fuel depth' (some num) rest with
            | none => none
            | some (_, r) => go .group r
        | 4 => if group = some num then some ([], rest) else none
        | 5 =>
          match getBytes 4 rest with
          | none => none
          | some (x, r) => go (.i32 x) r
        | _ => none

/-- The fields of a message that is nested in `100 - depth` others (parsing for `/repo/sources/params_io.cpp:303,347`). -/
def parseFields (depth : Nat) (bs : Bytes) : Option (List (Nat × WireVal)) :=
  match getFields (bs.length + 1) depth none bs with
  | none => none
  | some (fs, _) => some fs

/-! ## Text -/

/-- A continuation byte between two bounds (the check of `string` fields, see `utf8Valid`).
    (`/repo/protos/params.proto:49`). -/
def contByte (lo hi : UInt8) (b : UInt8) : Bool := decide (lo ≤ b) && decide (b ≤ hi)

/-- Whether the bytes are UTF-8.  The library checks this when it parses a field of type `string`
    (`/repo/protos/params.proto:49`, `long_name_suffix`), but not when it serializes one. -/
def utf8Valid : Bytes → Bool
  | [] => true
  | [a] => decide (a < 128)
  | [a, b] => (decide (a < 128) && decide (b < 128)) || (contByte 0xC2 0xDF a && contByte 0x80 0xBF b)
  | a :: b :: c :: rest =>
    if a < 128 then utf8Valid (b :: c :: rest)
    else if contByte 0xC2 0xDF a then contByte 0x80 0xBF b && utf8Valid (c :: rest)
    else if a = 0xE0 then contByte 0xA0 0xBF b && contByte 0x80 0xBF c && utf8Valid rest
    else if a = 0xED then contByte 0x80 0x9F b && contByte 0x80 0xBF c && utf8Valid rest
    else if contByte 0xE1 0xEF a then contByte 0x80 0xBF b && contByte 0x80 0xBF c && utf8Valid rest
    else
      match rest with
      | [] => false
      | d :: rest =>
        (if a = 0xF0 then contByte 0x90 0xBF b
          else if a = 0xF4 then contByte 0x80 0x8F b
          else contByte 0xF1 0xF3 a && contByte 0x80 0xBF b) && contByte 0x80 0xBF c && contByte 0x80 0xBF d && utf8Valid rest

/-! ## The messages -/

/-- `EncryptedSecurefsParams::Argon2idParams` (`/repo/protos/params.proto:75-80`). -/
structure Argon2Params where
  time : Nat := 0
  memory : Nat := 0
  parallelism : Nat := 0
  deriving DecidableEq

/-- `EncryptedSecurefsParams` (`/repo/protos/params.proto:68-86`). -/
structure EncParams where
  salt : Bytes := []
  iv : Bytes := []
  mac : Bytes := []
  ciphertext : Bytes := []
  argon2 : Option Argon2Params := none
  deriving DecidableEq

/-- `DecryptedSecurefsParams::SizeParams` (`/repo/protos/params.proto:33-38`). -/
structure SizeParams where
  blockSize : Nat := 0
  ivSize : Nat := 0
  maxPadding : Nat := 0
  deriving DecidableEq

/-- `DecryptedSecurefsParams::LiteFormatParams` (`/repo/protos/params.proto:42-50`). -/
structure LiteParams where
  nameKey : Bytes := []
  contentKey : Bytes := []
  xattrKey : Bytes := []
  paddingKey : Bytes := []
  longNameThreshold : Option Nat := none
  longNameSuffix : Bytes := []
  deriving DecidableEq

/-- `DecryptedSecurefsParams::FullFormatParams` (`/repo/protos/params.proto:52-59`). -/
structure FullParams where
  masterKey : Bytes := []
  storeTime : Bool := false
  legacyFileTableIo : Bool := false
  caseInsensitive : Bool := false
  unicodeAgnostic : Bool := false
  deriving DecidableEq

/-- `format_specific_params` (`/repo/protos/params.proto:61-65`). -/
inductive FormatParams where
  | none
  | lite (p : LiteParams)
  | full (p : FullParams)
  deriving DecidableEq

/-- `DecryptedSecurefsParams` (`/repo/protos/params.proto:31-66`). -/
structure DecParams where
  size : Option SizeParams := .none
  format : FormatParams := .none
  deriving DecidableEq

/-! ## Serialization: fields in the order of their numbers, without those that have the default value -/

/-- A field of type `bytes` or `string` (`/repo/protos/params.proto:31-86`). -/
def bytesField (num : Nat) (b : Bytes) : List (Nat × WireVal) := if b = [] then [] else [(num, .len b)]

/-- A field of type `uint32` (`/repo/protos/params.proto:31-86`). -/
def uintField (num n : Nat) : List (Nat × WireVal) := if n = 0 then [] else [(num, .varint n)]

/-- A field of type `bool` (`/repo/protos/params.proto:31-86`). -/
def boolField (num : Nat) (b : Bool) : List (Nat × WireVal) := if b then [(num, .varint 1)] else []

/-- `Argon2idParams` (`/repo/protos/params.proto:75-80`). -/
def Argon2Params.fields (p : Argon2Params) : List (Nat × WireVal) := uintField 1 p.time ++ uintField 2 p.memory ++ uintField 3 p.parallelism

/-- `pbkdf_params` (`/repo/protos/params.proto:82-85`). -/
def argonField : Option Argon2Params → List (Nat × WireVal)
  | none => []
  | some a => [(5, .len (putFields a.fields))]

/-- `EncryptedSecurefsParams` (`/repo/protos/params.proto:68-86`, `/repo/sources/commands.cpp:491`). -/
def EncParams.fields (p : EncParams) : List (Nat × WireVal) :=
  bytesField 1 p.salt ++ bytesField 2 p.iv ++ bytesField 3 p.mac ++ bytesField 4 p.ciphertext ++ argonField p.argon2

/-- `SizeParams` (`/repo/protos/params.proto:33-38`). -/
def SizeParams.fields (p : SizeParams) : List (Nat × WireVal) := uintField 1 p.blockSize ++ uintField 2 p.ivSize ++ uintField 3 p.maxPadding

/-- `long_name_threshold`, an optional field that is written although it is zero (`/repo/protos/params.proto:42-50`). -/
def thresholdField : Option Nat → List (Nat × WireVal)
  | none => []
  | some t => [(5, .varint t)]

/-- `LiteFormatParams` (`/repo/protos/params.proto:42-50`). -/
def LiteParams.fields (p : LiteParams) : List (Nat × WireVal) :=
  bytesField 1 p.nameKey ++ bytesField 2 p.contentKey ++ bytesField 3 p.xattrKey ++ bytesField 4 p.paddingKey ++
    thresholdField p.longNameThreshold ++ bytesField 6 p.longNameSuffix

/-- `FullFormatParams` (`/repo/protos/params.proto:52-59`). -/
def FullParams.fields (p : FullParams) : List (Nat × WireVal) :=
  bytesField 1 p.masterKey ++ boolField 2 p.storeTime ++ boolField 3 p.legacyFileTableIo ++ boolField 4 p.caseInsensitive ++
    boolField 5 p.unicodeAgnostic

/-- `size_params` (`/repo/protos/params.proto:40`). -/
def sizeField : Option SizeParams → List (Nat × WireVal)
  | none => []
  | some s => [(1, .len (putFields s.fields))]

/-- `format_specific_params` (`/repo/protos/params.proto:61-65`). -/
def formatField : FormatParams → List (Nat × WireVal)
  | .none => []
  | .lite l => [(2, .len (putFields l.fields))]
  | .full f => [(3, .len (putFields f.fields))]

/-- `DecryptedSecurefsParams` (`/repo/protos/params.proto:31-66`, `/repo/sources/params_io.cpp:321`). -/
def DecParams.fields (p : DecParams) : List (Nat × WireVal) := sizeField p.size ++ formatField p.format

/-- `SerializeAsString` of `EncryptedSecurefsParams` (`/repo/sources/commands.cpp:491`). -/
def EncParams.serialize (p : EncParams) : Bytes := putFields p.fields

/-- `SerializeAsString` of `DecryptedSecurefsParams` (`/repo/sources/params_io.cpp:321`). -/
def DecParams.serialize (p : DecParams) : Bytes := putFields p.fields

/-! ## Parsing: the last value of a field counts, submessages are merged, fields of the wrong wire type are unknown -/

/-- One field of `Argon2idParams` (`/repo/protos/params.proto:75-80`). -/
def Argon2Params.put (p : Argon2Params) : Nat × WireVal → Argon2Params
  | (1, .varint n) => { p with time := n % 2 ^ 32 }
  | (2, .varint n) => { p with memory := n % 2 ^ 32 }
  | (3, .varint n) => { p with parallelism := n % 2 ^ 32 }
  | _ => p

/-- One field of `EncryptedSecurefsParams` (`/repo/protos/params.proto:68-86`). -/
def EncParams.put (p : EncParams) : Nat × WireVal → Option EncParams
  | (1, .len b) => some { p with salt := b }
  | (2, .len b) => some { p with iv := b }
  | (3, .len b) => some { p with mac := b }
  | (4, .len b) => some { p with ciphertext := b }
  | (5, .len b) =>
    match parseFields 99 b with
    | none => none
    | some fs => some { p with argon2 := some (fs.foldl Argon2Params.put (p.argon2.getD {})) }
  | _ => some p

/-- One field of `SizeParams` (`/repo/protos/params.proto:33-38`). -/
def SizeParams.put (p : SizeParams) : Nat × WireVal → SizeParams
  | (1, .varint n) => { p with blockSize := n % 2 ^ 32 }
  | (2, .varint n) => { p with ivSize := n % 2 ^ 32 }
  | (3, .varint n) => { p with maxPadding := n % 2 ^ 32 }
  | _ => p

/-- One field of `LiteFormatParams` (`/repo/protos/params.proto:42-50`). -/
def LiteParams.put (p : LiteParams) : Nat × WireVal → Option LiteParams
  | (1, .len b) => some { p with nameKey := b }
  | (2, .len b) => some { p with contentKey := b }
  | (3, .len b) => some { p with xattrKey := b }
  | (4, .len b) => some { p with paddingKey := b }
  | (5, .varint n) => some { p with longNameThreshold := some (n % 2 ^ 32) }
  | (6, .len b) => if utf8Valid b then some { p with longNameSuffix := b } else none
  | _ => some p

/-- One field of `FullFormatParams` (`/repo/protos/params.proto:52-59`). -/
def FullParams.put (p : FullParams) : Nat × WireVal → FullParams
  | (1, .len b) => { p with masterKey := b }
  | (2, .varint n) => { p with storeTime := decide (n ≠ 0) }
  | (3, .varint n) => { p with legacyFileTableIo := decide (n ≠ 0) }
  | (4, .varint n) => { p with caseInsensitive := decide (n ≠ 0) }
  | (5, .varint n) => { p with unicodeAgnostic := decide (n ≠ 0) }
  | _ => p

/-- All fields one after the other, as long as none fails (parsing for `/repo/sources/params_io.cpp:303,347`). -/
def putAll {α : Type} (put : α → Nat × WireVal → Option α) : α → List (Nat × WireVal) → Option α
  | p, [] => some p
  | p, f :: rest =>
    match put p f with
    | none => none
    | some q => putAll put q rest

/-- One field of `DecryptedSecurefsParams` (`/repo/protos/params.proto:31-66`): setting one member of the `oneof` clears the other. -/
def DecParams.put (p : DecParams) : Nat × WireVal → Option DecParams
  | (1, .len b) =>
    match parseFields 99 b with
    | none => none
    | some fs => some { p with size := some (fs.foldl SizeParams.put (p.size.getD {})) }
  | (2, .len b) =>
    match parseFields 99 b with
    | none => none
    | some fs =>
      match putAll LiteParams.put (match p.format with | .lite l => l | _ => {}) fs with
      | none => none
      | some l => some { p with format := .lite l }
  | (3, .len b) =>
    match parseFields 99 b with
    | none => none
    | some fs => some { p with format := .full (fs.foldl FullParams.put (match p.format with | .full l => l | _ => {})) }
  | _ => some p

/-- `ParseFromString` of `EncryptedSecurefsParams` (`/repo/sources/params_io.cpp:347`). -/
def EncParams.parse (bs : Bytes) : Option EncParams :=
  match parseFields 100 bs with
  | none => none
  | some fs => putAll EncParams.put {} fs

/-- `ParseFromArray` of `DecryptedSecurefsParams` (`/repo/sources/params_io.cpp:303`). -/
def DecParams.parse (bs : Bytes) : Option DecParams :=
  match parseFields 100 bs with
  | none => none
  | some fs => putAll DecParams.put {} fs

end Securefs

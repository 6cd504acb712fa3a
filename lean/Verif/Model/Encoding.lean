import Verif.Model.Basic
/-!
# Text encodings and integers on disk

Models `/repo/sources/mystring.cpp` and the integer coding of `/repo/sources/myutils.h`.
Strings are byte strings (`char` and `byte` are not distinguished).
-/

namespace Securefs

/-! ## Hexadecimal -/

/-- `table` of `hexify` (`/repo/sources/mystring.cpp:160`). -/
def hexTable : Bytes :=
  ['0', '1', '2', '3', '4', '5', '6', '7', '8', '9', 'a', 'b', 'c', 'd', 'e', 'f'].map Char.toUInt8

/-- `hexify` (`/repo/sources/mystring.cpp:158-169`).  A table index out of range would be `outOfBounds`. -/
def hexify : Bytes → Res Bytes
  | [] => .ok []
  | b :: rest =>
    match hexTable[b.toNat / 16]?, hexTable[b.toNat % 16]? with
    | some h, some l => do
      let r ← hexify rest
      .ok (h :: l :: r)
    | _, _ => .error .outOfBounds

/-- The cases of the two `switch` statements of `parse_hex` (`/repo/sources/mystring.cpp:39-91,92-144`);
    any other character is the `default`. -/
def hexCases : List (UInt8 × UInt8) :=
  [(48, 0x0), (49, 0x1), (50, 0x2), (51, 0x3), (52, 0x4), (53, 0x5), (54, 0x6), (55, 0x7), (56, 0x8), (57, 0x9),
   (97, 0xa), (98, 0xb), (99, 0xc), (100, 0xd), (101, 0xe), (102, 0xf)]

/-- The loop of `parse_hex` (`/repo/sources/mystring.cpp:37-145`). -/
def parseHexLoop : Bytes → Res Bytes
  | [] => .ok []
  | [_] => .error .outOfBounds
  | h :: l :: rest =>
    match hexCases.lookup h with
    | none => .error .invalidArg
    | some a =>
      match hexCases.lookup l with
      | none => .error .invalidArg
      | some b => do
        let r ← parseHexLoop rest
        .ok ((a * 16 + b) :: r)

/-- `parse_hex(hex, output, len)` (`/repo/sources/mystring.cpp:30-146`). -/
def parseHexInto (hex : Bytes) (len : Nat) : Res Bytes :=
  if hex.length % 2 ≠ 0 then .error .invalidArg
  else if hex.length / 2 ≠ len then .error .invalidArg
  else parseHexLoop hex

/-- `parse_hex(hex)` (`/repo/sources/mystring.cpp:21-28`). -/
def parseHex (hex : Bytes) : Res Bytes :=
  if hex.length % 2 ≠ 0 then .error .invalidArg
  else parseHexInto hex (hex.length / 2)

/-! ## Base32 -/

/-- `UPPER_BASE32_ALPHABET` (`/repo/sources/mystring.cpp:171`). -/
def upper32 : Bytes :=
  ['A', 'B', 'C', 'D', 'E', 'F', 'G', 'H', 'I', 'J', 'K', 'M', 'N', 'P', 'Q', 'R', 'S', 'T', 'U', 'V', 'W', 'X',
   'Y', 'Z', '2', '3', '4', '5', '6', '7', '8', '9'].map Char.toUInt8

/-- `LOWER_BASE32_ALPHABET` (`/repo/sources/mystring.cpp:172`). -/
def lower32 : Bytes :=
  ['a', 'b', 'c', 'd', 'e', 'f', 'g', 'h', 'i', 'j', 'k', 'm', 'n', 'p', 'q', 'r', 's', 't', 'u', 'v', 'w', 'x',
   'y', 'z', '2', '3', '4', '5', '6', '7', '8', '9'].map Char.toUInt8

/-- `get_alphabet_index` (`/repo/sources/mystring.cpp:174-196`). -/
def alphabetIndex (b next i : Nat) : Res Nat :=
  match i with
  | 0 => .ok ((b >>> 3) &&& 31)
  | 1 => .ok ((b >>> 2) &&& 31)
  | 2 => .ok ((b >>> 1) &&& 31)
  | 3 => .ok (b &&& 31)
  | 4 => .ok (((b &&& 15) <<< 1) ||| (next >>> 7))
  | 5 => .ok (((b &&& 7) <<< 2) ||| (next >>> 6))
  | 6 => .ok (((b &&& 3) <<< 3) ||| (next >>> 5))
  | 7 => .ok (((b &&& 1) <<< 4) ||| (next >>> 4))
  | _ => .error .invalidArg

/-- One iteration of the loop of `base32_encode` (`/repo/sources/mystring.cpp:205-213`), for the bit index
    `5 * j`. -/
def base32Symbol (input : Bytes) (j : Nat) : Res UInt8 :=
  match input[5 * j / 8]? with
  | none => .error .outOfBounds
  | some b =>
    match alphabetIndex b.toNat ((input[5 * j / 8 + 1]?.map UInt8.toNat).getD 0) (5 * j % 8) with
    | .error e => .error e
    | .ok a =>
      if a ≥ 32 then .error .outOfRange
      else
        match upper32[a]? with
        | none => .error .outOfBounds
        | some c => .ok c

/-- The loop of `base32_encode` (`/repo/sources/mystring.cpp:203-214`): iteration `j` has
    `bit_index = 5 * j`; it runs while `bit_index < size * 8`.  `fuel` bounds the iterations. -/
def base32EncodeLoop (input : Bytes) : (fuel j : Nat) → Res Bytes
  | 0, j => if 5 * j < input.length * 8 then .error .fuel else .ok []
  | fuel + 1, j =>
    if 5 * j < input.length * 8 then
      match base32Symbol input j with
      | .error e => .error e
      | .ok c => do
        let r ← base32EncodeLoop input fuel (j + 1)
        .ok (c :: r)
    else .ok []

/-- `base32_encode` (`/repo/sources/mystring.cpp:198-215`). -/
def base32Encode (input : Bytes) : Res Bytes := base32EncodeLoop input (input.length * 8) 0

/-- `get_base32_pair` (`/repo/sources/mystring.cpp:217-239`). -/
def base32Pair (group i : Nat) : Res (Nat × Nat) :=
  match i with
  | 0 => .ok (group <<< 3, 0)
  | 1 => .ok (group <<< 2, 0)
  | 2 => .ok (group <<< 1, 0)
  | 3 => .ok (group, 0)
  | 4 => .ok (group >>> 1, (group &&& 1) <<< 7)
  | 5 => .ok (group >>> 2, (group &&& 3) <<< 6)
  | 6 => .ok (group >>> 3, (group &&& 7) <<< 5)
  | 7 => .ok (group >>> 4, (group &&& 15) <<< 4)
  | _ => .error .invalidArg

/-- `strchr(alphabet, c) - alphabet` (`/repo/sources/mystring.cpp:249-257`); `strchr` also finds the
    terminating NUL, at index 32. -/
def strchrIdx (alphabet : Bytes) (c : UInt8) : Option Nat := (alphabet ++ [0]).findIdx? (· == c)

/-- The determination of `group` (`/repo/sources/mystring.cpp:248-263`). -/
def base32Group (c : UInt8) : Option Nat :=
  match strchrIdx upper32 c with
  | some g => some g
  | none => strchrIdx lower32 c

/-- `out[i] |= v` (`/repo/sources/mystring.cpp:270,272`): converts to a byte; a write outside the buffer
    is `outOfBounds`. -/
def orAt (out : Bytes) (i v : Nat) : Res Bytes :=
  match out[i]? with
  | none => .error .outOfBounds
  | some b => .ok (out.set i (b ||| UInt8.ofNat v))

/-- One iteration of the loop of `base32_decode` (`/repo/sources/mystring.cpp:248-272`). -/
def base32Step (out : Bytes) (i : Nat) (c : UInt8) : Res Bytes :=
  match base32Group c with
  | none => .error .invalidArg
  | some g =>
    match base32Pair g (i * 5 % 8) with
    | .error e => .error e
    | .ok p =>
      if i * 5 / 8 ≥ out.length then .error .outOfRange
      else
        match orAt out (i * 5 / 8) p.1 with
        | .error e => .error e
        | .ok out1 => if i * 5 / 8 + 1 < out1.length then orAt out1 (i * 5 / 8 + 1) p.2 else .ok out1

/-- The loop of `base32_decode` (`/repo/sources/mystring.cpp:246-273`) from position `i`. -/
def base32DecodeLoop (out : Bytes) (i : Nat) : Bytes → Res Bytes
  | [] => .ok out
  | c :: rest =>
    match base32Step out i c with
    | .error e => .error e
    | .ok out1 => base32DecodeLoop out1 (i + 1) rest

/-- `base32_decode` (`/repo/sources/mystring.cpp:241-274`). -/
def base32Decode (input : Bytes) : Res Bytes :=
  base32DecodeLoop (zeros (input.length * 5 / 8)) 0 input

/-! ## Integers -/

/-- `to_little_endian` for an unsigned type of `w` bytes (`/repo/sources/myutils.h:269-279`): byte `i` is
    `value >> (8 * i)` converted to a byte. -/
def toLE (w value : Nat) : Bytes := (List.range w).map fun i => UInt8.ofNat (value >>> (8 * i))

/-- `from_little_endian` for an unsigned type of `w` bytes (`/repo/sources/myutils.h:281-293`).  A buffer
    that is too short is `outOfBounds`.  The shifted bytes stay below `2^(8w)`, so the truncation to the
    type is not needed. -/
def fromLE (w : Nat) (input : Bytes) : Res Nat :=
  if input.length < w then .error .outOfBounds
  else .ok ((List.range w).foldl (fun v i => v ||| (((input[i]?.map UInt8.toNat).getD 0) <<< (8 * i))) 0)

/-- `to_inode_number` (`/repo/sources/myutils.h:321-326`): bitwise complement of the first eight bytes. -/
def inodeNumber (id : Bytes) : Res Nat := do
  let v ← fromLE 8 id
  .ok (2 ^ 64 - 1 - v)

end Securefs

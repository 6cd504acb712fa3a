import Verif.Model.Siv
/-!
# Names of extended attributes

Models `/repo/sources/xattr_name.cpp`.
-/

namespace Securefs

/-- `absl::WebSafeBase64Escape` and `absl::WebSafeBase64Unescape` as called in
    `/repo/sources/xattr_name.cpp:15,24`; Abseil is not modelled. -/
structure Base64 where
  escape : Bytes → Bytes
  unescape : Bytes → Option Bytes

/-- What is assumed of Abseil: unescaping inverts escaping, and escaped text has no NUL.
    (for the calls in `/repo/sources/xattr_name.cpp:15,24`). -/
structure Base64.Lawful (B : Base64) : Prop where
  unescape_escape : ∀ b, B.unescape (B.escape b) = some b
  no_nul : ∀ b, 0 ∉ B.escape b

/-- The prefix `"user."` (`/repo/sources/xattr_name.cpp:15,19`). -/
def userPrefix : Bytes := [117, 115, 101, 114, 46]

/-- `encrypt_xattr_name` (`/repo/sources/xattr_name.cpp:10-16`). -/
def encryptXattrName (S : Siv) (B : Base64) (name : Bytes) : Res Bytes := do
  let p ← S.encrypt name []
  .ok (userPrefix ++ B.escape (p.2 ++ p.1))

/-- `decrypt_xattr_name` (`/repo/sources/xattr_name.cpp:17-44`). -/
def decryptXattrName (S : Siv) (B : Base64) (name : Bytes) : Res (Option Bytes) :=
  if userPrefix.isPrefixOf name then
    match B.unescape (name.drop 5) with
    | none => .ok none
    | some d =>
      if d.length ≤ 16 then .ok none
      else do
        let r ← S.decrypt (d.drop 16) [] (d.take 16)
        .ok (if r.1 then some r.2 else none)
  else .ok none

/-- `absl::StrSplit(text, '\0')` (`/repo/sources/xattr_name.cpp:64-65`): the pieces between the NULs, including
    empty ones; `cur` is the piece being read. -/
def splitNul (cur : Bytes) : Bytes → List Bytes
  | [] => [cur]
  | c :: rest => if c = 0 then cur :: splitNul [] rest else splitNul (cur ++ [c]) rest

/-- The loop over the stored names (`/repo/sources/xattr_name.cpp:64-71`). -/
def decryptNames (S : Siv) (B : Base64) : List Bytes → Res (List Bytes)
  | [] => .ok []
  | n :: rest =>
    match decryptXattrName S B n with
    | .error e => .error e
    | .ok none => decryptNames S B rest
    | .ok (some u) => do
      let r ← decryptNames S B rest
      .ok (u :: r)

/-- `total_buffer_size` (`/repo/sources/xattr_name.cpp:73-77`).  The `static_cast<int>` inside is the identity
    for names shorter than 2^31. -/
def namesTotal (names : List Bytes) : Nat := names.foldl (fun sum n => sum + n.length + 1) 0

/-- `static_cast<int>(n)` of a `size_t` (`/repo/sources/xattr_name.cpp:80,98`). -/
def toInt32 (n : Nat) : Int := if n % 2 ^ 32 < 2 ^ 31 then (n % 2 ^ 32 : Nat) else (n % 2 ^ 32 : Nat) - 2 ^ 32

/-- The copying loop (`/repo/sources/xattr_name.cpp:87-97`): `buf` the caller's buffer, `pos` how far `buffer`
    has advanced, `size` what is left of it according to the code.  `none` is the early `-ERANGE`. -/
def copyNames : (names : List Bytes) → (buf : Bytes) → (pos size : Nat) → Res (Option Bytes)
  | [], buf, _, _ => .ok (some buf)
  | n :: rest, buf, pos, size =>
    if n.length > size then .ok none
    else
      match memcpyAt buf pos n with
      | .error e => .error e
      | .ok buf' => copyNames rest buf' (pos + n.length + 1) (size - (n.length + 1))

/-- Linux `ERANGE`. Used in `/repo/sources/xattr_name.cpp:84,92`. -/
def eRANGE : Nat := 34

/-- The part of `wrapped_listxattr` after both calls of the underlying function
    (`/repo/sources/xattr_name.cpp:62-98`): `raw` is the list of stored names, `buffer` the caller's buffer
    (`none` for a null pointer) whose length is `size`.  Returns the value and the buffer. -/
def listNames (S : Siv) (B : Base64) (raw : Bytes) (buffer : Option Bytes) (size : Nat) : Res (Int × Option Bytes) :=
  match decryptNames S B (splitNul [] raw) with
  | .error e => .error e
  | .ok names =>
    match buffer with
    | none => .ok (toInt32 (namesTotal names), none)
    | some buf =>
      if size = 0 then .ok (toInt32 (namesTotal names), some buf)
      else if size < namesTotal names then .ok (-(eRANGE : Int), some buf)
      else
        match copyNames names (zeros size) 0 size with
        | .error e => .error e
        | .ok none => .ok (-(eRANGE : Int), some (zeros size))
        | .ok (some buf') => .ok (toInt32 (namesTotal names), some buf')

/-- `wrapped_listxattr` (`/repo/sources/xattr_name.cpp:45-99`).  `probe` is the answer of
    `underlying_listxattr(nullptr, 0)`; `fill n` the answer for a buffer of `n` bytes together with the
    content of that buffer afterwards. -/
def wrappedListxattr (S : Siv) (B : Base64) (probe : Int) (fill : Nat → Int × Bytes) (buffer : Option Bytes)
    (size : Nat) : Res (Int × Option Bytes) :=
  if probe ≤ 0 then .ok (probe, buffer)
  else if (fill probe.toNat).1 ≤ 0 then .ok ((fill probe.toNat).1, buffer)
  else
    listNames S B
      (((fill probe.toNat).2 ++ zeros ((fill probe.toNat).1.toNat - (fill probe.toNat).2.length)).take
        (fill probe.toNat).1.toNat)
      buffer size

end Securefs

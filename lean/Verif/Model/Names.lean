import Verif.Model.Encoding
import Verif.Model.Siv
/-!
# Names of the lite format

Models the name translators of `/repo/sources/lite_format.cpp`.  A `string_view` is a list of bytes.  The logging
of skipped names is not modelled.
-/

namespace Securefs

/-- What a translator is made of: AES-SIV under the name key, and BLAKE2b keyed with the same key and cut to 32
    bytes (`/repo/sources/lite_format.cpp:385-396`), both parameters. -/
structure NameKeys where
  siv : Siv
  hash : Bytes → Bytes

/-- The character `/`; `/repo/sources/lite_format.cpp:353`. -/
def slash : UInt8 := 47

/-- The character `.`; `/repo/sources/lite_format.cpp:356`. -/
def dot : UInt8 := 46

/-- `ENAMETOOLONG` on Linux; `/repo/sources/lite_format.cpp:272,304`. -/
def eNameTooLong : Nat := 36

/-- `kSIVSize` (`/repo/sources/lite_format.cpp:147`). -/
def kSivSize : Nat := 16

/-- `encrypt_and_authenticate` into a buffer that starts with the synthetic IV, then `base32_encode` of the buffer
    (`/repo/sources/lite_format.cpp:273-275,373-380,412-419`). -/
def encodeName (S : Siv) (name : Bytes) : Res Bytes :=
  match S.encrypt name [] with
  | .error e => .error e
  | .ok p => base32Encode (p.2 ++ p.1)

/-- `std::variant<InvalidNameTag, LongNameTag, std::string>` (`/repo/sources/lite_format.h:197-217`). -/
inductive NameResult where
  | invalid
  | long
  | name (n : Bytes)
  deriving DecidableEq

/-- `decrypt_path_component` of the legacy translator (`/repo/sources/lite_format.cpp:195-218`), and the second half
    of that of the new translator (`/repo/sources/lite_format.cpp:431-450`), which is the same code. -/
def decodeName (S : Siv) (path : Bytes) : Res NameResult :=
  match base32Decode path with
  | .error e => .error e
  | .ok d =>
    if d.length ≤ kSivSize then .ok .invalid
    else
      match S.decrypt (d.drop kSivSize) [] (d.take kSivSize) with
      | .error e => .error e
      | .ok r => .ok (if r.1 then .name r.2 else .invalid)

/-- `absl::StrSplit(path, '/')` (`/repo/sources/lite_format.cpp:353`): the pieces between the slashes, including
    empty ones; `cur` is the piece being read. -/
def splitSlash (cur : Bytes) : Bytes → List Bytes
  | [] => [cur]
  | c :: rest => if c = slash then cur :: splitSlash [] rest else splitSlash (cur ++ [c]) rest

/-! ## The new translator -/

/-- The fields of `NewStyleNameTranslator` (`/repo/sources/lite_format.cpp:328-329`). -/
structure NewStyle extends NameKeys where
  threshold : Nat
  suffix : Bytes

/-- The constructor (`/repo/sources/lite_format.cpp:337-348`): an empty suffix means `...`. -/
def mkNewStyle (K : NameKeys) (threshold : Nat) (suffix : Bytes) : NewStyle :=
  ⟨K, threshold, if suffix.isEmpty then [dot, dot, dot] else suffix⟩

/-- One iteration of the loop of `encrypt_full_path` without the slash (`/repo/sources/lite_format.cpp:367-406`). -/
def NewStyle.encodeComponent (T : NewStyle) (view : Bytes) : Res Bytes :=
  if view.isEmpty then .ok []
  else if view.length ≤ T.threshold then encodeName T.siv view
  else
    match encodeName T.siv (T.hash view) with
    | .error e => .error e
    | .ok part => .ok (part ++ T.suffix)

/-- The loop of `encrypt_full_path` (`/repo/sources/lite_format.cpp:364-407`). -/
def NewStyle.encodeParts (T : NewStyle) : List Bytes → Res Bytes
  | [] => .ok []
  | v :: rest =>
    match T.encodeComponent v with
    | .error e => .error e
    | .ok part =>
      match T.encodeParts rest with
      | .error e => .error e
      | .ok r => .ok (slash :: part ++ r)

/-- `encrypt_full_path` (`/repo/sources/lite_format.cpp:350-422`).  The second result is the value written to
    `*out_encrypted_last_component`; the callers pass an empty string, which is what is left if nothing is written. -/
def NewStyle.encryptFullPath (T : NewStyle) (path : Bytes) : Res (Bytes × Bytes) :=
  match T.encodeParts (splitSlash [] path) with
  | .error e => .error e
  | .ok r =>
    match (splitSlash [] path).getLast? with
    | none => .ok (dot :: r, [])
    | some last =>
      if last.length > T.threshold then
        match encodeName T.siv last with
        | .error e => .error e
        | .ok c => .ok (dot :: r, c)
      else .ok (dot :: r, [])

/-- `absl::EndsWith` (`/repo/sources/lite_format.cpp:427`). -/
def endsWith (s suffix : Bytes) : Bool := decide (suffix.length ≤ s.length) && s.drop (s.length - suffix.length) == suffix

/-- `decrypt_path_component` (`/repo/sources/lite_format.cpp:424-451`). -/
def NewStyle.decryptComponent (T : NewStyle) (path : Bytes) : Res NameResult :=
  if endsWith path T.suffix then .ok .long else decodeName T.siv path

/-- The loop of `encrypt_path_for_symlink` (`/repo/sources/lite_format.cpp:465-471`): chunks of 60 bytes, each after a
    slash.  `fuel` bounds the iterations. -/
def symlinkChunks : (fuel : Nat) → Bytes → Res Bytes
  | 0, buf => if buf.isEmpty then .ok [] else .error .fuel
  | fuel + 1, buf =>
    if buf.isEmpty then .ok []
    else
      match base32Encode (buf.take 60) with
      | .error e => .error e
      | .ok part =>
        match symlinkChunks fuel (buf.drop 60) with
        | .error e => .error e
        | .ok r => .ok (slash :: part ++ r)

/-- `encrypt_path_for_symlink` (`/repo/sources/lite_format.cpp:453-473`). -/
def NewStyle.encryptSymlink (T : NewStyle) (path : Bytes) : Res Bytes :=
  if path.isEmpty then .ok []
  else
    match T.siv.encrypt path [] with
    | .error e => .error e
    | .ok p => symlinkChunks (p.2 ++ p.1).length (p.2 ++ p.1)

/-- `decrypt_path_from_symlink` (`/repo/sources/lite_format.cpp:475-507`).  `InvalidFilenameException` is
    `Err.badName`. -/
def NewStyle.decryptSymlink (T : NewStyle) (path : Bytes) : Res Bytes :=
  if path.isEmpty then .ok []
  else
    match base32Decode (path.filter (· != slash)) with
    | .error e => .error e
    | .ok d =>
      if d.length ≤ kSivSize then .ok []
      else
        match T.siv.decrypt (d.drop kSivSize) [] (d.take kSivSize) with
        | .error e => .error e
        | .ok r => if r.1 then .ok r.2 else .error .badName

/-- `max_virtual_path_component_size` (`/repo/sources/lite_format.cpp:509-516`); `kSIVSize` is a `size_t`, so the
    subtraction wraps in 64 bits and is then cut to `unsigned`. -/
def NewStyle.maxComponent (T : NewStyle) (phys : Nat) : Nat :=
  if phys ≤ (T.threshold + kSivSize) * 8 / 5 then (phys * 5 % 2 ^ 32 / 8 + 2 ^ 64 - kSivSize) % 2 ^ 32 else 65535

/-! ## The legacy translator -/

/-- The treatment of one slice in `legacy_encrypt_path` (`/repo/sources/lite_format.cpp:267-277`). -/
def legacyEncryptSlice (S : Siv) (slice : Bytes) : Res Bytes :=
  if slice.isEmpty then .ok []
  else if slice.length > 2000 then .error (.vfs eNameTooLong)
  else encodeName S slice

/-- The loop of `legacy_encrypt_path` (`/repo/sources/lite_format.cpp:255-284`).  The code remembers the start of the
    slice by its index; here `cur` is the slice read so far. -/
def legacyEncryptLoop (S : Siv) (cur : Bytes) : Bytes → Res Bytes
  | [] => legacyEncryptSlice S cur
  | c :: rest =>
    if c = slash then
      match legacyEncryptSlice S cur with
      | .error e => .error e
      | .ok part =>
        match legacyEncryptLoop S [] rest with
        | .error e => .error e
        | .ok r => .ok (part ++ slash :: r)
    else legacyEncryptLoop S (cur ++ [c]) rest

/-- The treatment of one slice in `legacy_decrypt_path` (`/repo/sources/lite_format.cpp:297-315`).  If fewer than
    `kSIVSize` bytes are decoded, `decoded_part.size() - kSIVSize` wraps and `decrypt_and_verify` reads out of
    bounds. -/
def legacyDecryptSlice (S : Siv) (slice : Bytes) : Res Bytes :=
  if slice.isEmpty then .ok []
  else
    match base32Decode slice with
    | .error e => .error e
    | .ok d =>
      if d.length ≥ 2032 then .error (.vfs eNameTooLong)
      else if d.length < kSivSize then .error .outOfBounds
      else
        match S.decrypt (d.drop kSivSize) [] (d.take kSivSize) with
        | .error e => .error e
        | .ok r => if r.1 then .ok r.2 else .error .badName

/-- The loop of `legacy_decrypt_path` (`/repo/sources/lite_format.cpp:286-322`); see `legacyEncryptLoop`. -/
def legacyDecryptLoop (S : Siv) (cur : Bytes) : Bytes → Res Bytes
  | [] => legacyDecryptSlice S cur
  | c :: rest =>
    if c = slash then
      match legacyDecryptSlice S cur with
      | .error e => .error e
      | .ok part =>
        match legacyDecryptLoop S [] rest with
        | .error e => .error e
        | .ok r => .ok (part ++ slash :: r)
    else legacyDecryptLoop S (cur ++ [c]) rest

/-- `encrypt_full_path` of the legacy translator (`/repo/sources/lite_format.cpp:175-193`). -/
def legacyEncryptFullPath (S : Siv) (path : Bytes) : Res Bytes :=
  if path.isEmpty then .ok []
  else if path == [slash] then .ok [dot]
  else
    match legacyEncryptLoop S [] path with
    | .error e => .error e
    | .ok s => .ok (if s.head? = some slash then s.drop 1 else s)

/-- `encrypt_path_for_symlink` of the legacy translator (`/repo/sources/lite_format.cpp:220-231`). -/
def legacyEncryptSymlink (S : Siv) (path : Bytes) : Res Bytes :=
  if path.isEmpty then .ok []
  else if path == [slash] then .ok [dot]
  else legacyEncryptLoop S [] path

/-- `decrypt_path_from_symlink` of the legacy translator (`/repo/sources/lite_format.cpp:232-243`). -/
def legacyDecryptSymlink (S : Siv) (path : Bytes) : Res Bytes :=
  if path.isEmpty then .ok []
  else if path == [dot] then .ok [slash]
  else legacyDecryptLoop S [] path

/-- `max_virtual_path_component_size` of the legacy translator (`/repo/sources/lite_format.cpp:245-252`). -/
def legacyMaxComponent (phys : Nat) : Nat :=
  if phys ≤ kSivSize * 8 / 5 then 0 else (phys * 5 % 2 ^ 32 / 8 + 2 ^ 64 - kSivSize) % 2 ^ 32

/-! ## The other translators -/

/-- `NoOpNameTranslator::encrypt_full_path` (`/repo/sources/lite_format.cpp:524-532`). -/
def noOpEncryptFullPath (path : Bytes) : Bytes :=
  if path.head? = some slash then dot :: path else dot :: slash :: path

/-- `PathNormalizingNameTranslator::encrypt_full_path` (`/repo/sources/lite_format.cpp:565-589`) over a delegate.
    `nfc` and `fold` are the functions of the Unicode library, `none` if they throw; `useNfc` and `useFold` the
    flags.  The call of the delegate is inside the `try`, so it is tried again with the path as given if it throws. -/
def normalisedEncrypt {α : Type} (nfc fold : Bytes → Option Bytes) (useNfc useFold : Bool) (delegate : Bytes → Res α)
    (path : Bytes) : Res α :=
  match (if useNfc then nfc path else some path) with
  | none => delegate path
  | some a =>
    match (if useFold then fold a else some a) with
    | none => delegate path
    | some b =>
      match delegate (if useNfc || useFold then b else []) with
      | .ok r => .ok r
      | .error _ => delegate path

end Securefs

/-!
# Basic vocabulary of the model

Bytes, the outcome type, and C library memory primitives.
-/

namespace Securefs

/-- A byte buffer.  Models `byte*` + length pairs, `std::vector<byte>`, `CryptoPP::SecByteBlock`
    (`typedef unsigned char byte`, `/repo/sources/myutils.h:28`, `/repo/sources/streams.cpp`, passim). -/
abbrev Bytes := List UInt8

/-- Why an operation did not return normally.  Every constructor except the last three is a C++
    exception of the code; `outOfBounds` is undefined behaviour (a buffer overrun), `diverge` is
    a loop that does not terminate, `fuel` is an artefact of the model proved unreachable.
    Models `/repo/sources/exceptions.h:16-249` (only the classes the modelled code throws). -/
inductive Err where
  /-- `StreamTooLongException` (EFBIG) -/
  | tooLong
  /-- `MessageVerificationException`, `LiteMessageVerificationException`, `XattrVerificationException` -/
  | verify
  /-- `InvalidArgumentException` -/
  | invalidArg
  /-- `InvalidHMACStreamException` -/
  | hmac
  /-- `CorruptedMetaDataException`, `CorruptedDirectoryException` -/
  | corrupt
  /-- `InvalidFilenameException` -/
  | badName
  /-- `std::out_of_range` -/
  | outOfRange
  /-- `std::runtime_error` and friends -/
  | runtime
  /-- `VFSException` carrying an errno -/
  | vfs (errno : Nat)
  /-- `PasswordOrKeyfileIncorrectException` (`/repo/sources/params_io.h:16-20`) -/
  | credentials
  /-- undefined behaviour: memory access outside a buffer -/
  | outOfBounds
  /-- a loop of the code that never ends -/
  | diverge
  /-- fuel of the model exhausted (proved unreachable) -/
  | fuel
  deriving DecidableEq, Repr

/-- Outcome of a modelled function: a C++ return value or an abnormal end.
    (`/repo/sources/exceptions.h:14-249` has the exceptions). -/
abbrev Res (α : Type) := Except Err α

/-- `std::vector<unsigned char>(n)` / `memset(p, 0, n)`: `n` zero bytes
    (`/repo/sources/streams.cpp:227,231`). -/
def zeros (n : Nat) : Bytes := List.replicate n 0

/-- `is_all_zeros` (`/repo/sources/myutils.h:263-267`). -/
def allZeros (b : Bytes) : Bool := b.all (· == 0)

/-- `memcpy(buf + pos, src, src.size())` (used in `/repo/sources/streams.cpp:198,251`), with the
    buffer bounds checked: an overrun is the outcome `outOfBounds`. -/
def memcpyAt (buf : Bytes) (pos : Nat) (src : Bytes) : Res Bytes :=
  if pos + src.length ≤ buf.length then
    .ok (buf.take pos ++ src ++ buf.drop (pos + src.length))
  else .error .outOfBounds

end Securefs

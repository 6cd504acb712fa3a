import Verif.Model.Basic
import Verif.Spec.ByteFile
/-!
# Byte streams and the block-based stream

Models `StreamBase` and `BlockBasedStream` of `/repo/sources/streams.{h,cpp}`.
-/

namespace Securefs

/-! ## The underlying file -/

/-- `StreamBase::read` contract for a plain file (`/repo/sources/streams.h:20-24`; implemented by
    `UnixFileStream::read`, a `pread`).  Simplification: a POSIX file is a list of bytes and I/O
    errors are not modelled. -/
def ufRead (f : Bytes) (off len : Nat) : Bytes := (f.drop off).take len

/-- `StreamBase::resize` contract for a plain file (`/repo/sources/streams.h:36-40`; `ftruncate`). -/
def ufResize (f : Bytes) (n : Nat) : Bytes := f.take n ++ zeros (n - f.length)

/-- `StreamBase::write` contract for a plain file (`/repo/sources/streams.h:26-30`; `pwrite`:
    a write of zero bytes changes nothing, a gap is filled with zeros). -/
def ufWrite (f : Bytes) (off : Nat) (d : Bytes) : Bytes :=
  if d.isEmpty then f
  else f.take off ++ zeros (off - f.length) ++ d ++ f.drop (off + d.length)

/-! ## Block device interface -/

/-- The virtual functions a `BlockBasedStream` relies on (`/repo/sources/streams.h:95-130`).
    `readMulti` returns the bytes placed at the start of the output buffer (their number is the
    returned length); `writeMulti s e r input` reads `(e-s)*bs + r` bytes of `input`. -/
structure BlockDev (σ : Type) where
  /-- `m_block_size` -/
  bs : Nat
  /-- `is_sparse()` -/
  sparse : Bool
  /-- `size()` -/
  size : σ → Nat
  /-- `read_multi_blocks(start_block, end_block, output)` -/
  readMulti : σ → Nat → Nat → Res Bytes
  /-- `write_multi_blocks(start_block, end_block, end_residue, input)` -/
  writeMulti : σ → Nat → Nat → Nat → Bytes → Res σ
  /-- `adjust_logical_size(length)` -/
  adjust : σ → Nat → Res σ

/-- `std::variant<const void*, ZeroFillTag>` (`/repo/sources/streams.h:112-118`). -/
inductive WInput where
  | data (d : Bytes)
  | zeroFill

namespace BlockDev
variable {σ : Type} (D : BlockDev σ)

/-- `BlockBasedStream::read` (`/repo/sources/streams.cpp:177-200`).
    Simplification: offsets are natural numbers, so `offset + length` does not wrap; theorems bound
    it by the block limit, which is far below `2^64`.  The uninitialised output buffer beyond the
    returned length is not represented. -/
def read (st : σ) (off len : Nat) : Res Bytes :=
  if len = 0 then .ok []
  else
    let sb := off / D.bs
    let sr := off % D.bs
    let eb := (off + len) / D.bs
    let er := (off + len) % D.bs
    if sr = 0 ∧ er = 0 then D.readMulti st sb eb
    else do
      let buf ← D.readMulti st sb (eb + (if er > 0 then 1 else 0))
      if buf.length > (eb - sb + (if er > 0 then 1 else 0)) * D.bs then .error .outOfBounds
      else if buf.length ≤ sr then .ok []
      else .ok ((buf.drop sr).take (min (buf.length - sr) len))

/-- First read-modify-write step of `unchecked_write` (`/repo/sources/streams.cpp:233-236`). -/
def rmwHead (st : σ) (sb sr eb : Nat) (buf0 : Bytes) : Res Bytes :=
  if sr > 0 ∧ sb < eb then do
    let r ← D.readMulti st sb (sb + 1)
    memcpyAt buf0 0 r
  else .ok buf0

/-- Second read-modify-write step of `unchecked_write`; also computes `effective_end_residue`
    (`/repo/sources/streams.cpp:238-246`). -/
def rmwTail (st : σ) (sb eb er : Nat) (buf1 : Bytes) : Res (Bytes × Nat) :=
  if er > 0 then do
    let r ← D.readMulti st eb (eb + 1)
    let b ← memcpyAt buf1 ((eb - sb) * D.bs) r
    .ok (b, max er r.length)
  else .ok (buf1, 0)

/-- The copy of the user's bytes into the buffer (`/repo/sources/streams.cpp:248-258`).  For the
    zero-fill variant the code leaves the buffer as it is, as here. -/
def rmwBody (inp : WInput) (sr : Nat) (buf2 : Bytes) : Res Bytes :=
  match inp with
  | .zeroFill => .ok buf2
  | .data d => memcpyAt buf2 sr d

/-- `BlockBasedStream::unchecked_write` (`/repo/sources/streams.cpp:215-261`). -/
def uncheckedWrite (st : σ) (inp : WInput) (off len : Nat) : Res σ :=
  if len = 0 then .ok st
  else
    let sb := off / D.bs
    let sr := off % D.bs
    let eb := (off + len) / D.bs
    let er := (off + len) % D.bs
    if sr = 0 ∧ er = 0 then
      match inp with
      | .zeroFill => D.writeMulti st sb eb 0 (zeros ((eb - sb) * D.bs))
      | .data d => D.writeMulti st sb eb 0 d
    else do
      let buf1 ← D.rmwHead st sb sr eb (zeros ((eb - sb + (if er > 0 then 1 else 0)) * D.bs))
      let p ← D.rmwTail st sb eb er buf1
      let buf3 ← rmwBody inp sr p.1
      D.writeMulti st sb eb p.2 buf3

/-- `BlockBasedStream::zero_fill(offset, finish)` (`/repo/sources/streams.cpp:263-266`). -/
def zeroFillTo (st : σ) (off fin : Nat) : Res σ :=
  D.uncheckedWrite st .zeroFill off (fin - off)

/-- The rewriting of the new last block before a shrink (`/repo/sources/streams.cpp:276-285`). -/
def shrinkPrep (st : σ) (new : Nat) : Res σ :=
  if new % D.bs > 0 then do
    let r ← D.readMulti st (new / D.bs) (new / D.bs + 1)
    let buf ← memcpyAt (zeros D.bs) 0 r
    D.writeMulti st (new / D.bs) (new / D.bs) (new % D.bs) buf
  else .ok st

/-- The zero filling before an extension (`/repo/sources/streams.cpp:287-296`). -/
def growPrep (st : σ) (cur new : Nat) : Res σ :=
  if D.sparse = false ∨ cur / D.bs = new / D.bs then D.zeroFillTo st cur new
  else D.zeroFillTo st cur (cur / D.bs * D.bs + D.bs)

/-- `BlockBasedStream::unchecked_resize` (`/repo/sources/streams.cpp:270-298`). -/
def uncheckedResize (st : σ) (cur new : Nat) : Res σ :=
  if new = cur then .ok st
  else if new < cur then do
    let st1 ← D.shrinkPrep st new
    D.adjust st1 new
  else do
    let st1 ← D.growPrep st cur new
    D.adjust st1 new

/-- `BlockBasedStream::resize` (`/repo/sources/streams.cpp:268`). -/
def resize (st : σ) (new : Nat) : Res σ := D.uncheckedResize st (D.size st) new

/-- `BlockBasedStream::write` (`/repo/sources/streams.cpp:202-213`). -/
def write (st : σ) (off : Nat) (d : Bytes) : Res σ :=
  if d.length = 0 then .ok st
  else if off > D.size st then do
    let st1 ← D.uncheckedResize st (D.size st) off
    D.uncheckedWrite st1 (.data d) off d.length
  else D.uncheckedWrite st (.data d) off d.length

/-! ### What an exception leaves behind

The functions above lose the state when they fail.  The variants below return the state the file is in
when the exception leaves the function, and the exception.  `writeMulti` and `readMulti` of both streams
throw before they change anything. -/

/-- `unchecked_resize` (`/repo/sources/streams.cpp:270-298`) with the state it leaves in any case: if only
    `adjust_logical_size` fails, the rewriting of the last block has already happened. -/
def uncheckedResizeS (st : σ) (cur new : Nat) : σ × Option Err :=
  if new = cur then (st, none)
  else
    match (if new < cur then D.shrinkPrep st new else D.growPrep st cur new) with
    | .error e => (st, some e)
    | .ok st1 =>
      match D.adjust st1 new with
      | .error e => (st1, some e)
      | .ok st2 => (st2, none)

/-- `resize` (`/repo/sources/streams.cpp:268`) with the state it leaves in any case. -/
def resizeS (st : σ) (new : Nat) : σ × Option Err := D.uncheckedResizeS st (D.size st) new

/-- `write` (`/repo/sources/streams.cpp:202-213`) with the state it leaves in any case: the file is
    extended first, and stays extended if the writing itself fails. -/
def writeS (st : σ) (off : Nat) (d : Bytes) : σ × Option Err :=
  if d.length = 0 then (st, none)
  else
    match (if off > D.size st then D.uncheckedResizeS st (D.size st) off else (st, none)) with
    | (st1, some e) => (st1, some e)
    | (st1, none) =>
      match D.uncheckedWrite st1 (.data d) off d.length with
      | .error e => (st1, some e)
      | .ok st2 => (st2, none)

end BlockDev

/-! ## Streams as seen by their users -/

/-- The user interface of a `StreamBase` (`/repo/sources/streams.h:17-63`), together with
    destroying the object and constructing it again over the same files. -/
structure Stream (σ : Type) where
  read : σ → Nat → Nat → Res Bytes
  write : σ → Nat → Bytes → Res σ
  resize : σ → Nat → Res σ
  size : σ → Nat
  reopen : σ → Res σ

/-- One user call on a stream.  Harness of the model: it only dispatches to the functions of
    `StreamBase` (`/repo/sources/streams.h:17-63`). -/
def Stream.step {σ : Type} (S : Stream σ) (st : σ) : Spec.Op → Res (σ × Spec.Out)
  | .read off len => do
    let b ← S.read st off len
    .ok (st, .bytes b)
  | .write off d => do
    let st' ← S.write st off d
    .ok (st', .done)
  | .resize n => do
    let st' ← S.resize st n
    .ok (st', .done)
  | .size => .ok (st, .size (S.size st))
  | .reopen => do
    let st' ← S.reopen st
    .ok (st', .done)

/-- A history of user calls; it stops at the first exception.  Harness of the model
    (`/repo/sources/streams.h:17-63`). -/
def Stream.run {σ : Type} (S : Stream σ) (st : σ) : List Spec.Op → Res (σ × List Spec.Out)
  | [] => .ok (st, [])
  | op :: ops => do
    let p ← S.step st op
    let q ← S.run p.1 ops
    .ok (q.1, p.2 :: q.2)

end Securefs

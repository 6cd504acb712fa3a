import Verif.Model.Stream
/-!
# The stream with a write cache

Models `WriteCachedStream` of `/repo/sources/streams.{h,cpp}`.
-/

namespace Securefs

/-- A `WriteCachedStream` (`/repo/sources/streams.h:189-224`): the delegate, the buffer, and which bytes of
    the file the buffer stands for.  Simplification: offsets do not wrap at `2^64`. -/
structure WCache (σ : Type) where
  inner : σ
  buffer : Bytes
  cachedStart : Nat
  cachedLength : Nat
  deriving DecidableEq

namespace WCache
variable {σ : Type} (S : Stream σ)

/-- The constructor (`/repo/sources/streams.h:192-195,219-220`). -/
def fresh (cap : Nat) (st : σ) : WCache σ := ⟨st, zeros cap, 0, 0⟩

/-- `memcpy(output, buffer_.data() + pos, len)` (`/repo/sources/streams.cpp:619,625,634`); reading outside the
    buffer is `outOfBounds`. -/
def copyOut (w : WCache σ) (pos len : Nat) : Res Bytes :=
  if pos + len ≤ w.buffer.length then .ok ((w.buffer.drop pos).take len) else .error .outOfBounds

/-- `WriteCachedStream::read` (`/repo/sources/streams.cpp:607-636`). -/
def read (w : WCache σ) (off len : Nat) : Res Bytes :=
  if w.cachedLength = 0 then S.read w.inner off len
  else if off ≥ w.cachedLength + w.cachedStart ∨ off + len ≤ w.cachedStart then S.read w.inner off len
  else if off ≥ w.cachedStart ∧ off + len ≤ w.cachedStart + w.cachedLength then
    w.copyOut (off - w.cachedStart) len
  else if off ≥ w.cachedStart then do
    let n := w.cachedLength - (off - w.cachedStart)
    let b ← w.copyOut (off - w.cachedStart) n
    let r ← S.read w.inner (off + n) (len - n)
    .ok (b ++ r)
  else do
    let n := off + len - w.cachedStart
    let r ← S.read w.inner off (len - n)
    let out ← memcpyAt (zeros len) 0 r
    let b ← w.copyOut 0 n
    memcpyAt out (len - n) b

/-- `WriteCachedStream::flush_cache` (`/repo/sources/streams.cpp:651-660`). -/
def flushCache (w : WCache σ) : Res (WCache σ) :=
  if w.cachedLength = 0 then .ok w
  else do
    let b ← w.copyOut 0 w.cachedLength
    let st ← S.write w.inner w.cachedStart b
    .ok { w with inner := st, cachedLength := 0, cachedStart := 0 }

/-- `WriteCachedStream::write` (`/repo/sources/streams.cpp:637-650`). -/
def write (w : WCache σ) (off : Nat) (d : Bytes) : Res (WCache σ) :=
  if w.cachedLength = 0 then do
    let st ← S.write w.inner off d
    .ok { w with inner := st }
  else if off ≥ w.cachedStart ∧ off + d.length ≤ w.cachedStart + w.buffer.length then do
    let b ← memcpyAt w.buffer (off - w.cachedStart) d
    .ok { w with buffer := b }
  else do
    let w ← w.flushCache S
    let st ← S.write w.inner off d
    .ok { w with inner := st }

/-- `WriteCachedStream::resize` (`/repo/sources/streams.h:208-212`). -/
def resize (w : WCache σ) (n : Nat) : Res (WCache σ) := do
  let w ← w.flushCache S
  let st ← S.resize w.inner n
  .ok { w with inner := st }

/-- `WriteCachedStream::size` (`/repo/sources/streams.h:199-202`). -/
def size (w : WCache σ) : Nat := max (w.cachedLength + w.cachedStart) (S.size w.inner)

/-- The stream as its users see it (`/repo/sources/streams.h:189-224`).  Closing runs the destructor, which writes
    the cache out (`/repo/sources/streams.h:196`); opening again makes a new object over the delegate. -/
def stream (cap : Nat) : Stream (WCache σ) where
  read := read S
  write := write S
  resize := resize S
  size := size S
  reopen w := do
    let w ← w.flushCache S
    let st ← S.reopen w.inner
    .ok (fresh cap st)

end WCache
end Securefs

import Verif.Model.LiteStream
import Verif.Model.FullStream
import Verif.Spec.Frail
/-!
# Streams over a system that fails

The streams of `Verif/Model/Stream.lean`, `LiteStream.lean` and `FullStream.lean` once more, now with system calls that may fail, and
with the state that an exception leaves behind.  `UnixFileStream` (`/repo/sources/unix.cpp:97-160`) turns each of its calls into one system
call and throws if that fails; it also throws `EIO` if `pwrite` wrote only a part.

Simplification: `pread` of a regular file returns fewer bytes than asked for only at the end of the file.
-/

namespace Securefs

/-- A system call that fails with `errno`; a `pwrite` has written `part` bytes before
    (`/repo/sources/unix.cpp:121-129`; for a `pwrite` that returns a smaller count the error is `EIO`). -/
structure SysFault where
  errno : Nat
  part : Nat

/-- The state of a stream, and what happens to the next system calls: `none` is success, and so is everything beyond the end of the list.
    Harness of the model (`/repo/sources/unix.cpp:97-160`). -/
structure Faulty (σ : Type) where
  st : σ
  plan : List (Option SysFault)

/-- Computations that make system calls: they return or throw, and in both cases leave a state
    (member functions of `/repo/sources/streams.cpp`, `/repo/sources/lite_stream.cpp`). -/
abbrev FIO (σ α : Type) := Faulty σ → Res α × Faulty σ

namespace FIO
variable {σ α β : Type}

/-- C++ `return` (`/repo/sources/streams.cpp`, passim). -/
def ret (a : α) : FIO σ α := fun F => (.ok a, F)

/-- A computation without system calls (`/repo/sources/streams.cpp`, passim). -/
def lift (r : Res α) : FIO σ α := fun F => (r, F)

/-- One thing after the other; an exception ends the run (C++ control flow, `/repo/sources/streams.cpp`). -/
def bind (m : FIO σ α) (f : α → FIO σ β) : FIO σ β := fun F =>
  match m F with
  | (.ok a, F') => f a F'
  | (.error e, F') => (.error e, F')

/-- One system call (`/repo/sources/unix.cpp:97-160`): what it does if it works, and what it leaves if it fails. -/
def sys (works : σ → α × σ) (fails : Nat → σ → σ) : FIO σ α := fun F =>
  match F.plan with
  | some x :: p => (.error (.vfs x.errno), ⟨fails x.part F.st, p⟩)
  | none :: p => (.ok (works F.st).1, ⟨(works F.st).2, p⟩)
  | [] => (.ok (works F.st).1, ⟨(works F.st).2, []⟩)

/-- A step without a system call, as drawing random numbers (`/repo/sources/crypto.cpp:149-153`). -/
def step (f : σ → α × σ) : FIO σ α := fun F => (.ok (f F.st).1, ⟨(f F.st).2, F.plan⟩)

end FIO

/-- The virtual functions of a `BlockBasedStream` (`/repo/sources/streams.h:95-130`), with failing system calls; see `BlockDev`. -/
structure FaultDev (σ : Type) where
  bs : Nat
  sparse : Bool
  size : FIO σ Nat
  readMulti : Nat → Nat → FIO σ Bytes
  writeMulti : Nat → Nat → Nat → Bytes → FIO σ Unit
  adjust : Nat → FIO σ Unit

namespace FaultDev
variable {σ : Type} (D : FaultDev σ)

/-- `BlockBasedStream::read` (`/repo/sources/streams.cpp:177-200`); see `BlockDev.read`. -/
def read (off len : Nat) : FIO σ Bytes :=
  if len = 0 then .ret []
  else
    let sb := off / D.bs
    let sr := off % D.bs
    let eb := (off + len) / D.bs
    let er := (off + len) % D.bs
    if sr = 0 ∧ er = 0 then D.readMulti sb eb
    else
      (D.readMulti sb (eb + (if er > 0 then 1 else 0))).bind fun buf =>
        .lift (if buf.length > (eb - sb + (if er > 0 then 1 else 0)) * D.bs then .error .outOfBounds
          else if buf.length ≤ sr then .ok []
          else .ok ((buf.drop sr).take (min (buf.length - sr) len)))

/-- First read-modify-write step of `unchecked_write` (`/repo/sources/streams.cpp:233-236`). -/
def rmwHead (sb sr eb : Nat) (buf0 : Bytes) : FIO σ Bytes :=
  if sr > 0 ∧ sb < eb then
    (D.readMulti sb (sb + 1)).bind fun r => .lift (memcpyAt buf0 0 r)
  else .ret buf0

/-- Second read-modify-write step of `unchecked_write` (`/repo/sources/streams.cpp:238-246`). -/
def rmwTail (sb eb er : Nat) (buf1 : Bytes) : FIO σ (Bytes × Nat) :=
  if er > 0 then
    (D.readMulti eb (eb + 1)).bind fun r =>
      .lift ((memcpyAt buf1 ((eb - sb) * D.bs) r).map fun b => (b, max er r.length))
  else .ret (buf1, 0)

/-- `BlockBasedStream::unchecked_write` (`/repo/sources/streams.cpp:215-261`); see `BlockDev.uncheckedWrite`. -/
def uncheckedWrite (inp : WInput) (off len : Nat) : FIO σ Unit :=
  if len = 0 then .ret ()
  else
    let sb := off / D.bs
    let sr := off % D.bs
    let eb := (off + len) / D.bs
    let er := (off + len) % D.bs
    if sr = 0 ∧ er = 0 then
      match inp with
      | .zeroFill => D.writeMulti sb eb 0 (zeros ((eb - sb) * D.bs))
      | .data d => D.writeMulti sb eb 0 d
    else
      (D.rmwHead sb sr eb (zeros ((eb - sb + (if er > 0 then 1 else 0)) * D.bs))).bind fun buf1 =>
      (D.rmwTail sb eb er buf1).bind fun p =>
      (FIO.lift (BlockDev.rmwBody inp sr p.1)).bind fun buf3 =>
      D.writeMulti sb eb p.2 buf3

/-- `BlockBasedStream::zero_fill(offset, finish)` (`/repo/sources/streams.cpp:263-266`). -/
def zeroFillTo (off fin : Nat) : FIO σ Unit := D.uncheckedWrite .zeroFill off (fin - off)

/-- The rewriting of the new last block before a shrink (`/repo/sources/streams.cpp:276-285`). -/
def shrinkPrep (new : Nat) : FIO σ Unit :=
  if new % D.bs > 0 then
    (D.readMulti (new / D.bs) (new / D.bs + 1)).bind fun r =>
    (FIO.lift (memcpyAt (zeros D.bs) 0 r)).bind fun buf =>
    D.writeMulti (new / D.bs) (new / D.bs) (new % D.bs) buf
  else .ret ()

/-- The zero filling before an extension (`/repo/sources/streams.cpp:287-296`). -/
def growPrep (cur new : Nat) : FIO σ Unit :=
  if D.sparse = false ∨ cur / D.bs = new / D.bs then D.zeroFillTo cur new
  else D.zeroFillTo cur (cur / D.bs * D.bs + D.bs)

/-- `BlockBasedStream::unchecked_resize` (`/repo/sources/streams.cpp:270-298`). -/
def uncheckedResize (cur new : Nat) : FIO σ Unit :=
  if new = cur then .ret ()
  else if new < cur then (D.shrinkPrep new).bind fun _ => D.adjust new
  else (D.growPrep cur new).bind fun _ => D.adjust new

/-- `BlockBasedStream::resize` (`/repo/sources/streams.cpp:268`). -/
def resize (new : Nat) : FIO σ Unit := D.size.bind fun cur => D.uncheckedResize cur new

/-- `BlockBasedStream::write` (`/repo/sources/streams.cpp:202-213`). -/
def write (off : Nat) (d : Bytes) : FIO σ Unit :=
  if d.length = 0 then .ret ()
  else
    D.size.bind fun cur =>
    (if off > cur then D.uncheckedResize cur off else .ret ()).bind fun _ =>
    D.uncheckedWrite (.data d) off d.length

/-- One call of the user.  Harness of the model (`/repo/sources/streams.h:17-63`). -/
def call : Spec.FileCall → FIO σ Spec.Out
  | .read off len => (D.read off len).bind fun b => .ret (.bytes b)
  | .write off d => (D.write off d).bind fun _ => .ret .done
  | .resize n => (D.resize n).bind fun _ => .ret .done
  | .size => D.size.bind fun n => .ret (.size n)

/-- A history of calls, which goes on after failures.  Harness of the model (`/repo/sources/streams.h:17-63`). -/
def run : Faulty σ → List Spec.FileCall → List (Spec.FileCall × Except Err Spec.Out) × Faulty σ
  | F, [] => ([], F)
  | F, c :: rest =>
    let r := D.call c F
    let q := run r.2 rest
    ((c, r.1) :: q.1, q.2)

end FaultDev

/-! ## The lite format -/

namespace LiteCfg
variable (C : LiteCfg) (o : LiteObj)

/-- `size` (`/repo/sources/lite_stream.cpp:248-254`), which asks the system for the size of the file. -/
def sizeF : FIO LiteSt Nat := FIO.sys (fun st => (C.size o st, st)) (fun _ st => st)

/-- `read_multi_blocks` (`/repo/sources/lite_stream.cpp:146-200`): one `pread`. -/
def readMultiF (s e : Nat) : FIO LiteSt Bytes :=
  if e > liteMaxBlocks then .lift (.error .tooLong)
  else
    (FIO.sys (fun st => (ufRead st.file (o.headerSize + C.ubs * s) ((e - s) * C.ubs), st)) (fun _ st => st)).bind fun b =>
      .lift (C.readLoop o (e - s) s b)

/-- `write_multi_blocks` (`/repo/sources/lite_stream.cpp:202-246`): one `pwrite`, after the random numbers have been drawn. -/
def writeMultiF (s e r : Nat) (input : Bytes) : FIO LiteSt Unit := fun F =>
  if e > liteMaxBlocks then (.error .tooLong, F)
  else
    match C.writeLoop o (e - s + 1) s ((e - s) * C.ubs + (if r ≤ 0 then 0 else r + C.ivSize + 16)) F.st.rng input with
    | .error e => (.error e, F)
    | .ok q =>
      FIO.sys (fun st => ((), { st with file := ufWrite st.file (s * C.ubs + o.headerSize) q.1 }))
        (fun k st => { st with file := ufWrite st.file (s * C.ubs + o.headerSize) (q.1.take k) })
        ⟨{ F.st with rng := q.2 }, F.plan⟩

/-- `adjust_logical_size` (`/repo/sources/lite_stream.cpp:256-262`): one `ftruncate`. -/
def adjustF (len : Nat) : FIO LiteSt Unit :=
  FIO.sys (fun st => ((), { st with file := ufResize st.file (C.underlyingSize o len) })) (fun _ st => st)

/-- The overridden virtual functions of the lite stream (`/repo/sources/lite_stream.h:63-95`). -/
def faultDev : FaultDev LiteSt where
  bs := C.bs
  sparse := C.sparse
  size := C.sizeF o
  readMulti := C.readMultiF o
  writeMulti := C.writeMultiF o
  adjust := C.adjustF o

/-- The constructor (`/repo/sources/lite_stream.cpp:79-138`): one `pread`, and one or two `pwrite` or one more `pread`; see `openFile`. -/
def openF : FIO LiteSt LiteObj :=
  if C.ivSize < 12 ∨ C.ivSize > 32 then .lift (.error .invalidArg)
  else if C.bs < 32 then .lift (.error .invalidArg)
  else
    (FIO.sys (fun st => (ufRead st.file 0 16, st)) (fun _ st => st)).bind fun id =>
    if id.length = 0 then
      (FIO.step fun st => (C.rng.draw st.rng 16, { st with rng := st.rng + 1 })).bind fun id =>
      (FIO.sys (fun st => ((), { st with file := ufWrite st.file 0 id }))
        (fun k st => { st with file := ufWrite st.file 0 (id.take k) })).bind fun _ =>
      if C.padding id = 0 then .ret ⟨id, []⟩
      else
        (FIO.step fun st => ((C.rng.draw st.rng (4 + C.padding id)).drop 4, { st with rng := st.rng + 1 })).bind fun pad =>
        (FIO.sys (fun st => ((), { st with file := ufWrite st.file 16 pad }))
          (fun k st => { st with file := ufWrite st.file 16 (pad.take k) })).bind fun _ => .ret ⟨id, pad⟩
    else if id.length ≠ 16 then .lift (.error .invalidArg)
    else if C.padding id = 0 then .ret ⟨id, []⟩
    else
      (FIO.sys (fun st => (ufRead st.file 16 (C.padding id), st)) (fun _ st => st)).bind fun pad =>
      if pad.length ≠ C.padding id then .lift (.error .invalidArg) else .ret ⟨id, pad⟩

end LiteCfg

/-! ## The full format -/

namespace FullCfg
variable (C : FullCfg)

/-- `size` (`/repo/sources/streams.cpp:490`). -/
def sizeF : FIO FullSt Nat := FIO.sys (fun st => (st.data.length, st)) (fun _ st => st)

/-- `read_multi_blocks` (`/repo/sources/streams.cpp:414-469`): two `pread`. -/
def readMultiF (s e : Nat) : FIO FullSt Bytes :=
  if s = e then .ret []
  else if e > fullMaxBlocks then .lift (.error .tooLong)
  else
    (FIO.sys (fun st => (ufRead st.data (s * C.bs) ((e - s) * C.bs), st)) (fun _ st => st)).bind fun d =>
    (FIO.sys (fun st => (hmacRead st.metaS (C.metaPos s) ((e - s) * C.metaSize), st)) (fun _ st => st)).bind fun m =>
      .lift (if d.length = 0 then .ok []
        else if m.length % C.metaSize ≠ 0 then .error .verify
        else C.readLoop (e - s) d (m ++ zeros ((e - s) * C.metaSize - m.length)))

/-- `HMACStream::write` (`/repo/sources/streams.cpp:144-148`): `is_dirty` is set after the `pwrite`, so not if that fails. -/
def metaWriteF (off : Nat) (d : Bytes) : FIO FullSt Unit :=
  FIO.sys (fun st => ((), { st with metaS := hmacWrite st.metaS off d }))
    (fun k st => { st with metaS := { st.metaS with file := ufWrite st.metaS.file (off + 32) (d.take k) } })

/-- `HMACStream::resize` (`/repo/sources/streams.cpp:150-154`). -/
def metaResizeF (n : Nat) : FIO FullSt Unit :=
  FIO.sys (fun st => ((), { st with metaS := hmacResize st.metaS n })) (fun _ st => st)

/-- `write_multi_blocks` (`/repo/sources/streams.cpp:370-412`): two `pwrite`. -/
def writeMultiF (s e r : Nat) (input : Bytes) : FIO FullSt Unit := fun F =>
  if e > fullMaxBlocks then (.error .tooLong, F)
  else
    match C.writeLoop (e - s + 1) (C.bs * (e - s) + r) F.st.rng input with
    | .error e => (.error e, F)
    | .ok q =>
      ((FIO.sys (fun st => ((), { st with data := ufWrite st.data (s * C.bs) q.1 }))
        (fun k st => { st with data := ufWrite st.data (s * C.bs) (q.1.take k) })).bind fun _ =>
        metaWriteF (C.metaPos s) q.2.1) ⟨{ F.st with rng := q.2.2 }, F.plan⟩

/-- `adjust_logical_size` (`/repo/sources/streams.cpp:471-476`): two `ftruncate`. -/
def adjustF (len : Nat) : FIO FullSt Unit :=
  (FIO.sys (fun st => ((), { st with data := ufResize st.data len })) (fun _ st => st)).bind fun _ =>
  metaResizeF (C.metaPos ((len + C.bs - 1) / C.bs))

/-- The overridden virtual functions (`/repo/sources/streams.cpp:369-490`). -/
def faultDev : FaultDev FullSt where
  bs := C.bs
  sparse := C.sparse
  size := sizeF
  readMulti := C.readMultiF
  writeMulti := C.writeMultiF
  adjust := C.adjustF

/-- `flush` and `HMACStream::flush` (`/repo/sources/streams.cpp:117-129,484-488`): `is_dirty` is cleared after the `pwrite`.
    Simplification: the several `pread` of `run_mac` are one. -/
def flushF : FIO FullSt Unit := fun F =>
  if F.st.metaS.dirty then
    ((FIO.sys (fun st => (runMac C.id st.metaS.file, st)) (fun _ st => st)).bind fun m =>
      (FIO.lift m).bind fun m =>
      FIO.sys (fun st => ((), { st with metaS := ⟨ufWrite st.metaS.file 0 (C.hm m), false⟩ }))
        (fun k st => { st with metaS := ⟨ufWrite st.metaS.file 0 ((C.hm m).take k), st.metaS.dirty⟩ })) F
  else (.ok (), F)

end FullCfg

end Securefs

import Verif.Model.Faults
import Verif.Spec.AtomicFile
import Mathlib.Logic.Function.Basic
/-!
# Threads that use one lite file

Any number of threads, any number of handles of one file of the lite format.  Each call takes the mutex of its handle and then `flock`s the underlying
file; between two system calls anything can happen.  The streams of `Verif/Model/Faults.lean` once more, as sequences of system calls.
-/

namespace Securefs

/-- A computation as the system calls that it makes: it is over, or does something without a system call (drawing random numbers), or makes one and goes
    on with what that returned.  `works` and `fails` are what the call does to the state; see `FIO.sys`
    (member functions of `/repo/sources/streams.cpp`, `/repo/sources/lite_stream.cpp`). -/
inductive SysProg (σ α : Type) where
  | done (r : Res α)
  | silent (upd : σ → σ) (k : σ → SysProg σ α)
  | sys (works : σ → σ) (fails : Nat → σ → σ) (k : σ → SysProg σ α)

namespace SysProg
variable {σ α β : Type}

/-- One thing after the other; an exception ends the run (C++ control flow, `/repo/sources/streams.cpp`). -/
def bind : SysProg σ α → (α → SysProg σ β) → SysProg σ β
  | .done (.ok a), g => g a
  | .done (.error e), _ => .done (.error e)
  | .silent u k, g => .silent u fun s => (k s).bind g
  | .sys w f k, g => .sys w f fun s => (k s).bind g

/-- C++ `return` (`/repo/sources/streams.cpp`, passim). -/
def ret (a : α) : SysProg σ α := .done (.ok a)

/-- A system call that only asks (`/repo/sources/unix.cpp:97-160`). -/
def ask (f : σ → α) : SysProg σ α := .sys id (fun _ s => s) fun s => .done (.ok (f s))

/-- A system call that changes the file (`/repo/sources/unix.cpp:97-160`). -/
def tell (works : σ → σ) (fails : Nat → σ → σ) : SysProg σ Unit := .sys works fails fun _ => .done (.ok ())

/-- The computation in one go, with the failures that are listed: harness of the model (`/repo/sources/unix.cpp:97-160`), ties this file to
    `Verif/Model/Faults.lean`. -/
def toFIO : SysProg σ α → FIO σ α
  | .done r => fun F => (r, F)
  | .silent u k => fun F => (k F.st).toFIO ⟨u F.st, F.plan⟩
  | .sys w f k => fun F =>
    match F.plan with
    | some x :: p => (.error (.vfs x.errno), ⟨f x.part F.st, p⟩)
    | none :: p => (k F.st).toFIO ⟨w F.st, p⟩
    | [] => (k F.st).toFIO ⟨w F.st, []⟩

end SysProg

/-- The virtual functions of a `BlockBasedStream` (`/repo/sources/streams.h:95-130`) as system calls; see `FaultDev`. -/
structure ProgDev (σ : Type) where
  bs : Nat
  sparse : Bool
  size : SysProg σ Nat
  readMulti : Nat → Nat → SysProg σ Bytes
  writeMulti : Nat → Nat → Nat → Bytes → SysProg σ Unit
  adjust : Nat → SysProg σ Unit

namespace ProgDev
variable {σ : Type} (D : ProgDev σ)

/-- `BlockBasedStream::read` (`/repo/sources/streams.cpp:177-200`); see `FaultDev.read`. -/
def read (off len : Nat) : SysProg σ Bytes :=
  if len = 0 then .ret []
  else
    let sb := off / D.bs
    let sr := off % D.bs
    let eb := (off + len) / D.bs
    let er := (off + len) % D.bs
    if sr = 0 ∧ er = 0 then D.readMulti sb eb
    else
      (D.readMulti sb (eb + (if er > 0 then 1 else 0))).bind fun buf =>
        .done (if buf.length > (eb - sb + (if er > 0 then 1 else 0)) * D.bs then .error .outOfBounds
          else if buf.length ≤ sr then .ok []
          else .ok ((buf.drop sr).take (min (buf.length - sr) len)))

/-- First read-modify-write step of `unchecked_write` (`/repo/sources/streams.cpp:233-236`). -/
def rmwHead (sb sr eb : Nat) (buf0 : Bytes) : SysProg σ Bytes :=
  if sr > 0 ∧ sb < eb then
    (D.readMulti sb (sb + 1)).bind fun r => .done (memcpyAt buf0 0 r)
  else .ret buf0

/-- Second read-modify-write step of `unchecked_write` (`/repo/sources/streams.cpp:238-246`). -/
def rmwTail (sb eb er : Nat) (buf1 : Bytes) : SysProg σ (Bytes × Nat) :=
  if er > 0 then
    (D.readMulti eb (eb + 1)).bind fun r =>
      .done ((memcpyAt buf1 ((eb - sb) * D.bs) r).map fun b => (b, max er r.length))
  else .ret (buf1, 0)

/-- `BlockBasedStream::unchecked_write` (`/repo/sources/streams.cpp:215-261`); see `FaultDev.uncheckedWrite`. -/
def uncheckedWrite (inp : WInput) (off len : Nat) : SysProg σ Unit :=
  if len = 0 then .ret ()
  else
    let sb := off / D.bs
    let sr := off % D.bs
    let eb := (off + len) / D.bs
    let er := (off + len) % D.bs
    if sr = 0 ∧ er = 0 then
      match inp with
      | .zeroFill => D.writeMulti sb eb 0 (zeros ((eb - sb) * D.bs))
      | .data d => D.writeMulti sb eb 0 d
    else
      (D.rmwHead sb sr eb (zeros ((eb - sb + (if er > 0 then 1 else 0)) * D.bs))).bind fun buf1 =>
      (D.rmwTail sb eb er buf1).bind fun p =>
      (SysProg.done (BlockDev.rmwBody inp sr p.1)).bind fun buf3 =>
      D.writeMulti sb eb p.2 buf3

/-- `BlockBasedStream::zero_fill(offset, finish)` (`/repo/sources/streams.cpp:263-266`). -/
def zeroFillTo (off fin : Nat) : SysProg σ Unit := D.uncheckedWrite .zeroFill off (fin - off)

/-- The rewriting of the new last block before a shrink (`/repo/sources/streams.cpp:276-285`). -/
def shrinkPrep (new : Nat) : SysProg σ Unit :=
  if new % D.bs > 0 then
    (D.readMulti (new / D.bs) (new / D.bs + 1)).bind fun r =>
    (SysProg.done (memcpyAt (zeros D.bs) 0 r)).bind fun buf =>
    D.writeMulti (new / D.bs) (new / D.bs) (new % D.bs) buf
  else .ret ()

/-- The zero filling before an extension (`/repo/sources/streams.cpp:287-296`). -/
def growPrep (cur new : Nat) : SysProg σ Unit :=
  if D.sparse = false ∨ cur / D.bs = new / D.bs then D.zeroFillTo cur new
  else D.zeroFillTo cur (cur / D.bs * D.bs + D.bs)

/-- `BlockBasedStream::unchecked_resize` (`/repo/sources/streams.cpp:270-298`). -/
def uncheckedResize (cur new : Nat) : SysProg σ Unit :=
  if new = cur then .ret ()
  else if new < cur then (D.shrinkPrep new).bind fun _ => D.adjust new
  else (D.growPrep cur new).bind fun _ => D.adjust new

/-- `BlockBasedStream::resize` (`/repo/sources/streams.cpp:268`). -/
def resize (new : Nat) : SysProg σ Unit := D.size.bind fun cur => D.uncheckedResize cur new

/-- `BlockBasedStream::write` (`/repo/sources/streams.cpp:202-213`). -/
def write (off : Nat) (d : Bytes) : SysProg σ Unit :=
  if d.length = 0 then .ret ()
  else
    D.size.bind fun cur =>
    (if off > cur then D.uncheckedResize cur off else .ret ()).bind fun _ =>
    D.uncheckedWrite (.data d) off d.length

/-- One call of the user (`/repo/sources/lite_format.h:146-166`). -/
def call : Spec.FileCall → SysProg σ Spec.Out
  | .read off len => (D.read off len).bind fun b => .ret (.bytes b)
  | .write off d => (D.write off d).bind fun _ => .ret .done
  | .resize n => (D.resize n).bind fun _ => .ret .done
  | .size => D.size.bind fun n => .ret (.size n)

end ProgDev

namespace LiteCfg
variable (C : LiteCfg) (o : LiteObj)

/-- `write_multi_blocks` (`/repo/sources/lite_stream.cpp:202-246`): one `pwrite`, after the random numbers have been drawn. -/
def writeMultiP (s e r : Nat) (input : Bytes) : SysProg LiteSt Unit :=
  if e > liteMaxBlocks then .done (.error .tooLong)
  else
    let draw (st : LiteSt) := C.writeLoop o (e - s + 1) s ((e - s) * C.ubs + (if r ≤ 0 then 0 else r + C.ivSize + 16)) st.rng input
    .silent (fun st => match draw st with | .ok q => { st with rng := q.2 } | .error _ => st) fun st =>
      match draw st with
      | .error e => .done (.error e)
      | .ok q => .tell (fun st => { st with file := ufWrite st.file (s * C.ubs + o.headerSize) q.1 })
          (fun k st => { st with file := ufWrite st.file (s * C.ubs + o.headerSize) (q.1.take k) })

/-- The overridden virtual functions of the lite stream as system calls (`/repo/sources/lite_stream.h:63-95`,
    `/repo/sources/lite_stream.cpp:146-262`); see `LiteCfg.faultDev`. -/
def progDev : ProgDev LiteSt where
  bs := C.bs
  sparse := C.sparse
  size := .ask (C.size o)
  readMulti s e :=
    if e > liteMaxBlocks then .done (.error .tooLong)
    else
      (SysProg.ask fun st => ufRead st.file (o.headerSize + C.ubs * s) ((e - s) * C.ubs)).bind fun b => .done (C.readLoop o (e - s) s b)
  writeMulti := C.writeMultiP o
  adjust len := .tell (fun st => { st with file := ufResize st.file (C.underlyingSize o len) }) (fun _ st => st)

/-- The constructor as system calls (`/repo/sources/lite_stream.cpp:79-138`); see `openF`. -/
def openP : SysProg LiteSt LiteObj :=
  if C.ivSize < 12 ∨ C.ivSize > 32 then .done (.error .invalidArg)
  else if C.bs < 32 then .done (.error .invalidArg)
  else
    (SysProg.ask fun st => ufRead st.file 0 16).bind fun id =>
    if id.length = 0 then
      .silent (fun st => { st with rng := st.rng + 1 }) fun st =>
      let id := C.rng.draw st.rng 16
      (SysProg.tell (fun st => { st with file := ufWrite st.file 0 id })
        (fun k st => { st with file := ufWrite st.file 0 (id.take k) })).bind fun _ =>
      if C.padding id = 0 then .ret ⟨id, []⟩
      else
        .silent (fun st => { st with rng := st.rng + 1 }) fun st =>
        let pad := (C.rng.draw st.rng (4 + C.padding id)).drop 4
        (SysProg.tell (fun st => { st with file := ufWrite st.file 16 pad })
          (fun k st => { st with file := ufWrite st.file 16 (pad.take k) })).bind fun _ => .ret ⟨id, pad⟩
    else if id.length ≠ 16 then .done (.error .invalidArg)
    else if C.padding id = 0 then .ret ⟨id, []⟩
    else
      (SysProg.ask fun st => ufRead st.file 16 (C.padding id)).bind fun pad =>
      .done (if pad.length ≠ C.padding id then .error .invalidArg else .ok ⟨id, pad⟩)

end LiteCfg

/-! ## Threads -/

/-- What can vary: the volume, whether locking is enabled (`--noflock`, `/repo/sources/lock_enabled.cpp:6-9`), whether system calls may fail. -/
structure ThreadEnv where
  C : LiteCfg
  flock : Bool
  faults : Bool

/-- Where a thread is in one of the callbacks (`/repo/sources/lite_format.cpp:837-846,905-944,1048-1065`, `/repo/sources/lite_format.h:136-142,176-193`).
    `h` is the handle. -/
inductive Phase where
  /-- in no callback -/
  | idle
  /-- about to take the mutex of the handle -/
  | entering (h : Nat) (task : Spec.Task)
  /-- has the mutex; about to `flock` -/
  | locking (h : Nat) (task : Spec.Task)
  /-- has both; between two system calls -/
  | running (h : Nat) (task : Spec.Task) (p : SysProg LiteSt (LiteObj × Spec.Out))
  /-- about to give up the `flock` -/
  | leaving (h : Nat) (r : Res Spec.Out)
  /-- about to give up the mutex -/
  | unlocking (h : Nat) (r : Res Spec.Out)
  /-- about to return -/
  | returning (r : Res Spec.Out)

/-- The process: the underlying file, its `flock` (with the handle whose descriptor holds it), the open handles (`File` objects,
    `/repo/sources/lite_format.h:128-142`), their mutexes (with the thread that holds them), and the threads.
    Harness of the model: handles are numbered, and `next` is the next number. -/
structure Threads where
  st : LiteSt
  flock : Option Nat
  handle : Nat → Option LiteObj
  mutex : Nat → Option Nat
  next : Nat
  phase : Nat → Phase

/-- What the scheduler and the world outside choose: a callback begins; a thread goes on; the system call that a thread makes fails.
    Harness of the model (`/repo/sources/lite_format.cpp:905-944`). -/
inductive Choice where
  | invoke (h : Nat) (call : Spec.FileCall)
  | invokeOpen
  | go
  | fail (x : SysFault)

namespace ThreadEnv
variable (E : ThreadEnv)

/-- The body of a callback, which runs under both locks (`/repo/sources/lite_format.h:141,146-166`). -/
def body (s : Threads) (h : Nat) : Spec.Task → Option (SysProg LiteSt (LiteObj × Spec.Out))
  | .open => some (E.C.openP.bind fun o => .ret (o, .done))
  | .call c => (s.handle h).map fun o => ((E.C.progDev o).call c).bind fun out => .ret (o, out)

/-- The handles after a body is over: a handle that was opened can be used from now on (`/repo/sources/lite_format.h:141`). -/
def settled (s : Threads) (h : Nat) : Res (LiteObj × Spec.Out) → Nat → Option LiteObj
  | .ok q => Function.update s.handle h (some q.1)
  | .error _ => s.handle

/-- One step of thread `t`, with what is seen of it outside; `none` if it cannot step this way, because it waits or the choice makes no sense.
    * Callbacks begin only on open handles.  The object of a new handle is not known to other threads, which is represented by its mutex being taken.
    * `File::lock` (`/repo/sources/lite_format.h:176-188`) takes the mutex, then the `flock`; if that fails the mutex is given up.
      A second `flock` of the same descriptor succeeds.
    * Exceptions leave the body at once, as nothing in it catches them, and `LockGuard` (`/repo/sources/lock_guard.h:9-28`) gives up the locks
      (`/repo/sources/lite_format.h:189-193`).
    Left out: closing of handles, which the kernel does after all calls on them. -/
def step (s : Threads) (t : Nat) : Choice → Option (Threads × Option Spec.Event)
  | .invoke h c =>
    match s.phase t with
    | .idle => if (s.handle h).isSome then
        some ({ s with phase := Function.update s.phase t (.entering h (.call c)) }, some (.invoke t (.call c)))
      else none
    | _ => none
  | .invokeOpen =>
    match s.phase t with
    | .idle => some ({ s with next := s.next + 1, mutex := Function.update s.mutex s.next (some t),
                              phase := Function.update s.phase t (.locking s.next .open) }, some (.invoke t .open))
    | _ => none
  | .go =>
    match s.phase t with
    | .idle => none
    | .entering h task =>
      if s.mutex h = none then
        some ({ s with mutex := Function.update s.mutex h (some t), phase := Function.update s.phase t (.locking h task) }, none)
      else none
    | .locking h task =>
      if E.flock = false ∨ s.flock = none ∨ s.flock = some h then
        (E.body s h task).map fun p =>
          ({ s with flock := if E.flock then some h else s.flock, phase := Function.update s.phase t (.running h task p) }, none)
      else none
    | .running h _ (.done r) =>
      some ({ s with handle := settled s h r, phase := Function.update s.phase t (.leaving h (r.map Prod.snd)) }, none)
    | .running h task (.silent u k) =>
      some ({ s with st := u s.st, phase := Function.update s.phase t (.running h task (k s.st)) }, none)
    | .running h task (.sys w _ k) =>
      some ({ s with st := w s.st, phase := Function.update s.phase t (.running h task (k s.st)) }, none)
    | .leaving h r =>
      some ({ s with flock := if E.flock ∧ s.flock = some h then none else s.flock, phase := Function.update s.phase t (.unlocking h r) }, none)
    | .unlocking h r =>
      some ({ s with mutex := Function.update s.mutex h none, phase := Function.update s.phase t (.returning r) }, none)
    | .returning r => some ({ s with phase := Function.update s.phase t .idle }, some (.ret t r))
  | .fail x =>
    match s.phase t with
    | .locking h _ =>
      if E.flock then some ({ s with phase := Function.update s.phase t (.unlocking h (.error (.vfs x.errno))) }, some (.hit t))
      else none
    | .running h _ (.sys _ f _) =>
      if E.faults then
        some ({ s with st := f x.part s.st, phase := Function.update s.phase t (.leaving h (.error (.vfs x.errno))) }, some (.hit t))
      else none
    | _ => none

/-- A schedule and what is seen of it.  Harness of the model (`/repo/sources/lite_format.cpp:905-944`). -/
def exec (s : Threads) : List (Nat × Choice) → Option (Threads × List Spec.Event)
  | [] => some (s, [])
  | (t, c) :: rest =>
    match E.step s t c with
    | none => none
    | some (s', ev) =>
      match exec s' rest with
      | none => none
      | some (s'', evs) => some (s'', ev.toList ++ evs)

end ThreadEnv

/-- A file before any handle is open and any thread in a callback.  Harness of the model (`/repo/sources/lite_format.h:128-142`). -/
def Threads.fresh (st : LiteSt) : Threads := ⟨st, none, fun _ => none, fun _ => none, 0, fun _ => .idle⟩

end Securefs

import Verif.Model.Basic
/-!
# Serving requests and shutting down

Models `my_fuse_main`, `worker_loop` and the self-pipe of `/repo/sources/fuse2_workaround.cpp` (Linux and macOS without FUSE-T): any number of
worker threads that receive and process requests, the thread that waits for a byte in the pipe, and the main thread that joins them all.

The rules for cancellation are those of POSIX for deferred cancellation: a thread starts with cancellation enabled; a pending request acts
only at a cancellation point and only while it is enabled; `read` and `write` are cancellation points.  If it acts inside of a `noexcept`
function, as `self_pipe_signal_handler` is, the process is terminated (`std::terminate`).  While a thread is being cancelled, further
requests do nothing.

Simplified: what a thread does between two of these points is one step; a cancellation in `fuse_session_receive_buf` takes place before a
request is taken from the kernel; failures of the setup functions and signals before the handlers are installed are not represented.
-/

namespace Securefs

/-- Where a worker is (`/repo/sources/fuse2_workaround.cpp:65-98`). -/
inductive SrvPc where
  /-- before the loop (65-70) -/
  | start
  /-- at the condition of the loop (72) -/
  | check
  /-- in `fuse_session_receive_buf` (80), with cancellation enabled -/
  | recv
  /-- in `fuse_session_process_buf` (96) -/
  | handling
  /-- has left the loop, before the deferred call (70) -/
  | leaving
  /-- is being cancelled in 80, before the deferred call (70) -/
  | unwinding
  /-- the thread has ended -/
  | ended
  deriving DecidableEq

/-- A worker: its place, whether cancellation is enabled, whether it was requested, and (only for the statements) how many requests it has
    received and how many it has processed to the end.
    (`/repo/sources/fuse2_workaround.cpp:65-98`). -/
structure SrvWorker where
  pc : SrvPc
  enabled : Bool
  pending : Bool
  got : Nat
  answered : Nat
  deriving DecidableEq

/-- Where the waiting thread is (`/repo/sources/fuse2_workaround.cpp:180-204`). -/
inductive WaiterPc where
  /-- in `read` (186) -/
  | reading
  /-- before `fuse_session_exit` (198) -/
  | exiting
  /-- will cancel this worker next (200-203) -/
  | cancelling (k : Nat)
  | ended
  deriving DecidableEq

/-- The process.  `pipe` is the number of bytes in the pipe, `exited` is what `fuse_session_exited` answers; `failures` (only for the
    statements) are the failures of receiving, the last one first.
    (`/repo/sources/fuse2_workaround.cpp:42-43,160-212`). -/
structure SrvSys where
  n : Nat
  w : Nat → SrvWorker
  waiter : WaiterPc
  pipe : Nat
  exited : Bool
  errorCode : Int
  failures : List Int
  aborted : Bool

/-- How `fuse_session_receive_buf` returns (`/repo/sources/fuse2_workaround.cpp:80-95`): with a request (positive), `-EINTR`, another negative
    number, or zero. -/
inductive RecvRes where
  | request
  | intr
  | fail (code : Int)
  | eof
  deriving DecidableEq

/-- What can happen: the steps of `worker_loop` and `my_fuse_main` (`/repo/sources/fuse2_workaround.cpp:42-212`). -/
inductive SrvEv where
  /-- a worker starts (`/repo/sources/fuse2_workaround.cpp:67-70`) -/
  | begin (i : Nat)
  /-- a worker tests whether to go on (`/repo/sources/fuse2_workaround.cpp:72-79`) -/
  | test (i : Nat)
  /-- receiving returns (`/repo/sources/fuse2_workaround.cpp:80-95`) -/
  | recv (i : Nat) (r : RecvRes)
  /-- a pending cancellation acts (`/repo/sources/fuse2_workaround.cpp:80`) -/
  | cancelled (i : Nat)
  /-- a request is processed (`/repo/sources/fuse2_workaround.cpp:96`); it may have been the one to unmount
      (`/repo/sources/fuse2_workaround.cpp:126`) -/
  | handled (i : Nat) (unmount : Bool)
  /-- the deferred call (`/repo/sources/fuse2_workaround.cpp:70`) -/
  | leave (i : Nat)
  /-- a signal, or the idle timer (`/repo/sources/fuse2_workaround.cpp:45-52,126`) -/
  | signal
  /-- the waiting thread reads a byte (`/repo/sources/fuse2_workaround.cpp:186-189`) -/
  | wake
  /-- `fuse_session_exit` (`/repo/sources/fuse2_workaround.cpp:198`) -/
  | exit
  /-- `pthread_cancel`, or the end of that loop (`/repo/sources/fuse2_workaround.cpp:200-203`) -/
  | cancel
  deriving DecidableEq

namespace SrvSys

/-- The start: all workers are created (`/repo/sources/fuse2_workaround.cpp:142-174`). -/
def init (n : Nat) : SrvSys :=
  ⟨n, fun _ => ⟨.start, true, false, 0, 0⟩, .reading, 0, false, 0, [], false⟩

/-- The number of workers (`/repo/sources/fuse2_workaround.cpp:170`); `cores` is what `hardware_concurrency` answers, which is allowed to be
    zero. -/
def workerCount (multithreaded : Bool) (cores : Nat) : Nat := if multithreaded then cores else 1

/-- A worker in another state (bookkeeping of the model, see `/repo/sources/fuse2_workaround.cpp:65-98`). -/
def put (s : SrvSys) (i : Nat) (x : SrvWorker) : SrvSys := { s with w := fun j => if j = i then x else s.w j }

/-- How many bytes a pipe holds on Linux (used by `/repo/sources/fuse2_workaround.cpp:50`). -/
def pipeSize : Nat := 65536

/-- `self_pipe_signal_handler` (`/repo/sources/fuse2_workaround.cpp:45-52`): the write end does not block (146), a byte that does not fit is
    dropped. -/
def note (s : SrvSys) : SrvSys := { s with pipe := if s.pipe < pipeSize then s.pipe + 1 else s.pipe }

/-- One step, if it is possible (`/repo/sources/fuse2_workaround.cpp:45-204`). -/
def step (s : SrvSys) (e : SrvEv) : Option SrvSys :=
  if s.aborted then none else
  match e with
  | .begin i => if i < s.n ∧ (s.w i).pc = .start then some (s.put i { s.w i with pc := .check }) else none
  | .test i =>
    if i < s.n ∧ (s.w i).pc = .check then
      if s.exited then some (s.put i { s.w i with pc := .leaving })
      else some (s.put i { s.w i with pc := .recv, enabled := true })
    else none
  | .recv i r =>
    if i < s.n ∧ (s.w i).pc = .recv then
      match r with
      | .request => some (s.put i { s.w i with pc := .handling, enabled := false, got := (s.w i).got + 1 })
      | .intr => some (s.put i { s.w i with pc := .check, enabled := false })
      | .fail c =>
        if c < 0 then
          some { s.put i { s.w i with pc := .leaving, enabled := false } with errorCode := c, failures := c :: s.failures }
        else none
      | .eof => some (s.put i { s.w i with pc := .leaving, enabled := false })
    else none
  | .cancelled i =>
    if i < s.n ∧ (s.w i).pc = .recv ∧ (s.w i).enabled ∧ (s.w i).pending then some (s.put i { s.w i with pc := .unwinding }) else none
  | .handled i unmount =>
    if i < s.n ∧ (s.w i).pc = .handling then
      let s' := s.put i { s.w i with pc := .check, answered := (s.w i).answered + 1 }
      some (if unmount then s'.note else s')
    else none
  | .leave i =>
    if i < s.n ∧ (s.w i).pc = .leaving then
      if (s.w i).enabled ∧ (s.w i).pending then some { s with aborted := true }
      else some (s.put i { s.w i with pc := .ended }).note
    else if i < s.n ∧ (s.w i).pc = .unwinding then some (s.put i { s.w i with pc := .ended }).note
    else none
  | .signal => some s.note
  | .wake => if s.waiter = .reading ∧ 0 < s.pipe then some { s with waiter := .exiting, pipe := s.pipe - 1 } else none
  | .exit => if s.waiter = .exiting then some { s with waiter := .cancelling 0, exited := true } else none
  | .cancel =>
    match s.waiter with
    | .cancelling k =>
      if k < s.n then some { s.put k { s.w k with pending := true } with waiter := .cancelling (k + 1) }
      else some { s with waiter := .ended }
    | _ => none

/-- Several steps (`/repo/sources/fuse2_workaround.cpp:45-204`). -/
def run (s : SrvSys) : List SrvEv → Option SrvSys
  | [] => some s
  | e :: es =>
    match s.step e with
    | none => none
    | some s' => s'.run es

end SrvSys

end Securefs

import Verif.Model.Basic
/-!
# Locking one or two files

Models `FileLockGuard`, `SpinFileLockGuard` and `DoubleFileLockGuard` (`/repo/sources/files.h:559-627`) over the mutex of a file
(`/repo/sources/files.h:47,181-183`), for any number of threads.  `std::lock` is modelled the way the standard libraries write it: wait for one
mutex with nothing held, try the other, and on failure unlock the first and start again, with the other mutex first (`rotate`, libc++ and newer
libstdc++) or with the same (older libstdc++).

Every operation on a mutex is one step.  Simplified: a thread takes one guard at a time, as the callers do
(`/repo/sources/full_format.cpp:296,336` for pairs); what it does under the guard is not represented.
-/

namespace Securefs

/-- A guard a thread constructs.
    (`/repo/sources/files.h:559-627`). -/
inductive Guard where
  /-- `FileLockGuard(f)` (`/repo/sources/files.h:559-573`) -/
  | one (f : Nat)
  /-- `SpinFileLockGuard(f)` (`/repo/sources/files.h:575-598`) -/
  | spin (f : Nat)
  /-- `DoubleFileLockGuard(f, g)` (`/repo/sources/files.h:600-626`) -/
  | two (f g : Nat)
  deriving DecidableEq

/-- Where a thread is.
    (`/repo/sources/files.h:559-627`). -/
inductive GuardPc where
  /-- no guard -/
  | idle
  /-- waits for the mutex of one file, with nothing locked (`/repo/sources/files.h:569,615`) -/
  | want (f : Nat)
  /-- will try the mutex, so many more times (`/repo/sources/files.h:587-595`) -/
  | spinning (f left : Nat)
  /-- inside `std::lock`, waits for `a` with nothing locked, will then try `b` (`/repo/sources/files.h:619`) -/
  | want2 (a b : Nat)
  /-- inside `std::lock`, has locked `a`, will try `b` (`/repo/sources/files.h:619`) -/
  | try2 (a b : Nat)
  /-- inside `std::lock`, has locked `a` and failed to lock `b`, will unlock `a` (`/repo/sources/files.h:619`) -/
  | back2 (a b : Nat)
  /-- the guard is constructed; the destructor unlocks these, the first first (`/repo/sources/files.h:625`: `m2` before `m1`) -/
  | holding (fs : List Nat)
  deriving DecidableEq

/-- The owners of the mutexes and the threads.
    (`/repo/sources/files.h:47,181-183`). -/
structure GuardSys where
  owner : Nat → Option Nat
  pc : Nat → GuardPc

namespace GuardSys

/-- A thread at another place (bookkeeping of the model, see `/repo/sources/files.h:559-627`). -/
def setPc (s : GuardSys) (t : Nat) (pc : GuardPc) : GuardSys := { s with pc := fun u => if u = t then pc else s.pc u }

/-- A mutex with another owner (`/repo/sources/files.h:181-183`). -/
def setOwner (s : GuardSys) (f : Nat) (o : Option Nat) : GuardSys := { s with owner := fun g => if g = f then o else s.owner g }

/-- A thread begins to construct a guard (`/repo/sources/files.h:569,586,612-619`): a file locked together with itself is locked once. -/
def start (s : GuardSys) (t : Nat) (g : Guard) : GuardSys :=
  match s.pc t with
  | .idle =>
    match g with
    | .one f => s.setPc t (.want f)
    | .spin f => s.setPc t (.spinning f 100)
    | .two f g => if f = g then s.setPc t (.want f) else s.setPc t (.want2 f g)
  | _ => s

/-- The next operation of a thread; `none` if it has to wait.  A thread without guard has no next operation
    (`/repo/sources/files.h:559-627`). -/
def step (rotate : Bool) (s : GuardSys) (t : Nat) : Option GuardSys :=
  match s.pc t with
  | .idle => none
  | .want f =>
    match s.owner f with
    | none => some ((s.setOwner f (some t)).setPc t (.holding [f]))
    | some _ => none
  | .spinning f left =>
    match left with
    | 0 => some (s.setPc t .idle)
    | left + 1 =>
      match s.owner f with
      | none => some ((s.setOwner f (some t)).setPc t (.holding [f]))
      | some _ => some (s.setPc t (.spinning f left))
  | .want2 a b =>
    match s.owner a with
    | none => some ((s.setOwner a (some t)).setPc t (.try2 a b))
    | some _ => none
  | .try2 a b =>
    match s.owner b with
    | none => some ((s.setOwner b (some t)).setPc t (.holding [b, a]))
    | some _ => some (s.setPc t (.back2 a b))
  | .back2 a b => some ((s.setOwner a none).setPc t (if rotate then .want2 b a else .want2 a b))
  | .holding [] => some (s.setPc t .idle)
  | .holding (f :: rest) => some ((s.setOwner f none).setPc t (.holding rest))

/-- What happens: a thread begins a guard or makes its next operation.
    (`/repo/sources/files.h:559-627`). -/
inductive Ev where
  | start (t : Nat) (g : Guard)
  | step (t : Nat)
  deriving DecidableEq

/-- One event; a thread that has to wait does nothing (`/repo/sources/files.h:559-627`). -/
def apply (rotate : Bool) (s : GuardSys) : Ev → GuardSys
  | .start t g => s.start t g
  | .step t => (s.step rotate t).getD s

/-- A history (`/repo/sources/files.h:559-627`). -/
def run (rotate : Bool) (s : GuardSys) (evs : List Ev) : GuardSys := evs.foldl (apply rotate) s

/-- Before any thread has begun (`/repo/sources/files.h:47`). -/
def init : GuardSys := { owner := fun _ => none, pc := fun _ => .idle }

end GuardSys

end Securefs

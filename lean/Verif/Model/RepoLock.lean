import Verif.Model.Basic
/-!
# The lock file of a repository

Models `RepoLocker` (`/repo/sources/full_format.h:19-52`, `/repo/sources/full_format.cpp:665-705`), `OSService::is_process_running`
(`/repo/sources/unix.cpp:507-533`), and where `make_full_format_fuse_high_level_ops` (`/repo/sources/internal_mount.cpp:181-205`) and the members
of `FuseHighLevelOps` (`/repo/sources/full_format.h:148-156`) place it.

Every system call is one step.  Simplified: read-only mounts, which do not look at the lock file, are not represented; reading the lock file
and asking whether the process exists are one step; processes are numbered by their identifiers.
-/

namespace Securefs

/-! ## Numbers -/

/-- The decimal digits of a number with at most `fuel` of them, before `acc`.
    (for `absl::StrCat`, `/repo/sources/full_format.cpp:668`). -/
def decimalAux : (fuel : Nat) → Nat → Bytes → Bytes
  | 0, _, acc => acc
  | fuel + 1, n, acc =>
    if n < 10 then UInt8.ofNat (48 + n) :: acc else decimalAux fuel (n / 10) (UInt8.ofNat (48 + n % 10) :: acc)

/-- `absl::StrCat(pid)` (`/repo/sources/full_format.cpp:668`) for a positive process identifier, which has at most ten digits. -/
def decimal (n : Nat) : Bytes := decimalAux 10 n []

/-- `absl::ascii_isspace`, used by `absl::SimpleAtoi` (`/repo/sources/full_format.cpp:688`). -/
def isSpace (c : UInt8) : Bool := c == 32 || (9 ≤ c && c ≤ 13)

/-- The loop of `absl::SimpleAtoi` over the digits (`/repo/sources/full_format.cpp:688`). -/
def parseDigits : Bytes → Nat → Option Nat
  | [], acc => some acc
  | c :: rest, acc => if 48 ≤ c ∧ c ≤ 57 then parseDigits rest (acc * 10 + (c.toNat - 48)) else none

/-- `absl::SimpleAtoi(text, &pid)` with a 32-bit `pid_t` (`/repo/sources/full_format.cpp:687-688`): spaces at both ends are ignored, there may be
    a sign, there must be a digit, and the value must fit. -/
def simpleAtoi (text : Bytes) : Option Int :=
  let text := ((text.dropWhile isSpace).reverse.dropWhile isSpace).reverse
  match text with
  | [] => none
  | c :: rest =>
    let neg := c == 45
    let digits := if c = 45 ∨ c = 43 then rest else c :: rest
    match digits with
    | [] => none
    | _ :: _ =>
      match parseDigits digits 0 with
      | none => none
      | some n =>
        if neg then (if n ≤ 2 ^ 31 then some (-(n : Int)) else none) else (if n < 2 ^ 31 then some (n : Int) else none)

/-! ## Processes and the lock file -/

/-- Where a process is.
    (`/repo/sources/full_format.cpp:665-705`). -/
inductive LockPc where
  /-- not mounted -/
  | idle
  /-- `open(O_EXCL)` has failed with `EEXIST` (`/repo/sources/full_format.cpp:679-685`) -/
  | present
  /-- the existing file has been opened (`:686`) -/
  | reading (ino : Nat)
  /-- `open_lock_stream_checked` has returned (`:667`) -/
  | opened (ino : Nat)
  /-- the file has been truncated (`:669`) -/
  | truncated (ino : Nat)
  /-- the constructor has returned: the volume is mounted -/
  | mounted (ino : Nat)
  /-- the destructor of `locker_` has closed the file (`/repo/sources/full_format.h:40`) -/
  | closed
  /-- the lock file has been removed (`/repo/sources/full_format.h:41`); the file table, a member before `locker_`, is destroyed after it, and
      writes what has not been written -/
  | flushing
  /-- the constructor has thrown -/
  | refused
  deriving DecidableEq

/-- The files that have been called `.securefs.lock`, which one is now, and the processes.
    (`/repo/sources/full_format.h:19-52`). -/
structure LockSys where
  inodes : List Bytes
  name : Option Nat
  pc : Nat → LockPc
  running : Nat → Bool

/-- `OSService::is_process_running` (`/repo/sources/unix.cpp:507-533`). -/
def isProcessRunning (running : Nat → Bool) (pid : Int) : Bool :=
  if pid ≤ 0 then decide (pid = 0) else running pid.toNat

/-- What happens.
    (`/repo/sources/full_format.cpp:665-705`, `/repo/sources/full_format.h:34-42`). -/
inductive LockEv where
  /-- a process starts -/
  | spawn (p : Nat)
  /-- a process ends without running destructors -/
  | die (p : Nat)
  /-- a process that mounts makes its next system call -/
  | step (p : Nat)
  /-- a process that unmounts makes its next system call -/
  | leave (p : Nat)
  /-- the next system call of a process that mounts fails -/
  | fail (p : Nat)
  /-- a mounted process begins to unmount -/
  | unmount (p : Nat)
  deriving DecidableEq

namespace LockSys

/-- The process at another place.
    (bookkeeping for `/repo/sources/full_format.cpp:665-705`). -/
def setPc (s : LockSys) (p : Nat) (pc : LockPc) : LockSys := { s with pc := fun q => if q = p then pc else s.pc q }

/-- The next system call of a process that mounts (`/repo/sources/full_format.cpp:665-705`, `/repo/sources/full_format.h:24-32`). -/
def stepProc (s : LockSys) (p : Nat) : LockSys :=
  match s.pc p with
  | .idle =>
    match s.name with
    | none => { s.setPc p (.opened s.inodes.length) with inodes := s.inodes ++ [[]], name := some s.inodes.length }
    | some _ => s.setPc p .present
  | .present =>
    match s.name with
    | none => s.setPc p .refused
    | some i => s.setPc p (.reading i)
  | .reading i =>
    match s.inodes[i]? with
    | none => s.setPc p .refused
    | some content =>
      match simpleAtoi content with
      | some pid => if isProcessRunning s.running pid then s.setPc p .refused else s.setPc p (.opened i)
      | none => s.setPc p (.opened i)
  | .opened i => { s.setPc p (.truncated i) with inodes := s.inodes.set i [] }
  | .truncated i => { s.setPc p (.mounted i) with inodes := s.inodes.set i (decimal p) }
  | _ => s

/-- The next system call of a process that unmounts (`/repo/sources/full_format.h:34-42`, then the destructor of the file table, see
    `/repo/sources/full_format.h:148-156` for the order of the members). -/
def stepLeave (s : LockSys) (p : Nat) : LockSys :=
  match s.pc p with
  | .closed => { s.setPc p .flushing with name := none }
  | .flushing => s.setPc p .idle
  | _ => s

/-- One event.  Only processes that exist do anything.
    (`/repo/sources/full_format.cpp:665-705`, `/repo/sources/full_format.h:34-42`). -/
def step (s : LockSys) : LockEv → LockSys
  | .spawn p => if s.running p then s else { s.setPc p .idle with running := fun q => if q = p then true else s.running q }
  | .die p => { s.setPc p .idle with running := fun q => if q = p then false else s.running q }
  | .step p => if s.running p then s.stepProc p else s
  | .leave p => if s.running p then s.stepLeave p else s
  | .fail p =>
    if s.running p then
      match s.pc p with
      | .mounted _ | .closed | .flushing => s
      | _ => s.setPc p .refused
    else s
  | .unmount p =>
    if s.running p then
      match s.pc p with
      | .mounted _ => s.setPc p .closed
      | _ => s
    else s

/-- A history.
    (`/repo/sources/full_format.cpp:665-705`, `/repo/sources/full_format.h:34-42`). -/
def run (s : LockSys) (evs : List LockEv) : LockSys := evs.foldl step s

end LockSys

end Securefs

import Verif.Model.Names
/-!
# The locks of the lite format

Which locks the callbacks of the lite format take and give back, in which order (`/repo/sources/lite_format.cpp`, `/repo/sources/lite_format.h`,
`/repo/sources/lite_long_name_lookup_table.h`), and threads that do so at once.  There are five kinds: the mutex of a handle of a directory
(`/repo/sources/lite_format.h:117`), the mutex of a table of long names (`/repo/sources/sqlite_helper.h:26-38`), the mutex of a handle of a file
(`/repo/sources/lite_format.h:134`), the lock that `flock` takes on a file (`/repo/sources/unix.cpp:67-92`), and the lock of the log
(`/repo/sources/logger.cpp:66,106`).

A call is the list of what it does to locks, for everything that it may meet on its way, which is given as data (`LiteCall`).

Simplified: waiting for a database ends after two seconds (`/repo/sources/lite_long_name_lookup_table.cpp:51,127`), so it is not waiting here; C94 is about it.
`flock` on two open files of one inode excludes them; `LOCK_UN` does not fail.  The tracer, the idle timer and the thread-local objects lock their own mutexes
before or after, not within these calls.
-/

namespace Securefs.Ll

/-- The locks (`/repo/sources/lite_format.h:117,134`, `/repo/sources/sqlite_helper.h:38`, `/repo/sources/unix.cpp:73`, `/repo/sources/logger.cpp:66`). -/
inductive Mu where
  /-- `Directory::m_lock` of a handle (`/repo/sources/lite_format.h:117`) -/
  | dir (h : Nat)
  /-- the mutex of the table that a handle of a directory keeps (`/repo/sources/lite_format.cpp:704-716`) -/
  | listed (h : Nat)
  /-- the mutex of a table that a call has opened (`/repo/sources/lite_format.cpp:1032-1034,1210-1212`) -/
  | called (n : Nat)
  /-- `File::m_lock` of a handle (`/repo/sources/lite_format.h:134`) -/
  | file (h : Nat)
  /-- `flock` on the backing file (`/repo/sources/unix.cpp:73`) -/
  | flock (ino : Nat)
  /-- the lock of the stream to which the log goes (`/repo/sources/logger.cpp:66`) -/
  | log
  deriving DecidableEq

/-- What a thread does next (`/repo/sources/lock_guard.h:8-29`): it waits for the lock and takes it, uses what the lock protects, or gives it back. -/
inductive Act where
  | lock (m : Mu)
  | use (m : Mu)
  | unlock (m : Mu)
  deriving DecidableEq

/-- A line of the log (`/repo/sources/logger.cpp:57-107`). -/
def logLine : List Act := [.lock .log, .use .log, .unlock .log]

/-- How `UnixFileStream::lock` ends (`/repo/sources/unix.cpp:67-78`): locking is switched off, `flock` fails and it throws, or the lock is taken. -/
inductive Fl where
  | off
  | refused
  | got
  deriving DecidableEq

/-- A block with the lock of a backing file (`/repo/sources/lite_format.h:140`, `/repo/sources/lite_format.cpp:816-819`); if `lock` throws, nothing happens. -/
def withFlock (ino : Nat) (inner : List Act) : Fl → List Act
  | .off => inner
  | .refused => []
  | .got => [.lock (.flock ino), .use (.flock ino)] ++ inner ++ [.unlock (.flock ino)]

/-- A block with `LockGuard<File>` (`/repo/sources/lite_format.h:176-193`): the mutex, then the lock of the backing file; if that throws, the mutex is given
    back. -/
def withFile (h ino : Nat) (fl : Fl) : List Act := [.lock (.file h)] ++ withFlock ino [.use (.file h)] fl ++ [.unlock (.file h)]

/-- How a transaction goes (`/repo/sources/lite_long_name_lookup_table.cpp:99-117`): whether `begin` succeeds, and whether `commit` or `rollback` does. -/
structure Tx where
  begun : Bool := true
  ended : Bool := true
  deriving DecidableEq

/-- A block with `LockGuard` of a table (`/repo/sources/lite_long_name_lookup_table.h:20-30`): if `begin` throws, the guard does not exist and the mutex stays
    locked. -/
def withTable (m : Mu) (t : Tx) (inner : List Act) : List Act :=
  if t.begun then [.lock m, .use m] ++ inner ++ (if t.ended then [] else logLine) ++ [.unlock m] else [.lock m]

/-- What `DirectoryImpl::next` meets (`/repo/sources/lite_format.cpp:641-698`). -/
inductive Met where
  /-- a name that needs no table -/
  | short
  /-- a name that is skipped with a warning, also because the table cannot be opened -/
  | skipped
  /-- a long name, and whether it is found and decrypted -/
  | long (t : Tx) (found : Bool)
  deriving DecidableEq

/-- One step of the listing of handle `h` (`/repo/sources/lite_format.cpp:641-698`). -/
def metActs (h : Nat) : Met → List Act
  | .short => []
  | .skipped => logLine
  | .long t found => withTable (.listed h) t [] ++ (if t.begun ∧ found then [] else logLine)

/-- The callbacks, with what they meet (`/repo/sources/lite_format.cpp:762-1186`). -/
inductive LiteCall where
  /-- calls that lock nothing: `vstatfs`, `vopendir`, `vrelease`, `vchmod`, `vreadlink`, `vutimens` and those on extended attributes, and calls on names
      that are not long (`/repo/sources/lite_format.cpp:762-767,847-861,900-904,971-983,1002-1018,1066-1152`) -/
  | plain
  /-- `vgetattr` if the size needs the header (`/repo/sources/lite_format.cpp:803-836`); `failed`: an exception, which is logged -/
  | getattr (ino : Nat) (fl : Fl) (failed : Bool)
  /-- `vread`, `vwrite`, `vflush`, `vftruncate`, `vfsync`, `vfgetattr` (`/repo/sources/lite_format.cpp:837-846,905-944,1048-1058`) -/
  | onFile (h ino : Nat) (fl : Fl)
  /-- `vfgetattr` of a directory (`/repo/sources/lite_format.cpp:837-846`) -/
  | onDir (h : Nat)
  /-- `vreaddir` (`/repo/sources/lite_format.cpp:862-886`) -/
  | readdir (h : Nat) (met : List Met)
  /-- `vunlink`, `vmkdir`, `vrmdir`, `vsymlink`, `vlink`, `vrename` of long names (`/repo/sources/lite_format.cpp:945-970,984-1001,1019-1047,1192-1226`) -/
  | names (n : Nat) (t : Tx)
  /-- `vopen`, `vcreate` (`/repo/sources/lite_format.cpp:887-899,1153-1186`): the table if the name is long and is created, the file and its lock if it can be
      opened, whether it is decrypted, and the lock if it is truncated -/
  | open (table : Option (Nat × Tx)) (file : Option (Nat × Fl)) (h : Nat) (kept : Bool) (trunc : Option Fl)
  /-- `vtruncate` (`/repo/sources/lite_format.cpp:1059-1065`) -/
  | truncate (file : Option (Nat × Fl)) (h : Nat) (kept : Bool) (fl : Fl)

/-- The construction of a `File` (`/repo/sources/lite_format.h:137-142`, `/repo/sources/lite_format.cpp:1174-1178`). -/
def openFile : Option (Nat × Fl) → List Act
  | none => []
  | some (ino, fl) => withFlock ino [] fl

/-- There is a `File` in the end (`/repo/sources/lite_format.cpp:1174-1178`): the inode, if nothing has thrown. -/
def openedIno (file : Option (Nat × Fl)) (kept : Bool) : Option Nat :=
  match file with
  | some (ino, fl) => if fl ≠ .refused ∧ kept then some ino else none
  | none => none

/-- `FuseHighLevelOps::open` (`/repo/sources/lite_format.cpp:1153-1186,1192-1226`). -/
def openActs (table : Option (Nat × Tx)) (file : Option (Nat × Fl)) (h : Nat) (kept : Bool) (trunc : Option Fl) : List Act :=
  let body := match table with
    | none => openFile file
    | some (n, t) => withTable (.called n) t (openFile file)
  let begun := match table with
    | none => true
    | some (_, t) => t.begun
  body ++
    match trunc, openedIno file kept with
    | some fl, some ino => if begun then withFile h ino fl else []
    | _, _ => []

/-- What a callback does to the locks, to its end (`/repo/sources/lite_format.cpp:762-1186`). -/
def LiteCall.acts : LiteCall → List Act
  | .plain => []
  | .getattr ino fl failed => withFlock ino [] fl ++ (if failed then logLine else [])
  | .onFile h ino fl => withFile h ino fl
  | .onDir h => [.lock (.dir h), .use (.dir h), .unlock (.dir h)]
  | .readdir h met => [.lock (.dir h), .use (.dir h)] ++ met.flatMap (metActs h) ++ [.unlock (.dir h)]
  | .names n t => withTable (.called n) t []
  | .open table file h kept trunc => openActs table file h kept trunc
  | .truncate file h kept fl => openActs none file h kept (some fl)

/-- The owners of the locks, and what each call that has begun has still to do; every call is a thread of its own
    (`/repo/sources/lock_guard.h:8-29`). -/
structure LockSys where
  owner : Mu → Option Nat
  threads : List (List Act)

namespace LockSys

/-- A lock with another owner (`/repo/sources/lite_format.h:120-121`). -/
def setOwner (s : LockSys) (m : Mu) (o : Option Nat) : LockSys := { s with owner := fun x => if x = m then o else s.owner x }

/-- The next thing that thread `t` does; `none` if it has nothing left, or has to wait, or uses or unlocks what it has not locked
    (`/repo/sources/lock_guard.h:8-29`). -/
def step (s : LockSys) (t : Nat) : Option LockSys :=
  match s.threads[t]? with
  | none => none
  | some [] => none
  | some (.lock m :: r) => if s.owner m = none then some { s.setOwner m (some t) with threads := s.threads.set t r } else none
  | some (.use m :: r) => if s.owner m = some t then some { s with threads := s.threads.set t r } else none
  | some (.unlock m :: r) => if s.owner m = some t then some { s.setOwner m none with threads := s.threads.set t r } else none

/-- What happens: a call begins, or a thread does its next thing (`/repo/sources/lite_format.cpp:762-1186`). -/
inductive Ev where
  | begin (c : LiteCall)
  | step (t : Nat)

/-- One event; a thread that has to wait does nothing (`/repo/sources/lite_format.cpp:762-1186`). -/
def apply (s : LockSys) : Ev → LockSys
  | .begin c => { s with threads := s.threads ++ [c.acts] }
  | .step t => (s.step t).getD s

/-- A history (`/repo/sources/lite_format.cpp:762-1186`). -/
def run (s : LockSys) (evs : List Ev) : LockSys := evs.foldl apply s

/-- Before any call (`/repo/sources/lite_format.h:293-311`). -/
def init : LockSys := ⟨fun _ => none, []⟩

end LockSys

end Securefs.Ll

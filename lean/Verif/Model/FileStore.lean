import Verif.Model.FileTable
/-!
# Where the full format keeps its files

Models `FileTableIOVersion1` and `FileTableIOVersion2` of `/repo/sources/file_table_v2.cpp` over the directory of the
host that holds the volume, as sequences of system calls of threads, and the locks of `FileTable` around them.
-/

namespace Securefs

/-! ## The directory of the host -/

/-- What a name in the host stands for: a directory, or a file with the number of its contents.  Other kinds of files
    are not used by the code (`/repo/sources/unix.cpp:326-385`). -/
inductive HostEnt where
  | dir
  | file (node : Nat)
  deriving DecidableEq

/-- The directory of the volume: every path in it, as its components, and the number of the next new file.  The
    directory itself, the path without components, always exists (`m_dir_fd`, `/repo/sources/unix.cpp:320-323`).
    Simplification: other programs do not change it, and it has no hard links. -/
structure HostDir where
  ents : List (List Bytes × HostEnt)
  next : Nat

/-- A system call of `OSService` (`/repo/sources/unix.cpp:326-385`).  `mkdir` is that of `ensure_directory`, `openNew`
    has `O_CREAT | O_EXCL`, `openOld` neither. -/
inductive HostCall where
  | mkdir (p : List Bytes)
  | openNew (p : List Bytes)
  | openOld (p : List Bytes)
  | rm (p : List Bytes)
  | rmdir (p : List Bytes)

/-- The path a call is about (`/repo/sources/unix.cpp:326-385`). -/
def HostCall.path : HostCall → List Bytes
  | .mkdir p | .openNew p | .openOld p | .rm p | .rmdir p => p

namespace HostDir

/-- What a path stands for (bookkeeping for `/repo/sources/unix.cpp:326-385`). -/
def look (h : HostDir) (p : List Bytes) : Option HostEnt := h.ents.lookup p

/-- The kernel's resolution of the directories of a path: `ENOENT` (2) or `ENOTDIR` (20) at the first that is not one
    (POSIX, for the calls of `/repo/sources/unix.cpp:326-385`). -/
def walkDirs (h : HostDir) : (done rest : List Bytes) → Except Nat Unit
  | _, [] => .ok ()
  | done, c :: cs =>
    match h.look (done ++ [c]) with
    | none => .error 2
    | some (.file _) => .error 20
    | some .dir => h.walkDirs (done ++ [c]) cs

/-- Has a directory no entries?  (POSIX `rmdir`, for `/repo/sources/unix.cpp:382-385`.) -/
def isEmptyDir (h : HostDir) (p : List Bytes) : Bool := h.ents.all fun e => e.1.isEmpty || e.1.dropLast != p

/-- The calls (POSIX `mkdirat`, `openat`, `unlinkat` for `/repo/sources/unix.cpp:326-385`): the new directory and the number
    of the opened file, if the call opens one, or the error.  Numbers of errors: `ENOENT` 2, `EEXIST` 17, `ENOTDIR` 20, `EISDIR` 21,
    `ENOTEMPTY` 39.  Simplification: a directory cannot be opened with `openOld` even for reading only. -/
def call (h : HostDir) (c : HostCall) : Except Nat (HostDir × Option Nat) :=
  match h.walkDirs [] c.path.dropLast with
  | .error e => .error e
  | .ok _ =>
    match c with
    | .mkdir p =>
      match h.look p with
      | some _ => .error 17
      | none => .ok ({ h with ents := (p, .dir) :: h.ents }, none)
    | .openNew p =>
      match h.look p with
      | some _ => .error 17
      | none => .ok ({ ents := (p, .file h.next) :: h.ents, next := h.next + 1 }, some h.next)
    | .openOld p =>
      match h.look p with
      | none => .error 2
      | some .dir => .error 21
      | some (.file n) => .ok (h, some n)
    | .rm p =>
      match h.look p with
      | none => .error 2
      | some .dir => .error 21
      | some (.file _) => .ok ({ h with ents := h.ents.filter fun e => e.1 != p }, none)
    | .rmdir p =>
      match h.look p with
      | none => .error 2
      | some (.file _) => .error 20
      | some .dir =>
        if h.isEmptyDir p then .ok ({ h with ents := h.ents.filter fun e => e.1 != p }, none) else .error 39

/-- A call that may fail for a reason outside the model (`/repo/sources/unix.cpp:326-385`). -/
def attempt (h : HostDir) (fault : Option Nat) (c : HostCall) : Except Nat (HostDir × Option Nat) :=
  match fault with
  | some e => .error e
  | none => h.call c

end HostDir

/-! ## The operations -/

/-- The paths of a file: the directories, the data file, the metadata file, and the directories that `unlink` tries to
    remove (`/repo/sources/file_table_v2.cpp:228-242,271-279,288-296,324-331`). -/
structure StorePaths where
  dirs : List (List Bytes)
  file : List Bytes
  metaFile : List Bytes
  removed : List (List Bytes)

/-- `calculate_paths` of both layouts (`/repo/sources/file_table_v2.cpp:228-242,288-296`), with the paths split into
    components; `C83_paths` relates them to those of `pathsV1` and `pathsV2`. -/
def storePaths (legacy : Bool) (id : Bytes) : Res StorePaths :=
  if legacy then do
    let a ← hexify (id.take 1)
    let b ← hexify ((id.drop 1).take 5)
    let c ← hexify (id.drop 6)
    .ok ⟨[[a], [a, b]], [a, b, c], [a, b, c ++ metaSuffix], [[a, b], [a, b]]⟩
  else do
    let a ← hexify (id.take 1)
    let b ← hexify (id.drop 1)
    .ok ⟨[[a]], [a, b], [a, b ++ metaSuffix], [[a]]⟩

/-- The functions of `FileTableIO` (`/repo/sources/file_table_v2.h:24-30`). -/
inductive StoreOp where
  | «open» (id : Bytes)
  | create (id : Bytes)
  | unlink (id : Bytes)
  deriving DecidableEq

/-- The file an operation is about (`/repo/sources/file_table_v2.h:24-30`). -/
def StoreOp.id : StoreOp → Bytes
  | .open id | .create id | .unlink id => id

/-- How an operation ends: with the data and the metadata stream, with an exception, or without a result
    (`/repo/sources/file_table_v2.h:24-30`). -/
inductive StoreOut where
  | opened (data metaNode : Nat)
  | failed (errno : Nat)
  | done
  deriving DecidableEq

/-- The system calls of an operation in their order (`/repo/sources/file_table_v2.cpp:250-279,304-331`).  The two streams are
    arguments of `std::make_pair`, and C++ leaves open which is evaluated first: `swap` says that it is the second. -/
def StoreOp.calls (P : StorePaths) (swap : Bool) : StoreOp → List HostCall
  | .open _ => if swap then [.openOld P.metaFile, .openOld P.file] else [.openOld P.file, .openOld P.metaFile]
  | .create _ =>
    P.dirs.map .mkdir ++ if swap then [.openNew P.metaFile, .openNew P.file] else [.openNew P.file, .openNew P.metaFile]
  | .unlink _ => [.rm P.file, .rm P.metaFile] ++ P.removed.map .rmdir

/-- Does an error of the call end the operation?  `ensure_directory` lets only `EEXIST` pass, the calls of `unlink` do
    not throw (`/repo/sources/unix.cpp:368-385`). -/
def HostCall.fatal : HostCall → Nat → Bool
  | .mkdir _, e => e != 17
  | .openNew _, _ => true
  | .openOld _, _ => true
  | .rm _, _ => false
  | .rmdir _, _ => false

/-- An operation in progress in a thread: the calls still to make and the files opened, the last first
    (`/repo/sources/file_table_v2.cpp:250-279,304-331`). -/
structure StoreTask where
  op : StoreOp
  swap : Bool
  todo : List HostCall
  got : List Nat

/-- The result when all calls were made (`/repo/sources/file_table_v2.cpp:256-257,267-268,310-311,320-321`). -/
def StoreTask.out (t : StoreTask) : StoreOut :=
  match t.op, t.got with
  | .unlink _, _ => .done
  | _, [y, x] => if t.swap then .opened y x else .opened x y
  | _, _ => .done

/-- The volume directory with the threads that work on it, and what they did, the last first.  A thread that works on a
    file holds the mutex of its shard (`/repo/sources/file_table_v2.cpp:61,99,148`). -/
structure StoreSys where
  host : HostDir
  tasks : List (Nat × StoreTask)
  log : List (StoreOp × StoreOut)

/-- One step of a thread (`/repo/sources/file_table_v2.cpp:250-279,304-331`): entering an operation, or one system call,
    which fails with the error of `fault` if there is one. -/
inductive StoreEvent where
  | start (t : Nat) (op : StoreOp) (swap : Bool)
  | call (t : Nat) (fault : Option Nat)

namespace StoreSys

/-- Does some thread hold the mutex of the shard?  (`/repo/sources/file_table_v2.cpp:60-61,98-99,146-148`.) -/
def busy (s : StoreSys) (shard : Nat) : Bool := s.tasks.any fun p => (FileTab.shardOf p.2.op.id).toOption == some shard

/-- Replaces the task of a thread (bookkeeping for `/repo/sources/file_table_v2.cpp:250-331`). -/
def putTask (s : StoreSys) (t : Nat) (k : StoreTask) : StoreSys := { s with tasks := (t, k) :: s.tasks.filter fun p => p.1 != t }

/-- The end of an operation: the mutex is released (bookkeeping for `/repo/sources/file_table_v2.cpp:250-331`). -/
def finish (s : StoreSys) (t : Nat) (op : StoreOp) (out : StoreOut) : StoreSys :=
  { s with tasks := s.tasks.filter fun p => p.1 != t, log := (op, out) :: s.log }

/-- What remains to be done after a call (bookkeeping for `/repo/sources/file_table_v2.cpp:250-331`). -/
def advance (s : StoreSys) (t : Nat) (k : StoreTask) : StoreSys :=
  if k.todo.isEmpty then s.finish t k.op k.out else s.putTask t k

/-- `FileTable::{open_as,create_as,close_internal}` as far as they use `FileTableIO`
    (`/repo/sources/file_table_v2.cpp:51-84,93-104,143-183`): an operation begins when the mutex of the shard is free, and the
    other threads run between its system calls.  An event that is not possible changes nothing. -/
def step (legacy : Bool) (s : StoreSys) : StoreEvent → StoreSys
  | .start t op swap =>
    match s.tasks.lookup t, FileTab.shardOf op.id, storePaths legacy op.id with
    | none, .ok shard, .ok P => if s.busy shard then s else s.putTask t ⟨op, swap, op.calls P swap, []⟩
    | _, _, _ => s
  | .call t fault =>
    match s.tasks.lookup t with
    | some ⟨op, swap, c :: cs, got⟩ =>
      match s.host.attempt fault c with
      | .error e => if c.fatal e then s.finish t op (.failed e) else s.advance t ⟨op, swap, cs, got⟩
      | .ok (h, none) => { s with host := h }.advance t ⟨op, swap, cs, got⟩
      | .ok (h, some n) => { s with host := h }.advance t ⟨op, swap, cs, n :: got⟩
    | _ => s

/-- A history (`/repo/sources/file_table_v2.cpp:51-183`). -/
def run (legacy : Bool) (s : StoreSys) : List StoreEvent → StoreSys
  | [] => s
  | e :: es => run legacy (s.step legacy e) es

end StoreSys
end Securefs

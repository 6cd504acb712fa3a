import Mathlib.Logic.Function.Basic
/-!
# Descriptors of files

Models the constructors and destructors of `UnixFileStream`, `UnixDirectoryTraverser` and `OSService` (`/repo/sources/unix.cpp:47-65,231-243,302-333`) with
the table of descriptors of the process, and `OSService::raise_fd_limit` (`/repo/sources/unix.cpp:476-500`).
-/

namespace Securefs.Descr

/-- The classes whose objects have a descriptor (`/repo/sources/unix.cpp:47-50,231-234`, `/repo/sources/platform.h:152-160`). -/
inductive Kind where
  | stream
  | traverser
  | service
  deriving DecidableEq

/-- An object: its class and `m_fd`, `m_dir_fd`, or the descriptor within `m_dir` (`/repo/sources/unix.cpp:50,234`, `/repo/sources/platform.h:158`). -/
structure Obj where
  kind : Kind
  fd : Int
  deriving DecidableEq

/-- The table of descriptors of the process: what is open at each of them.  It is the state that `::open` and `::close` change
    (`/repo/sources/unix.cpp:63,239,243,307,320,329`). -/
abbrev Table := Nat → Option Nat

/-- The process: its table, its objects by number, and how many calls there were (`/repo/sources/unix.cpp:47-65,302-333`). -/
structure Sys where
  table : Table
  objs : Nat → Option Obj
  clock : Nat

/-- What a program does with objects (`/repo/sources/unix.cpp:53-65,237-243,302-333`): `file` is what the path leads to, `real` whether `realpath` works.
    `use` stands for all calls that have the descriptor for an argument. -/
inductive Op where
  | openStream (k file : Nat)
  | openTraverser (k file : Nat)
  | openService (k file : Nat) (real : Bool)
  | defaultService (k : Nat)
  | close (k : Nat)
  | destroy (k : Nat)
  | use (k : Nat)

/-- What comes of it (`/repo/sources/unix.cpp:53-65,302-333`): `file` and `cwd` tell what a call was applied to, `badf` is `EBADF`; `absent` if the
    program names an object that it does not have, or one that it has already for a new one, or calls `close` on an object without it: C++ excludes all
    three. -/
inductive Outcome where
  | done
  | thrown
  | file (d : Nat)
  | cwd
  | badf
  | absent
  deriving DecidableEq

/-- `::open`, `::openat` and `::opendir` (`/repo/sources/unix.cpp:239,320,329`): `alloc` is the result, a descriptor or something negative. -/
def sysOpen (alloc : Nat → Table → Int) (s : Sys) (file : Nat) : Int × Table :=
  let rc := alloc s.clock s.table
  if rc < 0 then (rc, s.table) else (rc, Function.update s.table rc.toNat (some file))

/-- `::close` and `::closedir` (`/repo/sources/unix.cpp:63,243,307`), whose result is not looked at. -/
def sysClose (t : Table) (fd : Int) : Table := if fd < 0 then t else Function.update t fd.toNat none

/-- `AT_FDCWD` (`/repo/sources/unix.cpp:302`). -/
def atFdCwd : Int := -100

/-- A call that has the descriptor for an argument (`/repo/sources/unix.cpp:73-229,329-470`); those of services also take `AT_FDCWD`. -/
def sysUse (t : Table) (o : Obj) : Outcome :=
  if o.kind = .service ∧ o.fd = atFdCwd then .cwd
  else if o.fd < 0 then .badf
  else match t o.fd.toNat with
    | some d => .file d
    | none => .badf

/-- `UnixFileStream::close` (`/repo/sources/unix.cpp:61-65`): the table and `m_fd` afterwards. -/
def closeStream (t : Table) (o : Obj) : Table × Obj := (sysClose t o.fd, { o with fd := -1 })

/-- The destructors (`/repo/sources/unix.cpp:59,243,304-308`). -/
def destructor (t : Table) (o : Obj) : Table :=
  match o.kind with
  | .stream => (closeStream t o).1
  | .traverser => sysClose t o.fd
  | .service => if o.fd ≥ 0 then sysClose t o.fd else t

/-- `open_file_stream` and the constructor of `UnixFileStream`, the constructor of `UnixDirectoryTraverser`, and the end of the constructor of `OSService`
    (`/repo/sources/unix.cpp:53-57,237-242,320-323,326-334`): an object, or an exception. -/
def construct (alloc : Nat → Table → Int) (s : Sys) (kind : Kind) (k file : Nat) : Outcome × Sys :=
  let r := sysOpen alloc s file
  if r.1 < 0 then (.thrown, { s with table := r.2, clock := s.clock + 1 })
  else (.done, ⟨r.2, Function.update s.objs k (some ⟨kind, r.1⟩), s.clock + 1⟩)

/-- One thing that the program does (`/repo/sources/unix.cpp:47-65,231-243,302-334`).  Simplified: what threads do at the same time with one object. -/
def step (alloc : Nat → Table → Int) (s : Sys) : Op → Outcome × Sys
  | .openStream k file => if (s.objs k).isSome then (.absent, s) else construct alloc s .stream k file
  | .openTraverser k file => if (s.objs k).isSome then (.absent, s) else construct alloc s .traverser k file
  | .openService k file real =>
    if (s.objs k).isSome then (.absent, s)
    else if real then construct alloc s .service k file else (.thrown, s)
  | .defaultService k =>
    if (s.objs k).isSome then (.absent, s) else (.done, { s with objs := Function.update s.objs k (some ⟨.service, atFdCwd⟩) })
  | .close k =>
    match s.objs k with
    | none => (.absent, s)
    | some o =>
      if o.kind = .stream then
        (.done, { s with table := (closeStream s.table o).1, objs := Function.update s.objs k (some (closeStream s.table o).2) })
      else (.absent, s)
  | .destroy k =>
    match s.objs k with
    | none => (.absent, s)
    | some o => (.done, { s with table := destructor s.table o, objs := Function.update s.objs k none })
  | .use k =>
    match s.objs k with
    | none => (.absent, s)
    | some o => (sysUse s.table o, s)

/-- All that the program does (`/repo/sources/unix.cpp:47-65,231-243,302-334`), with what came of each. -/
def run (alloc : Nat → Table → Int) : Sys → List Op → List (Op × Outcome) × Sys
  | s, [] => ([], s)
  | s, op :: rest =>
    let r := step alloc s op
    let q := run alloc r.2 rest
    ((op, r.1) :: q.1, q.2)

/-- The process before its first object (`/repo/sources/unix.cpp:302-334`), with what it has open already. -/
def start (t : Table) : Sys := ⟨t, fun _ => none, 0⟩

/-- `uint64_t` as `int64_t` (`/repo/sources/unix.cpp:476,488,497,499`). -/
def toI64 (n : Nat) : Int := if n < 2 ^ 63 then n else (n : Int) - 2 ^ 64

/-- `OSService::raise_fd_limit` (`/repo/sources/unix.cpp:476-500`): `cur` and `max` are the limits, `gets` and `sets` tell whether the two calls work.
    The result, and the limit afterwards. -/
def raiseFdLimit (gets sets : Bool) (cur max : Nat) : Int × Nat :=
  if gets = false then (1024, cur)
  else if cur ≥ max then (toI64 cur, cur)
  else if sets = false then (toI64 cur, cur)
  else (toI64 max, max)

end Securefs.Descr

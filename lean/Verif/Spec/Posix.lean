import Verif.Model.Basic
import Verif.Spec.ByteFile
/-!
# A tree of files under the calls of the system

A small file system with numbered nodes and the calls of POSIX that name files by paths.  It is used twice.  It is what a user of a
mounted volume expects to work with, with the names and contents as given by the user.  And it is the file system of the host, in
which the volume is stored, as `/repo/sources/unix.cpp:327-470` calls it.

A path is a list of components, without empty ones, `.` and `..`, from the root, which is node 0.  Simplifications: permissions and
limits are left to the fault that every call can be given; times change only by setting them; a node stays in the table when its last
name goes; symbolic links inside a path are not followed (the kernel has done so before it asks a mounted file system) and reported as
`ELOOP`; calls that would change the root itself fail with `EBUSY`.
-/

namespace Securefs.Posix

/-- What a node is. -/
inductive Kind where
  | dir (entries : List (Bytes × Nat))
  | file (data : Bytes)
  | link (target : Bytes)
  deriving DecidableEq

/-- The attributes that can be set. -/
structure Attr where
  mode : BitVec 32
  uid : Nat
  gid : Nat
  atime : Nat
  mtime : Nat
  deriving DecidableEq

/-- A node. -/
structure Node where
  kind : Kind
  attr : Attr
  deriving DecidableEq

/-- All nodes. -/
abbrev Fs := Nat → Option Node

/-- Numbers of errors on Linux. -/
def EPERM : Nat := 1
@[inherit_doc EPERM] def ENOENT : Nat := 2
@[inherit_doc EPERM] def EBUSY : Nat := 16
@[inherit_doc EPERM] def EEXIST : Nat := 17
@[inherit_doc EPERM] def ENOTDIR : Nat := 20
@[inherit_doc EPERM] def EISDIR : Nat := 21
@[inherit_doc EPERM] def EINVAL : Nat := 22
@[inherit_doc EPERM] def ENOTEMPTY : Nat := 39
@[inherit_doc EPERM] def ELOOP : Nat := 40

/-- Replaces a node. -/
def Fs.set (fs : Fs) (i : Nat) (n : Node) : Fs := fun k => if k = i then some n else fs k

/-- Replaces the entries of a directory. -/
def Fs.alterDir (fs : Fs) (d : Nat) (f : List (Bytes × Nat) → List (Bytes × Nat)) : Fs :=
  match fs d with
  | some ⟨.dir es, a⟩ => fs.set d ⟨.dir (f es), a⟩
  | _ => fs

/-- Replaces the bytes of a file. -/
def Fs.setData (fs : Fs) (i : Nat) (c : Bytes) : Fs :=
  match fs i with
  | some ⟨.file _, a⟩ => fs.set i ⟨.file c, a⟩
  | _ => fs

/-- The bytes of a file. -/
def Fs.data (fs : Fs) (i : Nat) : Option Bytes :=
  match fs i with
  | some ⟨.file c, _⟩ => some c
  | _ => none

/-- Is it a directory? -/
def Fs.isDir (fs : Fs) (i : Nat) : Bool :=
  match fs i with
  | some ⟨.dir _, _⟩ => true
  | _ => false

/-- Is it a directory without entries? -/
def Fs.isEmptyDir (fs : Fs) (i : Nat) : Bool :=
  match fs i with
  | some ⟨.dir [], _⟩ => true
  | _ => false

/-- The entries without those of a name. -/
def without (es : List (Bytes × Nat)) (c : Bytes) : List (Bytes × Nat) := es.filter fun p => p.1 != c

/-- The entries of a directory. -/
def Fs.entries (fs : Fs) (d : Nat) : Except Nat (List (Bytes × Nat)) :=
  match fs d with
  | none => .error ENOENT
  | some ⟨.dir es, _⟩ => .ok es
  | some ⟨.link _, _⟩ => .error ELOOP
  | some ⟨.file _, _⟩ => .error ENOTDIR

/-- One step of the resolution of a path. -/
def Fs.child (fs : Fs) (d : Nat) (c : Bytes) : Except Nat Nat :=
  match fs.entries d with
  | .error e => .error e
  | .ok es =>
    match es.lookup c with
    | none => .error ENOENT
    | some i => .ok i

/-- The resolution of a path. -/
def Fs.walk (fs : Fs) : Nat → List Bytes → Except Nat Nat
  | d, [] => .ok d
  | d, c :: cs =>
    match fs.child d c with
    | .error e => .error e
    | .ok i => fs.walk i cs

/-- The directory of the last component of a path, its entries, and the last component. -/
structure Slot where
  dir : Nat
  entries : List (Bytes × Nat)
  name : Bytes

/-- The resolution of a path up to its last component. -/
def Fs.slot (fs : Fs) (path : List Bytes) : Except Nat Slot :=
  match path.getLast? with
  | none => .error EBUSY
  | some c =>
    match fs.walk 0 path.dropLast with
    | .error e => .error e
    | .ok d =>
      match fs.entries d with
      | .error e => .error e
      | .ok es => .ok ⟨d, es, c⟩

/-- `mkdir`, `symlink`, and `open` of a new file with `O_EXCL`: `id` is the number of the new node. -/
def Fs.add (fs : Fs) (path : List Bytes) (id : Nat) (n : Node) : Except Nat Fs :=
  match fs.slot path with
  | .error e => .error e
  | .ok s =>
    match s.entries.lookup s.name with
    | some _ => .error EEXIST
    | none => .ok ((fs.set id n).alterDir s.dir fun es => (s.name, id) :: es)

/-- `link`, which does not follow a link at the end. -/
def Fs.link (fs : Fs) (src dst : List Bytes) : Except Nat Fs :=
  match fs.walk 0 src with
  | .error e => .error e
  | .ok i =>
    match fs.slot dst with
    | .error e => .error e
    | .ok s =>
      match s.entries.lookup s.name with
      | some _ => .error EEXIST
      | none => if fs.isDir i then .error EPERM else .ok (fs.alterDir s.dir fun es => (s.name, i) :: es)

/-- `unlink`. -/
def Fs.unlink (fs : Fs) (path : List Bytes) : Except Nat Fs :=
  match fs.slot path with
  | .error e => .error e
  | .ok s =>
    match s.entries.lookup s.name with
    | none => .error ENOENT
    | some i => if fs.isDir i then .error EISDIR else .ok (fs.alterDir s.dir fun es => without es s.name)

/-- `rmdir`.  `full` tells which directories hold a file that is not among their entries here. -/
def Fs.rmdir (fs : Fs) (full : Nat → Bool) (path : List Bytes) : Except Nat Fs :=
  match fs.slot path with
  | .error e => .error e
  | .ok s =>
    match s.entries.lookup s.name with
    | none => .error ENOENT
    | some i =>
      if !fs.isDir i then .error ENOTDIR
      else if fs.isEmptyDir i && !full i then .ok (fs.alterDir s.dir fun es => without es s.name)
      else .error ENOTEMPTY

/-- The effect of `rename`. -/
def Fs.move (fs : Fs) (s t : Slot) (i : Nat) : Fs :=
  (fs.alterDir s.dir fun es => without es s.name).alterDir t.dir fun es => (t.name, i) :: without es t.name

/-- `rename`: nothing happens if both paths name the same node; a directory is not moved below itself and replaces only an empty
    directory, and nothing else replaces a directory.  `full` as for `rmdir`. -/
def Fs.rename (fs : Fs) (full : Nat → Bool) (src dst : List Bytes) : Except Nat Fs :=
  match fs.slot src with
  | .error e => .error e
  | .ok s =>
    match fs.slot dst with
    | .error e => .error e
    | .ok t =>
      match s.entries.lookup s.name with
      | none => .error ENOENT
      | some i =>
        if fs.isDir i && src.isPrefixOf dst && src != dst then .error EINVAL
        else
          match t.entries.lookup t.name with
          | none => .ok (fs.move s t i)
          | some j =>
            if i = j then .ok fs
            else if fs.isDir i then
              if !fs.isDir j then .error ENOTDIR
              else if fs.isEmptyDir j && !full j then .ok (fs.move s t i) else .error ENOTEMPTY
            else if fs.isDir j then .error EISDIR
            else .ok (fs.move s t i)

/-- `chmod`, `chown`, `utimens`: a change of the attributes. -/
def Fs.setAttr (fs : Fs) (f : Attr → Attr) (path : List Bytes) : Except Nat Fs :=
  match fs.walk 0 path with
  | .error e => .error e
  | .ok i =>
    match fs i with
    | none => .error ENOENT
    | some n => .ok (fs.set i { n with attr := f n.attr })

/-- `open` of a file that exists. -/
def Fs.openNode (fs : Fs) (trunc : Bool) (i : Nat) : Except Nat (Nat × Fs) :=
  match fs i with
  | none => .error ENOENT
  | some ⟨.dir _, _⟩ => .error EISDIR
  | some ⟨.link _, _⟩ => .error ELOOP
  | some ⟨.file _, a⟩ => .ok (i, if trunc then fs.set i ⟨.file [], a⟩ else fs)

/-- `open` without `O_CREAT`. -/
def Fs.openPath (fs : Fs) (trunc : Bool) (path : List Bytes) : Except Nat (Nat × Fs) :=
  match fs.walk 0 path with
  | .error e => .error e
  | .ok i => fs.openNode trunc i

/-- The type of a node. -/
inductive FileType where
  | dir
  | file
  | link
  deriving DecidableEq

/-- What `stat` reports.  The size of a directory has no meaning; it is 0 here. -/
structure Stat where
  ino : Nat
  typ : FileType
  attr : Attr
  size : Nat
  deriving DecidableEq

/-- `fstat`. -/
def Fs.statNode (fs : Fs) (i : Nat) : Except Nat Stat :=
  match fs i with
  | none => .error ENOENT
  | some ⟨.dir _, a⟩ => .ok ⟨i, .dir, a, 0⟩
  | some ⟨.file c, a⟩ => .ok ⟨i, .file, a, c.length⟩
  | some ⟨.link t, a⟩ => .ok ⟨i, .link, a, t.length⟩

/-- `lstat`. -/
def Fs.stat (fs : Fs) (path : List Bytes) : Except Nat Stat :=
  match fs.walk 0 path with
  | .error e => .error e
  | .ok i => fs.statNode i

/-- `readlink`. -/
def Fs.readlink (fs : Fs) (path : List Bytes) : Except Nat Bytes :=
  match fs.walk 0 path with
  | .error e => .error e
  | .ok i =>
    match fs i with
    | none => .error ENOENT
    | some ⟨.link t, _⟩ => .ok t
    | some _ => .error EINVAL

/-- `opendir`. -/
def Fs.opendir (fs : Fs) (path : List Bytes) : Except Nat Nat :=
  match fs.walk 0 path with
  | .error e => .error e
  | .ok i =>
    match fs.entries i with
    | .error e => .error e
    | .ok _ => .ok i

end Securefs.Posix

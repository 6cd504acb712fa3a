import Verif.Model.FileAttr
import Verif.Model.FileTable
import Verif.Model.Btree
import Verif.Model.Names
import Verif.Spec.ByteFile
/-!
# The name space of the full format

Models the operations of `FuseHighLevelOps` that resolve paths and change names, owners and modes
(`/repo/sources/full_format.cpp:42-53,65-78,127-150,202-359,381-391,510-651`), and those that read and write files and list
directories through handles (`/repo/sources/full_format.cpp:54-201,360-380`).

Simplifications, common to all definitions here:
* The encrypted streams are left out: the contents of a file are the bytes it holds, a directory is a list of entries with the
  behaviour of `Spec.dirStep`.  Properties C27, C29 and C77 connect these to the B-tree and the blocks of the code.  Sizes up to
  which a stream can grow are therefore left out too.
* A file object and its backing files are one `Inode`.  Properties C34 and C35 say why a live identifier has one object.
* What runs under the lock of a file (`FileLockGuard`, `DoubleFileLockGuard`, the mutex of a shard or of `parent_id`) is
  one section, executed in one go.  Between two sections of a thread, other threads may do anything.
-/

namespace Securefs

/-- What a file system is opened with: the comparison of names (`cmpfn_`, `/repo/sources/files.h:509`; `same a b` stands for
    `cmpfn_(a, b) == 0`), `m_store_time` (`/repo/sources/files.h:61`), and the user and group of the process
    (`/repo/sources/files.cpp:85-92`). -/
structure FsCfg where
  same : Bytes → Bytes → Bool
  storeTime : Bool
  osUid : UInt32
  osGid : UInt32

/-- A file: attributes, the in-memory `parent_id` (`/repo/sources/files.h:64`), the contents of a regular file or the target of
    a symbolic link, the entries of a directory. -/
structure Inode where
  attr : FileAttr
  parent : Bytes
  data : Bytes
  entries : List DirEntry
  deriving DecidableEq

/-- All files by identifier, and the clock (`OSService::get_current_time`, `/repo/sources/platform.h:258`).
    (`/repo/sources/platform.h`, `/repo/sources/file_table_v2.h:40-104`). -/
structure FullFs where
  nodes : List (Bytes × Inode)
  now : TimeSpec
  deriving DecidableEq

namespace FullFs

/-- The file with an identifier (`FileTableIO::open`, `/repo/sources/file_table_v2.cpp:79`). -/
def get (fs : FullFs) (id : Bytes) : Option Inode := fs.nodes.lookup id

/-- Changing a file that exists.
    (bookkeeping for the assignments to members in `/repo/sources/files.h:34-345`). -/
def set (fs : FullFs) (id : Bytes) (n : Inode) : FullFs :=
  { fs with nodes := fs.nodes.map fun p => if p.1 = id then (id, n) else p }

end FullFs

/-- A held file object: `get_id()` and `type()` (`/repo/sources/files.h:313,323`). -/
structure FH where
  id : Bytes
  cls : Nat
  deriving DecidableEq

/-- `FileBase::cast_as` (`/repo/sources/files.h:357-366`); both exceptions have the error number `EPERM`
    (`/repo/sources/exceptions.h:29,215-241`). -/
def castAs (h : FH) (T : Nat) (n : Inode) : Res Unit :=
  if modeForType h.cls ≠ n.attr.mode &&& sIfmt then .error (.vfs 1)
  else if h.cls ≠ T then .error (.vfs 1)
  else .ok ()

/-! ## Directories, under their lock -/

namespace Inode

/-- `Directory::get_entry` (`/repo/sources/files.h:455-460`). -/
def getEntry (cfg : FsCfg) (now : TimeSpec) (name : Bytes) (n : Inode) : Res (Option DirEntry) × Inode :=
  let n := { n with attr := n.attr.touchAtime cfg.storeTime now }
  if name.length > 255 then (.error (.vfs eNAMETOOLONG), n)
  else (.ok (n.entries.find? fun e => cfg.same name e.name), n)

/-- `Directory::add_entry` (`/repo/sources/files.h:462-467`). -/
def addEntry (cfg : FsCfg) (now : TimeSpec) (e : DirEntry) (n : Inode) : Res Bool × Inode :=
  let n := { n with attr := n.attr.touchMtime cfg.storeTime now }
  if e.name.length > 255 then (.error (.vfs eNAMETOOLONG), n)
  else if n.entries.any (fun x => cfg.same e.name x.name) then (.ok false, n)
  else (.ok true, { n with entries := e :: n.entries })

/-- `Directory::remove_entry` (`/repo/sources/files.h:473-478`); returns the entry removed. -/
def removeEntry (cfg : FsCfg) (now : TimeSpec) (name : Bytes) (n : Inode) : Res (Option DirEntry) × Inode :=
  let n := { n with attr := n.attr.touchMtime cfg.storeTime now }
  if name.length > 255 then (.error (.vfs eNAMETOOLONG), n)
  else (.ok (n.entries.find? fun e => cfg.same name e.name), { n with entries := n.entries.filter fun e => !cfg.same name e.name })

/-- `iterate_over_entries` with a callback that throws `ENOTEMPTY`, then `unlink` (`/repo/sources/full_format.cpp:242-245`). -/
def unlinkEmpty (cfg : FsCfg) (now : TimeSpec) (n : Inode) : Res Unit × Inode :=
  let n := { n with attr := n.attr.touchAtime cfg.storeTime now }
  match n.entries with
  | _ :: _ => (.error (.vfs 39), n)
  | [] => (.ok (), { n with attr := n.attr.unlink })

end Inode

/-! ## Sections -/

/-- What one section does: it changes the state, and returns a value or throws.
    (the scope of a guard, `/repo/sources/files.h:559-627`). -/
abbrev Sec (β : Type) := FullFs → Res β × FullFs

/-- Two steps one after the other inside a section.
    (sequencing inside the scope of a guard, `/repo/sources/full_format.cpp:335-351`). -/
def Sec.bind {α β : Type} (x : Sec α) (f : α → Sec β) : Sec β := fun fs =>
  match x fs with
  | (.error e, fs') => (.error e, fs')
  | (.ok a, fs') => f a fs'

/-- A step that does nothing.
    (sequencing inside the scope of a guard, `/repo/sources/full_format.cpp:335-351`). -/
def Sec.pure {α : Type} (a : α) : Sec α := fun fs => (.ok a, fs)

/-- An access to a held file.  If the file has been removed from the backing storage, the model throws `ENOENT`: the code still
    has the object then, and this does not happen while an object is held (C35).
    (`/repo/sources/files.h:559-573`). -/
def Sec.file {β : Type} (id : Bytes) (f : TimeSpec → Inode → Res β × Inode) : Sec β := fun fs =>
  match fs.get id with
  | none => (.error (.vfs 2), fs)
  | some n => ((f fs.now n).1, fs.set id (f fs.now n).2)

/-- An access to a held directory: `cast_as<Directory>()` first (`/repo/sources/full_format.cpp:210,234,297,338,536,599,624`). -/
def Sec.dir {β : Type} (h : FH) (f : TimeSpec → Inode → Res β × Inode) : Sec β :=
  Sec.file h.id fun now n =>
    match castAs h typeDirectory n with
    | .error e => (.error e, n)
    | .ok _ => f now n

/-- `FileTable::open_as` (`/repo/sources/file_table_v2.cpp:51-84`) with `construct` (lines 105-121).  The class of the object is
    the requested type; an object that is already there keeps its class in the code. -/
def secOpenAs (id : Bytes) (type : Nat) : Sec FH := fun fs =>
  if id = kRootId then
    if type ≠ typeDirectory then (.error .runtime, fs) else (.ok ⟨kRootId, typeDirectory⟩, fs)
  else
    match fs.get id with
    | none => (.error (.vfs 2), fs)
    | some _ =>
      if type = typeRegular ∨ type = typeDirectory ∨ type = typeSymlink then (.ok ⟨id, type⟩, fs) else (.error .runtime, fs)

/-- `get_parent_id` (`/repo/sources/files.h:188-192`). -/
def secGetParent (h : FH) : Sec Bytes := Sec.file h.id fun _ n => (.ok n.parent, n)

/-- `set_parent_id` (`/repo/sources/files.h:194-198`). -/
def secSetParent (h : FH) (id : Bytes) : Sec Unit := Sec.file h.id fun _ n => (.ok (), { n with parent := id })

/-- `get_entry` of a held directory under its lock (`/repo/sources/full_format.cpp:535-536,623-624`). -/
def secGet (cfg : FsCfg) (h : FH) (name : Bytes) : Sec (Option DirEntry) := Sec.dir h fun now n => n.getEntry cfg now name

/-- `add_entry` of a held directory (`/repo/sources/full_format.cpp:297,346-350,599`). -/
def secAdd (cfg : FsCfg) (h : FH) (e : DirEntry) : Sec Bool := Sec.dir h fun now n => n.addEntry cfg now e

/-- `remove_entry` of a held directory (`/repo/sources/full_format.cpp:210,234,338,342`). -/
def secRemove (cfg : FsCfg) (h : FH) (name : Bytes) : Sec (Option DirEntry) :=
  Sec.dir h fun now n => n.removeEntry cfg now name

/-- `cast_as<Symlink>()->get()` (`/repo/sources/full_format.cpp:321,549,637`, `/repo/sources/files.h:413-420`). -/
def secLinkGet (cfg : FsCfg) (h : FH) : Sec Bytes := Sec.file h.id fun now n =>
  match castAs h typeSymlink n with
  | .error e => (.error e, n)
  | .ok _ => (.ok n.data, { n with attr := n.attr.touchAtime cfg.storeTime now })

/-- `cast_as<Symlink>()->set(to)` (`/repo/sources/full_format.cpp:285`, `/repo/sources/files.h:422-426`). -/
def secLinkSet (cfg : FsCfg) (h : FH) (to : Bytes) : Sec Unit := Sec.file h.id fun now n =>
  match castAs h typeSymlink n with
  | .error e => (.error e, n)
  | .ok _ =>
    (.ok (), { n with attr := n.attr.touchMtime cfg.storeTime now, data := to ++ n.data.drop to.length })

/-- `unlink` (`/repo/sources/full_format.cpp:217-218,355-356,603-604`, `/repo/sources/files.h:329-333`). -/
def secUnlink (h : FH) : Sec Unit := Sec.file h.id fun _ n => (.ok (), { n with attr := n.attr.unlink })

/-- The last section of `vrmdir` (`/repo/sources/full_format.cpp:241-245`). -/
def secUnlinkEmpty (cfg : FsCfg) (h : FH) : Sec Unit := Sec.dir h fun now n => n.unlinkEmpty cfg now

/-- `create_as` (`/repo/sources/file_table_v2.cpp:93-104`) and `initialize_empty` (`/repo/sources/full_format.cpp:591-595`).
    `id` is the random identifier; if files with it exist, `O_EXCL` fails.  The code does this in two sections; nobody else
    knows the identifier, so the model takes one. -/
def secCreate (cfg : FsCfg) (id : Bytes) (type : Nat) (mode uid gid : UInt32) : Sec FH := fun fs =>
  if id = kRootId then (.error .invalidArg, fs)
  else
    match fs.get id with
    | some _ => (.error (.vfs 17), fs)
    | none =>
      let a := (FileAttr.setNumFree 0 FileAttr.blank).initializeEmpty cfg.storeTime fs.now cfg.osUid cfg.osGid
        ((mode &&& 0x1ff) ||| modeForType type) uid gid
      (.ok ⟨id, type⟩, { fs with nodes := fs.nodes ++ [(id, ⟨a, zeros 32, [], []⟩)] })

/-- The last section of `vlink` (`/repo/sources/full_format.cpp:296-303`): both files are locked. -/
def secLink (cfg : FsCfg) (base : FH) (last : Bytes) (f : FH) : Sec Bool :=
  Sec.bind (Sec.file f.id fun _ n => (.ok n.attr.realType, n)) fun type =>
  Sec.bind (secAdd cfg base ⟨last, f.id, type⟩) fun added =>
  if added then
    Sec.file f.id fun now n => (.ok true, { n with attr := n.attr.setNlink cfg.storeTime now (n.attr.nlink + 1) })
  else Sec.pure false

/-- What the locked part of `vrename` leaves to do.
    (`/repo/sources/full_format.cpp:335-358`). -/
inductive RenameOut where
  /-- `return -ENOENT` -/
  | missing
  /-- nothing to do -/
  | done
  /-- unlink what was there -/
  | replaced (e : DirEntry)
  deriving DecidableEq

/-- The locked part of `vrename` (`/repo/sources/full_format.cpp:335-351`). -/
def secRename (cfg : FsCfg) (bf : FH) (lf : Bytes) (bt : FH) (lt : Bytes) : Sec RenameOut :=
  Sec.bind (secRemove cfg bf lf) fun r =>
  match r with
  | none => Sec.pure .missing
  | some from_ =>
    Sec.bind (secRemove cfg bt lt) fun r2 =>
    match r2 with
    | some to =>
      if from_.id = to.id then
        Sec.bind (secAdd cfg bf ⟨lf, from_.id, from_.type⟩) fun _ =>
        Sec.bind (secAdd cfg bt ⟨lt, to.id, to.type⟩) fun _ => Sec.pure .done
      else Sec.bind (secAdd cfg bt ⟨lt, from_.id, from_.type⟩) fun _ => Sec.pure (.replaced to)
    | none => Sec.bind (secAdd cfg bt ⟨lt, from_.id, from_.type⟩) fun _ => Sec.pure .done

/-- The attribute part of `vgetattr`, `vchmod`, `vchown` and `vutimens` under the lock
    (`/repo/sources/full_format.cpp:49-51,255-256,269-273,388-389`). -/
def secAttr (h : FH) (f : TimeSpec → FileAttr → FileAttr) : Sec Unit :=
  Sec.file h.id fun now n => (.ok (), { n with attr := f now n.attr })

/-- An access to a held file: `cast_as<RegularFile>()` first (`/repo/sources/full_format.cpp:146,170,181,199,378`). -/
def Sec.reg {β : Type} (h : FH) (f : TimeSpec → Inode → Res β × Inode) : Sec β :=
  Sec.file h.id fun now n =>
    match castAs h typeRegular n with
    | .error e => (.error e, n)
    | .ok _ => f now n

/-- `RegularFile::read` (`/repo/sources/files.h:378-383`). -/
def secRead (cfg : FsCfg) (h : FH) (off len : Nat) : Sec Bytes := Sec.reg h fun now n =>
  (.ok (Spec.read n.data off len), { n with attr := n.attr.touchAtime cfg.storeTime now })

/-- `RegularFile::write` (`/repo/sources/files.h:385-390`). -/
def secWrite (cfg : FsCfg) (h : FH) (off : Nat) (d : Bytes) : Sec Unit := Sec.reg h fun now n =>
  (.ok (), { n with attr := n.attr.touchMtime cfg.storeTime now, data := Spec.write n.data off d })

/-- `RegularFile::truncate` (`/repo/sources/files.h:397-401`). -/
def secTruncate (cfg : FsCfg) (h : FH) (size : Nat) : Sec Unit := Sec.reg h fun now n =>
  (.ok (), { n with attr := n.attr.touchMtime cfg.storeTime now, data := Spec.resize n.data size })

/-- `flush` as far as it can be seen in the object (`/repo/sources/files.cpp:247-277`); what it writes is in
    `Verif/Model/FileObj.lean`. -/
def secFlush (h : FH) : Sec Unit := Sec.file h.id fun _ n => (.ok (), { n with attr := { n.attr with dirty := false } })

/-- `to_inode_number` (`/repo/sources/myutils.h:321-326`): the complement of the first eight bytes, least significant first;
    `inodeNumber` for the identifiers of 32 bytes. -/
def shownInode (id : Bytes) : Nat := 2 ^ 64 - 1 - (id.take 8).foldr (fun b v => b.toNat + 256 * v) 0

/-- What `stat` fills in (`/repo/sources/files.cpp:222-243`), without what comes from the backing file and the size of blocks.  The size
    of a directory is that of its B-tree, which is left out here. -/
structure FullStat where
  ino : Nat
  uid : UInt32
  gid : UInt32
  nlink : UInt32
  mode : UInt32
  size : Option Nat
  times : Option (TimeSpec × TimeSpec × TimeSpec × TimeSpec)
  deriving DecidableEq

/-- `owner_override_` (`/repo/sources/fuse_high_level_ops_base.h:14-17`): the user and the group to show instead of those stored. -/
structure OwnerOverride where
  uid : Option UInt32
  gid : Option UInt32
  deriving DecidableEq

/-- `stat` and `postprocess_stat` under the lock (`/repo/sources/full_format.cpp:49-51,60-62,653-663`). -/
def secStat (cfg : FsCfg) (ov : OwnerOverride) (h : FH) : Sec FullStat := Sec.file h.id fun _ n =>
  (.ok { ino := shownInode h.id
         uid := match ov.uid with
           | some u => u
           | none => n.attr.uid
         gid := match ov.gid with
           | some g => g
           | none => n.attr.gid
         nlink := n.attr.nlink
         mode := n.attr.mode
         size := if h.cls = typeDirectory then none else some n.data.length
         times := if cfg.storeTime then some (n.attr.atime, n.attr.mtime, n.attr.ctime, n.attr.btime) else none }, n)

/-- One call of `filler`: a name, an inode number and a type (`/repo/sources/full_format.cpp:104-115`). -/
structure DirItem where
  name : Bytes
  ino : Nat
  mode : UInt32
  deriving DecidableEq

/-- The callback of `vreaddir` over the entries (`/repo/sources/full_format.cpp:110-122`): `fill i` is the result of `filler` for the
    `i`-th entry. -/
def fillEntries (fill : Nat → Int) : Nat → List DirEntry → Res (List DirItem)
  | _, [] => .ok []
  | i, e :: rest =>
    if (fill i).natAbs ≠ 0 then .error (.vfs (fill i).natAbs)
    else
      match fillEntries fill (i + 1) rest with
      | .error err => .error err
      | .ok l => .ok (⟨e.name, shownInode e.id, modeForType e.type⟩ :: l)

/-- The locked part of `vreaddir` (`/repo/sources/full_format.cpp:98-124`); the results of `filler` for `.` and `..` are not looked at.
    The order of the entries is that of the directory. -/
def secReaddir (cfg : FsCfg) (fill : Nat → Int) (h : FH) : Sec (List DirItem) := Sec.dir h fun now n =>
  let items := match fillEntries fill 0 n.entries with
    | .error e => .error e
    | .ok l => .ok (⟨[46], shownInode h.id, 0x4000⟩ :: ⟨[46, 46], shownInode n.parent, 0x4000⟩ :: l)
  (items, { n with attr := n.attr.touchAtime cfg.storeTime now })

/-! ## Operations as sequences of sections -/

/-- What a thread has still to do: a sequence of sections.  An exception thrown by a section ends the operation.
    (the functions in `/repo/sources/full_format.cpp:42-651`). -/
inductive Prog (α : Type) : Type 1 where
  | ret (a : α)
  | throw (e : Err)
  | sec {β : Type} (f : Sec β) (k : β → Prog α)

namespace Prog

/-- One sequence after the other.
    (sequencing in `/repo/sources/full_format.cpp:42-651`). -/
def bind {α β : Type} : Prog α → (α → Prog β) → Prog β
  | .ret a, g => g a
  | .throw e, _ => .throw e
  | .sec f k, g => .sec f fun b => (k b).bind g

/-- Statements of a C++ function body one after the other (`/repo/sources/full_format.cpp:42-651`). -/
instance : Monad Prog where
  pure := .ret
  bind := bind

/-- A single section.
    (the scope of a guard in `/repo/sources/full_format.cpp:42-651`). -/
def one {β : Type} (f : Sec β) : Prog β := .sec f .ret

/-- Execution without other threads.
    (`/repo/sources/full_format.cpp:42-651`). -/
def run {α : Type} : Prog α → FullFs → Res α × FullFs
  | .ret a, fs => (.ok a, fs)
  | .throw e, fs => (.error e, fs)
  | .sec f k, fs =>
    match f fs with
    | (.error e, fs') => (.error e, fs')
    | (.ok b, fs') => (k b).run fs'

end Prog

/-- `absl::StrSplit(path, '/', absl::SkipEmpty())` (`/repo/sources/full_format.cpp:551,569,639`). -/
def splitPath (path : Bytes) : List Bytes := (splitSlash [] path).filter fun s => !s.isEmpty

/-- The name `.` (`/repo/sources/full_format.cpp:522`). -/
def dotName : Bytes := [46]
/-- The name `..` (`/repo/sources/full_format.cpp:526`). -/
def dotDotName : Bytes := [46, 46]

/-- The loop of `generic_open` (`/repo/sources/full_format.cpp:520-564`).  `rec` is the recursive call for the target of a
    symbolic link. -/
def walk (cfg : FsCfg) (rec : Bytes → FH → List Bytes → Prog (Option FH)) : Bytes → FH → List Bytes → Prog (Option FH)
  | _, parent, [] => .ret (some parent)
  | parentId, parent, s :: rest =>
    if s = dotName then walk cfg rec parentId parent rest
    else if s = dotDotName then
      (Prog.one (secGetParent parent)).bind fun parentId =>
      (Prog.one (secOpenAs parentId typeDirectory)).bind fun parent =>
      walk cfg rec parentId parent rest
    else
      (Prog.one (secGet cfg parent s)).bind fun found =>
      match found with
      | none => .ret none
      | some e =>
        (Prog.one (secOpenAs e.id e.type)).bind fun child =>
        (Prog.one (secSetParent child parentId)).bind fun _ =>
        if e.type = typeSymlink then
          (Prog.one (secLinkGet cfg child)).bind fun target =>
          (rec parentId parent (splitPath target)).bind fun resolved =>
          match resolved with
          | none => .ret none
          | some c => walk cfg rec c.id c rest
        else walk cfg rec child.id child rest

/-- `generic_open` (`/repo/sources/full_format.cpp:510-565`); `depth` is `16 - recursion_depth`. -/
def genericOpen (cfg : FsCfg) : (depth : Nat) → Bytes → FH → List Bytes → Prog (Option FH)
  | 0, _, _, _ => .throw (.vfs 40)
  | depth + 1, parentId, parent, splits => walk cfg (genericOpen cfg depth) parentId parent splits

/-- The limit in `generic_open` (`/repo/sources/full_format.cpp:516`). -/
def maxDepth : Nat := 16

/-- `open_base` (`/repo/sources/full_format.cpp:567-586`). -/
def openBase (cfg : FsCfg) (path : Bytes) : Prog (FH × Bytes) :=
  (Prog.one (secOpenAs kRootId typeDirectory)).bind fun root =>
  match (splitPath path).getLast? with
  | none => .ret (root, [])
  | some last =>
    if (splitPath path).length = 1 then .ret (root, last)
    else
      (genericOpen cfg maxDepth kRootId root (splitPath path).dropLast).bind fun r =>
      match r with
      | none => .throw (.vfs 2)
      | some d => .ret (d, last)

/-- `open_all` (`/repo/sources/full_format.cpp:610-651`). -/
def openAll (cfg : FsCfg) (path : Bytes) (resolveLast : Bool) : Prog (Option FH) :=
  if path = [] ∨ path = [slash] then (Prog.one (secOpenAs kRootId typeDirectory)).bind fun r => .ret (some r)
  else
    (openBase cfg path).bind fun (base, last) =>
    (Prog.one (secGet cfg base last)).bind fun found =>
    match found with
    | none => .ret none
    | some e =>
      (Prog.one (secOpenAs e.id e.type)).bind fun holder =>
      (Prog.one (secSetParent holder base.id)).bind fun _ =>
      if resolveLast = true ∧ holder.cls = typeSymlink then
        (Prog.one (secLinkGet cfg holder)).bind fun target =>
        genericOpen cfg maxDepth base.id base (splitPath target)
      else .ret (some holder)

/-- `create` (`/repo/sources/full_format.cpp:587-609`); `newId` is the random identifier drawn by `create_as`. -/
def createFile (cfg : FsCfg) (path : Bytes) (mode : UInt32) (type : Nat) (uid gid : UInt32) (newId : Bytes) : Prog FH :=
  (openBase cfg path).bind fun (base, last) =>
  (Prog.one (secCreate cfg newId type mode uid gid)).bind fun holder =>
  (Prog.one (secAdd cfg base ⟨last, holder.id, type⟩)).bind fun success =>
  if success then
    (Prog.one (secSetParent holder base.id)).bind fun _ => .ret holder
  else
    (Prog.one (secUnlink holder)).bind fun _ => .throw (.vfs 17)

/-- `vcreate` (`/repo/sources/full_format.cpp:127-135`). -/
def vcreate (cfg : FsCfg) (path : Bytes) (mode uid gid : UInt32) (newId : Bytes) : Prog Int :=
  (createFile cfg path mode typeRegular uid gid newId).bind fun _ => .ret 0

/-- `vmkdir` (`/repo/sources/full_format.cpp:221-225`). -/
def vmkdir (cfg : FsCfg) (path : Bytes) (mode uid gid : UInt32) (newId : Bytes) : Prog Int :=
  (createFile cfg path mode typeDirectory uid gid newId).bind fun _ => .ret 0

/-- `vsymlink` (`/repo/sources/full_format.cpp:276-287`), not on Windows. -/
def vsymlink (cfg : FsCfg) (to from_ : Bytes) (uid gid : UInt32) (newId : Bytes) : Prog Int :=
  (createFile cfg from_ 0x1a4 typeSymlink uid gid newId).bind fun holder =>
  (Prog.one (secLinkSet cfg holder to)).bind fun _ => .ret 0

/-- `vunlink` (`/repo/sources/full_format.cpp:202-220`). -/
def vunlink (cfg : FsCfg) (path : Bytes) : Prog Int :=
  (openBase cfg path).bind fun (dir, last) =>
  (Prog.one (secRemove cfg dir last)).bind fun r =>
  match r with
  | none => .ret (-2)
  | some e =>
    (Prog.one (secOpenAs e.id e.type)).bind fun fp =>
    (Prog.one (secUnlink fp)).bind fun _ => .ret 0

/-- `vrmdir` (`/repo/sources/full_format.cpp:226-247`). -/
def vrmdir (cfg : FsCfg) (path : Bytes) : Prog Int :=
  (openBase cfg path).bind fun (dir, last) =>
  (Prog.one (secRemove cfg dir last)).bind fun r =>
  match r with
  | none => .ret (-2)
  | some e =>
    (Prog.one (secOpenAs e.id e.type)).bind fun fp =>
    (Prog.one (secUnlinkEmpty cfg fp)).bind fun _ => .ret 0

/-- `vlink` (`/repo/sources/full_format.cpp:288-304`). -/
def vlink (cfg : FsCfg) (src dest : Bytes) : Prog Int :=
  (openAll cfg src true).bind fun opened =>
  match opened with
  | none => .ret (-2)
  | some f =>
    (openBase cfg dest).bind fun (base, last) =>
    (Prog.one (secLink cfg base last f)).bind fun added => .ret (if added then 0 else -17)

/-- `vrename` (`/repo/sources/full_format.cpp:326-359`). -/
def vrename (cfg : FsCfg) (from_ to : Bytes) : Prog Int :=
  (openBase cfg from_).bind fun (bf, lf) =>
  (openBase cfg to).bind fun (bt, lt) =>
  (Prog.one (secRename cfg bf lf bt lt)).bind fun r =>
  match r with
  | .missing => .ret (-2)
  | .done => .ret 0
  | .replaced e =>
    (Prog.one (secOpenAs e.id e.type)).bind fun holder =>
    (Prog.one (secUnlink holder)).bind fun _ => .ret 0

/-- `open_all` and then one access to the attributes: `vchmod`, `vchown`, `vutimens`
    (`/repo/sources/full_format.cpp:248-275,381-391`). -/
def withAttr (cfg : FsCfg) (path : Bytes) (resolveLast : Bool) (f : TimeSpec → FileAttr → FileAttr) : Prog Int :=
  (openAll cfg path resolveLast).bind fun opened =>
  match opened with
  | none => .ret (-2)
  | some h => (Prog.one (secAttr h f)).bind fun _ => .ret 0

/-- `vreadlink` (`/repo/sources/full_format.cpp:305-325`): the result and the bytes before the terminating NUL. -/
def fullReadlink (cfg : FsCfg) (path : Bytes) (size : Nat) : Prog (Int × Bytes) :=
  if size = 0 then .ret (-14, [])
  else if path = [slash] then .ret (-21, [])
  else
    (openAll cfg path false).bind fun opened =>
    match opened with
    | none => .ret (-2, [])
    | some h => (Prog.one (secLinkGet cfg h)).bind fun d => .ret (0, d.take (size - 1))

/-- `static_cast<int>` of a length (`/repo/sources/full_format.cpp:170,182`). -/
def toCInt (n : Nat) : Int := if n % 2 ^ 32 < 2 ^ 31 then ((n % 2 ^ 32 : Nat) : Int) else ((n % 2 ^ 32 : Nat) : Int) - 2 ^ 32

/-- `vopen` (`/repo/sources/full_format.cpp:136-150`): the result and the object that `info->fh` refers to. -/
def fullOpen (cfg : FsCfg) (path : Bytes) (trunc : Bool) : Prog (Int × Option FH) :=
  (openAll cfg path true).bind fun opened =>
  match opened with
  | none => .ret (-2, none)
  | some h =>
    if trunc then (Prog.one (secTruncate cfg h 0)).bind fun _ => .ret (0, some h)
    else .ret (0, some h)

/-- `vcreate` with the object that `info->fh` refers to (`/repo/sources/full_format.cpp:127-135`). -/
def fullCreate (cfg : FsCfg) (path : Bytes) (mode uid gid : UInt32) (newId : Bytes) : Prog (Int × Option FH) :=
  (createFile cfg path mode typeRegular uid gid newId).bind fun h => .ret (0, some h)

/-- `vopendir` (`/repo/sources/full_format.cpp:65-78`). -/
def fullOpendir (cfg : FsCfg) (path : Bytes) : Prog (Int × Option FH) :=
  (openAll cfg path true).bind fun opened =>
  match opened with
  | none => .ret (-2, none)
  | some h => if h.cls ≠ typeDirectory then .ret (-20, none) else .ret (0, some h)

/-- `vrelease` (`/repo/sources/full_format.cpp:151-161`): the result, and whether the object is given back to the table. -/
def fullRelease (h : FH) : Int × Bool := if h.cls ≠ typeRegular then (-22, false) else (0, true)

/-- `vreleasedir` (`/repo/sources/full_format.cpp:79-89`). -/
def fullReleasedir (h : FH) : Int × Bool := if h.cls ≠ typeDirectory then (-20, false) else (0, true)

/-- `vread` (`/repo/sources/full_format.cpp:162-171`). -/
def fullRead (cfg : FsCfg) (h : FH) (off len : Nat) : Prog (Int × Bytes) :=
  (Prog.one (secRead cfg h off len)).bind fun b => .ret (toCInt b.length, b)

/-- `vwrite` (`/repo/sources/full_format.cpp:172-183`). -/
def fullWrite (cfg : FsCfg) (h : FH) (off : Nat) (d : Bytes) : Prog Int :=
  (Prog.one (secWrite cfg h off d)).bind fun _ => .ret (toCInt d.length)

/-- `vftruncate` (`/repo/sources/full_format.cpp:191-201`). -/
def fullFtruncate (cfg : FsCfg) (h : FH) (size : Nat) : Prog Int :=
  (Prog.one (secTruncate cfg h size)).bind fun _ => .ret 0

/-- `vtruncate` (`/repo/sources/full_format.cpp:370-380`). -/
def fullTruncate (cfg : FsCfg) (path : Bytes) (size : Nat) : Prog Int :=
  (openAll cfg path true).bind fun opened =>
  match opened with
  | none => .ret (-2)
  | some h => (Prog.one (secTruncate cfg h size)).bind fun _ => .ret 0

/-- `vflush` (`/repo/sources/full_format.cpp:184-190`). -/
def fullFlush (h : FH) : Prog Int := (Prog.one (secFlush h)).bind fun _ => .ret 0

/-- `vfsync` (`/repo/sources/full_format.cpp:360-369`, `/repo/sources/files.h:337-341`): the backing files are synchronized; the object
    is not flushed. -/
def fullFsync (h : FH) : Prog Int := (Prog.one (Sec.file h.id fun _ n => (.ok (), n))).bind fun _ => .ret 0

/-- `vgetattr` with what it fills in (`/repo/sources/full_format.cpp:42-53`). -/
def fullGetattr (cfg : FsCfg) (ov : OwnerOverride) (path : Bytes) : Prog (Int × Option FullStat) :=
  (openAll cfg path false).bind fun opened =>
  match opened with
  | none => .ret (-2, none)
  | some h => (Prog.one (secStat cfg ov h)).bind fun st => .ret (0, some st)

/-- `vfgetattr` with what it fills in (`/repo/sources/full_format.cpp:54-64`). -/
def fullFgetattr (cfg : FsCfg) (ov : OwnerOverride) (h : FH) : Prog (Int × Option FullStat) :=
  (Prog.one (secStat cfg ov h)).bind fun st => .ret (0, some st)

/-- `vreaddir` (`/repo/sources/full_format.cpp:90-126`). -/
def fullReaddir (cfg : FsCfg) (fill : Nat → Int) (h : FH) : Prog (Int × List DirItem) :=
  if h.cls ≠ typeDirectory then .ret (-20, [])
  else (Prog.one (secReaddir cfg fill h)).bind fun l => .ret (0, l)

/-- The operations, with their arguments (`/repo/sources/full_format.h:63-160`).  `h` is the object behind a handle. -/
inductive FullOp where
  | create (path : Bytes) (mode uid gid : UInt32) (newId : Bytes)
  | mkdir (path : Bytes) (mode uid gid : UInt32) (newId : Bytes)
  | symlink (to from_ : Bytes) (uid gid : UInt32) (newId : Bytes)
  | unlink (path : Bytes)
  | rmdir (path : Bytes)
  | link (src dest : Bytes)
  | rename (from_ to : Bytes)
  | chmod (path : Bytes) (mode : UInt32)
  | chown (path : Bytes) (uid gid : UInt32)
  | utimens (path : Bytes) (garbage : TimeSpec) (ts : Option (TimeSpec × TimeSpec))
  | getattr (path : Bytes)
  | open (path : Bytes) (trunc : Bool)
  | readlink (path : Bytes) (size : Nat)
  | opendir (path : Bytes)
  | truncate (path : Bytes) (size : Nat)
  | read (h : FH) (off len : Nat)
  | write (h : FH) (off : Nat) (d : Bytes)
  | ftruncate (h : FH) (size : Nat)
  | fgetattr (h : FH)
  | readdir (h : FH) (fill : Nat → Int)
  | flush (h : FH)
  | fsync (h : FH)

/-- The program of an operation and its result (see the definitions above; `/repo/sources/full_format.h:63-160`). -/
def FullOp.prog (cfg : FsCfg) : FullOp → Prog Int
  | .create p m u g i => vcreate cfg p m u g i
  | .mkdir p m u g i => vmkdir cfg p m u g i
  | .symlink t f u g i => vsymlink cfg t f u g i
  | .unlink p => vunlink cfg p
  | .rmdir p => vrmdir cfg p
  | .link s d => vlink cfg s d
  | .rename f t => vrename cfg f t
  | .chmod p m => withAttr cfg p false fun now a => a.chmod cfg.storeTime now m
  | .chown p u g => withAttr cfg p false fun now a => a.chown cfg.storeTime now u g
  | .utimens p garbage ts => withAttr cfg p false fun _ a => a.utimens cfg.storeTime garbage ts
  | .getattr p => (fullGetattr cfg ⟨none, none⟩ p).bind fun r => .ret r.1
  | .open p trunc => (fullOpen cfg p trunc).bind fun r => .ret r.1
  | .readlink p n => (fullReadlink cfg p n).bind fun r => .ret r.1
  | .opendir p => (fullOpendir cfg p).bind fun r => .ret r.1
  | .truncate p n => fullTruncate cfg p n
  | .read h off len => (fullRead cfg h off len).bind fun r => .ret r.1
  | .write h off d => fullWrite cfg h off d
  | .ftruncate h n => fullFtruncate cfg h n
  | .fgetattr h => (fullFgetattr cfg ⟨none, none⟩ h).bind fun r => .ret r.1
  | .readdir h fill => (fullReaddir cfg fill h).bind fun r => .ret r.1
  | .flush h => fullFlush h
  | .fsync h => fullFsync h

/-! ## Many threads -/

/-- The files, and the operations that have been started.
    (`/repo/sources/full_format.h:63-160`). -/
structure FullSys where
  fs : FullFs
  threads : List (Prog Int)

/-- What happens in a mounted file system.
    (`/repo/sources/full_format.h:63-160`). -/
inductive FullEvent where
  /-- a request arrives -/
  | start (op : FullOp)
  /-- a thread executes its next section -/
  | step (i : Nat)
  /-- a thread ends with an exception that the model does not predict, such as an I/O error, between two sections -/
  | fail (i : Nat) (e : Err)
  /-- the clock advances -/
  | tick (now : TimeSpec)
  /-- an object is evicted from the cache, and its `parent_id` is lost (`/repo/sources/file_table_v2.cpp:139-179`) -/
  | evict (id : Bytes)
  /-- the backing files of an unlinked file are removed (`/repo/sources/file_table_v2.cpp:139-179`); the model allows it at any
      time, the code does it when the last holder is gone -/
  | reap (id : Bytes)

namespace FullSys

/-- The next section of thread `i`.
    (`/repo/sources/full_format.cpp:42-651`). -/
def stepThread (s : FullSys) (i : Nat) : FullSys :=
  match s.threads[i]? with
  | some (.sec f k) =>
    match f s.fs with
    | (.ok b, fs') => { fs := fs', threads := s.threads.set i (k b) }
    | (.error e, fs') => { fs := fs', threads := s.threads.set i (.throw e) }
  | _ => s

/-- One event.
    (`/repo/sources/full_format.cpp:42-651`, `/repo/sources/file_table_v2.cpp:139-179`). -/
def step (cfg : FsCfg) (s : FullSys) : FullEvent → FullSys
  | .start op => { s with threads := s.threads ++ [op.prog cfg] }
  | .step i => s.stepThread i
  | .fail i e =>
    match s.threads[i]? with
    | some (.sec _ _) => { s with threads := s.threads.set i (.throw e) }
    | _ => s
  | .tick now => { s with fs := { s.fs with now := now } }
  | .evict id =>
    match s.fs.get id with
    | none => s
    | some n => { s with fs := s.fs.set id { n with parent := zeros 32 } }
  | .reap id =>
    match s.fs.get id with
    | none => s
    | some n =>
      if n.attr.nlink = 0 ∧ id ≠ kRootId then { s with fs := { s.fs with nodes := s.fs.nodes.filter fun p => p.1 ≠ id } } else s

/-- A history.
    (`/repo/sources/full_format.cpp:42-651`). -/
def run (cfg : FsCfg) : FullSys → List FullEvent → FullSys
  | s, [] => s
  | s, e :: rest => run cfg (s.step cfg e) rest

end FullSys

/-- A new file system: the root directory only (`/repo/sources/file_table_v2.cpp:20-40`). -/
def FullFs.fresh (cfg : FsCfg) (now : TimeSpec) : FullFs :=
  { nodes := [(kRootId, ⟨(FileAttr.setNumFree 0 FileAttr.blank).initializeEmpty cfg.storeTime now cfg.osUid cfg.osGid
      (0x1ed ||| modeForType typeDirectory) cfg.osUid cfg.osGid, zeros 32, [], []⟩)],
    now := now }

end Securefs

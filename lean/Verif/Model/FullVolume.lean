import Verif.Model.FullFs
import Verif.Model.DirFile
/-!
# A volume of the full format in its encrypted files

Models the file system as it is stored: `FuseHighLevelOps` (`/repo/sources/full_format.cpp:42-651`) over the table of objects
(`/repo/sources/file_table_v2.cpp:18-216`), whose objects are those of `Verif/Model/FileObj.lean` and `Verif/Model/DirFile.lean`: encrypted,
authenticated and padded backing files, directories as B-trees in them.  `Verif/Model/FullFs.lean` has the same operations over an ideal
table, in which a file is its bytes and a directory a list of entries.

Simplifications, common to all definitions here:
* One operation runs after the other.
* The objects that an operation has opened on its way are given back after the operation, not within it.
* The reference counts are replaced by the list of handles that the caller holds.
* An exception thrown by an object leaves it as it was before, unless it is a directory.
-/

namespace Securefs

/-- What a volume is opened with: the common part of its files, the comparison of names and the order in which the cache of a directory is
    walked, where the random generator stands when the `k`-th object is made (the generator is global,
    `/repo/sources/crypto.h`; an object only needs to draw from somewhere), and the user and group of the process
    (`/repo/sources/full_format.h:63-100`, `/repo/sources/files.cpp:85-92`). -/
structure VolEnv where
  env : FileEnv
  dirs : BCfg
  seed : Nat → Nat
  osUid : UInt32
  osGid : UInt32

/-- An object in memory (`/repo/sources/files.h:46-73`, `/repo/sources/btree_dir.h:111-119`): its class, the parts of `FileBase`, the node
    cache of a directory, and `parent_id`.  `closed` tells the objects in `Shard::cache` from those in `Shard::live_map`
    (`/repo/sources/file_table_v2.h:66-72`). -/
structure LiveObj where
  cls : Nat
  file : OpenFile
  cache : List (Nat × BNode)
  parent : Bytes
  closed : Bool

/-- A volume: the two backing files of each object that is not in memory, the objects in memory with theirs, the handles that
    the caller holds (`info->fh`), how many objects have been made, and the clock
    (`/repo/sources/file_table_v2.h:41-92`). -/
structure FullVol where
  store : List (Bytes × Bytes × Bytes)
  live : List (Bytes × LiveObj)
  held : List FH
  opened : Nat
  now : TimeSpec

/-- Computations on a volume: they change it, and return a value or throw
    (member functions of `/repo/sources/full_format.cpp:42-651`). -/
def VM (α : Type) := FullVol → Res α × FullVol

namespace VM

/-- Running one thing after the other; an exception ends the run (C++ control flow in `/repo/sources/full_format.cpp`). -/
def bind {α β : Type} (m : VM α) (f : α → VM β) : VM β := fun v =>
  match m v with
  | (.ok a, v') => f a v'
  | (.error e, v') => (.error e, v')

/-- Returning a value (C++ `return`, `/repo/sources/full_format.cpp`). -/
def ret {α : Type} (a : α) : VM α := fun v => (.ok a, v)

/-- Throwing an exception (C++ `throw`, `/repo/sources/full_format.cpp:518,583,606`). -/
def throw {α : Type} (e : Err) : VM α := fun v => (.error e, v)

end VM

/-! ## Objects -/

namespace FullVol

/-- The object with an identifier in memory (`/repo/sources/file_table_v2.cpp:63-71,146`). -/
def obj (v : FullVol) (id : Bytes) : Option LiveObj := v.live.lookup id

/-- Changing an object in memory (assignments to members, `/repo/sources/files.h:46-73`). -/
def setObj (v : FullVol) (id : Bytes) (o : LiveObj) : FullVol :=
  { v with live := v.live.map fun p => if p.1 = id then (id, o) else p }

end FullVol

/-- `FileBase::cast_as` (`/repo/sources/files.h:357-366`). -/
def LiveObj.castAs (o : LiveObj) (T : Nat) : Res Unit :=
  if modeForType o.cls ≠ o.file.attr.mode &&& sIfmt then .error (.vfs 1)
  else if o.cls ≠ T then .error (.vfs 1)
  else .ok ()

/-- An access to an object through a pointer to it (`/repo/sources/files.h:559-573`); a pointer to an object that is gone is undefined
    behaviour. -/
def onObj {β : Type} (id : Bytes) (f : TimeSpec → LiveObj → Res β × LiveObj) : VM β := fun v =>
  match v.obj id with
  | none => (.error .outOfBounds, v)
  | some o => ((f v.now o).1, v.setObj id (f v.now o).2)

/-- A call on a directory, after `cast_as<Directory>()` (`/repo/sources/full_format.cpp:210,234,297,338,536,599,624`). -/
def LiveObj.onDir {β : Type} (V : VolEnv) (id : Bytes) (m : DirFile.DM β) (o : LiveObj) : Res β × LiveObj :=
  match o.castAs typeDirectory with
  | .error e => (.error e, o)
  | .ok _ =>
    let r := m ⟨V.env, id, o.file, o.cache⟩
    (r.1, { o with file := r.2.file, cache := r.2.cache })

/-- A call on a regular file or a symbolic link, after `cast_as<RegularFile>()` or `cast_as<Symlink>()`
    (`/repo/sources/full_format.cpp:146,170,181,199,285,321,378,549,637`). -/
def LiveObj.onFile {β : Type} (T : Nat) (m : OpenFile → Res (OpenFile × β)) (o : LiveObj) : Res β × LiveObj :=
  match o.castAs T with
  | .error e => (.error e, o)
  | .ok _ =>
    match m o.file with
    | .error e => (.error e, o)
    | .ok (f, b) => (.ok b, { o with file := f })

/-- `Symlink::get` (`/repo/sources/files.h:413-420`). -/
def FileEnv.linkGetObj (E : FileEnv) (id : Bytes) (now : TimeSpec) (f : OpenFile) : Res (OpenFile × Bytes) :=
  match (E.stream id f).read f.st 0 ((E.stream id f).size f.st) with
  | .error e => .error e
  | .ok b => .ok ({ f with attr := f.attr.touchAtime E.storeTime now }, b)

/-- `Symlink::set` (`/repo/sources/files.h:422-426`), as `RegularFile::write` at 0. -/
def FileEnv.linkSetObj (E : FileEnv) (id : Bytes) (now : TimeSpec) (f : OpenFile) (target : Bytes) : Res OpenFile :=
  E.writeObj id now f 0 target

/-- `FileBase::flush` with the `subflush` of the class (`/repo/sources/files.cpp:247-277`). -/
def LiveObj.flush (V : VolEnv) (id : Bytes) (now : TimeSpec) (o : LiveObj) : Res Unit × LiveObj :=
  if o.cls = typeDirectory then
    let r := DirFile.flush V.dirs now ⟨V.env, id, o.file, o.cache⟩
    (r.1, { o with file := r.2.file, cache := r.2.cache })
  else
    match V.env.flushObj id o.file with
    | .error e => (.error e, o)
    | .ok f => (.ok (), { o with file := f })

/-! ## The table and the sections of the operations -/

section
variable (V : VolEnv)

/-- `FileTable::open_as` (`/repo/sources/file_table_v2.cpp:51-84`) with `construct` (lines 105-121). -/
def volOpenAs (id : Bytes) (type : Nat) : VM FH := fun v =>
  if id = kRootId then
    if type ≠ typeDirectory then (.error .runtime, v) else (.ok ⟨kRootId, typeDirectory⟩, v)
  else
    match v.obj id with
    | some o => (.ok ⟨id, o.cls⟩, v.setObj id { o with closed := false })
    | none =>
      match v.store.lookup id with
      | none => (.error (.vfs 2), v)
      | some (data, metaF) =>
        if type = typeRegular ∨ type = typeDirectory ∨ type = typeSymlink then
          match V.env.openObj id data metaF (V.seed v.opened) with
          | .error e => (.error e, v)
          | .ok f => (.ok ⟨id, type⟩, { v with live := (id, ⟨type, f, [], zeros 32, false⟩) :: v.live,
                                               store := v.store.filter fun p => p.1 ≠ id,
                                               opened := v.opened + 1 })
        else (.error .runtime, v)

/-- `create_as` (`/repo/sources/file_table_v2.cpp:93-104`) and `initialize_empty` (`/repo/sources/full_format.cpp:591-595`); `id` is
    the random identifier. -/
def volCreate (id : Bytes) (type : Nat) (mode uid gid : UInt32) : VM FH := fun v =>
  if id = kRootId then (.error .invalidArg, v)
  else if (v.obj id).isSome ∨ (v.store.lookup id).isSome then (.error (.vfs 17), v)
  else
    match V.env.createObj id v.now V.osUid V.osGid ((mode &&& 0x1ff) ||| modeForType type) uid gid (V.seed v.opened) with
    | .error e => (.error e, v)
    | .ok f => (.ok ⟨id, type⟩, { v with live := (id, ⟨type, f, [], zeros 32, false⟩) :: v.live, opened := v.opened + 1 })

/-- `get_parent_id` (`/repo/sources/files.h:188-192`). -/
def volGetParent (h : FH) : VM Bytes := onObj h.id fun _ o => (.ok o.parent, o)

/-- `set_parent_id` (`/repo/sources/files.h:194-198`). -/
def volSetParent (h : FH) (id : Bytes) : VM Unit := onObj h.id fun _ o => (.ok (), { o with parent := id })

/-- `get_entry` of a held directory (`/repo/sources/full_format.cpp:535-536,623-624`). -/
def volGet (h : FH) (name : Bytes) : VM (Option DirEntry) :=
  onObj h.id fun now => LiveObj.onDir V h.id (DirFile.getEntryT V.dirs now name)

/-- `add_entry` of a held directory (`/repo/sources/full_format.cpp:297,346-350,599`). -/
def volAdd (h : FH) (e : DirEntry) : VM Bool :=
  onObj h.id fun now => LiveObj.onDir V h.id (DirFile.addEntryT V.dirs now e)

/-- `remove_entry` of a held directory (`/repo/sources/full_format.cpp:210,234,338,342`). -/
def volRemove (h : FH) (name : Bytes) : VM (Option DirEntry) :=
  onObj h.id fun now => LiveObj.onDir V h.id (DirFile.removeEntryT V.dirs now name)

/-- `cast_as<Symlink>()->get()` (`/repo/sources/full_format.cpp:321,549,637`). -/
def volLinkGet (h : FH) : VM Bytes := onObj h.id fun now => LiveObj.onFile typeSymlink (V.env.linkGetObj h.id now)

/-- `cast_as<Symlink>()->set(to)` (`/repo/sources/full_format.cpp:285`). -/
def volLinkSet (h : FH) (target : Bytes) : VM Unit := onObj h.id fun now =>
  LiveObj.onFile typeSymlink fun f => (V.env.linkSetObj h.id now f target).map fun f => (f, ())

/-- The calls that change attributes only (`/repo/sources/full_format.cpp:217-218,255-256,269-273,355-356,388-389,603-604`). -/
def volAttr (h : FH) (op : AttrOp) : VM Unit := onObj h.id fun now o =>
  (.ok (), { o with file := { o.file with attr := V.env.attrCall now op o.file.attr } })

/-- The last section of `vrmdir` (`/repo/sources/full_format.cpp:241-245`).  The callback throws at the first entry; the model lists all
    entries before that. -/
def volUnlinkEmpty (h : FH) : VM Unit := onObj h.id fun now =>
  LiveObj.onDir V h.id do
    let l ← DirFile.iterateEntriesT now
    match l with
    | _ :: _ => DirFile.bthrow (.vfs 39)
    | [] => DirFile.modifyAttr FileAttr.unlink

/-- `get_real_type` (`/repo/sources/full_format.cpp:297`, `/repo/sources/files.cpp:220`). -/
def volRealType (h : FH) : VM Nat := onObj h.id fun _ o => (.ok o.file.attr.realType, o)

/-- `set_nlink(get_nlink() + 1)` (`/repo/sources/full_format.cpp:300`). -/
def volAddLink (h : FH) : VM Bool := onObj h.id fun now o =>
  (.ok true, { o with file := { o.file with attr := V.env.attrCall now (.setNlink (o.file.attr.nlink + 1)) o.file.attr } })

/-- The last section of `vlink` (`/repo/sources/full_format.cpp:296-303`). -/
def volLink (base : FH) (last : Bytes) (f : FH) : VM Bool :=
  (volRealType f).bind fun type =>
  (volAdd V base ⟨last, f.id, type⟩).bind fun added =>
  if added then volAddLink V f else .ret false

/-- The locked part of `vrename` (`/repo/sources/full_format.cpp:335-351`). -/
def volRename (bf : FH) (lf : Bytes) (bt : FH) (lt : Bytes) : VM RenameOut :=
  (volRemove V bf lf).bind fun r =>
  match r with
  | none => .ret .missing
  | some from_ =>
    (volRemove V bt lt).bind fun r2 =>
    match r2 with
    | some there =>
      if from_.id = there.id then
        (volAdd V bf ⟨lf, from_.id, from_.type⟩).bind fun _ =>
        (volAdd V bt ⟨lt, there.id, there.type⟩).bind fun _ => .ret .done
      else (volAdd V bt ⟨lt, from_.id, from_.type⟩).bind fun _ => .ret (.replaced there)
    | none => (volAdd V bt ⟨lt, from_.id, from_.type⟩).bind fun _ => .ret .done

/-- `RegularFile::read` of a held file (`/repo/sources/full_format.cpp:170`). -/
def volRead (h : FH) (off len : Nat) : VM Bytes := onObj h.id fun now =>
  LiveObj.onFile typeRegular fun f => V.env.readObj h.id now f off len

/-- `RegularFile::write` of a held file (`/repo/sources/full_format.cpp:181`). -/
def volWrite (h : FH) (off : Nat) (d : Bytes) : VM Unit := onObj h.id fun now =>
  LiveObj.onFile typeRegular fun f => (V.env.writeObj h.id now f off d).map fun f => (f, ())

/-- `RegularFile::truncate` of a held file (`/repo/sources/full_format.cpp:146,199,378`). -/
def volTruncate (h : FH) (n : Nat) : VM Unit := onObj h.id fun now =>
  LiveObj.onFile typeRegular fun f => (V.env.truncateObj h.id now f n).map fun f => (f, ())

/-- `flush` of a held object (`/repo/sources/full_format.cpp:184-190`). -/
def volFlush (h : FH) : VM Unit := onObj h.id fun now o => o.flush V h.id now

/-- `fsync` of a held object (`/repo/sources/full_format.cpp:360-369`, `/repo/sources/files.h:337-341`): the backing files are
    synchronized; the object is not flushed. -/
def volFsync (h : FH) : VM Unit := onObj h.id fun _ o => (.ok (), o)

/-- `stat` of a held object (`/repo/sources/full_format.cpp:49-51,60-62`, `/repo/sources/files.cpp:222-243`), without what comes from the
    backing file and the size of blocks, and without `owner_override_`. -/
def volStat (h : FH) : VM FullStat := onObj h.id fun _ o =>
  (.ok { ino := shownInode h.id
         uid := o.file.attr.uid
         gid := o.file.attr.gid
         nlink := o.file.attr.nlink
         mode := o.file.attr.mode
         size := some ((V.env.stream h.id o.file).size o.file.st)
         times := if V.env.storeTime then some (o.file.attr.atime, o.file.attr.mtime, o.file.attr.ctime, o.file.attr.btime) else none }, o)

/-- The locked part of `vreaddir` (`/repo/sources/full_format.cpp:98-124`); `fill i` is the result of `filler` for the `i`-th entry.  The
    model lists all entries before it calls `filler`. -/
def volReaddir (fill : Nat → Int) (h : FH) : VM (List DirItem) := onObj h.id fun now o =>
  match o.onDir V h.id (DirFile.iterateEntriesT now) with
  | (.error e, o') => (.error e, o')
  | (.ok es, o') =>
    match fillEntries fill 0 es with
    | .error e => (.error e, o')
    | .ok l => (.ok (⟨[46], shownInode h.id, 0x4000⟩ :: ⟨[46, 46], shownInode o.parent, 0x4000⟩ :: l), o')

/-! ## Operations -/

/-- The loop of `generic_open` (`/repo/sources/full_format.cpp:520-564`).  `rec` is the recursive call for the target of a
    symbolic link. -/
def volWalk (rec : Bytes → FH → List Bytes → VM (Option FH)) : Bytes → FH → List Bytes → VM (Option FH)
  | _, parent, [] => .ret (some parent)
  | parentId, parent, s :: rest =>
    if s = dotName then volWalk rec parentId parent rest
    else if s = dotDotName then
      (volGetParent parent).bind fun parentId =>
      (volOpenAs V parentId typeDirectory).bind fun parent =>
      volWalk rec parentId parent rest
    else
      (volGet V parent s).bind fun found =>
      match found with
      | none => .ret none
      | some e =>
        (volOpenAs V e.id e.type).bind fun child =>
        (volSetParent child parentId).bind fun _ =>
        if e.type = typeSymlink then
          (volLinkGet V child).bind fun target =>
          (rec parentId parent (splitPath target)).bind fun resolved =>
          match resolved with
          | none => .ret none
          | some c => volWalk rec c.id c rest
        else volWalk rec child.id child rest

/-- `generic_open` (`/repo/sources/full_format.cpp:510-565`); `depth` is `16 - recursion_depth`. -/
def volGenericOpen : (depth : Nat) → Bytes → FH → List Bytes → VM (Option FH)
  | 0, _, _, _ => .throw (.vfs 40)
  | depth + 1, parentId, parent, splits => volWalk V (volGenericOpen depth) parentId parent splits

/-- `open_base` (`/repo/sources/full_format.cpp:567-586`). -/
def volOpenBase (path : Bytes) : VM (FH × Bytes) :=
  (volOpenAs V kRootId typeDirectory).bind fun root =>
  match (splitPath path).getLast? with
  | none => .ret (root, [])
  | some last =>
    if (splitPath path).length = 1 then .ret (root, last)
    else
      (volGenericOpen V maxDepth kRootId root (splitPath path).dropLast).bind fun r =>
      match r with
      | none => .throw (.vfs 2)
      | some d => .ret (d, last)

/-- `open_all` (`/repo/sources/full_format.cpp:610-651`). -/
def volOpenAll (path : Bytes) (resolveLast : Bool) : VM (Option FH) :=
  if path = [] ∨ path = [slash] then (volOpenAs V kRootId typeDirectory).bind fun r => .ret (some r)
  else
    (volOpenBase V path).bind fun (base, last) =>
    (volGet V base last).bind fun found =>
    match found with
    | none => .ret none
    | some e =>
      (volOpenAs V e.id e.type).bind fun holder =>
      (volSetParent holder base.id).bind fun _ =>
      if resolveLast = true ∧ holder.cls = typeSymlink then
        (volLinkGet V holder).bind fun target =>
        volGenericOpen V maxDepth base.id base (splitPath target)
      else .ret (some holder)

/-- `create` (`/repo/sources/full_format.cpp:587-609`); `newId` is the random identifier drawn by `create_as`. -/
def volCreateFile (path : Bytes) (mode : UInt32) (type : Nat) (uid gid : UInt32) (newId : Bytes) : VM FH :=
  (volOpenBase V path).bind fun (base, last) =>
  (volCreate V newId type mode uid gid).bind fun holder =>
  (volAdd V base ⟨last, holder.id, type⟩).bind fun success =>
  if success then
    (volSetParent holder base.id).bind fun _ => .ret holder
  else
    (volAttr V holder .unlink).bind fun _ => .throw (.vfs 17)

/-- What an operation tells the caller (`/repo/sources/full_format.h:63-160`): its result, and what it fills in. -/
inductive VolAnswer where
  | code (n : Int)
  | bytes (n : Int) (b : Bytes)
  | stat (n : Int) (st : Option FullStat)
  | items (n : Int) (l : List DirItem)
  /-- the object that `info->fh` refers to -/
  | handle (n : Int) (h : Option FH)
  deriving DecidableEq

/-- `open_all` and then something with the object, as `vgetattr`, `vopen`, `vopendir`, `vchmod`, `vchown`, `vreadlink`, `vtruncate` and
    `vutimens` do (`/repo/sources/full_format.cpp:42-53,65-78,136-150,248-275,305-325,370-391`). -/
def volWith (path : Bytes) (resolveLast : Bool) (absent : VolAnswer) (f : FH → VM VolAnswer) : VM VolAnswer :=
  (volOpenAll V path resolveLast).bind fun opened =>
  match opened with
  | none => .ret absent
  | some h => f h

/-- `vunlink` and `vrmdir` (`/repo/sources/full_format.cpp:202-247`), which differ in what they do with the object. -/
def volRemoveName (path : Bytes) (f : FH → VM Unit) : VM VolAnswer :=
  (volOpenBase V path).bind fun (dir, last) =>
  (volRemove V dir last).bind fun r =>
  match r with
  | none => .ret (.code (-2))
  | some e =>
    (volOpenAs V e.id e.type).bind fun fp =>
    (f fp).bind fun _ => .ret (.code 0)

/-- `vrename` (`/repo/sources/full_format.cpp:326-359`). -/
def volRenameOp (from_ dest : Bytes) : VM VolAnswer :=
  (volOpenBase V from_).bind fun (bf, lf) =>
  (volOpenBase V dest).bind fun (bt, lt) =>
  (volRename V bf lf bt lt).bind fun r =>
  match r with
  | .missing => .ret (.code (-2))
  | .done => .ret (.code 0)
  | .replaced e =>
    (volOpenAs V e.id e.type).bind fun holder =>
    (volAttr V holder .unlink).bind fun _ => .ret (.code 0)

/-- `vlink` (`/repo/sources/full_format.cpp:288-304`). -/
def volLinkOp (src dest : Bytes) : VM VolAnswer :=
  volWith V src true (.code (-2)) fun f =>
    (volOpenBase V dest).bind fun (base, last) =>
    (volLink V base last f).bind fun added => .ret (.code (if added then 0 else -17))

/-- The operations (`/repo/sources/full_format.cpp:42-391`). -/
def volOp : FullOp → VM VolAnswer
  | .create path mode uid gid newId =>
    (volCreateFile V path mode typeRegular uid gid newId).bind fun h => .ret (.handle 0 (some h))
  | .mkdir path mode uid gid newId =>
    (volCreateFile V path mode typeDirectory uid gid newId).bind fun _ => .ret (.code 0)
  | .symlink target from_ uid gid newId =>
    (volCreateFile V from_ 0x1a4 typeSymlink uid gid newId).bind fun holder =>
    (volLinkSet V holder target).bind fun _ => .ret (.code 0)
  | .unlink path => volRemoveName V path fun fp => volAttr V fp .unlink
  | .rmdir path => volRemoveName V path fun fp => volUnlinkEmpty V fp
  | .link src dest => volLinkOp V src dest
  | .rename from_ dest => volRenameOp V from_ dest
  | .chmod path m => volWith V path false (.code (-2)) fun h => (volAttr V h (.chmod m)).bind fun _ => .ret (.code 0)
  | .chown path u g => volWith V path false (.code (-2)) fun h => (volAttr V h (.chown u g)).bind fun _ => .ret (.code 0)
  | .utimens path garbage ts => volWith V path false (.code (-2)) fun h => (volAttr V h (.utimens garbage ts)).bind fun _ => .ret (.code 0)
  | .getattr path => volWith V path false (.stat (-2) none) fun h => (volStat V h).bind fun st => .ret (.stat 0 (some st))
  | .«open» path trunc => volWith V path true (.handle (-2) none) fun h =>
      if trunc then (volTruncate V h 0).bind fun _ => .ret (.handle 0 (some h)) else .ret (.handle 0 (some h))
  | .readlink path size =>
    if size = 0 then .ret (.bytes (-14) [])
    else if path = [slash] then .ret (.bytes (-21) [])
    else volWith V path false (.bytes (-2) []) fun h => (volLinkGet V h).bind fun d => .ret (.bytes 0 (d.take (size - 1)))
  | .opendir path => volWith V path true (.handle (-2) none) fun h =>
      if h.cls ≠ typeDirectory then .ret (.handle (-20) none) else .ret (.handle 0 (some h))
  | .truncate path n => volWith V path true (.code (-2)) fun h => (volTruncate V h n).bind fun _ => .ret (.code 0)
  | .read h off len => (volRead V h off len).bind fun b => .ret (.bytes (toCInt b.length) b)
  | .write h off d => (volWrite V h off d).bind fun _ => .ret (.code (toCInt d.length))
  | .ftruncate h n => (volTruncate V h n).bind fun _ => .ret (.code 0)
  | .fgetattr h => (volStat V h).bind fun st => .ret (.stat 0 (some st))
  | .readdir h fill =>
    if h.cls ≠ typeDirectory then .ret (.items (-20) [])
    else (volReaddir V fill h).bind fun l => .ret (.items 0 l)
  | .flush h => (volFlush V h).bind fun _ => .ret (.code 0)
  | .fsync h => (volFsync h).bind fun _ => .ret (.code 0)

/-! ## What happens to the table beside the operations -/

/-- `FileTable::close` and `close_internal` (`/repo/sources/file_table_v2.cpp:122-180`): nothing while the object is held; the root is
    flushed; an object without links is destroyed and its backing files are removed; any other is flushed and moved to the closed
    ones.  A flush that throws leaves the object open. -/
def volClose (id : Bytes) : VM Unit := fun v =>
  match v.obj id with
  | none => (.ok (), v)
  | some o =>
    if o.closed = true ∨ v.held.any (fun h => h.id == id) = true then (.ok (), v)
    else if id = kRootId then ((o.flush V id v.now).1, v.setObj id (o.flush V id v.now).2)
    else if o.file.attr.nlink = 0 then (.ok (), { v with live := v.live.filter fun p => p.1 ≠ id })
    else
      match o.flush V id v.now with
      | (.error e, o') => (.error e, v.setObj id o')
      | (.ok _, o') => (.ok (), v.setObj id { o' with closed := true })

/-- A closed object is dropped from the memory (`/repo/sources/file_table_v2.cpp:181-195`); the model lets it happen to any of them at any
    time. -/
def volEject (id : Bytes) : VM Unit := fun v =>
  match v.obj id with
  | none => (.ok (), v)
  | some o =>
    if o.closed = true then
      (.ok (), { v with live := v.live.filter fun p => p.1 ≠ id,
                        store := (id, o.file.st.data, o.file.st.metaS.file) :: v.store.filter fun p => p.1 ≠ id })
    else (.ok (), v)

/-- The flushes of the destructor (`/repo/sources/file_table_v2.cpp:198-216`): the backing files that they leave.  An exception in a
    destructor ends the program. -/
def volFlushAll (now : TimeSpec) : List (Bytes × LiveObj) → Res (List (Bytes × Bytes × Bytes))
  | [] => .ok []
  | (id, o) :: rest =>
    match o.flush V id now with
    | (.error e, _) => .error e
    | (.ok _, o') =>
      match volFlushAll now rest with
      | .error e => .error e
      | .ok l => .ok ((id, o'.file.st.data, o'.file.st.metaS.file) :: l)

/-- `FileTable::init` (`/repo/sources/file_table_v2.cpp:20-40`): the root is opened, or made if it is not there. -/
def volMount (store : List (Bytes × Bytes × Bytes)) (opened : Nat) (now : TimeSpec) : Res FullVol :=
  match store.lookup kRootId with
  | some (data, metaF) =>
    match V.env.openObj kRootId data metaF (V.seed opened) with
    | .error e => .error e
    | .ok f => .ok ⟨store.filter fun p => p.1 ≠ kRootId, [(kRootId, ⟨typeDirectory, f, [], zeros 32, false⟩)], [], opened + 1, now⟩
  | none =>
    match V.env.createObj kRootId now V.osUid V.osGid (0x1ed ||| modeForType typeDirectory) V.osUid V.osGid (V.seed opened) with
    | .error e => .error e
    | .ok f => .ok ⟨store, [(kRootId, ⟨typeDirectory, f, [], zeros 32, false⟩)], [], opened + 1, now⟩

/-- The table is destroyed and made again: the volume is unmounted and mounted
    (`/repo/sources/file_table_v2.cpp:20-40,198-216`). -/
def volRemount : VM Unit := fun v =>
  match volFlushAll V v.now v.live with
  | .error e => (.error e, v)
  | .ok l =>
    match volMount V (l ++ v.store) v.opened v.now with
    | .error e => (.error e, v)
    | .ok v' => (.ok (), v')

/-- What happens to a volume (`/repo/sources/full_format.h:63-160`, `/repo/sources/file_table_v2.cpp:122-216`). -/
inductive VolEvent where
  | op (op : FullOp)
  | release (h : FH)
  | releasedir (h : FH)
  | tick (now : TimeSpec)
  | close (id : Bytes)
  | eject (id : Bytes)
  | remount

/-- The handle that an operation gives to the caller, who holds it from then on
    (`/repo/sources/full_format.cpp:76,133,148`). -/
def VolAnswer.given : Res VolAnswer → Option FH
  | .ok (.handle _ h) => h
  | _ => none

/-- One event.  Harness of the model (`/repo/sources/full_format.h:63-160`, `/repo/sources/full_format.cpp:79-89,151-161`). -/
def volStep (v : FullVol) : VolEvent → Res VolAnswer × FullVol
  | .op op =>
    let r := volOp V op v
    (r.1, match VolAnswer.given r.1 with
      | some h => { r.2 with held := h :: r.2.held }
      | none => r.2)
  | .release h => (.ok (.code (fullRelease h).1), if (fullRelease h).2 then { v with held := v.held.erase h } else v)
  | .releasedir h => (.ok (.code (fullReleasedir h).1), if (fullReleasedir h).2 then { v with held := v.held.erase h } else v)
  | .tick now => (.ok (.code 0), { v with now := now })
  | .close id => let r := volClose V id v; (r.1.map fun _ => .code 0, r.2)
  | .eject id => let r := volEject id v; (r.1.map fun _ => .code 0, r.2)
  | .remount => let r := volRemount V v; (r.1.map fun _ => .code 0, r.2)

/-- A history.  Harness of the model (`/repo/sources/full_format.h:63-160`). -/
def volRun : FullVol → List VolEvent → List (Res VolAnswer) × FullVol
  | v, [] => ([], v)
  | v, e :: rest =>
    let r := volStep V v e
    let q := volRun r.2 rest
    (r.1 :: q.1, q.2)

end

end Securefs

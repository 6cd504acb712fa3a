import Verif.Model.LiteFs
import Verif.Spec.LiteVolume
/-!
# The lite file system as a whole

Models `FuseHighLevelOps` of `/repo/sources/lite_format.cpp:750-1225` over the file system of the host: every callback translates the path, keeps
the tables of long names, calls the system, and encrypts or decrypts contents and link targets.  The host is `Posix.Fs`
(`/repo/sources/unix.cpp:327-470`); the files `.long_names.db` are kept beside it.

Not represented: extended attributes (see `XattrCfg`), `statfs`, `flush` and `fsync` (see `fsyncLite`), locks (the callbacks are
atomic), and errors of the system inside the calls on open files.
-/

namespace Securefs

/-- The virtual functions of a `NameTranslator` (`/repo/sources/lite_format.h:204-227`).  `fullPath` is `encrypt_full_path`, with what it writes to
    `*out_encrypted_last_component` if that starts empty. -/
structure Translator where
  noOp : Bool
  fullPath : Bytes → Res (Bytes × Bytes)
  decode : Bytes → Res NameResult
  encLink : Bytes → Res Bytes
  decLink : Bytes → Res Bytes

/-- `NewStyleNameTranslator` (`/repo/sources/lite_format.cpp:325-517`). -/
def NewStyle.translator (T : NewStyle) : Translator := ⟨false, T.encryptFullPath, T.decryptComponent, T.encryptSymlink, T.decryptSymlink⟩

/-- `LegacyNameTranslator` (`/repo/sources/lite_format.cpp:167-253`), which never writes the second result. -/
def legacyTranslator (S : Siv) : Translator where
  noOp := false
  fullPath p :=
    match legacyEncryptFullPath S p with
    | .error e => .error e
    | .ok b => .ok (b, [])
  decode := decodeName S
  encLink := legacyEncryptSymlink S
  decLink := legacyDecryptSymlink S

/-- `NoOpNameTranslator` (`/repo/sources/lite_format.cpp:519-551`). -/
def noOpTranslator : Translator := ⟨true, fun p => .ok (noOpEncryptFullPath p, []), fun p => .ok (.name p), .ok, .ok⟩

/-- The volume: its translator, the parameters of its streams, `max_padding_size_`, and the order in which the system lists a directory
    (`/repo/sources/lite_format.h:293-430`). -/
structure LVol where
  tr : Translator
  cfg : LiteCfg
  maxPad : Nat
  order : List Bytes → List Bytes

/-- What `info->fh` points to (`/repo/sources/lite_format.cpp:724-747`): a `File` over a file of the host, or a `DirectoryImpl` with the directory that
    its traverser has opened and its path `dir_abs_path_`. -/
inductive LHandle where
  | file (ino : Nat) (obj : LiteObj)
  | dir (ino : Nat) (path : Bytes)

/-- The state: the host's tree without the tables of long names, the rows of each table (`none` if the directory has no file
    `.long_names.db`), the number of random requests, and the open handles (`/repo/sources/lite_format.h:293-430`,
    `/repo/sources/lite_long_name_lookup_table.cpp:13-38`). -/
structure LSys where
  back : Posix.Fs
  tables : Nat → Option (List (Bytes × Bytes))
  rng : Nat
  handles : List (Option LHandle)

/-- How the kernel resolves a path relative to the directory of the volume (`/repo/sources/unix.cpp:327-470`): the components between slashes,
    where empty ones and `.` mean nothing.  Absolute paths do not occur, see `/repo/sources/lite_format.cpp:175-193,360-363,524-532`. -/
def osParts (path : Bytes) : List Bytes := (splitSlash [] path).filter fun c => !(c.isEmpty || c == [dot])

/-- `get_last_component` (`/repo/sources/lite_format.cpp:1253-1256`). -/
def afterSlash (path : Bytes) : Bytes := (path.reverse.takeWhile (· != slash)).reverse

/-- `remove_last_component` (`/repo/sources/lite_format.cpp:1258-1261`). -/
def uptoSlash (path : Bytes) : Bytes := (path.reverse.dropWhile (· != slash)).reverse

/-- A path as FUSE passes it (`/repo/sources/lite_format.cpp:762-1070`). -/
def fusePath (path : List Bytes) : Bytes := if path.isEmpty then [slash] else path.flatMap (slash :: ·)

/-- `kLongNameTableFileName` (`/repo/sources/lite_format.h:31`). -/
def longTableName : Bytes := [46, 108, 111, 110, 103, 95, 110, 97, 109, 101, 115, 46, 100, 98]

/-- The errors of the system become exceptions with the same number (`THROW_POSIX_EXCEPTION`, `/repo/sources/unix.cpp:327-470`). -/
def osRes {α : Type} (fault : Option Nat) (r : Except Nat α) : Res α :=
  match fault with
  | some e => .error (.vfs e)
  | none =>
    match r with
    | .error e => .error (.vfs e)
    | .ok x => .ok x

/-- A call of the system that changes the tree, or fails and leaves it (`/repo/sources/unix.cpp:327-470`). -/
def LSys.sys (s : LSys) (fault : Option Nat) (r : Except Nat Posix.Fs) : Res Unit × LSys :=
  match osRes fault r with
  | .error e => (.error e, s)
  | .ok fs => (.ok (), { s with back := fs })

/-- The directories that hold a table: for the system they are not empty (`/repo/sources/lite_format.cpp:963-968`). -/
def LSys.full (s : LSys) : Nat → Bool := fun d => (s.tables d).isSome

/-- The directory of the table that `long_name_table_file_name` names (`/repo/sources/lite_format.cpp:1187-1191`); if it is no directory, opening the table
    throws. -/
def LSys.tableDir (s : LSys) (encPath : Bytes) : Res Nat :=
  match s.back.opendir (osParts (uptoSlash encPath)) with
  | .error _ => .error .runtime
  | .ok d => .ok d

/-- The rows of a table, none if there is no table (`/repo/sources/lite_long_name_lookup_table.cpp:40-54`). -/
def LSys.rows (s : LSys) (d : Nat) : List (Bytes × Bytes) :=
  match s.tables d with
  | none => []
  | some rows => rows

/-- Writes the rows of a table; the file exists then (`/repo/sources/lite_long_name_lookup_table.cpp:40-54,79-99`). -/
def LSys.setRows (s : LSys) (d : Nat) (rows : List (Bytes × Bytes)) : LSys := { s with tables := upd s.tables d (some rows) }

namespace LVol
variable (V : LVol)

/-- `encrypt_full_path` without a second result (`/repo/sources/lite_format.h:207-214`). -/
def encPath (path : List Bytes) : Res Bytes :=
  match V.tr.fullPath (fusePath path) with
  | .error e => .error e
  | .ok p => .ok p.1

/-- `process_possible_long_name` (`/repo/sources/lite_format.cpp:1192-1225`); `none` is `kIgnore`.  The transaction is rolled back if the callback
    throws; that committing succeeds is assumed (otherwise see `withLongName`).  Opening the table creates its file, which stays. -/
def withLong {α : Type} (action : Option LAction) (path : List Bytes) (callback : Bytes → LSys → Res α × LSys) (s : LSys) : Res α × LSys :=
  match V.tr.fullPath (fusePath path) with
  | .error e => (.error e, s)
  | .ok p =>
    match action with
    | none => callback p.1 s
    | some a =>
      if p.2.isEmpty then callback p.1 s
      else
        match s.tableDir p.1 with
        | .error e => (.error e, s)
        | .ok d =>
          let r := callback p.1 (s.setRows d (a.apply ⟨afterSlash p.1, p.2⟩ (s.rows d)))
          match r.1 with
          | .error e => (.error e, r.2.setRows d (s.rows d))
          | .ok x => (.ok x, r.2)

/-- `vmkdir` (`/repo/sources/lite_format.cpp:952-958`); the system makes the node `id` with the attributes `attr`. -/
def mkdir (fault : Option Nat) (path : List Bytes) (attr : Posix.Attr) (id : Nat) (s : LSys) : Res Unit × LSys :=
  V.withLong (some .create) path (fun b s => s.sys fault (s.back.add (osParts b) id ⟨.dir [], attr⟩)) s

/-- `vsymlink` (`/repo/sources/lite_format.cpp:984-992`). -/
def symlink (fault : Option Nat) (target : Bytes) (path : List Bytes) (attr : Posix.Attr) (id : Nat) (s : LSys) : Res Unit × LSys :=
  V.withLong (some .create) path (fun b s =>
    match V.tr.encLink target with
    | .error e => (.error e, s)
    | .ok t => s.sys fault (s.back.add (osParts b) id ⟨.link t, attr⟩)) s

/-- `vlink` (`/repo/sources/lite_format.cpp:993-1001`). -/
def link (fault : Option Nat) (src dst : List Bytes) (s : LSys) : Res Unit × LSys :=
  V.withLong (some .create) dst (fun b s =>
    match V.encPath src with
    | .error e => (.error e, s)
    | .ok a => s.sys fault (s.back.link (osParts a) (osParts b))) s

/-- `vunlink` (`/repo/sources/lite_format.cpp:945-951`). -/
def unlink (fault : Option Nat) (path : List Bytes) (s : LSys) : Res Unit × LSys :=
  V.withLong (some .delete) path (fun b s => s.sys fault (s.back.unlink (osParts b))) s

/-- `remove_file_nothrow` of the table inside a directory (`/repo/sources/lite_format.cpp:965-966`). -/
def dropTable (b : Bytes) (s : LSys) : LSys :=
  match s.back.opendir (osParts b) with
  | .error _ => s
  | .ok d => { s with tables := upd s.tables d none }

/-- `vrmdir` (`/repo/sources/lite_format.cpp:959-970`). -/
def rmdir (fault : Option Nat) (path : List Bytes) (s : LSys) : Res Unit × LSys :=
  V.withLong (some .delete) path (fun b s =>
    (dropTable b s).sys fault ((dropTable b s).back.rmdir (dropTable b s).full (osParts b))) s

/-- The changes of the tables in `vrename` (`/repo/sources/lite_format.cpp:1029-1044`, `/repo/sources/lite_long_name_lookup_table.cpp:120-157`): both tables
    are opened, and created if need be. -/
def renameRows (p q : Bytes × Bytes) (d e : Nat) (s : LSys) : LSys :=
  let s1 := (s.setRows d (s.rows d))
  let s2 := s1.setRows e (s1.rows e)
  let s3 := if p.2.isEmpty then s2 else s2.setRows d (dropKey (s2.rows d) (afterSlash p.1))
  if q.2.isEmpty then s3 else s3.setRows e (insertOrIgnore (s3.rows e) (afterSlash q.1) q.2)

/-- `vrename` (`/repo/sources/lite_format.cpp:1019-1047`). -/
def rename (fault : Option Nat) (src dst : List Bytes) (s : LSys) : Res Unit × LSys :=
  match V.tr.fullPath (fusePath src) with
  | .error e => (.error e, s)
  | .ok p =>
    match V.tr.fullPath (fusePath dst) with
    | .error e => (.error e, s)
    | .ok q =>
      if p.2.isEmpty && q.2.isEmpty then s.sys fault (s.back.rename s.full (osParts p.1) (osParts q.1))
      else
        match s.tableDir p.1 with
        | .error e => (.error e, s)
        | .ok d =>
          match s.tableDir q.1 with
          | .error e => (.error e, s.setRows d (s.rows d))
          | .ok e =>
            let s1 := renameRows p q d e s
            let r := s1.sys fault (s1.back.rename s1.full (osParts p.1) (osParts q.1))
            match r.1 with
            | .error x => (.error x, (r.2.setRows d (s.rows d)).setRows e (s.rows e))
            | .ok x => (.ok x, r.2)

/-- `vchmod`, `vchown` and `vutimens` (`/repo/sources/lite_format.cpp:971-983,1066-1070`). -/
def setAttr (fault : Option Nat) (f : Posix.Attr → Posix.Attr) (path : List Bytes) (s : LSys) : Res Unit × LSys :=
  match V.encPath path with
  | .error e => (.error e, s)
  | .ok b => s.sys fault (s.back.setAttr f (osParts b))

/-- The size of a link that `vgetattr` reports (`/repo/sources/lite_format.cpp:777-801`); on Linux the length read is that reported by `lstat`. -/
def linkSize (stored : Bytes) : Res Nat :=
  if stored.length = 0 then .ok 0
  else if V.tr.noOp then .ok stored.length
  else
    match V.tr.decLink stored with
    | .error e => .error e
    | .ok t => .ok t.length

/-- `vgetattr` (`/repo/sources/lite_format.cpp:768-836`).  `ENOENT` is returned, not thrown, which is the same to the caller. -/
def getattr (fault : Option Nat) (path : List Bytes) (s : LSys) : Res Posix.Stat :=
  match V.encPath path with
  | .error e => .error e
  | .ok b =>
    match osRes fault (s.back.stat (osParts b)) with
    | .error e => .error e
    | .ok st =>
      match s.back st.ino with
      | some ⟨.link t, _⟩ =>
        match V.linkSize t with
        | .error e => .error e
        | .ok n => .ok { st with size := n }
      | some ⟨.file c, _⟩ =>
        match V.cfg.statSize V.maxPad ⟨c, s.rng⟩ with
        | .error e => .error e
        | .ok n => .ok { st with size := n }
      | _ => .ok st

/-- `vreadlink` (`/repo/sources/lite_format.cpp:1002-1018`). -/
def readlink (fault : Option Nat) (path : List Bytes) (size : Nat) (s : LSys) : Res Bytes :=
  if size ≤ 1 then .ok (zeros size)
  else
    match V.encPath path with
    | .error e => .error e
    | .ok b =>
      match osRes fault (s.back.readlink (osParts b)) with
      | .error e => .error e
      | .ok t => vreadlink V.tr.decLink t size

/-- The constructor of `File` (`/repo/sources/lite_format.h:137-142`) over a file of the host. -/
def mkFile (i : Nat) (s : LSys) : Res LHandle × LSys :=
  match s.back.data i with
  | none => (.error .runtime, s)
  | some c =>
    match V.cfg.openFile ⟨c, s.rng⟩ with
    | .error e => (.error e, s)
    | .ok p => (.ok (.file i p.1), { s with back := s.back.setData i p.2.file, rng := p.2.rng })

/-- `O_EXCL` of Linux on x86 (for `/repo/sources/lite_format.cpp:892`). -/
def oExcl : BitVec 32 := 128

/-- The call of the system in `open` (`/repo/sources/unix.cpp:327-334`): `O_CREAT` makes a file if there is nothing, with
    `O_EXCL` it is an error (`EEXIST`, 17) if there is something. -/
def sysOpen (fault : Option Nat) (b : Bytes) (flags : BitVec 32) (attr : Posix.Attr) (id : Nat) (s : LSys) : Res (Nat × Posix.Fs) :=
  osRes fault
    (if flags &&& oCreat ≠ 0 then
      match s.back.add (osParts b) id ⟨.file [], attr⟩ with
      | .error e =>
        if flags &&& oExcl = 0 ∧ e = 17 then s.back.openPath (decide (flags &&& oTrunc ≠ 0)) (osParts b) else .error e
      | .ok fs => .ok (id, fs)
    else s.back.openPath (decide (flags &&& oTrunc ≠ 0)) (osParts b))

/-- The callback of `open` (`/repo/sources/lite_format.cpp:1172-1178`). -/
def openCallback (fault : Option Nat) (flags : BitVec 32) (attr : Posix.Attr) (id : Nat) (b : Bytes) (s : LSys) : Res LHandle × LSys :=
  match sysOpen fault b flags attr id s with
  | .error e => (.error e, s)
  | .ok p => V.mkFile p.1 { s with back := p.2 }

/-- A call on the stream of a `File` (`/repo/sources/lite_format.h:144-175`). -/
def onFile (i : Nat) (o : LiteObj) (op : Spec.Op) (s : LSys) : Res Spec.Out × LSys :=
  match s.back.data i with
  | none => (.error .runtime, s)
  | some c =>
    match V.cfg.stream.step (o, ⟨c, s.rng⟩) op with
    | .error e => (.error e, s)
    | .ok p => (.ok p.2, { s with back := s.back.setData i p.1.2.file, rng := p.1.2.rng })

/-- `open` (`/repo/sources/lite_format.cpp:1153-1186`). -/
def openAt (fault : Option Nat) (path : List Bytes) (flags : BitVec 32) (attr : Posix.Attr) (id : Nat) (s : LSys) : Res LHandle × LSys :=
  let r := V.withLong (if openFlags flags &&& oCreat ≠ 0 then some .create else none) path
    (V.openCallback fault (openFlags flags) { attr with mode := openMode flags attr.mode } id) s
  match r.1 with
  | .error e => (.error e, r.2)
  | .ok h =>
    if openFlags flags &&& oTrunc ≠ 0 then
      match h with
      | .dir _ _ => (.error .runtime, r.2)
      | .file i o =>
        let q := V.onFile i o (.resize 0) r.2
        match q.1 with
        | .error e => (.error e, q.2)
        | .ok _ => (.ok h, q.2)
    else (.ok h, r.2)

/-- Stores a handle in `info->fh` (`/repo/sources/lite_format.cpp:847-899`). -/
def newHandle (r : Res LHandle × LSys) : Res Nat × LSys :=
  match r.1 with
  | .error e => (.error e, r.2)
  | .ok h => (.ok r.2.handles.length, { r.2 with handles := r.2.handles ++ [some h] })

/-- `vcreate` (`/repo/sources/lite_format.cpp:887-894`); the flags are `O_CREAT | O_EXCL | O_RDWR`. -/
def create (fault : Option Nat) (path : List Bytes) (attr : Posix.Attr) (id : Nat) (s : LSys) : Res Nat × LSys :=
  newHandle (V.openAt fault path 194 attr id s)

/-- `vopen` (`/repo/sources/lite_format.cpp:895-899`); nothing is created. -/
def «open» (fault : Option Nat) (path : List Bytes) (flags : BitVec 32) (s : LSys) : Res Nat × LSys :=
  newHandle (V.openAt fault path flags ⟨0, 0, 0, 0, 0⟩ 0 s)

/-- `vtruncate` (`/repo/sources/lite_format.cpp:1059-1065`). -/
def truncate (fault : Option Nat) (path : List Bytes) (n : Nat) (s : LSys) : Res Unit × LSys :=
  let r := V.openAt fault path oWrOnly ⟨0, 0, 0, 0, 0⟩ 0 s
  match r.1 with
  | .error e => (.error e, r.2)
  | .ok (.dir _ _) => (.error .runtime, r.2)
  | .ok (.file i o) =>
    let q := V.onFile i o (.resize n) r.2
    match q.1 with
    | .error e => (.error e, q.2)
    | .ok _ => (.ok (), q.2)

/-- `vopendir` (`/repo/sources/lite_format.cpp:847-856`). -/
def opendir (fault : Option Nat) (path : List Bytes) (s : LSys) : Res Nat × LSys :=
  match V.encPath path with
  | .error e => (.error e, s)
  | .ok b =>
    match osRes fault (s.back.opendir (osParts b)) with
    | .error e => (.error e, s)
    | .ok d => newHandle (.ok (.dir d b), s)

/-- `get_base` and `get_file_checked` (`/repo/sources/lite_format.cpp:724-737`); a handle that is not open is a dangling pointer. -/
def fileAt (h : Nat) (s : LSys) : Res (Nat × LiteObj) :=
  match s.handles[h]? with
  | some (some (.file i o)) => .ok (i, o)
  | some (some (.dir _ _)) => .error (.vfs Posix.EISDIR)
  | _ => .error .outOfBounds

/-- `vread`, `vwrite` and `vftruncate` (`/repo/sources/lite_format.cpp:905-927,935-944`). -/
def onHandle (h : Nat) (op : Spec.Op) (s : LSys) : Res Spec.Out × LSys :=
  match fileAt h s with
  | .error e => (.error e, s)
  | .ok p => V.onFile p.1 p.2 op s

/-- `vfgetattr` of a file (`/repo/sources/lite_format.cpp:837-846`, `/repo/sources/lite_format.h:165-169`).  For a directory, which FUSE does not ask for, the
    result is not represented. -/
def fgetattr (h : Nat) (s : LSys) : Res Posix.Stat :=
  match fileAt h s with
  | .error e => .error e
  | .ok p =>
    match osRes none (s.back.statNode p.1) with
    | .error e => .error e
    | .ok st =>
      match s.back.data p.1 with
      | none => .error .runtime
      | some c => .ok { st with size := V.cfg.size p.2 ⟨c, s.rng⟩ }

/-- `lazy_get_table` and `lookup` (`/repo/sources/lite_format.cpp:676-683,704-713`): the table is looked for under the path by which the directory was
    opened.  In the code the table stays open between two listings. -/
def tableAt (path : Bytes) (s : LSys) : Lookup := fun n =>
  match s.back.opendir (osParts path) with
  | .error _ => .error .runtime
  | .ok d =>
    match s.tables d with
    | none => .error .runtime
    | some rows => tableLookup rows n

/-- What the traverser yields for a directory (`/repo/sources/unix.cpp:231-282`). -/
def rawNames (d : Nat) (es : List (Bytes × Nat)) (s : LSys) : List Bytes :=
  V.order ([dot] :: [dot, dot] :: (if s.full d then [longTableName] else []) ++ es.map Prod.fst)

/-- `vreaddir` (`/repo/sources/lite_format.cpp:862-886`) if the filler accepts all names. -/
def readdir (h : Nat) (s : LSys) : Res (List Bytes) :=
  match s.handles[h]? with
  | some (some (.dir d path)) =>
    match osRes none (s.back.entries d) with
    | .error e => .error e
    | .ok es => ListCfg.list ⟨V.tr.noOp, V.tr.decode⟩ (tableAt path s) (V.rawNames d es s)
  | some (some (.file _ _)) => .error (.vfs Posix.ENOTDIR)
  | _ => .error .outOfBounds

/-- `vrelease` and `vreleasedir` (`/repo/sources/lite_format.cpp:857-861,900-904`). -/
def release (h : Nat) (s : LSys) : Res Unit × LSys :=
  match s.handles[h]? with
  | some (some _) => (.ok (), { s with handles := s.handles.set h none })
  | _ => (.error .outOfBounds, s)

/-- Turns the result of a callback into a value (`/repo/sources/lite_format.cpp:762-1070`). -/
def val {α : Type} (f : α → Spec.Val) (r : Res α × LSys) : Res Spec.Val × LSys :=
  match r.1 with
  | .error e => (.error e, r.2)
  | .ok x => (.ok (f x), r.2)

/-- The value that `vread` and `vwrite` return (`/repo/sources/lite_format.cpp:905-927`). -/
def outVal (n : Nat) : Spec.Out → Spec.Val
  | .bytes b => .bytes b
  | .done => .count n
  | .size k => .count k

/-- One callback; `fault` is the error with which the system refuses it, if it does.  It only dispatches to the functions above
    (`/repo/sources/lite_format.cpp:762-1070`). -/
def step (s : LSys) (fault : Option Nat) : Spec.Call → Res Spec.Val × LSys
  | .getattr p => val .stat (V.getattr fault p s, s)
  | .readlink p size => val .bytes (V.readlink fault p size s, s)
  | .mkdir p attr id => val (fun _ => .done) (V.mkdir fault p attr id s)
  | .symlink t p attr id => val (fun _ => .done) (V.symlink fault t p attr id s)
  | .link src dst => val (fun _ => .done) (V.link fault src dst s)
  | .unlink p => val (fun _ => .done) (V.unlink fault p s)
  | .rmdir p => val (fun _ => .done) (V.rmdir fault p s)
  | .rename src dst => val (fun _ => .done) (V.rename fault src dst s)
  | .chmod p mode => val (fun _ => .done) (V.setAttr fault (fun x => { x with mode := mode }) p s)
  | .chown p uid gid => val (fun _ => .done) (V.setAttr fault (fun x => { x with uid := uid, gid := gid }) p s)
  | .utimens p at' mt => val (fun _ => .done) (V.setAttr fault (fun x => { x with atime := at', mtime := mt }) p s)
  | .truncate p n => val (fun _ => .done) (V.truncate fault p n s)
  | .create p attr id => val .handle (V.create fault p attr id s)
  | .open p flags => val .handle (V.open fault p flags s)
  | .opendir p => val .handle (V.opendir fault p s)
  | .read h off len => val (outVal 0) (V.onHandle h (.read off len) s)
  | .write h off d => val (outVal d.length) (V.onHandle h (.write off d) s)
  | .ftruncate h n => val (fun _ => .done) (V.onHandle h (.resize n) s)
  | .fgetattr h => val .stat (V.fgetattr h s, s)
  | .readdir h => val .names (V.readdir h s, s)
  | .release h => val (fun _ => .done) (release h s)

/-- The results of callbacks in turn; the dispatch is that of `step` (`/repo/sources/lite_format.cpp:762-1070`). -/
def run (s : LSys) : List (Option Nat × Spec.Call) → List (Res Spec.Val)
  | [] => []
  | x :: rest => (V.step s x.1 x.2).1 :: run (V.step s x.1 x.2).2 rest

end LVol

/-- A new volume: an empty directory of the host, which is node 0 (`/repo/sources/commands.cpp:307`).  The configuration file that may be in it
    is left out. -/
def LSys.new (attr : Posix.Attr) (rng : Nat) : LSys := ⟨fun i => if i = 0 then some ⟨.dir [], attr⟩ else none, fun _ => none, rng, []⟩

end Securefs

import Verif.Model.Names
import Verif.Model.Crypto
import Verif.Model.LiteStream
/-!
# The lite file system above names and streams

Models parts of `FuseHighLevelOps` of `/repo/sources/lite_format.cpp`: attribute values, listing, open flags,
reading symbolic links, and the operations that keep the table of long names (`/repo/sources/lite_long_name_lookup_table.cpp`).
-/

namespace Securefs

/-! ## Attribute values -/

/-- `ENODATA` on Linux, what `lgetxattr` reports for an absent attribute (`/repo/sources/unix.cpp:567-572`). -/
def eNoData : Nat := 61

/-- `ERANGE`, what `lgetxattr` reports if the buffer is too small (`/repo/sources/unix.cpp:567-572`). -/
def eRange : Nat := 34

/-- The fields of `XattrCryptor` (`/repo/sources/lite_format.h:248-290`). -/
structure XattrCfg where
  gcm : Gcm
  ivSize : Nat
  verify : Bool

/-- `XattrCryptor::encrypt` (`/repo/sources/lite_format.cpp:79-93`); `iv` are the random bytes drawn. -/
def XattrCfg.encrypt (C : XattrCfg) (iv value : Bytes) : Bytes :=
  let e := C.gcm.enc iv [] value
  iv ++ e.1 ++ e.2

/-- `XattrCryptor::decrypt` (`/repo/sources/lite_format.cpp:94-112`): the bytes written to the output buffer of `outSize`
    bytes. -/
def XattrCfg.decrypt (C : XattrCfg) (input : Bytes) (outSize : Nat) : Res Bytes :=
  if input.length < outSize + C.ivSize + 16 then .error .invalidArg
  else
    let r := C.gcm.dec (input.take C.ivSize) [] ((input.drop C.ivSize).take (input.length - C.ivSize - 16))
      (input.drop (input.length - 16))
    if r.2.length > outSize then .error .outOfBounds
    else if !r.1 && C.verify then .error .verify
    else .ok r.2

/-- `lgetxattr` with a buffer of `size > 0` bytes that holds zeros (`/repo/sources/unix.cpp:567-572`): the number of bytes and the
    buffer afterwards. -/
def osGetXattr (stored : Option Bytes) (size : Nat) : Except Nat (Nat × Bytes) :=
  match stored with
  | none => .error eNoData
  | some d => if d.length > size then .error eRange else .ok (d.length, d ++ zeros (size - d.length))

/-- `infer_decrypted_size` (`/repo/sources/lite_format.cpp:113-120`). -/
def XattrCfg.inferDecrypted (C : XattrCfg) (n : Nat) : Nat := if n ≥ C.ivSize + 16 then n - (C.ivSize + 16) else 0

/-- `vgetxattr` at position zero with a buffer of `size` bytes, for the attribute as stored in the backing file
    (`/repo/sources/lite_format.cpp:1083-1119`): the contents of the buffer and the value returned.  An error of the system
    is returned as a negative number, here `Err.vfs`. -/
def XattrCfg.get (C : XattrCfg) (stored : Option Bytes) (size : Nat) : Res (Bytes × Nat) :=
  match osGetXattr stored (size + C.ivSize + 16) with
  | .error e => .error (.vfs e)
  | .ok (rc, buf) =>
    match C.decrypt buf size with
    | .error e => .error e
    | .ok out => .ok (out, C.inferDecrypted rc)

/-- `vgetxattr` without a buffer (`/repo/sources/lite_format.cpp:1096-1107`). -/
def XattrCfg.getSize (C : XattrCfg) (stored : Option Bytes) : Res Nat :=
  match stored with
  | none => .error (.vfs eNoData)
  | some d => .ok (C.inferDecrypted d.length)

/-- `vsetxattr` at position zero (`/repo/sources/lite_format.cpp:1120-1145`), if the system accepts the attribute; `iv` are the
    random bytes drawn. -/
def XattrCfg.set (C : XattrCfg) (stored : Option Bytes) (iv value : Bytes) : Option Bytes :=
  if value.length = 0 then stored else some (C.encrypt iv value)

/-! ## Listing -/

/-- What listing needs of a translator: `is_no_op` and `decrypt_path_component` (`/repo/sources/lite_format.h:203-217`). -/
structure ListCfg where
  noOp : Bool
  decode : Bytes → Res NameResult

/-- `lookup` of the table of long names, opened on first use (`/repo/sources/lite_format.cpp:671-676,703-712`,
    `/repo/sources/lite_long_name_lookup_table.cpp:56-67`): an error if the table cannot be opened, the empty string if there is no
    row. -/
abbrev Lookup := Bytes → Res Bytes

/-- The outcome of the `try` block of `DirectoryImpl::next` (`/repo/sources/lite_format.cpp:664-690`): the new value of `*name`, or
    `none` if an exception was caught.  `std::get` on a value that is not a string throws. -/
def ListCfg.translate (L : ListCfg) (lookup : Lookup) (under name : Bytes) : Option Bytes :=
  match L.decode under with
  | .error _ => none
  | .ok (.name n) => some n
  | .ok .invalid => some name
  | .ok .long =>
    match lookup under with
    | .error _ => none
    | .ok enc =>
      match L.decode enc with
      | .ok (.name n) => some n
      | _ => none

/-- `DirectoryImpl::next` with a name wanted (`/repo/sources/lite_format.cpp:641-697`) on the entries the traverser has left: the new
    value of `*name` and the entries left then, or `none` at the end.  The attributes are not represented. -/
def ListCfg.next (L : ListCfg) (lookup : Lookup) : List Bytes → (name : Bytes) → Option (Bytes × List Bytes)
  | [], _ => none
  | under :: rest, name =>
    if under.isEmpty then L.next lookup rest name
    else if under == [dot] || under == [dot, dot] then some (under, rest)
    else if L.noOp then some (under, rest)
    else if under.head? = some dot then L.next lookup rest name
    else
      match L.translate lookup under name with
      | none => L.next lookup rest name
      | some n => some (n, rest)

/-- The loop of `vreaddir` (`/repo/sources/lite_format.cpp:868-881`) if the filler always accepts: the names passed to it.  `fuel`
    bounds the iterations. -/
def ListCfg.listLoop (L : ListCfg) (lookup : Lookup) : (fuel : Nat) → List Bytes → (name : Bytes) → Res (List Bytes)
  | 0, _, _ => .error .fuel
  | fuel + 1, under, name =>
    match L.next lookup under name with
    | none => .ok []
    | some (n, rest) =>
      match L.listLoop lookup fuel rest n with
      | .error e => .error e
      | .ok l => .ok (n :: l)

/-- `vreaddir` (`/repo/sources/lite_format.cpp:859-884`): `name` starts empty and the traverser is rewound. -/
def ListCfg.list (L : ListCfg) (lookup : Lookup) (under : List Bytes) : Res (List Bytes) :=
  L.listLoop lookup (under.length + 1) under []

/-- The listing configuration of the new translator (`/repo/sources/lite_format.cpp:424-451`). -/
def NewStyle.listCfg (T : NewStyle) : ListCfg := ⟨false, T.decryptComponent⟩

/-- That of the legacy translator (`/repo/sources/lite_format.cpp:195-218`). -/
def legacyListCfg (S : Siv) : ListCfg := ⟨false, decodeName S⟩

/-! ## Symbolic links -/

/-- `vreadlink` (`/repo/sources/lite_format.cpp:1002-1018`) for a link whose backing link has the target `stored`: the buffer of
    `size` bytes afterwards.  The system copies at most `size * 2 + 126` bytes; the buffer is read up to the first NUL. -/
def vreadlink (decrypt : Bytes → Res Bytes) (stored : Bytes) (size : Nat) : Res Bytes :=
  if size ≤ 1 then .ok (zeros size)
  else
    match decrypt ((stored.take (size * 2 + 127 - 1)).takeWhile (· != 0)) with
    | .error e => .error e
    | .ok r => .ok (r.take (size - 1) ++ zeros (size - min r.length (size - 1)))

/-! ## Opening -/

/-- `O_ACCMODE`, `O_WRONLY`, `O_RDWR`, `O_CREAT`, `O_TRUNC` and `O_APPEND` of Linux, as used in
    `/repo/sources/lite_format.cpp:1155-1182`. -/
def oAccMode : BitVec 32 := 3
/-- `O_WRONLY` of Linux, as used in `/repo/sources/lite_format.cpp:1155-1182`. -/
def oWrOnly : BitVec 32 := 1
/-- `O_RDWR` of Linux, as used in `/repo/sources/lite_format.cpp:1155-1182`. -/
def oRdWr : BitVec 32 := 2
/-- `O_CREAT` of Linux, as used in `/repo/sources/lite_format.cpp:1155-1182`. -/
def oCreat : BitVec 32 := 64
/-- `O_TRUNC` of Linux, as used in `/repo/sources/lite_format.cpp:1155-1182`. -/
def oTrunc : BitVec 32 := 512
/-- `O_APPEND` of Linux, as used in `/repo/sources/lite_format.cpp:1155-1182`. -/
def oAppend : BitVec 32 := 1024

/-- The flags that `open` passes to the system (`/repo/sources/lite_format.cpp:1155-1167`). -/
def openFlags (flags : BitVec 32) : BitVec 32 :=
  let f1 := if flags &&& oAppend ≠ 0 then flags &&& ~~~oAppend else flags
  if f1 &&& oAccMode = oWrOnly then (f1 &&& ~~~oAccMode) ||| oRdWr else f1

/-- The mode that `open` passes to the system (`/repo/sources/lite_format.cpp:1168-1171`); `S_IRUSR` is 256. -/
def openMode (flags mode : BitVec 32) : BitVec 32 := if openFlags flags &&& oCreat ≠ 0 then mode ||| 256 else mode

/-- `open` of an existing file (`/repo/sources/lite_format.cpp:1172-1184`, `/repo/sources/lite_format.h:137-142`).  With `O_TRUNC` the
    system has emptied the backing file, whatever it held, when the stream is made over it, and the stream is then resized to zero. -/
def LiteCfg.openFlagged (C : LiteCfg) (flags : BitVec 32) (st : LiteSt) : Res (LiteObj × LiteSt) :=
  if openFlags flags &&& oTrunc ≠ 0 then
    match C.openFile { st with file := [] } with
    | .error e => .error e
    | .ok p => C.stream.resize p 0
  else C.openFile st

/-- A call on one file: opening it once more, or a call on an open handle (`/repo/sources/lite_format.cpp:886-943`). -/
inductive LiteCall where
  | openAgain (flags : BitVec 32)
  | call (handle : Nat) (op : Spec.Op)

/-- A sequence of calls on the handles of one backing file (`/repo/sources/lite_format.cpp:886-943`).  Every handle has its own
    stream object (`/repo/sources/lite_format.h:129-142`) and all share the backing file.  The calls are atomic: each holds the locks of its
    handle and of the backing file (`/repo/sources/lite_format.h:176-194`).  It stops at the first exception. -/
def LiteCfg.handles (C : LiteCfg) (objs : List LiteObj) (st : LiteSt) : List LiteCall → Res (List Spec.Out)
  | [] => .ok []
  | .openAgain flags :: rest =>
    match C.openFlagged flags st with
    | .error e => .error e
    | .ok (o, st') =>
      match C.handles (objs ++ [o]) st' rest with
      | .error e => .error e
      | .ok outs => .ok (.done :: outs)
  | .call i op :: rest =>
    match objs[i]? with
    | none => .error .invalidArg
    | some o =>
      match C.stream.step (o, st) op with
      | .error e => .error e
      | .ok ((o', st'), out) =>
        match C.handles (objs.set i o') st' rest with
        | .error e => .error e
        | .ok outs => .ok (out :: outs)

/-! ## The tables of long names -/

/-- An entry of a backing directory, as far as the operations on long names care: regular files by inode, symbolic links,
    directories by an identity (`/repo/sources/lite_format.cpp:945-1047`). -/
inductive LNode where
  | file (ino : Nat)
  | symlink (ino : Nat)
  | dir (id : Nat)
  deriving DecidableEq

/-- The backing tree: for each directory its entries other than the table file, and the rows of its table
    `.long_names.db` (`/repo/sources/lite_format.h:31`, `/repo/sources/lite_long_name_lookup_table.cpp:13-18`).  A missing table has no
    rows. -/
structure LTree where
  entries : Nat → List (Bytes × LNode)
  rows : Nat → List (Bytes × Bytes)

/-- Replaces the value of one directory (all of `/repo/sources/lite_format.cpp:945-1047`). -/
def upd {α : Type} (f : Nat → α) (d : Nat) (x : α) : Nat → α := fun k => if k = d then x else f k

/-- Removes a key: a removed directory entry, or `delete from ... where keyed_hash = ?`
    (`/repo/sources/lite_long_name_lookup_table.cpp:35-38`). -/
def dropKey {α : Type} (l : List (Bytes × α)) (n : Bytes) : List (Bytes × α) := l.filter (fun p => p.1 != n)

/-- `insert or ignore` (`/repo/sources/lite_long_name_lookup_table.cpp:25-34`). -/
def insertOrIgnore (l : List (Bytes × Bytes)) (n enc : Bytes) : List (Bytes × Bytes) :=
  match l.lookup n with
  | some _ => l
  | none => (n, enc) :: l

/-- `lookup` on an open table (`/repo/sources/lite_long_name_lookup_table.cpp:56-67`): the empty string if there is no row. -/
def tableLookup (rows : List (Bytes × Bytes)) : Lookup := fun n =>
  match rows.lookup n with
  | none => .ok []
  | some enc => .ok enc

/-- The result of an operation: the errno it failed with, if any, and the tree afterwards
    (`/repo/sources/lite_format.cpp:945-1047`). -/
abbrev LOutcome := Option Nat × LTree

/-- `LongNameComponentAction` (`/repo/sources/lite_format.h:420-425`), without `kIgnore`. -/
inductive LAction where
  | create
  | delete

/-- The component as the operations see it: its backing name, and the full encrypted name, which is empty unless the component
    is long; the last piece of `encrypt_full_path` (`/repo/sources/lite_format.cpp:350-422`).  Resolution of the other pieces to a
    directory is left to the system. -/
structure LName where
  backing : Bytes
  full : Bytes

/-- See `LName`; `/repo/sources/lite_format.cpp:367-421`. -/
def NewStyle.lname (T : NewStyle) (v : Bytes) : Res LName :=
  match T.encodeComponent v with
  | .error e => .error e
  | .ok b =>
    if v.length > T.threshold then
      match encodeName T.siv v with
      | .error e => .error e
      | .ok c => .ok ⟨b, c⟩
    else .ok ⟨b, []⟩

/-- The change of the rows (`/repo/sources/lite_format.cpp:1213-1223`). -/
def LAction.apply (action : LAction) (n : LName) (rows : List (Bytes × Bytes)) : List (Bytes × Bytes) :=
  match action with
  | .create => insertOrIgnore rows n.backing n.full
  | .delete => dropKey rows n.backing

/-- `process_possible_long_name` (`/repo/sources/lite_format.cpp:1192-1225`) in directory `d`.  The rows are changed inside a
    transaction, which `finish` (`/repo/sources/lite_long_name_lookup_table.cpp:101-118`) rolls back if the callback throws and otherwise
    tries to commit; a failing commit (`commit = false`) is only logged. -/
def withLongName (d : Nat) (n : LName) (action : LAction) (commit : Bool) (callback : LTree → LOutcome) (t : LTree) : LOutcome :=
  if n.full.isEmpty then callback t
  else
    let r := callback { t with rows := upd t.rows d (action.apply n (t.rows d)) }
    match r.1 with
    | some e => (some e, { r.2 with rows := upd r.2.rows d (t.rows d) })
    | none => (none, if commit then r.2 else { r.2 with rows := upd r.2.rows d (t.rows d) })

/-- A call of the system that may fail for a reason outside the model (`fault`), without effect
    (`/repo/sources/unix.cpp:336-420`). -/
def sysCall (fault : Option Nat) (body : LTree → LOutcome) (t : LTree) : LOutcome :=
  match fault with
  | some e => (some e, t)
  | none => body t

/-- Adds an entry that must not exist: `EEXIST` otherwise; `openat` with `O_EXCL`, `symlinkat`, `linkat`
    (`/repo/sources/unix.cpp:327-334,388-403`). -/
def sysAdd (d : Nat) (n : Bytes) (node : LNode) (t : LTree) : LOutcome :=
  match (t.entries d).lookup n with
  | some _ => (some 17, t)
  | none => (none, { t with entries := upd t.entries d ((n, node) :: t.entries d) })

/-- `mkdirat` (`/repo/sources/unix.cpp:362-368`); `id` is the identity of the new directory, which is empty. -/
def sysMkdir (d : Nat) (n : Bytes) (id : Nat) (t : LTree) : LOutcome :=
  match (t.entries d).lookup n with
  | some _ => (some 17, t)
  | none => (none, { entries := upd (upd t.entries id []) d ((n, .dir id) :: (upd t.entries id []) d), rows := upd t.rows id [] })

/-- `unlinkat` (`/repo/sources/unix.cpp:336-343`): `ENOENT`, and `EISDIR` for directories. -/
def sysUnlink (d : Nat) (n : Bytes) (t : LTree) : LOutcome :=
  match (t.entries d).lookup n with
  | none => (some 2, t)
  | some (.dir _) => (some 21, t)
  | some _ => (none, { t with entries := upd t.entries d (dropKey (t.entries d) n) })

/-- The callback of `vrmdir` (`/repo/sources/lite_format.cpp:963-968`): the table inside the directory is removed first, then
    the directory, which fails with `ENOTEMPTY` if it has entries, or `ENOTDIR`. -/
def sysRmdir (fault : Option Nat) (d : Nat) (n : Bytes) (t : LTree) : LOutcome :=
  match (t.entries d).lookup n with
  | none => (some 2, t)
  | some (.dir id) =>
    let t1 := { t with rows := upd t.rows id [] }
    sysCall fault (fun t1 =>
      if (t1.entries id).isEmpty then (none, { t1 with entries := upd t1.entries d (dropKey (t1.entries d) n) })
      else (some 39, t1)) t1
  | some _ => (some 20, t)

/-- `renameat` (`/repo/sources/unix.cpp:412-419`): `ENOENT` without a source; nothing happens if both names refer to the same
    file; directories only replace empty directories (a table file counts as content), and nothing else is replaced by or
    replaces a directory. -/
def sysRename (d : Nat) (n : Bytes) (d' : Nat) (n' : Bytes) (t : LTree) : LOutcome :=
  match (t.entries d).lookup n with
  | none => (some 2, t)
  | some src =>
    let move : LTree :=
      let e1 := upd t.entries d (dropKey (t.entries d) n)
      { t with entries := upd e1 d' ((n', src) :: dropKey (e1 d') n') }
    match (t.entries d').lookup n' with
    | none => (none, move)
    | some dst =>
      if src = dst then (none, t)
      else
        match src, dst with
        | .dir _, .dir id => if (t.entries id).isEmpty && (t.rows id).isEmpty then (none, move) else (some 39, t)
        | .dir _, _ => (some 20, t)
        | _, .dir _ => (some 21, t)
        | _, _ => (none, move)

/-- An operation on the tree (`/repo/sources/lite_format.cpp:945-1047,1153-1186`).  Files are only created with `O_EXCL`
    (`/repo/sources/lite_format.cpp:892`).  `fault` is an error of the system from outside the
    model, `commit` tells whether committing the table succeeds; `d` is the directory, `v` the plain component. -/
inductive LOp where
  | create (d : Nat) (v : Bytes) (ino : Nat) (fault : Option Nat) (commit : Bool)
  | symlink (d : Nat) (v : Bytes) (ino : Nat) (fault : Option Nat) (commit : Bool)
  | link (node : LNode) (d : Nat) (v : Bytes) (fault : Option Nat) (commit : Bool)
  | mkdir (d : Nat) (v : Bytes) (id : Nat) (fault : Option Nat) (commit : Bool)
  | unlink (d : Nat) (v : Bytes) (fault : Option Nat) (commit : Bool)
  | rmdir (d : Nat) (v : Bytes) (fault : Option Nat) (commit : Bool)
  | rename (d : Nat) (v : Bytes) (d' : Nat) (v' : Bytes) (fault : Option Nat) (commit : Bool)

/-- `vrename` (`/repo/sources/lite_format.cpp:1019-1047`) with `DoubleLongNameLookupTable`
    (`/repo/sources/lite_long_name_lookup_table.cpp:120-157`). -/
def lRename (d : Nat) (n : LName) (d' : Nat) (n' : LName) (fault : Option Nat) (commit : Bool) (t : LTree) : LOutcome :=
  if n.full.isEmpty && n'.full.isEmpty then sysCall fault (sysRename d n.backing d' n'.backing) t
  else
    let rows1 := if n.full.isEmpty then t.rows else upd t.rows d (dropKey (t.rows d) n.backing)
    let rows2 := if n'.full.isEmpty then rows1 else upd rows1 d' (insertOrIgnore (rows1 d') n'.backing n'.full)
    let r := sysCall fault (sysRename d n.backing d' n'.backing) { t with rows := rows2 }
    match r.1 with
    | some e => (some e, { r.2 with rows := t.rows })
    | none => (none, if commit then r.2 else { r.2 with rows := t.rows })

/-- One operation; names that cannot be encrypted fail (`/repo/sources/lite_format.cpp:945-1047,1153-1186`). -/
def NewStyle.step (T : NewStyle) (t : LTree) : LOp → LOutcome
  | .create d v ino fault commit =>
    match T.lname v with
    | .error _ => (some eNameTooLong, t)
    | .ok n => withLongName d n .create commit (sysCall fault (sysAdd d n.backing (.file ino))) t
  | .symlink d v ino fault commit =>
    match T.lname v with
    | .error _ => (some eNameTooLong, t)
    | .ok n => withLongName d n .create commit (sysCall fault (sysAdd d n.backing (.symlink ino))) t
  | .link node d v fault commit =>
    match T.lname v with
    | .error _ => (some eNameTooLong, t)
    | .ok n => withLongName d n .create commit (sysCall fault (sysAdd d n.backing node)) t
  | .mkdir d v id fault commit =>
    match T.lname v with
    | .error _ => (some eNameTooLong, t)
    | .ok n => withLongName d n .create commit (sysCall fault (sysMkdir d n.backing id)) t
  | .unlink d v fault commit =>
    match T.lname v with
    | .error _ => (some eNameTooLong, t)
    | .ok n => withLongName d n .delete commit (sysCall fault (sysUnlink d n.backing)) t
  | .rmdir d v fault commit =>
    match T.lname v with
    | .error _ => (some eNameTooLong, t)
    | .ok n => withLongName d n .delete commit (sysRmdir fault d n.backing) t
  | .rename d v d' v' fault commit =>
    match T.lname v, T.lname v' with
    | .ok n, .ok n' => lRename d n d' n' fault commit t
    | _, _ => (some eNameTooLong, t)

/-- A history (`/repo/sources/lite_format.cpp:945-1047`); errors are reported to the caller and leave the tree as the operation left
    it. -/
def NewStyle.run (T : NewStyle) (t : LTree) : List LOp → LTree
  | [] => t
  | op :: rest => T.run (T.step t op).2 rest

end Securefs

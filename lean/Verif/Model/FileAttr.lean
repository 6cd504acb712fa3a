import Verif.Model.Encoding
/-!
# Attributes of a full-format file

Models the attribute part of `FileBase` (`/repo/sources/files.h:34-345`, `/repo/sources/files.cpp:83-115,183-279,335-357`):
the seven 32-bit fields, the four time stamps, the dirty mark, the header they are stored in.  The encrypted header block
is modelled in `Verif/Model/FullStream.lean`; here it is the last buffer written, if any.
-/

namespace Securefs

/-- `fuse_timespec` (`struct timespec` with a 64-bit `time_t`, `/repo/sources/platform.h`). -/
structure TimeSpec where
  sec : Int64
  nsec : Int64
  deriving DecidableEq

/-- The zero time stamp left by value initialisation (`/repo/sources/files.h:52-53`) and by `memset`
    (`/repo/sources/files.cpp:110-113`). -/
def TimeSpec.zero : TimeSpec := ⟨0, 0⟩

/-- The fields of `FileBase` that are saved in the header, and the dirty mark (`/repo/sources/files.h:51-61`). -/
structure FileAttr where
  mode : UInt32
  uid : UInt32
  gid : UInt32
  nlink : UInt32
  rootPage : UInt32
  startFree : UInt32
  numFree : UInt32
  atime : TimeSpec
  mtime : TimeSpec
  ctime : TimeSpec
  btime : TimeSpec
  dirty : Bool
  deriving DecidableEq

/-- `FileBase::DIRECTORY` (`/repo/sources/files.h:105-106`): `S_IFDIR` of Linux, shifted. -/
def typeDirectory : Nat := 4
/-- `FileBase::REGULAR_FILE` (`/repo/sources/files.h:105-106`): `S_IFREG` of Linux, shifted. -/
def typeRegular : Nat := 8
/-- `FileBase::SYMLINK` (`/repo/sources/files.h:105-106`): `S_IFLNK` of Linux, shifted. -/
def typeSymlink : Nat := 10
/-- `S_IFMT` of Linux, as used in `/repo/sources/files.h:361`. -/
def sIfmt : UInt32 := 0xf000

/-- `FileBase::mode_for_type` (`/repo/sources/files.h:127`). -/
def modeForType (type : Nat) : UInt32 := UInt32.ofNat type <<< 12

/-- `FileBase::get_real_type` (`/repo/sources/files.cpp:220`, `/repo/sources/files.h:129`). -/
def FileAttr.realType (a : FileAttr) : Nat := ((a.mode &&& sIfmt) >>> 12).toNat

namespace FileAttr

/-- `update_ctime_helper` (`/repo/sources/files.h:302-309`); `st` is `m_store_time`, `now` the clock. -/
def touchCtime (st : Bool) (now : TimeSpec) (a : FileAttr) : FileAttr :=
  if st then { a with ctime := now, dirty := true } else a

/-- `update_mtime_helper` (`/repo/sources/files.h:292-300`). -/
def touchMtime (st : Bool) (now : TimeSpec) (a : FileAttr) : FileAttr :=
  if st then { a with mtime := now, ctime := now, dirty := true } else a

/-- `update_atime_helper` (`/repo/sources/files.h:283-290`). -/
def touchAtime (st : Bool) (now : TimeSpec) (a : FileAttr) : FileAttr :=
  if st && (decide (a.atime.sec < a.mtime.sec) || decide (a.atime.sec < a.ctime.sec)) then { a with atime := now, dirty := true } else a

/-- `set_mode` (`/repo/sources/files.h:203-210`). -/
def setMode (st : Bool) (now : TimeSpec) (v : UInt32) (a : FileAttr) : FileAttr :=
  if a.mode = v then a else { touchCtime st now { a with mode := v } with dirty := true }

/-- `set_uid` (`/repo/sources/files.h:214-221`). -/
def setUid (st : Bool) (now : TimeSpec) (v : UInt32) (a : FileAttr) : FileAttr :=
  if a.uid = v then a else { touchCtime st now { a with uid := v } with dirty := true }

/-- `set_gid` (`/repo/sources/files.h:225-232`). -/
def setGid (st : Bool) (now : TimeSpec) (v : UInt32) (a : FileAttr) : FileAttr :=
  if a.gid = v then a else { touchCtime st now { a with gid := v } with dirty := true }

/-- `set_nlink` (`/repo/sources/files.h:236-243`). -/
def setNlink (st : Bool) (now : TimeSpec) (v : UInt32) (a : FileAttr) : FileAttr :=
  if a.nlink = v then a else { touchCtime st now { a with nlink := v } with dirty := true }

/-- `unlink` (`/repo/sources/files.h:329-333`); the change time is not updated. -/
def unlink (a : FileAttr) : FileAttr := { a with nlink := a.nlink - 1, dirty := true }

/-- `set_root_page` (`/repo/sources/files.h:77-81`). -/
def setRootPage (v : UInt32) (a : FileAttr) : FileAttr := { a with rootPage := v, dirty := true }

/-- `set_start_free_page` (`/repo/sources/files.h:85-89`). -/
def setStartFree (v : UInt32) (a : FileAttr) : FileAttr := { a with startFree := v, dirty := true }

/-- `set_num_free_page` (`/repo/sources/files.h:93-97`). -/
def setNumFree (v : UInt32) (a : FileAttr) : FileAttr := { a with numFree := v, dirty := true }

/-- `initialize_empty` (`/repo/sources/files.cpp:83-115`); `osUid` and `osGid` are those of the process.  The dirty mark is not
    set here. -/
def initializeEmpty (st : Bool) (now : TimeSpec) (osUid osGid mode uid gid : UInt32) (a : FileAttr) : FileAttr :=
  let uid := if uid = 0xffffffff then osUid else uid
  let gid := if gid = 0xffffffff then osGid else gid
  let t := if st then now else TimeSpec.zero
  { a with mode := mode, uid := uid, gid := gid, nlink := 1, rootPage := 0xffffffff, startFree := 0xffffffff, numFree := 0,
           atime := t, mtime := t, ctime := t, btime := t }

/-- `FileBase::utimens` (`/repo/sources/files.cpp:335-357`).  `garbage` is the indeterminate value of the local variable
    `current_time`, which is never assigned (reading it is undefined behaviour; the model takes an arbitrary value).  Without
    stored times the call goes to the backing file, and the object is unchanged. -/
def utimens (st : Bool) (garbage : TimeSpec) (ts : Option (TimeSpec × TimeSpec)) (a : FileAttr) : FileAttr :=
  if st then
    match ts with
    | some (x, y) => { a with atime := x, mtime := y, ctime := garbage, dirty := true }
    | none => { a with atime := garbage, mtime := garbage, ctime := garbage, dirty := true }
  else a

/-- The argument of `set_mode` in `vchmod` (`/repo/sources/full_format.cpp:256`). -/
def chmod (st : Bool) (now : TimeSpec) (mode : UInt32) (a : FileAttr) : FileAttr :=
  setMode st now ((a.mode &&& ~~~0x1ff) ||| (mode &&& 0x1ff)) a

/-- The two conditional calls in `vchown` (`/repo/sources/full_format.cpp:270-273`); `-1` converts to the largest value. -/
def chown (st : Bool) (now : TimeSpec) (uid gid : UInt32) (a : FileAttr) : FileAttr :=
  let a := if uid ≠ 0xffffffff then setUid st now uid a else a
  if gid ≠ 0xffffffff then setGid st now gid a else a

/-! ## The header -/

/-- `NUM_FLAGS` (`/repo/sources/files.h:37`). -/
def numFlags : Nat := 7
/-- `HEADER_SIZE` and `EXTENDED_HEADER_SIZE` (`/repo/sources/files.h:37`, chosen at `/repo/sources/files.cpp:252`). -/
def headerSize (st : Bool) : Nat := if st then 80 else 32
/-- `ATIME_OFFSET` (`/repo/sources/files.h:38`). -/
def atimeOffset : Nat := numFlags * 4
/-- `MTIME_OFFSET` (`/repo/sources/files.h:39`). -/
def mtimeOffset : Nat := atimeOffset + 8 + 4
/-- `CTIME_OFFSET` (`/repo/sources/files.h:40`). -/
def ctimeOffset : Nat := mtimeOffset + 8 + 4
/-- `BTIME_OFFSET` (`/repo/sources/files.h:41`). -/
def btimeOffset : Nat := ctimeOffset + 8 + 4

/-- The calls of `to_little_endian` in `flush` (`/repo/sources/files.cpp:255-272`) as offset, width and value converted to the
    unsigned type. -/
def headerFields (st : Bool) (a : FileAttr) : List (Nat × Nat × Nat) :=
  let time (off : Nat) (t : TimeSpec) : List (Nat × Nat × Nat) :=
    [(off, 8, t.sec.toUInt64.toNat), (off + 8, 4, t.nsec.toUInt64.toUInt32.toNat)]
  [(0, 4, a.mode.toNat), (4, 4, a.uid.toNat), (8, 4, a.gid.toNat), (12, 4, a.nlink.toNat), (16, 4, a.rootPage.toNat),
   (20, 4, a.startFree.toNat), (24, 4, a.numFree.toNat)] ++
  (if st then time atimeOffset a.atime ++ time mtimeOffset a.mtime ++ time ctimeOffset a.ctime ++ time btimeOffset a.btime else [])

/-- Writing the fields into a buffer, in order (`/repo/sources/files.cpp:255-272`). -/
def writeFields : Bytes → List (Nat × Nat × Nat) → Res Bytes
  | buf, [] => .ok buf
  | buf, (off, w, v) :: rest =>
    match memcpyAt buf off (toLE w v) with
    | .error e => .error e
    | .ok buf' => writeFields buf' rest

/-- The buffer `flush` passes to `write_header` (`/repo/sources/files.cpp:252-273`). -/
def encodeHeader (st : Bool) (a : FileAttr) : Res Bytes := writeFields (zeros (headerSize st)) (headerFields st a)

/-- `from_little_endian<uint32_t>(&header[off])` (`/repo/sources/files.cpp:199`). -/
def field32 (h : Bytes) (off : Nat) : Res UInt32 := (fromLE 4 (h.drop off)).map UInt32.ofNat

/-- The two reads of a time stamp (`/repo/sources/files.cpp:203-205`). -/
def fieldTime (h : Bytes) (off : Nat) : Res TimeSpec := do
  let s ← fromLE 8 (h.drop off)
  let n ← fromLE 4 (h.drop (off + 8))
  .ok ⟨(UInt64.ofNat s).toInt64, (UInt64.ofNat n).toInt64⟩

/-- What a new object holds before the header is read (`/repo/sources/files.h:51-60`, `/repo/sources/files.cpp:131,185-188`). -/
def blank : FileAttr :=
  { mode := 0xffffffff, uid := 0xffffffff, gid := 0xffffffff, nlink := 0xffffffff, rootPage := 0xffffffff, startFree := 0xffffffff,
    numFree := 0xffffffff, atime := .zero, mtime := .zero, ctime := .zero, btime := .zero, dirty := false }

/-- `read_header` (`/repo/sources/files.cpp:183-218`) on the header that was written last, if any. -/
def readHeader (st : Bool) : Option Bytes → Res FileAttr
  | none => .ok (setNumFree 0 blank)
  | some h => do
    let m ← field32 h 0
    let u ← field32 h 4
    let g ← field32 h 8
    let n ← field32 h 12
    let r ← field32 h 16
    let s ← field32 h 20
    let f ← field32 h 24
    let a : FileAttr := { blank with mode := m, uid := u, gid := g, nlink := n, rootPage := r, startFree := s, numFree := f }
    if st then do
      let x ← fieldTime h atimeOffset
      let y ← fieldTime h mtimeOffset
      let z ← fieldTime h ctimeOffset
      let w ← fieldTime h btimeOffset
      .ok { a with atime := x, mtime := y, ctime := z, btime := w }
    else .ok a

/-- The attribute part of `flush` (`/repo/sources/files.cpp:250-275`): the header is written when the dirty mark is set. -/
def flush (st : Bool) (a : FileAttr) (stored : Option Bytes) : Res (FileAttr × Option Bytes) :=
  if a.dirty then
    match encodeHeader st a with
    | .error e => .error e
    | .ok h => .ok ({ a with dirty := false }, some h)
  else .ok (a, stored)

/-- `FileBase::stat`, attribute part (`/repo/sources/files.cpp:222-243`): mode, owner, group, link count, and the times when they
    are stored. -/
def stat (st : Bool) (a : FileAttr) : UInt32 × UInt32 × UInt32 × UInt32 × Option (TimeSpec × TimeSpec × TimeSpec × TimeSpec) :=
  (a.mode, a.uid, a.gid, a.nlink, if st then some (a.atime, a.mtime, a.ctime, a.btime) else none)

end FileAttr

/-- What can happen to the attributes of an open file; each event carries the clock reading it uses
    (callers in `/repo/sources/files.h:378-487`, `/repo/sources/full_format.cpp:256,270-273,300`, `/repo/sources/btree_dir.cpp`). -/
inductive AttrOp where
  /-- reading data, a link target, a directory entry or a listing -/
  | read
  /-- writing or truncating data, setting a link target, adding or removing an entry -/
  | write
  | chmod (mode : UInt32)
  | chown (uid gid : UInt32)
  | setNlink (v : UInt32)
  | unlink
  | setRootPage (v : UInt32)
  | setStartFree (v : UInt32)
  | setNumFree (v : UInt32)
  | utimens (garbage : TimeSpec) (ts : Option (TimeSpec × TimeSpec))
  | flush
  /-- the object is closed, which flushes it, and opened again -/
  | reload

/-- An open file and its stored header.
    (`/repo/sources/files.h:34-62`). -/
structure AttrFile where
  attr : FileAttr
  stored : Option Bytes

namespace AttrFile

/-- One event (see `AttrOp`).
    (`/repo/sources/files.h:378-487`, `/repo/sources/full_format.cpp:256,270-273,300`). -/
def step (st : Bool) (f : AttrFile) (now : TimeSpec) : AttrOp → Res AttrFile
  | .read => .ok { f with attr := f.attr.touchAtime st now }
  | .write => .ok { f with attr := f.attr.touchMtime st now }
  | .chmod m => .ok { f with attr := f.attr.chmod st now m }
  | .chown u g => .ok { f with attr := f.attr.chown st now u g }
  | .setNlink v => .ok { f with attr := f.attr.setNlink st now v }
  | .unlink => .ok { f with attr := f.attr.unlink }
  | .setRootPage v => .ok { f with attr := f.attr.setRootPage v }
  | .setStartFree v => .ok { f with attr := f.attr.setStartFree v }
  | .setNumFree v => .ok { f with attr := f.attr.setNumFree v }
  | .utimens g ts => .ok { f with attr := f.attr.utimens st g ts }
  | .flush =>
    match f.attr.flush st f.stored with
    | .error e => .error e
    | .ok (a, s) => .ok { attr := a, stored := s }
  | .reload =>
    match f.attr.flush st f.stored with
    | .error e => .error e
    | .ok (_, s) =>
      match FileAttr.readHeader st s with
      | .error e => .error e
      | .ok a => .ok { attr := a, stored := s }

/-- A history of events with their clock readings.
    (calls of the functions of `/repo/sources/files.h:34-345` one after the other, under the lock of the file). -/
def run (st : Bool) : AttrFile → List (TimeSpec × AttrOp) → Res AttrFile
  | f, [] => .ok f
  | f, (now, op) :: rest =>
    match step st f now op with
    | .error e => .error e
    | .ok f' => run st f' rest

/-- A file just created (`/repo/sources/files.cpp:183-192`, then `initialize_empty` at `/repo/sources/full_format.cpp:594`). -/
def created (st : Bool) (now : TimeSpec) (osUid osGid mode uid gid : UInt32) : Res AttrFile :=
  match FileAttr.readHeader st none with
  | .error e => .error e
  | .ok a => .ok { attr := a.initializeEmpty st now osUid osGid mode uid gid, stored := none }

end AttrFile

end Securefs

import Verif.Model.FullStream
import Verif.Model.FileAttr
import Verif.Model.Siv
/-!
# An open file of the full format

Models `FileBase` and `RegularFile` as a whole (`/repo/sources/files.h:34-408`, `/repo/sources/files.cpp:83-279`): the keys of a
file, its encrypted streams, its header, its padding and its attributes together.  The parts are those of
`Verif/Model/Siv.lean` (HKDF), `Verif/Model/FullStream.lean` (streams) and `Verif/Model/FileAttr.lean` (attributes).
-/

namespace Securefs

/-- What all files of a volume have in common: the arguments of the constructor of `FileBase` that do not depend on the file
    (`/repo/sources/files.cpp:117-125`), and the external primitives as functions of their keys. -/
structure FileEnv where
  /-- HMAC-SHA-256 -/
  hmac : Hmac
  /-- AES-GCM by key -/
  gcm : Bytes → Gcm
  /-- `key_` -/
  master : Bytes
  check : Bool
  blockSize : Nat
  ivSize : Nat
  maxPadding : UInt32
  storeTime : Bool
  /-- `is_sparse()` of the backing files -/
  sparse : Bool
  rng : Rng
  ivFuel : Nat

/-- The slices of `generated_keys` (`/repo/sources/files.cpp:137-147,165-177`). -/
structure FileKeys where
  data : Bytes
  «meta» : Bytes
  /-- keys `m_xattr_enc` and `m_xattr_dec` -/
  xattrValue : Bytes
  /-- keys `m_xattr_name_cryptor` -/
  xattrName : Bytes
  /-- becomes the number that determines the padding -/
  padding : Bytes
  deriving DecidableEq

namespace FileEnv
variable (E : FileEnv)

/-- The derivation of the keys (`/repo/sources/files.cpp:136-147,165-169,174-175`).  The buffer has room for four keys and is
    zero at first. -/
def keys (id : Bytes) : Res FileKeys :=
  match hkdf E.hmac E.master [] id (if E.maxPadding > 0 then 4 * 32 else 3 * 32) with
  | .error e => .error e
  | .ok out =>
    let g := out ++ zeros (4 * 32 - out.length)
    .ok { data := g.take 32, «meta» := (g.drop 32).take 32, xattrValue := (g.drop (2 * 32)).take 32,
          xattrName := (g.drop (2 * 32)).take 32, padding := (g.drop (3 * 32)).take 32 }

/-- A byte string as a number, most significant byte first (`CryptoPP::Integer` with `BIG_ENDIAN_ORDER`,
    `/repo/sources/files.cpp:174-177`). -/
def bigEndian (b : Bytes) : Nat := b.foldl (fun n x => n * 256 + x.toNat) 0

/-- The padding of a file (`/repo/sources/files.cpp:171-178`).  `max_padding_size + 1` is computed with 32 bits; `Modulo` throws
    `DivideByZero` when it is zero. -/
def padding (K : FileKeys) : Res (Option Nat) :=
  if E.maxPadding > 0 then
    if E.maxPadding + 1 = 0 then .error .runtime else .ok (some (bigEndian K.padding % (E.maxPadding + 1).toNat))
  else .ok none

/-- `make_cryptstream_aes_gcm` with the keys of the file (`/repo/sources/files.cpp:148-156`). -/
def full (id : Bytes) (K : FileKeys) : FullCfg where
  bs := E.blockSize
  ivSize := E.ivSize
  headerSize := FileAttr.headerSize E.storeTime
  check := E.check
  sparse := E.sparse
  gcm := E.gcm K.data
  hm := E.hmac K.meta
  id := id
  rng := E.rng
  ivFuel := E.ivFuel

end FileEnv

/-- An object of class `FileBase` (`/repo/sources/files.h:46-73`): its keys, the padding of `PaddedStream` if it is used, the
    attributes and the streams. -/
structure OpenFile where
  keys : FileKeys
  pad : Option Nat
  attr : FileAttr
  st : FullSt
  deriving DecidableEq

namespace FileEnv
variable (E : FileEnv)

/-- The constructor of `FileBase` (`/repo/sources/files.cpp:117-181`) over existing backing files. -/
def openObj (id data metaF : Bytes) (rng : Nat) : Res OpenFile := do
  let K ← E.keys id
  let st ← (E.full id K).openFile data metaF rng
  let h ← (E.full id K).readHeader st (FileAttr.headerSize E.storeTime)
  let attr ← FileAttr.readHeader E.storeTime h
  let pad ← E.padding K
  match pad with
  | none => .ok ⟨K, none, attr, st⟩
  | some p => do
    let st ← if st.data.length < p then paddedOpen (E.full id K).stream p (E.rng.draw st.rng p) { st with rng := st.rng + 1 } else .ok st
    .ok ⟨K, some p, attr, st⟩

/-- `m_stream` (`/repo/sources/files.h:73`, set at `/repo/sources/files.cpp:160,179`). -/
def stream (id : Bytes) (f : OpenFile) : Stream FullSt :=
  match f.pad with
  | none => (E.full id f.keys).stream
  | some p => paddedStream (E.full id f.keys).stream p []

/-- `RegularFile::read` (`/repo/sources/files.h:378-383`). -/
def readObj (id : Bytes) (now : TimeSpec) (f : OpenFile) (off len : Nat) : Res (OpenFile × Bytes) := do
  let f := { f with attr := f.attr.touchAtime E.storeTime now }
  let b ← (E.stream id f).read f.st off len
  .ok (f, b)

/-- `RegularFile::write` (`/repo/sources/files.h:385-390`). -/
def writeObj (id : Bytes) (now : TimeSpec) (f : OpenFile) (off : Nat) (d : Bytes) : Res OpenFile := do
  let f := { f with attr := f.attr.touchMtime E.storeTime now }
  let st ← (E.stream id f).write f.st off d
  .ok { f with st := st }

/-- `RegularFile::truncate` (`/repo/sources/files.h:397-401`). -/
def truncateObj (id : Bytes) (now : TimeSpec) (f : OpenFile) (n : Nat) : Res OpenFile := do
  let f := { f with attr := f.attr.touchMtime E.storeTime now }
  let st ← (E.stream id f).resize f.st n
  .ok { f with st := st }

/-- The first part of `FileBase::flush`: the header is written when the attributes have changed
    (`/repo/sources/files.cpp:249-274`).  `subflush` does nothing for a regular file. -/
def writeAttr (id : Bytes) (f : OpenFile) : Res OpenFile :=
  if f.attr.dirty then do
    let h ← FileAttr.encodeHeader E.storeTime f.attr
    let st ← (E.full id f.keys).writeHeader f.st h
    .ok { f with st := st, attr := { f.attr with dirty := false } }
  else .ok f

/-- `FileBase::flush` (`/repo/sources/files.cpp:247-277`).  `flush_header` and `m_stream->flush()` are both the flush of the
    encrypted stream (`/repo/sources/streams.cpp:484-488,567`). -/
def flushObj (id : Bytes) (f : OpenFile) : Res OpenFile := do
  let f ← E.writeAttr id f
  let st ← (E.full id f.keys).flush f.st
  let st ← (E.full id f.keys).flush st
  .ok { f with st := st }

/-- The object is flushed and destroyed (`/repo/sources/file_table_v2.cpp:139-179`), and later made again from its backing
    files, when `rng` random numbers have been drawn. -/
def reopenObj (id : Bytes) (rng : Nat) (f : OpenFile) : Res OpenFile := do
  let f ← E.flushObj id f
  E.openObj id f.st.data f.st.metaS.file rng

end FileEnv

/-- Calls on an open file (`/repo/sources/files.h:188-408`).  `attr` stands for the calls that change attributes only. -/
inductive FileCall where
  | read (off len : Nat)
  | write (off : Nat) (d : Bytes)
  | truncate (n : Nat)
  | attr (op : AttrOp)
  | stat
  | flush
  | reopen (rng : Nat)

/-- What a call returns.
    (`/repo/sources/files.h:378-401`, `/repo/sources/files.cpp:222-243`). -/
inductive FileAnswer where
  | bytes (b : Bytes)
  | done
  /-- the size and the attributes -/
  | stat (size : Nat) (mode uid gid nlink : UInt32) (times : Option (TimeSpec × TimeSpec × TimeSpec × TimeSpec))
  deriving DecidableEq

namespace FileEnv
variable (E : FileEnv)

/-- The calls that change attributes and nothing else (`/repo/sources/files.h:203-333`, `/repo/sources/files.cpp:335-357`). -/
def attrCall (now : TimeSpec) (op : AttrOp) (a : FileAttr) : FileAttr :=
  match op with
  | .read => a.touchAtime E.storeTime now
  | .write => a.touchMtime E.storeTime now
  | .chmod m => a.chmod E.storeTime now m
  | .chown u g => a.chown E.storeTime now u g
  | .setNlink v => a.setNlink E.storeTime now v
  | .unlink => a.unlink
  | .setRootPage v => a.setRootPage v
  | .setStartFree v => a.setStartFree v
  | .setNumFree v => a.setNumFree v
  | .utimens g ts => a.utimens E.storeTime g ts
  | .flush => a
  | .reload => a

/-- One call.  Harness of the model (`/repo/sources/files.h:188-408`). -/
def callObj (id : Bytes) (now : TimeSpec) (f : OpenFile) : FileCall → Res (OpenFile × FileAnswer)
  | .read off len => do
    let p ← E.readObj id now f off len
    .ok (p.1, .bytes p.2)
  | .write off d => do
    let f ← E.writeObj id now f off d
    .ok (f, .done)
  | .truncate n => do
    let f ← E.truncateObj id now f n
    .ok (f, .done)
  | .attr op => .ok ({ f with attr := E.attrCall now op f.attr }, .done)
  | .stat =>
    let a := f.attr.stat E.storeTime
    .ok (f, .stat ((E.stream id f).size f.st) a.1 a.2.1 a.2.2.1 a.2.2.2.1 a.2.2.2.2)
  | .flush => do
    let f ← E.flushObj id f
    .ok (f, .done)
  | .reopen rng => do
    let f ← E.reopenObj id rng f
    .ok (f, .done)

/-- A history of calls, each with the time at which it is made; it stops at the first exception.  Harness of the model
    (`/repo/sources/files.h:188-408`). -/
def runObj (id : Bytes) : OpenFile → List (TimeSpec × FileCall) → Res (OpenFile × List FileAnswer)
  | f, [] => .ok (f, [])
  | f, (now, c) :: rest => do
    let p ← E.callObj id now f c
    let q ← runObj id p.1 rest
    .ok (q.1, p.2 :: q.2)

/-- A new file: the constructor over empty backing files, then `initialize_empty` (`/repo/sources/file_table_v2.cpp:93-104`,
    `/repo/sources/full_format.cpp:591-595`). -/
def createObj (id : Bytes) (now : TimeSpec) (osUid osGid mode uid gid : UInt32) (rng : Nat) : Res OpenFile := do
  let f ← E.openObj id [] [] rng
  .ok { f with attr := f.attr.initializeEmpty E.storeTime now osUid osGid mode uid gid }

end FileEnv
end Securefs

import Verif.Model.Stream
import Verif.Model.Crypto
/-!
# The lite format file stream

Models `securefs::lite::AESGCMCryptStream` of `/repo/sources/lite_stream.{h,cpp}`.
-/

namespace Securefs

/-- Everything fixed while a lite file system is mounted: constructor arguments
    (`/repo/sources/lite_stream.h:75-88`), and the external primitives. -/
structure LiteCfg where
  /-- `block_size` -/
  bs : Nat
  /-- `m_iv_size` -/
  ivSize : Nat
  /-- `m_check` -/
  check : Bool
  /-- `m_stream->is_sparse()` -/
  sparse : Bool
  /-- `compute_session_key` followed by the AES-GCM instance keyed with it, as a function of the
      file's 16 byte id -/
  gcm : Bytes → Gcm
  /-- `compute_padding` as a function of the file's id -/
  padding : Bytes → Nat
  rng : Rng
  /-- bound of the model on consecutive all-zero IVs -/
  ivFuel : Nat

/-- `MAX_BLOCKS` (`/repo/sources/lite_stream.cpp:20`). -/
def liteMaxBlocks : Nat := 2 ^ 31 - 1

/-- `get_underlying_block_size` (`/repo/sources/lite_stream.h:48-51`). -/
def LiteCfg.ubs (C : LiteCfg) : Nat := C.bs + C.ivSize + 16

/-- The fields of an open stream object: the keyed ciphers are `C.gcm id`, `pad` is the tail of
    `m_auxiliary` (`/repo/sources/lite_stream.h:30-35`). -/
structure LiteObj where
  id : Bytes
  pad : Bytes
  deriving DecidableEq

/-- `get_header_size` (`/repo/sources/lite_stream.h:46`). -/
def LiteObj.headerSize (o : LiteObj) : Nat := 16 + o.pad.length

/-- The mutable state: the underlying file (`m_stream`, `/repo/sources/lite_stream.h:32`) and how many
    random requests were made. -/
structure LiteSt where
  file : Bytes
  rng : Nat
  deriving DecidableEq

/-- The additional authenticated data of a block: `m_auxiliary` with its first four bytes set to
    the block number (`/repo/sources/lite_stream.cpp:181-183,224-225`). -/
def LiteObj.aad (o : LiteObj) (blk : Nat) : Bytes := le32 blk ++ o.pad

namespace LiteCfg
variable (C : LiteCfg) (o : LiteObj)

/-- The decoding of one underlying block in `read_multi_blocks`
    (`/repo/sources/lite_stream.cpp:164-196`): all zeros is a hole, otherwise
    `IV | ciphertext | MAC`. -/
def decodeBlock (blk : Nat) (cur : Bytes) : Res Bytes :=
  if allZeros cur then .ok (zeros (cur.length - 16 - C.ivSize))
  else
    let iv := cur.take C.ivSize
    let ct := (cur.drop C.ivSize).take (cur.length - 16 - C.ivSize)
    let mac := cur.drop (cur.length - 16)
    let r := (C.gcm o.id).dec iv (o.aad blk) ct mac
    if C.check && !r.1 then .error .verify else .ok r.2

/-- The loop of `read_multi_blocks` (`/repo/sources/lite_stream.cpp:157-199`) over the remaining
    bytes read.  `fuel` is the number of blocks requested. -/
def readLoop : (fuel blk : Nat) → Bytes → Res Bytes
  | 0, _, buf => if buf.isEmpty then .ok [] else .error .fuel
  | fuel + 1, blk, buf =>
    if buf.isEmpty then .ok []
    else if (buf.take C.ubs).length ≤ 16 + C.ivSize then .ok []
    else do
      let p ← C.decodeBlock o blk (buf.take C.ubs)
      let rest ← readLoop fuel (blk + 1) (buf.drop C.ubs)
      .ok (p ++ rest)

/-- `read_multi_blocks` (`/repo/sources/lite_stream.cpp:146-200`). -/
def readMulti (st : LiteSt) (s e : Nat) : Res Bytes :=
  if e > liteMaxBlocks then .error .tooLong
  else C.readLoop o (e - s) s (ufRead st.file (o.headerSize + C.ubs * s) ((e - s) * C.ubs))

/-- The encoding of one block in `write_multi_blocks` (`/repo/sources/lite_stream.cpp:219-238`). -/
def encodeBlock (blk : Nat) (iv pt : Bytes) : Bytes :=
  iv ++ ((C.gcm o.id).enc iv (o.aad blk) pt).1 ++ ((C.gcm o.id).enc iv (o.aad blk) pt).2

/-- The loop of `write_multi_blocks` (`/repo/sources/lite_stream.cpp:213-242`).  `rem` is
    `buffer.size() - i`; reading past the end of `input` is the outcome `outOfBounds`. -/
def writeLoop : (fuel blk rem rng : Nat) → Bytes → Res (Bytes × Nat)
  | 0, _, rem, rng, _ => if rem = 0 then .ok ([], rng) else .error .fuel
  | fuel + 1, blk, rem, rng, input =>
    if rem = 0 then .ok ([], rng)
    else
      let u := min C.ubs rem
      if u < 16 + C.ivSize then .error .outOfBounds
      else
        let v := u - 16 - C.ivSize
        if v > 0 then
          if input.length < v then .error .outOfBounds
          else do
            let q ← drawIv C.rng C.ivSize C.ivFuel rng
            let rest ← writeLoop fuel (blk + 1) (rem - u) q.2 (input.drop v)
            .ok (C.encodeBlock o blk q.1 (input.take v) ++ rest.1, rest.2)
        else do
          let rest ← writeLoop fuel (blk + 1) (rem - u) rng input
          .ok (zeros u ++ rest.1, rest.2)

/-- `write_multi_blocks` (`/repo/sources/lite_stream.cpp:202-246`). -/
def writeMulti (st : LiteSt) (s e r : Nat) (input : Bytes) : Res LiteSt :=
  if e > liteMaxBlocks then .error .tooLong
  else do
    let size := (e - s) * C.ubs + (if r ≤ 0 then 0 else r + C.ivSize + 16)
    let q ← C.writeLoop o (e - s + 1) s size st.rng input
    .ok { file := ufWrite st.file (s * C.ubs + o.headerSize) q.1, rng := q.2 }

/-- `calculate_real_size` (`/repo/sources/lite_stream.cpp:264-277`). -/
def realSize (bs ivSize usize : Nat) : Nat :=
  if usize ≤ 16 then 0
  else
    (usize - 16) / (bs + ivSize + 16) * bs
      + (if (usize - 16) % (bs + ivSize + 16) > ivSize + 16
          then (usize - 16) % (bs + ivSize + 16) - ivSize - 16 else 0)

/-- `size` (`/repo/sources/lite_stream.cpp:248-254`). -/
def size (st : LiteSt) : Nat :=
  if st.file.length ≤ o.headerSize then 0
  else realSize C.bs C.ivSize (st.file.length - o.pad.length)

/-- The underlying size computed by `adjust_logical_size` (`/repo/sources/lite_stream.cpp:258-261`). -/
def underlyingSize (len : Nat) : Nat :=
  o.headerSize + len / C.bs * C.ubs
    + (if len % C.bs > 0 then len % C.bs + C.ivSize + 16 else 0)

/-- `adjust_logical_size` (`/repo/sources/lite_stream.cpp:256-262`). -/
def adjust (st : LiteSt) (len : Nat) : Res LiteSt :=
  .ok { st with file := ufResize st.file (C.underlyingSize o len) }

/-- The overridden virtual functions of the lite stream (`/repo/sources/lite_stream.h:63-95`). -/
def dev : BlockDev LiteSt where
  bs := C.bs
  sparse := C.sparse
  size := C.size o
  readMulti := C.readMulti o
  writeMulti := C.writeMulti o
  adjust := C.adjust o

/-- The constructor (`/repo/sources/lite_stream.cpp:79-138`): creates or loads the header.
    The null-stream test is not represented.  In the code the first four bytes of the random
    auxiliary buffer are overwritten by block numbers before use, so only the tail is kept. -/
def openFile (st : LiteSt) : Res (LiteObj × LiteSt) :=
  if C.ivSize < 12 ∨ C.ivSize > 32 then .error .invalidArg
  else if C.bs < 32 then .error .invalidArg
  else
    let id := ufRead st.file 0 16
    if id.length = 0 then
      let id := C.rng.draw st.rng 16
      let f1 := ufWrite st.file 0 id
      if C.padding id = 0 then
        .ok (⟨id, []⟩, ⟨f1, st.rng + 1⟩)
      else
        let pad := (C.rng.draw (st.rng + 1) (4 + C.padding id)).drop 4
        .ok (⟨id, pad⟩, ⟨ufWrite f1 16 pad, st.rng + 2⟩)
    else if id.length ≠ 16 then .error .invalidArg
    else if C.padding id = 0 then .ok (⟨id, []⟩, st)
    else
      let pad := ufRead st.file 16 (C.padding id)
      if pad.length ≠ C.padding id then .error .invalidArg
      else .ok (⟨id, pad⟩, st)

/-- An open lite file as a stream: the inherited public functions
    (`/repo/sources/streams.h:121-129`) on the device above; reopening runs the constructor
    (`/repo/sources/lite_stream.cpp:79-138`) on the same underlying file. -/
def stream : Stream (LiteObj × LiteSt) where
  read p off len := (C.dev p.1).read p.2 off len
  write p off d := do
    let st ← (C.dev p.1).write p.2 off d
    .ok (p.1, st)
  resize p n := do
    let st ← (C.dev p.1).resize p.2 n
    .ok (p.1, st)
  size p := C.size p.1 p.2
  reopen p := C.openFile p.2

/-- The size reported by `vgetattr` for a regular file (`/repo/sources/lite_format.cpp:773-774,804-829`):
    without padding it is computed from the physical size alone
    (`/repo/sources/lite_format.h:79-84`), otherwise the file is opened. -/
def statSize (maxPad : Nat) (st : LiteSt) : Res Nat :=
  if st.file.length = 0 then .ok 0
  else if maxPad = 0 then .ok (realSize C.bs C.ivSize st.file.length)
  else do
    let p ← C.openFile st
    .ok (C.size p.1 p.2)

/-- `StreamOpener::compute_padding` and `default_compute_padding`
    (`/repo/sources/lite_format.cpp:56-64`, `/repo/sources/lite_stream.cpp:278-294`): the id encrypted
    with `aes`, read as a big-endian integer, modulo `max_padding + 1`. -/
def computePadding (maxPad : Nat) (aes : Bytes → Bytes) (id : Bytes) : Nat :=
  if maxPad = 0 then 0
  else (aes id).foldl (fun n b => n * 256 + b.toNat) 0 % (maxPad + 1)

end LiteCfg
end Securefs

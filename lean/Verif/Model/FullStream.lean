import Verif.Model.Stream
import Verif.Model.Crypto
import Verif.Spec.HeaderFile
/-!
# The full format file streams

Models `HMACStream`, `internal::AESGCMCryptStream` and `PaddedStream` of
`/repo/sources/streams.{h,cpp}`.
-/

namespace Securefs

/-! ## HMACStream -/

/-- The state of an `HMACStream` (`/repo/sources/streams.cpp:50-54`): the underlying file
    (32 bytes of MAC, then the payload) and `is_dirty`. -/
structure HmacSt where
  file : Bytes
  dirty : Bool
  deriving DecidableEq

/-- The loop of `run_mac` (`/repo/sources/streams.cpp:64-77`): the bytes fed to the MAC
    calculator after the id, read in chunks of 4096 from `off`. -/
def runMacLoop (f : Bytes) : (fuel off : Nat) → Res Bytes
  | 0, _ => .error .fuel
  | fuel + 1, off =>
    let b := ufRead f off 4096
    if b.length = 0 then .ok []
    else do
      let rest ← runMacLoop f fuel (off + b.length)
      .ok (b ++ rest)

/-- `run_mac` (`/repo/sources/streams.cpp:64-77`): the whole message that is authenticated. -/
def runMac (id f : Bytes) : Res Bytes := do
  let b ← runMacLoop f (f.length + 1) 32
  .ok (id ++ b)

/-- The constructor of `HMACStream` (`/repo/sources/streams.cpp:80-103`); `hm` is HMAC-SHA256
    under the stream's key.  The null-stream test is not represented. -/
def hmacOpen (hm : Bytes → Bytes) (id : Bytes) (check : Bool) (f : Bytes) : Res HmacSt :=
  if check then
    let h := ufRead f 0 32
    if h.length = 0 then .ok ⟨f, false⟩
    else if h.length ≠ 32 then .error .hmac
    else do
      let m ← runMac id f
      if hm m = h then .ok ⟨f, false⟩ else .error .hmac
  else .ok ⟨f, false⟩

/-- `HMACStream::flush` (`/repo/sources/streams.cpp:117-129`). -/
def hmacFlush (hm : Bytes → Bytes) (id : Bytes) (st : HmacSt) : Res HmacSt :=
  if st.dirty then do
    let m ← runMac id st.file
    .ok ⟨ufWrite st.file 0 (hm m), false⟩
  else .ok st

/-- `HMACStream::size` (`/repo/sources/streams.cpp:131-137`). -/
def hmacSize (st : HmacSt) : Nat := if st.file.length < 32 then 0 else st.file.length - 32

/-- `HMACStream::read` (`/repo/sources/streams.cpp:139-142`). -/
def hmacRead (st : HmacSt) (off len : Nat) : Bytes := ufRead st.file (off + 32) len

/-- `HMACStream::write` (`/repo/sources/streams.cpp:144-148`). -/
def hmacWrite (st : HmacSt) (off : Nat) (d : Bytes) : HmacSt := ⟨ufWrite st.file (off + 32) d, true⟩

/-- `HMACStream::resize` (`/repo/sources/streams.cpp:150-154`). -/
def hmacResize (st : HmacSt) (n : Nat) : HmacSt := ⟨ufResize st.file (n + 32), true⟩

/-- An `HMACStream` as a stream (`/repo/sources/streams.cpp:48-157`); reopening flushes (the
    destructor, `/repo/sources/streams.cpp:105-115`; an exception there is ignored) and constructs
    again. -/
def hmacStream (hm : Bytes → Bytes) (id : Bytes) (check : Bool) : Stream HmacSt where
  read st off len := .ok (hmacRead st off len)
  write st off d := .ok (hmacWrite st off d)
  resize st n := .ok (hmacResize st n)
  size := hmacSize
  reopen st := do
    let st1 ← hmacFlush hm id st
    hmacOpen hm id check st1.file

/-! ## The encrypted stream -/

/-- Constructor arguments of `internal::AESGCMCryptStream` (`/repo/sources/streams.cpp:345-353`)
    and the external primitives keyed with them. -/
structure FullCfg where
  /-- `block_size` -/
  bs : Nat
  /-- `iv_size` -/
  ivSize : Nat
  /-- `header_size` -/
  headerSize : Nat
  check : Bool
  sparse : Bool
  /-- AES-GCM under `data_key` -/
  gcm : Gcm
  /-- HMAC-SHA256 under `meta_key` -/
  hm : Bytes → Bytes
  /-- the file's id -/
  id : Bytes
  rng : Rng
  ivFuel : Nat

/-- `max_block_number` (`/repo/sources/streams.cpp:318`). -/
def fullMaxBlocks : Nat := 2 ^ 30

/-- The data file, the meta file behind an `HMACStream`, and the number of random requests.
    (`/repo/sources/streams.cpp:340-353`). -/
structure FullSt where
  data : Bytes
  metaS : HmacSt
  rng : Nat
  deriving DecidableEq

namespace FullCfg
variable (C : FullCfg)

/-- `get_meta_size` (`/repo/sources/streams.cpp:309`). -/
def metaSize : Nat := C.ivSize + 16

/-- `get_encrypted_header_size` (`/repo/sources/streams.cpp:313-316`). -/
def encHeaderSize : Nat := C.headerSize + C.ivSize + 16

/-- `meta_position_for_iv` (`/repo/sources/streams.cpp:330-333`). -/
def metaPos (blk : Nat) : Nat := C.encHeaderSize + C.metaSize * blk

/-- The loop of `write_multi_blocks` (`/repo/sources/streams.cpp:382-407`).  Returns the data
    buffer, the meta buffer, and the random counter. -/
def writeLoop : (fuel rem rng : Nat) → Bytes → Res (Bytes × Bytes × Nat)
  | 0, rem, rng, _ => if rem = 0 then .ok ([], [], rng) else .error .fuel
  | fuel + 1, rem, rng, input =>
    if rem = 0 then .ok ([], [], rng)
    else do
      let q ← drawIv C.rng C.ivSize C.ivFuel rng
      let v := min C.bs rem
      if input.length < v then .error .outOfBounds
      else do
        let e := C.gcm.enc q.1 C.id (input.take v)
        let rest ← writeLoop fuel (rem - v) q.2 (input.drop v)
        .ok (e.1 ++ rest.1, q.1 ++ e.2 ++ rest.2.1, rest.2.2)

/-- `write_multi_blocks` (`/repo/sources/streams.cpp:370-412`). -/
def writeMulti (st : FullSt) (s e r : Nat) (input : Bytes) : Res FullSt :=
  if e > fullMaxBlocks then .error .tooLong
  else do
    let q ← C.writeLoop (e - s + 1) (C.bs * (e - s) + r) st.rng input
    .ok { data := ufWrite st.data (s * C.bs) q.1
          metaS := hmacWrite st.metaS (C.metaPos s) q.2.1
          rng := q.2.2 }

/-- The treatment of one block in `read_multi_blocks` (`/repo/sources/streams.cpp:449-466`). -/
def decodeBlock (d m : Bytes) : Res Bytes :=
  if allZeros m && allZeros d then .ok (zeros d.length)
  else
    let r := C.gcm.dec (m.take C.ivSize) C.id d ((m.drop C.ivSize).take 16)
    if !r.1 && C.check then .error .verify else .ok r.2

/-- The loop of `read_multi_blocks` (`/repo/sources/streams.cpp:440-467`). -/
def readLoop : (fuel : Nat) → (d m : Bytes) → Res Bytes
  | 0, d, _ => if d.isEmpty then .ok [] else .error .fuel
  | fuel + 1, d, m =>
    if d.isEmpty then .ok []
    else do
      let p ← C.decodeBlock (d.take C.bs) (m.take C.metaSize)
      let rest ← readLoop fuel (d.drop C.bs) (m.drop C.metaSize)
      .ok (p ++ rest)

/-- `read_multi_blocks` (`/repo/sources/streams.cpp:414-469`).  The buffer is zero-initialised, so
    meta bytes beyond the end of the meta file are zeros. -/
def readMulti (st : FullSt) (s e : Nat) : Res Bytes :=
  if s = e then .ok []
  else if e > fullMaxBlocks then .error .tooLong
  else
    let d := ufRead st.data (s * C.bs) ((e - s) * C.bs)
    let m := hmacRead st.metaS (C.metaPos s) ((e - s) * C.metaSize)
    if d.length = 0 then .ok []
    else if m.length % C.metaSize ≠ 0 then .error .verify
    else C.readLoop (e - s) d (m ++ zeros ((e - s) * C.metaSize - m.length))

/-- `adjust_logical_size` (`/repo/sources/streams.cpp:471-476`). -/
def adjust (st : FullSt) (len : Nat) : Res FullSt :=
  .ok { st with
    data := ufResize st.data len
    metaS := hmacResize st.metaS (C.metaPos ((len + C.bs - 1) / C.bs)) }

/-- The overridden virtual functions (`/repo/sources/streams.cpp:369-490`). -/
def dev : BlockDev FullSt where
  bs := C.bs
  sparse := C.sparse
  size st := st.data.length
  readMulti := C.readMulti
  writeMulti := C.writeMulti
  adjust := C.adjust

/-- `unchecked_read_header` (`/repo/sources/streams.cpp:493-515`): `none` if there is no header.
    The verification result is ignored by the code. -/
def uncheckedReadHeader (st : FullSt) : Res (Option Bytes) :=
  let b := hmacRead st.metaS 0 C.encHeaderSize
  if b.length = 0 then .ok none
  else if b.length ≠ C.encHeaderSize then .error .corrupt
  else
    .ok (some (C.gcm.dec (b.take C.ivSize) C.id (b.drop (C.ivSize + 16))
      ((b.drop C.ivSize).take 16)).2)

/-- `unchecked_write_header` (`/repo/sources/streams.cpp:517-535`); its IV may be zero. -/
def uncheckedWriteHeader (st : FullSt) (h : Bytes) : FullSt :=
  let iv := C.rng.draw st.rng C.ivSize
  let e := C.gcm.enc iv C.id h
  { st with metaS := hmacWrite st.metaS 0 (iv ++ e.2 ++ e.1), rng := st.rng + 1 }

/-- `read_header` (`/repo/sources/streams.cpp:538-549`). -/
def readHeader (st : FullSt) (len : Nat) : Res (Option Bytes) :=
  if len > C.headerSize then .error .invalidArg
  else do
    let r ← C.uncheckedReadHeader st
    .ok (r.map (·.take len))

/-- `write_header` (`/repo/sources/streams.cpp:553-565`): shorter headers are padded with zeros. -/
def writeHeader (st : FullSt) (h : Bytes) : Res FullSt :=
  if h.length > C.headerSize then .error .invalidArg
  else .ok (C.uncheckedWriteHeader st (h ++ zeros (C.headerSize - h.length)))

/-- The constructor (`/repo/sources/streams.cpp:345-367`) over existing data and meta files. -/
def openFile (data metaF : Bytes) (rng : Nat) : Res FullSt := do
  let m ← hmacOpen C.hm C.id C.check metaF
  .ok ⟨data, m, rng⟩

/-- `flush` (`/repo/sources/streams.cpp:484-488`). -/
def flush (st : FullSt) : Res FullSt := do
  let m ← hmacFlush C.hm C.id st.metaS
  .ok { st with metaS := m }

/-- An open file of the full format as a stream (`/repo/sources/streams.cpp:302-568`); reopening
    flushes, destroys and constructs again. -/
def stream : Stream FullSt where
  read := C.dev.read
  write := C.dev.write
  resize := C.dev.resize
  size st := st.data.length
  reopen st := do
    let st1 ← C.flush st
    C.openFile st1.data st1.metaS.file st1.rng

/-- One user call on a file with a header.  Harness of the model: dispatches to the functions of
    `StreamBase` and `HeaderBase` (`/repo/sources/streams.h:17-88`). -/
def hstep (st : FullSt) : Spec.HOp → Res (FullSt × Spec.HOut)
  | .file op => do
    let p ← C.stream.step st op
    .ok (p.1, .file p.2)
  | .writeHeader h => do
    let st' ← C.writeHeader st h
    .ok (st', .file .done)
  | .readHeader len => do
    let r ← C.readHeader st len
    .ok (st, .header r)
  | .flush => do
    let st' ← C.flush st
    .ok (st', .file .done)

/-- A history of user calls; it stops at the first exception.  Harness of the model
    (`/repo/sources/streams.h:17-88`). -/
def hrun (st : FullSt) : List Spec.HOp → Res (FullSt × List Spec.HOut)
  | [] => .ok (st, [])
  | op :: ops => do
    let p ← C.hstep st op
    let q ← hrun p.1 ops
    .ok (q.1, p.2 :: q.2)

end FullCfg

/-! ## PaddedStream -/

/-- The constructor of `PaddedStream` (`/repo/sources/streams.cpp:594-603`); `rnd` are the random
    bytes drawn. -/
def paddedOpen {σ : Type} (S : Stream σ) (pad : Nat) (rnd : Bytes) (st : σ) : Res σ :=
  if S.size st < pad then S.write st 0 rnd else .ok st

/-- `PaddedStream` over a delegate (`/repo/sources/streams.h:149-187`); reopening reopens the
    delegate and runs the constructor. -/
def paddedStream {σ : Type} (S : Stream σ) (pad : Nat) (rnd : Bytes) : Stream σ where
  read st off len := S.read st (off + pad) len
  write st off d := S.write st (off + pad) d
  resize st n := S.resize st (n + pad)
  size st := if S.size st > pad then S.size st - pad else 0
  reopen st := do
    let st1 ← S.reopen st
    paddedOpen S pad rnd st1

end Securefs

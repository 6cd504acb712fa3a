import Verif.Model.Crypto
import Verif.Model.XattrName
/-!
# Extended attributes of the full format

Models `FileBase::listxattr`, `getxattr`, `setxattr`, `removexattr` (`/repo/sources/files.cpp:284-334,359-402`) and the calls
of them in `/repo/sources/full_format.cpp:392-457`.  The attributes of the two backing files of a file are lists of pairs, the
system calls on them follow Linux.  Finding the file by its path is not part of this model, see `Model/FullFs.lean`; everything
here happens under the lock of the file.
-/

namespace Securefs

/-- The extended attributes of one backing file (`m_data_stream` or `m_meta_stream`, `/repo/sources/files.h:54-55`), as the system
    keeps them. -/
abbrev XStore := List (Bytes × Bytes)

/-- `XATTR_CREATE` of Linux, used in `/repo/sources/full_format.cpp:435`. -/
def xattrCreate : BitVec 32 := 1
/-- `XATTR_REPLACE` of Linux, used in `/repo/sources/full_format.cpp:435`. -/
def xattrReplace : BitVec 32 := 2

namespace XStore

/-- `UnixFileStream::setxattr` (`/repo/sources/unix.cpp:221-226`): `fsetxattr` of Linux.  22 is `EINVAL`, 17 `EEXIST`, 61
    `ENODATA`.  Limits of the system on sizes are not represented; see the failures of `FullXattr.setxattr`. -/
def set (s : XStore) (name value : Bytes) (flags : BitVec 32) : Res XStore :=
  if flags &&& ~~~(xattrCreate ||| xattrReplace) ≠ 0 then .error (.vfs 22)
  else
    match s.lookup name with
    | some _ =>
      if flags &&& xattrCreate ≠ 0 then .error (.vfs 17)
      else .ok (s.map fun p => if p.1 = name then (name, value) else p)
    | none => if flags &&& xattrReplace ≠ 0 then .error (.vfs 61) else .ok (s ++ [(name, value)])

/-- `UnixFileStream::getxattr` (`/repo/sources/unix.cpp:205-211`): `fgetxattr` of Linux with a buffer of which `size` bytes may be
    used (`none` for a null pointer).  Returns the size of the value and the buffer afterwards.  34 is `ERANGE`, 14 `EFAULT`. -/
def get (s : XStore) (name : Bytes) (buf : Option Bytes) (size : Nat) : Res (Nat × Option Bytes) :=
  match s.lookup name with
  | none => .error (.vfs 61)
  | some v =>
    if size = 0 then .ok (v.length, buf)
    else if v.length > size then .error (.vfs 34)
    else
      match buf with
      | none => .error (.vfs 14)
      | some b =>
        match memcpyAt b 0 v with
        | .error e => .error e
        | .ok b' => .ok (v.length, some b')

/-- `UnixFileStream::removexattr` (`/repo/sources/unix.cpp:198-203`): `fremovexattr` of Linux. -/
def remove (s : XStore) (name : Bytes) : Res XStore :=
  match s.lookup name with
  | none => .error (.vfs 61)
  | some _ => .ok (s.filter fun p => p.1 ≠ name)

/-- `UnixFileStream::listxattr` (`/repo/sources/unix.cpp:213-219`): the text that `flistxattr` of Linux gives. -/
def list (s : XStore) : Bytes := s.flatMap fun p => p.1 ++ [0]

end XStore

/-- What a file object has for its attributes (`/repo/sources/files.h:50,56-61`, keys from `/repo/sources/files.cpp:161-165`). -/
structure XCfg where
  gcm : Gcm
  siv : Siv
  b64 : Base64
  rng : Rng
  id : Bytes
  check : Bool

/-- The attributes of the two backing files, and how often random bytes have been drawn
    (`/repo/sources/files.h:54-55`, `/repo/sources/files.cpp:374`). -/
structure XSt where
  data : XStore
  «meta» : XStore
  drawn : Nat

namespace XCfg

/-- The additional data: the identifier of the file and the stored name (`/repo/sources/files.cpp:312-315,376-379`). -/
def header (C : XCfg) (wrapped : Bytes) : Bytes := C.id ++ wrapped

/-- `FileBase::getxattr` (`/repo/sources/files.cpp:296-334`) for a name that is not null.  `value` is the buffer (`none` for a null
    pointer), `size` what the caller says about it.  5 is `EIO`.  The value is decrypted in place; an access behind the end of the
    buffer is `outOfBounds`. -/
def getxattr (C : XCfg) (st : XSt) (name : Bytes) (value : Option Bytes) (size : Nat) : Res (Nat × Option Bytes) :=
  match encryptXattrName C.siv C.b64 name with
  | .error e => .error e
  | .ok w =>
    match st.data.get w value size with
    | .error e => .error e
    | .ok (trueSize, none) => .ok (trueSize, none)
    | .ok (trueSize, some b) =>
      match st.meta.get w (some (zeros 32)) 32 with
      | .error e => .error e
      | .ok (_, none) => .error .outOfBounds
      | .ok (metaSize, some m) =>
        if metaSize ≠ 32 then .error (.vfs 5)
        else if trueSize > b.length then .error .outOfBounds
        else
          let r := C.gcm.dec (m.take 16) (C.header w) (b.take trueSize) (m.drop 16)
          if C.check && !r.1 then .error .verify else .ok (trueSize, some (r.2 ++ b.drop trueSize))

/-- `FileBase::setxattr` (`/repo/sources/files.cpp:359-392`) for a name and a value that are not null.  `failData`, `failMeta`: the
    error number with which the system refuses the first or the second change, if it does. -/
def setxattr (C : XCfg) (st : XSt) (name value : Bytes) (flags : BitVec 32) (failData failMeta : Option Nat) : Res Unit × XSt :=
  match encryptXattrName C.siv C.b64 name with
  | .error e => (.error e, st)
  | .ok w =>
    let iv := C.rng.draw st.drawn 16
    let e := C.gcm.enc iv (C.header w) value
    let st1 := { st with drawn := st.drawn + 1 }
    match failData with
    | some n => (.error (.vfs n), st1)
    | none =>
      match st1.data.set w e.1 flags with
      | .error err => (.error err, st1)
      | .ok d =>
        let st2 := { st1 with data := d }
        match failMeta with
        | some n => (.error (.vfs n), st2)
        | none =>
          match st2.meta.set w (iv ++ e.2) flags with
          | .error err => (.error err, st2)
          | .ok m => (.ok (), { st2 with «meta» := m })

/-- `FileBase::removexattr` (`/repo/sources/files.cpp:394-402`), with refusals as for `setxattr`. -/
def removexattr (C : XCfg) (st : XSt) (name : Bytes) (failData failMeta : Option Nat) : Res Unit × XSt :=
  match encryptXattrName C.siv C.b64 name with
  | .error e => (.error e, st)
  | .ok w =>
    match failData with
    | some n => (.error (.vfs n), st)
    | none =>
      match st.data.remove w with
      | .error err => (.error err, st)
      | .ok d =>
        let st1 := { st with data := d }
        match failMeta with
        | some n => (.error (.vfs n), st1)
        | none =>
          match st1.meta.remove w with
          | .error err => (.error err, st1)
          | .ok m => (.ok (), { st1 with «meta» := m })

/-- `FileBase::listxattr` (`/repo/sources/files.cpp:286-294`). -/
def listxattr (C : XCfg) (st : XSt) (buffer : Option Bytes) (size : Nat) : Res (Int × Option Bytes) :=
  wrappedListxattr C.siv C.b64 st.data.list.length (fun _ => (st.data.list.length, st.data.list)) buffer size

/-- `FuseHighLevelOps::vgetxattr` (`/repo/sources/full_format.cpp:406-422`) on the file found. -/
def vgetxattr (C : XCfg) (st : XSt) (name : Bytes) (value : Option Bytes) (size position : Nat) : Res (Nat × Option Bytes) :=
  if position ≠ 0 then .error (.vfs 22) else C.getxattr st name value size

/-- `FuseHighLevelOps::vsetxattr` (`/repo/sources/full_format.cpp:423-446`) on the file found. -/
def vsetxattr (C : XCfg) (st : XSt) (name value : Bytes) (flags : BitVec 32) (position : Nat) (failData failMeta : Option Nat) :
    Res Unit × XSt :=
  if position ≠ 0 then (.error (.vfs 22), st)
  else C.setxattr st name value (flags &&& (xattrCreate ||| xattrReplace)) failData failMeta

end XCfg

end Securefs

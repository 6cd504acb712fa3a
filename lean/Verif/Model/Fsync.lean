import Verif.Model.FileObj
import Verif.Model.LiteStream
/-!
# fsync

Models `fsync` of both formats over backing files that the operating system caches (`/repo/sources/full_format.cpp:360-369`,
`/repo/sources/files.h:337-341`, `/repo/sources/lite_format.cpp:1048-1058`, `/repo/sources/lite_format.h:171`,
`/repo/sources/unix.cpp:90-95`).
-/

namespace Securefs

/-- An open file of the full format with what is certain to be on the disk of its two backing files, `m_data_stream` and
    `m_meta_stream` (`/repo/sources/files.h:54-55`). -/
structure SyncedObj where
  obj : OpenFile
  diskData : Bytes
  diskMeta : Bytes
  deriving DecidableEq

namespace FileEnv
variable (E : FileEnv)

/-- `FileBase::fsync` (`/repo/sources/files.h:337-341`): both backing files are written to the disk as they are. -/
def fsyncObj (s : SyncedObj) : SyncedObj := { s with diskData := s.obj.st.data, diskMeta := s.obj.st.metaS.file }

/-- Any other call changes the backing files in the cache (`/repo/sources/files.h:378-408`, `/repo/sources/files.cpp:247-277`). -/
def syncedRun (id : Bytes) (s : SyncedObj) (cs : List (TimeSpec × FileCall)) : Res (SyncedObj × List FileAnswer) := do
  let p ← E.runObj id s.obj cs
  .ok ({ s with obj := p.1 }, p.2)

end FileEnv

/-- An open file of the lite format with what is certain to be on the disk of `m_file_stream` (`/repo/sources/lite_format.h:133`). -/
structure SyncedLite where
  obj : LiteObj × LiteSt
  disk : Bytes
  deriving DecidableEq

namespace LiteCfg
variable (C : LiteCfg)

/-- `AESGCMCryptStream::flush` (`/repo/sources/lite_stream.cpp:142`): the flush of the backing file, which does nothing
    (`/repo/sources/unix.cpp:140`); no data are kept in the stream. -/
def flushLite (p : LiteObj × LiteSt) : LiteObj × LiteSt := p

/-- `vfsync` (`/repo/sources/lite_format.cpp:1048-1058`, `/repo/sources/lite_format.h:171`). -/
def fsyncLite (s : SyncedLite) : SyncedLite := ⟨flushLite s.obj, (flushLite s.obj).2.file⟩

/-- Any other call (`/repo/sources/lite_format.h:147-166`). -/
def syncedRun (s : SyncedLite) (ops : List Spec.Op) : Res (SyncedLite × List Spec.Out) := do
  let p ← C.stream.run s.obj ops
  .ok ({ s with obj := p.1 }, p.2)

end LiteCfg
end Securefs

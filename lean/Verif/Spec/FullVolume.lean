import Verif.Model.FullVolume
import Verif.Spec.FullFsData
import Verif.Spec.DirFile
/-!
# Specification: a volume of the full format is the plain file system

The ideal volume has no backing files, keys, blocks, pages, caches or closed objects: only the files of `FullFs`, whose operations
C60, C70 and C79 describe as those of a tree, and the handles that the caller holds.
-/

namespace Securefs.Spec

/-- What an operation of the ideal file system answers. -/
def idealOp (cfg : FsCfg) : FullOp → Prog VolAnswer
  | .create path mode uid gid newId => (fullCreate cfg path mode uid gid newId).bind fun r => .ret (.handle r.1 r.2)
  | .getattr path => (fullGetattr cfg ⟨none, none⟩ path).bind fun r => .ret (.stat r.1 r.2)
  | .«open» path trunc => (fullOpen cfg path trunc).bind fun r => .ret (.handle r.1 r.2)
  | .readlink path size => (fullReadlink cfg path size).bind fun r => .ret (.bytes r.1 r.2)
  | .opendir path => (fullOpendir cfg path).bind fun r => .ret (.handle r.1 r.2)
  | .read h off len => (fullRead cfg h off len).bind fun r => .ret (.bytes r.1 r.2)
  | .fgetattr h => (fullFgetattr cfg ⟨none, none⟩ h).bind fun r => .ret (.stat r.1 r.2)
  | .readdir h fill => (fullReaddir cfg fill h).bind fun r => .ret (.items r.1 r.2)
  | op => (op.prog cfg).bind fun n => .ret (.code n)

/-- The ideal volume. -/
structure IdealVol where
  fs : FullFs
  held : List FH

/-- The `parent_id` of some objects is lost, which a user cannot see. -/
def forget (cfg : FsCfg) : List Bytes → FullFs → FullFs
  | [], fs => fs
  | id :: ids, fs => forget cfg ids (FullSys.step cfg ⟨fs, []⟩ (.evict id)).fs

/-- What the ideal volume does at an event.  A file without links disappears when it is closed and nobody holds it.  Unmounting and
    mounting again drops the handles, and nothing else. -/
inductive IdealStep (cfg : FsCfg) : IdealVol → VolEvent → Res VolAnswer → IdealVol → Prop
  | op {I : IdealVol} (op : FullOp) :
      IdealStep cfg I (.op op) ((idealOp cfg op).run I.fs).1
        ⟨((idealOp cfg op).run I.fs).2, (VolAnswer.given ((idealOp cfg op).run I.fs).1).toList ++ I.held⟩
  | release {I : IdealVol} (h : FH) :
      IdealStep cfg I (.release h) (.ok (.code (fullRelease h).1)) ⟨I.fs, if (fullRelease h).2 then I.held.erase h else I.held⟩
  | releasedir {I : IdealVol} (h : FH) :
      IdealStep cfg I (.releasedir h) (.ok (.code (fullReleasedir h).1)) ⟨I.fs, if (fullReleasedir h).2 then I.held.erase h else I.held⟩
  | tick {I : IdealVol} (now : TimeSpec) : IdealStep cfg I (.tick now) (.ok (.code 0)) ⟨{ I.fs with now := now }, I.held⟩
  | close {I : IdealVol} (id : Bytes) : IdealStep cfg I (.close id) (.ok (.code 0)) I
  | gone {I : IdealVol} (id : Bytes) (h : ∀ fh ∈ I.held, fh.id ≠ id) :
      IdealStep cfg I (.close id) (.ok (.code 0)) ⟨(FullSys.step cfg ⟨I.fs, []⟩ (.reap id)).fs, I.held⟩
  | eject {I : IdealVol} (id : Bytes) (ids : List Bytes) : IdealStep cfg I (.eject id) (.ok (.code 0)) ⟨forget cfg ids I.fs, I.held⟩
  | remount {I : IdealVol} (ids : List Bytes) : IdealStep cfg I .remount (.ok (.code 0)) ⟨forget cfg ids I.fs, []⟩

/-- What `stat` says about a directory may differ in the size, which the ideal file system does not know, and in the times, which the
    code sets when it tidies up a directory (C84_flush_times_violated). -/
def StatLike (a b : FullStat) : Prop :=
  a.ino = b.ino ∧ a.uid = b.uid ∧ a.gid = b.gid ∧ a.nlink = b.nlink ∧ a.mode = b.mode ∧
    (a.mode &&& 0xf000 ≠ 0x4000 → a.size = b.size ∧ a.times = b.times)

/-- An answer of the volume is that of the ideal one: a listing in any order, everything else the same. -/
def VolAnswerLike : VolAnswer → VolAnswer → Prop
  | .stat n (some a), .stat m (some b) => n = m ∧ StatLike a b
  | .items n l, .items m k => n = m ∧ l.Perm k
  | a, b => a = b

/-- The same for results that may be exceptions. -/
def ResultLike : Res VolAnswer → Res VolAnswer → Prop
  | .ok a, .ok b => VolAnswerLike a b
  | .error e, .error e' => e = e'
  | _, _ => False

/-- A condition holds before every section of a program that runs alone. -/
def Along {α : Type} (P : FullFs → Prop) : Prog α → FullFs → Prop
  | .ret _, _ => True
  | .throw _, _ => True
  | .sec f k, fs => P fs ∧ ∀ b, (f fs).1 = .ok b → Along P (k b) (f fs).2

/-- No directory is full: about six million entries, and room for the two that one section may add. -/
def DirRoom (fs : FullFs) : Prop := ∀ id n, fs.get id = some n → n.entries.length + 2 ≤ dirCapacity

/-- The handle that an operation goes through. -/
def FullOp.handle? : FullOp → Option FH
  | .read h _ _ => some h
  | .write h _ _ => some h
  | .ftruncate h _ => some h
  | .fgetattr h => some h
  | .readdir h _ => some h
  | .flush h => some h
  | .fsync h => some h
  | _ => none

/-- The paths at which an operation may add a name. -/
def FullOp.adds : FullOp → List Bytes
  | .create path _ _ _ _ => [path]
  | .mkdir path _ _ _ _ => [path]
  | .symlink _ path _ _ _ => [path]
  | .link _ dest => [dest]
  | .rename a b => [a, b]
  | _ => []

/-- The identifier that an operation draws. -/
def FullOp.newId? : FullOp → Option Bytes
  | .create _ _ _ _ id => some id
  | .mkdir _ _ _ _ id => some id
  | .symlink _ _ _ _ id => some id
  | _ => none

/-- The last byte of a file that an operation touches. -/
def FullOp.reach : FullOp → Nat
  | .read _ off len => off + len
  | .write _ off d => off + d.length
  | .ftruncate _ n => n
  | .truncate _ n => n
  | .symlink target _ _ _ _ => target.length
  | _ => 0

/-- The largest file of a volume. -/
def fileLimit (E : FileEnv) : Nat := 2 ^ 30 * E.blockSize - E.maxPadding.toNat

/-- What is assumed of an operation: handles come from earlier operations, names have no zero bytes, new identifiers have 32 bytes and
    are not those of directories that have been removed, times are valid, and nothing grows too large. -/
structure OpWithin (E : FileEnv) (cfg : FsCfg) (I : IdealVol) (op : FullOp) : Prop where
  handle : ∀ h, FullOp.handle? op = some h → h ∈ I.held
  names : ∀ path ∈ FullOp.adds op, (0 : UInt8) ∉ path
  ids : ∀ id, FullOp.newId? op = some id → id.length = 32 ∧ (I.fs.get id = none → ∀ x n, I.fs.get x = some n → n.parent ≠ id)
  times : ∀ path garbage ts, op = .utimens path garbage ts → AttrOpValid (.utimens garbage ts)
  size : FullOp.reach op ≤ fileLimit E
  asked : Asked cfg I.fs op
  links : RoomAlong (op.prog cfg) I.fs
  dirs : Along DirRoom (op.prog cfg) I.fs

/-- What is assumed of an event. -/
def EventWithin (E : FileEnv) (cfg : FsCfg) (I : IdealVol) : VolEvent → Prop
  | .op op => OpWithin E cfg I op
  | .tick now => ValidTime now
  | _ => True

/-- A history of the ideal volume that stays within the limits, with its answers. -/
inductive IdealRun (E : FileEnv) (cfg : FsCfg) : IdealVol → List VolEvent → List (Res VolAnswer) → IdealVol → Prop
  | nil {I} : IdealRun E cfg I [] [] I
  | cons {I I1 I2 e r es rs} : EventWithin E cfg I e → IdealStep cfg I e r I1 → IdealRun E cfg I1 es rs I2 →
      IdealRun E cfg I (e :: es) (r :: rs) I2

/-- What is assumed of a volume. -/
structure VolEnvOk (V : VolEnv) : Prop where
  env : FileEnvOk V.env
  room : RoomForDirs V.env
  names : TotalPreorder V.dirs.cmp
  order : ∀ l : List Nat, (V.dirs.order l).Perm l

/-- The ideal file system that belongs to a volume. -/
def idealCfg (V : VolEnv) : FsCfg := ⟨sameName V.dirs.cmp, V.env.storeTime, V.osUid, V.osGid⟩

end Securefs.Spec

import Verif.Spec.DataMoments
import Verif.Spec.FullVolume
/-!
# Specification: modes and owners change at one moment, and what is reported was there at one moment

Calls of any number of threads overlap.  The mode, the user and the group of a file are to be changed by the calls that are for this, at one moment each, and
a file has them before it has a name.  What a call tells about a file, a link or a directory is to have been true at one moment of the call.
-/

namespace Securefs.Spec

/-- The mode, the user and the group of a file, if it exists. -/
def owned (fs : FullFs) (id : Bytes) : Option (UInt32 × UInt32 × UInt32) := (viewOf fs id).map fun f => (f.mode, f.uid, f.gid)

/-- Nothing of this is changed. -/
def Moment.kept (m : Moment) : Prop := ∀ id, owned m.2 id = owned m.1 id

/-- One file gets what `g` says, and nothing else is changed. -/
def Moment.given (m : Moment) (id : Bytes) (g : UInt32 × UInt32 × UInt32 → UInt32 × UInt32 × UInt32) : Prop :=
  (∃ x, owned m.1 id = some x ∧ owned m.2 id = some (g x)) ∧ ∀ id', id' ≠ id → owned m.2 id' = owned m.1 id'

/-- One file comes to be, and nothing else is changed. -/
def Moment.born (m : Moment) (id : Bytes) (x : UInt32 × UInt32 × UInt32) : Prop :=
  owned m.1 id = none ∧ owned m.2 id = some x ∧ ∀ id', id' ≠ id → owned m.2 id' = owned m.1 id'

/-- Nothing is changed at any of the moments. -/
def AllKept (ms : List Moment) : Prop := ∀ m ∈ ms, Moment.kept m

/-- There is one moment with the property `P`, which is also about what came before and after; nothing is changed at the other moments. -/
def OnceAttr (ms : List Moment) (P : List Moment → Moment → List Moment → Prop) : Prop :=
  ∃ a m b, ms = a ++ m :: b ∧ AllKept a ∧ AllKept b ∧ P a m b

/-- The user or group that is stored when one is asked for: `0xffffffff` stands for that of the process. -/
def storedOwner (asked own : UInt32) : UInt32 := if asked = 0xffffffff then own else asked

/-- A file is made: it is there with mode and owners before it has its name. -/
def Makes (cfg : FsCfg) (ms : List Moment) (id : Bytes) (type : Nat) (mode uid gid : UInt32) : Prop :=
  OnceAttr ms fun _ m b => m.born id (mode, storedOwner uid cfg.osUid, storedOwner gid cfg.osGid) ∧ ∃ m' ∈ b, ∃ d name, m'.added cfg.same d name (id, type)

/-- What a call that has returned `v` has done to modes and owners, and at which moment. -/
def AttrEffect (cfg : FsCfg) (ms : List Moment) (v : Int) : FullOp → Prop
  | .chmod path mode =>
    (v = 0 ∧ OnceAttr ms fun a m _ => ∃ id, FoundFile cfg.same a path false id ∧ m.given id fun x => (x.1 &&& 0xfffffe00 ||| mode &&& 0x1ff, x.2)) ∨
      (v = -2 ∧ AllKept ms)
  | .chown path uid gid =>
    (v = 0 ∧ OnceAttr ms fun a m _ => ∃ id, FoundFile cfg.same a path false id ∧
      m.given id fun x => (x.1, if uid = 0xffffffff then x.2.1 else uid, if gid = 0xffffffff then x.2.2 else gid)) ∨ (v = -2 ∧ AllKept ms)
  | .create _ mode uid gid id => v = 0 ∧ Makes cfg ms id 8 (mode &&& 0x1ff ||| 0x8000) uid gid
  | .mkdir _ mode uid gid id => v = 0 ∧ Makes cfg ms id 4 (mode &&& 0x1ff ||| 0x4000) uid gid
  | .symlink _ _ uid gid id => v = 0 ∧ Makes cfg ms id 10 0xa1a4 uid gid
  | _ => AllKept ms

/-- What a call has done that has not returned: it has changed nothing, but a file may have come to be that nobody knows. -/
def AttrCut (cfg : FsCfg) (ms : List Moment) : FullOp → Prop
  | .create _ mode uid gid id =>
    AllKept ms ∨ OnceAttr ms fun _ m _ => m.born id (mode &&& 0x1ff ||| 0x8000, storedOwner uid cfg.osUid, storedOwner gid cfg.osGid)
  | .mkdir _ mode uid gid id =>
    AllKept ms ∨ OnceAttr ms fun _ m _ => m.born id (mode &&& 0x1ff ||| 0x4000, storedOwner uid cfg.osUid, storedOwner gid cfg.osGid)
  | .symlink _ _ uid gid id => AllKept ms ∨ OnceAttr ms fun _ m _ => m.born id (0xa1a4, storedOwner uid cfg.osUid, storedOwner gid cfg.osGid)
  | _ => AllKept ms

/-! ## What is told -/

/-- What `stat` shows of a file.  The size of a directory is that of its encrypted file. -/
structure Shows (st : FullStat) (id : Bytes) (f : AFile) : Prop where
  ino : st.ino = shownInode id
  uid : st.uid = f.uid
  gid : st.gid = f.gid
  nlink : st.nlink = f.nlink
  mode : st.mode = f.mode
  size : f.mode &&& 0xf000 ≠ 0x4000 → ∀ n, st.size = some n → n = f.data.length

/-- The item of a listing for an entry. -/
def itemOf (e : DirEntry) : DirItem := ⟨e.name, shownInode e.id, modeForType e.type⟩

/-- What a call tells is true at one of its moments, of the file that it has found or that its handle stands for. -/
def Told (same : Bytes → Bytes → Bool) (ms : List Moment) : FullOp → VolAnswer → Prop
  | .getattr path, x =>
    (∃ a m id f st, ms = a ++ [m] ∧ FoundFile same a path false id ∧ viewOf m.1 id = some f ∧ x = .stat 0 (some st) ∧ Shows st id f) ∨
      (x = .stat (-2) none ∧ MissingFile same ms path false)
  | .fgetattr h, x => ∃ m f st, ms = [m] ∧ viewOf m.1 h.id = some f ∧ x = .stat 0 (some st) ∧ Shows st h.id f ∧
      (h.cls ≠ 4 → f.mode &&& 0xf000 ≠ 0x4000 → st.size = some f.data.length)
  | .readlink path size, x =>
    (∃ a m id f, ms = a ++ [m] ∧ FoundFile same a path false id ∧ viewOf m.1 id = some f ∧ x = .bytes 0 (f.data.take (size - 1)) ∧ size ≠ 0) ∨
      (x = .bytes (-2) [] ∧ MissingFile same ms path false) ∨ (x = .bytes (-21) [] ∧ path = [47]) ∨ (x = .bytes (-14) [] ∧ size = 0)
  | .readdir h _, x =>
    (∃ m f l p, ms = [m] ∧ viewOf m.1 h.id = some f ∧ x = .items 0 l ∧ l.Perm (⟨[46], shownInode h.id, 0x4000⟩ :: ⟨[46, 46], shownInode p, 0x4000⟩ :: f.entries.map itemOf)) ∨
      (x = .items (-20) [] ∧ h.cls ≠ 4)
  | .«open» path _, x =>
    (∃ a b h, ms = a ++ b ∧ FoundFile same a path true h.id ∧ x = .handle 0 (some h)) ∨ (x = .handle (-2) none ∧ MissingFile same ms path true)
  | .opendir path, x =>
    (∃ h, FoundFile same ms path true h.id ∧ h.cls = 4 ∧ x = .handle 0 (some h)) ∨ (x = .handle (-2) none ∧ MissingFile same ms path true) ∨
      (x = .handle (-20) none ∧ ∃ id, FoundFile same ms path true id)
  | .create _ _ _ _ id, x => x = .handle 0 (some ⟨id, 8⟩)
  | .read h off len, x => ∃ m b n, ms = [m] ∧ contents m.1 h.id = some b ∧ x = .bytes n (Spec.read b off len)
  | _, x => ∃ n, x = .code n

end Securefs.Spec

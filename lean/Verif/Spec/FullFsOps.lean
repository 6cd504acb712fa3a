import Verif.Spec.FullFs
/-!
# Specification: what the operations on the name space of the full format do

An ideal file system is a map from identifiers to files.  Every operation gives a result and the next map.
-/

namespace Securefs.Spec

/-- Changing one file, if it exists. -/
def alter (A : AFs) (id : Bytes) (g : AFile → AFile) : AFs := fun x => if x = id then (A x).map g else A x

/-- One more file. -/
def withFile (A : AFs) (id : Bytes) (f : AFile) : AFs := fun x => if x = id then some f else A x

/-- One more entry in a directory. -/
def entryAdded (e : DirEntry) (f : AFile) : AFile := { f with entries := e :: f.entries }

/-- A directory without the entry with a name. -/
def entryRemoved (same : Bytes → Bytes → Bool) (name : Bytes) (f : AFile) : AFile :=
  { f with entries := f.entries.filter fun e => !same name e.name }

/-- A new file: the permissions are the nine lowest bits of the mode asked for, `-1` stands for the user or the group of the process. -/
def newFile (osUid osGid mode : UInt32) (kind : Nat) (uid gid : UInt32) (data : Bytes) : AFile where
  mode := (mode &&& 0x1ff) ||| (if kind = 4 then 0x4000 else if kind = 8 then 0x8000 else 0xa000)
  uid := if uid = 0xffffffff then osUid else uid
  gid := if gid = 0xffffffff then osGid else gid
  nlink := 1
  data := data
  entries := []

/-- The operation on a name in the directory of a path: `absent` and `present` say what happens when the name is not there and when it is. -/
def onName (same : Bytes → Bytes → Bool) (A : AFs) (path : Bytes) (absent : Bytes → Bytes → Res Int × AFs)
    (present : Bytes → Bytes → DirEntry → Res Int × AFs) : Res Int × AFs :=
  match resolveParent same A path with
  | .error e => (.error e, A)
  | .ok (p, last) =>
    match lookupIn same A p.1 last with
    | .error e => (.error e, A)
    | .ok none => absent p.1 last
    | .ok (some e) => present p.1 last e

/-- Making a file: `EEXIST` if the name is taken. -/
def specCreate (same : Bytes → Bytes → Bool) (A : AFs) (path newId : Bytes) (kind : Nat) (f : AFile) : Res Int × AFs :=
  onName same A path (fun d last => (.ok 0, alter (withFile A newId f) d (entryAdded ⟨last, newId, kind⟩)))
    fun _ _ _ => (.error (.vfs 17), A)

/-- Removing a name: the file loses a link; `ENOENT` if there is no such name. -/
def specUnlink (same : Bytes → Bytes → Bool) (A : AFs) (path : Bytes) : Res Int × AFs :=
  onName same A path (fun _ _ => (.ok (-2), A))
    fun d last e => (.ok 0, alter (alter A d (entryRemoved same last)) e.id fun f => { f with nlink := f.nlink - 1 })

/-- The operation on the file of a path: `ENOENT` if there is none. -/
def onFile {β : Type} (same : Bytes → Bytes → Bool) (A : AFs) (path : Bytes) (follow : Bool) (missing : β)
    (found : Bytes → AFile → Res β × AFs) : Res β × AFs :=
  match resolvePath same A path follow with
  | .error e => (.error e, A)
  | .ok none => (.ok missing, A)
  | .ok (some p) =>
    match A p.1 with
    | none => (.error (.vfs 2), A)
    | some f => found p.1 f

/-- One more name for a file, which gains a link; `EEXIST` if the name is taken.  `follow` tells whether the source is followed if it is a
    symbolic link; the ideal operation does not. -/
def specLink (same : Bytes → Bytes → Bool) (A : AFs) (follow : Bool) (src dest : Bytes) : Res Int × AFs :=
  onFile same A src follow (-2) fun id f =>
    onName same A dest (fun d last => (.ok 0, alter (alter A d (entryAdded ⟨last, id, f.kind⟩)) id fun f => { f with nlink := f.nlink + 1 }))
      fun _ _ _ => (.ok (-17), A)

/-- Changing the attributes of the file at a path. -/
def specAttr (same : Bytes → Bytes → Bool) (A : AFs) (path : Bytes) (follow : Bool) (g : AFile → AFile) : Res Int × AFs :=
  onFile same A path follow (-2) fun id _ => (.ok 0, alter A id g)

/-- The target of a symbolic link, as much of it as leaves room for a terminator in a buffer of `size` bytes; `EPERM` for other files. -/
def specReadlink (same : Bytes → Bytes → Bool) (A : AFs) (path : Bytes) (size : Nat) : Res (Int × Bytes) × AFs :=
  if size = 0 then (.ok (-14, []), A)
  else if path = [47] then (.ok (-21, []), A)
  else onFile same A path false (-2, []) fun _ f => if f.kind = 10 then (.ok (0, f.data.take (size - 1)), A) else (.error (.vfs 1), A)

/-- The permission bits from `m`, the others from the file. -/
def chmodded (m : UInt32) (f : AFile) : AFile := { f with mode := (f.mode &&& ~~~0x1ff) ||| (m &&& 0x1ff) }

/-- The owner and the group, unless they are `-1`. -/
def chowned (u g : UInt32) (f : AFile) : AFile :=
  { f with uid := if u = 0xffffffff then f.uid else u, gid := if g = 0xffffffff then f.gid else g }

/-- The states that can follow a state, when one operation follows the other. -/
inductive Later (cfg : FsCfg) (fs : FullFs) : FullFs → Prop
  | refl : Later cfg fs fs
  | op {fs' : FullFs} (h : Later cfg fs fs') (op : FullOp) (asked : Asked cfg fs' op) (room : RoomAlong (op.prog cfg) fs') :
      Later cfg fs ((op.prog cfg).run fs').2
  | tick {fs' : FullFs} (h : Later cfg fs fs') (now : TimeSpec) : Later cfg fs { fs' with now := now }
  | evict {fs' : FullFs} (h : Later cfg fs fs') (id : Bytes) : Later cfg fs (FullSys.step cfg ⟨fs', []⟩ (.evict id)).fs
  | reap {fs' : FullFs} (h : Later cfg fs fs') (id : Bytes) : Later cfg fs (FullSys.step cfg ⟨fs', []⟩ (.reap id)).fs

end Securefs.Spec

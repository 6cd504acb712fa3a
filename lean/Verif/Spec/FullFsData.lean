import Verif.Spec.FullFsOps
import Verif.Spec.ByteFile
import Verif.Spec.Encoding
/-!
# Specification: the contents of files in the full format

Contents are described byte by byte.  A handle refers to a file whatever happens to the names of the file.
-/

namespace Securefs.Spec

/-- `b` is what is there in `c` from `off`, at most `len` bytes. -/
def Got (c : Bytes) (off len : Nat) (b : Bytes) : Prop :=
  b.length = min len (c.length - off) ∧ ∀ i, i < b.length → b[i]? = c[off + i]?

/-- `c'` is `c` with `d` at `off`: the other bytes are as before, and zero where there were none.  Writing nothing does nothing. -/
def Written (c : Bytes) (off : Nat) (d c' : Bytes) : Prop :=
  c'.length = (if d = [] then c.length else max c.length (off + d.length)) ∧
  ∀ i, i < c'.length → c'[i]? = if off ≤ i ∧ i < off + d.length then d[i - off]? else if i < c.length then c[i]? else some 0

/-- `c'` is `c` cut off or filled up with zeros. -/
def Resized (c : Bytes) (n : Nat) (c' : Bytes) : Prop :=
  c'.length = n ∧ ∀ i, i < n → c'[i]? = if i < c.length then c[i]? else some 0

/-- A handle refers to a file of the class that the handle was made for. -/
structure Refers (A : AFs) (h : FH) (f : AFile) : Prop where
  file : A h.id = some f
  cls : f.kind = h.cls
  known : f.kind ≠ 0

/-- What `stat` says of a file, apart from times. -/
structure StatOf (ov : OwnerOverride) (id : Bytes) (f : AFile) (st : FullStat) : Prop where
  mode : st.mode = f.mode
  uid : st.uid = ov.uid.getD f.uid
  gid : st.gid = ov.gid.getD f.gid
  nlink : st.nlink = f.nlink
  size : f.kind ≠ 4 → st.size = some f.data.length
  ino : st.ino = 2 ^ 64 - 1 - leValue (id.take 8)

/-- Opening a file: a link at the end is followed; `O_TRUNC` empties a regular file, and is an error for anything else. -/
def specOpen (same : Bytes → Bytes → Bool) (A : AFs) (path : Bytes) (trunc : Bool) : Res (Int × Option FH) × AFs :=
  onFile same A path true (-2, none) fun id f =>
    if trunc then
      if f.kind = 8 then (.ok (0, some ⟨id, 8⟩), alter A id fun f => { f with data := [] }) else (.error (.vfs 1), A)
    else (.ok (0, some ⟨id, f.kind⟩), A)

/-- Opening a directory. -/
def specOpendir (same : Bytes → Bytes → Bool) (A : AFs) (path : Bytes) : Res (Int × Option FH) × AFs :=
  onFile same A path true (-2, none) fun id f => if f.kind = 4 then (.ok (0, some ⟨id, 4⟩), A) else (.ok (-20, none), A)

/-- `truncate`: `EPERM` for what is no regular file. -/
def specTruncate (same : Bytes → Bytes → Bool) (A : AFs) (path : Bytes) (n : Nat) : Res Int × AFs :=
  onFile same A path true (-2) fun id f =>
    if f.kind = 8 then (.ok 0, alter A id fun f => { f with data := resize f.data n }) else (.error (.vfs 1), A)

/-- A path leads to a file, a link at the end being followed. -/
def leadsTo (same : Bytes → Bytes → Bool) (A : AFs) (path id : Bytes) : Bool :=
  match resolvePath same A path true with
  | .ok (some p) => p.1 == id
  | _ => false

/-- What an operation does to the contents `c` of a regular file: writing and truncating through a handle of it or a path to it,
    and nothing else. -/
def effectOn (same : Bytes → Bytes → Bool) (A : AFs) (id : Bytes) (op : FullOp) (c : Bytes) : Bytes :=
  match op with
  | .write h off d => if h = ⟨id, 8⟩ then write c off d else c
  | .ftruncate h n => if h = ⟨id, 8⟩ then resize c n else c
  | .truncate path n => if leadsTo same A path id then resize c n else c
  | .open path true => if leadsTo same A path id then [] else c
  | _ => c

/-- Histories of a file with identifier `id`, which is held: operations of any kind, on this file and on others, and the contents that the
    file should have. -/
inductive Course (cfg : FsCfg) (id : Bytes) (fs : FullFs) (c : Bytes) : FullFs → Bytes → Prop
  | refl : Course cfg id fs c fs c
  | op {fs' : FullFs} {c' : Bytes} (h : Course cfg id fs c fs' c') (op : FullOp) (asked : Asked cfg fs' op)
      (room : RoomAlong (op.prog cfg) fs') : Course cfg id fs c ((op.prog cfg).run fs').2 (effectOn cfg.same (viewOf fs') id op c')
  | tick {fs' : FullFs} {c' : Bytes} (h : Course cfg id fs c fs' c') (now : TimeSpec) : Course cfg id fs c { fs' with now := now } c'
  | evict {fs' : FullFs} {c' : Bytes} (h : Course cfg id fs c fs' c') (x : Bytes) :
      Course cfg id fs c (FullSys.step cfg ⟨fs', []⟩ (.evict x)).fs c'
  | reap {fs' : FullFs} {c' : Bytes} (h : Course cfg id fs c fs' c') (x : Bytes) (hx : x ≠ id) :
      Course cfg id fs c (FullSys.step cfg ⟨fs', []⟩ (.reap x)).fs c'

/-! ## Times -/

/-- The stored times of a file: of the last access, of the last change of the contents and of the attributes, and of its creation. -/
def timesOf (fs : FullFs) (id : Bytes) : Option (TimeSpec × TimeSpec × TimeSpec × TimeSpec) :=
  (fs.get id).map fun n => (n.attr.atime, n.attr.mtime, n.attr.ctime, n.attr.btime)

/-- Changing the contents sets the times of both changes. -/
def timesWritten (now : TimeSpec) (t : TimeSpec × TimeSpec × TimeSpec × TimeSpec) : TimeSpec × TimeSpec × TimeSpec × TimeSpec :=
  (t.1, now, now, t.2.2.2)

/-- Reading sets the time of access if it is, by the second, before one of the changes. -/
def timesRead (now : TimeSpec) (t : TimeSpec × TimeSpec × TimeSpec × TimeSpec) : TimeSpec × TimeSpec × TimeSpec × TimeSpec :=
  if t.1.sec.toInt < t.2.1.sec.toInt ∨ t.1.sec.toInt < t.2.2.1.sec.toInt then (now, t.2) else t

end Securefs.Spec

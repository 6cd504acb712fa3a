import Verif.Model.FullFs
/-!
# Specification: names and links of the full format
-/

namespace Securefs.Spec

/-- The number of directory entries that refer to a file. -/
def nameCount (fs : FullFs) (id : Bytes) : Nat := ((fs.nodes.flatMap fun p => p.2.entries).filter fun e => e.id == id).length

/-- The link count of a file; a file that does not exist has none. -/
def linkCount (fs : FullFs) (id : Bytes) : Nat :=
  match fs.get id with
  | none => 0
  | some n => n.attr.nlink.toNat

/-- The comparison of names is an equivalence, as `sameName` is for the orders of names in use (C26). -/
structure SameEquiv (same : Bytes → Bytes → Bool) : Prop where
  refl : ∀ a, same a a = true
  symm : ∀ a b, same a b = true → same b a = true
  trans : ∀ a b c, same a b = true → same b c = true → same a c = true

/-- Identifiers are unique, and so are the names in a directory. -/
structure FsWF (cfg : FsCfg) (fs : FullFs) : Prop where
  ids : (fs.nodes.map Prod.fst).Nodup
  names : ∀ p ∈ fs.nodes, p.2.entries.Pairwise fun a b => cfg.same a.name b.name = false

/-- No link count has reached the largest 32-bit number. -/
def LinkRoom (fs : FullFs) : Prop := ∀ id n, fs.get id = some n → n.attr.nlink.toNat + 1 < 2 ^ 32

/-- `P` holds in every state of a history. -/
def Throughout (cfg : FsCfg) (P : FullSys → Prop) : FullSys → List FullEvent → Prop
  | s, [] => P s
  | s, e :: rest => P s ∧ Throughout cfg P (s.step cfg e) rest

/-- Whenever the backing files of an unlinked file are removed, it is not a directory that still has entries. -/
def NoOrphans (cfg : FsCfg) : FullSys → List FullEvent → Prop
  | _, [] => True
  | s, e :: rest =>
    (match e with
      | .reap id => ∀ n, s.fs.get id = some n → n.attr.nlink = 0 → n.entries = []
      | _ => True) ∧ NoOrphans cfg (s.step cfg e) rest

/-- All operations that were started have returned, without an exception. -/
def AllReturned (s : FullSys) : Prop := ∀ p ∈ s.threads, ∃ v, p = Prog.ret v

/-! ## What a user sees -/

/-- What a user sees of a file. -/
structure AFile where
  mode : UInt32
  uid : UInt32
  gid : UInt32
  nlink : UInt32
  data : Bytes
  entries : List DirEntry
  deriving DecidableEq

/-- What a user sees of a file system, by identifier. -/
abbrev AFs := Bytes → Option AFile

/-- The view of a file. -/
def viewFile (n : Inode) : AFile := ⟨n.attr.mode, n.attr.uid, n.attr.gid, n.attr.nlink, n.data, n.entries⟩

/-- The view of a file system. -/
def viewOf (fs : FullFs) : AFs := fun id => (fs.get id).map viewFile

/-- 4 for a directory, 8 for a regular file, 10 for a symbolic link, 0 for anything else. -/
def AFile.kind (f : AFile) : Nat :=
  if f.mode &&& 0xf000 = 0x4000 then 4 else if f.mode &&& 0xf000 = 0x8000 then 8 else if f.mode &&& 0xf000 = 0xa000 then 10 else 0

/-- The entry with a name in a directory. -/
def lookupIn (same : Bytes → Bytes → Bool) (A : AFs) (d name : Bytes) : Res (Option DirEntry) :=
  match A d with
  | none => .error (.vfs 2)
  | some f =>
    if f.kind ≠ 4 then .error (.vfs 1)
    else if name.length > 255 then .error (.vfs 36)
    else .ok (f.entries.find? fun e => same name e.name)

/-- The parts of a path between slashes that are not empty. -/
def parts (path : Bytes) : List Bytes := (path.splitOn 47).filter fun s => s ≠ []

/-- A place in the tree: an object, and the directories above it up to the root. -/
abbrev Place := Bytes × List Bytes

/-- The place of the root. -/
def rootPlace : Place := (kRootId, [])

/-- One level up; the root is above itself. -/
def Place.up : Place → Place
  | (d, []) => (d, [])
  | (_, u :: us) => (u, us)

/-- Following the parts of a path from a place.  `link` resolves the target of a symbolic link. -/
def resolveWith (same : Bytes → Bytes → Bool) (A : AFs) (link : Place → List Bytes → Res (Option Place)) :
    Place → List Bytes → Res (Option Place)
  | p, [] => .ok (some p)
  | p, s :: rest =>
    if s = [46] then resolveWith same A link p rest
    else if s = [46, 46] then resolveWith same A link p.up rest
    else
      match lookupIn same A p.1 s with
      | .error e => .error e
      | .ok none => .ok none
      | .ok (some e) =>
        if e.type = 10 then
          match A e.id with
          | none => .error (.vfs 2)
          | some f =>
            match link p (parts f.data) with
            | .error e => .error e
            | .ok none => .ok none
            | .ok (some p') => resolveWith same A link p' rest
        else resolveWith same A link (e.id, p.1 :: p.2) rest

/-- Following a path from a place where links may be nested less than `n` deep; deeper ones give `ELOOP`. -/
def resolve (same : Bytes → Bytes → Bool) (A : AFs) : Nat → Place → List Bytes → Res (Option Place)
  | 0, _, _ => .error (.vfs 40)
  | n + 1, p, l => resolveWith same A (resolve same A n) p l

/-- The place of the directory of a path, and the last part. -/
def resolveParent (same : Bytes → Bytes → Bool) (A : AFs) (path : Bytes) : Res (Place × Bytes) :=
  match (parts path).getLast? with
  | none => .ok (rootPlace, [])
  | some last =>
    match resolve same A 16 rootPlace (parts path).dropLast with
    | .error e => .error e
    | .ok none => .error (.vfs 2)
    | .ok (some p) => .ok (p, last)

/-- The place of a path; `follow` tells whether a symbolic link at the end is followed. -/
def resolvePath (same : Bytes → Bytes → Bool) (A : AFs) (path : Bytes) (follow : Bool) : Res (Option Place) :=
  if path = [] ∨ path = [47] then .ok (some rootPlace)
  else
    match resolveParent same A path with
    | .error e => .error e
    | .ok (p, last) =>
      match lookupIn same A p.1 last with
      | .error e => .error e
      | .ok none => .ok none
      | .ok (some e) =>
        if follow = true ∧ e.type = 10 then
          match A e.id with
          | none => .error (.vfs 2)
          | some f => resolve same A 16 p (parts f.data)
        else .ok (some (e.id, p.1 :: p.2))

/-- The directories form a tree: entries refer to files that exist, of the type they say; only directories have entries; no
    entry refers to the root; a directory has no more than one entry. -/
structure DirTree (A : AFs) : Prop where
  root : ∃ f, A kRootId = some f ∧ f.kind = 4
  entry : ∀ d f e, A d = some f → e ∈ f.entries → e.id ≠ kRootId ∧ e.type ≠ 0 ∧ ∃ g, A e.id = some g ∧ g.kind = e.type
  dirs : ∀ d f, A d = some f → f.kind ≠ 4 → f.entries = []
  once : ∀ d d' f f' e e', A d = some f → A d' = some f' → e ∈ f.entries → e' ∈ f'.entries → e.id = e'.id → e.type = 4 →
    d = d' ∧ e = e'

/-- The `parent_id` of the root object is the root, as it is when the object is made. -/
def RootParent (fs : FullFs) : Prop := ∃ n, fs.get kRootId = some n ∧ n.parent = kRootId

/-- What a name in a directory refers to: identifier and type. -/
def nameAt (same : Bytes → Bytes → Bool) (A : AFs) (d name : Bytes) : Option (Bytes × Nat) :=
  match A d with
  | none => none
  | some f => (f.entries.find? fun e => same name e.name).map fun e => (e.id, e.type)

/-- `A'` has the same files as `A`, with the same contents, owners and modes, and link counts changed by `g`. -/
def FilesChanged (g : Bytes → UInt32 → UInt32) (A A' : AFs) : Prop :=
  ∀ x, (A' x).map (fun f => (f.mode, f.uid, f.gid, f.nlink, f.data)) = (A x).map fun f => (f.mode, f.uid, f.gid, g x f.nlink, f.data)

/-- Before every section of a program that runs alone there is room in the link counts. -/
def RoomAlong {α : Type} : Prog α → FullFs → Prop
  | .ret _, _ => True
  | .throw _, _ => True
  | .sec f k, fs => LinkRoom fs ∧ ∀ b, (f fs).1 = .ok b → RoomAlong (k b) (f fs).2

/-- One file is a directory. -/
def IsDir (A : AFs) (d : Bytes) : Prop := ∃ f, A d = some f ∧ f.kind = 4

/-- No hard link of a directory is asked for. The operating system sees to it as far as the path that it was given goes; it lets
    through a source that is a symbolic link to a directory, which `vlink` follows (full_format.cpp:290): `C60_link_violated`. -/
def Asked (cfg : FsCfg) (fs : FullFs) (op : FullOp) : Prop :=
  ∀ s d, op = .link s d → ∀ p, resolvePath cfg.same (viewOf fs) s true = .ok (some p) → ¬ IsDir (viewOf fs) p.1

/-- The states between the operations of a history in which one operation follows the other. -/
inductive Sequential (cfg : FsCfg) : FullFs → Prop
  | fresh (now : TimeSpec) : Sequential cfg (FullFs.fresh cfg now)
  | op {fs : FullFs} (h : Sequential cfg fs) (op : FullOp) (asked : Asked cfg fs op) (room : RoomAlong (op.prog cfg) fs) :
      Sequential cfg ((op.prog cfg).run fs).2
  | tick {fs : FullFs} (h : Sequential cfg fs) (now : TimeSpec) : Sequential cfg { fs with now := now }
  | evict {fs : FullFs} (h : Sequential cfg fs) (id : Bytes) : Sequential cfg (FullSys.step cfg ⟨fs, []⟩ (.evict id)).fs
  | reap {fs : FullFs} (h : Sequential cfg fs) (id : Bytes) : Sequential cfg (FullSys.step cfg ⟨fs, []⟩ (.reap id)).fs

/-! ## Execution among other threads -/

/-- What remains of a program after `n` of its sections, when the `i`-th of them finds the state `states i`: other threads may
    change anything in between. -/
def remains {α : Type} : Prog α → (Nat → FullFs) → Nat → Prog α
  | p, _, 0 => p
  | .ret a, _, _ + 1 => .ret a
  | .throw e, _, _ + 1 => .throw e
  | .sec f k, states, n + 1 =>
    match (f (states 0)).1 with
    | .ok b => remains (k b) (fun i => states (i + 1)) n
    | .error e => .throw e

/-- Nothing is left to do. -/
def Finished {α : Type} (p : Prog α) : Prop := (∃ a, p = .ret a) ∨ ∃ e, p = .throw e

/-- The symbolic links have no more than `L` parts. -/
def ShortLinks (L : Nat) (fs : FullFs) : Prop := ∀ id f, viewOf fs id = some f → f.kind = 10 → (parts f.data).length ≤ L

/-- How many sections following `L` parts may take when links may be nested `d` deep. -/
def sectionBound (L : Nat) : Nat → Nat
  | 0 => 0
  | d + 1 => L * (4 + sectionBound L d)

/-- A name in a directory that leads over `k` symbolic links in that directory to something that is none. -/
def LinkChain (same : Bytes → Bytes → Bool) (A : AFs) (d : Bytes) : Nat → Bytes → Bytes → Prop
  | 0, name, last => name ≠ [46] ∧ name ≠ [46, 46] ∧ ∃ e, lookupIn same A d name = .ok (some e) ∧ e.type ≠ 10 ∧ e.id = last
  | k + 1, name, last => name ≠ [46] ∧ name ≠ [46, 46] ∧ ∃ e f next, lookupIn same A d name = .ok (some e) ∧ e.type = 10 ∧
      A e.id = some f ∧ parts f.data = [next] ∧ LinkChain same A d k next last

end Securefs.Spec

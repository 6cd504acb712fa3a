import Verif.Spec.Posix
/-!
# What a user expects of a mounted lite volume

The calls that FUSE makes, and what they do to a plain tree of files (`Posix.Fs`), with the names, contents and link targets as the user
gives them.  There is no encryption here.  The one concession: a new file is readable for its owner.
-/

namespace Securefs.Spec

/-- The calls.  `id` is the number that the system chooses for a new node, `attr` what it has for attributes; handles are numbered in the
    order in which they are opened. -/
inductive Call where
  | getattr (path : List Bytes)
  | readlink (path : List Bytes) (size : Nat)
  | mkdir (path : List Bytes) (attr : Posix.Attr) (id : Nat)
  | symlink (target : Bytes) (path : List Bytes) (attr : Posix.Attr) (id : Nat)
  | link (src dst : List Bytes)
  | unlink (path : List Bytes)
  | rmdir (path : List Bytes)
  | rename (src dst : List Bytes)
  | chmod (path : List Bytes) (mode : BitVec 32)
  | chown (path : List Bytes) (uid gid : Nat)
  | utimens (path : List Bytes) (atime mtime : Nat)
  | truncate (path : List Bytes) (n : Nat)
  | create (path : List Bytes) (attr : Posix.Attr) (id : Nat)
  | «open» (path : List Bytes) (flags : BitVec 32)
  | opendir (path : List Bytes)
  | read (h off len : Nat)
  | write (h off : Nat) (d : Bytes)
  | ftruncate (h n : Nat)
  | fgetattr (h : Nat)
  | readdir (h : Nat)
  | release (h : Nat)

/-- What a call returns. -/
inductive Val where
  | done
  | stat (st : Posix.Stat)
  | bytes (b : Bytes)
  | count (n : Nat)
  | handle (h : Nat)
  | names (l : List Bytes)
  deriving DecidableEq

/-- An open file, or an open directory with the path by which it was opened. -/
inductive Handle where
  | file (i : Nat)
  | dir (i : Nat) (path : List Bytes)
  deriving DecidableEq

/-- The tree and the handles. -/
structure Vol where
  fs : Posix.Fs
  handles : List (Option Handle)

/-- The empty volume: a root directory and no handles. -/
def Vol.empty (attr : Posix.Attr) : Vol := ⟨fun i => if i = 0 then some ⟨.dir [], attr⟩ else none, []⟩

/-- The outcome of a call: an error number or a value, and the volume afterwards. -/
abbrev Outcome := Except Nat Val × Vol

/-- A call that changes the tree. -/
def Vol.change (a : Vol) (r : Except Nat Posix.Fs) : Outcome :=
  match r with
  | .error e => (.error e, a)
  | .ok fs => (.ok .done, { a with fs := fs })

/-- A call that looks. -/
def Vol.look {α : Type} (a : Vol) (f : α → Val) (r : Except Nat α) : Outcome :=
  match r with
  | .error e => (.error e, a)
  | .ok x => (.ok (f x), a)

/-- A new handle. -/
def Vol.newHandle (a : Vol) (h : Handle) : Outcome := (.ok (.handle a.handles.length), { a with handles := a.handles ++ [some h] })

/-- A call on an open file: `f` gives the new contents and the value. -/
def Vol.onFile (a : Vol) (h : Nat) (f : Bytes → Bytes × Val) : Outcome :=
  match a.handles[h]? with
  | some (some (.file i)) =>
    match a.fs.data i with
    | none => (.error Posix.ENOENT, a)
    | some c => (.ok (f c).2, { a with fs := a.fs.setData i (f c).1 })
  | some (some (.dir _ _)) => (.error Posix.EISDIR, a)
  | _ => (.error 9, a)

/-- `truncate` by path. -/
def truncatePath (fs : Posix.Fs) (path : List Bytes) (n : Nat) : Except Nat Posix.Fs :=
  match fs.openPath false path with
  | .error e => .error e
  | .ok (i, _) =>
    match fs.data i with
    | none => .error Posix.ENOENT
    | some c => .ok (fs.setData i (resize c n))

/-- The buffer of `size` bytes after `readlink`: the target, and zeros. -/
def linkBuffer (size : Nat) (target : Bytes) : Bytes := target ++ List.replicate (size - target.length) 0

/-- The calls that the system can refuse: those with a path. -/
def Call.refusable : Call → Bool
  | .read .. | .write .. | .ftruncate .. | .fgetattr .. | .readdir .. | .release .. => false
  | _ => true

/-- The ideal behaviour of a call that the system does not refuse. -/
def Vol.act (a : Vol) : Call → Outcome
  | .getattr p => a.look .stat (a.fs.stat p)
  | .readlink p size => a.look (fun t => .bytes (linkBuffer size t)) (a.fs.readlink p)
  | .mkdir p attr id => a.change (a.fs.add p id ⟨.dir [], attr⟩)
  | .symlink t p attr id => a.change (a.fs.add p id ⟨.link t, attr⟩)
  | .link src dst => a.change (a.fs.link src dst)
  | .unlink p => a.change (a.fs.unlink p)
  | .rmdir p => a.change (a.fs.rmdir (fun _ => false) p)
  | .rename src dst => a.change (a.fs.rename (fun _ => false) src dst)
  | .chmod p mode => a.change (a.fs.setAttr (fun x => { x with mode := mode }) p)
  | .chown p uid gid => a.change (a.fs.setAttr (fun x => { x with uid := uid, gid := gid }) p)
  | .utimens p at' mt => a.change (a.fs.setAttr (fun x => { x with atime := at', mtime := mt }) p)
  | .truncate p n => a.change (truncatePath a.fs p n)
  | .create p attr id =>
    match a.fs.add p id ⟨.file [], { attr with mode := attr.mode ||| 256 }⟩ with
    | .error e => (.error e, a)
    | .ok fs => Vol.newHandle { a with fs := fs } (.file id)
  | .open p flags =>
    match a.fs.openPath (flags.getLsbD 9) p with
    | .error e => (.error e, a)
    | .ok (i, fs) => Vol.newHandle { a with fs := fs } (.file i)
  | .opendir p =>
    match a.fs.opendir p with
    | .error e => (.error e, a)
    | .ok d => a.newHandle (.dir d p)
  | .read h off len => a.onFile h fun c => (c, .bytes (read c off len))
  | .write h off d => a.onFile h fun c => (write c off d, .count d.length)
  | .ftruncate h n => a.onFile h fun c => (resize c n, .done)
  | .fgetattr h =>
    match a.handles[h]? with
    | some (some (.file i)) => a.look .stat (a.fs.statNode i)
    | some (some (.dir _ _)) => (.error Posix.EISDIR, a)
    | _ => (.error 9, a)
  | .readdir h =>
    match a.handles[h]? with
    | some (some (.dir d _)) => a.look (fun es => .names ([46] :: [46, 46] :: es.map Prod.fst)) (a.fs.entries d)
    | some (some (.file _)) => (.error Posix.ENOTDIR, a)
    | _ => (.error 9, a)
  | .release h =>
    match a.handles[h]? with
    | some (some _) => (.ok .done, { a with handles := a.handles.set h none })
    | _ => (.error 9, a)

/-- The ideal behaviour of a call; `fault` is the error with which the system refuses it, if it does. -/
def Vol.step (a : Vol) (fault : Option Nat) (c : Call) : Outcome :=
  match fault with
  | some e => if c.refusable then (.error e, a) else a.act c
  | none => a.act c

/-- The same value; the names of a directory may come in another order. -/
def SameVal : Val → Val → Prop
  | .names l, .names l' => l.Perm l'
  | v, w => v = w

/-- The same result: the exception carries the error number. -/
def Agrees : Except Nat Val → Res Val → Prop
  | .error e, .error x => x = .vfs e
  | .ok v, .ok w => SameVal v w
  | _, _ => False

/-! ## The calls for which the volume is held to this

A volume is not an ideal tree for every call.  The conditions are stated for the ideal tree, so that they say what a user has to avoid. -/

/-- What matters about a volume. -/
structure Terms where
  /-- the names that can be used -/
  name : Bytes → Prop
  /-- the link targets that can be stored -/
  target : Bytes → Prop
  /-- the names that need a row in a table -/
  long : Bytes → Bool
  /-- the targets that `readlink` returns into a buffer of this size -/
  reads : Nat → Bytes → Prop
  /-- the largest size of a file -/
  limit : Nat

/-- `r` succeeds, with a value for which `P` holds. -/
def Gives (r : Except Nat Nat) (P : Nat → Prop) : Prop :=
  match r with
  | .ok i => P i
  | .error _ => False

/-- If `r` succeeds, `P` holds for the value. -/
def IfOk {α : Type} (r : Except Nat α) (P : α → Prop) : Prop :=
  match r with
  | .ok i => P i
  | .error _ => True

/-- The names of a path can be used. -/
def Terms.path (X : Terms) (p : List Bytes) : Prop := ∀ c ∈ p, X.name c

/-- The directory of the last component exists; the kernel has looked it up before it makes a call. -/
def Vol.parent (a : Vol) (p : List Bytes) : Prop := Gives (a.fs.opendir p.dropLast) fun _ => True

/-- The last component is a long name. -/
def Terms.lastLong (X : Terms) (p : List Bytes) : Bool :=
  match p.getLast? with
  | some c => X.long c
  | none => false

/-- The directory has no long names. -/
def Terms.noLong (X : Terms) (fs : Posix.Fs) (d : Nat) : Prop := IfOk (fs.entries d) fun es => ∀ p ∈ es, X.long p.1 = false

/-- The directory of the last component. -/
def Vol.dirOf (a : Vol) (p : List Bytes) : List Nat :=
  match a.fs.walk 0 p.dropLast with
  | .ok d => [d]
  | .error _ => []

/-- The directories in which a call creates a table of long names. -/
def Terms.marks (X : Terms) (a : Vol) : Call → List Nat
  | .mkdir p _ _ | .symlink _ p _ _ | .unlink p | .rmdir p | .create p _ _ | .link _ p => if X.lastLong p then a.dirOf p else []
  | .rename p q => if X.lastLong p || X.lastLong q then a.dirOf p ++ a.dirOf q else []
  | _ => []

/-- An open file. -/
def Vol.openFile (a : Vol) (h : Nat) : Prop :=
  match a.handles[h]? with
  | some (some (.file _)) => True
  | _ => False

/-- An open directory. -/
def Vol.openDir (a : Vol) (h : Nat) (P : Nat → List Bytes → Prop) : Prop :=
  match a.handles[h]? with
  | some (some (.dir i p)) => P i p
  | _ => False

/-- An open handle. -/
def Vol.isOpen (a : Vol) (h : Nat) : Prop :=
  match a.handles[h]? with
  | some (some _) => True
  | _ => False

/-- The calls for which the volume is held to the ideal.  `marked` are the directories in which a long name has been used before.

* The names and targets can be used, the parent directory exists, a new node gets a free number, handles are open and files stay within
  their limit.
* A directory that has long names is not removed.
* A rename does not replace an empty directory in which a long name has been used, and does not give a long name to be dropped for another
  name of the same file.
* A directory that is listed through an open handle is still at its place, or has no long names.
* A file that is open is not opened again with `O_TRUNC`. -/
def Terms.Fits (X : Terms) (marked : List Nat) (a : Vol) : Call → Prop
  | .getattr p | .chmod p _ | .chown p _ _ | .utimens p _ _ | .opendir p => X.path p
  | .readlink p size => X.path p ∧ 1 < size ∧ IfOk (a.fs.readlink p) (X.reads size)
  | .mkdir p _ id | .create p _ id => X.path p ∧ a.parent p ∧ a.fs id = none
  | .symlink t p _ id => X.target t ∧ X.path p ∧ a.parent p ∧ a.fs id = none
  | .link src dst => X.path src ∧ X.path dst ∧ a.parent dst
  | .unlink p => X.path p ∧ a.parent p
  | .rmdir p => X.path p ∧ a.parent p ∧ IfOk (a.fs.walk 0 p) (X.noLong a.fs)
  | .rename p q => X.path p ∧ X.path q ∧ p ≠ [] ∧ q ≠ [] ∧ a.parent p ∧ a.parent q ∧
      IfOk (a.fs.walk 0 p) fun i => IfOk (a.fs.walk 0 q) fun j =>
        if i = j then X.lastLong p = true → p = q
        else a.fs.isDir i = true → a.fs.isEmptyDir j = true → j ∉ marked
  | .truncate p n => X.path p ∧ n ≤ X.limit
  | .open p flags => X.path p ∧ flags.getLsbD 6 = false ∧ (flags.getLsbD 9 = true → IfOk (a.fs.walk 0 p) fun i => some (.file i) ∉ a.handles)
  | .read h off len => a.openFile h ∧ off + len ≤ X.limit
  | .write h off d => a.openFile h ∧ off + d.length ≤ X.limit
  | .ftruncate h n => a.openFile h ∧ n ≤ X.limit
  | .fgetattr h => a.openFile h
  | .readdir h => a.openDir h fun i p => Gives (a.fs.walk 0 p) (· = i) ∨ X.noLong a.fs i
  | .release h => a.isOpen h

/-- The results of calls, each with the error by which the system refuses it, if it does. -/
def Vol.run (a : Vol) : List (Option Nat × Call) → List (Except Nat Val)
  | [] => []
  | x :: rest => (a.step x.1 x.2).1 :: (a.step x.1 x.2).2.run rest

/-- All calls fit. -/
def Terms.AllFit (X : Terms) : List Nat → Vol → List (Option Nat × Call) → Prop
  | _, _, [] => True
  | marked, a, x :: rest => X.Fits marked a x.2 ∧ X.AllFit (X.marks a x.2 ++ marked) (a.step x.1 x.2).2 rest

end Securefs.Spec

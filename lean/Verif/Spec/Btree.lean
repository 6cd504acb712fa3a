import Verif.Model.Btree
import Mathlib.Data.List.Forall2
/-!
# Specification: a directory is a finite set of entries with different names

`dirStep` is the ideal behaviour of a directory.  It knows nothing of pages or trees.  `IsTree` and `IsFreeList` say
what a well-formed tree and a well-formed free list in numbered pages are.
-/

namespace Securefs.Spec

/-- The calls on a directory. `flush` writes the cached nodes back, `reopen` closes the directory and opens it again. -/
inductive DirOp where
  | add (e : DirEntry)
  | remove (name : Bytes)
  | get (name : Bytes)
  | list
  | empty
  | flush
  | rebuild
  | reopen

/-- What a call returns. -/
inductive DirOut where
  | flag (b : Bool)
  | entry (e : Option DirEntry)
  | entries (l : List DirEntry)
  | done
  | fail (e : Err)
  deriving DecidableEq

/-- The ideal behaviour, for the entries `m` in no particular order. `same` says which names are the same. -/
def dirStep (same : Bytes → Bytes → Bool) (m : List DirEntry) : DirOp → DirOut × List DirEntry
  | .add e =>
    if e.name.length > 255 then (.fail (.vfs 36), m)
    else if m.any (fun x => same e.name x.name) then (.flag false, m)
    else (.flag true, e :: m)
  | .remove n =>
    if n.length > 255 then (.fail (.vfs 36), m)
    else (.entry (m.find? fun x => same n x.name), m.filter fun x => !same n x.name)
  | .get n =>
    if n.length > 255 then (.fail (.vfs 36), m)
    else (.entry (m.find? fun x => same n x.name), m)
  | .list => (.entries m, m)
  | .empty => (.flag m.isEmpty, m)
  | .flush => (.done, m)
  | .rebuild => (.done, m)
  | .reopen => (.done, m)

/-- The ideal behaviour of a history. -/
def dirRun (same : Bytes → Bytes → Bool) : List DirEntry → List DirOp → List DirOut × List DirEntry
  | m, [] => ([], m)
  | m, op :: ops =>
    let r := dirStep same m op
    let r' := dirRun same r.2 ops
    (r.1 :: r'.1, r'.2)

/-- A listing may come in any order; every other result is fixed. -/
def DirOut.Agrees : DirOut → DirOut → Prop
  | .entries l, .entries l' => l.Perm l'
  | a, b => a = b

/-- What the code calls with: identifiers have 32 bytes, types 32 bits, names no NUL. -/
def DirOp.Valid : DirOp → Prop
  | .add e => (∀ c ∈ e.name, c ≠ 0) ∧ e.id.length = 32 ∧ e.type < 2 ^ 32
  | _ => True

/-- The number of entries up to which a directory is sure to fit in `2 ^ 20` pages, each with at least 6 entries. -/
def dirCapacity : Nat := 6291444

/-- The history never has more entries than fit. -/
def Fits (same : Bytes → Bytes → Bool) : List DirEntry → List DirOp → Prop
  | _, [] => True
  | m, op :: ops => (dirStep same m op).2.length ≤ dirCapacity ∧ Fits same (dirStep same m op).2 ops

instance (op : DirOp) : Decidable op.Valid := by
  cases op <;> simp only [DirOp.Valid] <;> infer_instance

instance Fits.dec (same : Bytes → Bytes → Bool) : ∀ (m : List DirEntry) (ops : List DirOp), Decidable (Fits same m ops)
  | _, [] => isTrue trivial
  | m, op :: ops =>
    have := Fits.dec same (dirStep same m op).2 ops
    inferInstanceAs (Decidable ((dirStep same m op).2.length ≤ dirCapacity ∧ Fits same (dirStep same m op).2 ops))

/-- `cmp` orders names up to equivalence. -/
def TotalPreorder (cmp : Bytes → Bytes → Int) : Prop :=
  (∀ a b, cmp a b ≤ 0 ↔ 0 ≤ cmp b a) ∧ ∀ a b c, cmp a b ≤ 0 → cmp b c ≤ 0 → cmp a c ≤ 0

/-- Two names are the same for the order `cmp`. -/
def sameName (cmp : Bytes → Bytes → Int) (a b : Bytes) : Bool := cmp a b == 0

/-- The entries of an inner node between the entries of its children. -/
def interleave : List DirEntry → List (List DirEntry) → List DirEntry
  | e :: es, f :: fs => f ++ e :: interleave es fs
  | [], f :: _ => f
  | es, [] => es

/-- The node in page `p` is the root of a tree of height `h` whose entries in order are `l` and whose pages are `ps`.
    The node has at least `lo` entries, all nodes below it at least 6, and no node more than 13.
    `node` gives the children and entries of a page. -/
def IsTree (node : Nat → Option (List Nat × List DirEntry)) : (lo h p : Nat) → (l : List DirEntry) → (ps : List Nat) → Prop
  | lo, 0, p, l, ps => node p = some ([], l) ∧ lo ≤ l.length ∧ l.length ≤ 13 ∧ ps = [p]
  | lo, h + 1, p, l, ps => ∃ es cs, ∃ subs : List (List DirEntry × List Nat),
      node p = some (cs, es) ∧ cs.length = es.length + 1 ∧ lo ≤ es.length ∧ es.length ≤ 13 ∧
      List.Forall₂ (fun c sub => IsTree node 6 h c sub.1 sub.2) cs subs ∧
      l = interleave es (subs.map Prod.fst) ∧ ps = p :: (subs.map Prod.snd).flatten

/-- Page `p` of a file. -/
def pageAt (file : Bytes) (p : Nat) : Bytes := (file.drop (p * 4096)).take 4096

/-- The pages `ps` are linked in both directions from `start`; `before` is the page before `start`.  A free page has a
    zero in its first four bytes, then the number of the next free page, then that of the previous one. -/
def IsFreeList (file : Bytes) : (before start : Nat) → (ps : List Nat) → Prop
  | _, start, [] => start = invalidPage
  | before, start, p :: ps => start = p ∧ (pageAt file p).take 4 = [0, 0, 0, 0] ∧
      ((pageAt file p).drop 8).take 4 = toLE 4 before ∧
      ∃ next, ((pageAt file p).drop 4).take 4 = toLE 4 next ∧ next < 2 ^ 32 ∧ IsFreeList file p next ps

/-- What the directory takes the node in page `p` to be: the cached node, or else what is in the file. -/
def nodeAt (s : BSt) (p : Nat) : Option (List Nat × List DirEntry) :=
  match s.cache.lookup p with
  | some n => some (n.children, n.entries)
  | none =>
    match fromBuffer (pageAt s.data p) with
    | .ok (some r) => some r
    | .ok none => some ([], [])
    | .error _ => none

/-- The directory in state `s` is well formed: its entries are `l`, in strictly ascending order; its tree occupies
    `treePages`; its free list is `freePages`; each page of the file is in exactly one of them, once. -/
def WellFormed (cmp : Bytes → Bytes → Int) (s : BSt) (l : List DirEntry) (treePages freePages : List Nat) : Prop :=
  (l.Pairwise fun x y => cmp x.name y.name < 0) ∧
  ((s.root = invalidPage ∧ l = [] ∧ treePages = []) ∨ ∃ h, IsTree (nodeAt s) (min h 1) h s.root l treePages) ∧
  IsFreeList s.data invalidPage s.start freePages ∧
  s.nfree = freePages.length ∧
  (treePages ++ freePages).Perm (List.range (s.data.length / 4096)) ∧ s.data.length % 4096 = 0

end Securefs.Spec

namespace Securefs
open Spec

/-- One call on the modelled directory. -/
def dirCall (C : BCfg) : DirOp → BM DirOut
  | .add e => do
    let b ← addEntry C e
    pure (.flag b)
  | .remove n => do
    let r ← removeEntry C n
    pure (.entry r)
  | .get n => do
    let r ← getEntry C n
    pure (.entry r)
  | .list => do
    let l ← iterateEntries
    pure (.entries l)
  | .empty => do
    let b ← dirEmpty
    pure (.flag b)
  | .flush => do
    subflush C
    pure .done
  | .rebuild => do
    rebuild C
    pure .done
  | .reopen => do
    reopenDir C
    pure .done

/-- One call; a call that throws is taken to leave the state as it was.  The properties show that the only calls that
    throw are those with an overlong name, which throw before they do anything
    (`/repo/sources/btree_dir.cpp:377,417,630`). -/
def dirStepModel (C : BCfg) (s : BSt) (op : DirOp) : DirOut × BSt :=
  match dirCall C op s with
  | .ok (o, s') => (o, s')
  | .error e => (.fail e, s)

/-- A history on the modelled directory. -/
def dirRunModel (C : BCfg) : BSt → List DirOp → List DirOut × BSt
  | s, [] => ([], s)
  | s, op :: ops =>
    let r := dirStepModel C s op
    let r' := dirRunModel C r.2 ops
    (r.1 :: r'.1, r'.2)

end Securefs

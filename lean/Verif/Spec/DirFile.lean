import Verif.Model.DirFile
import Verif.Spec.FileObj
/-!
# Specification: a directory is a finite set of entries and its attributes

Pages, trees, keys, blocks, headers and padding do not occur.
-/

namespace Securefs.Spec

open DirFile

/-- The ideal directory.  The field `pages` of its attributes means nothing. -/
structure PlainDir where
  entries : List DirEntry
  attrs : Attrs

/-- The answers of the ideal directory.  It has no size. -/
inductive PlainDirAnswer where
  | out (o : DirOut)
  | stat (mode uid gid nlink : Nat) (times : Option ((Int × Int) × (Int × Int) × (Int × Int) × (Int × Int)))

/-- An answer of the code is that of the ideal directory: a listing in any order, a size that is some number of pages, everything else
    the same. -/
def AnswersLike : DirAnswer → PlainDirAnswer → Prop
  | .out o, .out o' => o.Agrees o'
  | .stat size m u g n times, .stat m' u' g' n' times' =>
    size % 4096 = 0 ∧ m.toNat = m' ∧ u.toNat = u' ∧ g.toNat = g' ∧ n.toNat = n' ∧
      times.map (fun t => (stamp t.1, stamp t.2.1, stamp t.2.2.1, stamp t.2.2.2)) = times'
  | _, _ => False

/-- What a call is for the entries. -/
def entryOp : DirCall → Option DirOp
  | .add e => some (.add e)
  | .remove n => some (.remove n)
  | .get n => some (.get n)
  | .list => some .list
  | .empty => some .empty
  | .flush => some .flush
  | .rebuild => some .rebuild
  | .reopen _ => some .reopen
  | .attr _ => none
  | .stat => none

/-- The attributes before and after a call. Every attempt to add or remove, refused or not, counts as a write; every lookup and listing
    as a read.  Rebuilding counts as a write when there are entries `m`; flushing may rebuild. -/
def AttrsAfter (now : Int × Int) (m : List DirEntry) (a : Attrs) : DirCall → Attrs → Prop
  | .add _, a' => a' = attrStep a now .write
  | .remove _, a' => a' = attrStep a now .write
  | .get _, a' => a' = attrStep a now .read
  | .list, a' => a' = attrStep a now .read
  | .empty, a' => a' = a
  | .flush, a' => a' = a ∨ (m ≠ [] ∧ a' = attrStep a now .write)
  | .rebuild, a' => a' = if m = [] then a else attrStep a now .write
  | .reopen _, a' => a' = a ∨ (m ≠ [] ∧ a' = attrStep a now .write)
  | .attr op, a' => a' = attrStep a now op
  | .stat, a' => a' = a

/-- The ideal behaviour of one call. -/
def PlainDirStep (same : Bytes → Bytes → Bool) (now : Int × Int) (p : PlainDir) (c : DirCall) (o : PlainDirAnswer) (p' : PlainDir) : Prop :=
  AttrsAfter now p.entries p.attrs c p'.attrs ∧
  match entryOp c with
  | some op => o = .out (dirStep same p.entries op).1 ∧ p'.entries = (dirStep same p.entries op).2
  | none => p'.entries = p.entries ∧
      o = match c with
        | .stat => .stat p.attrs.mode p.attrs.uid p.attrs.gid p.attrs.nlink p.attrs.times
        | _ => .out .done

/-- The ideal behaviour of a history. -/
inductive PlainDirRun (same : Bytes → Bytes → Bool) : PlainDir → List (TimeSpec × DirCall) → List PlainDirAnswer → PlainDir → Prop
  | nil {p} : PlainDirRun same p [] [] p
  | cons {p p1 p2 now c o cs os} : PlainDirStep same (stamp now) p c o p1 → PlainDirRun same p1 cs os p2 →
      PlainDirRun same p ((now, c) :: cs) (o :: os) p2

/-- The entries of the ideal directory after a history. -/
def entriesAfter (same : Bytes → Bytes → Bool) (m : List DirEntry) (cs : List (TimeSpec × DirCall)) : List DirEntry :=
  (dirRun same m (cs.filterMap fun c => entryOp c.2)).2

/-- A call that the code may get: the page numbers are changed by nobody else. -/
def DirCallValid : DirCall → Prop
  | .attr (.setRootPage _) => False
  | .attr (.setStartFree _) => False
  | .attr (.setNumFree _) => False
  | .attr op => AttrOpValid op
  | .add e => (DirOp.add e).Valid
  | _ => True

instance (c : DirCall) : Decidable (DirCallValid c) := by
  unfold DirCallValid
  split <;> infer_instance

/-- A history that the properties speak of: valid arguments and times, never too many entries. -/
def GoodDirHistory (same : Bytes → Bytes → Bool) (m : List DirEntry) (cs : List (TimeSpec × DirCall)) : Prop :=
  (∀ c ∈ cs, ValidTime c.1 ∧ DirCallValid c.2) ∧ Fits same m (cs.filterMap fun c => entryOp c.2)

/-- The attributes of a new directory. -/
def newDir (storeTime : Bool) (now : TimeSpec) (osUid osGid mode uid gid : UInt32) : PlainDir :=
  ⟨[], (plainNew storeTime now osUid osGid mode uid gid).attrs⟩

/-- A file of the volume can hold the largest directory: 2²⁰ pages and the padding. -/
def RoomForDirs (E : FileEnv) : Prop := 2 ^ 32 + 2 ^ 20 + E.maxPadding.toNat ≤ 2 ^ 30 * E.blockSize

end Securefs.Spec

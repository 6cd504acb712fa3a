import Verif.Model.BtreeFaults
import Verif.Spec.Btree
/-!
# Calls on a directory over a file that fails

The ideal behaviour is `Spec.dirStep`.  Here are the calls of the model and histories of them, each call with the fate of its calls on
the stream.
-/

namespace Securefs
open Spec

namespace BF

/-- One call on the modelled directory. -/
def dirCall (C : BCfg) : DirOp → FM DirOut
  | .add e => do
    let b ← addEntry C e
    pure (.flag b)
  | .remove n => do
    let r ← removeEntry C n
    pure (.entry r)
  | .get n => do
    let r ← getEntry C n
    pure (.entry r)
  | .list => do
    let l ← iterateEntries
    pure (.entries l)
  | .empty => do
    let b ← dirEmpty
    pure (.flag b)
  | .flush => do
    subflush C
    pure .done
  | .rebuild => do
    rebuild C
    pure .done
  | .reopen => do
    reopenDir C
    pure .done

/-- A flush will rebuild the directory first: more than five pages are free, and more than two thirds of all. -/
def dueRebuild (s : BSt) : Prop := s.nfree > 5 ∧ s.nfree > s.data.length / 6144

/-- One call, with the fate of its calls on the stream. -/
def dirStepModel (C : BCfg) (s : BSt) (op : DirOp) (plan : List (Option PageFault)) : DirOut × BSt :=
  match dirCall C op ⟨s, plan⟩ with
  | (.ok o, F) => (o, F.st)
  | (.error e, F) => (.fail e, F.st)

/-- A history of calls. -/
def dirRunModel (C : BCfg) : BSt → List (DirOp × List (Option PageFault)) → List DirOut × BSt
  | s, [] => ([], s)
  | s, (op, plan) :: ops =>
    let r := dirStepModel C s op plan
    let r' := dirRunModel C r.2 ops
    (r.1 :: r'.1, r'.2)

end BF

namespace Spec

/-- The call is to change nothing: a question, an addition of a name that is there, a removal of a name that is not. -/
def DirOp.quiet (same : Bytes → Bytes → Bool) (m : List DirEntry) : DirOp → Prop
  | .add e => e.name.length > 255 ∨ m.any (fun x => same e.name x.name) = true
  | .remove n => n.length > 255 ∨ m.any (fun x => same n x.name) = false
  | .get _ | .list | .empty => True
  | .flush | .rebuild | .reopen => False

/-- The call adds to a directory of 1 to 12 entries or removes from one of at most 12. -/
def DirOp.small (m : List DirEntry) : DirOp → Prop
  | .add _ => 1 ≤ m.length ∧ m.length ≤ 12
  | .remove _ => m.length ≤ 12
  | _ => False

/-- The name that the call adds or removes. -/
def DirOp.target : DirOp → Option Bytes
  | .add e => some e.name
  | .remove n => some n
  | _ => none

/-- What the ideal directory holds after a call that has answered `o`: a call that reports an error does nothing. -/
def dirAfter (same : Bytes → Bytes → Bool) (m : List DirEntry) (op : DirOp) : DirOut → List DirEntry
  | .fail _ => m
  | _ => (dirStep same m op).2

/-- Every call of the history, given with the fate of its calls on the stream and its answer, has given the answer of the ideal directory or
    the error of a call on the stream that failed, and in that case the ideal directory has not changed. -/
def DirFollows (same : Bytes → Bytes → Bool) : List DirEntry → List ((DirOp × List (Option PageFault)) × DirOut) → Prop
  | _, [] => True
  | m, ((op, plan), o) :: rest =>
    (DirOut.Agrees o (dirStep same m op).1 ∨ ∃ x, some x ∈ plan ∧ o = .fail (.vfs x.errno)) ∧ DirFollows same (dirAfter same m op o) rest

/-- What the ideal directory holds in the end. -/
def dirLeft (same : Bytes → Bytes → Bool) : List DirEntry → List ((DirOp × List (Option PageFault)) × DirOut) → List DirEntry
  | m, [] => m
  | m, ((op, _), o) :: rest => dirLeft same (dirAfter same m op o) rest

end Spec

namespace BF

/-- Written back, whether or not closed. -/
def isFlush : DirOp → Bool
  | .flush | .reopen => true
  | _ => false

/-- The same failures would make a question for the name fail. -/
def SearchFails (C : BCfg) (s : BSt) (op : DirOp) (plan : List (Option PageFault)) : Prop :=
  match op.target with
  | some n =>
    match (dirStepModel C s (.get n) plan).1 with
    | .fail _ => True
    | _ => False
  | none => False

/-- There is room: the leaf into which the name goes is not full, or the leaf that loses an entry, the one of the name or one from which the
    entry in its place is taken, keeps at least six. -/
def Roomy (C : BCfg) (s : BSt) : DirOp → Prop
  | .add e =>
    match Securefs.findNode C e.name s with
    | .ok (some (p, _, _), s1) =>
      match cacheFind s1 p with
      | some n => n.entries.length < 13
      | none => False
    | _ => False
  | .remove name =>
    match Securefs.findNode C name s with
    | .ok (some (p, i, true), s1) =>
      match Securefs.replaceWithSub p i s1 with
      | .ok (l, s2) =>
        match cacheFind s2 l with
        | some n => 6 ≤ n.entries.length
        | none => False
      | _ => False
    | _ => False
  | _ => False

/-- A history on which calls on the stream fail only while the directory is asked, while nothing is to change, while a name that is to be
    added or removed is looked for, while a directory of few entries is changed or one in which there is room, or while a directory that is
    not to be rebuilt is written back.  `m` is what the ideal directory holds; it never holds more entries than fit. -/
def Calm (C : BCfg) : BSt → List DirEntry → List (DirOp × List (Option PageFault)) → Prop
  | _, _, [] => True
  | s, m, (op, plan) :: ops =>
    (op.quiet (sameName C.cmp) m ∨ (∀ x ∈ plan, x = none) ∨ (isFlush op = true ∧ ¬ dueRebuild s) ∨ op.small m ∨ SearchFails C s op plan ∨
        Roomy C s op) ∧
      (dirStep (sameName C.cmp) m op).2.length ≤ dirCapacity ∧
      Calm C (dirStepModel C s op plan).2 (dirAfter (sameName C.cmp) m op (dirStepModel C s op plan).1) ops

instance (same : Bytes → Bytes → Bool) (m : List DirEntry) (op : DirOp) : Decidable (op.quiet same m) := by
  cases op <;> simp only [DirOp.quiet] <;> infer_instance

instance (m : List DirEntry) (op : DirOp) : Decidable (op.small m) := by
  cases op <;> simp only [DirOp.small] <;> infer_instance

instance (s : BSt) : Decidable (dueRebuild s) := inferInstanceAs (Decidable (_ ∧ _))

instance (C : BCfg) (s : BSt) (op : DirOp) (plan : List (Option PageFault)) : Decidable (SearchFails C s op plan) := by
  unfold SearchFails
  split
  · split <;> infer_instance
  · infer_instance

instance (C : BCfg) (s : BSt) (op : DirOp) : Decidable (Roomy C s op) := by
  unfold Roomy
  split
  · split
    · split <;> infer_instance
    · infer_instance
  · split
    · split
      · split <;> infer_instance
      · infer_instance
    · infer_instance
  · infer_instance

instance Calm.dec (C : BCfg) : ∀ (s : BSt) (m : List DirEntry) (ops : List (DirOp × List (Option PageFault))), Decidable (Calm C s m ops)
  | _, _, [] => isTrue trivial
  | s, m, (op, plan) :: ops =>
    have := Calm.dec C (dirStepModel C s op plan).2 (dirAfter (sameName C.cmp) m op (dirStepModel C s op plan).1) ops
    inferInstanceAs (Decidable ((op.quiet (sameName C.cmp) m ∨ (∀ x ∈ plan, x = none) ∨ (isFlush op = true ∧ ¬ dueRebuild s) ∨ op.small m ∨
      SearchFails C s op plan ∨ Roomy C s op) ∧ (dirStep (sameName C.cmp) m op).2.length ≤ dirCapacity ∧
      Calm C (dirStepModel C s op plan).2 (dirAfter (sameName C.cmp) m op (dirStepModel C s op plan).1) ops))

end BF
end Securefs

import Verif.Spec.ByteFile
/-!
# Specification: a byte array with a separate header buffer
-/

namespace Securefs.Spec

/-- Calls on a file with a header. -/
inductive HOp where
  | file (op : Op)
  | writeHeader (h : Bytes)
  | readHeader (len : Nat)
  | flush

/-- Answers: of a file call, or the header read (`none`: there is no header). -/
inductive HOut where
  | file (o : Out)
  | header (h : Option Bytes)
  deriving DecidableEq

/-- The ideal file: a content and a header buffer of fixed size, initially absent. -/
structure HFile where
  content : Bytes
  header : Option Bytes
  deriving DecidableEq

/-- The ideal behaviour of one call; `hs` is the size of the header buffer.  Writing a shorter header
    fills the buffer up with zeros. -/
def hstep (hs : Nat) (f : HFile) : HOp → HFile × HOut
  | .file op => ({ f with content := (step f.content op).1 }, .file (step f.content op).2)
  | .writeHeader h => ({ f with header := some (h ++ List.replicate (hs - h.length) 0) }, .file .done)
  | .readHeader len => (f, .header (f.header.map (·.take len)))
  | .flush => (f, .file .done)

/-- The ideal behaviour of a history. -/
def hrun (hs : Nat) (f : HFile) : List HOp → HFile × List HOut
  | [] => (f, [])
  | op :: ops =>
    let (f1, o) := hstep hs f op
    let (f2, os) := hrun hs f1 ops
    (f2, o :: os)

/-- A call within the limits: file positions up to `lim`, headers up to `hs`. -/
def HOp.within (lim hs : Nat) : HOp → Prop
  | .file op => op.extent ≤ lim
  | .writeHeader h => h.length ≤ hs
  | .readHeader len => len ≤ hs
  | .flush => True

/-- No header is read before one was written (`present` says whether one was written before). -/
def headerFirst : (present : Bool) → List HOp → Prop
  | _, [] => True
  | p, .readHeader _ :: ops => p = true ∧ headerFirst p ops
  | _, .writeHeader _ :: ops => headerFirst true ops
  | p, .file _ :: ops => headerFirst p ops
  | p, .flush :: ops => headerFirst p ops

end Securefs.Spec

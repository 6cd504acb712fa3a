import Verif.Model.FileStore
/-!
# Specification: a store of pairs of files

What the rest of the program expects of `FileTableIO`: identifiers are mapped to pairs of files, and each operation
happens at one moment.  It mentions neither paths nor directories.
-/

namespace Securefs.Spec

/-- The pairs of files: for every identifier that has one, the numbers of its data and its metadata file. -/
abbrev StoreMap := Bytes → Option (Nat × Nat)

/-- Changes what is stored for one identifier. -/
def StoreMap.put (M : StoreMap) (id : Bytes) (v : Option (Nat × Nat)) : StoreMap := fun k => if k = id then v else M k

/-- No stored file has the number. -/
def StoreMap.Unused (M : StoreMap) (n : Nat) : Prop := ∀ id d m, M id = some (d, m) → n ≠ d ∧ n ≠ m

/-- One operation, its outcome, and what is stored afterwards.  Numbers of errors: `ENOENT` 2, `EEXIST` 17. -/
inductive StoreStep (M : StoreMap) : StoreOp → StoreOut → StoreMap → Prop where
  | create (id : Bytes) (d m : Nat) (free : M id = none) (two : d ≠ m) (newData : M.Unused d) (newMeta : M.Unused m) :
      StoreStep M (.create id) (.opened d m) (M.put id (some (d, m)))
  | createTaken (id : Bytes) (taken : M id ≠ none) : StoreStep M (.create id) (.failed 17) M
  | opens (id : Bytes) (d m : Nat) (there : M id = some (d, m)) : StoreStep M (.open id) (.opened d m) M
  | openMissing (id : Bytes) (missing : M id = none) : StoreStep M (.open id) (.failed 2) M
  | unlink (id : Bytes) : StoreStep M (.unlink id) .done (M.put id none)

/-- A history of operations, the last first. -/
inductive StoreRuns (M : StoreMap) : List (StoreOp × StoreOut) → StoreMap → Prop where
  | nil : StoreRuns M [] M
  | cons (op : StoreOp) (out : StoreOut) (rest : List (StoreOp × StoreOut)) (M1 M2 : StoreMap) (before : StoreRuns M rest M1)
      (last : StoreStep M1 op out M2) : StoreRuns M ((op, out) :: rest) M2

/-- An event in which no system call fails for reasons outside the volume, about a file with an identifier of the right size. -/
def PlainEvent : StoreEvent → Prop
  | .start _ op _ => op.id.length = 32
  | .call _ fault => fault = none

/-- The directory of the host holds what is stored and nothing that is in the way: every path is below directories, files
    have different numbers, every identifier has either both files or neither, no file stands where a directory of the
    layout would, and no directory that holds files of the layout is empty.  Other files may be there as well. -/
structure CleanHost (legacy : Bool) (h : HostDir) (M : StoreMap) : Prop where
  parents : ∀ p e, h.look p = some e → p ≠ [] ∧ (p.dropLast = [] ∨ h.look p.dropLast = some .dir)
  numbers : ∀ p n, h.look p = some (.file n) → n < h.next
  distinct : ∀ p q n, h.look p = some (.file n) → h.look q = some (.file n) → p = q
  data : ∀ id P, storePaths legacy id = .ok P → h.look P.file = (M id).map fun v => .file v.1
  metadata : ∀ id P, storePaths legacy id = .ok P → h.look P.metaFile = (M id).map fun v => .file v.2
  free : ∀ id P, storePaths legacy id = .ok P → ∀ d ∈ P.dirs, ∀ n, h.look d ≠ some (.file n)
  tidy : ∀ id P, storePaths legacy id = .ok P → h.look P.file.dropLast = some .dir → ∃ q e, h.look q = some e ∧ q ≠ [] ∧ q.dropLast = P.file.dropLast

end Securefs.Spec

import Verif.Spec.FullFs
/-!
# Specification: the names in directories are legal and different

What a directory lists has to be usable as names: none of them is empty, `.` or `..`, has a slash or is longer than 255 bytes, and no two of them are the same.
-/

namespace Securefs.Spec

/-- A name without a slash that is not too long. -/
def FlatName (s : Bytes) : Prop := (47 : UInt8) ∉ s ∧ s.length ≤ 255

/-- A name that a directory may list. -/
def LegalName (s : Bytes) : Prop := FlatName s ∧ s ≠ [] ∧ s ≠ [46] ∧ s ≠ [46, 46]

/-- The names in all directories are as `P` says, and no two names in one directory are the same. -/
def NamesAre (same : Bytes → Bytes → Bool) (P : Bytes → Prop) (fs : FullFs) : Prop :=
  ∀ id n, fs.get id = some n → (∀ e ∈ n.entries, P e.name) ∧ n.entries.Pairwise fun a b => same a.name b.name = false

/-- The paths whose last components a call may put into directories. -/
def placesOf : FullOp → List Bytes
  | .create p _ _ _ _ => [p]
  | .mkdir p _ _ _ _ => [p]
  | .symlink _ p _ _ _ => [p]
  | .link _ p => [p]
  | .rename p q => [p, q]
  | _ => []

/-- The path ends with a name; the kernel asks for no other places. -/
def EndsInName (path : Bytes) : Prop := ∃ last, (parts path).getLast? = some last ∧ last ≠ [46] ∧ last ≠ [46, 46]

end Securefs.Spec

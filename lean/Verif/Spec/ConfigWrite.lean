import Verif.Model.ConfigWrite
/-!
# What a crash leaves on the disk
-/

namespace Securefs.Spec

/-- The calls reach the disk in order; the crash comes between two of them, or in the middle of a write. -/
inductive OrderedCrash : List FsOp → List FsOp → Prop
  | stop {ops} : OrderedCrash ops []
  | torn {p data ops} (n : Nat) : OrderedCrash (.write p data :: ops) [.write p (data.take n)]
  | next {op ops ops'} : OrderedCrash ops ops' → OrderedCrash (op :: ops) (op :: ops')

/-- Nothing was synchronised: of each write, any part may be missing, although later calls on the directory reached the disk. -/
inductive UnsyncedCrash : List FsOp → List FsOp → Prop
  | stop {ops} : UnsyncedCrash ops []
  | cut {p data ops ops'} (n : Nat) : UnsyncedCrash ops ops' → UnsyncedCrash (.write p data :: ops) (.write p (data.take n) :: ops')
  | next {op ops ops'} : UnsyncedCrash ops ops' → UnsyncedCrash (op :: ops) (op :: ops')

/-- What the JSON parser can give: numbers of 32 bits, and strings that are not longer than the text. -/
def JsonSane (json : Bytes → Option LegacyParams) : Prop :=
  ∀ text l, json text = some l →
    l.ciphertext.length ≤ text.length ∧ (∀ b, l.blockSize = some b → b < 2 ^ 32) ∧ (∀ b, l.ivSize = some b → b < 2 ^ 32) ∧ l.maxPadding < 2 ^ 32

end Securefs.Spec

import Verif.Model.Pod
/-!
# Ids as values
-/

namespace Securefs.Spec

open Securefs.Pod (Use)

/-- A table without hashes: inserting keeps a value that is there, erasing forgets it. -/
def idealUses {α : Type} (f : Bytes → Option α) : List (Use α) → Bytes → Option α
  | [] => f
  | .insert id v :: rest => idealUses (fun k => if k = id ∧ f id = none then some v else f k) rest
  | .erase id :: rest => idealUses (fun k => if k = id then none else f k) rest

/-- Every key that is used has the length of an id. -/
def Ids {α : Type} (us : List (Use α)) : Prop :=
  ∀ u ∈ us, match u with
    | .insert id _ => id.length = 32
    | .erase id => id.length = 32

end Securefs.Spec

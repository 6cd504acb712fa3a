import Verif.Model.FileTable
/-!
# Specification: how many files of a shard are closed in a schedule
-/

namespace Securefs.Spec

variable {α : Type}

/-- Whether the step is the end of a deleter of a file in shard `i`. -/
def ClosesIn (i : Nat) (st : FileTab α) : TabEvent α → Bool
  | .closeInternal t _ =>
    match st.closing.lookup t with
    | some (.lockShard id) => match FileTab.shardOf id with
      | .ok j => j == i
      | .error _ => false
    | _ => false
  | _ => false

/-- How many such steps there are in a schedule. -/
def closings (fresh : α) (i : Nat) : FileTab α → List (TabEvent α) → Nat
  | _, [] => 0
  | st, e :: rest =>
    match FileTab.step fresh st e with
    | .ok st' _ => (if ClosesIn i st e then 1 else 0) + closings fresh i st' rest
    | .disabled => closings fresh i st rest
    | .useAfterFree => 0

/-- No step leaves the object without a link. -/
def StaysLinked (a : Nat) (es : List (TabEvent α)) : Prop := ∀ t v, .modify t a v ∈ es → v.nlink ≠ 0

/-- How many of the files are in shard `s`. -/
def inShard (s : Nat) (ids : List Bytes) : Nat := ids.countP fun id => match FileTab.shardOf id with
  | .ok j => j == s
  | .error _ => false

end Securefs.Spec

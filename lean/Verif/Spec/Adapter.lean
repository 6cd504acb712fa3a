import Verif.Model.Adapter
/-!
# What the kernel is answered, and what may be logged
-/

namespace Securefs.Spec

/-- The answer to the kernel for each way an operation can end.  There is none for what is no `std::exception`. -/
inductive Code : Outcome → Int → Prop
  | ret (rc : Int) : Code (.ret rc) rc
  | vfs (n : Int) (t : Bytes) : Code (.throw (.vfs n t)) (-n)
  | posix (n : Int) (t : Bytes) : Code (.throw (.posix n t)) (-n)
  | invalid (t : Bytes) : Code (.throw (.invalidArgument t)) (-22)
  | long (t : Bytes) : Code (.throw (.streamTooLong t)) (-27)
  | base (t : Bytes) : Code (.throw (.base t)) (-1)
  | std (t : Bytes) : Code (.throw (.std t)) (-1)

/-- A request that the mount itself answers: on Linux the two commands of `ioctl`, with FUSE-T the directory with the special name. -/
def ForMount (fuseT : Bool) : FuseCall → Prop
  | .ioctl _ cmd _ _ _ _ => fuseT = false ∧ (cmd = 0x80047301#32 ∨ cmd = 0x7302#32)
  | .getattr p _ => fuseT = true ∧ p = some (47 :: specialName)
  | .rmdir p => fuseT = true ∧ p = some (47 :: specialName)
  | _ => False

/-- `ENOSYS` in answer to `ioctl` becomes `ENOTSUP`, since the mount does support `ioctl`. -/
def ioctlAnswer (fuseT : Bool) (c : FuseCall) (rc : Int) : Int :=
  if fuseT = false ∧ c.fn = .ioctl ∧ rc = -38 then -95 else rc

/-- The same, for an outcome. -/
def ioctlOutcome (fuseT : Bool) (c : FuseCall) : Outcome → Outcome
  | .ret rc => .ret (ioctlAnswer fuseT c rc)
  | .throw e => .throw e

/-- Two memories with the same structures; the contents of all buffers may differ. -/
def SameStructs (m m' : Memory) : Prop := m.fields = m'.fields

/-- A failure that is not the ordinary answer to a wrong request: any exception but `VFSException`. -/
def Unexpected : Outcome → Prop
  | .ret _ => False
  | .throw (.vfs _ _) => False
  | .throw .foreign => False
  | .throw _ => True

end Securefs.Spec

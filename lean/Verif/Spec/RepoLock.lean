import Verif.Model.RepoLock
/-!
# What a repository lock should do
-/

namespace Securefs.Spec

/-- Mounts and unmounts that do not overlap: `mount p` is an attempt that runs to its end, `broken p k` one of which only `k` system calls
    succeed, `crash p k` one in which the process dies after `k` system calls, `unmount p` a complete unmount; processes start, and die at
    any time in between. -/
inductive LockUse where
  | spawn (p : Nat)
  | die (p : Nat)
  | mount (p : Nat)
  | broken (p k : Nat)
  | crash (p k : Nat)
  | unmount (p : Nat)
  deriving DecidableEq

/-- Its system calls: mounting takes at most five. -/
def LockUse.events : LockUse → List LockEv
  | .spawn p => [.spawn p]
  | .die p => [.die p]
  | .mount p => List.replicate 5 (.step p)
  | .broken p k => List.replicate (min k 4) (.step p) ++ [.fail p]
  | .crash p k => List.replicate (min k 5) (.step p) ++ [.die p]
  | .unmount p => [.unmount p, .leave p, .leave p]

/-- A process that exists has the volume mounted. -/
def Holds (s : LockSys) (p : Nat) : Prop := s.running p = true ∧ ∃ i, s.pc p = .mounted i

/-- The process still uses the volume: it has it mounted, or it is unmounting it and the file table has not been destroyed. -/
def Uses (s : LockSys) (p : Nat) : Prop := s.running p = true ∧ ((∃ i, s.pc p = .mounted i) ∨ s.pc p = .closed ∨ s.pc p = .flushing)

/-- Process identifiers are positive and fit into a `pid_t`. -/
def PidOk (u : LockUse) : Prop :=
  match u with
  | .spawn p | .die p | .mount p | .broken p _ | .crash p _ | .unmount p => 0 < p ∧ p < 2 ^ 31

instance (u : LockUse) : Decidable (PidOk u) := by cases u <;> exact inferInstanceAs (Decidable (_ ∧ _))

/-- A start: any lock file, left by anybody, and any processes, none of which has mounted the volume. -/
structure Clean (s : LockSys) : Prop where
  idle : ∀ p, s.pc p = .idle
  name : ∀ i, s.name = some i → i < s.inodes.length

/-- The lock file names a process that exists. -/
def LockedBy (s : LockSys) (pid : Int) : Prop :=
  ∃ i content, s.name = some i ∧ s.inodes[i]? = some content ∧ simpleAtoi content = some pid ∧ isProcessRunning s.running pid = true

end Securefs.Spec

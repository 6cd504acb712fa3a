import Verif.Model.Shutdown
/-!
# What serving and shutting down should achieve
-/

namespace Securefs.Spec

/-- A state that the process with `n` workers can get into. -/
def SrvReaches (n : Nat) (s : SrvSys) : Prop := ∃ es, (SrvSys.init n).run es = some s

/-- All threads that the main thread joins have ended, so that it goes on to unmount and to destroy the file system. -/
def Joined (s : SrvSys) : Prop := s.waiter = .ended ∧ ∀ i < s.n, (s.w i).pc = .ended

/-- Every request a worker has received was processed to the end, but for the one it is at. -/
def NoneLost (s : SrvSys) : Prop :=
  ∀ i < s.n, (s.w i).got = (s.w i).answered + if (s.w i).pc = .handling then 1 else 0

/-- A step that a thread makes by itself, without waiting for the kernel. -/
def OwnStep : SrvEv → Prop
  | .recv _ _ => False
  | .signal => False
  | _ => True

/-- A worker that has not waited for a request yet: cancellation is still enabled for it, as it is for a new thread. -/
def Fresh (w : SrvWorker) : Prop := w.enabled = true ∧ (w.pc = .start ∨ w.pc = .check ∨ w.pc = .leaving)

end Securefs.Spec

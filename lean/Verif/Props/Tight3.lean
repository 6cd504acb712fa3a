import Verif.Proofs.Timer
import Verif.Model.WinOs
import Verif.Spec.Commands
/-!
# Theorems that seeded errors asked for: the end of a timer, and the files of Windows
-/

namespace Securefs.Props

open Securefs Spec

/-! ### C49: the destructor of the timer -/

/-- The destructor does not wait for the point in time: in any history, two steps after it the work thread has ended, whatever the clock
    says, and `join` returns.  The callback has been called only if that was decided before. -/
theorem C49_ends (epoch : Int) (evs : List TimerEv) (c1 n1 c2 n2 : Int) :
    TimerEnded ((Timer.init epoch).run (evs ++ [.shutdown, .work c1 n1, .work c2 n2])) ∧
    (((Timer.init epoch).run (evs ++ [.shutdown, .work c1 n1, .work c2 n2])).pc = .called →
      ((Timer.init epoch).run evs).pc = .fired ∨ ((Timer.init epoch).run evs).pc = .called) := by
  rw [Timer.run_append]
  generalize (Timer.init epoch).run evs = s
  show TimerEnded ((s.shutdown.work c1 n1).work c2 n2) ∧ (((s.shutdown.work c1 n1).work c2 n2).pc = .called → _)
  obtain ⟨tr, wk, ex, pc⟩ := s
  cases pc <;> simp [Timer.shutdown, Timer.work, Timer.check, TimerEnded]

/-- The thread waits for the time 1000000; the destructor at the time 2 ends it.  A callback that was decided on is still called. -/
example : ((Timer.init 0).run [.set 1000000, .work 1 1]).pc = .waiting 1000000 ∧
    ((Timer.init 0).run ([.set 1000000, .work 1 1] ++ [.shutdown, .work 2 2, .work 3 3])).pc = .exited ∧
    ((Timer.init 0).run ([.set 5, .work 6 6] ++ [.shutdown, .work 7 7, .work 8 8])).pc = .called := by decide

/-! ### C91, C92: files and links of Windows -/

/-- Truncating a file that is opened for reading only, which POSIX leaves undefined, is refused with `EINVAL` unless the file may be
    created; with `O_CREAT` it is emptied. -/
theorem C91_truncate (excl : Bool) (c : Bytes) :
    Win.openFile ⟨0, false, excl, true⟩ (some c) = .error (.vfs 22) ∧ Win.openFile ⟨0, true, false, true⟩ (some c) = .ok [] := by
  cases excl <;> exact ⟨rfl, rfl⟩

/-- What is stored for a link is the text `\??\UNC\securefs\P` and then the target, so that links survive a change of version. -/
theorem C92_stored (target : Bytes) :
    Win.prependPrefix target = word "\\??\\UNC\\securefs\\P" ++ target.map fun c => if c = 47 then 92 else c := by
  unfold Win.prependPrefix
  rw [show Win.linkPrefix = word "\\??\\UNC\\securefs\\P" by decide +kernel]
  rfl

example : Win.prependPrefix (word "a/b") = word "\\??\\UNC\\securefs\\Pa\\b" := by decide +kernel

end Securefs.Props

import Verif.Model.Timer
/-!
# What an idle timer should do
-/

namespace Securefs.Spec

/-- The points in time that were set, latest first. -/
def timePoints : List TimerEv → List Int
  | [] => []
  | .set t :: rest => timePoints rest ++ [t]
  | _ :: rest => timePoints rest

/-- No point in time is before an earlier one, nor before the epoch. -/
def InOrder (epoch : Int) (evs : List TimerEv) : Prop := (timePoints evs ++ [epoch]).Pairwise (· ≥ ·)

/-- Nobody destroys the timer. -/
def NoShutdown (evs : List TimerEv) : Prop := .shutdown ∉ evs

/-- The thread of a timer has ended, or there never was one: `join` does not wait. -/
def TimerEnded (s : Timer) : Prop := s.pc = .absent ∨ s.pc = .called ∨ s.pc = .exited

/-- Activity at the given times, each recorded before the next begins, with steps of the work thread in between. -/
inductive Use where
  | activity (thread : Nat) (now : Int)
  | work (clock now : Int)
  deriving DecidableEq

/-- The events of it. -/
def useEvents : List Use → List IdleEv
  | [] => []
  | .activity i now :: rest => .read i now :: .apply i :: useEvents rest
  | .work clock now :: rest => .work clock now :: useEvents rest

/-- The times of activity, latest first. -/
def activities : List Use → List Int
  | [] => []
  | .activity _ now :: rest => activities rest ++ [now]
  | .work _ _ :: rest => activities rest

end Securefs.Spec

import Verif.Model.Basic
/-!
# The idle timer

Models `/repo/sources/resettable_timer.cpp`, `/repo/sources/resettable_timer.h` and `IdleShutdownHook` of
`/repo/sources/fuse_hook.cpp`.

Simplified: a point in time is an integer in any unit (`absl::Time` counts quarters of nanoseconds and saturates); what a thread does while
it holds the mutex is one step; the callback is only recorded.
-/

namespace Securefs

/-- Where the work thread is (`/repo/sources/resettable_timer.cpp:33-54`). -/
inductive TimerPc where
  /-- not started: `work_thread_.joinable()` is false -/
  | absent
  /-- at the top of the loop, before taking the mutex -/
  | entering
  /-- in `AwaitWithDeadline`, with the deadline that it was called with -/
  | waiting (deadline : Int)
  /-- after the loop, before the callback -/
  | fired
  /-- the callback has been called; the thread has ended and was not joined -/
  | called
  /-- the thread has ended because of the destructor -/
  | exited
  deriving DecidableEq

/-- The members of `ResettableTimer` (`/repo/sources/resettable_timer.h:25-30`). -/
structure Timer where
  trigger : Int
  wake : Bool
  exiting : Bool
  pc : TimerPc
  deriving DecidableEq

namespace Timer

/-- A new timer (`/repo/sources/resettable_timer.h:18,27-30`); `epoch` is `absl::UniversalEpoch()`. -/
def init (epoch : Int) : Timer := ⟨epoch, false, false, .absent⟩

/-- `setTimePoint` (`/repo/sources/resettable_timer.cpp:22-32`). -/
def set (s : Timer) (t : Int) : Timer :=
  { s with wake := decide (t < s.trigger), trigger := t, pc := if s.pc = .absent then .entering else s.pc }

/-- The part of the loop after `AwaitWithDeadline` (`/repo/sources/resettable_timer.cpp:42-51`), with the mutex held; `now` is what
    `absl::Now()` returns. -/
def check (s : Timer) (now : Int) : Timer :=
  if s.exiting then { s with pc := .exited }
  else if now ≥ s.trigger then { s with wake := false, pc := .fired }
  else { s with wake := false, pc := .entering }

/-- The next step of the work thread (`/repo/sources/resettable_timer.cpp:33-54`).  `clock` is the time at which `AwaitWithDeadline` compares
    the deadline, `now` what `absl::Now()` returns after it.  Waiting releases the mutex. -/
def work (s : Timer) (clock now : Int) : Timer :=
  match s.pc with
  | .entering => if s.wake ∨ s.exiting ∨ clock ≥ s.trigger then s.check now else { s with pc := .waiting s.trigger }
  | .waiting d => if s.wake ∨ s.exiting ∨ clock ≥ d then s.check now else s
  | .fired => { s with pc := .called }
  | _ => s

/-- The destructor before it joins the thread (`/repo/sources/resettable_timer.cpp:10-15`). -/
def shutdown (s : Timer) : Timer := { s with exiting := true }

end Timer

/-- What happens to a timer.
    (`/repo/sources/resettable_timer.cpp:10-57`). -/
inductive TimerEv where
  | set (t : Int)
  | work (clock now : Int)
  | shutdown
  deriving DecidableEq

/-- One event (`/repo/sources/resettable_timer.cpp:10-57`). -/
def Timer.step (s : Timer) : TimerEv → Timer
  | .set t => s.set t
  | .work clock now => s.work clock now
  | .shutdown => s.shutdown

/-- A history.
    (`/repo/sources/resettable_timer.cpp:10-57`). -/
def Timer.run (s : Timer) (evs : List TimerEv) : Timer := evs.foldl Timer.step s

/-! ## The idle hook -/

/-- The timer of `IdleShutdownHook` (`/repo/sources/fuse_hook.h:22-32`), and for every thread that is inside `notify_activity` the time that
    it has read. -/
structure IdleHook where
  timer : Timer
  pending : List (Nat × Int)
  deriving DecidableEq

/-- What happens to the hook: `notify_activity` (`/repo/sources/fuse_hook.cpp:21`) reads the clock and then calls `setTimePoint`. -/
inductive IdleEv where
  | read (thread : Nat) (now : Int)
  | apply (thread : Nat)
  | work (clock now : Int)
  deriving DecidableEq

/-- One event, for a hook with the given timeout (`/repo/sources/fuse_hook.cpp:9-21`). -/
def IdleHook.step (timeout : Int) (s : IdleHook) : IdleEv → IdleHook
  | .read i now => { s with pending := (i, now) :: s.pending.filter (·.1 ≠ i) }
  | .apply i =>
    match s.pending.lookup i with
    | some now => { timer := s.timer.set (now + timeout), pending := s.pending.filter (·.1 ≠ i) }
    | none => s
  | .work clock now => { s with timer := s.timer.work clock now }

/-- A history.
    (`/repo/sources/fuse_hook.cpp:9-21`). -/
def IdleHook.run (timeout : Int) (s : IdleHook) (evs : List IdleEv) : IdleHook := evs.foldl (IdleHook.step timeout) s

end Securefs

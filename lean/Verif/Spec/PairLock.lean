import Verif.Model.PairLock
/-!
# What locks should do
-/

namespace Securefs.Spec

/-- The files a guard is for. -/
def guardFiles : Guard → List Nat
  | .one f => [f]
  | .spin f => [f]
  | .two f g => [f, g]

/-- The thread has work to do: it is constructing a guard or has one. -/
def Busy (s : GuardSys) (t : Nat) : Prop := s.pc t ≠ .idle

/-- The thread waits: it has work to do and cannot do it. -/
def Waits (rotate : Bool) (s : GuardSys) (t : Nat) : Prop := Busy s t ∧ s.step rotate t = none

/-- Thread `t` waits for a mutex that thread `u` has locked. -/
def WaitsFor (rotate : Bool) (s : GuardSys) (t u : Nat) : Prop :=
  Waits rotate s t ∧ ∃ f, s.owner f = some u ∧ (s.pc t = .want f ∨ ∃ b, s.pc t = .want2 f b)

/-- A chain of threads each of which waits for the next. -/
def WaitChain (rotate : Bool) (s : GuardSys) : List Nat → Prop
  | t :: u :: rest => WaitsFor rotate s t u ∧ WaitChain rotate s (u :: rest)
  | _ => True

/-- The thread has a constructed guard for exactly these files, and no other thread can have one. -/
def Guarded (s : GuardSys) (t : Nat) (g : Guard) : Prop :=
  ∃ fs, s.pc t = .holding fs ∧ (∀ f, f ∈ fs ↔ f ∈ guardFiles g) ∧ ∀ f ∈ guardFiles g, s.owner f = some t

end Securefs.Spec

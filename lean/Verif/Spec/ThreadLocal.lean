import Verif.Model.ThreadLocal
/-!
# What per-thread objects should be

Every pair of an owner and a thread has at most one object, made by the factory of the owner on the thread.  There are no slots and
no generations.
-/

namespace Securefs.Spec

/-- The owners made so far and those that are alive, and the object of every owner on every thread. -/
structure TlSpec (V : Type) where
  count : Nat
  live : List Nat
  obj : Nat → Nat → Option (TlObj V)
  made : Nat

namespace TlSpec

variable {V : Type}

/-- Nothing has been made. -/
def init : TlSpec V := ⟨0, [], fun _ _ => none, 0⟩

/-- The object of one pair is replaced. -/
def setObj (s : TlSpec V) (owner thread : Nat) (o : Option (TlObj V)) : TlSpec V :=
  { s with obj := fun w t => if w = owner ∧ t = thread then o else s.obj w t }

/-- One request: up to 256 owners are alive; `get` returns the object of the pair, or makes one. -/
def step (s : TlSpec V) : TlOp V → TlOut V × TlSpec V
  | .create =>
    if s.live.length < 256 then (.owner s.count, { s with count := s.count + 1, live := s.count :: s.live }) else (.error .runtime, s)
  | .destroy o => if o ∈ s.live then (.done, { s with live := s.live.erase o }) else (.error .outOfBounds, s)
  | .get t o init =>
    if o ∈ s.live then
      match s.obj o t, init with
      | some x, _ => (.obj x, s)
      | none, none => (.error .runtime, s)
      | none, some v => (.obj ⟨s.made, v⟩, { s.setObj o t (some ⟨s.made, v⟩) with made := s.made + 1 })
    else (.error .outOfBounds, s)
  | .exit t => (.done, { s with obj := fun w t' => if t' = t then none else s.obj w t' })

/-- A history. -/
def run : TlSpec V → List (TlOp V) → List (TlOut V) × TlSpec V
  | s, [] => ([], s)
  | s, op :: rest =>
    let r := s.step op
    let r' := run r.2 rest
    (r.1 :: r'.1, r'.2)

end TlSpec

end Securefs.Spec

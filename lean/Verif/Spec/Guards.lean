import Verif.Model.Guards
/-!
# Specification: how a mutex may be used by one thread

After the documentation of `absl::Mutex`: a thread takes no mutex that it has, and gives back what it has taken in the way it has taken it.
-/

namespace Securefs.Spec

open Guards

/-- How a thread has a mutex. -/
inductive HeldAs where
  | free
  | writing
  | reading
  deriving DecidableEq

/-- A call that is allowed, and how the mutexes are then; `none` if it is not allowed. -/
def heldNext (h : Nat → HeldAs) : Call → Option (Nat → HeldAs)
  | .lock m => if h m = .free then some (fun k => if k = m then .writing else h k) else none
  | .readerLock m => if h m = .free then some (fun k => if k = m then .reading else h k) else none
  | .tryLock m got => if h m = .free then some (fun k => if k = m ∧ got = true then .writing else h k) else none
  | .unlock m => if h m = .writing then some (fun k => if k = m then .free else h k) else none
  | .null => none

/-- All the calls are allowed, the last one comes first. -/
def heldAfter (h : Nat → HeldAs) : List Call → Option (Nat → HeldAs)
  | [] => some h
  | c :: rest => (heldAfter h rest).bind fun h' => heldNext h' c

/-- No guard is within the scope of another one of the same mutex, or of one that the thread has. -/
def Apart (taken : List Nat) : Body → Prop
  | .done => True
  | .throw => True
  | .scope m _ inner rest => m ∉ taken ∧ Apart (m :: taken) inner ∧ Apart taken rest

/-- All guards are for writing. -/
def ForWriting : Body → Prop
  | .done => True
  | .throw => True
  | .scope _ exclusive inner rest => exclusive = true ∧ ForWriting inner ∧ ForWriting rest

/-- There is an exception in what a thread does. -/
def throws : Body → Bool
  | .done => false
  | .throw => true
  | .scope _ _ inner rest => throws inner || throws rest

/-- The scopes that are entered, in their order: those before the first exception. -/
def entered : Body → List (Nat × Bool)
  | .done => []
  | .throw => []
  | .scope m exclusive inner rest => (m, exclusive) :: entered inner ++ (if throws inner then [] else entered rest)

/-- The mutexes that were taken, and whether for writing, the last one first. -/
def takenIn : List Call → List (Nat × Bool)
  | [] => []
  | .lock m :: rest => (m, true) :: takenIn rest
  | .readerLock m :: rest => (m, false) :: takenIn rest
  | _ :: rest => takenIn rest

end Securefs.Spec

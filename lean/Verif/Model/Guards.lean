import Verif.Model.Basic
/-!
# Guards of locks

Models `/repo/sources/lock_guard.h` for `absl::Mutex`, down to the calls of the mutex, as one thread makes them: a call that waits is recorded when it has
got the mutex.
-/

namespace Securefs.Guards

/-- The calls of a mutex, which has a number (`/repo/sources/lock_guard.h:31-61,138-212`); `tryLock` with its answer.  `null` is a call on a null
    pointer. -/
inductive Call where
  | lock (m : Nat)
  | readerLock (m : Nat)
  | tryLock (m : Nat) (got : Bool)
  | unlock (m : Nat)
  | null
  deriving DecidableEq

/-- What a thread does while it has guards (`/repo/sources/lock_guard.h:31-61`): nothing more, an exception, or a scope with a guard and what comes after
    it. -/
inductive Body where
  | done
  | throw
  | scope (m : Nat) (exclusive : Bool) (inner rest : Body)

/-- `LockGuard<absl::Mutex>` with its scope (`/repo/sources/lock_guard.h:40-56`): the calls, the last one first, and whether there is an exception on the
    way; the destructor is run in any case. -/
def Body.run : Body → List Call → List Call × Bool
  | .done, ev => (ev, false)
  | .throw, ev => (ev, true)
  | .scope m exclusive inner rest, ev =>
    let r := inner.run ((if exclusive then .lock m else .readerLock m) :: ev)
    let ev' := .unlock m :: r.1
    if r.2 then (ev', true) else rest.run ev'

/-- `UniqueLock`: whether it has its pointer, and `m_owns_lock` (`/repo/sources/lock_guard.h:144-145`). -/
structure Unique where
  pointer : Bool
  owns : Bool
  deriving DecidableEq

/-- The three constructors (`/repo/sources/lock_guard.h:148-159`). -/
inductive Ctor where
  | now
  | deferred
  | trying

/-- The member functions (`/repo/sources/lock_guard.h:169-204`). -/
inductive Member where
  | lock
  | tryLock
  | unlock
  | release
  deriving DecidableEq

/-- A call through the pointer (`/repo/sources/lock_guard.h:165,173,182,191`). -/
def Unique.through (u : Unique) (c : Call) : Call := if u.pointer then c else .null

/-- The constructors (`/repo/sources/lock_guard.h:148-159`); `ask` is the answer of the mutex after the calls so far. -/
def construct (ask : List Call → Bool) (m : Nat) (ev : List Call) : Ctor → Unique × List Call
  | .now => (⟨true, true⟩, .lock m :: ev)
  | .deferred => (⟨true, false⟩, ev)
  | .trying => (⟨true, ask ev⟩, .tryLock m (ask ev) :: ev)

/-- The member functions (`/repo/sources/lock_guard.h:169-204`). -/
def Unique.call (ask : List Call → Bool) (m : Nat) (u : Unique) (ev : List Call) : Member → Unique × List Call
  | .lock => if u.owns then (u, ev) else ({ u with owns := true }, u.through (.lock m) :: ev)
  | .tryLock => if u.owns then (u, ev) else ({ u with owns := ask ev }, u.through (.tryLock m (ask ev)) :: ev)
  | .unlock => if u.owns then ({ u with owns := false }, u.through (.unlock m) :: ev) else (u, ev)
  | .release => (⟨false, false⟩, ev)

/-- Several member functions (`/repo/sources/lock_guard.h:169-204`). -/
def Unique.calls (ask : List Call → Bool) (m : Nat) : Unique → List Call → List Member → Unique × List Call
  | u, ev, [] => (u, ev)
  | u, ev, f :: rest => Unique.calls ask m (u.call ask m ev f).1 (u.call ask m ev f).2 rest

/-- The destructor (`/repo/sources/lock_guard.h:161-167`). -/
def Unique.destroy (u : Unique) (m : Nat) (ev : List Call) : List Call := if u.owns then u.through (.unlock m) :: ev else ev

/-- The life of a `UniqueLock` (`/repo/sources/lock_guard.h:138-212`): the calls when it is gone. -/
def life (ask : List Call → Bool) (m : Nat) (c : Ctor) (fs : List Member) (ev : List Call) : List Call :=
  let u := construct ask m ev c
  let r := Unique.calls ask m u.1 u.2 fs
  r.1.destroy m r.2

end Securefs.Guards

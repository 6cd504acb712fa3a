import Verif.Model.Basic
/-!
# Per-thread objects

Models `/repo/sources/thread_local.h` and `/repo/sources/thread_local.cpp`: owners take one of 256 slots, every thread has an array
of 256 holders, and a generation number tells whether what a holder contains belongs to the present owner of the slot.

Simplified: the generation is an unbounded integer (`int64_t` in the code); a factory does not call `get` of its own owner; a call on an
owner that has been destroyed is undefined behaviour, here the outcome `outOfBounds`.
-/

namespace Securefs

/-- `ThreadLocalBase::kMaxIndex` (`/repo/sources/thread_local.h:15`). -/
def tlMaxIndex : Nat := 256

/-- An object that a factory has made.  `serial` stands for its address; every object made has its own.
    (`/repo/sources/thread_local.h:58-78`). -/
structure TlObj (V : Type) where
  serial : Nat
  val : V
  deriving DecidableEq

/-- `ThreadLocalBase::Holder` (`/repo/sources/thread_local.h:19-35`).  The destructor of the object is not represented: it is always
    that of the type of the object. -/
structure TlHolder (V : Type) where
  generation : Int
  data : Option (TlObj V)
  deriving DecidableEq

/-- The members of `ThreadLocalBase` (`/repo/sources/thread_local.h:40-41`). -/
structure TlOwner where
  index : Nat
  generation : Int
  deriving DecidableEq

/-- The registry (`/repo/sources/thread_local.cpp:12-28`), the arrays of all threads (`:32-36`), the owners in the order of their
    creation (`none` when destroyed), how many objects have been made, and the objects that have been destroyed, latest first. -/
structure TlSys (V : Type) where
  taken : List Bool
  generation : Int
  locals : Nat → Nat → TlHolder V
  owners : List (Option TlOwner)
  made : Nat
  destroyed : List Nat

/-- A request: `create` and `destroy` are the constructor and the destructor of an owner, `get` is a call on a thread, where `init` is what
    the factory returns if it is called (`none`: it throws), `exit` is the end of a thread.
    (`/repo/sources/thread_local.h:37-80`). -/
inductive TlOp (V : Type) where
  | create
  | destroy (owner : Nat)
  | get (thread owner : Nat) (init : Option V)
  | exit (thread : Nat)

/-- What a request returns.
    (`/repo/sources/thread_local.h:37-80`). -/
inductive TlOut (V : Type) where
  | owner (n : Nat)
  | obj (o : TlObj V)
  | done
  | error (e : Err)
  deriving DecidableEq

namespace TlSys

variable {V : Type}

/-- The state at the start of the program (`/repo/sources/thread_local.h:22-24`, `/repo/sources/thread_local.cpp:19-27`): static storage is
    zero before the constructor runs, so the generation is zero. -/
def init : TlSys V :=
  { taken := List.replicate tlMaxIndex false, generation := 0, locals := fun _ _ => ⟨-1, none⟩, owners := [], made := 0, destroyed := [] }

/-- `ThreadLocalBase::ThreadLocalBase` (`/repo/sources/thread_local.cpp:38-53`): the first slot that is not taken. -/
def create (s : TlSys V) : TlOut V × TlSys V :=
  match s.taken.findIdx? (· == false) with
  | none => (.error .runtime, s)
  | some i =>
    (.owner s.owners.length,
     { s with taken := s.taken.set i true, generation := s.generation + 1, owners := s.owners ++ [some ⟨i, s.generation + 1⟩] })

/-- `ThreadLocalBase::~ThreadLocalBase` (`/repo/sources/thread_local.cpp:55-60`). -/
def destroy (s : TlSys V) (owner : Nat) : TlOut V × TlSys V :=
  match s.owners[owner]? with
  | some (some w) => (.done, { s with taken := s.taken.set w.index false, owners := s.owners.set owner none })
  | _ => (.error .outOfBounds, s)

/-- The array of a thread with one holder replaced.
    (bookkeeping for `/repo/sources/thread_local.h:58-78`). -/
def setHolder (s : TlSys V) (thread index : Nat) (h : TlHolder V) : TlSys V :=
  { s with locals := fun t i => if t = thread ∧ i = index then h else s.locals t i }

/-- The destructor of what a holder contains (`/repo/sources/thread_local.h:27-33,67-68`). -/
def drop (s : TlSys V) (h : TlHolder V) : TlSys V :=
  match h.data with
  | none => s
  | some o => { s with destroyed := o.serial :: s.destroyed }

/-- `ThreadLocal::get` (`/repo/sources/thread_local.h:58-78`). -/
def get (s : TlSys V) (thread owner : Nat) (init : Option V) : TlOut V × TlSys V :=
  match s.owners[owner]? with
  | some (some w) =>
    let holder := s.locals thread w.index
    match holder.data, decide (holder.generation = w.generation) with
    | some o, true => (.obj o, s)
    | _, _ =>
      let s := s.drop holder
      let s := s.setHolder thread w.index ⟨w.generation, none⟩
      match init with
      | none => (.error .runtime, s)
      | some v =>
        let o : TlObj V := ⟨s.made, v⟩
        (.obj o, { s.setHolder thread w.index ⟨w.generation, some o⟩ with made := s.made + 1 })
  | _ => (.error .outOfBounds, s)

/-- The end of a thread (`/repo/sources/thread_local.cpp:34`): the destructors of its 256 holders; should another thread get the same
    number later, it starts with a new array. -/
def exit (s : TlSys V) (thread : Nat) : TlOut V × TlSys V :=
  (.done, (List.range tlMaxIndex).foldl (fun s i => (s.drop (s.locals thread i)).setHolder thread i ⟨-1, none⟩) s)

/-- One request.
    (`/repo/sources/thread_local.h:37-80`). -/
def step (s : TlSys V) : TlOp V → TlOut V × TlSys V
  | .create => s.create
  | .destroy o => s.destroy o
  | .get t o init => s.get t o init
  | .exit t => s.exit t

/-- A history: what was returned, and the state at the end.
    (`/repo/sources/thread_local.h:37-80`). -/
def run : TlSys V → List (TlOp V) → List (TlOut V) × TlSys V
  | s, [] => ([], s)
  | s, op :: rest =>
    let r := s.step op
    let r' := run r.2 rest
    (r.1 :: r'.1, r'.2)

end TlSys

end Securefs

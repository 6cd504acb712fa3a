import Verif.Model.Basic
/-!
# Keys and ids as values

Models `PODArray`, `id_hash` and `checked_cast` (`/repo/sources/myutils.h:205-249,295-319,328-336`), and tables whose keys are ids
(`/repo/sources/file_table_v2.h:69`, `/repo/sources/myutils.cpp:61-63`).
-/

namespace Securefs.Pod

/-- `memcpy` and `memmove` of `n` bytes to the beginning of `dst` (`/repo/sources/myutils.h:225,227,234`). -/
def copyBytes (n : Nat) (src dst : Bytes) : Bytes := src.take n ++ dst.drop n

/-- The constructor without arguments (`/repo/sources/myutils.h:214`), for elements of `w` bytes. -/
def zero (w size : Nat) : Bytes := List.replicate (w * size) 0

/-- The constructor from a pointer and a size (`/repo/sources/myutils.h:219-226`); `dst` is what the memory held. -/
def ofPointer (size : Nat) (ptr : Bytes) (n : Nat) (dst : Bytes) : Res Bytes :=
  if n ≠ size then .error .runtime else .ok (copyBytes n ptr dst)

/-- The copy constructor and the assignment (`/repo/sources/myutils.h:227-236`): `size()` is the number of elements, not of bytes. -/
def copy (size : Nat) (src dst : Bytes) : Bytes := copyBytes size src dst

/-- `operator==` (`/repo/sources/myutils.h:240-243`). -/
def same (size : Nat) (a b : Bytes) : Bool := a.take size == b.take size

/-- The destructor (`/repo/sources/myutils.h:245`), which counts elements. -/
def wipe (a : Bytes) : Bytes := List.replicate a.length 0

/-- `ID_LENGTH` (`/repo/sources/myutils.h:163,249`). -/
def idLength : Nat := 32

/-- The value of eight bytes, the least significant first (`/repo/sources/myutils.h:333`, on machines that store so). -/
def value : Bytes → Nat
  | [] => 0
  | b :: rest => b.toNat + 256 * value rest

/-- `id_hash` (`/repo/sources/myutils.h:328-336`): the last eight bytes. -/
def idHash (id : Bytes) : Nat := value ((id.drop (idLength - 8)).take 8)

/-- A table of the library with ids for keys (`/repo/sources/file_table_v2.h:69`, `/repo/sources/myutils.cpp:63`).  Simplified to chains: a key is sought only
    in the chain that its hash selects, and there with `operator==`. -/
abbrev Chains (α : Type) := Nat → List (Bytes × α)

/-- Looking a key up (`/repo/sources/file_table_v2.h:69`). -/
def find {α : Type} (n : Nat) (t : Chains α) (id : Bytes) : Option α :=
  ((t (idHash id % n)).find? fun e => same idLength e.1 id).map Prod.snd

/-- Removing a key (`/repo/sources/file_table_v2.h:69`). -/
def erase {α : Type} (n : Nat) (t : Chains α) (id : Bytes) : Chains α := fun c =>
  if c = idHash id % n then (t c).filter fun e => !same idLength e.1 id else t c

/-- Inserting a key that may be there already (`/repo/sources/file_table_v2.h:69`, `/repo/sources/myutils.cpp:18`): the first value stays. -/
def put {α : Type} (n : Nat) (t : Chains α) (id : Bytes) (v : α) : Chains α := fun c =>
  if c = idHash id % n ∧ (find n t id).isNone then (id, v) :: t c else t c

/-- What is done with a table (`/repo/sources/file_table_v2.h:69`). -/
inductive Use (α : Type) where
  | insert (id : Bytes) (v : α)
  | erase (id : Bytes)

/-- All that is done with a table (`/repo/sources/file_table_v2.h:69`). -/
def runUses {α : Type} (n : Nat) (t : Chains α) : List (Use α) → Chains α
  | [] => t
  | .insert id v :: rest => runUses n (put n t id v) rest
  | .erase id :: rest => runUses n (erase n t id) rest

/-- `checked_cast<size_t>(int)` (`/repo/sources/myutils.h:298-306`); the cast is modulo `2^64`. -/
def castToSize (v : Int) : Res Nat := if v < 0 then .error .runtime else .ok (v % 2 ^ 64).toNat

/-- `checked_cast<int>(size_t)` (`/repo/sources/myutils.h:311-319`); the cast wraps. -/
def castToInt (v : Nat) : Res Int :=
  if v > 2147483647 then .error .runtime else .ok (if v % 2 ^ 32 < 2 ^ 31 then ((v % 2 ^ 32 : Nat) : Int) else ((v % 2 ^ 32 : Nat) : Int) - 2 ^ 32)

end Securefs.Pod

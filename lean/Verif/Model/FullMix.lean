import Verif.Model.FullVolume
/-!
# Model: a storage that hands out older versions of the backing files

`/repo/sources/file_table_v2.cpp` finds the two backing files of an object by its identifier alone, and nothing that is kept outside of
them says which version of them is the last one.  Here the storage keeps the pairs as they were at every unmounting, and when the volume is
mounted it presents for each identifier one of these versions, or none, as it likes.  The two files of a pair are always of the same
version.
-/

namespace Securefs

/-- For each identifier the version that is picked, if there is one.  Harness of the model: what the storage hands out where
    `FileTableIO::open` (`/repo/sources/file_table_v2.cpp:243-337`) looks for the files of an identifier. -/
def pickOld {α : Type} (old : List (List (Bytes × α))) (pick : Bytes → Option Nat) : List (Bytes × α) :=
  (old.flatten.map Prod.fst).filterMap fun id => ((pick id).bind fun k => old[k]?.bind fun l => l.lookup id).map fun a => (id, a)

/-- What is in the storage after the table has been destroyed (`/repo/sources/file_table_v2.cpp:198-216`). -/
def volUnmount (V : VolEnv) (v : FullVol) : Res (List (Bytes × Bytes × Bytes)) :=
  (volFlushAll V v.now v.live).map (· ++ v.store)

/-- From mounting to unmounting: what the storage presents, the clock, and what happens.
    Harness of the model (`/repo/sources/commands_main.cpp:760-1010`). -/
structure VolSession where
  pick : Bytes → Option Nat
  now : TimeSpec
  events : List VolEvent

/-- One such session: the answers, the backing files afterwards, and how many objects have been made
    (`/repo/sources/file_table_v2.cpp:20-40,198-216`). -/
def volSession (V : VolEnv) (old : List (List (Bytes × Bytes × Bytes))) (opened : Nat) (s : VolSession) :
    Res (List (Res VolAnswer) × List (Bytes × Bytes × Bytes) × Nat) :=
  match volMount V (pickOld old s.pick) opened s.now with
  | .error e => .error e
  | .ok v =>
    match volUnmount V (volRun V v s.events).2 with
    | .error e => .error e
    | .ok st => .ok ((volRun V v s.events).1, st, (volRun V v s.events).2.opened)

/-- One session after the other.  Harness of the model (`/repo/sources/file_table_v2.cpp:20-40,198-216`). -/
def volLife (V : VolEnv) : List (List (Bytes × Bytes × Bytes)) → Nat → List VolSession →
    Res (List (List (Res VolAnswer)) × List (List (Bytes × Bytes × Bytes)))
  | old, _, [] => .ok ([], old)
  | old, opened, s :: ss =>
    match volSession V old opened s with
    | .error e => .error e
    | .ok (rs, st, opened') => (volLife V (old ++ [st]) opened' ss).map fun r => (rs :: r.1, r.2)

end Securefs

import Verif.Model.LongTab
/-!
# Directories with tables of long names, one call at a time

A volume without threads: the directories, and for each directory that has a table what name it records for which entry.  A call either fails
and changes nothing, or does what the system call does and records the names at the same moment.
-/

namespace Securefs.Spec.LongTab

open Securefs.LongTab (Dirs Kind Call Outcome St Th Pc Move File Rows)

/-- A volume. -/
structure Vol where
  dirs : Dirs
  names : Nat → Option (Bytes → Option Bytes)

/-- What the table of `d` records, nothing if there is none. -/
def Vol.known (v : Vol) (d : Nat) : Bytes → Option Bytes := fun n =>
  match v.names d with
  | some m => m n
  | none => none

/-- Records `enc` for `n` in `d` unless something is recorded there. -/
def Vol.record (v : Vol) (d : Nat) (n enc : Bytes) : Vol :=
  { v with names := fun k => if k = d then some (fun m => if m = n ∧ v.known d n = none then some enc else v.known d m) else v.names k }

/-- Forgets what is recorded for `n` in `d`. -/
def Vol.forget (v : Vol) (d : Nat) (n : Bytes) : Vol :=
  { v with names := fun k => if k = d then some (fun m => if m = n then none else v.known d m) else v.names k }

/-- There is a table in the directory. -/
def Vol.hasTable (v : Vol) (d : Nat) : Bool := (v.names d).isSome

/-- The names a successful call records and forgets, where they are long. -/
def Vol.renamed (v : Vol) : Call → Vol
  | .op d n (.add _) => if n.full = [] then v else v.record d n.backing n.full
  | .op d n .mkdir => if n.full = [] then v else v.record d n.backing n.full
  | .op d n .unlink => if n.full = [] then v else v.forget d n.backing
  | .op d n .rmdir => if n.full = [] then v else v.forget d n.backing
  | .rename d n d' n' =>
    let v1 := if n.full = [] then v else v.forget d n.backing
    if n'.full = [] then v1 else v1.record d' n'.backing n'.full
  | .list _ => v

/-- The system call a call makes. -/
def Vol.kernel (v : Vol) : Call → Option Nat × Dirs
  | .op d n k => v.dirs.call v.hasTable d n.backing k
  | .rename d n d' n' => v.dirs.rename v.hasTable d n.backing d' n'.backing
  | .list _ => (none, v.dirs)

/-- What happens to a volume: a table is made, a table is removed, and the thread `i` makes a call, which succeeds or
    fails with an errno, from outside (`fault`) or not. -/
inductive Event where
  | made (d : Nat)
  | removed (d : Nat)
  | call (i : Nat) (c : Call) (fault : Option Nat) (res : Option Nat)

/-- The volume after an event; `none` if the event cannot happen. -/
def Vol.after (v : Vol) : Event → Option Vol
  | .made d => some { v with names := fun k => if k = d then some (v.known d) else v.names k }
  | .removed d => some { v with names := fun k => if k = d then none else v.names k }
  | .call _ _ (some e) res => if res = some e then some v else none
  | .call _ c none res =>
    if (v.kernel c).1 ≠ res then none
    else
      match res with
      | some _ => some v
      | none => some { v.renamed c with dirs := (v.kernel c).2 }

/-- The volume after several events. -/
def Vol.history : Vol → List Event → Option Vol
  | v, [] => some v
  | v, e :: es =>
    match v.after e with
    | none => none
    | some v' => Vol.history v' es

/-- The calls of the thread `i` and their results. -/
def results (i : Nat) : List Event → List (Call × Option Nat)
  | [] => []
  | .call j c _ res :: es => if j = i then (c, res) :: results i es else results i es
  | _ :: es => results i es

/-- The event is the doing of the thread `i`. -/
def Event.by (i : Nat) : Event → Prop
  | .call j _ _ _ => j = i
  | _ => True

/-- The calls of a program that reached their system call, and their results, given what the calls returned. -/
def answers : List Call → List Outcome → List (Call × Option Nat)
  | c :: cs, .done r :: os => (c, r) :: answers cs os
  | _ :: cs, _ :: os => answers cs os
  | _, _ => []

/-- Every entry with a long name has that name recorded: `enc n` for the entry `n`. -/
def Vol.Covered (isLong : Bytes → Bool) (enc : Bytes → Bytes) (v : Vol) : Prop :=
  ∀ d n node, (v.dirs.entries d).lookup n = some node → isLong n = true → v.known d n = some (enc n)

/-- What is recorded is right. -/
def Vol.Right (enc : Bytes → Bytes) (v : Vol) : Prop := ∀ d n x, v.known d n = some x → x = enc n

/-! ## What a state with threads amounts to -/

/-- The rows of a table as a transaction will leave them whose system call has succeeded. -/
def settled (t : Th) (f : File) : Option Rows :=
  match t.pc with
  | .finishing _ held none => held.lookup f
  | .committing _ held => held.lookup f
  | _ => none

/-- The result of the system call of a call that has not returned yet. -/
def inflight (t : Th) : List (Call × Option Nat) :=
  match t.pc, t.calls with
  | .finishing _ _ err, c :: _ => [(c, err)]
  | .committing _ _, c :: _ => [(c, none)]
  | _, _ => []

/-- The state amounts to the volume: the directories are the same, and a table records what the transaction that has made its system call will
    leave in it, or what is committed if there is none. -/
structure View (s : St) (v : Vol) : Prop where
  dirs : v.dirs = s.dirs
  absent : ∀ d, s.table d = none → v.names d = none
  present : ∀ d g, s.table d = some g → ∃ m, v.names d = some m ∧
    (∀ t ∈ s.threads, ∀ r, settled t (d, g) = some r → ∀ n, m n = r.lookup n) ∧
    ((∀ t ∈ s.threads, settled t (d, g) = none) → ∀ n, m n = (s.rows (d, g)).lookup n)

/-- The volume a state amounts to in which no call is under way. -/
def volume (s : St) : Vol := ⟨s.dirs, fun d => (s.table d).map fun g => fun n => (s.rows (d, g)).lookup n⟩

/-- The step loses nothing: no `commit` times out, and `vrmdir` does not unlink a table that a call is connected to. -/
def Calm (s : St) (i : Nat) (m : Move) : Prop :=
  ∀ t, s.threads[i]? = some t →
    (∀ fs held, t.pc = .committing fs held → m = .go) ∧
    (∀ fs held c cs id g, t.pc = .running fs [] held → t.calls = c :: cs → c.doomed s.dirs = some id → s.table id = some g →
      ∀ u ∈ s.threads, (id, g) ∉ u.pc.files)

/-- The step would forget no name if it was the only one: `vrmdir` does not unlink the table of a directory with long names, and no
    long name is renamed to another name of the same file. -/
def Tidy (isLong : Bytes → Bool) (s : St) (i : Nat) : Prop :=
  ∀ t, s.threads[i]? = some t →
    (∀ fs held c cs id, t.pc = .running fs [] held → t.calls = c :: cs → c.doomed s.dirs = some id →
      ∀ n node, (s.dirs.entries id).lookup n = some node → isLong n = false) ∧
    (∀ fs held d n d' n' cs, (t.pc = .running fs [] held ∨ t.pc = .inside fs held) → t.calls = .rename d n d' n' :: cs → isLong n.backing = true →
      (d, n.backing) ≠ (d', n'.backing) → (s.dirs.entries d).lookup n.backing ≠ none →
      (s.dirs.entries d').lookup n'.backing ≠ (s.dirs.entries d).lookup n.backing)

/-- All steps of a run satisfy `P`. -/
def Along (isLong : Bytes → Bool) (P : St → Nat → Move → Prop) : St → List (Nat × Move) → Prop
  | _, [] => True
  | s, (i, m) :: rest => P s i m ∧ ∀ s', s.step isLong i m = some s' → Along isLong P s' rest

/-- Nothing has begun yet: all threads are idle and have the given programs. -/
def Fresh (s : St) (progs : List (List Call)) : Prop :=
  s.threads = progs.map (fun p => ⟨p, .idle, []⟩) ∧ ∀ d g, s.table d = some g → g < s.next

/-- A long name is written as `enc` has it, and only a long name has a full form. -/
def NameOk (isLong : Bytes → Bool) (enc : Bytes → Bytes) (n : LName) : Prop :=
  if isLong n.backing then n.full = enc n.backing ∧ n.full ≠ [] else n.full = []

/-- The names of a call are written as they must. -/
def CallOk (isLong : Bytes → Bool) (enc : Bytes → Bytes) : Call → Prop
  | .op _ n _ => NameOk isLong enc n
  | .rename _ n _ n' => NameOk isLong enc n ∧ NameOk isLong enc n'
  | .list _ => True

/-- The call changes the entry `n` of `d`. -/
def Call.touches (d : Nat) (n : Bytes) : Call → Prop
  | .op k m _ => k = d ∧ m.backing = n
  | .rename k m k' m' => (k = d ∧ m.backing = n) ∨ (k' = d ∧ m'.backing = n)
  | .list _ => False

/-- A move of a long name to a long name in another directory goes up in the order. -/
def Ascending (rank : Nat → Nat) : Call → Prop
  | .rename d n d' n' => n.full ≠ [] → n'.full ≠ [] → d ≠ d' → rank d < rank d'
  | _ => True

/-- Every call has returned. -/
def Finished (s : St) : Prop := ∀ t ∈ s.threads, t.calls = []

end Securefs.Spec.LongTab

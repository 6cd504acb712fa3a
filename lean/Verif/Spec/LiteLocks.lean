import Verif.Model.LiteLocks
/-!
# Specification: an order of the locks of the lite format, and calls that keep to it
-/

namespace Securefs.Spec.Ll
open Securefs Securefs.Ll

/-- The order in which locks are taken: handles of directories, tables, handles of files, backing files, the log. -/
def rank : Mu → Nat
  | .dir _ => 0
  | .listed _ => 1
  | .called _ => 1
  | .file _ => 2
  | .flock _ => 3
  | .log => 4

/-- A thread that holds `held` and will do `acts` keeps to the rules: it waits for a lock only while all that it holds are before it in the order, it uses and
    gives back only what it holds, and in the end it holds nothing. -/
def Obeys (held : Mu → Prop) : List Act → Prop
  | [] => ∀ m, ¬ held m
  | .lock m :: r => (∀ h, held h → rank h < rank m) ∧ Obeys (fun x => x = m ∨ held x) r
  | .use m :: r => held m ∧ Obeys held r
  | .unlock m :: r => held m ∧ Obeys (fun x => held x ∧ x ≠ m) r

/-- All transactions of a call begin. -/
def Begun : LiteCall → Prop
  | .readdir _ met => ∀ t found, Met.long t found ∈ met → t.begun = true
  | .names _ t => t.begun = true
  | .open (some (_, t)) _ _ _ _ => t.begun = true
  | _ => True

/-- All transactions of a history begin. -/
def HistoryBegun (evs : List LockSys.Ev) : Prop := ∀ c, LockSys.Ev.begin c ∈ evs → Begun c

/-- All calls have ended. -/
def AllDone (s : LockSys) : Prop := ∀ a ∈ s.threads, a = []

/-- Thread `t` has to wait: it is not at its end, and can do nothing. -/
def Waits (s : LockSys) (t : Nat) : Prop := (∃ a r, s.threads[t]? = some (a :: r)) ∧ s.step t = none

/-- Nobody can ever do anything again, though calls have not ended. -/
def Deadlocked (s : LockSys) : Prop := ¬ AllDone s ∧ ∀ t, s.step t = none

/-- How often somebody goes on in a run. -/
def moves (s : LockSys) : List Nat → Nat
  | [] => 0
  | t :: ts =>
    match s.step t with
    | none => moves s ts
    | some s' => moves s' ts + 1

/-- What the calls have still to do, all together. -/
def left (s : LockSys) : Nat := (s.threads.map List.length).sum

end Securefs.Spec.Ll

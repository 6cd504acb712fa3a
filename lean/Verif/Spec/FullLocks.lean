import Verif.Model.FullLocks
/-!
# Specification: an order of the mutexes, and calls that keep to it
-/

namespace Securefs.Spec.Lk
open Securefs Securefs.Lk

/-- The order in which mutexes are locked: shards, then files, then the identifiers of parents, then the log. -/
def rank : Mu → Nat
  | .shard _ => 0
  | .file _ => 1
  | .parent _ => 2
  | .log => 3

/-- A file, as opposed to the other kinds. -/
def IsFile : Mu → Prop
  | .file _ => True
  | _ => False

/-- A thread that holds `held` and will do `acts` keeps to the rules: it waits for a mutex only while all that it holds are before it in the order; it waits
    for two files at once only while it holds nothing; it uses and unlocks only what it holds; in the end it holds nothing. -/
def Obeys (held : Mu → Prop) : List Act → Prop
  | [] => ∀ m, ¬ held m
  | .lock m :: r => (∀ h, held h → rank h < rank m) ∧ Obeys (fun x => x = m ∨ held x) r
  | .pair a b :: r => (∀ h, ¬ held h) ∧ IsFile a ∧ IsFile b ∧ a ≠ b ∧ Obeys (fun x => x = a ∨ x = b) r
  | .use m :: r => held m ∧ Obeys held r
  | .unlock m :: r => held m ∧ Obeys (fun x => held x ∧ x ≠ m) r
  | .tryNext a b :: r => (∀ h, held h ↔ h = a) ∧ IsFile a ∧ IsFile b ∧ a ≠ b ∧ Obeys (fun x => x = a ∨ x = b) r
  | .back a b :: r => (∀ h, held h ↔ h = a) ∧ IsFile a ∧ IsFile b ∧ a ≠ b ∧ Obeys (fun x => x = a ∨ x = b) r

/-- There was memory for the table of files. -/
def Mem (o : Opened) : Prop := o ≠ .noMemory

/-- There was memory on the whole way. -/
def TripMem : Trip → Prop
  | .arrived => True
  | .tooDeep _ => True
  | .missing _ => True
  | .dot rest => TripMem rest
  | .up _ o _ rest => Mem o ∧ TripMem rest
  | .child _ o _ rest => Mem o ∧ TripMem rest
  | .link _ o _ target _ rest => Mem o ∧ TripMem target ∧ TripMem rest

/-- The same for `open_all`. -/
def AllMem : AllTrip → Prop
  | .root => True
  | .noBase b => TripMem b
  | .missing b _ => TripMem b
  | .found b _ o _ => TripMem b ∧ Mem o
  | .follow b _ o _ t _ => TripMem b ∧ Mem o ∧ TripMem t

/-- The same for `create`. -/
def CreatingMem : Creating → Prop
  | .refused o => Mem o
  | _ => True

/-- The same for a whole call. -/
def CallMem : FullCall → Prop
  | .onPath t _ => AllMem t
  | .opendir t _ _ => AllMem t
  | .open t _ _ _ => AllMem t
  | .unlink b id _ _ => TripMem b ∧ ∀ p, id = some p → Mem p.2
  | .create _ b c _ => TripMem b ∧ CreatingMem c
  | .mkdir _ b c _ _ => TripMem b ∧ CreatingMem c
  | .symlink _ b c _ _ => TripMem b ∧ CreatingMem c
  | .link t b _ _ => AllMem t ∧ TripMem b
  | .rename f t rep _ _ => TripMem f ∧ TripMem t ∧ ∀ p, rep = some p → Mem p.2.1
  | .getpath met _ _ => ∀ l ∈ met, Mem l.o
  | .statfs => True
  | .onHandle _ => True
  | .readdir _ _ => True
  | .release _ _ _ => True
  | .destroy _ => True

/-- There was memory in every call of a history. -/
def HistoryMem (evs : List LockSys.Ev) : Prop := ∀ c, LockSys.Ev.begin c ∈ evs → CallMem c

/-- All calls have ended. -/
def AllDone (s : LockSys) : Prop := ∀ a ∈ s.threads, a = []

/-- Thread `t` has to wait for a mutex: it is not at its end, and can do nothing. -/
def Waits (rotate : Bool) (s : LockSys) (t : Nat) : Prop := (∃ a r, s.threads[t]? = some (a :: r)) ∧ s.step rotate t = none

/-- Nobody can ever do anything again, though calls have not ended. -/
def Deadlocked (rotate : Bool) (s : LockSys) : Prop := ¬ AllDone s ∧ ∀ t, s.step rotate t = none

end Securefs.Spec.Lk

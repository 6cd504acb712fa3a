import Verif.Model.Descriptors
/-!
# What descriptors ought to be for

A program need not know descriptors at all: an object is open onto the file that it was opened for, or it is shut.
-/

namespace Securefs.Spec

open Securefs.Descr (Kind Op Outcome Table)

/-- What an object is for: a file, nothing any more, or the current directory. -/
inductive Onto where
  | file (d : Nat)
  | shut
  | cwd
  deriving DecidableEq

/-- The objects of a program without descriptors. -/
abbrev Objects := Nat → Option (Kind × Onto)

/-- An object is made, or an exception is thrown. -/
def made (w : Objects) (k : Nat) (o : Kind × Onto) : Outcome → Option Objects
  | .done => some (fun n => if n = k then some o else w n)
  | .thrown => some w
  | _ => none

/-- What may come of one thing that the program does, and the objects afterwards. -/
def mayBe (w : Objects) : Op → Outcome → Option Objects
  | .openStream k file, r => if w k = none then made w k (.stream, .file file) r else if r = .absent then some w else none
  | .openTraverser k file, r => if w k = none then made w k (.traverser, .file file) r else if r = .absent then some w else none
  | .openService k file real, r =>
    if w k = none then (if real = false ∧ r = .done then none else made w k (.service, .file file) r) else if r = .absent then some w else none
  | .defaultService k, r =>
    if w k = none then (if r = .done then made w k (.service, .cwd) r else none) else if r = .absent then some w else none
  | .close k, r =>
    match w k with
    | some (.stream, _) => if r = .done then some (fun n => if n = k then some (.stream, .shut) else w n) else none
    | _ => if r = .absent then some w else none
  | .destroy k, r =>
    match w k with
    | some _ => if r = .done then some (fun n => if n = k then none else w n) else none
    | none => if r = .absent then some w else none
  | .use k, r =>
    match w k with
    | some (_, .file d) => if r = .file d then some w else none
    | some (_, .shut) => if r = .badf then some w else none
    | some (_, .cwd) => if r = .cwd then some w else none
    | none => if r = .absent then some w else none

/-- What may come of all that the program does, and the objects afterwards. -/
def mayAll : Objects → List (Op × Outcome) → Option Objects
  | w, [] => some w
  | w, (op, r) :: rest => (mayBe w op r).bind fun w' => mayAll w' rest

/-- The promise of `open`: a descriptor that it gives is not in use. -/
def FreshFd (alloc : Nat → Table → Int) : Prop := ∀ n t, 0 ≤ alloc n t → t (alloc n t).toNat = none

/-- The table `t` has exactly one descriptor for each object that is open onto a file, and besides them exactly what was there before. -/
def Exactly (before t : Table) (w : Objects) : Prop :=
  ∃ place : Nat → Nat,
    (∀ k kind d, w k = some (kind, .file d) → before (place k) = none ∧ t (place k) = some d) ∧
    (∀ k k' kind kind' d d', w k = some (kind, .file d) → w k' = some (kind', .file d') → place k = place k' → k = k') ∧
    (∀ fd, before fd = none → t fd ≠ none → ∃ k kind d, w k = some (kind, .file d) ∧ place k = fd) ∧
    (∀ fd, before fd ≠ none → t fd = before fd)

end Securefs.Spec

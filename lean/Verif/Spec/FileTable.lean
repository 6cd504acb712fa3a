import Verif.Model.FileTable
/-!
# What a table of open files is supposed to do

The specification knows neither shards nor reference counters nor caches: there is a set of files, each with one current
value, and a list of handles.
-/

namespace Securefs.Spec

variable {α : Type}

/-- The files that exist with their current values, the file each handle number stands for, and the handles the threads
    have. -/
structure Files (α : Type) where
  val : Bytes → Option (FileVal α)
  file : Nat → Option Bytes
  handles : List (Nat × Nat)

/-- A map with one entry changed. -/
def update {β : Type} (f : Bytes → β) (id : Bytes) (v : β) : Bytes → β := fun x => if x = id then v else f x

/-- What a step may do, `success` telling whether an operation that can throw returned normally. -/
def Allowed (fresh : α) (S S' : Files α) (success : Bool) : TabEvent α → Prop
  | .openAs t id ioFails =>
    S'.val = S.val ∧
      if success then S.val id ≠ none ∧ ∃ a, S'.file a = some id ∧ S'.handles = (t, a) :: S.handles
      else (S.val id = none ∨ ioFails = true) ∧ S'.handles = S.handles
  | .createAs t id constructFails =>
    if success then
      S.val id = none ∧ S'.val = update S.val id (some { nlink := 0xffffffff, data := fresh }) ∧
        ∃ a, S'.file a = some id ∧ S'.handles = (t, a) :: S.handles
    else
      S'.handles = S.handles ∧
        ((S'.val = S.val ∧ (S.val id ≠ none ∨ id = kRootId)) ∨
          (constructFails = true ∧ S.val id = none ∧ S'.val = update S.val id (some { nlink := 0xffffffff, data := fresh })))
  | .modify t a v =>
    (t, a) ∈ S.handles ∧ S'.handles = S.handles ∧ ∃ id, S.file a = some id ∧ S'.val = update S.val id (some v)
  | .give t t' a => (t, a) ∈ S.handles ∧ S'.val = S.val ∧ S'.handles = (t', a) :: S.handles.erase (t, a)
  | .drop t a => (t, a) ∈ S.handles ∧ S'.val = S.val ∧ S'.handles = S.handles.erase (t, a)
  | .readId _ => S'.val = S.val ∧ S'.handles = S.handles
  | .closeInternal _ _ =>
    S'.handles = S.handles ∧
      (S'.val = S.val ∨
        ∃ id v, S.val id = some v ∧ v.nlink = 0 ∧ (∀ t a, (t, a) ∈ S.handles → S.file a ≠ some id) ∧
          S'.val = update S.val id none)

/-- A step of the specification: what it may do, and handles keep standing for the same file. -/
def Step (fresh : α) (S S' : Files α) (success : Bool) (e : TabEvent α) : Prop :=
  Allowed fresh S S' success e ∧ ∀ t a, (t, a) ∈ S.handles → S'.file a = S.file a

/-- Identifiers are 32 bytes long (`id_type`). -/
def WellTyped : TabEvent α → Prop
  | .openAs _ id _ | .createAs _ id _ => id.length = 32
  | _ => True

/-- Two handles of the same file are the same number; every handle stands for a file that exists. -/
def OneObject (S : Files α) : Prop :=
  (∀ t a, (t, a) ∈ S.handles → ∃ id v, S.file a = some id ∧ S.val id = some v) ∧
  ∀ a b id, S.file a = some id → S.file b = some id → a = b

end Securefs.Spec

namespace Securefs.FileTab

variable {α : Type}

/-- The value of a file that its users see: that of the object in memory if there is one, that of the backing files
    otherwise. -/
def current (st : FileTab α) (id : Bytes) : Option (FileVal α) :=
  match (st.objs.filterMap fun x => x).find? (fun o => o.id = id) with
  | some o => some o.val
  | none => st.disk id

/-- What the specification sees of a state. -/
def files (st : FileTab α) : Spec.Files α :=
  { val := st.current, file := fun a => (st.obj a).map FileObj.id, handles := st.holders }

end Securefs.FileTab

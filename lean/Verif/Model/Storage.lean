import Verif.Model.LiteVolume
import Verif.Spec.Storage
/-!
# The lite volume on a storage that is not honest

The storage changes the backing tree of `Verif/Model/LiteVolume.lean` while the volume is not mounted.  What the code contributes is what it does
not do: it keeps no record of the tree outside of the tree (`/repo/sources/lite_format.h:293-430`).
-/

namespace Securefs

/-- The tables of long names after a change: a name that is copied to another directory is copied with its row, which is stored in the clear
    (`/repo/sources/lite_long_name_lookup_table.cpp:13-38`). -/
def LSys.deedTables (past : List LSys) (s : LSys) : Spec.Deed → Nat → Option (List (Bytes × Bytes))
  | .name d d' t k _ =>
    match past[t]? with
    | none => s.tables
    | some p =>
      match Spec.entryAt p.back d' k with
      | none => s.tables
      | some (b, _) =>
        match (p.rows d').lookup b with
        | none => s.tables
        | some e => if s.back.isDir d then upd s.tables d (some ((b, e) :: s.rows d)) else s.tables
  | _ => s.tables

/-- A change that the storage makes to the backing files (`/repo/sources/lite_format.h:293-430`). -/
def LSys.deed (past : List LSys) (s : LSys) (x : Spec.Deed) : LSys :=
  { s with back := x.apply (past.map LSys.back) s.back, tables := s.deedTables past x }

namespace LVol
variable (V : LVol)

/-- Unmounting closes all handles, which have nothing left to write (`/repo/sources/lite_format.h:41-84`); then the storage makes its changes. -/
def away (past : List LSys) (s : LSys) (deeds : List Spec.Deed) : LSys := deeds.foldl (LSys.deed past) { s with handles := [] }

/-- The answers to the calls; `past` are the states of the storage so far, with the present one first (`/repo/sources/lite_format.cpp:762-1070`). -/
def watch (past : List LSys) (s : LSys) : List Spec.Happening → List (Res Spec.Val)
  | [] => []
  | .call fault c :: rest => (V.step s fault c).1 :: watch ((V.step s fault c).2 :: past) (V.step s fault c).2 rest
  | .away deeds :: rest => watch (away past s deeds :: past) (away past s deeds) rest

end LVol
end Securefs

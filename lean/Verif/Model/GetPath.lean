import Verif.Model.FullFs
/-!
# Asking for the stored spelling of a path

Models `FuseHighLevelOps::vgetpath` (`/repo/sources/full_format.cpp:458-508`), which the Windows driver calls on a file system that
does not distinguish upper and lower case.
-/

namespace Securefs

/-- A `std::string_view` into the node of a directory, as `get_entry_impl` returns it (`/repo/sources/btree_dir.cpp:373-394`).  The
    model keeps the directory and the entries it had then: as long as these entries are the same, the view is taken to be good.
    (Simplified: if the directory was changed and changed back, the view is dangling as well, also if its nodes were dropped by a
    rebuild.  Objects that are evicted from the cache and destroyed are in `Verif/Model/GetPathTable.lean`.) -/
structure NameView where
  dir : Bytes
  entries : List DirEntry
  name : Bytes
  deriving DecidableEq

/-- `get_entry` under the lock of the directory, with the view it returns (`/repo/sources/full_format.cpp:483-491`). -/
def secGetView (cfg : FsCfg) (h : FH) (name : Bytes) : Sec (Option (DirEntry × NameView)) := Sec.dir h fun now n =>
  match n.getEntry cfg now name with
  | (.error e, n') => (.error e, n')
  | (.ok none, n') => (.ok none, n')
  | (.ok (some e), n') => (.ok (some (e, ⟨h.id, n.entries, e.name⟩)), n')

/-- Reading through a view (`/repo/sources/full_format.cpp:502-506`): undefined if the directory has changed. -/
def readView (fs : FullFs) (v : NameView) : Res Bytes :=
  match fs.get v.dir with
  | none => .error .outOfBounds
  | some n => if n.entries = v.entries then .ok v.name else .error .outOfBounds

/-- Reading the views one after the other (`/repo/sources/full_format.cpp:502-506`), without any lock.  The model takes one section
    for all of them. -/
def secReadViews (vs : List NameView) : Sec (List Bytes) := fun fs => (vs.mapM (readView fs), fs)

/-- The loop over the components (`/repo/sources/full_format.cpp:478-499`). -/
def pathViews (cfg : FsCfg) : Bytes → FH → List Bytes → Prog (List NameView)
  | _, _, [] => .ret []
  | parentId, holder, s :: rest =>
    (Prog.one (secGetView cfg holder s)).bind fun r =>
    match r with
    | none => .throw (.vfs 2)
    | some (e, v) =>
      (Prog.one (secOpenAs e.id e.type)).bind fun child =>
      (Prog.one (secSetParent child parentId)).bind fun _ =>
      (pathViews cfg child.id child rest).bind fun vs => .ret (v :: vs)

/-- The second loop (`/repo/sources/full_format.cpp:500-506`). -/
def joinNames : List Bytes → Bytes
  | [] => []
  | n :: rest => slash :: n ++ joinNames rest

/-- `copy_and_return` (`/repo/sources/full_format.cpp:463-472`): the result, and the contents of the buffer if it is written. -/
def copyAndReturn (size : Nat) (result : Bytes) : Int × Option Bytes :=
  if result.length ≥ size then (-36, none) else (0, some (result ++ zeros (size - result.length)))

/-- `vgetpath` (`/repo/sources/full_format.cpp:460-508`). -/
def vgetpath (cfg : FsCfg) (path : Bytes) (size : Nat) : Prog (Int × Option Bytes) :=
  if path = [] ∨ path = [slash] then .ret (copyAndReturn size path)
  else
    (Prog.one (secOpenAs kRootId typeDirectory)).bind fun root =>
    (pathViews cfg kRootId root (splitPath path)).bind fun vs =>
    (Prog.one (secReadViews vs)).bind fun names => .ret (copyAndReturn size (joinNames names))

end Securefs

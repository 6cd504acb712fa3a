import Verif.Model.FileTable
/-!
# The table of open files when writing back fails

`FileTable::close` (`/repo/sources/file_table_v2.cpp:122-138`) catches what `close_internal` throws, but not what flushing the root throws,
and `FileTable::~FileTable` (lines 198-216) catches nothing.  Both run in destructors: the first in that of a `FilePtrHolder`
(`/repo/sources/file_table_v2.h:39`), which is a `std::unique_ptr`.  An exception that leaves a destructor calls `std::terminate`: the
process ends on the spot, and of its state only the backing files are left.

`Verif/Model/FileTable.lean` has the table with failing calls of `close_internal`; here are the other two.
-/

namespace Securefs

/-- What a step leads to when writing back may fail: as `TabRes`, or the end of the process
    (`/repo/sources/file_table_v2.cpp:122-216`). -/
inductive TabFate (α : Type) where
  | ok (st : FileTab α) (success : Bool)
  | disabled
  | useAfterFree
  /-- `std::terminate`; what is left are the backing files -/
  | terminated (disk : Bytes → Option (FileVal α))

/-- A step of some thread, or the deleter of a holder of the root in which flushing the root throws and leaves `v` in the backing files
    (`/repo/sources/file_table_v2.cpp:51-104,122-196,336-342`). -/
inductive TabFault (α : Type) where
  | plain (e : TabEvent α)
  | rootFails (t : Nat) (v : FileVal α)

namespace FileTab

variable {α : Type}

/-- The second half of `FileTableCloser::operator()` for a holder of the root, when `root_->flush()` throws
    (`/repo/sources/file_table_v2.cpp:124-129,340`).  For other objects the call cannot throw there. -/
def rootFails (st : FileTab α) (t : Nat) (v : FileVal α) : TabFate α :=
  match st.closing.lookup t with
  | some (.readId a) =>
    match st.obj a with
    | none => .useAfterFree
    | some o => if o.id = kRootId then .terminated (st.setDisk kRootId (some v)).disk else .disabled
  | _ => .disabled

/-- One step (`/repo/sources/file_table_v2.cpp:51-196`). -/
def stepFault (fresh : α) (st : FileTab α) : TabFault α → TabFate α
  | .plain e =>
    match step fresh st e with
    | .ok st' b => .ok st' b
    | .disabled => .disabled
    | .useAfterFree => .useAfterFree
  | .rootFails t v => st.rootFails t v

/-- A schedule; nothing happens after the process has ended (`/repo/sources/file_table_v2.cpp:51-196`). -/
def runFault (fresh : α) (st : FileTab α) : List (TabFault α) → TabFate α
  | [] => .ok st true
  | e :: rest =>
    match stepFault fresh st e with
    | .ok st' _ => runFault fresh st' rest
    | .disabled => runFault fresh st rest
    | .useAfterFree => .useAfterFree
    | .terminated d => .terminated d

/-- Flushing a list of objects one after the other (`/repo/sources/file_table_v2.cpp:201,205-214`).  The plan says what happens to the next
    flushes: `none`, and everything beyond the end of the list, is success, `some v` throws and leaves `v` in the backing files. -/
def flushAllFault (st : FileTab α) : List Nat → List (Option (FileVal α)) → TabFate α × List (Option (FileVal α))
  | [], plan => (.ok st true, plan)
  | a :: rest, plan =>
    match st.obj a with
    | none => (.useAfterFree, plan)
    | some o =>
      match plan with
      | some v :: plan => (.terminated (st.setDisk o.id (some v)).disk, plan)
      | none :: plan => flushAllFault (st.setDisk o.id (some o.val)) rest plan
      | [] => flushAllFault (st.setDisk o.id (some o.val)) rest []

/-- The loop over the shards in `~FileTable` (`/repo/sources/file_table_v2.cpp:202-215`). -/
def flushShardsFault (st : FileTab α) : List Nat → List (Option (FileVal α)) → TabFate α
  | [], _ => .ok st true
  | i :: rest, plan =>
    match flushAllFault st ((st.shards i).live.map Prod.snd ++ (st.shards i).cache) plan with
    | (.ok st' _, plan) => flushShardsFault st' rest plan
    | (r, _) => r

/-- `FileTable::~FileTable` (`/repo/sources/file_table_v2.cpp:198-216`). -/
def shutdownFault (st : FileTab α) (plan : List (Option (FileVal α))) : TabFate α :=
  match flushAllFault st [0] plan with
  | (.ok st' _, plan) => flushShardsFault st' (List.range kNumShards) plan
  | (r, _) => r

end FileTab
end Securefs

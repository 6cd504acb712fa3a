import Verif.Model.FileTable
/-!
# `vgetpath` and the table of open files

`FuseHighLevelOps::vgetpath` (`/repo/sources/full_format.cpp:458-508`) keeps a `std::string_view` into a node of each directory on the path
and reads all of them at the end, when the holders of the directories have gone.  `Verif/Model/GetPath.lean` has the names; here is what
happens to the objects that own them.  An object that is destroyed takes its nodes with it (`m_node_cache`,
`/repo/sources/btree_dir.h:119`).
-/

namespace Securefs.FileTab

variable {α : Type}

/-- `holder = ft_->open_as(id, type)` for the names that are left (`/repo/sources/full_format.cpp:478-499`): the new holder is made first, then
    the old one goes, whose deleter (`/repo/sources/file_table_v2.cpp:336-342`) runs at once.  `ids` are the identifiers that the
    directories give for the names.  The result has the addresses of the directories into which there are views, and that of the last file,
    which is still held.  Setting the identifier of the parent (line 494) does not matter here and is left out. -/
def walk (fresh : α) (t : Nat) : FileTab α → Nat → List Bytes → TabRes (FileTab α × List Nat × Nat)
  | st, a, [] => .ok (st, [], a) true
  | st, a, id :: rest =>
    match st.openAs t id false with
    | .useAfterFree => .useAfterFree
    | .disabled => .disabled
    | .ok st1 false => .ok (st1, [], a) false
    | .ok st1 true =>
      match st1.holders with
      | [] => .disabled
      | (_, c) :: _ =>
        match run fresh st1 [.drop t a, .readId t, .closeInternal t none] with
        | .useAfterFree => .useAfterFree
        | .disabled => .disabled
        | .ok st2 _ =>
          match walk fresh t st2 c rest with
          | .useAfterFree => .useAfterFree
          | .disabled => .disabled
          | .ok (st3, views, last) b => .ok (st3, a :: views, last) b

/-- `result.append(p.data(), p.size())` for all views (`/repo/sources/full_format.cpp:502-506`): whether all the objects are still there. -/
def viewsGood (st : FileTab α) (views : List Nat) : Bool := views.all fun a => (st.obj a).isSome

/-- `vgetpath` as the table sees it (`/repo/sources/full_format.cpp:477-506`), from `open_as(kRootId, …)` to the reading of the views.  `false` if a
    name cannot be opened. -/
def getpath (fresh : α) (st : FileTab α) (t : Nat) (ids : List Bytes) : TabRes (FileTab α × Nat) :=
  match st.openAs t kRootId false with
  | .useAfterFree => .useAfterFree
  | .disabled => .disabled
  | .ok st1 _ =>
    match walk fresh t st1 0 ids with
    | .useAfterFree => .useAfterFree
    | .disabled => .disabled
    | .ok (st2, _, last) false => .ok (st2, last) false
    | .ok (st2, views, last) true => if viewsGood st2 views then .ok (st2, last) true else .useAfterFree

end Securefs.FileTab

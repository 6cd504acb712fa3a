import Verif.Model.Migrate
import Verif.Model.Suffix
/-!
# Walking a tree of backing files

Models `OSService::recursive_traverse` (`/repo/sources/common_platform.cpp:28-46`) over the entries that `UnixDirectoryTraverser`
(`/repo/sources/unix.cpp:231-283`) delivers, with the two functions that commands give to it.  The tree does not change meanwhile.
-/

namespace Securefs

mutual
/-- What a name of the host stands for, as `opendir` and `readdir` show it (`/repo/sources/unix.cpp:237-253`).  A directory has the error with
    which it cannot be opened, if there is one. -/
inductive HNode where
  | file
  | link
  | special
  | dir (closed : Option Err) (list : HList)
/-- What `readdir` delivers (`/repo/sources/unix.cpp:244-253`): names, with `told` whether `d_type` is the type of the node or `DT_UNKNOWN`,
    which a host is free to answer.  `broken` is a failing `readdir`; what would follow is kept for the specification. -/
inductive HList where
  | nil
  | broken (e : Err) (rest : HList)
  | cons (name : Bytes) (told : Bool) (node : HNode) (rest : HList)
end

/-- `S_IFDIR` (`/repo/sources/unix.cpp:260-262`). -/
def sIfDir : Nat := 0x4000
/-- `S_IFLNK` (`/repo/sources/unix.cpp:263-265`). -/
def sIfLnk : Nat := 0xa000
/-- `S_IFREG` (`/repo/sources/unix.cpp:266-268`). -/
def sIfReg : Nat := 0x8000

/-- The mode that `next` derives from `d_type` (`/repo/sources/unix.cpp:258-272`). -/
def traverserMode (told : Bool) (node : HNode) : Nat :=
  if told then
    match node with
    | .dir _ _ => sIfDir
    | .link => sIfLnk
    | .file => sIfReg
    | .special => 0
  else 0

/-- A callback of `recursive_traverse` (`/repo/sources/platform.h:215-216`): directory, name and type; `σ` is what it has captured. -/
abbrev WalkCb (σ : Type) := Bytes → Bytes → Nat → σ → σ × Res Unit

mutual
/-- `recursive_traverse` (`/repo/sources/common_platform.cpp:28-46`) of one directory: `opendir`, then the loop.  What is no directory cannot be
    opened (`ENOTDIR`). -/
def walkDir {σ : Type} (cb : WalkCb σ) (dir : Bytes) : HNode → σ → σ × Res Unit
  | .dir none l, s => walkList cb dir l s
  | .dir (some e) _, s => (s, .error e)
  | .file, s => (s, .error (.vfs 20))
  | .link, s => (s, .error (.vfs 20))
  | .special, s => (s, .error (.vfs 20))
/-- The loop (`/repo/sources/common_platform.cpp:35-45`). -/
def walkList {σ : Type} (cb : WalkCb σ) (dir : Bytes) : HList → σ → σ × Res Unit
  | .nil, s => (s, .ok ())
  | .broken e _, s => (s, .error e)
  | .cons name told node rest, s =>
    if name = [46] ∨ name = [46, 46] then walkList cb dir rest s
    else
      match cb dir name (traverserMode told node) s with
      | (s, .error e) => (s, .error e)
      | (s, .ok _) =>
        if traverserMode told node = sIfDir then
          match walkDir cb (dir ++ 47 :: name) node s with
          | (s, .error e) => (s, .error e)
          | (s, .ok _) => walkList cb dir rest s
        else walkList cb dir rest s
end

/-- The callback of `migrate-long-name` (`/repo/sources/commands.cpp:1157-1164`); it has captured the length of the longest name. -/
def migrateCb : WalkCb Nat := fun _ name type longest =>
  if type = sIfLnk then (longest, .error .invalidArg) else (max longest name.length, .ok ())

/-- The threshold that `migrate-long-name` sets for a volume without long names (`/repo/sources/commands.cpp:1154-1177`). -/
def migrateTree (dataDir : Bytes) (tree : HNode) : Res Nat :=
  match walkDir migrateCb dataDir tree 0 with
  | (_, .error e) => .error e
  | (longest, .ok _) => .ok (migrateThreshold longest % 2 ^ 32)

/-- The callback of `change_long_name_suffix` (`/repo/sources/lite_format.cpp:1284-1291`); it has captured the directories with a table. -/
def collectCb : WalkCb (List Bytes) := fun dir name _ dirs => (if name = tableFileName then dirs ++ [dir] else dirs, .ok ())

/-- The directories with a table that `change_long_name_suffix` finds (`/repo/sources/lite_format.cpp:1282-1291`). -/
def collectTree (tree : HNode) : Res (List Bytes) :=
  match walkDir collectCb [46] tree [] with
  | (_, .error e) => .error e
  | (dirs, .ok _) => .ok dirs

/-- The entries of the directories of `Verif.Model.Suffix` as `readdir` delivers them (`/repo/sources/unix.cpp:244-282`); `told` tells whether
    this host fills `d_type`. -/
def sEntryList (told : Bool) (sub : Nat → HNode) : List (Bytes × SNode) → HList
  | [] => .nil
  | (n, .dir e) :: rest => .cons n told (sub e) (sEntryList told sub rest)
  | (n, .file _) :: rest => .cons n told .file (sEntryList told sub rest)
  | (n, .db) :: rest => .cons n told .file (sEntryList told sub rest)

/-- The same for a directory with everything below it (`/repo/sources/unix.cpp:237-282`), down to the depth `fuel`. -/
def sTree (told : Bool) (fs : SFs) : Nat → Nat → HNode
  | 0, _ => .dir none .nil
  | fuel + 1, d => .dir none (sEntryList told (sTree told fs fuel) (fs d).entries)

/-- `change_long_name_suffix` (`/repo/sources/lite_format.cpp:1263-1317`) with the directories as the host lists them.  The loop over the
    directories takes lists of names in the model, which are the pieces of the path after the dot. -/
def changeSuffixOn (O : SufOracle) (told : Bool) (fuel : Nat) (stored new : Bytes) (fs : SFs) : SFs × Res Bytes :=
  if new = [] then (fs, .error .invalidArg)
  else
    let old := if stored = [] then legacySuffix else stored
    if old = new then (fs, .ok stored)
    else
      match collectTree (sTree told fs fuel 0) with
      | .error e => (fs, .error e)
      | .ok dirs =>
        match sMigrateDirs O old new (dirs.map fun d => (splitSlash [] d).tail) fs with
        | (fs, .error e) => (fs, .error e)
        | (fs, .ok _) => (fs, .ok new)

end Securefs

import Verif.Model.Names
/-!
# Changing the suffix of long names

`change_long_name_suffix` (`/repo/sources/lite_format.cpp:1263-1317`) on the underlying directories.
-/

namespace Securefs

/-- What a name of an underlying directory stands for (`/repo/sources/common_platform.cpp:29-46`).  Simplified: symbolic links and other
    nodes are files. -/
inductive SNode where
  /-- a file with its inode number -/
  | file (ino : Nat)
  /-- a directory -/
  | dir (id : Nat)
  /-- the table of long names, `.long_names.db`; its rows are in `SDir.rows` -/
  | db
  deriving DecidableEq, Repr

/-- A directory: its names in the order in which they are listed, and the rows of its table of long names
    (`encrypted_mappings`, `/repo/sources/lite_long_name_lookup_table.cpp:13-18`). -/
structure SDir where
  entries : List (Bytes × SNode)
  rows : List (Bytes × Bytes)
  deriving DecidableEq, Repr

/-- The directories below `data_dir`, which has number 0 (`/repo/sources/lite_format.cpp:1281`). -/
abbrev SFs := Nat → SDir

/-- `kLongNameTableFileName` (`/repo/sources/lite_format.h:31`). -/
def tableFileName : Bytes := [46, 108, 111, 110, 103, 95, 110, 97, 109, 101, 115, 46, 100, 98]

/-- Replaces one directory (the effect of the calls below on the disk, `/repo/sources/lite_format.cpp:1310-1312`). -/
def SFs.set (fs : SFs) (d : Nat) (c : SDir) : SFs := fun e => if e = d then c else fs e

/-- Path resolution by the operating system, as needed at `/repo/sources/lite_format.cpp:1294-1298,1312`. -/
def sWalk (fs : SFs) : Nat → List Bytes → Option Nat
  | d, [] => some d
  | d, n :: p =>
    match (fs d).entries.lookup n with
    | some (.dir e) => sWalk fs e p
    | _ => none

/-- `recursive_traverse` (`/repo/sources/common_platform.cpp:29-46`) with the callback that collects the directories with a table
    (`/repo/sources/lite_format.cpp:1283-1291`).  The recursion is bounded by `fuel`, which has to exceed the depth. -/
def sCollect (fs : SFs) : Nat → Nat → List Bytes → List (List Bytes)
  | 0, _, _ => []
  | fuel + 1, d, path =>
    (fs d).entries.flatMap fun (name, node) =>
      (if name = tableFileName then [path] else []) ++
        match node with
        | .dir e => sCollect fs fuel e (path ++ [name])
        | _ => []

/-- Errors of `rename` (`/repo/sources/unix.cpp:412-418`): what is at the target is replaced if it is of the same kind, and is empty if it is a
    directory; two names of one file are left as they are. -/
def sRename (fs : SFs) (entries : List (Bytes × SNode)) (a b : Bytes) : Res (List (Bytes × SNode)) :=
  let moved := (entries.filter fun e => e.1 ≠ b).map fun e => if e.1 = a then (b, e.2) else e
  match entries.lookup a, entries.lookup b with
  | none, _ => .error (.vfs 2)
  | some _, none => .ok moved
  | some (.dir _), some (.dir y) => if (fs y).entries = [] then .ok moved else .error (.vfs 39)
  | some (.dir _), some _ => .error (.vfs 20)
  | some _, some (.dir _) => .error (.vfs 21)
  | some (.file i), some (.file j) => if i = j then .ok entries else .ok moved
  | some _, some _ => .ok moved

/-- `insert or ignore` (`/repo/sources/lite_long_name_lookup_table.cpp:25-29,81-89`). -/
def rowInsert (rows : List (Bytes × Bytes)) (k v : Bytes) : List (Bytes × Bytes) :=
  if (rows.lookup k).isSome then rows else rows ++ [(k, v)]

/-- `delete` (`/repo/sources/lite_long_name_lookup_table.cpp:35-38,91-97`). -/
def rowDelete (rows : List (Bytes × Bytes)) (k : Bytes) : List (Bytes × Bytes) := rows.filter fun r => r.1 ≠ k

/-- `lookup` (`/repo/sources/lite_long_name_lookup_table.cpp:56-67`). -/
def rowLookup (rows : List (Bytes × Bytes)) (k : Bytes) : Bytes :=
  match rows.lookup k with
  | some v => v
  | none => []

/-- What the operating system and SQLite answer: whether the renaming of a name in a directory fails, and whether the commit of the table of a
    directory succeeds (`/repo/sources/lite_format.cpp:1312`, `/repo/sources/lite_long_name_lookup_table.cpp:99-118`). -/
structure SufOracle where
  renameFails : List Bytes → Bytes → Bool
  commitOk : List Bytes → Bool

/-- The loop over the hashes of one table (`/repo/sources/lite_format.cpp:1301-1313`): the contents of the directory, with the rows as in the
    transaction, and how it ended. -/
def sHashLoop (O : SufOracle) (fs : SFs) (old new : Bytes) (path : List Bytes) : List Bytes → SDir → SDir × Res Unit
  | [], c => (c, .ok ())
  | hash :: rest, c =>
    if endsWith hash old = false then sHashLoop O fs old new path rest c
    else
      let newHash := hash.take (hash.length - old.length) ++ new
      let rows := rowDelete (rowInsert c.rows newHash (rowLookup c.rows hash)) hash
      if O.renameFails path hash then (⟨c.entries, rows⟩, .error (.vfs 5))
      else
        match sRename fs c.entries hash newHash with
        | .error e => (⟨c.entries, rows⟩, .error e)
        | .ok entries => sHashLoop O fs old new path rest ⟨entries, rows⟩

/-- The constructor of `LongNameLookupTable` (`/repo/sources/lite_long_name_lookup_table.cpp:40-52`), which makes a new table if there is none.
    Simplified: a file of that name is a database. -/
def sOpenTable (c : SDir) : Res SDir :=
  match c.entries.lookup tableFileName with
  | none => .ok ⟨c.entries ++ [(tableFileName, .db)], []⟩
  | some (.dir _) => .error .runtime
  | some _ => .ok c

/-- One directory (`/repo/sources/lite_format.cpp:1293-1314`).  An exception or a failing commit rolls the rows back, not the renames; a failing
    commit is only logged. -/
def sMigrateDir (O : SufOracle) (old new : Bytes) (fs : SFs) (path : List Bytes) : SFs × Res Unit :=
  match sWalk fs 0 path with
  | none => (fs, .error .runtime)
  | some d =>
    match sOpenTable (fs d) with
    | .error e => (fs, .error e)
    | .ok c =>
      match sHashLoop O fs old new path (c.rows.map (·.1)) c with
      | (c', .error e) => (fs.set d ⟨c'.entries, c.rows⟩, .error e)
      | (c', .ok _) => (fs.set d (if O.commitOk path then c' else ⟨c'.entries, c.rows⟩), .ok ())

/-- The loop over the directories (`/repo/sources/lite_format.cpp:1293-1314`). -/
def sMigrateDirs (O : SufOracle) (old new : Bytes) : List (List Bytes) → SFs → SFs × Res Unit
  | [], fs => (fs, .ok ())
  | path :: rest, fs =>
    match sMigrateDir O old new fs path with
    | (fs, .error e) => (fs, .error e)
    | (fs, .ok _) => sMigrateDirs O old new rest fs

/-- `kLegacyLongNameSuffix` (`/repo/sources/lite_format.cpp:335`). -/
def legacySuffix : Bytes := [46, 46, 46]

/-- `change_long_name_suffix` (`/repo/sources/lite_format.cpp:1263-1317`): the directories afterwards, and the suffix for the configuration. -/
def changeSuffix (O : SufOracle) (fuel : Nat) (stored new : Bytes) (fs : SFs) : SFs × Res Bytes :=
  if new = [] then (fs, .error .invalidArg)
  else
    let old := if stored = [] then legacySuffix else stored
    if old = new then (fs, .ok stored)
    else
      match sMigrateDirs O old new (sCollect fs fuel 0 []) fs with
      | (fs, .error e) => (fs, .error e)
      | (fs, .ok _) => (fs, .ok new)

end Securefs

import Verif.Model.Basic
/-!
# The wrapper of SQLite and the table of long names

Models `/repo/sources/sqlite_helper.cpp` and `/repo/sources/lite_long_name_lookup_table.cpp` down to the calls of the C interface of SQLite.
What SQLite answers is an arbitrary function of all calls before.  A function of the table has at most one statement object, a local variable; its
destructor is `withStatement`.  The mutex in `SQLiteDBWrapper` is not represented, see `Model/LiteLocks.lean`.
-/

namespace Securefs.Sql

/-- The calls of the C interface (`/repo/sources/sqlite_helper.cpp:30-138`); a statement handle is a number. -/
inductive Api where
  | opening (file : Bytes) (flags : Nat)
  | timeout (ms : Nat)
  | exec (sql : Bytes)
  | prepare (sql : Bytes)
  | reset (h : Nat)
  | bindText (h column : Nat) (text : Bytes)
  | step (h : Nat)
  | columnText (h column : Nat)
  | columnBytes (h column : Nat)
  | finalize (h : Nat)
  | close
  deriving DecidableEq

/-- What a call gives (`/repo/sources/sqlite_helper.cpp:30-138`): the code it returns, whether opening stored a handle of a connection, and the text
    of a column. -/
structure Reply where
  code : Nat := 0
  handle : Bool := true
  text : Bytes := []
  deriving DecidableEq

/-- A call and its answer (`/repo/sources/sqlite_helper.cpp:30-138`). -/
abbrev Event := Api × Reply

/-- SQLite: an answer for every call after the events so far, the last one first (`/repo/sources/sqlite_helper.cpp:30-138`). -/
abbrev Lib := List Event → Api → Reply

/-- The number of statements that were prepared, which is the handle of the next one (`/repo/sources/sqlite_helper.cpp:123-128`). -/
def prepared : List Event → Nat
  | [] => 0
  | (.prepare _, r) :: rest => if r.code = 0 then prepared rest + 1 else prepared rest
  | _ :: rest => prepared rest

/-- `SQLiteException` with the code that was returned (`/repo/sources/sqlite_helper.cpp:9-17`), a use of a null statement, or a loop that is
    still running. -/
inductive Ex where
  | sqlite (code : Nat)
  | null
  | running
  deriving DecidableEq

/-- The events so far, and the pointer in the statement object, if there is one (`/repo/sources/sqlite_helper.h:69-88`). -/
structure St where
  events : List Event
  holder : Option Nat

/-- A function of the wrapper: it returns or throws (`/repo/sources/sqlite_helper.cpp:30-138`). -/
def M (α : Type) := St → Except Ex α × St

/-- The value is returned (`/repo/sources/sqlite_helper.cpp:30-138`). -/
def ret {α : Type} (a : α) : M α := fun s => (.ok a, s)

/-- An exception is thrown (`/repo/sources/sqlite_helper.cpp:22,27,73`). -/
def fail {α : Type} (e : Ex) : M α := fun s => (.error e, s)

/-- One after the other, unless an exception is thrown (`/repo/sources/sqlite_helper.cpp:30-138`). -/
def andThen {α β : Type} (x : M α) (f : α → M β) : M β := fun s =>
  match x s with
  | (.error e, s') => (.error e, s')
  | (.ok a, s') => f a s'

instance : Monad M where
  pure := ret
  bind := andThen

/-- A call of SQLite (`/repo/sources/sqlite_helper.cpp:30-138`). -/
def call (L : Lib) (a : Api) : M Reply := fun s => (.ok (L s.events a), { s with events := (a, L s.events a) :: s.events })

/-- `check_sqlite_call` (`/repo/sources/sqlite_helper.cpp:19-28`); 0 is `SQLITE_OK`. -/
def check (code : Nat) : M Unit := if code ≠ 0 then fail (.sqlite code) else ret ()

/-- `check_sqlite_call` of a call (`/repo/sources/sqlite_helper.cpp:33,36,40,52,80-89`). -/
def checked (L : Lib) (a : Api) : M Unit := do
  let r ← call L a
  check r.code

/-- `SQLiteStatement::prologue` (`/repo/sources/sqlite_helper.cpp:119-130`). -/
def prologue (L : Lib) (sql : Bytes) : M Nat := fun s =>
  match s.holder with
  | some h => (.ok h, s)
  | none =>
    match checked L (.prepare sql) s with
    | (.error e, s') => (.error e, s')
    | (.ok _, s') => (.ok (prepared s.events), { s' with holder := some (prepared s.events) })

/-- `SQLiteStatement::reset` (`/repo/sources/sqlite_helper.cpp:48-58`). -/
def reset (L : Lib) (sql : Bytes) : M Unit := fun s =>
  match s.holder with
  | some h => checked L (.reset h) s
  | none => (do let _ ← prologue L sql; ret ()) s

/-- `SQLiteStatement::step` (`/repo/sources/sqlite_helper.cpp:60-75`); 100 is `SQLITE_ROW`, 101 `SQLITE_DONE`. -/
def step (L : Lib) (sql : Bytes) : M Bool := do
  let h ← prologue L sql
  let r ← call L (.step h)
  if r.code = 100 then ret true
  else if r.code = 101 ∨ r.code = 0 then ret false
  else fail (.sqlite r.code)

/-- `SQLiteStatement::bind_text` (`/repo/sources/sqlite_helper.cpp:83-90`). -/
def bindText (L : Lib) (sql : Bytes) (column : Nat) (text : Bytes) : M Unit := do
  let h ← prologue L sql
  checked L (.bindText h column text)

/-- `SQLiteStatement::get_text` (`/repo/sources/sqlite_helper.cpp:102-106`): the text and its length; a null pointer is not checked for. -/
def getText (L : Lib) (column : Nat) : M Bytes := fun s =>
  match s.holder with
  | none => (.error .null, s)
  | some h =>
    (do
      let r ← call L (.columnText h column)
      let _ ← call L (.columnBytes h column)
      ret r.text) s

/-- `StatementCloser` (`/repo/sources/sqlite_helper.h:77-86`); the code of `sqlite3_finalize` is not looked at. -/
def destroy (L : Lib) (s : St) : St :=
  match s.holder with
  | none => s
  | some h => ⟨(.finalize h, L s.events (.finalize h)) :: s.events, none⟩

/-- A local statement object with its destructor (`/repo/sources/sqlite_helper.h:51-90`). -/
def withStatement {α : Type} (L : Lib) (body : M α) : M α := fun s =>
  let r := body { s with holder := none }
  (r.1, { destroy L r.2 with holder := s.holder })

/-- The characters of a literal (`/repo/sources/lite_long_name_lookup_table.cpp:13-38`). -/
def literal (s : String) : Bytes := s.toList.map Char.toUInt8

/-- `kCreateTableInMainDb` (`/repo/sources/lite_long_name_lookup_table.cpp:13-18`). -/
def createMain : Bytes := literal "
                    create table if not exists main.encrypted_mappings (
                        keyed_hash text not null primary key,
                        encrypted_name text not null
                    );
                "

/-- `kCreateTableInSecondaryDb` (`/repo/sources/lite_long_name_lookup_table.cpp:19-24`). -/
def createSecondary : Bytes := literal "
                    create table if not exists secondary.encrypted_mappings (
                        keyed_hash text not null primary key,
                        encrypted_name text not null
                    );
                "

/-- `kUpdateMainMapping` (`/repo/sources/lite_long_name_lookup_table.cpp:25-29`). -/
def updateMain : Bytes := literal "
            insert or ignore into main.encrypted_mappings
                (keyed_hash, encrypted_name)
                values (?, ?);
        "

/-- `kUpdateSecondaryMapping` (`/repo/sources/lite_long_name_lookup_table.cpp:30-34`). -/
def updateSecondary : Bytes := literal "
            insert or ignore into secondary.encrypted_mappings
                (keyed_hash, encrypted_name)
                values (?, ?);
        "

/-- `kDeleteFromMainMapping` (`/repo/sources/lite_long_name_lookup_table.cpp:35-38`). -/
def deleteMain : Bytes := literal "
            delete from main.encrypted_mappings
                where keyed_hash = ?;
        "

/-- The query of `lookup` (`/repo/sources/lite_long_name_lookup_table.cpp:58`). -/
def selectName : Bytes := literal "select encrypted_name from encrypted_mappings where keyed_hash = ?;"

/-- The query of `list_hashes` (`/repo/sources/lite_long_name_lookup_table.cpp:71`). -/
def selectHashes : Bytes := literal "select keyed_hash from encrypted_mappings;"

/-- The statement of the constructor for two tables (`/repo/sources/lite_long_name_lookup_table.cpp:134`). -/
def attach : Bytes := literal "attach database ? as secondary;"

/-- `LongNameLookupTable::lookup` (`/repo/sources/lite_long_name_lookup_table.cpp:56-67`). -/
def lookup (L : Lib) (hash : Bytes) : M Bytes := withStatement L do
  reset L selectName
  bindText L selectName 1 hash
  let found ← step L selectName
  if found then getText L 0 else ret []

/-- The loop of `list_hashes` (`/repo/sources/lite_long_name_lookup_table.cpp:74-77`); with too little fuel it is still running. -/
def listLoop (L : Lib) : (fuel : Nat) → List Bytes → M (List Bytes)
  | 0, _ => fail .running
  | fuel + 1, result => do
    let more ← step L selectHashes
    if more then do
      let t ← getText L 0
      listLoop L fuel (result ++ [t])
    else ret result

/-- `LongNameLookupTable::list_hashes` (`/repo/sources/lite_long_name_lookup_table.cpp:69-79`). -/
def listHashes (L : Lib) (fuel : Nat) : M (List Bytes) := withStatement L do
  reset L selectHashes
  listLoop L fuel []

/-- `update_mapping` and `update_mapping_to_to_db` (`/repo/sources/lite_long_name_lookup_table.cpp:81-89,149-157`), with the statement that is
    used. -/
def update (L : Lib) (sql hash name : Bytes) : M Unit := withStatement L do
  reset L sql
  bindText L sql 1 hash
  bindText L sql 2 name
  let _ ← step L sql
  ret ()

/-- `remove_mapping` and `remove_mapping_from_from_db` (`/repo/sources/lite_long_name_lookup_table.cpp:91-97,141-147`). -/
def remove (L : Lib) (hash : Bytes) : M Unit := withStatement L do
  reset L deleteMain
  bindText L deleteMain 1 hash
  let _ ← step L deleteMain
  ret ()

/-- A function of the table with its arguments; `other` is `update_mapping_to_to_db` with two different tables
    (`/repo/sources/lite_long_name_lookup_table.cpp:56-97,141-157`). -/
inductive Op where
  | lookup (hash : Bytes)
  | list (fuel : Nat)
  | update (other : Bool) (hash name : Bytes)
  | remove (hash : Bytes)

/-- What a function returns, as a list of texts (`/repo/sources/lite_long_name_lookup_table.cpp:56-97,141-157`). -/
def Op.run (L : Lib) : Op → M (List Bytes)
  | .lookup hash => do
    let v ← Sql.lookup L hash
    ret [v]
  | .list fuel => listHashes L fuel
  | .update other hash name => do
    Sql.update L (if other then updateSecondary else updateMain) hash name
    ret []
  | .remove hash => do
    Sql.remove L hash
    ret []

/-- `LookupTableBase::begin` (`/repo/sources/lite_long_name_lookup_table.cpp:99`). -/
def begin_ (L : Lib) : M Unit := checked L (.exec (literal "begin;"))

/-- `LookupTableBase::finish` (`/repo/sources/lite_long_name_lookup_table.cpp:101-118`): an exception is only logged. -/
def finish (L : Lib) (uncaught : Bool) : M Unit := fun s =>
  (.ok (), (checked L (.exec (literal (if uncaught then "rollback" else "commit"))) s).2)

/-- The calls under one lock (`/repo/sources/lite_format.cpp:681-686,1032-1069,1210-1232,1298-1315`): functions of the table one after the other up to
    the first exception. -/
def runOps (L : Lib) : List Op → M (List (List Bytes))
  | [] => ret []
  | op :: rest => do
    let r ← op.run L
    let rs ← runOps L rest
    ret (r :: rs)

/-- What is done under one lock: the functions, and whether something else fails in the end, as a system call
    (`/repo/sources/lite_format.cpp:1032-1069,1210-1232`). -/
structure Section where
  ops : List Op
  foreign : Bool

/-- One section between `lock` and `unlock` (`/repo/sources/lite_long_name_lookup_table.h:20-31`). -/
def Section.run (L : Lib) (c : Section) : M (List (List Bytes)) := fun s =>
  match begin_ L s with
  | (.error e, s') => (.error e, s')
  | (.ok _, s') =>
    let r := runOps L c.ops s'
    let failed := c.foreign || (match r.1 with | .error _ => true | .ok _ => false)
    (r.1, (finish L failed r.2).2)

/-- Sections one after the other, with the result of each; a failing section does not keep the table from being used again
    (`/repo/sources/lite_format.cpp:675-699`). -/
def runSections (L : Lib) : List Section → St → List (Except Ex (List (List Bytes))) × St
  | [], s => ([], s)
  | c :: rest, s =>
    let r := c.run L s
    let rs := runSections L rest r.2
    (r.1 :: rs.1, rs.2)

/-- The statements of the two constructors after opening (`/repo/sources/lite_long_name_lookup_table.cpp:40-52,120-139`): `none` for a table that is
    only read, `some none` for one table, `some (some f)` for two. -/
def setUp (L : Lib) : Option (Option Bytes) → M Unit
  | none => checked L (.timeout 2000)
  | some none => do
    checked L (.exec createMain)
    checked L (.timeout 2000)
  | some (some other) => do
    checked L (.timeout 2000)
    withStatement L do
      bindText L attach 1 other
      let _ ← step L attach
      ret ()
    checked L (.exec (createMain ++ literal ";\n" ++ createSecondary))

/-- The flags for `sqlite3_open_v2` (`/repo/sources/lite_long_name_lookup_table.cpp:42-46,124-126`): `SQLITE_OPEN_NOMUTEX`, with `READONLY` or with
    `READWRITE` and `CREATE`. -/
def openFlags (writable : Bool) : Nat := if writable then 0x8000 + 2 + 4 else 0x8000 + 1

/-- The life of a table object: constructor, sections, destructor (`/repo/sources/sqlite_helper.cpp:30-34,132-138`,
    `/repo/sources/lite_long_name_lookup_table.cpp:40-54,120-139`).  The connection is closed if opening stored a handle, although it failed. -/
def life (L : Lib) (file : Bytes) (kind : Option (Option Bytes)) (sections : List Section) : Except Ex (List (Except Ex (List (List Bytes)))) × St :=
  let o := call L (.opening file (openFlags kind.isSome)) ⟨[], none⟩
  let opened := L [] (.opening file (openFlags kind.isSome))
  let closing (s : St) : St := if opened.handle then (call L .close s).2 else s
  if opened.code ≠ 0 then (.error (.sqlite opened.code), closing o.2)
  else
    match setUp L kind o.2 with
    | (.error e, s) => (.error e, closing s)
    | (.ok _, s) =>
      let r := runSections L sections s
      (.ok r.1, closing r.2)

end Securefs.Sql

import Verif.Model.LiteFs
/-!
# Threads on the tables of long names

Models the calls of `FuseHighLevelOps` of `/repo/sources/lite_format.cpp` that change a directory, and listing, run by several threads, down
to the locks that SQLite takes on the table files (`/repo/sources/lite_long_name_lookup_table.cpp`, `/repo/sources/sqlite_helper.cpp`).  A
connection is never shared between threads, except that of an open directory, whose calls its own lock keeps apart
(`/repo/sources/lite_format.cpp:865-866`).

What is taken from the documentation of SQLite: a transaction begun with `begin` takes no lock; its first changing statement
takes the `RESERVED` lock, which at most one connection holds, and keeps it up to the end of the transaction; a reading statement takes a
`SHARED` lock for as long as it runs; `commit` waits for all `SHARED` locks to be given back and meanwhile lets nobody take a new one; who does not
get a lock waits up to the timeout of the connection and then gets `SQLITE_BUSY`; a table file that is unlinked while a connection has it
open is still used by that connection.
-/

namespace Securefs.LongTab

/-! ## The backing tree -/

/-- The rows of a table (`/repo/sources/lite_long_name_lookup_table.cpp:13-18`). -/
abbrev Rows := List (Bytes × Bytes)

/-- The directories of the backing tree and their entries, without the table files (`/repo/sources/lite_format.h:31`).  A directory that has
    been removed is not in `live`; numbers are never used again. -/
structure Dirs where
  live : List Nat
  nextDir : Nat
  entries : Nat → List (Bytes × LNode)

/-- The system call at the end of `process_possible_long_name`: `vcreate`, `vsymlink` and `vlink` add an entry, then
    `vmkdir`, `vunlink` and `vrmdir` (`/repo/sources/lite_format.cpp:945-969,983-1001,1153-1186`). -/
inductive Kind where
  | add (node : LNode)
  | mkdir
  | unlink
  | rmdir
  deriving DecidableEq

/-- `LongNameComponentAction` of a call (`/repo/sources/lite_format.cpp:945-969,983-1001,1168-1171`). -/
def Kind.action : Kind → LAction
  | .add _ => .create
  | .mkdir => .create
  | .unlink => .delete
  | .rmdir => .delete

/-- The system calls of `process_possible_long_name` (`/repo/sources/unix.cpp:327-368,388-403`), all in directory `d`; `hasTable` tells
    which directories contain a table file, which keeps them from being removed.  `EEXIST`, `ENOENT`, `EISDIR`,
    `ENOTDIR` and `ENOTEMPTY` as the system gives them; no entry can be made in a removed directory. -/
def Dirs.call (D : Dirs) (hasTable : Nat → Bool) (d : Nat) (n : Bytes) (k : Kind) : Option Nat × Dirs :=
  if d ∉ D.live then (some 2, D)
  else
    match k, (D.entries d).lookup n with
    | .add node, none => (none, { D with entries := upd D.entries d ((n, node) :: D.entries d) })
    | .add _, some _ => (some 17, D)
    | .mkdir, none =>
      (none, ⟨D.nextDir :: D.live, D.nextDir + 1, upd (upd D.entries D.nextDir []) d ((n, .dir D.nextDir) :: (upd D.entries D.nextDir []) d)⟩)
    | .mkdir, some _ => (some 17, D)
    | .unlink, none => (some 2, D)
    | .unlink, some (.dir _) => (some 21, D)
    | .unlink, some _ => (none, { D with entries := upd D.entries d (dropKey (D.entries d) n) })
    | .rmdir, none => (some 2, D)
    | .rmdir, some (.dir id) =>
      if (D.entries id).isEmpty && !hasTable id then
        (none, { D with live := D.live.filter (· != id), entries := upd D.entries d (dropKey (D.entries d) n) })
      else (some 39, D)
    | .rmdir, some _ => (some 20, D)

/-- `renameat` (`/repo/sources/unix.cpp:412-419`): nothing happens if both names refer to the same file; a directory only replaces a
    directory without entries and without table.  That a directory cannot be moved into itself is left out. -/
def Dirs.rename (D : Dirs) (hasTable : Nat → Bool) (d : Nat) (n : Bytes) (d' : Nat) (n' : Bytes) : Option Nat × Dirs :=
  if d ∉ D.live ∨ d' ∉ D.live then (some 2, D)
  else
    match (D.entries d).lookup n with
    | none => (some 2, D)
    | some src =>
      let e1 := upd D.entries d (dropKey (D.entries d) n)
      let move : Dirs := { D with entries := upd e1 d' ((n', src) :: dropKey (e1 d') n') }
      match (D.entries d').lookup n' with
      | none => (none, move)
      | some dst =>
        if src = dst then (none, D)
        else
          match src, dst with
          | .dir _, .dir id =>
            if (D.entries id).isEmpty && !hasTable id then (none, { move with live := D.live.filter (· != id) }) else (some 39, D)
          | .dir _, _ => (some 20, D)
          | _, .dir _ => (some 21, D)
          | _, _ => (none, move)

/-! ## Threads -/

/-- A table file: the directory it was made in and a number that tells it from its predecessors there
    (`/repo/sources/lite_format.cpp:1187-1191`). -/
abbrev File := Nat × Nat

/-- A changing statement on a table (`/repo/sources/lite_long_name_lookup_table.cpp:25-38`). -/
inductive Stmt where
  | put (f : File) (n enc : Bytes)
  | del (f : File) (n : Bytes)

/-- The table a statement changes (`/repo/sources/lite_long_name_lookup_table.cpp:25-38`). -/
def Stmt.file : Stmt → File
  | .put f _ _ => f
  | .del f _ => f

/-- The effect of a statement (`/repo/sources/lite_long_name_lookup_table.cpp:25-38`). -/
def Stmt.apply : Stmt → Rows → Rows
  | .put _ n enc, rows => insertOrIgnore rows n enc
  | .del _ n, rows => dropKey rows n

/-- A call of the file system: one by way of `process_possible_long_name` (`/repo/sources/lite_format.cpp:1192-1225`) in
    directory `d`, `vrename` (`/repo/sources/lite_format.cpp:1019-1047`), or `vreaddir` on a directory opened for it
    (`/repo/sources/lite_format.cpp:832-884`). -/
inductive Call where
  | op (d : Nat) (n : LName) (k : Kind)
  | rename (d : Nat) (n : LName) (d' : Nat) (n' : LName)
  | list (d : Nat)

/-- The statements of a call on the open tables `fs`: `update_mapping` or `remove_mapping` (`/repo/sources/lite_format.cpp:1213-1223`), and
    for `vrename` first `remove_mapping_from_from_db`, then `update_mapping_to_to_db` (`/repo/sources/lite_format.cpp:1036-1044`). -/
def Call.stmts : Call → List File → List Stmt
  | .op _ n k, [f] =>
    match k.action with
    | .create => [.put f n.backing n.full]
    | .delete => [.del f n.backing]
  | .rename _ n _ n', [f, f'] =>
    (if n.full.isEmpty then [] else [.del f n.backing]) ++ (if n'.full.isEmpty then [] else [.put f' n'.backing n'.full])
  | _, _ => []

/-- Where a thread is inside a call.  `files` are the tables it has connections to, `held` those with a transaction that has changed them, with
    the rows as that transaction sees them (`/repo/sources/lite_format.cpp:1192-1225,1019-1047,641-697`). -/
inductive Pc where
  /-- between two calls -/
  | idle
  /-- the transaction is begun and `todo` are the statements still to execute -/
  | running (files : List File) (todo : List Stmt) (held : List (File × Rows))
  /-- `vrmdir` between its two system calls -/
  | inside (files : List File) (held : List (File × Rows))
  /-- the system call has been made, with the given result -/
  | finishing (files : List File) (held : List (File × Rows)) (err : Option Nat)
  /-- in `commit`, waiting for the readers -/
  | committing (files : List File) (held : List (File × Rows))
  /-- in `vreaddir`: the entries left, the table if it is open already, the entries shown -/
  | listing (left : List Bytes) (conn : Option File) (out : List Bytes)
  /-- in `lookup` of the entry `n`, with a `SHARED` lock on the table `f` -/
  | reading (left : List Bytes) (f : File) (n : Bytes) (out : List Bytes)

/-- What a call returns: success or an errno, an exception of SQLite (`SQLITE_BUSY`, or no table can be made in a removed directory), or the entries of a listing
    (`/repo/sources/lite_format.cpp:859-1047`). -/
inductive Outcome where
  | done (err : Option Nat)
  | sqlite
  | names (l : List Bytes)
  deriving DecidableEq

/-- A thread: the calls it has still to make, the current one first, and what the earlier ones returned
    (`/repo/sources/lite_format.cpp:859-1047`). -/
structure Th where
  calls : List Call
  pc : Pc
  log : List Outcome

/-- The whole: the tree, which directories have a table file at the moment, the number of the next table file to be made, the
    committed rows, and the threads (`/repo/sources/lite_format.cpp:1187-1225`, `/repo/sources/lite_long_name_lookup_table.cpp:40-52`). -/
structure St where
  dirs : Dirs
  table : Nat → Option Nat
  next : Nat
  rows : File → Rows
  threads : List Th

/-- The tables on which the thread has a `RESERVED` lock or more (`/repo/sources/lite_long_name_lookup_table.cpp:81-99`). -/
def Pc.held : Pc → List (File × Rows)
  | .running _ _ h => h
  | .inside _ h => h
  | .finishing _ h _ => h
  | .committing _ h => h
  | _ => []

/-- The tables the thread has connections to for changing them (`/repo/sources/lite_format.cpp:1032-1034,1209-1211`). -/
def Pc.files : Pc → List File
  | .running fs _ _ => fs
  | .inside fs _ => fs
  | .finishing fs _ _ => fs
  | .committing fs _ => fs
  | _ => []

/-- The thread has the `RESERVED` lock of the table (`/repo/sources/lite_long_name_lookup_table.cpp:81-99`). -/
def Th.holds (t : Th) (f : File) : Bool := (t.pc.held.lookup f).isSome

/-- The thread is committing to the table (`/repo/sources/lite_long_name_lookup_table.cpp:111`). -/
def Th.commits (t : Th) (f : File) : Bool :=
  match t.pc with
  | .committing _ held => (held.lookup f).isSome
  | _ => false

/-- The thread has a `SHARED` lock on one of the tables (`/repo/sources/lite_long_name_lookup_table.cpp:56-67`). -/
def Th.reads (t : Th) (held : List (File × Rows)) : Bool :=
  match t.pc with
  | .reading _ f _ _ => (held.lookup f).isSome
  | _ => false

/-- The transaction after one more statement (`/repo/sources/lite_long_name_lookup_table.cpp:81-99,144-157`): the first one on a table
    sees the committed rows. -/
def runStmt (rows : File → Rows) (held : List (File × Rows)) (s : Stmt) : List (File × Rows) :=
  match held.lookup s.file with
  | some r => (s.file, s.apply r) :: held.filter (fun p => p.1 != s.file)
  | none => (s.file, s.apply (rows s.file)) :: held

/-- Puts the thread `i` into another place (all of `/repo/sources/lite_format.cpp:859-1225`). -/
def St.go (s : St) (i : Nat) (t : Th) (pc : Pc) : St := { s with threads := s.threads.set i { t with pc := pc } }

/-- The current call of the thread `i` returns (all of `/repo/sources/lite_format.cpp:859-1225`); the connections are closed, which rolls back
    what is not committed (`/repo/sources/sqlite_helper.cpp:125-131`). -/
def St.ret (s : St) (i : Nat) (t : Th) (o : Outcome) : St :=
  { s with threads := s.threads.set i ⟨t.calls.tail, .idle, t.log ++ [o]⟩ }

/-- Opens the table of a directory, which makes it if there is none (`/repo/sources/lite_long_name_lookup_table.cpp:40-52,120-142`).
    Making the file and creating the table in it is one step. -/
def St.openTable (s : St) (d : Nat) : File × St :=
  match s.table d with
  | some g => ((d, g), s)
  | none => ((d, s.next), { s with table := upd s.table d (some s.next), next := s.next + 1, rows := fun f => if f = (d, s.next) then [] else s.rows f })

/-- Whether a directory contains a table file (`/repo/sources/lite_format.cpp:1187-1191`). -/
def St.hasTable (s : St) (d : Nat) : Bool := (s.table d).isSome

/-- Some thread is committing to the table, so that no other gets a `SHARED` lock (`/repo/sources/lite_long_name_lookup_table.cpp:111`). -/
def St.locked (s : St) (f : File) : Bool := s.threads.any (fun t => t.commits f)

/-- The directory whose table `vrmdir` is about to remove (`/repo/sources/lite_format.cpp:963-967`). -/
def Call.doomed (c : Call) (D : Dirs) : Option Nat :=
  match c with
  | .op d n .rmdir =>
    match (D.entries d).lookup n.backing with
    | some (.dir id) => if d ∈ D.live then some id else none
    | _ => none
  | _ => none

/-- What may happen to a thread that is scheduled: it goes on, its waiting for a lock times out, or its system call fails for a
    reason outside the model (`/repo/sources/lite_long_name_lookup_table.cpp:51,127`, `/repo/sources/unix.cpp:327-419`). -/
inductive Move where
  | go
  | timeout
  | fault (e : Nat)

/-- The tables a call opens, in this order (`/repo/sources/lite_format.cpp:1204-1211,1025-1033`): none if no name is long. -/
def Call.opens : Call → List Nat
  | .op d n _ => if n.full.isEmpty then [] else [d]
  | .rename d n d' n' => if n.full.isEmpty && n'.full.isEmpty then [] else [d, d']
  | .list _ => []

/-- Opens several tables (`/repo/sources/lite_long_name_lookup_table.cpp:120-142`); for `vrename` within one directory both are the
    same table (`/repo/sources/lite_long_name_lookup_table.cpp:122`). -/
def St.openTables (s : St) : List Nat → List File × St
  | [] => ([], s)
  | d :: ds =>
    let (f, s1) := s.openTable d
    let (fs, s2) := s1.openTables ds
    (f :: fs, s2)

/-- Some existing table of the directories is being committed to by another thread, so that the schema cannot be read
    (`/repo/sources/lite_long_name_lookup_table.cpp:47-50,129-141`). -/
def St.blocks (s : St) (ds : List Nat) : Bool :=
  ds.any fun d =>
    match s.table d with
    | some g => s.locked (d, g)
    | none => false

/-- A thread begins its next call (`/repo/sources/lite_format.cpp:1192-1211,1019-1034,832-884`).  The constructor of
    `LongNameLookupTable` reads the schema before it sets the timeout (`/repo/sources/lite_long_name_lookup_table.cpp:47-51`), so it
    fails at once where `DoubleLongNameLookupTable` (`/repo/sources/lite_long_name_lookup_table.cpp:127`) waits.  The entries of a listing are
    those at its beginning. -/
def St.begin (s : St) (i : Nat) (t : Th) (c : Call) : Move → Option St
  | .go =>
    match c with
    | .list d => some (s.go i t (.listing ((s.dirs.entries d).map Prod.fst) none []))
    | _ =>
      if s.blocks c.opens then
        match c with
        | .op _ _ _ => some (s.ret i t .sqlite)
        | _ => none
      else if ¬ (∀ d ∈ c.opens, d ∈ s.dirs.live) then some (s.ret i t .sqlite)
      else
        let (fs, s1) := s.openTables c.opens
        some (s1.go i t (.running fs (c.stmts fs) []))
  | .timeout => if s.blocks c.opens then some (s.ret i t .sqlite) else none
  | .fault _ => none

/-- The next statement of a transaction (`/repo/sources/lite_long_name_lookup_table.cpp:81-99,144-157`): it needs the `RESERVED` lock of its
    table, and if that is not to be had in time the exception rolls back (`/repo/sources/lite_long_name_lookup_table.cpp:101-107`). -/
def St.exec (s : St) (i : Nat) (t : Th) (fs : List File) (x : Stmt) (todo : List Stmt) (held : List (File × Rows)) : Move → Option St
  | .go =>
    if (held.lookup x.file).isSome ∨ ¬ s.threads.any (fun t => t.holds x.file) then some (s.go i t (.running fs todo (runStmt s.rows held x)))
    else none
  | .timeout =>
    if (held.lookup x.file).isSome ∨ ¬ s.threads.any (fun t => t.holds x.file) then none else some (s.ret i t .sqlite)
  | .fault _ => none

/-- The system call of a call (`/repo/sources/lite_format.cpp:945-1047`): of `vrmdir` the second one. -/
def St.system (s : St) (i : Nat) (t : Th) (c : Call) (fs : List File) (held : List (File × Rows)) : Move → Option St
  | .go =>
    match c with
    | .op d n k =>
      let r := s.dirs.call s.hasTable d n.backing k
      some (({ s with dirs := r.2 } : St).go i t (.finishing fs held r.1))
    | .rename d n d' n' =>
      let r := s.dirs.rename s.hasTable d n.backing d' n'.backing
      some (({ s with dirs := r.2 } : St).go i t (.finishing fs held r.1))
    | .list _ => none
  | .fault e => some (s.go i t (.finishing fs held (some e)))
  | .timeout => none

/-- The first system call of `vrmdir` (`/repo/sources/lite_format.cpp:965-966`): the table inside the directory is unlinked, if
    there is one; failure is ignored. -/
def St.unlinkTable (s : St) (c : Call) : St :=
  match c.doomed s.dirs with
  | some id => { s with table := upd s.table id none }
  | none => s

/-- Replaces the rows of the tables of a transaction (`/repo/sources/lite_long_name_lookup_table.cpp:111`); with two tables all or nothing. -/
def commitRows (rows : File → Rows) (held : List (File × Rows)) : File → Rows := fun f =>
  match held.lookup f with
  | some r => r
  | none => rows f

/-- One step of the thread `i`; `none` if it cannot make this move: `go` is refused to a thread that has to wait for a lock.
    `finish` (`/repo/sources/lite_long_name_lookup_table.cpp:101-118`) rolls back if the call failed, and a `commit` that gives
    `SQLITE_BUSY` is only logged, so that the call succeeds.  A listing skips a long name without row, or whose table it cannot open or
    read (`/repo/sources/lite_format.cpp:664-697`), and keeps its connection (`/repo/sources/lite_format.cpp:703-712`). -/
def St.step (isLong : Bytes → Bool) (s : St) (i : Nat) (m : Move) : Option St :=
  match s.threads[i]? with
  | none => none
  | some t =>
    match t.calls with
    | [] => none
    | c :: _ =>
      match t.pc with
      | .idle => s.begin i t c m
      | .running fs (x :: todo) held => s.exec i t fs x todo held m
      | .running fs [] held =>
        match c, m with
        | .op _ _ .rmdir, .go => some ((s.unlinkTable c).go i t (.inside fs held))
        | .op _ _ .rmdir, _ => none
        | _, _ => s.system i t c fs held m
      | .inside fs held => s.system i t c fs held m
      | .finishing fs held err =>
        match m with
        | .go =>
          match err with
          | some e => some (s.ret i t (.done (some e)))
          | none => if held.isEmpty then some (s.ret i t (.done none)) else some (s.go i t (.committing fs held))
        | _ => none
      | .committing _ held =>
        match m with
        | .go =>
          if s.threads.any (fun t => t.reads held) then none
          else some (({ s with rows := commitRows s.rows held } : St).ret i t (.done none))
        | .timeout => if s.threads.any (fun t => t.reads held) then some (s.ret i t (.done none)) else none
        | .fault _ => none
      | .listing [] _ out =>
        match m with
        | .go => some (s.ret i t (.names out))
        | _ => none
      | .listing (n :: left) conn out =>
        if !isLong n then
          match m with
          | .go => some (s.go i t (.listing left conn (out ++ [n])))
          | _ => none
        else
          match c with
          | .list d =>
            match conn.or ((s.table d).map fun g => (d, g)) with
            | none =>
              match m with
              | .go => some (s.go i t (.listing left conn out))
              | _ => none
            | some f =>
              match m with
              | .go => if s.locked f then none else some (s.go i t (.reading left f n out))
              | .timeout => if s.locked f then some (s.go i t (.listing left (some f) out)) else none
              | .fault _ => none
          | _ => none
      | .reading left f n out =>
        match m with
        | .go => some (s.go i t (.listing left (some f) (if ((s.rows f).lookup n).isSome then out ++ [n] else out)))
        | _ => none

/-- A run: which thread makes which move, one after another (`/repo/sources/lite_format.cpp:859-1225`). -/
def St.run (isLong : Bytes → Bool) : St → List (Nat × Move) → Option St
  | s, [] => some s
  | s, (i, m) :: rest =>
    match s.step isLong i m with
    | none => none
    | some s' => St.run isLong s' rest

end Securefs.LongTab

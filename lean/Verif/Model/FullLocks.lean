import Verif.Model.FileTable
/-!
# The mutexes of the full format

Which mutexes the callbacks of the full format lock and unlock, in which order, with the destructors of guards and holders
(`/repo/sources/full_format.cpp`, `/repo/sources/file_table_v2.cpp`), and threads that do so at once.  There are four kinds of mutexes: one for each file
(`/repo/sources/files.h:47,181-183`), one for the identifier of its parent (`/repo/sources/files.h:65,188-198`), one for each shard of the table of files
(`/repo/sources/file_table_v2.h:68`), and the one of the log file (`/repo/sources/logger.cpp:66,106`).

A call is the list of what it does to mutexes, for everything that it may meet on its way: which identifiers it finds, where it fails, and whether a holder
that goes out of scope was the last one.  All of this is given as data (`Trip`, `FullCall`), so that nothing is assumed about what other threads do to the
files meanwhile.

Simplified: the mutex of a file belongs to the object, of which there is one for each identifier (C34), so it is named by the identifier.  `close_internal`
writes back an object that nobody refers to without its mutex (`/repo/sources/file_table_v2.cpp:156-169`), which counts as use of the shard.  The tracer,
the idle timer and the thread-local objects lock their own mutexes before or after, not within these calls.
-/

namespace Securefs.Lk

/-- The mutexes (`/repo/sources/files.h:47,65`, `/repo/sources/file_table_v2.h:68`, `/repo/sources/logger.cpp:66`). -/
inductive Mu where
  /-- `FileBase::m_lock` of the object with this identifier (`/repo/sources/files.h:47`) -/
  | file (id : Bytes)
  /-- `FileTable::Shard::mu` (`/repo/sources/file_table_v2.h:68`) -/
  | shard (i : Nat)
  /-- `FileBase::parent_id_mutex` (`/repo/sources/files.h:65`) -/
  | parent (id : Bytes)
  /-- the lock of the stream to which the log goes (`/repo/sources/logger.cpp:66`) -/
  | log
  deriving DecidableEq

/-- What a thread does next.  The last two are within `std::lock` (`/repo/sources/files.h:620`, modelled as in `Verif.Model.PairLock`). -/
inductive Act where
  /-- waits for the mutex and locks it -/
  | lock (m : Mu)
  /-- `std::lock`: waits for the first one with nothing done yet, will then try the second -/
  | pair (a b : Mu)
  /-- uses what the mutex protects -/
  | use (m : Mu)
  | unlock (m : Mu)
  /-- within `std::lock`: has the first, tries the second -/
  | tryNext (a b : Mu)
  /-- within `std::lock`: has the first, could not get the second, unlocks the first -/
  | back (a b : Mu)
  deriving DecidableEq

/-- A block with the mutex of the shard of a file (`/repo/sources/file_table_v2.cpp:61-62,97-98,143-145`); if `find_shard` throws, nothing happens. -/
def withShard (id : Bytes) (inner : List Act) : List Act :=
  match FileTab.shardOf id with
  | .error _ => []
  | .ok i => [.lock (.shard i), .use (.shard i)] ++ inner ++ [.unlock (.shard i)]

/-- A line of the log (`/repo/sources/logger.cpp:57-107,109-126`). -/
def logLine : List Act := [.lock .log, .use .log, .unlock .log]

/-- A block with `FileLockGuard` (`/repo/sources/files.h:559-573`).  If the block throws, the guard unlocks as well. -/
def withFile (id : Bytes) (inner : List Act) : List Act := [.lock (.file id), .use (.file id)] ++ inner ++ [.unlock (.file id)]

/-- `set_parent_id`, `get_parent_id` (`/repo/sources/files.h:188-198`). -/
def parentOf (id : Bytes) : List Act := [.lock (.parent id), .use (.parent id), .unlock (.parent id)]

/-- What `close_internal` may meet: objects in the closed pool with references, and an exception
    (`/repo/sources/file_table_v2.cpp:134-137,186-193`). -/
structure Closing where
  outstanding : Bool := false
  failed : Bool := false
  deriving DecidableEq

/-- `FileTable::close_internal` (`/repo/sources/file_table_v2.cpp:141-196`). -/
def closeInternal (id : Bytes) (c : Closing) : List Act :=
  withShard id (if c.outstanding then logLine else [])

/-- `FileTable::close` (`/repo/sources/file_table_v2.cpp:122-138`).  (A failing flush of the root ends the process, C99.) -/
def close (id : Bytes) (c : Closing) : List Act :=
  if id = kRootId then withFile kRootId []
  else closeInternal id c ++ (if c.failed then logLine else [])

/-- The end of a holder: `FileTableCloser` (`/repo/sources/file_table_v2.cpp:336-342`).  `none`: others still refer to the object. -/
def drop (id : Bytes) : Option Closing → List Act
  | none => []
  | some c => close id c

/-- How `open_as` and `create_as` end (`/repo/sources/file_table_v2.cpp:51-84,93-104`): with a holder; with an exception of the backing files or of the
    constructor, before there is a holder; or, after there is one, with `bad_alloc` of the hash table (`/repo/sources/file_table_v2.cpp:76,82,102`). -/
inductive Opened where
  | ok
  | refused
  | noMemory
  deriving DecidableEq

/-- The part of `open_as` and `create_as` under the mutex of the shard (`/repo/sources/file_table_v2.cpp:61-84,97-103`).  The holder is declared after the
    guard and is destroyed before it, so that on `bad_alloc` the object is closed with the mutex still locked. -/
def inShard (id : Bytes) : Opened → List Act
  | .ok => withShard id []
  | .refused => withShard id []
  | .noMemory => withShard id (close id {})

/-- `FileTable::open_as` (`/repo/sources/file_table_v2.cpp:51-84`): the root is in no shard. -/
def openAs (id : Bytes) (o : Opened) : List Act := if id = kRootId then [] else inShard id o

/-- `FileTable::create_as` (`/repo/sources/file_table_v2.cpp:93-104`). -/
def createAs (id : Bytes) (o : Opened) : List Act := inShard id o

/-- What `generic_open` meets, component by component (`/repo/sources/full_format.cpp:510-565`). -/
inductive Trip where
  /-- no component is left -/
  | arrived
  /-- too many links (`/repo/sources/full_format.cpp:516-519`) -/
  | tooDeep (last : Option Closing)
  /-- `.` (`/repo/sources/full_format.cpp:522-525`) -/
  | dot (rest : Trip)
  /-- `..` (`/repo/sources/full_format.cpp:526-531`): the identifier of the parent, how opening ends, whether the holder of this directory was the last -/
  | up (pid : Bytes) (o : Opened) (last : Option Closing) (rest : Trip)
  /-- no such entry, or an exception in the search (`/repo/sources/full_format.cpp:534-540`) -/
  | missing (last : Option Closing)
  /-- an entry that is no link (`/repo/sources/full_format.cpp:541-542,561-562`) -/
  | child (id : Bytes) (o : Opened) (last : Option Closing) (rest : Trip)
  /-- a symbolic link, and what is met on the way to its target (`/repo/sources/full_format.cpp:541-562`).  `last` is the holder of the directory, if the
      link cannot be opened, `lastLink` that of the link. -/
  | link (id : Bytes) (o : Opened) (last : Option Closing) (target : Trip) (lastLink : Option Closing) (rest : Trip)

/-- `FuseHighLevelOps::generic_open` (`/repo/sources/full_format.cpp:510-565`), from a holder of `cur`: what it does, and the holder it returns.  Without
    one, it has returned nothing or thrown, and dropped all holders. -/
def genericOpen (cur : Bytes) : Trip → List Act × Option Bytes
  | .arrived => ([], some cur)
  | .tooDeep last => (drop cur last, none)
  | .dot rest => genericOpen cur rest
  | .up pid o last rest =>
    if o = .ok then
      let r := genericOpen pid rest
      (parentOf cur ++ openAs pid o ++ drop cur last ++ r.1, r.2)
    else (parentOf cur ++ openAs pid o ++ drop cur last, none)
  | .missing last => (withFile cur [] ++ drop cur last, none)
  | .child id o last rest =>
    if o = .ok then
      let r := genericOpen id rest
      (withFile cur [] ++ openAs id o ++ parentOf id ++ drop cur last ++ r.1, r.2)
    else (withFile cur [] ++ openAs id o ++ drop cur last, none)
  | .link id o last target lastLink rest =>
    if o = .ok then
      let t := genericOpen cur target
      match t.2 with
      | none => (withFile cur [] ++ openAs id o ++ parentOf id ++ withFile id [] ++ t.1 ++ drop id lastLink, none)
      | some h =>
        let r := genericOpen h rest
        (withFile cur [] ++ openAs id o ++ parentOf id ++ withFile id [] ++ t.1 ++ drop id lastLink ++ r.1, r.2)
    else (withFile cur [] ++ openAs id o ++ drop cur last, none)

/-- `FuseHighLevelOps::open_base` (`/repo/sources/full_format.cpp:567-586`): the trip to the directory; a path of at most one component gives the root. -/
def openBase (t : Trip) : List Act × Option Bytes := genericOpen kRootId t

/-- What `open_all` meets behind the directory (`/repo/sources/full_format.cpp:610-651`). -/
inductive AllTrip where
  /-- the path is empty or `/` (`/repo/sources/full_format.cpp:613-616`) -/
  | root
  /-- the directory cannot be opened (`/repo/sources/full_format.cpp:617`) -/
  | noBase (base : Trip)
  /-- no such entry, or an exception in the search (`/repo/sources/full_format.cpp:622-629`) -/
  | missing (base : Trip) (last : Option Closing)
  /-- the file, not followed further (`/repo/sources/full_format.cpp:630-631,650`) -/
  | found (base : Trip) (id : Bytes) (o : Opened) (last : Option Closing)
  /-- a link that is followed (`/repo/sources/full_format.cpp:630-649`) -/
  | follow (base : Trip) (id : Bytes) (o : Opened) (last : Option Closing) (target : Trip) (lastLink : Option Closing)

/-- `FuseHighLevelOps::open_all` (`/repo/sources/full_format.cpp:610-651`). -/
def openAll : AllTrip → List Act × Option Bytes
  | .root => ([], some kRootId)
  | .noBase base =>
    match openBase base with
    | (a, _) => (a, none)
  | .missing base last =>
    match openBase base with
    | (a, none) => (a, none)
    | (a, some d) => (a ++ withFile d [] ++ drop d last, none)
  | .found base id o last =>
    match openBase base with
    | (a, none) => (a, none)
    | (a, some d) =>
      if o = .ok then (a ++ withFile d [] ++ openAs id o ++ parentOf id ++ drop d last, some id)
      else (a ++ withFile d [] ++ openAs id o ++ drop d last, none)
  | .follow base id o last target lastLink =>
    match openBase base with
    | (a, none) => (a, none)
    | (a, some d) =>
      if o = .ok then
        let t := genericOpen d target
        (a ++ withFile d [] ++ openAs id o ++ parentOf id ++ withFile id [] ++ t.1 ++ drop id lastLink, t.2)
      else (a ++ withFile d [] ++ openAs id o ++ drop d last, none)

/-- What `create` meets behind the directory (`/repo/sources/full_format.cpp:587-609`). -/
inductive Creating where
  /-- `create_as` throws -/
  | refused (o : Opened)
  /-- the name exists (`/repo/sources/full_format.cpp:601-606`) -/
  | exists (id : Bytes) (lastNew : Option Closing)
  /-- `initialize_empty` or `add_entry` throws -/
  | failed (id : Bytes) (lastNew : Option Closing)
  | done (id : Bytes)

/-- `FuseHighLevelOps::create` (`/repo/sources/full_format.cpp:587-609`); `fresh` is the identifier drawn if `create_as` throws. -/
def create (fresh : Bytes) (base : Trip) (c : Creating) (last : Option Closing) : List Act × Option Bytes :=
  match openBase base with
  | (a, none) => (a, none)
  | (a, some d) =>
    match c with
    | .refused o => (a ++ createAs fresh o ++ drop d last, none)
    | .exists id l => (a ++ createAs id .ok ++ withFile id [] ++ withFile d [] ++ withFile id [] ++ drop id l ++ drop d last, none)
    | .failed id l => (a ++ createAs id .ok ++ withFile id [] ++ withFile d [] ++ drop id l ++ drop d last, none)
    | .done id => (a ++ createAs id .ok ++ withFile id [] ++ withFile d [] ++ parentOf id ++ drop d last, some id)

/-- `DoubleFileLockGuard` around a block (`/repo/sources/files.h:600-626`): a file paired with itself is locked once; the second is unlocked first. -/
def withPair (f g : Bytes) : List Act :=
  if f = g then withFile f []
  else [.pair (.file f) (.file g), .use (.file f), .use (.file g), .unlock (.file g), .unlock (.file f)]

/-- A component of `vgetpath` that is found: its identifier, and whether the holder of the directory was the last
    (`/repo/sources/full_format.cpp:481-499`). -/
structure Looked where
  id : Bytes
  o : Opened
  last : Option Closing

/-- The loop of `vgetpath` (`/repo/sources/full_format.cpp:481-508`), from a holder of `cur`; `missing`: the component behind those that were found is not
    there.  At the end, or on an exception, the holder is dropped. -/
def getpathLoop (missing : Bool) (lastEnd : Option Closing) : Bytes → List Looked → List Act
  | cur, [] => (if missing then withFile cur [] else []) ++ drop cur lastEnd
  | cur, l :: ls =>
    if l.o = .ok then withFile cur [] ++ openAs l.id l.o ++ drop cur l.last ++ parentOf l.id ++ getpathLoop missing lastEnd l.id ls
    else withFile cur [] ++ openAs l.id l.o ++ drop cur l.last

/-- The callbacks, with what they meet (`/repo/sources/full_format.cpp:37-508`). -/
inductive FullCall where
  /-- `vstatfs` (`/repo/sources/full_format.cpp:37-41`) -/
  | statfs
  /-- `vgetattr`, `vchmod`, `vchown`, `vreadlink`, `vtruncate`, `vutimens`, `vlistxattr`, `vgetxattr`, `vsetxattr`, `vremovexattr`
      (`/repo/sources/full_format.cpp:42-53,248-275,305-325,370-457`) -/
  | onPath (t : AllTrip) (last : Option Closing)
  /-- `vread`, `vwrite`, `vflush`, `vftruncate`, `vfsync`, `vfgetattr` (`/repo/sources/full_format.cpp:54-64,162-201,360-369`) -/
  | onHandle (h : Bytes)
  /-- `vreaddir` (`/repo/sources/full_format.cpp:90-126`); `full`: the filler refuses an entry, which is logged -/
  | readdir (h : Bytes) (full : Bool)
  /-- `vopendir` (`/repo/sources/full_format.cpp:65-78`); `kept`: it is a directory -/
  | opendir (t : AllTrip) (kept : Bool) (last : Option Closing)
  /-- `vopen` (`/repo/sources/full_format.cpp:136-150`); `trunc`: with `O_TRUNC`; `kept`: nothing throws -/
  | open (t : AllTrip) (trunc kept : Bool) (last : Option Closing)
  /-- `vrelease`, `vreleasedir` (`/repo/sources/full_format.cpp:79-89,151-161`); without `sameType` the handle is kept -/
  | release (h : Bytes) (sameType : Bool) (last : Option Closing)
  /-- `vunlink`, `vrmdir` (`/repo/sources/full_format.cpp:202-220,226-247`); `id` is the file behind the name that is removed, if there is one -/
  | unlink (base : Trip) (id : Option (Bytes × Opened)) (last lastBase : Option Closing)
  /-- `vcreate` (`/repo/sources/full_format.cpp:127-135`): the holder goes into the handle -/
  | create (fresh : Bytes) (base : Trip) (c : Creating) (last : Option Closing)
  /-- `vmkdir` (`/repo/sources/full_format.cpp:221-225`): the holder is dropped -/
  | mkdir (fresh : Bytes) (base : Trip) (c : Creating) (last lastNew : Option Closing)
  /-- `vsymlink` (`/repo/sources/full_format.cpp:276-287`) -/
  | symlink (fresh : Bytes) (base : Trip) (c : Creating) (last lastNew : Option Closing)
  /-- `vlink` (`/repo/sources/full_format.cpp:288-304`) -/
  | link (src : AllTrip) (base : Trip) (lastBase lastSrc : Option Closing)
  /-- `vrename` (`/repo/sources/full_format.cpp:326-359`); `replaced` is the file that had the new name, if there was one -/
  | rename (from_ to : Trip) (replaced : Option (Bytes × Opened × Option Closing)) (lastTo lastFrom : Option Closing)
  /-- `vgetpath` (`/repo/sources/full_format.cpp:460-508`) -/
  | getpath (met : List Looked) (missing : Bool) (lastEnd : Option Closing)
  /-- the end of the table (`/repo/sources/file_table_v2.cpp:198-216`), with the files that are open or cached in each shard -/
  | destroy (live : List (Nat × List Bytes))

/-- `~FileTable` (`/repo/sources/file_table_v2.cpp:198-216`): the files of a shard are locked within the mutex of the shard.  (The root is written
    back without its mutex.) -/
def destroyAll (live : List (Nat × List Bytes)) : List Act :=
  logLine ++ live.flatMap fun s => [.lock (.shard s.1), .use (.shard s.1)] ++ s.2.flatMap (fun id => withFile id []) ++ [.unlock (.shard s.1)]

/-- What a callback does to the mutexes, to its end (`/repo/sources/full_format.cpp:37-508`). -/
def FullCall.acts : FullCall → List Act
  | .statfs => []
  | .onPath t last =>
    match openAll t with
    | (a, none) => a
    | (a, some h) => a ++ withFile h [] ++ drop h last
  | .onHandle h => withFile h []
  | .readdir h full => withFile h (parentOf h ++ (if full then logLine else []))
  | .opendir t kept last =>
    match openAll t with
    | (a, none) => a
    | (a, some h) => a ++ (if kept then [] else drop h last)
  | .open t trunc kept last =>
    match openAll t with
    | (a, none) => a
    | (a, some h) => a ++ (if trunc then withFile h [] else []) ++ (if kept then [] else drop h last)
  | .release h sameType last => if sameType then drop h last else []
  | .unlink base id last lastBase =>
    match openBase base with
    | (a, none) => a
    | (a, some d) =>
      match id with
      | none => a ++ withFile d [] ++ drop d lastBase
      | some (i, o) =>
        if o = .ok then a ++ withFile d [] ++ openAs i o ++ withFile i [] ++ drop i last ++ drop d lastBase
        else a ++ withFile d [] ++ openAs i o ++ drop d lastBase
  | .create fresh base c last => (Lk.create fresh base c last).1
  | .mkdir fresh base c last lastNew =>
    match Lk.create fresh base c last with
    | (a, none) => a
    | (a, some h) => a ++ drop h lastNew
  | .symlink fresh base c last lastNew =>
    match Lk.create fresh base c last with
    | (a, none) => a
    | (a, some h) => a ++ withFile h [] ++ drop h lastNew
  | .link src base lastBase lastSrc =>
    match openAll src with
    | (a, none) => a
    | (a, some h) =>
      match openBase base with
      | (b, none) => a ++ b ++ drop h lastSrc
      | (b, some d) => a ++ b ++ withPair d h ++ drop d lastBase ++ drop h lastSrc
  | .rename from_ to replaced lastTo lastFrom =>
    match openBase from_ with
    | (a, none) => a
    | (a, some d) =>
      match openBase to with
      | (b, none) => a ++ b ++ drop d lastFrom
      | (b, some d') =>
        match replaced with
        | none => a ++ b ++ withPair d d' ++ drop d' lastTo ++ drop d lastFrom
        | some (i, o, last) =>
          if o = .ok then a ++ b ++ withPair d d' ++ openAs i o ++ withFile i [] ++ drop i last ++ drop d' lastTo ++ drop d lastFrom
          else a ++ b ++ withPair d d' ++ openAs i o ++ drop d' lastTo ++ drop d lastFrom
  | .getpath met missing lastEnd => getpathLoop missing lastEnd kRootId met
  | .destroy live => destroyAll live

/-- The owners of the mutexes, and what each call that has begun has still to do; every call is a thread of its own
    (`/repo/sources/files.h:181-183`, `/repo/sources/lock_guard.h:31-61`). -/
structure LockSys where
  owner : Mu → Option Nat
  threads : List (List Act)

namespace LockSys

/-- A mutex with another owner (`/repo/sources/files.h:181-183`). -/
def setOwner (s : LockSys) (m : Mu) (o : Option Nat) : LockSys := { s with owner := fun x => if x = m then o else s.owner x }

/-- The next thing that thread `t` does; `none` if it has nothing left, or has to wait, or uses or unlocks what it has not locked
    (`/repo/sources/lock_guard.h:31-61`, `/repo/sources/files.h:559-626`).  `rotate`: how `std::lock` goes on after it could not get the second mutex, see
    `Verif.Model.PairLock`. -/
def step (rotate : Bool) (s : LockSys) (t : Nat) : Option LockSys :=
  match s.threads[t]? with
  | none => none
  | some [] => none
  | some (.lock m :: r) => if s.owner m = none then some { s.setOwner m (some t) with threads := s.threads.set t r } else none
  | some (.pair a b :: r) =>
    if s.owner a = none then some { s.setOwner a (some t) with threads := s.threads.set t (.tryNext a b :: r) } else none
  | some (.use m :: r) => if s.owner m = some t then some { s with threads := s.threads.set t r } else none
  | some (.unlock m :: r) => if s.owner m = some t then some { s.setOwner m none with threads := s.threads.set t r } else none
  | some (.tryNext a b :: r) =>
    if s.owner b = none then some { s.setOwner b (some t) with threads := s.threads.set t r }
    else some { s with threads := s.threads.set t (.back a b :: r) }
  | some (.back a b :: r) =>
    if s.owner a = some t then
      some { s.setOwner a none with threads := s.threads.set t ((if rotate then .pair b a else .pair a b) :: r) }
    else none

/-- What happens: a call begins, or a thread does its next thing (`/repo/sources/full_format.cpp:37-508`). -/
inductive Ev where
  | begin (c : FullCall)
  | step (t : Nat)

/-- One event; a thread that has to wait does nothing (`/repo/sources/full_format.cpp:37-508`). -/
def apply (rotate : Bool) (s : LockSys) : Ev → LockSys
  | .begin c => { s with threads := s.threads ++ [c.acts] }
  | .step t => (s.step rotate t).getD s

/-- A history (`/repo/sources/full_format.cpp:37-508`). -/
def run (rotate : Bool) (s : LockSys) (evs : List Ev) : LockSys := evs.foldl (apply rotate) s

/-- Before any call (`/repo/sources/full_format.h:56-62`). -/
def init : LockSys := ⟨fun _ => none, []⟩

end LockSys

end Securefs.Lk

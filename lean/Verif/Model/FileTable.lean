import Verif.Model.Encoding
/-!
# The table of open files of the full format

Models `/repo/sources/file_table_v2.cpp`, `/repo/sources/file_table_v2.h` and `find_ids_helper` of
`/repo/sources/myutils.cpp`: where the backing files of an identifier live, and the sharded table that maps
identifiers to in-memory objects, used by any number of threads.
-/

namespace Securefs

/-! ## Backing paths -/

/-- `'/'` (`/repo/sources/file_table_v2.cpp:236,238,294`). -/
def pathSlash : UInt8 := 47

/-- `".meta"` (`/repo/sources/file_table_v2.cpp:241,295`, `/repo/sources/myutils.cpp:28`). -/
def metaSuffix : Bytes := ['.', 'm', 'e', 't', 'a'].map Char.toUInt8

/-- `FileTableIOVersion1::calculate_paths` (`/repo/sources/file_table_v2.cpp:228-242`): the paths of the data file and
    of the metadata file in the legacy layout.  The two directory names are prefixes of them. -/
def pathsV1 (id : Bytes) : Res (Bytes × Bytes) := do
  let a ← hexify (id.take 1)
  let b ← hexify ((id.drop 1).take 5)
  let c ← hexify (id.drop 6)
  let full := a ++ pathSlash :: b ++ pathSlash :: c
  .ok (full, full ++ metaSuffix)

/-- `FileTableIOVersion2::calculate_paths` (`/repo/sources/file_table_v2.cpp:288-296`). -/
def pathsV2 (id : Bytes) : Res (Bytes × Bytes) := do
  let a ← hexify (id.take 1)
  let b ← hexify (id.drop 1)
  let full := a ++ pathSlash :: b
  .ok (full, full ++ metaSuffix)

/-- ASCII lower-casing used by `absl::EndsWithIgnoreCase` (`/repo/sources/myutils.cpp:28`). -/
def asciiLower (c : UInt8) : UInt8 := if 65 ≤ c ∧ c ≤ 90 then c + 32 else c

/-- `absl::EndsWithIgnoreCase(name, ".meta")` (`/repo/sources/myutils.cpp:28`). -/
def endsWithMeta (name : Bytes) : Bool :=
  metaSuffix.length ≤ name.length && (name.drop (name.length - metaSuffix.length)).map asciiLower == metaSuffix

/-- The loop of `find_ids_helper` (`/repo/sources/myutils.cpp:36-53`) over the reversed path; `need` counts the digits
    still to be filled in, `acc` holds those already filled in. -/
def scanDigits : (rev : Bytes) → (need : Nat) → (acc : Bytes) → Res (Nat × Bytes)
  | _, 0, acc => .ok (0, acc)
  | [], need, acc => .ok (need, acc)
  | c :: rest, need + 1, acc =>
    if (48 ≤ c ∧ c ≤ 57) ∨ (97 ≤ c ∧ c ≤ 102) then scanDigits rest need (c :: acc)
    else if c ≠ 47 ∧ c ≠ 92 then .error .runtime
    else scanDigits rest (need + 1) acc

/-- The callback of `find_ids_helper` (`/repo/sources/myutils.cpp:22-56`) on a regular file `name` in the directory
    `dir`: the identifier it inserts, `none` when the file is not looked at.  Digits that were not filled in are NUL
    characters, which `parse_hex` refuses. -/
def scanId (dir name : Bytes) : Res (Option Bytes) :=
  if !endsWithMeta name then .ok none
  else do
    let total := dir ++ pathSlash :: name.take (name.length - metaSuffix.length)
    let r ← scanDigits total.reverse 64 []
    let id ← parseHexInto (zeros r.1 ++ r.2) 32
    .ok (some id)

/-! ## The table -/

/-- What is stored about a file: the link count, which the table looks at, and everything else, which it does not
    (`FileBase`, `/repo/sources/files.h:40-75`).  The split into data and metadata stream is not modelled here. -/
structure FileVal (α : Type) where
  nlink : UInt32
  data : α
  deriving DecidableEq

/-- An in-memory object of class `FileBase` (`/repo/sources/files.h:40-75`): its identifier, the atomic reference
    counter and the value seen by its users. -/
structure FileObj (α : Type) where
  id : Bytes
  ref : Int
  val : FileVal α

/-- `FileTable::Shard` (`/repo/sources/file_table_v2.h:66-72`).  Objects are represented by their addresses.  The hash map
    is an association list. -/
structure Shard where
  live : List (Bytes × Nat)
  cache : List Nat

/-- `kMaxCached` (`/repo/sources/file_table_v2.h:73`). -/
def kMaxCached : Nat := 50
/-- `kEjectNumber` (`/repo/sources/file_table_v2.h:73`). -/
def kEjectNumber : Nat := 10
/-- `kNumShards` (`/repo/sources/file_table_v2.h:73`). -/
def kNumShards : Nat := 32
/-- `kRootId` (`/repo/sources/file_table_v2.h:22`). -/
def kRootId : Bytes := zeros 32

/-- Where a thread is inside the deleter of a holder (`/repo/sources/file_table_v2.cpp:336-342`). -/
inductive Closing where
  /-- `fb->decref() <= 0` was true; `fb->get_id()` and the identifier it refers to have not been read yet.  The reference
      is first read by `id == kRootId` (`/repo/sources/file_table_v2.cpp:124`), then copied on entering
      `close_internal` (line 141); the model reads once. -/
  | readId (addr : Nat)
  /-- `close_internal(id)` has been called with its own copy, the shard is not locked yet. -/
  | lockShard (id : Bytes)

/-- The state of the process and of the backing storage, as far as the table is concerned.
    (`/repo/sources/file_table_v2.h:41-103`). -/
structure FileTab (α : Type) where
  /-- the heap of `FileBase` objects by address, in order of allocation; `none` has been destroyed.  Addresses are not
      reused, so that a stale pointer is recognised as such.  Address 0 is `root_`
      (`/repo/sources/file_table_v2.h:87`). -/
  objs : List (Option (FileObj α))
  /-- `shards` (`/repo/sources/file_table_v2.h:91`) -/
  shards : Nat → Shard
  /-- the `FilePtrHolder`s in existence and the threads that own them (`/repo/sources/file_table_v2.h:39`) -/
  holders : List (Nat × Nat)
  /-- the threads that are inside a deleter -/
  closing : List (Nat × Closing)
  /-- the backing files (`FileTableIO`, `/repo/sources/file_table_v2.h:24-30`) -/
  disk : Bytes → Option (FileVal α)

/-- What happens when a thread takes a step.
    (`/repo/sources/file_table_v2.cpp:51-179`). -/
inductive TabRes (σ : Type) where
  /-- the step was taken; `false` when the operation threw an exception -/
  | ok (st : σ) (success : Bool)
  /-- the step is not possible here (the thread is elsewhere) -/
  | disabled
  /-- the step touches an object that has been destroyed: undefined behaviour -/
  | useAfterFree

namespace FileTab

variable {α : Type}

/-- The object at an address, `none` if it has been destroyed.
    (bookkeeping for `/repo/sources/file_table_v2.cpp:51-179`). -/
def obj (st : FileTab α) (a : Nat) : Option (FileObj α) := (st.objs[a]?).join

/-- `FileTable::find_shard` (`/repo/sources/file_table_v2.cpp:85-92`): the index of the shard; the root has none. -/
def shardOf (id : Bytes) : Res Nat := do
  if id = kRootId then .error .invalidArg
  else
    let n ← inodeNumber id
    .ok (n % kNumShards)

/-- Update of one shard.
    (bookkeeping for `/repo/sources/file_table_v2.cpp:51-179`). -/
def setShard (st : FileTab α) (i : Nat) (s : Shard) : FileTab α :=
  { st with shards := fun j => if j = i then s else st.shards j }

/-- Update of an object.
    (bookkeeping for `/repo/sources/file_table_v2.cpp:51-179`). -/
def setObj (st : FileTab α) (a : Nat) (o : Option (FileObj α)) : FileTab α := { st with objs := st.objs.set a o }

/-- Update of a backing file.
    (bookkeeping for `/repo/sources/file_table_v2.cpp:51-179`). -/
def setDisk (st : FileTab α) (id : Bytes) (v : Option (FileVal α)) : FileTab α :=
  { st with disk := fun j => if j = id then v else st.disk j }

/-- `create_holder` (`/repo/sources/file_table_v2.cpp:41-49`): `incref` and a new holder for thread `t`. -/
def hold (st : FileTab α) (t a : Nat) (o : FileObj α) : FileTab α :=
  { st.setObj a (some { o with ref := o.ref + 1 }) with holders := (t, a) :: st.holders }

/-- `std::find_if` over the cache (`/repo/sources/file_table_v2.cpp:67-70`): the objects are looked at one after the
    other; `.error ()` when one of them has been destroyed. -/
def findCached (st : FileTab α) (id : Bytes) : List Nat → Except Unit (Option Nat)
  | [] => .ok none
  | a :: rest =>
    match st.obj a with
    | none => .error ()
    | some o => if o.id = id then .ok (some a) else findCached st id rest

/-- `FileTable::open_as` (`/repo/sources/file_table_v2.cpp:51-84`), executed by thread `t`.  The requested type is only used
    to construct a new object; `ioFails` tells whether opening the backing files or constructing the object throws
    although the files exist.  The body runs under the mutex of the shard and is one step. -/
def openAs (st : FileTab α) (t : Nat) (id : Bytes) (ioFails : Bool) : TabRes (FileTab α) :=
  if id = kRootId then
    match st.obj 0 with
    | none => .useAfterFree
    | some o => .ok (st.hold t 0 o) true
  else
    match shardOf id with
    | .error _ => .ok st false
    | .ok i =>
      let s := st.shards i
      match s.live.lookup id with
      | some a =>
        match st.obj a with
        | none => .useAfterFree
        | some o => .ok (st.hold t a o) true
      | none =>
        match findCached st id s.cache with
        | .error _ => .useAfterFree
        | .ok (some a) =>
          match st.obj a with
          | none => .useAfterFree
          | some o =>
            .ok ((st.hold t a o).setShard i { live := (id, a) :: s.live, cache := s.cache.erase a }) true
        | .ok none =>
          match st.disk id with
          | none => .ok st false
          | some v =>
            if ioFails then .ok st false
            else
              let a := st.objs.length
              let st1 : FileTab α := { st with objs := st.objs ++ [some { id := id, ref := 0, val := v }] }
              .ok ((st1.hold t a { id := id, ref := 0, val := v }).setShard i
                { live := (id, a) :: s.live, cache := s.cache }) true

/-- `FileTable::create_as` (`/repo/sources/file_table_v2.cpp:93-104`), executed by thread `t` with the random identifier
    `id`.  `FileTableIO::create` opens with `O_EXCL` (lines 266, 319); a fresh object has a link count of `-1` until it
    is initialised (`read_header`, `/repo/sources/files.cpp:185-194`).  `constructFails`: constructing the object throws;
    the empty backing files stay. -/
def createAs (fresh : α) (st : FileTab α) (t : Nat) (id : Bytes) (constructFails : Bool) : TabRes (FileTab α) :=
  match shardOf id with
  | .error _ => .ok st false
  | .ok i =>
    let s := st.shards i
    match st.disk id with
    | some _ => .ok st false
    | none =>
      let v : FileVal α := { nlink := 0xffffffff, data := fresh }
      let st0 := st.setDisk id (some v)
      if constructFails then .ok st0 false
      else
        let a := st.objs.length
        let st1 : FileTab α := { st0 with objs := st.objs ++ [some { id := id, ref := 0, val := v }] }
        -- `emplace` does nothing when the key is there, and the new object is destroyed
        match s.live.lookup id with
        | some _ => .ok ((st1.hold t a { id := id, ref := 0, val := v }).setObj a none) true
        | none =>
          .ok ((st1.hold t a { id := id, ref := 0, val := v }).setShard i
            { live := (id, a) :: s.live, cache := s.cache }) true

/-- A thread uses an object it holds and leaves a new value in it: writing, setting attributes, `unlink`, adding a link
    (`/repo/sources/files.h:203-333`), all under the lock of the object. -/
def modify (st : FileTab α) (t a : Nat) (v : FileVal α) : TabRes (FileTab α) :=
  if (t, a) ∈ st.holders then
    match st.obj a with
    | none => .useAfterFree
    | some o => .ok (st.setObj a (some { o with val := v })) true
  else .disabled

/-- A holder is handed to another thread: open files of the kernel interface are kept as raw pointers and released by
    whichever thread serves the request (`/repo/sources/full_format.cpp:76,79-88,133,148,151-162`). -/
def give (st : FileTab α) (t t' a : Nat) : TabRes (FileTab α) :=
  if (t, a) ∈ st.holders then .ok { st with holders := (t', a) :: st.holders.erase (t, a) } true else .disabled

/-- `FileTableCloser::operator()`, first half (`/repo/sources/file_table_v2.cpp:338`): the holder of thread `t` goes away and
    the counter is decremented, which is atomic; the thread goes on when the result is not positive. -/
def drop (st : FileTab α) (t a : Nat) : TabRes (FileTab α) :=
  if (t, a) ∈ st.holders then
    match st.obj a with
    | none => .useAfterFree
    | some o =>
      let st1 := { st.setObj a (some { o with ref := o.ref - 1 }) with holders := st.holders.erase (t, a) }
      if o.ref - 1 ≤ 0 then .ok { st1 with closing := (t, .readId a) :: st1.closing } true
      else .ok st1 true
  else .disabled

/-- `FileTableCloser::operator()`, second half, up to the call of `close_internal`
    (`/repo/sources/file_table_v2.cpp:340,122-129`): the identifier is read through a reference into the object.  The root is flushed
    instead, which writes its value to the backing files (an exception there leaves a destructor and ends the
    process; that is `FileTab.rootFails` in `Verif/Model/TableFaults.lean`). -/
def readId (st : FileTab α) (t : Nat) : TabRes (FileTab α) :=
  match st.closing.lookup t with
  | some (.readId a) =>
    match st.obj a with
    | none => .useAfterFree
    | some o =>
      let rest := st.closing.filter fun p => p.1 ≠ t
      if o.id = kRootId then .ok { st.setDisk kRootId (some o.val) with closing := rest } true
      else .ok { st with closing := (t, .lockShard o.id) :: rest } true
  | _ => .disabled

/-- The check of the objects about to be ejected (`/repo/sources/file_table_v2.cpp:186-193`): whether one of them is
    referenced; `.error ()` when one has been destroyed. -/
def anyReferenced (st : FileTab α) : List Nat → Except Unit Bool
  | [] => .ok false
  | a :: rest =>
    match st.obj a with
    | none => .error ()
    | some o => if o.ref > 0 then .ok true else anyReferenced st rest

/-- The end of `close_internal` (`/repo/sources/file_table_v2.cpp:181-195`): when the cache of shard `i` is too long its first
    ten objects are destroyed. -/
def eject (st : FileTab α) (i : Nat) : TabRes (FileTab α) :=
  let s := st.shards i
  if s.cache.length > kMaxCached then
    match anyReferenced st (s.cache.take kEjectNumber) with
    | .error _ => .useAfterFree
    | .ok true => .ok st true
    | .ok false =>
      .ok (((s.cache.take kEjectNumber).foldl (fun acc a => acc.setObj a none) st).setShard i
        { s with cache := s.cache.drop kEjectNumber }) true
  else .ok st true

/-- `FileTable::close_internal` (`/repo/sources/file_table_v2.cpp:141-196`), executed under the mutex of the shard.
    `flushError`: flushing throws, leaving an arbitrary value in the backing files. -/
def closeInternal (st : FileTab α) (t : Nat) (flushError : Option (FileVal α)) : TabRes (FileTab α) :=
  match st.closing.lookup t with
  | some (.lockShard id) =>
    let st := { st with closing := st.closing.filter fun p => p.1 ≠ t }
    match shardOf id with
    | .error _ => .ok st false
    | .ok i =>
      let s := st.shards i
      match s.live.lookup id with
      | none => .ok st true
      | some a =>
        match st.obj a with
        | none => .useAfterFree
        | some o =>
          if o.ref > 0 then .ok st true
          else if o.val.nlink ≠ 0 then
            match flushError with
            | some v => .ok (st.setDisk id (some v)) false
            | none =>
              eject ((st.setDisk id (some o.val)).setShard i
                { live := s.live.filter fun p => p.1 ≠ id, cache := s.cache ++ [a] }) i
          else
            eject (((st.setObj a none).setDisk id none).setShard i
              { live := s.live.filter fun p => p.1 ≠ id, cache := s.cache }) i
  | _ => .disabled

end FileTab

/-- A step of some thread (`/repo/sources/file_table_v2.cpp:51-104,122-196,336-342`). -/
inductive TabEvent (α : Type) where
  | openAs (t : Nat) (id : Bytes) (ioFails : Bool)
  | createAs (t : Nat) (id : Bytes) (constructFails : Bool)
  | modify (t a : Nat) (v : FileVal α)
  | give (t t' a : Nat)
  | drop (t a : Nat)
  | readId (t : Nat)
  | closeInternal (t : Nat) (flushError : Option (FileVal α))

namespace FileTab

variable {α : Type}

/-- The thread that takes the step.
    (bookkeeping for `/repo/sources/file_table_v2.cpp:51-179`). -/
def _root_.Securefs.TabEvent.thread : TabEvent α → Nat
  | .openAs t _ _ | .createAs t _ _ | .modify t _ _ | .give t _ _ | .drop t _ | .readId t | .closeInternal t _ => t

/-- Whether the step is part of a deleter.
    (bookkeeping for `/repo/sources/file_table_v2.cpp:122-179`). -/
def _root_.Securefs.TabEvent.isClosing : TabEvent α → Bool
  | .readId _ | .closeInternal _ _ => true
  | _ => false

/-- One step.  A thread that is inside a deleter does nothing else.
    (`/repo/sources/file_table_v2.cpp:51-179`). -/
def step (fresh : α) (st : FileTab α) (e : TabEvent α) : TabRes (FileTab α) :=
  if (st.closing.lookup e.thread).isSome && !e.isClosing then .disabled
  else
    match e with
    | .openAs t id f => st.openAs t id f
    | .createAs t id f => createAs fresh st t id f
    | .modify t a v => st.modify t a v
    | .give t t' a => st.give t t' a
    | .drop t a => st.drop t a
    | .readId t => st.readId t
    | .closeInternal t f => st.closeInternal t f

/-- A schedule: any interleaving of steps of any threads.  Steps that are not possible are skipped.
    (`/repo/sources/file_table_v2.cpp:51-179`). -/
def run (fresh : α) (st : FileTab α) : List (TabEvent α) → TabRes (FileTab α)
  | [] => .ok st true
  | e :: rest =>
    match step fresh st e with
    | .ok st' _ => run fresh st' rest
    | .disabled => run fresh st rest
    | .useAfterFree => .useAfterFree

/-- `FileTable::init` (`/repo/sources/file_table_v2.cpp:20-40`): the table starts with the root object only, read from
    the backing files or created and not written yet; `root` is its value. -/
def init (root : FileVal α) (disk : Bytes → Option (FileVal α)) : FileTab α :=
  { objs := [some { id := kRootId, ref := 0, val := root }]
    shards := fun _ => { live := [], cache := [] }
    holders := []
    closing := []
    disk := disk }

/-- Flushing a list of objects (`/repo/sources/file_table_v2.cpp:205-214`). -/
def flushAll (st : FileTab α) : List Nat → TabRes (FileTab α)
  | [] => .ok st true
  | a :: rest =>
    match st.obj a with
    | none => .useAfterFree
    | some o => flushAll (st.setDisk o.id (some o.val)) rest

/-- The loop over the shards in `~FileTable` (`/repo/sources/file_table_v2.cpp:202-215`). -/
def flushShards (st : FileTab α) : List Nat → TabRes (FileTab α)
  | [] => .ok st true
  | i :: rest =>
    match flushAll st ((st.shards i).live.map Prod.snd ++ (st.shards i).cache) with
    | .ok st' _ => flushShards st' rest
    | r => r

/-- `FileTable::~FileTable` (`/repo/sources/file_table_v2.cpp:198-216`) when no flush throws. -/
def shutdown (st : FileTab α) : TabRes (FileTab α) :=
  match flushAll st [0] with
  | .ok st' _ => flushShards st' (List.range kNumShards)
  | r => r

end FileTab

end Securefs

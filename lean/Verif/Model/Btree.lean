import Verif.Model.Encoding
import Verif.Spec.ByteFile
/-!
# The full-format directory: a B-tree in the pages of an encrypted file

Models `/repo/sources/btree_dir.cpp` and `/repo/sources/btree_dir.h`.

* `m_stream` is the ideal byte array of `Verif/Spec/ByteFile.lean`.  That the encrypted stream behaves as
  that byte array is property C02.
* `m_flags[4..6]` (root page, first free page, number of free pages; `/repo/sources/files.h:75-97`) are fields of
  the state.  Times are not modelled.
* A `BtreeNode*` is the page number under which the node is cached.  Using a pointer whose node is no longer
  cached is the outcome `outOfBounds`.
-/

namespace Securefs

/-- `INVALID_PAGE` (`/repo/sources/btree_dir.h:17`). -/
def invalidPage : Nat := 2 ^ 32 - 1

/-- `BTREE_MAX_DEPTH` (`/repo/sources/btree_dir.h:18`). -/
def btMaxDepth : Nat := 32

/-- `BTREE_MAX_NUM_ENTRIES` (`/repo/sources/btree_dir.h:19`). -/
def btMaxEntries : Nat := 13

/-- `BLOCK_SIZE` (`/repo/sources/myutils.h:163`), a `uint32_t`. -/
def pageSize : Nat := 4096

/-- `Directory::MAX_FILENAME_LENGTH` (`/repo/sources/files.h:432`). -/
def maxFilename : Nat := 255

/-- Linux `ENAMETOOLONG`. Used in `/repo/sources/btree_dir.cpp:249,377,417,630`. -/
def eNAMETOOLONG : Nat := 36

/-- `DirEntry` (`/repo/sources/btree_dir.h:32-38`). -/
structure DirEntry where
  name : Bytes
  id : Bytes
  type : Nat
  deriving DecidableEq

/-- `BtreeNode` (`/repo/sources/btree_dir.h:40-109`). -/
structure BNode where
  parent : Nat
  num : Nat
  children : List Nat
  entries : List DirEntry
  dirty : Bool
  deriving DecidableEq

/-- The state of a `BtreeDirectory` (`/repo/sources/btree_dir.h:119`, `/repo/sources/files.h:51,73`): the bytes of
    `m_stream`, `m_node_cache`, and `m_flags[4]`, `[5]`, `[6]`. -/
structure BSt where
  data : Bytes
  cache : List (Nat × BNode)
  root : Nat
  start : Nat
  nfree : Nat
  deriving DecidableEq

/-- What the code leaves open: the injected name comparison (`/repo/sources/files.h:439-444`), the uninitialised
    bytes behind the node in the page buffer (`/repo/sources/btree_dir.cpp:409-411`), and the iteration order of
    the hash map (`/repo/sources/btree_dir.cpp:272`). -/
structure BCfg where
  cmp : Bytes → Bytes → Int
  junk : Nat → Bytes
  order : List Nat → List Nat

/-- Computations on a directory: they read and change the state, or throw.
    (`/repo/sources/btree_dir.cpp:1-787`, whose member functions have this form). -/
abbrev BM (α : Type) := StateT BSt (Except Err) α

/-- Throwing an exception (model of C++ `throw`, used throughout `/repo/sources/btree_dir.cpp`). -/
def bthrow {α : Type} (e : Err) : BM α := fun _ => .error e

/-- Running a stateless computation inside `BM` (plumbing of the model for calls such as
    `/repo/sources/btree_dir.cpp:402`). -/
def lift {α : Type} (r : Res α) : BM α := fun s =>
  match r with
  | .ok a => .ok (a, s)
  | .error e => .error e

/-- Reading the state (plumbing of the model for member access in `/repo/sources/btree_dir.cpp`). -/
def getSt : BM BSt := fun s => .ok (s, s)

/-- Replacing the state (plumbing of the model for member assignment in `/repo/sources/btree_dir.cpp`). -/
def setSt (s : BSt) : BM Unit := fun _ => .ok ((), s)

/-- `dir_check` (`/repo/sources/btree_dir.cpp:14-20`). -/
def dirCheck (c : Bool) : BM Unit := if c then pure () else bthrow .corrupt

/-! ## Page format -/

/-- `read_little_endian_and_forward` (`/repo/sources/btree_dir.cpp:64-71`) for a type of `w` bytes: the value and
    the rest of the buffer. -/
def readLEFwd (w : Nat) (buf : Bytes) : Res (Nat × Bytes) :=
  if buf.length < w then .error .corrupt
  else
    match fromLE w buf with
    | .error e => .error e
    | .ok v => .ok (v, buf.drop w)

/-- `read_and_forward` (`/repo/sources/btree_dir.cpp:30-45`) for a value of `w` bytes. -/
def readFwd (w : Nat) (buf : Bytes) : Res (Bytes × Bytes) :=
  if buf.length < w then .error .corrupt else .ok (buf.take w, buf.drop w)

/-- The first loop of `from_buffer` (`/repo/sources/btree_dir.cpp:214-217`). -/
def readChildren : (k : Nat) → Bytes → Res (List Nat × Bytes)
  | 0, buf => .ok ([], buf)
  | k + 1, buf =>
    match readLEFwd 4 buf with
    | .error e => .error e
    | .ok (c, buf) =>
      match readChildren k buf with
      | .error e => .error e
      | .ok (cs, buf) => .ok (c :: cs, buf)

/-- `filename.back() = 0; e.filename = filename.data()` (`/repo/sources/btree_dir.cpp:225-226`): the characters
    before the first NUL, at most 255. -/
def cString (b : Bytes) : Bytes := (b.take maxFilename).takeWhile (· != 0)

/-- One iteration of the second loop of `from_buffer` (`/repo/sources/btree_dir.cpp:220-227`).  `e.type` is copied
    as raw memory; the model takes the machine to be little-endian. -/
def readEntry (buf : Bytes) : Res (DirEntry × Bytes) :=
  match readFwd (maxFilename + 1) buf with
  | .error e => .error e
  | .ok (name, buf) =>
    match readFwd 32 buf with
    | .error e => .error e
    | .ok (id, buf) =>
      match readLEFwd 4 buf with
      | .error e => .error e
      | .ok (type, buf) => .ok (⟨cString name, id, type⟩, buf)

/-- The second loop of `from_buffer` (`/repo/sources/btree_dir.cpp:218-228`). -/
def readEntries : (k : Nat) → Bytes → Res (List DirEntry × Bytes)
  | 0, buf => .ok ([], buf)
  | k + 1, buf =>
    match readEntry buf with
    | .error e => .error e
    | .ok (e, buf) =>
      match readEntries k buf with
      | .error e => .error e
      | .ok (es, buf) => .ok (e :: es, buf)

/-- `BtreeNode::from_buffer` (`/repo/sources/btree_dir.cpp:202-230`) on a fresh node.  `none` is the result `false`
    (the page is not a node). -/
def fromBuffer (buf : Bytes) : Res (Option (List Nat × List DirEntry)) :=
  match readLEFwd 4 buf with
  | .error e => .error e
  | .ok (flag, buf) =>
    if flag = 0 then .ok none
    else
      match readLEFwd 2 buf with
      | .error e => .error e
      | .ok (childNum, buf) =>
        match readLEFwd 2 buf with
        | .error e => .error e
        | .ok (entryNum, buf) =>
          match readChildren childNum buf with
          | .error e => .error e
          | .ok (cs, buf) =>
            match readEntries entryNum buf with
            | .error e => .error e
            | .ok (es, _) => .ok (some (cs, es))

/-- `write_little_endian_and_forward` and `write_and_forward` (`/repo/sources/btree_dir.cpp:47-62,73-79`): append
    to what has been written to a buffer of `size` bytes. -/
def writeFwd (size : Nat) (acc d : Bytes) : Res Bytes :=
  if acc.length + d.length ≤ size then .ok (acc ++ d) else .error .corrupt

/-- The first loop of `to_buffer` (`/repo/sources/btree_dir.cpp:241-244`). -/
def writeChildren (size : Nat) : List Nat → Bytes → Res Bytes
  | [], acc => .ok acc
  | c :: cs, acc =>
    match writeFwd size acc (toLE 4 c) with
    | .error e => .error e
    | .ok acc => writeChildren size cs acc

/-- One iteration of the second loop of `to_buffer` (`/repo/sources/btree_dir.cpp:248-255`). -/
def writeEntry (size : Nat) (e : DirEntry) (acc : Bytes) : Res Bytes :=
  if e.name.length > maxFilename then .error (.vfs eNAMETOOLONG)
  else
    match writeFwd size acc (e.name ++ zeros (maxFilename + 1 - e.name.length)) with
    | .error e => .error e
    | .ok acc =>
      match writeFwd size acc e.id with
      | .error e => .error e
      | .ok acc => writeFwd size acc (toLE 4 e.type)

/-- The second loop of `to_buffer` (`/repo/sources/btree_dir.cpp:246-256`). -/
def writeEntries (size : Nat) : List DirEntry → Bytes → Res Bytes
  | [], acc => .ok acc
  | e :: es, acc =>
    match writeEntry size e acc with
    | .error e => .error e
    | .ok acc => writeEntries size es acc

/-- `BtreeNode::to_buffer` (`/repo/sources/btree_dir.cpp:232-257`): what it writes into a buffer of `size` bytes. -/
def toBuffer (size : Nat) (n : BNode) : Res Bytes :=
  match writeFwd size [] (toLE 4 1) with
  | .error e => .error e
  | .ok acc =>
    match writeFwd size acc (toLE 2 n.children.length) with
    | .error e => .error e
    | .ok acc =>
      match writeFwd size acc (toLE 2 n.entries.length) with
      | .error e => .error e
      | .ok acc =>
        match writeChildren size n.children acc with
        | .error e => .error e
        | .ok acc => writeEntries size n.entries acc

/-! ## The stream -/

/-- `num * BLOCK_SIZE` (`/repo/sources/btree_dir.cpp:138,152,179,401,411`): a product of two `uint32_t`, so it
    wraps. -/
def pageOff (num : Nat) : Nat := num * pageSize % 2 ^ 32

/-- `m_stream->read(buffer, num * BLOCK_SIZE, BLOCK_SIZE)` with the check of the length
    (`/repo/sources/btree_dir.cpp:137-138,400-401`). -/
def readPage (num : Nat) : BM Bytes := do
  let s ← getSt
  dirCheck ((Spec.read s.data (pageOff num) pageSize).length == pageSize)
  pure (Spec.read s.data (pageOff num) pageSize)

/-- `m_stream->write(buffer, num * BLOCK_SIZE, BLOCK_SIZE)` (`/repo/sources/btree_dir.cpp:152,411`). -/
def writePage (num : Nat) (buf : Bytes) : BM Unit := fun s =>
  .ok ((), { s with data := Spec.write s.data (pageOff num) buf })

/-- `read_free_page` (`/repo/sources/btree_dir.cpp:135-145`): `next` and `prev`. -/
def readFreePage (num : Nat) : BM (Nat × Nat) := do
  let buf ← readPage num
  let flag ← lift (fromLE 4 buf)
  dirCheck (flag == 0)
  let next ← lift (fromLE 4 (buf.drop 4))
  let prev ← lift (fromLE 4 (buf.drop 8))
  pure (next, prev)

/-- `write_free_page` (`/repo/sources/btree_dir.cpp:147-153`). -/
def writeFreePage (num next prev : Nat) : BM Unit :=
  writePage num (zeros 4 ++ toLE 4 next ++ toLE 4 prev ++ zeros (pageSize - 12))

/-- `set_root_page`, `set_start_free_page`, `set_num_free_page` (`/repo/sources/files.h:77-97`); the fields are `uint32_t`. -/
def setRoot (v : Nat) : BM Unit := fun s => .ok ((), { s with root := v % 2 ^ 32 })

/-- See `setRoot`; `/repo/sources/files.h:85-89`. -/
def setStart (v : Nat) : BM Unit := fun s => .ok ((), { s with start := v % 2 ^ 32 })

/-- See `setRoot`; `/repo/sources/files.h:93-97`. -/
def setNfree (v : Nat) : BM Unit := fun s => .ok ((), { s with nfree := v % 2 ^ 32 })

/-- `allocate_page` when the free list is empty (`/repo/sources/btree_dir.cpp:160-162`). -/
def extendFile : BM Nat := fun s =>
  .ok (s.data.length / pageSize % 2 ^ 32, { s with data := Spec.resize s.data (s.data.length + pageSize) })

/-- The end of `allocate_page` (`/repo/sources/btree_dir.cpp:168-173`): the new first free page has no predecessor. -/
def fixHead (next : Nat) : BM Unit :=
  if next = invalidPage then pure ()
  else do
    let fp ← readFreePage next
    let s ← getSt
    writeFreePage s.start fp.1 invalidPage

/-- `allocate_page` taking the first free page (`/repo/sources/btree_dir.cpp:164-174`). -/
def popFree (pg : Nat) : BM Nat := do
  let fp ← readFreePage pg
  let s ← getSt
  setNfree (s.nfree + (2 ^ 32 - 1))
  setStart fp.1
  fixHead fp.1
  pure pg

/-- `allocate_page` (`/repo/sources/btree_dir.cpp:155-175`). -/
def allocatePage : BM Nat := do
  let s ← getSt
  if s.start = invalidPage then extendFile else popFree s.start

/-- `deallocate_page`, second half of the free-list case (`/repo/sources/btree_dir.cpp:191-197`). -/
def linkBack (start num : Nat) : BM Unit :=
  if start = invalidPage then pure ()
  else do
    let fp ← readFreePage start
    writeFreePage start fp.1 num

/-- `deallocate_page` (`/repo/sources/btree_dir.cpp:177-200`). -/
def deallocatePage (num : Nat) : BM Unit := do
  let s ← getSt
  if pageOff num = s.data.length then
    setSt { s with data := Spec.resize s.data ((num + (2 ^ 32 - 1)) * pageSize % 2 ^ 32) }
  else do
    writeFreePage num s.start invalidPage
    linkBack s.start num
    setStart num
    setNfree (s.nfree + 1)

/-! ## The cache -/

/-- `BtreeNode::is_leaf` (`/repo/sources/btree_dir.h:83-90`). -/
def isLeaf (n : BNode) : BM Bool :=
  if n.children = [] then pure true
  else if n.children.length = n.entries.length + 1 then pure false
  else bthrow .corrupt

/-- `m_node_cache.find(num)` (`/repo/sources/btree_dir.cpp:314,322`). -/
def cacheFind (s : BSt) (num : Nat) : Option BNode := s.cache.lookup num

/-- Using the pointer to the node of page `num`, e.g. `/repo/sources/btree_dir.cpp:351`. -/
def deref (num : Nat) : BM BNode := fun s =>
  match cacheFind s num with
  | some n => .ok (n, s)
  | none => .error .outOfBounds

/-- `m_node_cache.erase(num)` (`/repo/sources/btree_dir.cpp:518`). -/
def cacheErase (num : Nat) : BM Unit := fun s => .ok ((), { s with cache := s.cache.filter (·.1 != num) })

/-- The node of page `num` is changed through its pointer (`mutable_...` of `/repo/sources/btree_dir.h:78-106`), or
    put into the cache (`/repo/sources/btree_dir.cpp:332`). -/
def cachePut (num : Nat) (n : BNode) : BM Unit := fun s =>
  .ok ((), { s with cache := (num, n) :: s.cache.filter (·.1 != num) })

/-- `mutable_entries() = es` (`/repo/sources/btree_dir.h:97-101`). -/
def setEntries (num : Nat) (es : List DirEntry) : BM Unit := do
  let n ← deref num
  cachePut num { n with entries := es, dirty := true }

/-- `mutable_children() = cs` (`/repo/sources/btree_dir.h:102-106`). -/
def setChildren (num : Nat) (cs : List Nat) : BM Unit := do
  let n ← deref num
  cachePut num { n with children := cs, dirty := true }

/-- `mutable_parent_page_number() = parent` (`/repo/sources/btree_dir.h:78-82`). -/
def setParent (num parent : Nat) : BM Unit := do
  let n ← deref num
  cachePut num { n with parent := parent, dirty := true }

/-- `read_node` (`/repo/sources/btree_dir.cpp:396-403`) into a fresh node; the result of `from_buffer` is not used
    by the caller, so a page that is not a node gives an empty node. -/
def readNode (num : Nat) : BM (List Nat × List DirEntry) :=
  if num = invalidPage then bthrow .corrupt
  else do
    let buf ← readPage num
    let r ← lift (fromBuffer buf)
    pure (r.getD ([], []))

/-- `write_node` (`/repo/sources/btree_dir.cpp:405-412`); the rest of the buffer is uninitialised. -/
def writeNode (C : BCfg) (num : Nat) (n : BNode) : BM Unit :=
  if num = invalidPage then bthrow .corrupt
  else do
    let buf ← lift (toBuffer pageSize n)
    writePage num (buf ++ (C.junk num ++ zeros pageSize).take (pageSize - buf.length))

/-- `retrieve_node` for a page that is not cached (`/repo/sources/btree_dir.cpp:329-333`). -/
def loadNode (parent num : Nat) : BM Nat := do
  let c ← readNode num
  cachePut num ⟨parent, num, c.1, c.2, false⟩
  pure num

/-- `retrieve_node` (`/repo/sources/btree_dir.cpp:320-334`). -/
def retrieveNode (parent num : Nat) : BM Nat := do
  let s ← getSt
  match cacheFind s num with
  | some n => do
    dirCheck (parent == invalidPage || parent == n.parent)
    pure num
  | none => loadNode parent num

/-- `get_root_node` (`/repo/sources/btree_dir.cpp:365-371`). -/
def getRootNode : BM (Option Nat) := do
  let s ← getSt
  if s.root = invalidPage then pure none
  else do
    let p ← retrieveNode invalidPage s.root
    pure (some p)

/-! ## Looking up -/

/-- `std::lower_bound` (used in `/repo/sources/btree_dir.cpp:351-355,455-456`): binary search in the `len` elements
    from `first` on; `lt` is the comparison with the sought value. -/
def lowerBoundLoop (lt : DirEntry → Bool) (es : List DirEntry) : (fuel first len : Nat) → Nat
  | 0, first, _ => first
  | fuel + 1, first, len =>
    if len = 0 then first
    else
      match es[first + len / 2]? with
      | none => first
      | some e =>
        if lt e then lowerBoundLoop lt es fuel (first + len / 2 + 1) (len - (len / 2 + 1))
        else lowerBoundLoop lt es fuel first (len / 2)

/-- `std::lower_bound(es.begin(), es.end(), ...)`; see `lowerBoundLoop` (`/repo/sources/btree_dir.cpp:351-355`). -/
def lowerBound (lt : DirEntry → Bool) (es : List DirEntry) : Nat := lowerBoundLoop lt es es.length 0 es.length

/-- The comparison of an entry with a name (`/repo/sources/btree_dir.cpp:354-355`,
    `/repo/sources/btree_dir.h:186-190`). -/
def BCfg.before (C : BCfg) (name : Bytes) (e : DirEntry) : Bool := decide (C.cmp e.name name < 0)

/-- `iter != end && cmpfn_(name, iter->filename) == 0` (`/repo/sources/btree_dir.cpp:356`). -/
def BCfg.hit (C : BCfg) (name : Bytes) (es : List DirEntry) (i : Nat) : Bool :=
  match es[i]? with
  | none => false
  | some e => C.cmp name e.name == 0

/-- The loop of `find_node` (`/repo/sources/btree_dir.cpp:349-362`); `fuel` counts the levels still allowed. -/
def findLoop (C : BCfg) (name : Bytes) : (fuel : Nat) → (p : Nat) → BM (Nat × Nat × Bool)
  | 0, _ => bthrow .corrupt
  | fuel + 1, p => do
    let n ← deref p
    if C.hit name n.entries (lowerBound (C.before name) n.entries) then
      pure (p, lowerBound (C.before name) n.entries, true)
    else do
      let leaf ← isLeaf n
      if leaf then pure (p, lowerBound (C.before name) n.entries, false)
      else
        match n.children[lowerBound (C.before name) n.entries]? with
        | none => bthrow .outOfRange
        | some c => do
          let q ← retrieveNode p c
          findLoop C name fuel q

/-- `find_node` (`/repo/sources/btree_dir.cpp:344-363`). -/
def findNode (C : BCfg) (name : Bytes) : BM (Option (Nat × Nat × Bool)) := do
  let r ← getRootNode
  match r with
  | none => pure none
  | some p => do
    let x ← findLoop C name btMaxDepth p
    pure (some x)

/-- The end of `get_entry_impl` (`/repo/sources/btree_dir.cpp:386-393`). -/
def entryAt (C : BCfg) (name : Bytes) (p i : Nat) : BM (Option DirEntry) := do
  let n ← deref p
  match n.entries[i]? with
  | none => bthrow .outOfRange
  | some e => pure (if C.cmp name e.name == 0 then some e else none)

/-- `get_entry_impl` (`/repo/sources/btree_dir.cpp:373-394`): stored name, id and type. -/
def getEntry (C : BCfg) (name : Bytes) : BM (Option DirEntry) :=
  if name.length > maxFilename then bthrow (.vfs eNAMETOOLONG)
  else do
    let r ← findNode C name
    match r with
    | some (p, i, true) => entryAt C name p i
    | _ => pure none

/-! ## Adding -/

/-- `adjust_children_in_cache` (`/repo/sources/btree_dir.cpp:441-449`) for the list of children. -/
def adjustChildren (parent : Nat) : List Nat → BM Unit
  | [] => pure ()
  | c :: cs => do
    let s ← getSt
    match cacheFind s c with
    | some _ => do
      setParent c parent
      adjustChildren parent cs
    | none => adjustChildren parent cs

/-- The insertion into the vectors of a node (`/repo/sources/btree_dir.cpp:457-459`). -/
def insertHere (p i : Nat) (e : DirEntry) (additional : Nat) : BM Unit := do
  let n ← deref p
  if additional = invalidPage then
    setEntries p (n.entries.take i ++ e :: n.entries.drop i)
  else do
    let leaf ← isLeaf n
    if leaf then setEntries p (n.entries.take i ++ e :: n.entries.drop i)
    else do
      dirCheck (decide (i + 1 ≤ n.children.length))
      setChildren p (n.children.take (i + 1) ++ additional :: n.children.drop (i + 1))
      setEntries p (n.entries.take i ++ e :: n.entries.drop i)

/-- Moving the upper part of a full node into its new sibling (`/repo/sources/btree_dir.cpp:464-472`), for the
    middle index `m`. -/
def splitInto (p q m : Nat) : BM Unit := do
  let n ← deref p
  let leaf ← isLeaf n
  if leaf then do
    setEntries q (n.entries.drop (m + 1))
    setEntries p (n.entries.take m)
  else do
    setChildren q (n.children.drop (m + 1))
    setChildren p (n.children.take (m + 1))
    adjustChildren q (n.children.drop (m + 1))
    setEntries q (n.entries.drop (m + 1))
    setEntries p (n.entries.take m)

/-- A new root above `p` and `q` (`/repo/sources/btree_dir.cpp:475-482`). -/
def growRoot (p q : Nat) (e : DirEntry) : BM Unit := do
  let a ← allocatePage
  let r ← retrieveNode invalidPage a
  setChildren r [p, q]
  setEntries r [e]
  setRoot a
  setParent p a
  setParent q a

/-- `insert_and_balance` (`/repo/sources/btree_dir.cpp:452-492`); `fuel` is `BTREE_MAX_DEPTH - depth`. -/
def insertBalance (C : BCfg) : (fuel : Nat) → (p : Nat) → DirEntry → (additional : Nat) → BM Unit
  | 0, _, _, _ => bthrow .corrupt
  | fuel + 1, p, e, additional => do
    let n ← deref p
    insertHere p (lowerBound (C.before e.name) n.entries) e additional
    let n ← deref p
    if n.entries.length > btMaxEntries then do
      let a ← allocatePage
      let q ← retrieveNode n.parent a
      match n.entries[n.entries.length / 2 - 1]? with
      | none => bthrow .outOfBounds
      | some e => do
        splitInto p q (n.entries.length / 2 - 1)
        if n.parent = invalidPage then growRoot p q e
        else do
          let _ ← deref n.parent
          insertBalance C fuel n.parent e q
    else pure ()

/-- The first entry of a directory (`/repo/sources/btree_dir.cpp:430-434`).  `get_root_node` cannot return null here
    unless the allocated page is `INVALID_PAGE`. -/
def addFirst (e : DirEntry) : BM Unit := do
  let a ← allocatePage
  setRoot a
  let r ← getRootNode
  match r with
  | none => bthrow .outOfBounds
  | some p => do
    let n ← deref p
    setEntries p (n.entries ++ [e])

/-- `add_entry_impl` (`/repo/sources/btree_dir.cpp:414-439`). -/
def addEntry (C : BCfg) (e : DirEntry) : BM Bool :=
  if e.name.length > maxFilename then bthrow (.vfs eNAMETOOLONG)
  else do
    let r ← findNode C e.name
    match r with
    | none => do
      addFirst e
      pure true
    | some (p, _, found) =>
      if found then pure false
      else do
        insertBalance C btMaxDepth p e invalidPage
        pure true

/-! ## Removing -/

/-- The loop of `replace_with_sub_entry` (`/repo/sources/btree_dir.cpp:505-506`): to the last leaf below `p`.  The
    loop of the code has no bound; `fuel` is the number of pages, so running out means a cycle. -/
def lastLeaf : (fuel : Nat) → (p : Nat) → BM Nat
  | 0, _ => bthrow .diverge
  | fuel + 1, p => do
    let n ← deref p
    let leaf ← isLeaf n
    if leaf then pure p
    else
      match n.children.getLast? with
      | none => bthrow .outOfBounds
      | some c => do
        let q ← retrieveNode p c
        lastLeaf fuel q

/-- The second case of `replace_with_sub_entry` (`/repo/sources/btree_dir.cpp:504-509`). -/
def replaceInner (p i : Nat) : BM Nat := do
  let n ← deref p
  match n.children[i]? with
  | none => bthrow .outOfRange
  | some c => do
    let q ← retrieveNode p c
    let s ← getSt
    let l ← lastLeaf (s.data.length / pageSize + 1) q
    let ln ← deref l
    match ln.entries.getLast? with
    | none => bthrow .outOfBounds
    | some e => do
      let n ← deref p
      dirCheck (decide (i < n.entries.length))
      setEntries p (n.entries.set i e)
      let ln ← deref l
      setEntries l ln.entries.dropLast
      pure l

/-- `replace_with_sub_entry` (`/repo/sources/btree_dir.cpp:494-511`), called with depth 0. -/
def replaceWithSub (p i : Nat) : BM Nat := do
  let n ← deref p
  let leaf ← isLeaf n
  if leaf then do
    dirCheck (decide (i < n.entries.length))
    setEntries p (n.entries.eraseIdx i)
    pure p
  else replaceInner p i

/-- `del_node` (`/repo/sources/btree_dir.cpp:513-519`) for a non-null pointer. -/
def delNode (p : Nat) : BM Unit := do
  let n ← deref p
  deallocatePage n.num
  cacheErase n.num

/-- `find_sibling` (`/repo/sources/btree_dir.cpp:521-536`). -/
def findSibling (parent node : Nat) : BM (Nat × Nat) := do
  let pn ← deref parent
  let n ← deref node
  dirCheck (parent == n.parent)
  match pn.children.idxOf? node with
  | none => bthrow .corrupt
  | some i =>
    if i + 1 = pn.children.length then
      if i = 0 then bthrow .outOfRange
      else
        match pn.children[i - 1]? with
        | none => bthrow .outOfRange
        | some c => do
          let q ← retrieveNode parent c
          pure (i - 1, q)
    else
      match pn.children[i + 1]? with
      | none => bthrow .outOfRange
      | some c => do
        let q ← retrieveNode parent c
        pure (i, q)

/-- The children part of `rotate` (`/repo/sources/btree_dir.cpp:556-567`). -/
def rotateChildren (left right middle : Nat) (lc rc : List Nat) : BM Unit :=
  if lc = [] ∨ rc = [] then pure ()
  else do
    setChildren left ((lc ++ rc).take (middle + 1))
    setChildren right ((lc ++ rc).drop (middle + 1))
    adjustChildren left ((lc ++ rc).take (middle + 1))
    adjustChildren right ((lc ++ rc).drop (middle + 1))

/-- `rotate` (`/repo/sources/btree_dir.cpp:538-568`); `separator` is entry `i` of `parent`. -/
def rotate (left right parent i : Nat) : BM Unit := do
  let ln ← deref left
  let rn ← deref right
  let pn ← deref parent
  match pn.entries[i]? with
  | none => bthrow .outOfRange
  | some sep =>
    match (ln.entries ++ sep :: rn.entries)[(ln.entries ++ sep :: rn.entries).length / 2]? with
    | none => bthrow .outOfRange
    | some e => do
      setEntries parent (pn.entries.set i e)
      setEntries left ((ln.entries ++ sep :: rn.entries).take ((ln.entries ++ sep :: rn.entries).length / 2))
      setEntries right ((ln.entries ++ sep :: rn.entries).drop ((ln.entries ++ sep :: rn.entries).length / 2 + 1))
      rotateChildren left right ((ln.entries ++ sep :: rn.entries).length / 2) ln.children rn.children

/-- `merge` (`/repo/sources/btree_dir.cpp:570-584`).  Erasing a child that is not found is undefined behaviour. -/
def merge (left right parent i : Nat) : BM Unit := do
  let ln ← deref left
  let pn ← deref parent
  match pn.entries[i]? with
  | none => bthrow .outOfRange
  | some sep => do
    setEntries left (ln.entries ++ [sep])
    setEntries parent (pn.entries.eraseIdx i)
    match pn.children.idxOf? right with
    | none => bthrow .outOfBounds
    | some j => do
      setChildren parent (pn.children.eraseIdx j)
      let rn ← deref right
      let ln ← deref left
      setEntries left (ln.entries ++ rn.entries)
      adjustChildren left rn.children
      let ln ← deref left
      setChildren left (ln.children ++ rn.children)
      delNode right

/-- The choice between `merge` and `rotate` (`/repo/sources/btree_dir.cpp:609-622`). -/
def rebalance (C : BCfg) (p sibling parent i : Nat) : BM Unit := do
  let n ← deref p
  let sn ← deref sibling
  match n.entries.getLast?, sn.entries.head? with
  | some a, some b =>
    if n.entries.length + sn.entries.length < btMaxEntries then
      if C.before b.name a then merge p sibling parent i else merge sibling p parent i
    else
      if C.before b.name a then rotate p sibling parent i else rotate sibling p parent i
  | _, _ => bthrow .outOfBounds

/-- The removal of an empty root (`/repo/sources/btree_dir.cpp:593-597`). -/
def shrinkRoot (p : Nat) : BM Unit := do
  let n ← deref p
  match n.children with
  | [c] => do
    adjustChildren invalidPage [c]
    setRoot c
    delNode p
  | _ => bthrow .corrupt

/-- `balance_up` (`/repo/sources/btree_dir.cpp:587-625`); `fuel` is `BTREE_MAX_DEPTH - depth`. -/
def balanceUp (C : BCfg) : (fuel : Nat) → (p : Nat) → BM Unit
  | 0, _ => bthrow .corrupt
  | fuel + 1, p => do
    let n ← deref p
    if n.parent = invalidPage ∧ n.entries = [] ∧ n.children ≠ [] then shrinkRoot p
    else if n.parent = invalidPage ∨ n.entries.length ≥ btMaxEntries / 2 then pure ()
    else do
      let s ← getSt
      dirCheck (cacheFind s n.parent).isSome
      let sib ← findSibling n.parent p
      rebalance C p sib.2 n.parent sib.1
      balanceUp C fuel n.parent

/-- `remove_entry_impl` after the search (`/repo/sources/btree_dir.cpp:639-645`). -/
def removeAt (C : BCfg) (p i : Nat) : BM (Option DirEntry) := do
  let n ← deref p
  match n.entries[i]? with
  | none => bthrow .outOfRange
  | some e => do
    let l ← replaceWithSub p i
    balanceUp C btMaxDepth l
    pure (some e)

/-- `remove_entry_impl` (`/repo/sources/btree_dir.cpp:627-646`): the removed entry, or `none` for the result
    `false`. -/
def removeEntry (C : BCfg) (name : Bytes) : BM (Option DirEntry) :=
  if name.length > maxFilename then bthrow (.vfs eNAMETOOLONG)
  else do
    let r ← findNode C name
    match r with
    | some (p, i, true) => removeAt C p i
    | _ => pure none

/-! ## Listing, flushing, rebuilding -/

/-- The loop over the children in `recursive_iterate` (`/repo/sources/btree_dir.cpp:727-728`). -/
def iterChildren (rec : Nat → BM (List DirEntry)) (p : Nat) : List Nat → BM (List DirEntry)
  | [] => pure []
  | c :: cs => do
    let q ← retrieveNode p c
    let a ← rec q
    let b ← iterChildren rec p cs
    pure (a ++ b)

/-- `recursive_iterate` and `mutable_recursive_iterate` (`/repo/sources/btree_dir.cpp:721-739`): the entries in the
    order of the calls of the callback; `fuel` is `BTREE_MAX_DEPTH - depth`.  The mutable variant, used by
    `rebuild` only, moves the entries out of nodes that are dropped right after, which is not modelled. -/
def iterNode : (fuel : Nat) → (p : Nat) → BM (List DirEntry)
  | 0, _ => bthrow .corrupt
  | fuel + 1, p => do
    let n ← deref p
    let r ← iterChildren (iterNode fuel) p n.children
    pure (n.entries ++ r)

/-- `iterate_over_entries_impl` (`/repo/sources/btree_dir.cpp:741-746`). -/
def iterateEntries : BM (List DirEntry) := do
  let r ← getRootNode
  match r with
  | none => pure []
  | some p => iterNode btMaxDepth p

/-- `empty` (`/repo/sources/btree_dir.cpp:766-770`). -/
def dirEmpty : BM Bool := do
  let r ← getRootNode
  match r with
  | none => pure true
  | some p => do
    let n ← deref p
    pure (n.entries == [])

/-- The loop of `rebuild` that adds the entries again (`/repo/sources/btree_dir.cpp:762-763`). -/
def addAll (C : BCfg) : List DirEntry → BM Unit
  | [] => pure ()
  | e :: es => do
    let _ ← addEntry C e
    addAll C es

/-- `rebuild` (`/repo/sources/btree_dir.cpp:748-764`). -/
def rebuild (C : BCfg) : BM Unit := do
  let r ← getRootNode
  match r with
  | none => pure ()
  | some p => do
    let es ← iterNode btMaxDepth p
    let s ← getSt
    setSt { s with cache := [], data := Spec.resize s.data 0, nfree := 0, start := invalidPage, root := invalidPage }
    addAll C es

/-- The loop of `flush_cache` (`/repo/sources/btree_dir.cpp:272-280`) over the pages `ps`. -/
def flushPages (C : BCfg) : List Nat → BM Unit
  | [] => pure ()
  | p :: ps => do
    let n ← deref p
    if n.dirty then do
      writeNode C n.num n
      cachePut p { n with dirty := false }
      flushPages C ps
    else flushPages C ps

/-- `flush_cache` (`/repo/sources/btree_dir.cpp:270-281`). -/
def flushCache (C : BCfg) : BM Unit := do
  let s ← getSt
  flushPages C (C.order (s.cache.map Prod.fst))

/-- `subflush` (`/repo/sources/btree_dir.cpp:336-342`). -/
def subflush (C : BCfg) : BM Unit := do
  let s ← getSt
  if s.nfree > 5 ∧ s.nfree > s.data.length / (pageSize * 3 / 2) then do
    rebuild C
    flushCache C
  else flushCache C

/-- Closing the directory and opening it again: `flush` (`/repo/sources/files.cpp:247-279`), then a new object on
    the same file, with the flags read back from the header (`/repo/sources/files.cpp:183-218`). -/
def reopenDir (C : BCfg) : BM Unit := do
  subflush C
  let s ← getSt
  setSt { s with cache := [] }

/-- The state of a new directory (`/repo/sources/files.cpp:83-99`). -/
def emptyDir : BSt := ⟨[], [], invalidPage, invalidPage, 0⟩

/-- `validate_free_list` (`/repo/sources/btree_dir.cpp:648-662`): the loop with `k` pages to go. -/
def validateFreeLoop : (k : Nat) → (pg prev : Nat) → BM Bool
  | 0, pg, _ => pure (pg == invalidPage)
  | k + 1, pg, prev => do
    let fp ← readFreePage pg
    if fp.2 ≠ prev then pure false else validateFreeLoop k fp.1 pg

/-- `validate_free_list` (`/repo/sources/btree_dir.cpp:648-662`). -/
def validateFreeList : BM Bool := do
  let s ← getSt
  validateFreeLoop s.nfree s.start invalidPage

end Securefs

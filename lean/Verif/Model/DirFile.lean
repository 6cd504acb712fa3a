import Verif.Model.FileObj
import Verif.Spec.Btree
/-!
# A directory of the full format in its encrypted file

Models `BtreeDirectory` as it is: the functions of `/repo/sources/btree_dir.cpp` over the object of `Verif/Model/FileObj.lean`, that is
over encrypted, authenticated and padded backing files, with the root page and the free list in the encrypted header, and with the
times that `Directory` sets (`/repo/sources/files.h:453-487`).  The functions are those of `Verif/Model/Btree.lean`, which has an ideal
byte array in place of the file; what does not touch the file (page format, `std::lower_bound`) is taken from there.

An exception leaves the object as it was when it was thrown.
-/

namespace Securefs.DirFile

open Securefs

/-- An object of class `BtreeDirectory` (`/repo/sources/btree_dir.h:111-119`, `/repo/sources/files.h:46-73`): what is common to the
    volume, `m_id`, the parts of `FileBase`, and `m_node_cache`. -/
structure DirObj where
  env : FileEnv
  id : Bytes
  file : OpenFile
  cache : List (Nat × BNode)

/-- `get_root_page()` (`/repo/sources/files.h:75`). -/
def DirObj.root (s : DirObj) : Nat := s.file.attr.rootPage.toNat
/-- `get_start_free_page()` (`/repo/sources/files.h:83`). -/
def DirObj.start (s : DirObj) : Nat := s.file.attr.startFree.toNat
/-- `get_num_free_page()` (`/repo/sources/files.h:91`). -/
def DirObj.nfree (s : DirObj) : Nat := s.file.attr.numFree.toNat
/-- `m_stream->size()`, e.g. `/repo/sources/btree_dir.cpp:160`. -/
def DirObj.size (s : DirObj) : Nat := (s.env.stream s.id s.file).size s.file.st

/-- Computations on a directory: they change the object, and return a value or throw (member functions of
    `/repo/sources/btree_dir.cpp:1-787`). -/
def DM (α : Type) := DirObj → Res α × DirObj

/-- Running one thing after the other; an exception ends the run (C++ control flow in `/repo/sources/btree_dir.cpp`). -/
instance : Monad DM where
  pure a := fun s => (.ok a, s)
  bind m f := fun s =>
    match m s with
    | (.ok a, s') => f a s'
    | (.error e, s') => (.error e, s')

/-- Throwing an exception (C++ `throw`, used throughout `/repo/sources/btree_dir.cpp`). -/
def bthrow {α : Type} (e : Err) : DM α := fun s => (.error e, s)

/-- Running a stateless computation (plumbing of the model for calls such as `/repo/sources/btree_dir.cpp:402`). -/
def lift {α : Type} (r : Res α) : DM α := fun s => (r, s)

/-- Reading the object (plumbing of the model for member access in `/repo/sources/btree_dir.cpp`). -/
def getSt : DM DirObj := fun s => (.ok s, s)

/-- `dir_check` (`/repo/sources/btree_dir.cpp:14-20`). -/
def dirCheck (c : Bool) : DM Unit := if c then pure () else bthrow .corrupt

/-! ## The file -/

/-- `m_stream->read` (`/repo/sources/btree_dir.cpp:137-138,400-401`). -/
def readStream (off len : Nat) : DM Bytes := fun s => ((s.env.stream s.id s.file).read s.file.st off len, s)

/-- `m_stream->write` (`/repo/sources/btree_dir.cpp:152,411`). -/
def writeStream (off : Nat) (d : Bytes) : DM Unit := fun s =>
  match (s.env.stream s.id s.file).write s.file.st off d with
  | .ok st => (.ok (), { s with file := { s.file with st := st } })
  | .error e => (.error e, s)

/-- `m_stream->resize` (`/repo/sources/btree_dir.cpp:161,181,758`). -/
def resizeStream (n : Nat) : DM Unit := fun s =>
  match (s.env.stream s.id s.file).resize s.file.st n with
  | .ok st => (.ok (), { s with file := { s.file with st := st } })
  | .error e => (.error e, s)

/-- Changing attributes (plumbing of the model for `/repo/sources/files.h:75-97,283-309`). -/
def modifyAttr (g : FileAttr → FileAttr) : DM Unit := fun s => (.ok (), { s with file := { s.file with attr := g s.file.attr } })

/-- `update_mtime_helper` (`/repo/sources/files.h:292-300`). -/
def touchMtime (now : TimeSpec) : DM Unit := fun s =>
  (.ok (), { s with file := { s.file with attr := s.file.attr.touchMtime s.env.storeTime now } })

/-- `update_atime_helper` (`/repo/sources/files.h:283-290`). -/
def touchAtime (now : TimeSpec) : DM Unit := fun s =>
  (.ok (), { s with file := { s.file with attr := s.file.attr.touchAtime s.env.storeTime now } })

/-- `clear_cache` (`/repo/sources/btree_dir.cpp:310`). -/
def clearCache : DM Unit := fun s => (.ok (), { s with cache := [] })

/-- `m_stream->read(buffer, num * BLOCK_SIZE, BLOCK_SIZE)` with the check of the length
    (`/repo/sources/btree_dir.cpp:137-138,400-401`). -/
def readPage (num : Nat) : DM Bytes := do
  let b ← readStream (pageOff num) pageSize
  dirCheck (b.length == pageSize)
  pure b

/-- `m_stream->write(buffer, num * BLOCK_SIZE, BLOCK_SIZE)` (`/repo/sources/btree_dir.cpp:152,411`). -/
def writePage (num : Nat) (buf : Bytes) : DM Unit := writeStream (pageOff num) buf

/-- `read_free_page` (`/repo/sources/btree_dir.cpp:135-145`): `next` and `prev`. -/
def readFreePage (num : Nat) : DM (Nat × Nat) := do
  let buf ← readPage num
  let flag ← lift (fromLE 4 buf)
  dirCheck (flag == 0)
  let next ← lift (fromLE 4 (buf.drop 4))
  let prev ← lift (fromLE 4 (buf.drop 8))
  pure (next, prev)

/-- `write_free_page` (`/repo/sources/btree_dir.cpp:147-153`). -/
def writeFreePage (num next prev : Nat) : DM Unit :=
  writePage num (zeros 4 ++ toLE 4 next ++ toLE 4 prev ++ zeros (pageSize - 12))

/-- `set_root_page` (`/repo/sources/files.h:77-81`). -/
def setRoot (v : Nat) : DM Unit := modifyAttr (FileAttr.setRootPage (UInt32.ofNat v))

/-- `set_start_free_page` (`/repo/sources/files.h:85-89`). -/
def setStart (v : Nat) : DM Unit := modifyAttr (FileAttr.setStartFree (UInt32.ofNat v))

/-- `set_num_free_page` (`/repo/sources/files.h:93-97`). -/
def setNfree (v : Nat) : DM Unit := modifyAttr (FileAttr.setNumFree (UInt32.ofNat v))

/-- `allocate_page` when the free list is empty (`/repo/sources/btree_dir.cpp:160-162`). -/
def extendFile : DM Nat := do
  let s ← getSt
  resizeStream (s.size + pageSize)
  pure (s.size / pageSize % 2 ^ 32)

/-- The end of `allocate_page` (`/repo/sources/btree_dir.cpp:168-173`): the new first free page has no predecessor. -/
def fixHead (next : Nat) : DM Unit :=
  if next = invalidPage then pure ()
  else do
    let fp ← readFreePage next
    let s ← getSt
    writeFreePage s.start fp.1 invalidPage

/-- `allocate_page` taking the first free page (`/repo/sources/btree_dir.cpp:164-174`). -/
def popFree (pg : Nat) : DM Nat := do
  let fp ← readFreePage pg
  let s ← getSt
  setNfree (s.nfree + (2 ^ 32 - 1))
  setStart fp.1
  fixHead fp.1
  pure pg

/-- `allocate_page` (`/repo/sources/btree_dir.cpp:155-175`). -/
def allocatePage : DM Nat := do
  let s ← getSt
  if s.start = invalidPage then extendFile else popFree s.start

/-- `deallocate_page`, second half of the free-list case (`/repo/sources/btree_dir.cpp:191-197`). -/
def linkBack (start num : Nat) : DM Unit :=
  if start = invalidPage then pure ()
  else do
    let fp ← readFreePage start
    writeFreePage start fp.1 num

/-- `deallocate_page` (`/repo/sources/btree_dir.cpp:177-200`). -/
def deallocatePage (num : Nat) : DM Unit := do
  let s ← getSt
  if pageOff num = s.size then
    resizeStream ((num + (2 ^ 32 - 1)) * pageSize % 2 ^ 32)
  else do
    writeFreePage num s.start invalidPage
    linkBack s.start num
    setStart num
    setNfree (s.nfree + 1)

/-! ## The cache -/

/-- `BtreeNode::is_leaf` (`/repo/sources/btree_dir.h:83-90`). -/
def isLeaf (n : BNode) : DM Bool :=
  if n.children = [] then pure true
  else if n.children.length = n.entries.length + 1 then pure false
  else bthrow .corrupt

/-- `m_node_cache.find(num)` (`/repo/sources/btree_dir.cpp:314,322`). -/
def cacheFind (s : DirObj) (num : Nat) : Option BNode := s.cache.lookup num

/-- Using the pointer to the node of page `num`, e.g. `/repo/sources/btree_dir.cpp:351`. -/
def deref (num : Nat) : DM BNode := fun s =>
  match cacheFind s num with
  | some n => (.ok n, s)
  | none => (.error .outOfBounds, s)

/-- `m_node_cache.erase(num)` (`/repo/sources/btree_dir.cpp:518`). -/
def cacheErase (num : Nat) : DM Unit := fun s => (.ok (), { s with cache := s.cache.filter (·.1 != num) })

/-- The node of page `num` is changed through its pointer (`mutable_...` of `/repo/sources/btree_dir.h:78-106`), or
    put into the cache (`/repo/sources/btree_dir.cpp:332`). -/
def cachePut (num : Nat) (n : BNode) : DM Unit := fun s =>
  (.ok (), { s with cache := (num, n) :: s.cache.filter (·.1 != num) })

/-- `mutable_entries() = es` (`/repo/sources/btree_dir.h:97-101`). -/
def setEntries (num : Nat) (es : List DirEntry) : DM Unit := do
  let n ← deref num
  cachePut num { n with entries := es, dirty := true }

/-- `mutable_children() = cs` (`/repo/sources/btree_dir.h:102-106`). -/
def setChildren (num : Nat) (cs : List Nat) : DM Unit := do
  let n ← deref num
  cachePut num { n with children := cs, dirty := true }

/-- `mutable_parent_page_number() = parent` (`/repo/sources/btree_dir.h:78-82`). -/
def setParent (num parent : Nat) : DM Unit := do
  let n ← deref num
  cachePut num { n with parent := parent, dirty := true }

/-- `read_node` (`/repo/sources/btree_dir.cpp:396-403`) into a fresh node; the result of `from_buffer` is not used
    by the caller, so a page that is not a node gives an empty node. -/
def readNode (num : Nat) : DM (List Nat × List DirEntry) :=
  if num = invalidPage then bthrow .corrupt
  else do
    let buf ← readPage num
    let r ← lift (fromBuffer buf)
    pure (r.getD ([], []))

/-- `write_node` (`/repo/sources/btree_dir.cpp:405-412`); the rest of the buffer is uninitialised. -/
def writeNode (C : BCfg) (num : Nat) (n : BNode) : DM Unit :=
  if num = invalidPage then bthrow .corrupt
  else do
    let buf ← lift (toBuffer pageSize n)
    writePage num (buf ++ (C.junk num ++ zeros pageSize).take (pageSize - buf.length))

/-- `retrieve_node` for a page that is not cached (`/repo/sources/btree_dir.cpp:329-333`). -/
def loadNode (parent num : Nat) : DM Nat := do
  let c ← readNode num
  cachePut num ⟨parent, num, c.1, c.2, false⟩
  pure num

/-- `retrieve_node` (`/repo/sources/btree_dir.cpp:320-334`). -/
def retrieveNode (parent num : Nat) : DM Nat := do
  let s ← getSt
  match cacheFind s num with
  | some n => do
    dirCheck (parent == invalidPage || parent == n.parent)
    pure num
  | none => loadNode parent num

/-- `get_root_node` (`/repo/sources/btree_dir.cpp:365-371`). -/
def getRootNode : DM (Option Nat) := do
  let s ← getSt
  if s.root = invalidPage then pure none
  else do
    let p ← retrieveNode invalidPage s.root
    pure (some p)

/-! ## Looking up -/

/-- The loop of `find_node` (`/repo/sources/btree_dir.cpp:349-362`); `fuel` counts the levels still allowed. -/
def findLoop (C : BCfg) (name : Bytes) : (fuel : Nat) → (p : Nat) → DM (Nat × Nat × Bool)
  | 0, _ => bthrow .corrupt
  | fuel + 1, p => do
    let n ← deref p
    if C.hit name n.entries (lowerBound (C.before name) n.entries) then
      pure (p, lowerBound (C.before name) n.entries, true)
    else do
      let leaf ← isLeaf n
      if leaf then pure (p, lowerBound (C.before name) n.entries, false)
      else
        match n.children[lowerBound (C.before name) n.entries]? with
        | none => bthrow .outOfRange
        | some c => do
          let q ← retrieveNode p c
          findLoop C name fuel q

/-- `find_node` (`/repo/sources/btree_dir.cpp:344-363`). -/
def findNode (C : BCfg) (name : Bytes) : DM (Option (Nat × Nat × Bool)) := do
  let r ← getRootNode
  match r with
  | none => pure none
  | some p => do
    let x ← findLoop C name btMaxDepth p
    pure (some x)

/-- The end of `get_entry_impl` (`/repo/sources/btree_dir.cpp:386-393`). -/
def entryAt (C : BCfg) (name : Bytes) (p i : Nat) : DM (Option DirEntry) := do
  let n ← deref p
  match n.entries[i]? with
  | none => bthrow .outOfRange
  | some e => pure (if C.cmp name e.name == 0 then some e else none)

/-- `get_entry_impl` (`/repo/sources/btree_dir.cpp:373-394`): stored name, id and type. -/
def getEntry (C : BCfg) (name : Bytes) : DM (Option DirEntry) :=
  if name.length > maxFilename then bthrow (.vfs eNAMETOOLONG)
  else do
    let r ← findNode C name
    match r with
    | some (p, i, true) => entryAt C name p i
    | _ => pure none

/-! ## Adding -/

/-- `adjust_children_in_cache` (`/repo/sources/btree_dir.cpp:441-449`) for the list of children. -/
def adjustChildren (parent : Nat) : List Nat → DM Unit
  | [] => pure ()
  | c :: cs => do
    let s ← getSt
    match cacheFind s c with
    | some _ => do
      setParent c parent
      adjustChildren parent cs
    | none => adjustChildren parent cs

/-- The insertion into the vectors of a node (`/repo/sources/btree_dir.cpp:457-459`). -/
def insertHere (p i : Nat) (e : DirEntry) (additional : Nat) : DM Unit := do
  let n ← deref p
  if additional = invalidPage then
    setEntries p (n.entries.take i ++ e :: n.entries.drop i)
  else do
    let leaf ← isLeaf n
    if leaf then setEntries p (n.entries.take i ++ e :: n.entries.drop i)
    else do
      dirCheck (decide (i + 1 ≤ n.children.length))
      setChildren p (n.children.take (i + 1) ++ additional :: n.children.drop (i + 1))
      setEntries p (n.entries.take i ++ e :: n.entries.drop i)

/-- Moving the upper part of a full node into its new sibling (`/repo/sources/btree_dir.cpp:464-472`), for the
    middle index `m`. -/
def splitInto (p q m : Nat) : DM Unit := do
  let n ← deref p
  let leaf ← isLeaf n
  if leaf then do
    setEntries q (n.entries.drop (m + 1))
    setEntries p (n.entries.take m)
  else do
    setChildren q (n.children.drop (m + 1))
    setChildren p (n.children.take (m + 1))
    adjustChildren q (n.children.drop (m + 1))
    setEntries q (n.entries.drop (m + 1))
    setEntries p (n.entries.take m)

/-- A new root above `p` and `q` (`/repo/sources/btree_dir.cpp:475-482`). -/
def growRoot (p q : Nat) (e : DirEntry) : DM Unit := do
  let a ← allocatePage
  let r ← retrieveNode invalidPage a
  setChildren r [p, q]
  setEntries r [e]
  setRoot a
  setParent p a
  setParent q a

/-- `insert_and_balance` (`/repo/sources/btree_dir.cpp:452-492`); `fuel` is `BTREE_MAX_DEPTH - depth`. -/
def insertBalance (C : BCfg) : (fuel : Nat) → (p : Nat) → DirEntry → (additional : Nat) → DM Unit
  | 0, _, _, _ => bthrow .corrupt
  | fuel + 1, p, e, additional => do
    let n ← deref p
    insertHere p (lowerBound (C.before e.name) n.entries) e additional
    let n ← deref p
    if n.entries.length > btMaxEntries then do
      let a ← allocatePage
      let q ← retrieveNode n.parent a
      match n.entries[n.entries.length / 2 - 1]? with
      | none => bthrow .outOfBounds
      | some e => do
        splitInto p q (n.entries.length / 2 - 1)
        if n.parent = invalidPage then growRoot p q e
        else do
          let _ ← deref n.parent
          insertBalance C fuel n.parent e q
    else pure ()

/-- The first entry of a directory (`/repo/sources/btree_dir.cpp:430-434`).  `get_root_node` cannot return null here
    unless the allocated page is `INVALID_PAGE`. -/
def addFirst (e : DirEntry) : DM Unit := do
  let a ← allocatePage
  setRoot a
  let r ← getRootNode
  match r with
  | none => bthrow .outOfBounds
  | some p => do
    let n ← deref p
    setEntries p (n.entries ++ [e])

/-- `add_entry_impl` (`/repo/sources/btree_dir.cpp:414-439`). -/
def addEntry (C : BCfg) (e : DirEntry) : DM Bool :=
  if e.name.length > maxFilename then bthrow (.vfs eNAMETOOLONG)
  else do
    let r ← findNode C e.name
    match r with
    | none => do
      addFirst e
      pure true
    | some (p, _, found) =>
      if found then pure false
      else do
        insertBalance C btMaxDepth p e invalidPage
        pure true

/-! ## Removing -/

/-- The loop of `replace_with_sub_entry` (`/repo/sources/btree_dir.cpp:505-506`): to the last leaf below `p`.  The
    loop of the code has no bound; `fuel` is the number of pages, so running out means a cycle. -/
def lastLeaf : (fuel : Nat) → (p : Nat) → DM Nat
  | 0, _ => bthrow .diverge
  | fuel + 1, p => do
    let n ← deref p
    let leaf ← isLeaf n
    if leaf then pure p
    else
      match n.children.getLast? with
      | none => bthrow .outOfBounds
      | some c => do
        let q ← retrieveNode p c
        lastLeaf fuel q

/-- The second case of `replace_with_sub_entry` (`/repo/sources/btree_dir.cpp:504-509`). -/
def replaceInner (p i : Nat) : DM Nat := do
  let n ← deref p
  match n.children[i]? with
  | none => bthrow .outOfRange
  | some c => do
    let q ← retrieveNode p c
    let s ← getSt
    let l ← lastLeaf (s.size / pageSize + 1) q
    let ln ← deref l
    match ln.entries.getLast? with
    | none => bthrow .outOfBounds
    | some e => do
      let n ← deref p
      dirCheck (decide (i < n.entries.length))
      setEntries p (n.entries.set i e)
      let ln ← deref l
      setEntries l ln.entries.dropLast
      pure l

/-- `replace_with_sub_entry` (`/repo/sources/btree_dir.cpp:494-511`), called with depth 0. -/
def replaceWithSub (p i : Nat) : DM Nat := do
  let n ← deref p
  let leaf ← isLeaf n
  if leaf then do
    dirCheck (decide (i < n.entries.length))
    setEntries p (n.entries.eraseIdx i)
    pure p
  else replaceInner p i

/-- `del_node` (`/repo/sources/btree_dir.cpp:513-519`) for a non-null pointer. -/
def delNode (p : Nat) : DM Unit := do
  let n ← deref p
  deallocatePage n.num
  cacheErase n.num

/-- `find_sibling` (`/repo/sources/btree_dir.cpp:521-536`). -/
def findSibling (parent node : Nat) : DM (Nat × Nat) := do
  let pn ← deref parent
  let n ← deref node
  dirCheck (parent == n.parent)
  match pn.children.idxOf? node with
  | none => bthrow .corrupt
  | some i =>
    if i + 1 = pn.children.length then
      if i = 0 then bthrow .outOfRange
      else
        match pn.children[i - 1]? with
        | none => bthrow .outOfRange
        | some c => do
          let q ← retrieveNode parent c
          pure (i - 1, q)
    else
      match pn.children[i + 1]? with
      | none => bthrow .outOfRange
      | some c => do
        let q ← retrieveNode parent c
        pure (i, q)

/-- The children part of `rotate` (`/repo/sources/btree_dir.cpp:556-567`). -/
def rotateChildren (left right middle : Nat) (lc rc : List Nat) : DM Unit :=
  if lc = [] ∨ rc = [] then pure ()
  else do
    setChildren left ((lc ++ rc).take (middle + 1))
    setChildren right ((lc ++ rc).drop (middle + 1))
    adjustChildren left ((lc ++ rc).take (middle + 1))
    adjustChildren right ((lc ++ rc).drop (middle + 1))

/-- `rotate` (`/repo/sources/btree_dir.cpp:538-568`); `separator` is entry `i` of `parent`. -/
def rotate (left right parent i : Nat) : DM Unit := do
  let ln ← deref left
  let rn ← deref right
  let pn ← deref parent
  match pn.entries[i]? with
  | none => bthrow .outOfRange
  | some sep =>
    match (ln.entries ++ sep :: rn.entries)[(ln.entries ++ sep :: rn.entries).length / 2]? with
    | none => bthrow .outOfRange
    | some e => do
      setEntries parent (pn.entries.set i e)
      setEntries left ((ln.entries ++ sep :: rn.entries).take ((ln.entries ++ sep :: rn.entries).length / 2))
      setEntries right ((ln.entries ++ sep :: rn.entries).drop ((ln.entries ++ sep :: rn.entries).length / 2 + 1))
      rotateChildren left right ((ln.entries ++ sep :: rn.entries).length / 2) ln.children rn.children

/-- `merge` (`/repo/sources/btree_dir.cpp:570-584`).  Erasing a child that is not found is undefined behaviour. -/
def merge (left right parent i : Nat) : DM Unit := do
  let ln ← deref left
  let pn ← deref parent
  match pn.entries[i]? with
  | none => bthrow .outOfRange
  | some sep => do
    setEntries left (ln.entries ++ [sep])
    setEntries parent (pn.entries.eraseIdx i)
    match pn.children.idxOf? right with
    | none => bthrow .outOfBounds
    | some j => do
      setChildren parent (pn.children.eraseIdx j)
      let rn ← deref right
      let ln ← deref left
      setEntries left (ln.entries ++ rn.entries)
      adjustChildren left rn.children
      let ln ← deref left
      setChildren left (ln.children ++ rn.children)
      delNode right

/-- The choice between `merge` and `rotate` (`/repo/sources/btree_dir.cpp:609-622`). -/
def rebalance (C : BCfg) (p sibling parent i : Nat) : DM Unit := do
  let n ← deref p
  let sn ← deref sibling
  match n.entries.getLast?, sn.entries.head? with
  | some a, some b =>
    if n.entries.length + sn.entries.length < btMaxEntries then
      if C.before b.name a then merge p sibling parent i else merge sibling p parent i
    else
      if C.before b.name a then rotate p sibling parent i else rotate sibling p parent i
  | _, _ => bthrow .outOfBounds

/-- The removal of an empty root (`/repo/sources/btree_dir.cpp:593-597`). -/
def shrinkRoot (p : Nat) : DM Unit := do
  let n ← deref p
  match n.children with
  | [c] => do
    adjustChildren invalidPage [c]
    setRoot c
    delNode p
  | _ => bthrow .corrupt

/-- `balance_up` (`/repo/sources/btree_dir.cpp:587-625`); `fuel` is `BTREE_MAX_DEPTH - depth`. -/
def balanceUp (C : BCfg) : (fuel : Nat) → (p : Nat) → DM Unit
  | 0, _ => bthrow .corrupt
  | fuel + 1, p => do
    let n ← deref p
    if n.parent = invalidPage ∧ n.entries = [] ∧ n.children ≠ [] then shrinkRoot p
    else if n.parent = invalidPage ∨ n.entries.length ≥ btMaxEntries / 2 then pure ()
    else do
      let s ← getSt
      dirCheck (cacheFind s n.parent).isSome
      let sib ← findSibling n.parent p
      rebalance C p sib.2 n.parent sib.1
      balanceUp C fuel n.parent

/-- `remove_entry_impl` after the search (`/repo/sources/btree_dir.cpp:639-645`). -/
def removeAt (C : BCfg) (p i : Nat) : DM (Option DirEntry) := do
  let n ← deref p
  match n.entries[i]? with
  | none => bthrow .outOfRange
  | some e => do
    let l ← replaceWithSub p i
    balanceUp C btMaxDepth l
    pure (some e)

/-- `remove_entry_impl` (`/repo/sources/btree_dir.cpp:627-646`): the removed entry, or `none` for the result
    `false`. -/
def removeEntry (C : BCfg) (name : Bytes) : DM (Option DirEntry) :=
  if name.length > maxFilename then bthrow (.vfs eNAMETOOLONG)
  else do
    let r ← findNode C name
    match r with
    | some (p, i, true) => removeAt C p i
    | _ => pure none

/-! ## Listing, flushing, rebuilding -/

/-- The loop over the children in `recursive_iterate` (`/repo/sources/btree_dir.cpp:727-728`). -/
def iterChildren (rec : Nat → DM (List DirEntry)) (p : Nat) : List Nat → DM (List DirEntry)
  | [] => pure []
  | c :: cs => do
    let q ← retrieveNode p c
    let a ← rec q
    let b ← iterChildren rec p cs
    pure (a ++ b)

/-- `recursive_iterate` and `mutable_recursive_iterate` (`/repo/sources/btree_dir.cpp:721-739`): the entries in the
    order of the calls of the callback; `fuel` is `BTREE_MAX_DEPTH - depth`.  The mutable variant, used by
    `rebuild` only, moves the entries out of nodes that are dropped right after, which is not modelled. -/
def iterNode : (fuel : Nat) → (p : Nat) → DM (List DirEntry)
  | 0, _ => bthrow .corrupt
  | fuel + 1, p => do
    let n ← deref p
    let r ← iterChildren (iterNode fuel) p n.children
    pure (n.entries ++ r)

/-- `iterate_over_entries_impl` (`/repo/sources/btree_dir.cpp:741-746`). -/
def iterateEntries : DM (List DirEntry) := do
  let r ← getRootNode
  match r with
  | none => pure []
  | some p => iterNode btMaxDepth p

/-- `empty` (`/repo/sources/btree_dir.cpp:766-770`). -/
def dirEmpty : DM Bool := do
  let r ← getRootNode
  match r with
  | none => pure true
  | some p => do
    let n ← deref p
    pure (n.entries == [])

/-- The loop of `rebuild` that adds the entries again (`/repo/sources/btree_dir.cpp:762-763`).  It calls `add_entry`, not
    `add_entry_impl`, so the modification time is set (`/repo/sources/files.h:460-465`).  Simplification: the clock does not advance
    during the loop. -/
def addAll (C : BCfg) (now : TimeSpec) : List DirEntry → DM Unit
  | [] => pure ()
  | e :: es => do
    touchMtime now
    let _ ← addEntry C e
    addAll C now es

/-- `rebuild` (`/repo/sources/btree_dir.cpp:748-764`). -/
def rebuild (C : BCfg) (now : TimeSpec) : DM Unit := do
  let r ← getRootNode
  match r with
  | none => pure ()
  | some p => do
    let es ← iterNode btMaxDepth p
    clearCache
    resizeStream 0
    setNfree 0
    setStart invalidPage
    setRoot invalidPage
    addAll C now es

/-- The loop of `flush_cache` (`/repo/sources/btree_dir.cpp:272-280`) over the pages `ps`. -/
def flushPages (C : BCfg) : List Nat → DM Unit
  | [] => pure ()
  | p :: ps => do
    let n ← deref p
    if n.dirty then do
      writeNode C n.num n
      cachePut p { n with dirty := false }
      flushPages C ps
    else flushPages C ps

/-- `flush_cache` (`/repo/sources/btree_dir.cpp:270-281`). -/
def flushCache (C : BCfg) : DM Unit := do
  let s ← getSt
  flushPages C (C.order (s.cache.map Prod.fst))

/-- `subflush` (`/repo/sources/btree_dir.cpp:336-342`). -/
def subflush (C : BCfg) (now : TimeSpec) : DM Unit := do
  let s ← getSt
  if s.nfree > 5 ∧ s.nfree > s.size / (pageSize * 3 / 2) then do
    rebuild C now
    flushCache C
  else flushCache C

/-! ## The object as a whole -/

/-- Replacing the parts of `FileBase` (plumbing of the model for the calls of `FileBase::flush`, `/repo/sources/files.cpp:247-279`). -/
def onFile (g : DirObj → Res OpenFile) : DM Unit := fun s =>
  match g s with
  | .ok f => (.ok (), { s with file := f })
  | .error e => (.error e, s)

/-- `FileBase::flush` (`/repo/sources/files.cpp:247-277`): `subflush`, then the header when it has changed, then the streams. -/
def flush (C : BCfg) (now : TimeSpec) : DM Unit := do
  subflush C now
  onFile fun s => s.env.flushObj s.id s.file

/-- `Directory::get_entry` (`/repo/sources/files.h:453-458`). -/
def getEntryT (C : BCfg) (now : TimeSpec) (name : Bytes) : DM (Option DirEntry) := do
  touchAtime now
  getEntry C name

/-- `Directory::add_entry` (`/repo/sources/files.h:460-465`). -/
def addEntryT (C : BCfg) (now : TimeSpec) (e : DirEntry) : DM Bool := do
  touchMtime now
  addEntry C e

/-- `Directory::remove_entry` (`/repo/sources/files.h:471-476`). -/
def removeEntryT (C : BCfg) (now : TimeSpec) (name : Bytes) : DM (Option DirEntry) := do
  touchMtime now
  removeEntry C name

/-- `Directory::iterate_over_entries` (`/repo/sources/files.h:481-485`). -/
def iterateEntriesT (now : TimeSpec) : DM (List DirEntry) := do
  touchAtime now
  iterateEntries

/-- The object is flushed and destroyed (`/repo/sources/file_table_v2.cpp:139-179`); later another is made from the backing files
    (`/repo/sources/files.cpp:117-181`), with an empty cache, when `rng` random numbers have been drawn. -/
def reopen (C : BCfg) (now : TimeSpec) (rng : Nat) : DM Unit := do
  flush C now
  onFile fun s => s.env.openObj s.id s.file.st.data s.file.st.metaS.file rng
  clearCache

/-- Calls on an open directory (`/repo/sources/files.h:188-345,453-489`, `/repo/sources/btree_dir.h:193-196`). -/
inductive DirCall where
  | add (e : DirEntry)
  | remove (name : Bytes)
  | get (name : Bytes)
  | list
  | empty
  | flush
  | rebuild
  | reopen (rng : Nat)
  | attr (op : AttrOp)
  | stat

/-- What a call returns (`/repo/sources/files.h:453-489`, `/repo/sources/files.cpp:222-243`). -/
inductive DirAnswer where
  | out (o : Spec.DirOut)
  /-- the size and the attributes -/
  | stat (size : Nat) (mode uid gid nlink : UInt32) (times : Option (TimeSpec × TimeSpec × TimeSpec × TimeSpec))
  deriving DecidableEq

/-- One call.  Harness of the model (`/repo/sources/files.h:188-345,453-489`). -/
def call (C : BCfg) (now : TimeSpec) : DirCall → DM DirAnswer
  | .add e => do
    let b ← addEntryT C now e
    pure (.out (.flag b))
  | .remove n => do
    let r ← removeEntryT C now n
    pure (.out (.entry r))
  | .get n => do
    let r ← getEntryT C now n
    pure (.out (.entry r))
  | .list => do
    let l ← iterateEntriesT now
    pure (.out (.entries l))
  | .empty => do
    let b ← dirEmpty
    pure (.out (.flag b))
  | .flush => do
    flush C now
    pure (.out .done)
  | .rebuild => do
    rebuild C now
    pure (.out .done)
  | .reopen rng => do
    reopen C now rng
    pure (.out .done)
  | .attr op => do
    let s ← getSt
    modifyAttr (s.env.attrCall now op)
    pure (.out .done)
  | .stat => do
    let s ← getSt
    let a := s.file.attr.stat s.env.storeTime
    pure (.stat s.size a.1 a.2.1 a.2.2.1 a.2.2.2.1 a.2.2.2.2)

/-- A history of calls, each with the time at which it is made; a call that throws answers with the exception.  Harness of the model
    (`/repo/sources/files.h:188-345,453-489`). -/
def runDir (C : BCfg) : DirObj → List (TimeSpec × DirCall) → List DirAnswer × DirObj
  | s, [] => ([], s)
  | s, (now, c) :: rest =>
    match call C now c s with
    | (.ok a, s') => let r := runDir C s' rest; (a :: r.1, r.2)
    | (.error e, s') => let r := runDir C s' rest; (.out (.fail e) :: r.1, r.2)

/-- A new directory: `initialize_empty` on an object over empty backing files (`/repo/sources/file_table_v2.cpp:93-104`,
    `/repo/sources/full_format.cpp:591-595`). -/
def createDir (E : FileEnv) (id : Bytes) (now : TimeSpec) (osUid osGid mode uid gid : UInt32) (rng : Nat) : Res DirObj := do
  let f ← E.createObj id now osUid osGid mode uid gid rng
  .ok ⟨E, id, f, []⟩

/-- An existing directory (`/repo/sources/file_table_v2.cpp:51-83`, `/repo/sources/files.cpp:117-181`). -/
def openDir (E : FileEnv) (id data metaF : Bytes) (rng : Nat) : Res DirObj := do
  let f ← E.openObj id data metaF rng
  .ok ⟨E, id, f, []⟩

end Securefs.DirFile

import Verif.Model.Btree
/-!
# The directory over a file that fails

The directory of `Verif/Model/Btree.lean` once more, now with calls on `m_stream` that may fail, and with the state that an exception
leaves behind.  Functions that make no calls on `m_stream` are those of that file; each of them throws, if at all, before it has changed
anything.

* `m_stream` is an ideal byte array whose calls may fail.  What a failing call on the encrypted stream leaves is property C86: the blocks
  that were to be written are as before, or written, or cannot be read.  Here a failing call has done nothing or everything; that a page
  cannot be read any more is a later call that fails.
* A failing `resize` that leaves a length in between is not represented.
-/

namespace Securefs

/-- A call on `m_stream` that fails: the error, and whether it has taken effect all the same
    (`StreamBase::read`, `write`, `resize`, `/repo/sources/streams.h:17-63`). -/
structure PageFault where
  errno : Nat
  done : Bool

/-- A directory, and what happens to the next calls on its stream: `none` is success, and so is everything beyond the end of the list.
    Harness of the model (`/repo/sources/btree_dir.h:113-180`). -/
structure FDir where
  st : BSt
  plan : List (Option PageFault)

/-- Computations on a directory that return or throw, and leave a state in both cases
    (the member functions of `/repo/sources/btree_dir.cpp:1-787`). -/
abbrev FM (α : Type) := ExceptT Err (StateM FDir) α

/-- A computation that makes no calls on the stream (plumbing of the model; `/repo/sources/btree_dir.cpp`, passim).  Those that are used
    throw before they change anything. -/
def up {α : Type} (m : BM α) : FM α := fun F =>
  match m F.st with
  | .ok (a, s) => (.ok a, ⟨s, F.plan⟩)
  | .error e => (.error e, F)

/-- One call on the stream (`/repo/sources/btree_dir.cpp:138,152,161,179,401,411,758`): what it does if it works. -/
def call {α : Type} (works : BSt → α × BSt) : FM α := fun F =>
  match F.plan with
  | some x :: p => (.error (.vfs x.errno), ⟨if x.done then (works F.st).2 else F.st, p⟩)
  | none :: p => (.ok (works F.st).1, ⟨(works F.st).2, p⟩)
  | [] => (.ok (works F.st).1, ⟨(works F.st).2, []⟩)

/-- What `m` leaves when it throws is changed by `h` (plumbing of the model, for the entries that
    `/repo/sources/btree_dir.cpp:733-739` has moved out of the nodes). -/
def onThrow {α : Type} (m : FM α) (h : BSt → BSt) : FM α := fun F =>
  match m F with
  | (.ok a, F') => (.ok a, F')
  | (.error e, F') => (.error e, ⟨h F'.st, F'.plan⟩)

namespace BF

/-! ## Pages -/

/-- `m_stream->read` of a page, with the check of the length (`/repo/sources/btree_dir.cpp:137-138,400-401`). -/
def readPage (num : Nat) : FM Bytes := do
  let buf ← call (fun s => (Spec.read s.data (pageOff num) pageSize, s))
  up (dirCheck (buf.length == pageSize))
  pure buf

/-- `m_stream->write` of a page (`/repo/sources/btree_dir.cpp:152,411`). -/
def writePage (num : Nat) (buf : Bytes) : FM Unit :=
  call (fun s => ((), { s with data := Spec.write s.data (pageOff num) buf }))

/-- `read_free_page` (`/repo/sources/btree_dir.cpp:135-145`). -/
def readFreePage (num : Nat) : FM (Nat × Nat) := do
  let buf ← readPage num
  let flag ← up (lift (fromLE 4 buf))
  up (dirCheck (flag == 0))
  let next ← up (lift (fromLE 4 (buf.drop 4)))
  let prev ← up (lift (fromLE 4 (buf.drop 8)))
  pure (next, prev)

/-- `write_free_page` (`/repo/sources/btree_dir.cpp:147-153`). -/
def writeFreePage (num next prev : Nat) : FM Unit :=
  writePage num (zeros 4 ++ toLE 4 next ++ toLE 4 prev ++ zeros (pageSize - 12))

/-- `allocate_page` when the free list is empty (`/repo/sources/btree_dir.cpp:160-162`). -/
def extendFile : FM Nat :=
  call (fun s => (s.data.length / pageSize % 2 ^ 32, { s with data := Spec.resize s.data (s.data.length + pageSize) }))

/-- The end of `allocate_page` (`/repo/sources/btree_dir.cpp:168-173`). -/
def fixHead (next : Nat) : FM Unit :=
  if next = invalidPage then pure ()
  else do
    let fp ← readFreePage next
    let s ← up getSt
    writeFreePage s.start fp.1 invalidPage

/-- `allocate_page` taking the first free page (`/repo/sources/btree_dir.cpp:164-174`). -/
def popFree (pg : Nat) : FM Nat := do
  let fp ← readFreePage pg
  let s ← up getSt
  up (setNfree (s.nfree + (2 ^ 32 - 1)))
  up (setStart fp.1)
  fixHead fp.1
  pure pg

/-- `allocate_page` (`/repo/sources/btree_dir.cpp:155-175`). -/
def allocatePage : FM Nat := do
  let s ← up getSt
  if s.start = invalidPage then extendFile else popFree s.start

/-- `deallocate_page`, second half of the free-list case (`/repo/sources/btree_dir.cpp:191-197`). -/
def linkBack (start num : Nat) : FM Unit :=
  if start = invalidPage then pure ()
  else do
    let fp ← readFreePage start
    writeFreePage start fp.1 num

/-- `deallocate_page` (`/repo/sources/btree_dir.cpp:177-200`). -/
def deallocatePage (num : Nat) : FM Unit := do
  let s ← up getSt
  if pageOff num = s.data.length then
    call (fun s => ((), { s with data := Spec.resize s.data ((num + (2 ^ 32 - 1)) * pageSize % 2 ^ 32) }))
  else do
    writeFreePage num s.start invalidPage
    linkBack s.start num
    up (setStart num)
    up (setNfree (s.nfree + 1))

/-! ## Nodes -/

/-- `read_node` (`/repo/sources/btree_dir.cpp:396-403`). -/
def readNode (num : Nat) : FM (List Nat × List DirEntry) :=
  if num = invalidPage then up (bthrow .corrupt)
  else do
    let buf ← readPage num
    let r ← up (lift (fromBuffer buf))
    pure (r.getD ([], []))

/-- `write_node` (`/repo/sources/btree_dir.cpp:405-412`). -/
def writeNode (C : BCfg) (num : Nat) (n : BNode) : FM Unit :=
  if num = invalidPage then up (bthrow .corrupt)
  else do
    let buf ← up (lift (toBuffer pageSize n))
    writePage num (buf ++ (C.junk num ++ zeros pageSize).take (pageSize - buf.length))

/-- `retrieve_node` for a page that is not cached (`/repo/sources/btree_dir.cpp:329-333`): if reading fails, nothing is cached. -/
def loadNode (parent num : Nat) : FM Nat := do
  let c ← readNode num
  up (cachePut num ⟨parent, num, c.1, c.2, false⟩)
  pure num

/-- `retrieve_node` (`/repo/sources/btree_dir.cpp:320-334`). -/
def retrieveNode (parent num : Nat) : FM Nat := do
  let s ← up getSt
  match cacheFind s num with
  | some n => do
    up (dirCheck (parent == invalidPage || parent == n.parent))
    pure num
  | none => loadNode parent num

/-- `get_root_node` (`/repo/sources/btree_dir.cpp:365-371`). -/
def getRootNode : FM (Option Nat) := do
  let s ← up getSt
  if s.root = invalidPage then pure none
  else do
    let p ← retrieveNode invalidPage s.root
    pure (some p)

/-! ## Looking up -/

/-- The loop of `find_node` (`/repo/sources/btree_dir.cpp:349-362`). -/
def findLoop (C : BCfg) (name : Bytes) : (fuel : Nat) → (p : Nat) → FM (Nat × Nat × Bool)
  | 0, _ => up (bthrow .corrupt)
  | fuel + 1, p => do
    let n ← up (deref p)
    if C.hit name n.entries (lowerBound (C.before name) n.entries) then
      pure (p, lowerBound (C.before name) n.entries, true)
    else do
      let leaf ← up (isLeaf n)
      if leaf then pure (p, lowerBound (C.before name) n.entries, false)
      else
        match n.children[lowerBound (C.before name) n.entries]? with
        | none => up (bthrow .outOfRange)
        | some c => do
          let q ← retrieveNode p c
          findLoop C name fuel q

/-- `find_node` (`/repo/sources/btree_dir.cpp:344-363`). -/
def findNode (C : BCfg) (name : Bytes) : FM (Option (Nat × Nat × Bool)) := do
  let r ← getRootNode
  match r with
  | none => pure none
  | some p => do
    let x ← findLoop C name btMaxDepth p
    pure (some x)

/-- `get_entry_impl` (`/repo/sources/btree_dir.cpp:373-394`). -/
def getEntry (C : BCfg) (name : Bytes) : FM (Option DirEntry) :=
  if name.length > maxFilename then up (bthrow (.vfs eNAMETOOLONG))
  else do
    let r ← findNode C name
    match r with
    | some (p, i, true) => up (entryAt C name p i)
    | _ => pure none

/-! ## Adding -/

/-- A new root above `p` and `q` (`/repo/sources/btree_dir.cpp:475-482`).  When `allocate_page` or `retrieve_node` throws, the entry `e`
    has already been moved out of `p`, and `q` hangs nowhere. -/
def growRoot (p q : Nat) (e : DirEntry) : FM Unit := do
  let a ← allocatePage
  let r ← retrieveNode invalidPage a
  up (setChildren r [p, q])
  up (setEntries r [e])
  up (setRoot a)
  up (setParent p a)
  up (setParent q a)

/-- `insert_and_balance` (`/repo/sources/btree_dir.cpp:452-492`): the entry is inserted before the page for the new sibling is
    allocated. -/
def insertBalance (C : BCfg) : (fuel : Nat) → (p : Nat) → DirEntry → (additional : Nat) → FM Unit
  | 0, _, _, _ => up (bthrow .corrupt)
  | fuel + 1, p, e, additional => do
    let n ← up (deref p)
    up (insertHere p (lowerBound (C.before e.name) n.entries) e additional)
    let n ← up (deref p)
    if n.entries.length > btMaxEntries then do
      let a ← allocatePage
      let q ← retrieveNode n.parent a
      match n.entries[n.entries.length / 2 - 1]? with
      | none => up (bthrow .outOfBounds)
      | some e => do
        up (splitInto p q (n.entries.length / 2 - 1))
        if n.parent = invalidPage then growRoot p q e
        else do
          let _ ← up (deref n.parent)
          insertBalance C fuel n.parent e q
    else pure ()

/-- The first entry of a directory (`/repo/sources/btree_dir.cpp:430-434`). -/
def addFirst (e : DirEntry) : FM Unit := do
  let a ← allocatePage
  up (setRoot a)
  let r ← getRootNode
  match r with
  | none => up (bthrow .outOfBounds)
  | some p => do
    let n ← up (deref p)
    up (setEntries p (n.entries ++ [e]))

/-- `add_entry_impl` (`/repo/sources/btree_dir.cpp:414-439`). -/
def addEntry (C : BCfg) (e : DirEntry) : FM Bool :=
  if e.name.length > maxFilename then up (bthrow (.vfs eNAMETOOLONG))
  else do
    let r ← findNode C e.name
    match r with
    | none => do
      addFirst e
      pure true
    | some (p, _, found) =>
      if found then pure false
      else do
        insertBalance C btMaxDepth p e invalidPage
        pure true

/-! ## Removing -/

/-- The loop of `replace_with_sub_entry` (`/repo/sources/btree_dir.cpp:505-506`). -/
def lastLeaf : (fuel : Nat) → (p : Nat) → FM Nat
  | 0, _ => up (bthrow .diverge)
  | fuel + 1, p => do
    let n ← up (deref p)
    let leaf ← up (isLeaf n)
    if leaf then pure p
    else
      match n.children.getLast? with
      | none => up (bthrow .outOfBounds)
      | some c => do
        let q ← retrieveNode p c
        lastLeaf fuel q

/-- The second case of `replace_with_sub_entry` (`/repo/sources/btree_dir.cpp:504-509`). -/
def replaceInner (p i : Nat) : FM Nat := do
  let n ← up (deref p)
  match n.children[i]? with
  | none => up (bthrow .outOfRange)
  | some c => do
    let q ← retrieveNode p c
    let s ← up getSt
    let l ← lastLeaf (s.data.length / pageSize + 1) q
    let ln ← up (deref l)
    match ln.entries.getLast? with
    | none => up (bthrow .outOfBounds)
    | some e => do
      let n ← up (deref p)
      up (dirCheck (decide (i < n.entries.length)))
      up (setEntries p (n.entries.set i e))
      let ln ← up (deref l)
      up (setEntries l ln.entries.dropLast)
      pure l

/-- `replace_with_sub_entry` (`/repo/sources/btree_dir.cpp:494-511`). -/
def replaceWithSub (p i : Nat) : FM Nat := do
  let n ← up (deref p)
  let leaf ← up (isLeaf n)
  if leaf then do
    up (dirCheck (decide (i < n.entries.length)))
    up (setEntries p (n.entries.eraseIdx i))
    pure p
  else replaceInner p i

/-- `del_node` (`/repo/sources/btree_dir.cpp:513-519`): the node stays in the cache if its page cannot be given back. -/
def delNode (p : Nat) : FM Unit := do
  let n ← up (deref p)
  deallocatePage n.num
  up (cacheErase n.num)

/-- `find_sibling` (`/repo/sources/btree_dir.cpp:521-536`). -/
def findSibling (parent node : Nat) : FM (Nat × Nat) := do
  let pn ← up (deref parent)
  let n ← up (deref node)
  up (dirCheck (parent == n.parent))
  match pn.children.idxOf? node with
  | none => up (bthrow .corrupt)
  | some i =>
    if i + 1 = pn.children.length then
      if i = 0 then up (bthrow .outOfRange)
      else
        match pn.children[i - 1]? with
        | none => up (bthrow .outOfRange)
        | some c => do
          let q ← retrieveNode parent c
          pure (i - 1, q)
    else
      match pn.children[i + 1]? with
      | none => up (bthrow .outOfRange)
      | some c => do
        let q ← retrieveNode parent c
        pure (i, q)

/-- `merge` (`/repo/sources/btree_dir.cpp:570-584`).  When `del_node` throws, `right`, which nothing refers to any more, stays in the
    cache; that its entries have been moved out is not represented. -/
def merge (left right parent i : Nat) : FM Unit := do
  let ln ← up (deref left)
  let pn ← up (deref parent)
  match pn.entries[i]? with
  | none => up (bthrow .outOfRange)
  | some sep => do
    up (setEntries left (ln.entries ++ [sep]))
    up (setEntries parent (pn.entries.eraseIdx i))
    match pn.children.idxOf? right with
    | none => up (bthrow .outOfBounds)
    | some j => do
      up (setChildren parent (pn.children.eraseIdx j))
      let rn ← up (deref right)
      let ln ← up (deref left)
      up (setEntries left (ln.entries ++ rn.entries))
      up (adjustChildren left rn.children)
      let ln ← up (deref left)
      up (setChildren left (ln.children ++ rn.children))
      delNode right

/-- The choice between `merge` and `rotate` (`/repo/sources/btree_dir.cpp:609-622`). -/
def rebalance (C : BCfg) (p sibling parent i : Nat) : FM Unit := do
  let n ← up (deref p)
  let sn ← up (deref sibling)
  match n.entries.getLast?, sn.entries.head? with
  | some a, some b =>
    if n.entries.length + sn.entries.length < btMaxEntries then
      if C.before b.name a then merge p sibling parent i else merge sibling p parent i
    else
      if C.before b.name a then up (rotate p sibling parent i) else up (rotate sibling p parent i)
  | _, _ => up (bthrow .outOfBounds)

/-- The removal of an empty root (`/repo/sources/btree_dir.cpp:593-597`). -/
def shrinkRoot (p : Nat) : FM Unit := do
  let n ← up (deref p)
  match n.children with
  | [c] => do
    up (adjustChildren invalidPage [c])
    up (setRoot c)
    delNode p
  | _ => up (bthrow .corrupt)

/-- `balance_up` (`/repo/sources/btree_dir.cpp:587-625`). -/
def balanceUp (C : BCfg) : (fuel : Nat) → (p : Nat) → FM Unit
  | 0, _ => up (bthrow .corrupt)
  | fuel + 1, p => do
    let n ← up (deref p)
    if n.parent = invalidPage ∧ n.entries = [] ∧ n.children ≠ [] then shrinkRoot p
    else if n.parent = invalidPage ∨ n.entries.length ≥ btMaxEntries / 2 then pure ()
    else do
      let s ← up getSt
      up (dirCheck (cacheFind s n.parent).isSome)
      let sib ← findSibling n.parent p
      rebalance C p sib.2 n.parent sib.1
      balanceUp C fuel n.parent

/-- `remove_entry_impl` after the search (`/repo/sources/btree_dir.cpp:639-645`). -/
def removeAt (C : BCfg) (p i : Nat) : FM (Option DirEntry) := do
  let n ← up (deref p)
  match n.entries[i]? with
  | none => up (bthrow .outOfRange)
  | some e => do
    let l ← replaceWithSub p i
    balanceUp C btMaxDepth l
    pure (some e)

/-- `remove_entry_impl` (`/repo/sources/btree_dir.cpp:627-646`). -/
def removeEntry (C : BCfg) (name : Bytes) : FM (Option DirEntry) :=
  if name.length > maxFilename then up (bthrow (.vfs eNAMETOOLONG))
  else do
    let r ← findNode C name
    match r with
    | some (p, i, true) => removeAt C p i
    | _ => pure none

/-! ## Listing -/

/-- The loop over the children in `recursive_iterate` (`/repo/sources/btree_dir.cpp:727-728`). -/
def iterChildren (rec : Nat → FM (List DirEntry)) (p : Nat) : List Nat → FM (List DirEntry)
  | [] => pure []
  | c :: cs => do
    let q ← retrieveNode p c
    let a ← rec q
    let b ← iterChildren rec p cs
    pure (a ++ b)

/-- `recursive_iterate` (`/repo/sources/btree_dir.cpp:721-729`). -/
def iterNode : (fuel : Nat) → (p : Nat) → FM (List DirEntry)
  | 0, _ => up (bthrow .corrupt)
  | fuel + 1, p => do
    let n ← up (deref p)
    let r ← iterChildren (iterNode fuel) p n.children
    pure (n.entries ++ r)

/-- `iterate_over_entries_impl` (`/repo/sources/btree_dir.cpp:741-746`).  The entries that the callback has got when an exception ends
    the iteration are not represented. -/
def iterateEntries : FM (List DirEntry) := do
  let r ← getRootNode
  match r with
  | none => pure []
  | some p => iterNode btMaxDepth p

/-- `empty` (`/repo/sources/btree_dir.cpp:766-770`). -/
def dirEmpty : FM Bool := do
  let r ← getRootNode
  match r with
  | none => pure true
  | some p => do
    let n ← up (deref p)
    pure (n.entries == [])

/-! ## Flushing and rebuilding -/

/-- A node out of which the entries have been moved (`/repo/sources/btree_dir.cpp:736-737,756`): a `std::string` that was moved from is
    empty, as all implementations have it; identifiers and types are copied. -/
def emptied (n : BNode) : BNode := { n with entries := n.entries.map fun e => { e with name := [] }, dirty := true }

/-- The cached nodes at and below `p` with their entries moved out; see `emptied` (`/repo/sources/btree_dir.cpp:733-739`). -/
def emptyTree : (fuel : Nat) → (p : Nat) → BSt → BSt
  | 0, _, s => s
  | fuel + 1, p, s =>
    match cacheFind s p with
    | none => s
    | some n => n.children.foldl (fun s c => emptyTree fuel c s) { s with cache := (p, emptied n) :: s.cache.filter (·.1 != p) }

/-- The loop over the children in `mutable_recursive_iterate` (`/repo/sources/btree_dir.cpp:738-739`): if it is interrupted, the
    entries of the subtrees done before have been moved out. -/
def moveChildren (fuel : Nat) (rec : Nat → FM (List DirEntry)) (p : Nat) : List Nat → FM (List DirEntry)
  | [] => pure []
  | c :: cs => do
    let q ← retrieveNode p c
    let a ← rec q
    let b ← onThrow (moveChildren fuel rec p cs) (emptyTree fuel q)
    pure (a ++ b)

/-- `mutable_recursive_iterate` (`/repo/sources/btree_dir.cpp:731-739`): if it is interrupted, the entries of the node have been moved
    out.  That they are moved out also if it is not makes no difference, because then `rebuild` drops the nodes.  Of a page that is
    reached twice, which is a corrupt directory, both visits see the entries. -/
def moveNode : (fuel : Nat) → (p : Nat) → FM (List DirEntry)
  | 0, _ => up (bthrow .corrupt)
  | fuel + 1, p => do
    let n ← up (deref p)
    let r ← onThrow (moveChildren fuel (moveNode fuel) p n.children)
      (fun s => match cacheFind s p with
        | none => s
        | some n => { s with cache := (p, emptied n) :: s.cache.filter (·.1 != p) })
    pure (n.entries ++ r)

/-- The loop of `rebuild` that adds the entries again (`/repo/sources/btree_dir.cpp:762-763`). -/
def addAll (C : BCfg) : List DirEntry → FM Unit
  | [] => pure ()
  | e :: es => do
    let _ ← addEntry C e
    addAll C es

/-- `rebuild` (`/repo/sources/btree_dir.cpp:748-764`): the nodes are dropped before the file is cut. -/
def rebuild (C : BCfg) : FM Unit := do
  let r ← getRootNode
  match r with
  | none => pure ()
  | some p => do
    let es ← moveNode btMaxDepth p
    let s ← up getSt
    up (setSt { s with cache := [] })
    call (fun s => ((), { s with data := Spec.resize s.data 0 }))
    up (setNfree 0)
    up (setStart invalidPage)
    up (setRoot invalidPage)
    addAll C es

/-- The loop of `flush_cache` (`/repo/sources/btree_dir.cpp:272-280`) over the pages `ps`. -/
def flushPages (C : BCfg) : List Nat → FM Unit
  | [] => pure ()
  | p :: ps => do
    let n ← up (deref p)
    if n.dirty then do
      writeNode C n.num n
      up (cachePut p { n with dirty := false })
      flushPages C ps
    else flushPages C ps

/-- `flush_cache` (`/repo/sources/btree_dir.cpp:270-281`). -/
def flushCache (C : BCfg) : FM Unit := do
  let s ← up getSt
  flushPages C (C.order (s.cache.map Prod.fst))

/-- `subflush` (`/repo/sources/btree_dir.cpp:336-342`). -/
def subflush (C : BCfg) : FM Unit := do
  let s ← up getSt
  if s.nfree > 5 ∧ s.nfree > s.data.length / (pageSize * 3 / 2) then do
    rebuild C
    flushCache C
  else flushCache C

/-- Closing the directory and opening it again after a flush that works; see `Securefs.reopenDir`
    (`/repo/sources/files.cpp:183-218,247-279`).  What is lost when an object is destroyed after a flush that failed is not represented:
    here the exception leaves the object as it is. -/
def reopenDir (C : BCfg) : FM Unit := do
  subflush C
  let s ← up getSt
  up (setSt { s with cache := [] })

end BF

end Securefs

import Verif.Model.FullVolume
/-!
# Threads on a volume of the full format in its encrypted files

`Verif/Model/FullVolume.lean` runs one operation after the other.  Here the same operations (`/repo/sources/full_format.cpp:42-391`) are
sequences of sections, as in `Verif/Model/FullFs.lean`, and those of many threads are interleaved.  A section is what happens under the
mutexes of the objects (`/repo/sources/files.h:559-573`) or within one call on the table (`/repo/sources/file_table_v2.cpp:51-104`); that the mutexes
exist and that the calls never wait for each other in a circle is C105.

Simplifications, beside those of `Verif/Model/FullVolume.lean`:
* The objects that an operation has opened on its way are given back when the operation ends, all at once.
* The reference counts are replaced by one list with an entry for every holder, be it the caller or an operation under way.
* While a call on a handle is under way, the operation holds the object too: the kernel does not release a file before the calls on it have
  returned.
-/

namespace Securefs

/-- What a thread has still to do on a volume: a sequence of sections.  After a `take` the operation holds the object, as the `FilePtrHolder`
    that `open_as` and `create_as` return (`/repo/sources/file_table_v2.cpp:51-104`); otherwise as in `Prog`
    (the functions in `/repo/sources/full_format.cpp:42-651`). -/
inductive VProg (α : Type) : Type 1 where
  | ret (a : α)
  | throw (e : Err)
  | sec {β : Type} (f : VM β) (k : β → VProg α)
  | take (f : VM FH) (k : FH → VProg α)

namespace VProg

/-- One sequence after the other (sequencing in `/repo/sources/full_format.cpp:42-651`). -/
def bind {α β : Type} : VProg α → (α → VProg β) → VProg β
  | .ret a, g => g a
  | .throw e, _ => .throw e
  | .sec f k, g => .sec f fun b => (k b).bind g
  | .take f k, g => .take f fun h => (k h).bind g

/-- A single section (the scope of a guard in `/repo/sources/full_format.cpp:42-651`). -/
def one {β : Type} (f : VM β) : VProg β := .sec f .ret

/-- Getting hold of an object (`/repo/sources/file_table_v2.cpp:51-104`). -/
def get (f : VM FH) : VProg FH := .take f .ret

/-- Execution without other threads (`/repo/sources/full_format.cpp:42-651`). -/
def run {α : Type} : VProg α → VM α
  | .ret a => VM.ret a
  | .throw e => VM.throw e
  | .sec f k => VM.bind f fun b => (k b).run
  | .take f k => VM.bind f fun h => (k h).run

end VProg

/-! ## The operations -/

section
variable (V : VolEnv)

/-- The loop of `generic_open` (`/repo/sources/full_format.cpp:520-564`).  `rec` is the recursive call for the target of a
    symbolic link. -/
def vpWalk (rec : Bytes → FH → List Bytes → VProg (Option FH)) : Bytes → FH → List Bytes → VProg (Option FH)
  | _, parent, [] => .ret (some parent)
  | parentId, parent, s :: rest =>
    if s = dotName then vpWalk rec parentId parent rest
    else if s = dotDotName then
      (VProg.one (volGetParent parent)).bind fun parentId =>
      (VProg.get (volOpenAs V parentId typeDirectory)).bind fun parent =>
      vpWalk rec parentId parent rest
    else
      (VProg.one (volGet V parent s)).bind fun found =>
      match found with
      | none => .ret none
      | some e =>
        (VProg.get (volOpenAs V e.id e.type)).bind fun child =>
        (VProg.one (volSetParent child parentId)).bind fun _ =>
        if e.type = typeSymlink then
          (VProg.one (volLinkGet V child)).bind fun target =>
          (rec parentId parent (splitPath target)).bind fun resolved =>
          match resolved with
          | none => .ret none
          | some c => vpWalk rec c.id c rest
        else vpWalk rec child.id child rest

/-- `generic_open` (`/repo/sources/full_format.cpp:510-565`); `depth` is `16 - recursion_depth`. -/
def vpGenericOpen : (depth : Nat) → Bytes → FH → List Bytes → VProg (Option FH)
  | 0, _, _, _ => .throw (.vfs 40)
  | depth + 1, parentId, parent, splits => vpWalk V (vpGenericOpen depth) parentId parent splits

/-- `open_base` (`/repo/sources/full_format.cpp:567-586`). -/
def vpOpenBase (path : Bytes) : VProg (FH × Bytes) :=
  (VProg.get (volOpenAs V kRootId typeDirectory)).bind fun root =>
  match (splitPath path).getLast? with
  | none => .ret (root, [])
  | some last =>
    if (splitPath path).length = 1 then .ret (root, last)
    else
      (vpGenericOpen V maxDepth kRootId root (splitPath path).dropLast).bind fun r =>
      match r with
      | none => .throw (.vfs 2)
      | some d => .ret (d, last)

/-- `open_all` (`/repo/sources/full_format.cpp:610-651`). -/
def vpOpenAll (path : Bytes) (resolveLast : Bool) : VProg (Option FH) :=
  if path = [] ∨ path = [slash] then (VProg.get (volOpenAs V kRootId typeDirectory)).bind fun r => .ret (some r)
  else
    (vpOpenBase V path).bind fun (base, last) =>
    (VProg.one (volGet V base last)).bind fun found =>
    match found with
    | none => .ret none
    | some e =>
      (VProg.get (volOpenAs V e.id e.type)).bind fun holder =>
      (VProg.one (volSetParent holder base.id)).bind fun _ =>
      if resolveLast = true ∧ holder.cls = typeSymlink then
        (VProg.one (volLinkGet V holder)).bind fun target =>
        vpGenericOpen V maxDepth base.id base (splitPath target)
      else .ret (some holder)

/-- `create` (`/repo/sources/full_format.cpp:587-609`); `newId` is the random identifier drawn by `create_as`. -/
def vpCreateFile (path : Bytes) (mode : UInt32) (type : Nat) (uid gid : UInt32) (newId : Bytes) : VProg FH :=
  (vpOpenBase V path).bind fun (base, last) =>
  (VProg.get (volCreate V newId type mode uid gid)).bind fun holder =>
  (VProg.one (volAdd V base ⟨last, holder.id, type⟩)).bind fun success =>
  if success then
    (VProg.one (volSetParent holder base.id)).bind fun _ => .ret holder
  else
    (VProg.one (volAttr V holder .unlink)).bind fun _ => .throw (.vfs 17)

/-- `open_all` and then something with the object, as `vgetattr`, `vopen`, `vopendir`, `vchmod`, `vchown`, `vreadlink`, `vtruncate` and
    `vutimens` do (`/repo/sources/full_format.cpp:42-53,65-78,136-150,248-275,305-325,370-391`). -/
def vpWith (path : Bytes) (resolveLast : Bool) (absent : VolAnswer) (f : FH → VProg VolAnswer) : VProg VolAnswer :=
  (vpOpenAll V path resolveLast).bind fun opened =>
  match opened with
  | none => .ret absent
  | some h => f h

/-- `vunlink` and `vrmdir` (`/repo/sources/full_format.cpp:202-247`), which differ in what they do with the object. -/
def vpRemoveName (path : Bytes) (f : FH → VM Unit) : VProg VolAnswer :=
  (vpOpenBase V path).bind fun (dir, last) =>
  (VProg.one (volRemove V dir last)).bind fun r =>
  match r with
  | none => .ret (.code (-2))
  | some e =>
    (VProg.get (volOpenAs V e.id e.type)).bind fun fp =>
    (VProg.one (f fp)).bind fun _ => .ret (.code 0)

/-- `vrename` (`/repo/sources/full_format.cpp:326-359`). -/
def vpRenameOp (from_ dest : Bytes) : VProg VolAnswer :=
  (vpOpenBase V from_).bind fun (bf, lf) =>
  (vpOpenBase V dest).bind fun (bt, lt) =>
  (VProg.one (volRename V bf lf bt lt)).bind fun r =>
  match r with
  | .missing => .ret (.code (-2))
  | .done => .ret (.code 0)
  | .replaced e =>
    (VProg.get (volOpenAs V e.id e.type)).bind fun holder =>
    (VProg.one (volAttr V holder .unlink)).bind fun _ => .ret (.code 0)

/-- `vlink` (`/repo/sources/full_format.cpp:288-304`). -/
def vpLinkOp (src dest : Bytes) : VProg VolAnswer :=
  vpWith V src true (.code (-2)) fun f =>
    (vpOpenBase V dest).bind fun (base, last) =>
    (VProg.one (volLink V base last f)).bind fun added => .ret (.code (if added then 0 else -17))

/-- The operations (`/repo/sources/full_format.cpp:42-391`). -/
def vpOp : FullOp → VProg VolAnswer
  | .create path mode uid gid newId =>
    (vpCreateFile V path mode typeRegular uid gid newId).bind fun h => .ret (.handle 0 (some h))
  | .mkdir path mode uid gid newId =>
    (vpCreateFile V path mode typeDirectory uid gid newId).bind fun _ => .ret (.code 0)
  | .symlink target from_ uid gid newId =>
    (vpCreateFile V from_ 0x1a4 typeSymlink uid gid newId).bind fun holder =>
    (VProg.one (volLinkSet V holder target)).bind fun _ => .ret (.code 0)
  | .unlink path => vpRemoveName V path fun fp => volAttr V fp .unlink
  | .rmdir path => vpRemoveName V path fun fp => volUnlinkEmpty V fp
  | .link src dest => vpLinkOp V src dest
  | .rename from_ dest => vpRenameOp V from_ dest
  | .chmod path m => vpWith V path false (.code (-2)) fun h => (VProg.one (volAttr V h (.chmod m))).bind fun _ => .ret (.code 0)
  | .chown path u g => vpWith V path false (.code (-2)) fun h => (VProg.one (volAttr V h (.chown u g))).bind fun _ => .ret (.code 0)
  | .utimens path garbage ts => vpWith V path false (.code (-2)) fun h =>
      (VProg.one (volAttr V h (.utimens garbage ts))).bind fun _ => .ret (.code 0)
  | .getattr path => vpWith V path false (.stat (-2) none) fun h => (VProg.one (volStat V h)).bind fun st => .ret (.stat 0 (some st))
  | .«open» path trunc => vpWith V path true (.handle (-2) none) fun h =>
      if trunc then (VProg.one (volTruncate V h 0)).bind fun _ => .ret (.handle 0 (some h)) else .ret (.handle 0 (some h))
  | .readlink path size =>
    if size = 0 then .ret (.bytes (-14) [])
    else if path = [slash] then .ret (.bytes (-21) [])
    else vpWith V path false (.bytes (-2) []) fun h => (VProg.one (volLinkGet V h)).bind fun d => .ret (.bytes 0 (d.take (size - 1)))
  | .opendir path => vpWith V path true (.handle (-2) none) fun h =>
      if h.cls ≠ typeDirectory then .ret (.handle (-20) none) else .ret (.handle 0 (some h))
  | .truncate path n => vpWith V path true (.code (-2)) fun h => (VProg.one (volTruncate V h n)).bind fun _ => .ret (.code 0)
  | .read h off len => (VProg.one (volRead V h off len)).bind fun b => .ret (.bytes (toCInt b.length) b)
  | .write h off d => (VProg.one (volWrite V h off d)).bind fun _ => .ret (.code (toCInt d.length))
  | .ftruncate h n => (VProg.one (volTruncate V h n)).bind fun _ => .ret (.code 0)
  | .fgetattr h => (VProg.one (volStat V h)).bind fun st => .ret (.stat 0 (some st))
  | .readdir h fill =>
    if h.cls ≠ typeDirectory then .ret (.items (-20) [])
    else (VProg.one (volReaddir V fill h)).bind fun l => .ret (.items 0 l)
  | .flush h => (VProg.one (volFlush V h)).bind fun _ => .ret (.code 0)
  | .fsync h => (VProg.one (volFsync h)).bind fun _ => .ret (.code 0)

/-! ## Many threads -/

/-- The object behind `info->fh`, for the calls on handles (`/repo/sources/full_format.cpp:54-64,90-126,162-201,360-382`). -/
def FullOp.through : FullOp → List FH
  | .read h _ _ => [h]
  | .write h _ _ => [h]
  | .ftruncate h _ => [h]
  | .fgetattr h => [h]
  | .readdir h _ => [h]
  | .flush h => [h]
  | .fsync h => [h]
  | _ => []

/-- An operation: what it has still to do, and the objects that it holds (`/repo/sources/file_table_v2.h:39,94-103`). -/
structure VolThread where
  prog : VProg VolAnswer
  mine : List FH

/-- The volume, and the operations that have been started (`/repo/sources/full_format.h:63-160`). -/
structure VolSys where
  vol : FullVol
  threads : List VolThread

/-- What happens to a mounted volume (`/repo/sources/full_format.h:63-160`, `/repo/sources/file_table_v2.cpp:122-216`). -/
inductive VolSysEvent where
  /-- a request arrives -/
  | start (op : FullOp)
  /-- a thread executes its next section -/
  | step (i : Nat)
  /-- a thread ends with an exception that the model does not predict, such as an I/O error, between two sections -/
  | fail (i : Nat) (e : Err)
  | release (h : FH)
  | releasedir (h : FH)
  | tick (now : TimeSpec)
  /-- an object that nobody holds is closed -/
  | close (id : Bytes)
  /-- a closed object is dropped from the memory -/
  | eject (id : Bytes)
  /-- the volume is unmounted, after all operations have ended, and mounted again -/
  | remount

/-- Giving back objects: the destructor of `FilePtrHolder` (`/repo/sources/file_table_v2.h:39,94-103`). -/
def giveBack : List FH → List FH → List FH
  | [], held => held
  | h :: mine, held => giveBack mine (held.erase h)

/-- The objects that are held after an operation has come to a point: at its end it gives back its own, except for the one that it hands to the
    caller (`/repo/sources/full_format.cpp:76,133,148`). -/
def heldAfter (p : VProg VolAnswer) (mine held : List FH) : List FH :=
  match p with
  | .ret a => (VolAnswer.given (.ok a)).toList ++ giveBack mine held
  | .throw _ => giveBack mine held
  | _ => held

/-- An operation at a point: at its end it holds nothing (`/repo/sources/full_format.cpp:42-391`). -/
def threadAt (p : VProg VolAnswer) (mine : List FH) : VolThread :=
  match p with
  | .ret a => ⟨.ret a, []⟩
  | .throw e => ⟨.throw e, []⟩
  | p => ⟨p, mine⟩

/-- Whether an operation has ended (`/repo/sources/full_format.cpp:42-391`). -/
def VProg.ended {α : Type} : VProg α → Bool
  | .ret _ => true
  | .throw _ => true
  | _ => false

namespace VolSys

/-- Thread `i` has come to a point (`/repo/sources/full_format.cpp:42-391`). -/
def put (s : VolSys) (i : Nat) (p : VProg VolAnswer) (mine : List FH) (v : FullVol) : VolSys :=
  ⟨{ v with held := heldAfter p mine v.held }, s.threads.set i (threadAt p mine)⟩

/-- The next section of thread `i` (`/repo/sources/full_format.cpp:42-651`). -/
def stepThread (s : VolSys) (i : Nat) : VolSys :=
  match s.threads[i]? with
  | some ⟨.sec f k, mine⟩ =>
    match f s.vol with
    | (.ok b, v) => s.put i (k b) mine v
    | (.error e, v) => s.put i (.throw e) mine v
  | some ⟨.take f k, mine⟩ =>
    match f s.vol with
    | (.ok h, v) => s.put i (k h) (h :: mine) { v with held := h :: v.held }
    | (.error e, v) => s.put i (.throw e) mine v
  | _ => s

/-- One event (`/repo/sources/full_format.cpp:42-391`, `/repo/sources/file_table_v2.cpp:122-216`). -/
def step (s : VolSys) : VolSysEvent → VolSys
  | .start op =>
    ⟨{ s.vol with held := heldAfter (vpOp V op) op.through (op.through ++ s.vol.held) },
      s.threads ++ [threadAt (vpOp V op) op.through]⟩
  | .step i => s.stepThread i
  | .fail i e =>
    match s.threads[i]? with
    | some t => if t.prog.ended then s else s.put i (.throw e) t.mine s.vol
    | none => s
  | .release h => { s with vol := (volStep V s.vol (.release h)).2 }
  | .releasedir h => { s with vol := (volStep V s.vol (.releasedir h)).2 }
  | .tick now => { s with vol := (volStep V s.vol (.tick now)).2 }
  | .close id => { s with vol := (volStep V s.vol (.close id)).2 }
  | .eject id => { s with vol := (volStep V s.vol (.eject id)).2 }
  | .remount => if s.threads.all fun t => t.prog.ended then { s with vol := (volStep V s.vol .remount).2 } else s

/-- A history (`/repo/sources/full_format.h:63-160`). -/
def run : VolSys → List VolSysEvent → VolSys
  | s, [] => s
  | s, e :: rest => run (s.step V e) rest

end VolSys

end

end Securefs

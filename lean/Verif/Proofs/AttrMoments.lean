import Verif.Proofs.DataMoments
import Verif.Proofs.MomentsOps
import Verif.Spec.AttrMoments
/-!
# Helper lemmas: the moment at which modes and owners are changed
-/

namespace Securefs.Am
open Spec Mo Dm

/-- The mode, the user and the group. -/
def whoA (a : FileAttr) : UInt32 × UInt32 × UInt32 := (a.mode, a.uid, a.gid)

/-- The same of a file. -/
def who (n : Inode) : UInt32 × UInt32 × UInt32 := whoA n.attr

theorem owned_get {fs : FullFs} {id : Bytes} : owned fs id = (fs.get id).map who := by
  simp only [owned, viewOf, Option.map_map]
  cases fs.get id <;> rfl

theorem owned_set {fs : FullFs} {id : Bytes} {n : Inode} (h : fs.get id = some n) (m : Inode) (d : Bytes) :
    owned (fs.set id m) d = if d = id then some (who m) else owned fs d := by
  rw [owned_get, Dm.get_set h, owned_get]
  split <;> rfl

theorem who_ctime (st : Bool) (now : TimeSpec) (a : FileAttr) : whoA (a.touchCtime st now) = whoA a := by
  unfold FileAttr.touchCtime
  split <;> rfl

theorem who_mtime (st : Bool) (now : TimeSpec) (a : FileAttr) : whoA (a.touchMtime st now) = whoA a := by
  unfold FileAttr.touchMtime
  split <;> rfl

theorem who_atime (st : Bool) (now : TimeSpec) (a : FileAttr) : whoA (a.touchAtime st now) = whoA a := by
  unfold FileAttr.touchAtime
  split <;> rfl

theorem who_nlink (st : Bool) (now : TimeSpec) (v : UInt32) (a : FileAttr) : whoA (a.setNlink st now v) = whoA a := by
  unfold FileAttr.setNlink
  split
  · rfl
  · exact who_ctime st now { a with nlink := v }

theorem who_utimens (st : Bool) (g : TimeSpec) (ts : Option (TimeSpec × TimeSpec)) (a : FileAttr) : whoA (a.utimens st g ts) = whoA a := by
  unfold FileAttr.utimens
  split
  · cases ts <;> rfl
  · rfl

theorem who_mode (st : Bool) (now : TimeSpec) (v : UInt32) (a : FileAttr) : whoA (a.setMode st now v) = (v, a.uid, a.gid) := by
  unfold FileAttr.setMode
  split
  · next h => rw [← h]; rfl
  · exact who_ctime st now { a with mode := v }

theorem who_uid (st : Bool) (now : TimeSpec) (v : UInt32) (a : FileAttr) : whoA (a.setUid st now v) = (a.mode, v, a.gid) := by
  unfold FileAttr.setUid
  split
  · next h => rw [← h]; rfl
  · exact who_ctime st now { a with uid := v }

theorem who_gid (st : Bool) (now : TimeSpec) (v : UInt32) (a : FileAttr) : whoA (a.setGid st now v) = (a.mode, a.uid, v) := by
  unfold FileAttr.setGid
  split
  · next h => rw [← h]; rfl
  · exact who_ctime st now { a with gid := v }

theorem who_chmod (st : Bool) (now : TimeSpec) (mode : UInt32) (a : FileAttr) :
    whoA (a.chmod st now mode) = ((whoA a).1 &&& 0xfffffe00 ||| mode &&& 0x1ff, (whoA a).2) := by
  unfold FileAttr.chmod
  rw [who_mode]
  rfl

theorem who_chown (st : Bool) (now : TimeSpec) (uid gid : UInt32) (a : FileAttr) :
    whoA (a.chown st now uid gid) =
      ((whoA a).1, if uid = 0xffffffff then (whoA a).2.1 else uid, if gid = 0xffffffff then (whoA a).2.2 else gid) := by
  have key : ∀ b : FileAttr, whoA (if gid ≠ 0xffffffff then FileAttr.setGid st now gid b else b) =
      ((whoA b).1, (whoA b).2.1, if gid = 0xffffffff then (whoA b).2.2 else gid) := by
    intro b
    by_cases hg : gid = 0xffffffff
    · rw [if_neg (not_not.mpr hg), if_pos hg]
    · rw [if_pos hg, if_neg hg, who_gid]
      rfl
  unfold FileAttr.chown
  dsimp only
  rw [key]
  by_cases hu : uid = 0xffffffff
  · rw [if_neg (not_not.mpr hu), if_pos hu]
  · rw [if_pos hu, if_neg hu, who_uid]
    rfl

theorem kept_refl (fs : FullFs) : Moment.kept (fs, fs) := fun _ => rfl

theorem kept_set {fs : FullFs} {id : Bytes} {n m : Inode} (h : fs.get id = some n) (e : who m = who n) : Moment.kept (fs, fs.set id m) := by
  intro d
  show owned (fs.set id m) d = owned fs d
  rw [owned_set h]
  split
  · rename_i hd
    subst hd
    rw [owned_get, h, e]
    rfl
  · rfl

/-- A section that changes no mode or owner. -/
def KeptSec {β : Type} (f : Sec β) : Prop := ∀ fs, Moment.kept (fs, (f fs).2)

theorem kept_file {β : Type} {id : Bytes} {f : TimeSpec → Inode → Res β × Inode} (h : ∀ now n, who (f now n).2 = who n) : KeptSec (Sec.file id f) := by
  intro fs
  unfold Sec.file
  cases hg : fs.get id with
  | none => exact kept_refl fs
  | some n => exact kept_set hg (h _ _)

theorem kept_dir {β : Type} {h : FH} {f : TimeSpec → Inode → Res β × Inode} (hf : ∀ now n, who (f now n).2 = who n) : KeptSec (Sec.dir h f) := by
  refine kept_file fun now n => ?_
  cases castAs h typeDirectory n with
  | error e => rfl
  | ok _ => exact hf now n

theorem kept_reg {β : Type} {h : FH} {f : TimeSpec → Inode → Res β × Inode} (hf : ∀ now n, who (f now n).2 = who n) : KeptSec (Sec.reg h f) := by
  refine kept_file fun now n => ?_
  cases castAs h typeRegular n with
  | error e => rfl
  | ok _ => exact hf now n

theorem kept_openAs (id : Bytes) (type : Nat) : KeptSec (secOpenAs id type) := by
  intro fs
  unfold secOpenAs
  split
  · split <;> exact kept_refl fs
  · split
    · exact kept_refl fs
    · split <;> exact kept_refl fs

theorem kept_get (cfg : FsCfg) (h : FH) (name : Bytes) : KeptSec (secGet cfg h name) := by
  refine kept_dir fun now n => ?_
  simp only [Inode.getEntry]
  split <;> exact who_atime _ _ _

theorem kept_getParent (h : FH) : KeptSec (secGetParent h) := kept_file fun _ _ => rfl
theorem kept_setParent (h : FH) (id : Bytes) : KeptSec (secSetParent h id) := kept_file fun _ _ => rfl
theorem kept_unlink (h : FH) : KeptSec (secUnlink h) := kept_file fun _ _ => rfl
theorem kept_flush (h : FH) : KeptSec (secFlush h) := kept_file fun _ _ => rfl
theorem kept_stat (cfg : FsCfg) (ov : OwnerOverride) (h : FH) : KeptSec (secStat cfg ov h) := kept_file fun _ _ => rfl
theorem kept_readdir (cfg : FsCfg) (fill : Nat → Int) (h : FH) : KeptSec (secReaddir cfg fill h) := kept_dir fun _ _ => who_atime _ _ _
theorem kept_read (cfg : FsCfg) (h : FH) (off len : Nat) : KeptSec (secRead cfg h off len) := kept_reg fun _ _ => who_atime _ _ _

theorem kept_linkGet (cfg : FsCfg) (h : FH) : KeptSec (secLinkGet cfg h) := by
  refine kept_file fun now n => ?_
  cases castAs h typeSymlink n with
  | error _ => rfl
  | ok _ => exact who_atime _ _ _

theorem kept_unlinkEmpty (cfg : FsCfg) (h : FH) : KeptSec (secUnlinkEmpty cfg h) := by
  refine kept_dir fun now n => ?_
  unfold Inode.unlinkEmpty
  cases n.entries <;> exact who_atime _ _ _

theorem kept_add (cfg : FsCfg) (h : FH) (e : DirEntry) : KeptSec (secAdd cfg h e) := by
  refine kept_dir fun now n => ?_
  simp only [Inode.addEntry]
  split
  · exact who_mtime _ _ _
  · split <;> exact who_mtime _ _ _

theorem kept_remove (cfg : FsCfg) (h : FH) (name : Bytes) : KeptSec (secRemove cfg h name) := by
  refine kept_dir fun now n => ?_
  simp only [Inode.removeEntry]
  split <;> exact who_mtime _ _ _

theorem kept_trans {x y z : FullFs} (h1 : Moment.kept (x, y)) (h2 : Moment.kept (y, z)) : Moment.kept (x, z) := fun id => (h2 id).trans (h1 id)

theorem kept_bind {α β : Type} {x : Sec α} {f : α → Sec β} (hx : KeptSec x) (hf : ∀ a, KeptSec (f a)) : KeptSec (Sec.bind x f) := by
  intro fs
  have h1 := hx fs
  unfold Sec.bind
  revert h1
  cases x fs with
  | mk r fs1 =>
    intro h1
    cases r with
    | error e => exact h1
    | ok a => exact kept_trans h1 (hf a fs1)

theorem kept_pure {α : Type} (a : α) : KeptSec (Sec.pure a) := fun fs => kept_refl fs

theorem kept_link (cfg : FsCfg) (base : FH) (last : Bytes) (f : FH) : KeptSec (secLink cfg base last f) := by
  unfold secLink
  refine kept_bind (kept_file fun _ _ => rfl) fun t => kept_bind (kept_add _ _ _) fun added => ?_
  split
  · exact kept_file fun _ _ => who_nlink _ _ _ _
  · exact kept_pure _

theorem kept_rename (cfg : FsCfg) (bf : FH) (lf : Bytes) (bt : FH) (lt : Bytes) : KeptSec (secRename cfg bf lf bt lt) := by
  unfold secRename
  refine kept_bind (kept_remove _ _ _) fun r => ?_
  cases r with
  | none => exact kept_pure _
  | some x =>
    refine kept_bind (kept_remove _ _ _) fun r2 => ?_
    cases r2 with
    | none => exact kept_bind (kept_add _ _ _) fun _ => kept_pure _
    | some y =>
      dsimp only
      split
      · exact kept_bind (kept_add _ _ _) fun _ => kept_bind (kept_add _ _ _) fun _ => kept_pure _
      · exact kept_bind (kept_add _ _ _) fun _ => kept_pure _


/-! ## Programs that change no mode or owner -/

/-- No section of the program changes modes or owners. -/
def KeptProg {α : Type} : Prog α → Prop
  | .ret _ => True
  | .throw _ => True
  | .sec f k => KeptSec f ∧ ∀ b, KeptProg (k b)

theorem KeptProg.bind {α β : Type} {g : α → Prog β} : ∀ {p : Prog α}, KeptProg p → (∀ a, KeptProg (g a)) → KeptProg (p.bind g)
  | .ret a, _, hg => hg a
  | .throw _, _, _ => trivial
  | .sec _ _, h, hg => ⟨h.1, fun b => KeptProg.bind (h.2 b) hg⟩

theorem KeptProg.one {α β : Type} {f : Sec β} {g : β → Prog α} (h : KeptSec f) (hg : ∀ b, KeptProg (g b)) : KeptProg ((Prog.one f).bind g) := ⟨h, hg⟩

theorem allKept_nil : AllKept [] := fun _ h => nomatch h

theorem allKept_cons {m : Moment} {ms : List Moment} (h : m.kept) (hs : AllKept ms) : AllKept (m :: ms) := by
  intro x hx
  rcases List.mem_cons.mp hx with rfl | hx
  · exact h
  · exact hs x hx

theorem allKept_append {a b : List Moment} (ha : AllKept a) (hb : AllKept b) : AllKept (a ++ b) := by
  intro x hx
  rcases List.mem_append.mp hx with hx | hx
  · exact ha x hx
  · exact hb x hx

theorem KeptProg.always {α : Type} : ∀ {p : Prog α}, KeptProg p → Always p fun ms _ => AllKept ms
  | .ret _, _ => allKept_nil
  | .throw _, _ => allKept_nil
  | .sec f k, h => by
    refine ⟨allKept_nil, fun fs => ?_⟩
    have h1 := h.1 fs
    revert h1
    cases f fs with
    | mk x fs' =>
      intro h1
      cases x with
      | error e => exact allKept_cons h1 allKept_nil
      | ok b => exact (KeptProg.always (h.2 b)).mono fun ms r hm => allKept_cons h1 hm

theorem keptProg_walk (cfg : FsCfg) {rec : Bytes → FH → List Bytes → Prog (Option FH)} (hr : ∀ i h l, KeptProg (rec i h l)) :
    ∀ (l : List Bytes) (i : Bytes) (h : FH), KeptProg (walk cfg rec i h l)
  | [], _, _ => trivial
  | s :: rest, i, h => by
    rw [walk]
    split
    · exact keptProg_walk cfg hr rest i h
    · split
      · exact .one (kept_getParent _) fun _ => .one (kept_openAs _ _) fun _ => keptProg_walk cfg hr rest _ _
      · refine .one (kept_get _ _ _) fun found => ?_
        cases found with
        | none => trivial
        | some e =>
          refine .one (kept_openAs _ _) fun _ => .one (kept_setParent _ _) fun _ => ?_
          split
          · refine .one (kept_linkGet _ _) fun t => KeptProg.bind (hr _ _ _) fun r => ?_
            cases r with
            | none => trivial
            | some c => exact keptProg_walk cfg hr rest _ _
          · exact keptProg_walk cfg hr rest _ _

theorem keptProg_genericOpen (cfg : FsCfg) : ∀ (d : Nat) (i : Bytes) (h : FH) (l : List Bytes), KeptProg (genericOpen cfg d i h l)
  | 0, _, _, _ => trivial
  | d + 1, i, h, l => keptProg_walk cfg (keptProg_genericOpen cfg d) l i h

theorem keptProg_openBase (cfg : FsCfg) (path : Bytes) : KeptProg (openBase cfg path) := by
  unfold openBase
  refine .one (kept_openAs _ _) fun root => ?_
  split
  · trivial
  · split
    · trivial
    · refine KeptProg.bind (keptProg_genericOpen _ _ _ _ _) fun r => ?_
      cases r <;> trivial

theorem keptProg_openAll (cfg : FsCfg) (path : Bytes) (fl : Bool) : KeptProg (openAll cfg path fl) := by
  unfold openAll
  split
  · exact .one (kept_openAs _ _) fun _ => trivial
  · refine KeptProg.bind (keptProg_openBase _ _) fun x => .one (kept_get _ _ _) fun found => ?_
    cases found with
    | none => trivial
    | some e =>
      refine .one (kept_openAs _ _) fun _ => .one (kept_setParent _ _) fun _ => ?_
      split
      · exact .one (kept_linkGet _ _) fun t => keptProg_genericOpen _ _ _ _ _
      · trivial


theorem kept_write (cfg : FsCfg) (h : FH) (off : Nat) (d : Bytes) : KeptSec (secWrite cfg h off d) := kept_reg fun _ _ => who_mtime _ _ _
theorem kept_truncate (cfg : FsCfg) (h : FH) (size : Nat) : KeptSec (secTruncate cfg h size) := kept_reg fun _ _ => who_mtime _ _ _

theorem kept_linkSet (cfg : FsCfg) (h : FH) (target : Bytes) : KeptSec (secLinkSet cfg h target) := by
  refine kept_file fun now n => ?_
  cases castAs h typeSymlink n with
  | error _ => rfl
  | ok _ => exact who_mtime _ _ _

theorem KeptSec.at {β : Type} {f : Sec β} (hc : KeptSec f) {fs fs' : FullFs} {x : Res β} (e : f fs = (x, fs')) : Moment.kept (fs, fs') := by
  have := hc fs
  rw [e] at this
  exact this

/-! ## Sections that change modes or owners -/

theorem attr_given {h : FH} {f : TimeSpec → FileAttr → FileAttr} {g : UInt32 × UInt32 × UInt32 → UInt32 × UInt32 × UInt32}
    (hf : ∀ now a, whoA (f now a) = g (whoA a)) {fs fs' : FullFs} {u : Unit} (e : secAttr h f fs = (.ok u, fs')) : Moment.given (fs, fs') h.id g := by
  unfold secAttr Sec.file at e
  cases hg : fs.get h.id with
  | none => rw [hg] at e; cases e
  | some n =>
    rw [hg] at e
    injection e with _ e
    subst e
    refine ⟨⟨who n, ?_, ?_⟩, fun d hd => ?_⟩
    · show owned fs h.id = _
      rw [owned_get, hg]
      rfl
    · show owned (fs.set h.id _) h.id = _
      rw [owned_set hg, if_pos rfl]
      exact congrArg some (hf _ _)
    · show owned (fs.set h.id _) d = owned fs d
      rw [owned_set hg, if_neg hd]

theorem attr_error {h : FH} {f : TimeSpec → FileAttr → FileAttr} {fs fs' : FullFs} {er : Err} (e : secAttr h f fs = (.error er, fs')) : Moment.kept (fs, fs') := by
  unfold secAttr Sec.file at e
  cases hg : fs.get h.id with
  | none =>
    rw [hg] at e
    injection e with _ e
    subst e
    exact kept_refl fs
  | some n => rw [hg] at e; cases e

theorem create_born {cfg : FsCfg} {id : Bytes} {type : Nat} {mode uid gid : UInt32} {fs fs' : FullFs} {h : FH}
    (e : secCreate cfg id type mode uid gid fs = (.ok h, fs')) :
    h = ⟨id, type⟩ ∧ Moment.born (fs, fs') id (mode &&& 0x1ff ||| modeForType type, storedOwner uid cfg.osUid, storedOwner gid cfg.osGid) := by
  unfold secCreate at e
  split at e
  · cases e
  · cases hg : fs.get id with
    | some n => rw [hg] at e; cases e
    | none =>
      rw [hg] at e
      injection e with e1 e2
      injection e1 with e1
      subst e2
      refine ⟨e1.symm, ?_, ?_, fun d hd => ?_⟩
      · show owned fs id = none
        rw [owned_get, hg]
        rfl
      · rw [owned_get]
        unfold FullFs.get at hg ⊢
        rw [lookup_append, hg]
        simp [who, whoA, FileAttr.initializeEmpty, FileAttr.setNumFree, storedOwner]
      · rw [owned_get, owned_get]
        unfold FullFs.get
        rw [lookup_append]
        cases hl : fs.nodes.lookup d with
        | some n => rfl
        | none => simp [hd]

theorem create_error {cfg : FsCfg} {id : Bytes} {type : Nat} {mode uid gid : UInt32} {fs fs' : FullFs} {er : Err}
    (e : secCreate cfg id type mode uid gid fs = (.error er, fs')) : Moment.kept (fs, fs') := by
  unfold secCreate at e
  split at e
  · injection e with _ e
    subst e
    exact kept_refl fs
  · cases hg : fs.get id with
    | some n =>
      rw [hg] at e
      injection e with _ e
      subst e
      exact kept_refl fs
    | none => rw [hg] at e; cases e

/-! ## The calls -/

/-- What is to hold of all executions of a call. -/
def AttrR (cfg : FsCfg) (op : FullOp) (ms : List Moment) : Option (Res Int) → Prop
  | some (.ok v) => AttrEffect cfg ms v op
  | _ => AttrCut cfg ms op

theorem of_kept {cfg : FsCfg} {op : FullOp} (h : KeptProg (op.prog cfg)) (he : ∀ ms v, AllKept ms → AttrEffect cfg ms v op)
    (hc : ∀ ms, AllKept ms → AttrCut cfg ms op) : Always (op.prog cfg) (AttrR cfg op) := by
  refine h.always.mono fun ms r hm => ?_
  match r, hm with
  | none, hm => exact hc ms hm
  | some (.error _), hm => exact hc ms hm
  | some (.ok v), hm => exact he ms v hm

/-- What comes of `create`. -/
def BornR (cfg : FsCfg) (id : Bytes) (type : Nat) (mode uid gid : UInt32) (ms : List Moment) : Option (Res FH) → Prop
  | some (.ok h) => h = ⟨id, type⟩ ∧ Makes cfg ms id type mode uid gid
  | _ => AllKept ms ∨ OnceAttr ms fun _ m _ => m.born id (mode, storedOwner uid cfg.osUid, storedOwner gid cfg.osGid)

theorem always_born (cfg : FsCfg) (path : Bytes) (mode : UInt32) (type : Nat) (uid gid : UInt32) (id : Bytes) :
    Always (createFile cfg path mode type uid gid id) (BornR cfg id type (mode &&& 0x1ff ||| modeForType type) uid gid) := by
  unfold createFile
  refine Always.bind (keptProg_openBase cfg path).always (fun a x ka => ?_) (fun ms e hb => .inl hb) (fun ms hb => .inl hb)
  obtain ⟨base, last⟩ := x
  dsimp only
  refine Always.sec (by rw [List.append_nil]; exact .inl ka) (fun fs e fs' hf => ?_) fun fs h fs' hf => ?_
  · exact .inl (allKept_append ka (allKept_cons (create_error hf) allKept_nil))
  · obtain ⟨rfl, hb⟩ := create_born hf
    have one : ∀ l, AllKept l → OnceAttr (a ++ (fs, fs') :: l) fun _ m _ =>
        m.born id (mode &&& 0x1ff ||| modeForType type, storedOwner uid cfg.osUid, storedOwner gid cfg.osGid) := fun l hl => ⟨a, _, l, rfl, ka, hl, hb⟩
    refine Always.sec (.inr (one _ allKept_nil)) (fun fs2 e fs2' hf2 => ?_) fun fs2 b fs2' hf2 => ?_
    · exact .inr (one _ (allKept_cons ((kept_add _ _ _).at hf2) allKept_nil))
    · have k2 := (kept_add _ _ _).at hf2
      rcases add_names hf2 with ⟨rfl, ha⟩ | ⟨rfl, _, _⟩
      · rw [if_pos rfl]
        refine Always.sec (.inr (one _ (allKept_cons k2 allKept_nil))) (fun fs3 e fs3' hf3 => ?_) fun fs3 _ fs3' hf3 => ?_
        · exact .inr (one _ (allKept_cons k2 (allKept_cons ((kept_setParent _ _).at hf3) allKept_nil)))
        · exact ⟨rfl, a, _, _, rfl, ka, allKept_cons k2 (allKept_cons ((kept_setParent _ _).at hf3) allKept_nil), hb, _, List.mem_cons_self, _, _, ha⟩
      · rw [if_neg (by decide)]
        refine Always.sec (.inr (one _ (allKept_cons k2 allKept_nil))) (fun fs3 e fs3' hf3 => ?_) fun fs3 _ fs3' hf3 => ?_
        · exact .inr (one _ (allKept_cons k2 (allKept_cons ((kept_unlink _).at hf3) allKept_nil)))
        · exact .inr (one _ (allKept_cons k2 (allKept_cons ((kept_unlink _).at hf3) allKept_nil)))

theorem always_openKept (cfg : FsCfg) (path : Bytes) (fl : Bool) :
    Always (openAll cfg path fl) fun ms r => AllR cfg.same path fl ms r ∧ AllKept ms :=
  always_and (always_openAll cfg path fl) (keptProg_openAll cfg path fl).always

theorem always_changed {cfg : FsCfg} {path : Bytes} {f : TimeSpec → FileAttr → FileAttr} {g : UInt32 × UInt32 × UInt32 → UInt32 × UInt32 × UInt32}
    (hf : ∀ now a, whoA (f now a) = g (whoA a)) {op : FullOp} (hc : ∀ ms, AllKept ms → AttrCut cfg ms op) (h2 : ∀ ms, AllKept ms → AttrEffect cfg ms (-2) op)
    (h0 : ∀ ms, (OnceAttr ms fun a m _ => ∃ id, FoundFile cfg.same a path false id ∧ m.given id g) → AttrEffect cfg ms 0 op) :
    Always (withAttr cfg path false f) (AttrR cfg op) := by
  unfold withAttr
  refine Always.bind (always_openKept cfg path false) (fun a r ha => ?_) (fun ms e h => hc _ h.2) fun ms h => hc _ h.2
  cases r with
  | none =>
    show AttrR cfg op (a ++ []) (some (.ok (-2)))
    rw [List.append_nil]
    exact h2 _ ha.2
  | some h =>
    refine Always.sec ?_ (fun fs e fs' he => ?_) fun fs b fs' hb => ?_
    · rw [List.append_nil]; exact hc _ ha.2
    · exact hc _ (allKept_append ha.2 (allKept_cons (attr_error he) allKept_nil))
    · exact h0 _ ⟨a, _, [], rfl, ha.2, allKept_nil, h.id, ha.1.2, attr_given hf hb⟩

theorem keptProg_utimens (cfg : FsCfg) (path : Bytes) (g : TimeSpec) (ts : Option (TimeSpec × TimeSpec)) :
    KeptProg (withAttr cfg path false fun _ a => a.utimens cfg.storeTime g ts) := by
  unfold withAttr
  refine KeptProg.bind (keptProg_openAll _ _ _) fun r => ?_
  cases r with
  | none => trivial
  | some h => exact .one (kept_file fun _ _ => who_utimens _ _ _ _) fun _ => trivial

theorem always_attr (cfg : FsCfg) (op : FullOp) : Always (op.prog cfg) (AttrR cfg op) := by
  cases op with
  | create p m u g i =>
    refine Always.bind (always_born cfg p m typeRegular u g i) (fun ms h hb => ?_) (fun ms e h => h) fun ms h => h
    show AttrR cfg (.create p m u g i) (ms ++ []) (some (.ok 0))
    rw [List.append_nil]
    exact ⟨rfl, hb.2⟩
  | mkdir p m u g i =>
    refine Always.bind (always_born cfg p m typeDirectory u g i) (fun ms h hb => ?_) (fun ms e h => h) fun ms h => h
    show AttrR cfg (.mkdir p m u g i) (ms ++ []) (some (.ok 0))
    rw [List.append_nil]
    exact ⟨rfl, hb.2⟩
  | symlink t f u g i =>
    refine Always.bind (always_born cfg f 0x1a4 typeSymlink u g i) (fun ms h hb => ?_) (fun ms e h => h) fun ms h => h
    obtain ⟨rfl, a, m, b, rfl, ka, kb, hm, m', hm', d, name, ha⟩ := hb
    have weak : ∀ l, AllKept l → AttrCut cfg (a ++ m :: b ++ l) (.symlink t f u g i) := by
      intro l hl
      rw [List.append_assoc, List.cons_append]
      exact .inr ⟨a, m, b ++ l, rfl, ka, allKept_append kb hl, hm⟩
    refine Always.sec (weak _ allKept_nil) (fun fs e fs' he => ?_) fun fs b' fs' hb => ?_
    · exact weak _ (allKept_cons ((kept_linkSet _ _ _).at he) allKept_nil)
    · have k := allKept_cons ((kept_linkSet _ _ _).at hb) allKept_nil
      refine ⟨rfl, ?_⟩
      rw [List.append_assoc, List.cons_append]
      exact ⟨a, m, b ++ _, rfl, ka, allKept_append kb k, hm, m', List.mem_append_left _ hm', d, name, ha⟩
  | unlink p =>
    refine of_kept ?_ (fun _ _ h => h) fun _ h => h
    refine KeptProg.bind (keptProg_openBase _ _) fun x => .one (kept_remove _ _ _) fun r => ?_
    cases r with
    | none => trivial
    | some e => exact .one (kept_openAs _ _) fun _ => .one (kept_unlink _) fun _ => trivial
  | rmdir p =>
    refine of_kept ?_ (fun _ _ h => h) fun _ h => h
    refine KeptProg.bind (keptProg_openBase _ _) fun x => .one (kept_remove _ _ _) fun r => ?_
    cases r with
    | none => trivial
    | some e => exact .one (kept_openAs _ _) fun _ => .one (kept_unlinkEmpty _ _) fun _ => trivial
  | link s d =>
    refine of_kept ?_ (fun _ _ h => h) fun _ h => h
    refine KeptProg.bind (keptProg_openAll _ _ _) fun r => ?_
    cases r with
    | none => trivial
    | some h => exact KeptProg.bind (keptProg_openBase _ _) fun x => .one (kept_link _ _ _ _) fun _ => trivial
  | rename f t =>
    refine of_kept ?_ (fun _ _ h => h) fun _ h => h
    refine KeptProg.bind (keptProg_openBase _ _) fun x => KeptProg.bind (keptProg_openBase _ _) fun y => .one (kept_rename _ _ _ _ _) fun r => ?_
    cases r with
    | missing => trivial
    | done => trivial
    | replaced e => exact .one (kept_openAs _ _) fun _ => .one (kept_unlink _) fun _ => trivial
  | chmod p m => exact always_changed (fun _ _ => who_chmod _ _ _ _) (fun _ h => h) (fun _ h => .inr ⟨rfl, h⟩) fun _ h => .inl ⟨rfl, h⟩
  | chown p u g => exact always_changed (fun _ _ => who_chown _ _ _ _ _) (fun _ h => h) (fun _ h => .inr ⟨rfl, h⟩) fun _ h => .inl ⟨rfl, h⟩
  | utimens p ga ts => exact of_kept (keptProg_utimens _ _ _ _) (fun _ _ h => h) fun _ h => h
  | getattr p =>
    refine of_kept (KeptProg.bind (KeptProg.bind (keptProg_openAll _ _ _) fun r => ?_) fun _ => trivial) (fun _ _ h => h) fun _ h => h
    cases r with
    | none => trivial
    | some h => exact .one (kept_stat _ _ _) fun _ => trivial
  | «open» p tr =>
    refine of_kept (KeptProg.bind (KeptProg.bind (keptProg_openAll _ _ _) fun r => ?_) fun _ => trivial) (fun _ _ h => h) fun _ h => h
    cases r with
    | none => trivial
    | some h =>
      cases tr with
      | false => trivial
      | true => exact .one (kept_truncate _ _ _) fun _ => trivial
  | readlink p n =>
    refine of_kept (KeptProg.bind ?_ fun _ => trivial) (fun _ _ h => h) fun _ h => h
    unfold fullReadlink
    split
    · trivial
    · split
      · trivial
      · refine KeptProg.bind (keptProg_openAll _ _ _) fun r => ?_
        cases r with
        | none => trivial
        | some h => exact .one (kept_linkGet _ _) fun _ => trivial
  | opendir p =>
    refine of_kept (KeptProg.bind (KeptProg.bind (keptProg_openAll _ _ _) fun r => ?_) fun _ => trivial) (fun _ _ h => h) fun _ h => h
    cases r with
    | none => trivial
    | some h => dsimp only; split <;> trivial
  | truncate p n =>
    refine of_kept (KeptProg.bind (keptProg_openAll _ _ _) fun r => ?_) (fun _ _ h => h) fun _ h => h
    cases r with
    | none => trivial
    | some h => exact .one (kept_truncate _ _ _) fun _ => trivial
  | read h off len => exact of_kept (KeptProg.one (kept_read _ _ _ _) fun _ => trivial) (fun _ _ h => h) fun _ h => h
  | write h off d => exact of_kept (KeptProg.one (kept_write _ _ _ _) fun _ => trivial) (fun _ _ h => h) fun _ h => h
  | ftruncate h n => exact of_kept (KeptProg.one (kept_truncate _ _ _) fun _ => trivial) (fun _ _ h => h) fun _ h => h
  | fgetattr h => exact of_kept (KeptProg.one (kept_stat _ _ _) fun _ => trivial) (fun _ _ h => h) fun _ h => h
  | readdir h fill =>
    refine of_kept (KeptProg.bind ?_ fun _ => trivial) (fun _ _ h => h) fun _ h => h
    unfold fullReaddir
    split
    · trivial
    · exact .one (kept_readdir _ _ _) fun _ => trivial
  | flush h => exact of_kept (KeptProg.one (kept_flush _) fun _ => trivial) (fun _ _ h => h) fun _ h => h
  | fsync h => exact of_kept (KeptProg.one (kept_file fun _ _ => rfl) fun _ => trivial) (fun _ _ h => h) fun _ h => h

end Securefs.Am

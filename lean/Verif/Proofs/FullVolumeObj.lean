import Verif.Spec.FullVolume
import Verif.Proofs.DirFileRun
import Verif.Proofs.FullFsTree
/-! Helper lemmas: the objects of a volume and the files of the ideal file system. -/

namespace Securefs.Vol

open Securefs Spec FileEnv

variable {V : VolEnv} {id : Bytes}

/-! ## Attributes -/

/-- Attributes without the mark that they have to be written. -/
def clean (a : FileAttr) : FileAttr := { a with dirty := false }

/-- The attributes that are not times or pages. -/
def own (a : FileAttr) : UInt32 × UInt32 × UInt32 × UInt32 := (a.mode, a.uid, a.gid, a.nlink)

theorem own_of_clean {a b : FileAttr} (h : clean a = clean b) : own a = own b := by
  have : own (clean a) = own (clean b) := by rw [h]
  exact this

theorem touchAtime_clean (st : Bool) (now : TimeSpec) {a b : FileAttr} (h : clean a = clean b) :
    clean (a.touchAtime st now) = clean (b.touchAtime st now) := by
  have h1 : a.atime = b.atime := (congrArg FileAttr.atime h : (clean a).atime = (clean b).atime)
  have h2 : a.mtime = b.mtime := (congrArg FileAttr.mtime h : (clean a).mtime = (clean b).mtime)
  have h3 : a.ctime = b.ctime := (congrArg FileAttr.ctime h : (clean a).ctime = (clean b).ctime)
  unfold FileAttr.touchAtime
  rw [h1, h2, h3]
  split
  · exact congrArg (fun x : FileAttr => { x with atime := now, mtime := b.mtime, ctime := b.ctime }) h
  · exact h

theorem touchMtime_clean (st : Bool) (now : TimeSpec) {a b : FileAttr} (h : clean a = clean b) :
    clean (a.touchMtime st now) = clean (b.touchMtime st now) := by
  unfold FileAttr.touchMtime
  split
  · exact congrArg (fun x : FileAttr => { x with mtime := now, ctime := now }) h
  · exact h

theorem touchCtime_clean (st : Bool) (now : TimeSpec) {a b : FileAttr} (h : clean a = clean b) :
    clean (a.touchCtime st now) = clean (b.touchCtime st now) := by
  unfold FileAttr.touchCtime
  split
  · exact congrArg (fun x : FileAttr => { x with ctime := now }) h
  · exact h

theorem clean_dirty (a : FileAttr) : clean { a with dirty := true } = clean a := rfl

theorem setMode_clean (st : Bool) (now : TimeSpec) (v : UInt32) {a b : FileAttr} (h : clean a = clean b) :
    clean (a.setMode st now v) = clean (b.setMode st now v) := by
  unfold FileAttr.setMode
  have h1 : a.mode = b.mode := (congrArg FileAttr.mode h : (clean a).mode = (clean b).mode)
  rw [h1]
  split
  · exact h
  · rw [clean_dirty, clean_dirty]
    exact touchCtime_clean st now (congrArg (fun x : FileAttr => { x with mode := v }) h)

theorem setUid_clean (st : Bool) (now : TimeSpec) (v : UInt32) {a b : FileAttr} (h : clean a = clean b) :
    clean (a.setUid st now v) = clean (b.setUid st now v) := by
  unfold FileAttr.setUid
  have h1 : a.uid = b.uid := (congrArg FileAttr.uid h : (clean a).uid = (clean b).uid)
  rw [h1]
  split
  · exact h
  · rw [clean_dirty, clean_dirty]
    exact touchCtime_clean st now (congrArg (fun x : FileAttr => { x with uid := v }) h)

theorem setGid_clean (st : Bool) (now : TimeSpec) (v : UInt32) {a b : FileAttr} (h : clean a = clean b) :
    clean (a.setGid st now v) = clean (b.setGid st now v) := by
  unfold FileAttr.setGid
  have h1 : a.gid = b.gid := (congrArg FileAttr.gid h : (clean a).gid = (clean b).gid)
  rw [h1]
  split
  · exact h
  · rw [clean_dirty, clean_dirty]
    exact touchCtime_clean st now (congrArg (fun x : FileAttr => { x with gid := v }) h)

theorem setNlink_clean (st : Bool) (now : TimeSpec) (v : UInt32) {a b : FileAttr} (h : clean a = clean b) :
    clean (a.setNlink st now v) = clean (b.setNlink st now v) := by
  unfold FileAttr.setNlink
  have h1 : a.nlink = b.nlink := (congrArg FileAttr.nlink h : (clean a).nlink = (clean b).nlink)
  rw [h1]
  split
  · exact h
  · rw [clean_dirty, clean_dirty]
    exact touchCtime_clean st now (congrArg (fun x : FileAttr => { x with nlink := v }) h)

theorem attrCall_clean (E : FileEnv) (now : TimeSpec) (op : AttrOp) {a b : FileAttr} (h : clean a = clean b) :
    clean (E.attrCall now op a) = clean (E.attrCall now op b) := by
  cases op with
  | read => exact touchAtime_clean _ _ h
  | write => exact touchMtime_clean _ _ h
  | chmod m =>
    have h1 : a.mode = b.mode := (congrArg FileAttr.mode h : (clean a).mode = (clean b).mode)
    simp only [attrCall, FileAttr.chmod]
    rw [h1]
    exact setMode_clean _ _ _ h
  | chown u g =>
    simp only [attrCall, FileAttr.chown]
    have : clean (if u ≠ 0xffffffff then a.setUid E.storeTime now u else a) = clean (if u ≠ 0xffffffff then b.setUid E.storeTime now u else b) := by
      split
      · exact setUid_clean _ _ _ h
      · exact h
    split
    · exact setGid_clean _ _ _ this
    · exact this
  | setNlink v => exact setNlink_clean _ _ _ h
  | unlink =>
    have h1 : a.nlink = b.nlink := (congrArg FileAttr.nlink h : (clean a).nlink = (clean b).nlink)
    simp only [attrCall, FileAttr.unlink, h1]
    exact congrArg (fun x : FileAttr => { x with nlink := b.nlink - 1 }) h
  | setRootPage v => exact congrArg (fun x : FileAttr => { x with rootPage := v }) h
  | setStartFree v => exact congrArg (fun x : FileAttr => { x with startFree := v }) h
  | setNumFree v => exact congrArg (fun x : FileAttr => { x with numFree := v }) h
  | utimens g ts =>
    simp only [attrCall, FileAttr.utimens]
    split
    · cases ts with
      | none => exact congrArg (fun x : FileAttr => { x with atime := g, mtime := g, ctime := g }) h
      | some p => exact congrArg (fun x : FileAttr => { x with atime := p.1, mtime := p.2, ctime := g }) h
    · exact h
  | flush => exact h
  | reload => exact h

theorem own_fields {a b : FileAttr} (h : own a = own b) : a.mode = b.mode ∧ a.uid = b.uid ∧ a.gid = b.gid ∧ a.nlink = b.nlink := by
  simpa [own] using h

theorem own_touchAtime (st : Bool) (now : TimeSpec) (a : FileAttr) : own (a.touchAtime st now) = own a := by
  unfold FileAttr.touchAtime; split <;> rfl

theorem own_touchMtime (st : Bool) (now : TimeSpec) (a : FileAttr) : own (a.touchMtime st now) = own a := by
  unfold FileAttr.touchMtime; split <;> rfl

theorem own_touchCtime (st : Bool) (now : TimeSpec) (a : FileAttr) : own (a.touchCtime st now) = own a := by
  unfold FileAttr.touchCtime; split <;> rfl

theorem own_setMode (st : Bool) (now : TimeSpec) (v : UInt32) (a : FileAttr) : own (a.setMode st now v) = (v, a.uid, a.gid, a.nlink) := by
  unfold FileAttr.setMode
  split
  · rename_i h; subst h; rfl
  · exact own_touchCtime _ _ _

theorem own_setUid (st : Bool) (now : TimeSpec) (v : UInt32) (a : FileAttr) : own (a.setUid st now v) = (a.mode, v, a.gid, a.nlink) := by
  unfold FileAttr.setUid
  split
  · rename_i h; subst h; rfl
  · exact own_touchCtime _ _ _

theorem own_setGid (st : Bool) (now : TimeSpec) (v : UInt32) (a : FileAttr) : own (a.setGid st now v) = (a.mode, a.uid, v, a.nlink) := by
  unfold FileAttr.setGid
  split
  · rename_i h; subst h; rfl
  · exact own_touchCtime _ _ _

theorem own_setNlink (st : Bool) (now : TimeSpec) (v : UInt32) (a : FileAttr) : own (a.setNlink st now v) = (a.mode, a.uid, a.gid, v) := by
  unfold FileAttr.setNlink
  split
  · rename_i h; subst h; rfl
  · exact own_touchCtime _ _ _

theorem attrCall_own (E : FileEnv) (now : TimeSpec) (op : AttrOp) {a b : FileAttr} (h : own a = own b) :
    own (E.attrCall now op a) = own (E.attrCall now op b) := by
  obtain ⟨h1, h2, h3, h4⟩ := own_fields h
  cases op with
  | read => simp only [attrCall, own_touchAtime]; exact h
  | write => simp only [attrCall, own_touchMtime]; exact h
  | chmod m => simp only [attrCall, FileAttr.chmod, own_setMode, h1, h2, h3, h4]
  | chown u g =>
    simp only [attrCall, FileAttr.chown]
    have : own (if u ≠ 0xffffffff then a.setUid E.storeTime now u else a) = own (if u ≠ 0xffffffff then b.setUid E.storeTime now u else b) := by
      split
      · rw [own_setUid, own_setUid, h1, h3, h4]
      · exact h
    obtain ⟨k1, k2, k3, k4⟩ := own_fields this
    split
    · rw [own_setGid, own_setGid, k1, k2, k4]
    · exact this
  | setNlink v => simp only [attrCall, own_setNlink, h1, h2, h3]
  | unlink => simp only [attrCall, FileAttr.unlink, own, h1, h2, h3, h4]
  | setRootPage v => exact h
  | setStartFree v => exact h
  | setNumFree v => exact h
  | utimens g ts =>
    simp only [attrCall, FileAttr.utimens]
    split
    · cases ts <;> exact h
    · exact h
  | flush => exact h
  | reload => exact h

theorem own_of_attrs {st : Bool} {a b : FileAttr} {A B : Attrs} {p q : Nat × Nat × Nat} (ha : attrsOf st a = { A with pages := p })
    (hb : attrsOf st b = { B with pages := q }) (hm : A.mode = B.mode) (hu : A.uid = B.uid) (hg : A.gid = B.gid) (hn : A.nlink = B.nlink) :
    own a = own b := by
  have m1 : a.mode.toNat = A.mode := congrArg Attrs.mode ha
  have m2 : b.mode.toNat = B.mode := congrArg Attrs.mode hb
  have u1 : a.uid.toNat = A.uid := congrArg Attrs.uid ha
  have u2 : b.uid.toNat = B.uid := congrArg Attrs.uid hb
  have g1 : a.gid.toNat = A.gid := congrArg Attrs.gid ha
  have g2 : b.gid.toNat = B.gid := congrArg Attrs.gid hb
  have n1 : a.nlink.toNat = A.nlink := congrArg Attrs.nlink ha
  have n2 : b.nlink.toNat = B.nlink := congrArg Attrs.nlink hb
  unfold own
  rw [UInt32.toNat_inj.1 (m1.trans (hm.trans m2.symm)), UInt32.toNat_inj.1 (u1.trans (hu.trans u2.symm)),
    UInt32.toNat_inj.1 (g1.trans (hg.trans g2.symm)), UInt32.toNat_inj.1 (n1.trans (hn.trans n2.symm))]

theorem attrStep_read_own (A : Attrs) (t : Int × Int) : (attrStep A t .read).mode = A.mode ∧ (attrStep A t .read).uid = A.uid ∧
    (attrStep A t .read).gid = A.gid ∧ (attrStep A t .read).nlink = A.nlink := ⟨rfl, rfl, rfl, rfl⟩

theorem attrStep_write_own (A : Attrs) (t : Int × Int) : (attrStep A t .write).mode = A.mode ∧ (attrStep A t .write).uid = A.uid ∧
    (attrStep A t .write).gid = A.gid ∧ (attrStep A t .write).nlink = A.nlink := ⟨rfl, rfl, rfl, rfl⟩

/-! ## Objects -/

/-- The object is the file `n` of the ideal file system. -/
structure NodeOk (V : VolEnv) (id : Bytes) (cls : Nat) (f : OpenFile) (cache : List (Nat × BNode)) (n : Inode) : Prop where
  good : GoodCls cls
  kind : modeForType cls = n.attr.mode &&& sIfmt
  own : own f.attr = own n.attr
  dir : cls = 4 → (∃ A, DirFile.Good V.env id V.dirs ⟨n.entries, A⟩ ⟨V.env, id, f, cache⟩) ∧ n.entries.length ≤ dirCapacity
  file : cls ≠ 4 → (∃ stored H, ObjRepr V.env id f n.data stored H) ∧ clean f.attr = clean n.attr ∧ n.data.length ≤ fileLimit V.env ∧ n.entries = []

/-- The backing files hold the file `n`. -/
def SavedOk (V : VolEnv) (id : Bytes) (n : Inode) (p : Bytes × Bytes) : Prop :=
  ∃ cls, ∀ rng, ∃ f, V.env.openObj id p.1 p.2 rng = .ok f ∧ NodeOk V id cls f [] n

theorem NodeOk.mode {cls : Nat} {f : OpenFile} {c : List (Nat × BNode)} {n : Inode} (h : NodeOk V id cls f c n) : f.attr.mode = n.attr.mode :=
  (own_fields h.own).1

theorem mode_inj {a b : Nat} (ha : GoodCls a) (hb : GoodCls b) (h : modeForType a = modeForType b) : a = b := by
  rcases ha with rfl | rfl | rfl <;> rcases hb with rfl | rfl | rfl <;> first | rfl | exact absurd h (by decide)

/-- The mark does not matter. -/
theorem NodeOk.congr {cls : Nat} {f : OpenFile} {c : List (Nat × BNode)} {n m : Inode} (h : NodeOk V id cls f c n) (ha : clean m.attr = clean n.attr)
    (hd : m.data = n.data) (he : m.entries = n.entries) : NodeOk V id cls f c m := by
  refine ⟨h.good, ?_, h.own.trans (own_of_clean ha.symm), ?_, ?_⟩
  · rw [(own_fields (own_of_clean ha)).1]; exact h.kind
  · rw [he]; exact h.dir
  · rw [hd, he]
    intro hc
    obtain ⟨h1, h2, h3⟩ := h.file hc
    exact ⟨h1, h2.trans ha.symm, h3⟩

theorem SavedOk.congr {n m : Inode} {p : Bytes × Bytes} (h : SavedOk V id n p) (ha : clean m.attr = clean n.attr)
    (hd : m.data = n.data) (he : m.entries = n.entries) : SavedOk V id m p := by
  obtain ⟨cls, h⟩ := h
  refine ⟨cls, fun rng => ?_⟩
  obtain ⟨f, e, hn⟩ := h rng
  exact ⟨f, e, hn.congr ha hd he⟩

theorem chmod_kind (E : FileEnv) (now : TimeSpec) (op : AttrOp) (a : FileAttr) : (E.attrCall now op a).mode &&& sIfmt = a.mode &&& sIfmt := by
  have key : ∀ {x : UInt32 × UInt32 × UInt32 × UInt32}, own (E.attrCall now op a) = x → x.1 = a.mode → (E.attrCall now op a).mode &&& sIfmt = a.mode &&& sIfmt := by
    intro x h1 h2
    rw [show (E.attrCall now op a).mode = (own (E.attrCall now op a)).1 from rfl, h1, h2]
  cases op with
  | read => exact key (own_touchAtime _ _ _) rfl
  | write => exact key (own_touchMtime _ _ _) rfl
  | chmod m =>
    rw [show (E.attrCall now (.chmod m) a).mode = (own (a.setMode E.storeTime now ((a.mode &&& ~~~0x1ff) ||| (m &&& 0x1ff)))).1 from rfl, own_setMode]
    exact chmod_type _ _
  | chown u g =>
    refine key (x := own (E.attrCall now (.chown u g) a)) rfl ?_
    show (E.attrCall now (.chown u g) a).mode = a.mode
    exact chown_mode _ _ _ _ _
  | setNlink v => exact key (own_setNlink _ _ _ _) rfl
  | unlink => rfl
  | setRootPage v => rfl
  | setStartFree v => rfl
  | setNumFree v => rfl
  | utimens g ts =>
    refine key (x := own (E.attrCall now (.utimens g ts) a)) rfl ?_
    show (FileAttr.utimens _ _ _ _).mode = a.mode
    unfold FileAttr.utimens
    split
    · cases ts <;> rfl
    · rfl
  | flush => rfl
  | reload => rfl

/-- A call that changes attributes. -/
theorem NodeOk.attr {cls : Nat} {f : OpenFile} {c : List (Nat × BNode)} {n : Inode} (h : NodeOk V id cls f c n) (now : TimeSpec) (hn : ValidTime now)
    (op : AttrOp) (hv : DirCallValid (.attr op)) :
    NodeOk V id cls { f with attr := V.env.attrCall now op f.attr } c { n with attr := V.env.attrCall now op n.attr } := by
  refine ⟨h.good, ?_, attrCall_own _ _ _ h.own, ?_, ?_⟩
  · rw [chmod_kind]; exact h.kind
  · intro hc
    obtain ⟨⟨A, s, l, hr, hd, hp⟩, hlen⟩ := h.dir hc
    exact ⟨⟨_, s, l, hr.call op hv now hn, hd, hp⟩, hlen⟩
  · intro hc
    obtain ⟨⟨stored, H, hR⟩, h2, h3⟩ := h.file hc
    exact ⟨⟨stored, H, (attr_step hR now hn op (DirFile.attr_valid hv)).1⟩, attrCall_clean _ _ _ h2, h3⟩

/-! ## Directories -/

section
variable (hV : VolEnvOk V)
include hV

omit hV in
theorem good_own {m m' : List DirEntry} {A A' : Attrs} {d d' : DirFile.DirObj} (h : DirFile.Good V.env id V.dirs ⟨m, A⟩ d)
    (h' : DirFile.Good V.env id V.dirs ⟨m', A'⟩ d') (hA : A'.mode = A.mode ∧ A'.uid = A.uid ∧ A'.gid = A.gid ∧ A'.nlink = A.nlink) :
    own d'.file.attr = own d.file.attr := by
  obtain ⟨s, l, hr, _, _⟩ := h
  obtain ⟨s', l', hr', _, _⟩ := h'
  exact own_of_attrs hr'.attrs hr.attrs hA.1 hA.2.1 hA.2.2.1 hA.2.2.2

omit hV in
theorem good_env {m : List DirEntry} {A : Attrs} {d : DirFile.DirObj} (h : DirFile.Good V.env id V.dirs ⟨m, A⟩ d) :
    d = ⟨V.env, id, d.file, d.cache⟩ := by
  obtain ⟨s, l, hr, _, _⟩ := h
  obtain ⟨e, i, f, c⟩ := d
  have h1 := hr.env
  have h2 := hr.idq
  dsimp only at h1 h2 ⊢
  rw [h1, h2]

/-- A call on a directory. -/
theorem dir_call {f : OpenFile} {c : List (Nat × BNode)} {n : Inode} (h : NodeOk V id 4 f c n) (now : TimeSpec) (hn : ValidTime now)
    (k : DirFile.DirCall) (hv : DirCallValid k) (op : DirOp) (hop : entryOp k = some op)
    (hfit : (dirStep (sameName V.dirs.cmp) n.entries op).2.length ≤ dirCapacity) :
    ∃ a d' o, (DirFile.call V.dirs now k ⟨V.env, id, f, c⟩ = (.ok a, d') ∨ ∃ e, a = .out (.fail e) ∧ DirFile.call V.dirs now k ⟨V.env, id, f, c⟩ = (.error e, d')) ∧
      a = .out o ∧ o.Agrees (dirStep (sameName V.dirs.cmp) n.entries op).1 ∧
      ∀ n' : Inode, n'.entries = (dirStep (sameName V.dirs.cmp) n.entries op).2 → own n'.attr = own n.attr → NodeOk V id 4 d'.file d'.cache n' := by
  obtain ⟨⟨A, hg⟩, hlen⟩ := h.dir rfl
  obtain ⟨a, d', o, p', e1, hs, hl, hg'⟩ := DirFile.call_ok hV.env hV.room (cmpOk_of hV.names) hV.order hg now hn k hv hlen (by
    intro op' hop'
    rw [hop] at hop'
    injection hop' with hop'
    subst hop'
    exact hfit)
  obtain ⟨hA, hs⟩ := hs
  rw [hop] at hs
  obtain ⟨rfl, he⟩ := hs
  obtain ⟨ents, A'⟩ := p'
  dsimp only at he hA
  subst he
  have ho : own d'.file.attr = own f.attr := by
    refine good_own hg hg' ?_
    cases k with
    | add e => subst hA; exact attrStep_write_own _ _
    | remove e => subst hA; exact attrStep_write_own _ _
    | get e => subst hA; exact attrStep_read_own _ _
    | list => subst hA; exact attrStep_read_own _ _
    | empty => subst hA; exact ⟨rfl, rfl, rfl, rfl⟩
    | flush =>
      rcases hA with rfl | ⟨_, rfl⟩
      · exact ⟨rfl, rfl, rfl, rfl⟩
      · exact attrStep_write_own _ _
    | rebuild =>
      have hA : A' = if n.entries = [] then A else attrStep A (stamp now) .write := hA
      subst hA
      split
      · exact ⟨rfl, rfl, rfl, rfl⟩
      · exact attrStep_write_own _ _
    | reopen r =>
      rcases hA with rfl | ⟨_, rfl⟩
      · exact ⟨rfl, rfl, rfl, rfl⟩
      · exact attrStep_write_own _ _
    | attr op => cases hop
    | stat => cases hop
  cases a with
  | stat => cases hl
  | out o =>
    refine ⟨_, d', o, e1, rfl, hl, ?_⟩
    intro n' hn' hown
    refine ⟨.inl rfl, ?_, ?_, ?_, fun h => absurd rfl h⟩
    · rw [(own_fields hown).1]; exact h.kind
    · rw [ho, hown]; exact h.own
    · intro _
      rw [hn']
      refine ⟨⟨A', ?_⟩, hfit⟩
      have := good_env hg'
      rw [← this]
      exact hg'

omit hV in
theorem call_inv {α : Type} {m : DirFile.DM α} {g : α → DirOut} {d d' : DirFile.DirObj} {a : DirFile.DirAnswer} {o : DirOut}
    (h : ((m >>= fun x => pure (DirFile.DirAnswer.out (g x))) : DirFile.DM _) d = (.ok a, d') ∨
      ∃ e, a = .out (.fail e) ∧ ((m >>= fun x => pure (DirFile.DirAnswer.out (g x))) : DirFile.DM _) d = (.error e, d')) (ha : a = .out o) :
    (∃ x, m d = (.ok x, d') ∧ g x = o) ∨ ∃ e, m d = (.error e, d') ∧ o = .fail e := by
  cases hm : m d with
  | mk r d2 =>
    cases r with
    | error e =>
      rcases h with h | ⟨e', rfl, h⟩
      · rw [DirFile.bind_err hm] at h; cases h
      · rw [DirFile.bind_err hm] at h
        cases h
        injection ha with ha
        exact .inr ⟨_, rfl, ha.symm⟩
    | ok x =>
      rcases h with h | ⟨e', rfl, h⟩
      · rw [DirFile.bind_ok hm] at h
        have h : ((.ok (.out (g x)), d2) : Res DirFile.DirAnswer × DirFile.DirObj) = (.ok a, d') := h
        injection h with h1 h2
        injection h1 with h1
        subst h1 h2
        injection ha with ha
        exact .inl ⟨x, rfl, ha⟩
      · rw [DirFile.bind_ok hm] at h; cases h

theorem dir_get {f : OpenFile} {c : List (Nat × BNode)} {n : Inode} (h : NodeOk V id 4 f c n) (now : TimeSpec) (hn : ValidTime now) (name : Bytes) :
    (DirFile.getEntryT V.dirs now name ⟨V.env, id, f, c⟩).1 = (n.getEntry (idealCfg V) now name).1 ∧
    NodeOk V id 4 (DirFile.getEntryT V.dirs now name ⟨V.env, id, f, c⟩).2.file (DirFile.getEntryT V.dirs now name ⟨V.env, id, f, c⟩).2.cache
      (n.getEntry (idealCfg V) now name).2 := by
  have hfit : (dirStep (sameName V.dirs.cmp) n.entries (.get name)).2.length ≤ dirCapacity := by
    rw [dirStep]; split <;> exact (h.dir rfl).2
  obtain ⟨a, d', o, e1, ha, hag, hok⟩ := dir_call hV h now hn (.get name) trivial (.get name) rfl hfit
  have hi := call_inv (g := DirOut.entry) e1 ha
  have hnode : NodeOk V id 4 d'.file d'.cache (n.getEntry (idealCfg V) now name).2 := by
    refine hok _ ?_ ?_
    · unfold Inode.getEntry; rw [dirStep]; dsimp only; split <;> rfl
    · unfold Inode.getEntry; dsimp only; split <;> exact own_touchAtime _ _ _
  rcases hi with ⟨x, hx, rfl⟩ | ⟨e, hx, rfl⟩
  · rw [hx]
    refine ⟨?_, hnode⟩
    unfold Inode.getEntry
    dsimp only
    rw [dirStep] at hag
    split at hag
    · cases hag
    · rename_i hl
      rw [if_neg hl]
      have hag : DirOut.entry x = DirOut.entry _ := hag
      injection hag with hag
      rw [hag]
      rfl
  · rw [hx]
    refine ⟨?_, hnode⟩
    have hag := DirFile.agrees_fail hag
    unfold Inode.getEntry
    dsimp only
    rw [dirStep] at hag
    split at hag
    · rename_i hl
      rw [if_pos hl]
      injection hag with hag
      rw [← hag]; rfl
    · cases hag

theorem dir_remove {f : OpenFile} {c : List (Nat × BNode)} {n : Inode} (h : NodeOk V id 4 f c n) (now : TimeSpec) (hn : ValidTime now) (name : Bytes) :
    (DirFile.removeEntryT V.dirs now name ⟨V.env, id, f, c⟩).1 = (n.removeEntry (idealCfg V) now name).1 ∧
    NodeOk V id 4 (DirFile.removeEntryT V.dirs now name ⟨V.env, id, f, c⟩).2.file (DirFile.removeEntryT V.dirs now name ⟨V.env, id, f, c⟩).2.cache
      (n.removeEntry (idealCfg V) now name).2 := by
  have hfit : (dirStep (sameName V.dirs.cmp) n.entries (.remove name)).2.length ≤ dirCapacity := by
    rw [dirStep]
    split
    · exact (h.dir rfl).2
    · exact Nat.le_trans (List.length_filter_le _ _) (h.dir rfl).2
  obtain ⟨a, d', o, e1, ha, hag, hok⟩ := dir_call hV h now hn (.remove name) trivial (.remove name) rfl hfit
  have hi := call_inv (g := DirOut.entry) e1 ha
  have hnode : NodeOk V id 4 d'.file d'.cache (n.removeEntry (idealCfg V) now name).2 := by
    refine hok _ ?_ ?_
    · unfold Inode.removeEntry; rw [dirStep]; dsimp only; split <;> rfl
    · unfold Inode.removeEntry; dsimp only; split <;> exact own_touchMtime _ _ _
  rcases hi with ⟨x, hx, rfl⟩ | ⟨e, hx, rfl⟩
  · rw [hx]
    refine ⟨?_, hnode⟩
    unfold Inode.removeEntry
    dsimp only
    rw [dirStep] at hag
    split at hag
    · cases hag
    · rename_i hl
      rw [if_neg hl]
      have hag : DirOut.entry x = DirOut.entry _ := hag
      injection hag with hag
      rw [hag]
      rfl
  · rw [hx]
    refine ⟨?_, hnode⟩
    have hag := DirFile.agrees_fail hag
    unfold Inode.removeEntry
    dsimp only
    rw [dirStep] at hag
    split at hag
    · rename_i hl
      rw [if_pos hl]
      injection hag with hag
      rw [← hag]; rfl
    · cases hag

theorem dir_add {f : OpenFile} {c : List (Nat × BNode)} {n : Inode} (h : NodeOk V id 4 f c n) (now : TimeSpec) (hn : ValidTime now) (e : DirEntry)
    (hv : (DirOp.add e).Valid) (hroom : n.entries.length + 1 ≤ dirCapacity) :
    (DirFile.addEntryT V.dirs now e ⟨V.env, id, f, c⟩).1 = (n.addEntry (idealCfg V) now e).1 ∧
    NodeOk V id 4 (DirFile.addEntryT V.dirs now e ⟨V.env, id, f, c⟩).2.file (DirFile.addEntryT V.dirs now e ⟨V.env, id, f, c⟩).2.cache
      (n.addEntry (idealCfg V) now e).2 := by
  have hfit : (dirStep (sameName V.dirs.cmp) n.entries (.add e)).2.length ≤ dirCapacity := by
    rw [dirStep]
    have h1 : n.entries.length ≤ dirCapacity := by omega
    split
    · exact h1
    · split
      · exact h1
      · exact hroom
  obtain ⟨a, d', o, e1, ha, hag, hok⟩ := dir_call hV h now hn (.add e) hv (.add e) rfl hfit
  have hi := call_inv (g := DirOut.flag) e1 ha
  have hnode : NodeOk V id 4 d'.file d'.cache (n.addEntry (idealCfg V) now e).2 := by
    refine hok _ ?_ ?_
    · unfold Inode.addEntry
      rw [dirStep]
      dsimp only
      by_cases h1 : e.name.length > 255
      · rw [if_pos h1, if_pos h1]
      · rw [if_neg h1, if_neg h1]
        show (if n.entries.any (fun x => sameName V.dirs.cmp e.name x.name) = true then _ else _ : Res Bool × Inode).2.entries = _
        split <;> rfl
    · unfold Inode.addEntry; dsimp only; split
      · exact own_touchMtime _ _ _
      · split <;> exact own_touchMtime _ _ _
  rcases hi with ⟨x, hx, rfl⟩ | ⟨e, hx, rfl⟩
  · rw [hx]
    refine ⟨?_, hnode⟩
    unfold Inode.addEntry
    dsimp only
    rw [dirStep] at hag
    by_cases h1 : e.name.length > 255
    · rw [if_pos h1] at hag; cases hag
    · rw [if_neg h1] at hag
      rw [if_neg h1]
      show _ = (if n.entries.any (fun x => sameName V.dirs.cmp e.name x.name) = true then _ else _ : Res Bool × Inode).1
      split at hag
      · rename_i h2
        rw [if_pos h2]
        have hag : DirOut.flag x = DirOut.flag _ := hag
        injection hag with hag
        rw [hag]
      · rename_i h2
        rw [if_neg h2]
        have hag : DirOut.flag x = DirOut.flag _ := hag
        injection hag with hag
        rw [hag]
  · rw [hx]
    refine ⟨?_, hnode⟩
    have hag := DirFile.agrees_fail hag
    unfold Inode.addEntry
    dsimp only
    rw [dirStep] at hag
    split at hag
    · rename_i hl
      rw [if_pos hl]
      injection hag with hag
      rw [← hag]; rfl
    · split at hag <;> cases hag

theorem dir_list {f : OpenFile} {c : List (Nat × BNode)} {n : Inode} (h : NodeOk V id 4 f c n) (now : TimeSpec) (hn : ValidTime now) :
    ∃ l d', DirFile.iterateEntriesT now ⟨V.env, id, f, c⟩ = (.ok l, d') ∧ l.Perm n.entries ∧ d' = ⟨V.env, id, d'.file, d'.cache⟩ ∧
      NodeOk V id 4 d'.file d'.cache { n with attr := n.attr.touchAtime V.env.storeTime now } := by
  obtain ⟨a, d', o, e1, ha, hag, hok⟩ := dir_call hV h now hn .list trivial .list rfl (h.dir rfl).2
  have hi := call_inv (g := DirOut.entries) e1 ha
  have hnode : NodeOk V id 4 d'.file d'.cache { n with attr := n.attr.touchAtime V.env.storeTime now } := hok _ rfl (own_touchAtime _ _ _)
  rcases hi with ⟨x, hx, rfl⟩ | ⟨e, hx, rfl⟩
  · have henv : d' = ⟨V.env, id, d'.file, d'.cache⟩ := by
      obtain ⟨⟨A, hg⟩, hlen⟩ := h.dir rfl
      obtain ⟨a2, d2, o2, p2, e2, _, _, hg2⟩ := DirFile.call_ok hV.env hV.room (cmpOk_of hV.names) hV.order hg now hn .list trivial hlen (by
        intro op' hop'; cases hop'; exact hlen)
      have hc : DirFile.call V.dirs now .list ⟨V.env, id, f, c⟩ = (.ok (.out (.entries x)), d') := DirFile.bind_ok hx
      have : d2 = d' := by
        rcases e2 with e2 | ⟨_, _, e2⟩
        · rw [hc] at e2; injection e2 with _ e2; exact e2.symm
        · rw [hc] at e2; injection e2 with _ e2; exact e2.symm
      subst this
      obtain ⟨m2, A2⟩ := p2
      exact good_env hg2
    exact ⟨x, d', hx, hag, henv, hnode⟩
  · exact absurd (DirFile.agrees_fail hag) (by simp [dirStep])

/-! ## Files -/

omit hV in
theorem limit_le {f : OpenFile} {c : Bytes} {stored : Option Bytes} {H : Bytes} (hR : ObjRepr V.env id f c stored H) :
    fileLimit V.env ≤ fullMaxBlocks * V.env.blockSize - padLen f.pad := by
  have := hR.padle
  unfold fileLimit fullMaxBlocks
  omega

theorem obj_size {f : OpenFile} {c : Bytes} {stored : Option Bytes} {H : Bytes} (hR : ObjRepr V.env id f c stored H) :
    (V.env.stream id f).size f.st = c.length :=
  (stream_ok hV.env id f (hR.room hV.env) stored.isSome H).size_ok hR.repr

theorem obj_read {f : OpenFile} {c : Bytes} {stored : Option Bytes} {H : Bytes} (hR : ObjRepr V.env id f c stored H) (off len : Nat)
    (hl : off + len ≤ fileLimit V.env) : (V.env.stream id f).read f.st off len = .ok (Spec.read c off len) :=
  (stream_ok hV.env id f (hR.room hV.env) stored.isSome H).read_ok off len hR.repr (Nat.le_trans hl (limit_le hR))

theorem file_read {cls : Nat} {f : OpenFile} {c : List (Nat × BNode)} {n : Inode} (h : NodeOk V id cls f c n) (hc : cls ≠ 4) (now : TimeSpec)
    (hn : ValidTime now) (off len : Nat) (hl : off + len ≤ fileLimit V.env) :
    V.env.readObj id now f off len = .ok ({ f with attr := V.env.attrCall now .read f.attr }, Spec.read n.data off len) := by
  obtain ⟨⟨stored, H, hR⟩, _⟩ := h.file hc
  have R1 := (attr_step hR now hn .read trivial).1
  have hs := obj_read hV R1 off len hl
  unfold readObj
  dsimp only [attrCall] at hs ⊢
  rw [hs]
  rfl

theorem file_linkGet {cls : Nat} {f : OpenFile} {c : List (Nat × BNode)} {n : Inode} (h : NodeOk V id cls f c n) (hc : cls ≠ 4) (now : TimeSpec) :
    V.env.linkGetObj id now f = .ok ({ f with attr := V.env.attrCall now .read f.attr }, n.data) := by
  obtain ⟨⟨stored, H, hR⟩, _, hlen, _⟩ := h.file hc
  have hs := obj_read hV hR 0 n.data.length (by omega)
  unfold linkGetObj
  rw [obj_size hV hR, hs]
  have : Spec.read n.data 0 n.data.length = n.data := by simp [Spec.read]
  rw [this]
  rfl

omit hV in
theorem spec_write_length (c : Bytes) (off : Nat) (d : Bytes) (lim : Nat) (h1 : c.length ≤ lim) (h2 : off + d.length ≤ lim) :
    (Spec.write c off d).length ≤ lim := by
  unfold Spec.write
  split
  · exact h1
  · simp only [List.length_append, List.length_take, List.length_drop, zeros, List.length_replicate]
    omega

theorem file_write {cls : Nat} {f : OpenFile} {c : List (Nat × BNode)} {n : Inode} (h : NodeOk V id cls f c n) (hc : cls ≠ 4) (now : TimeSpec)
    (hn : ValidTime now) (off : Nat) (d : Bytes) (hl : off + d.length ≤ fileLimit V.env) :
    ∃ f', V.env.writeObj id now f off d = .ok f' ∧
      NodeOk V id cls f' c { n with attr := n.attr.touchMtime V.env.storeTime now, data := Spec.write n.data off d } := by
  have h' := h.attr now hn .write trivial
  obtain ⟨⟨stored, H, hR⟩, hcl, hlen, hent⟩ := h'.file hc
  obtain ⟨st', k1, k2⟩ := (stream_ok hV.env id { f with attr := V.env.attrCall now .write f.attr } (hR.room hV.env) stored.isSome H).write_ok off d hR.repr
    (Nat.le_trans hl (limit_le hR))
  refine ⟨{ f with attr := V.env.attrCall now .write f.attr, st := st' }, ?_, h'.good, h'.kind, h'.own, fun h => absurd h hc, fun _ => ⟨⟨stored, H, hR.keys, hR.pad, hR.padle, k2, hR.hdr, hR.inv⟩, hcl, ?_, hent⟩⟩
  · unfold writeObj
    dsimp only [attrCall] at k1 ⊢
    rw [k1]
    rfl
  · exact spec_write_length _ _ _ _ hlen hl

theorem file_truncate {cls : Nat} {f : OpenFile} {c : List (Nat × BNode)} {n : Inode} (h : NodeOk V id cls f c n) (hc : cls ≠ 4) (now : TimeSpec)
    (hn : ValidTime now) (k : Nat) (hl : k ≤ fileLimit V.env) :
    ∃ f', V.env.truncateObj id now f k = .ok f' ∧
      NodeOk V id cls f' c { n with attr := n.attr.touchMtime V.env.storeTime now, data := Spec.resize n.data k } := by
  have h' := h.attr now hn .write trivial
  obtain ⟨⟨stored, H, hR⟩, hcl, hlen, hent⟩ := h'.file hc
  obtain ⟨st', k1, k2⟩ := (stream_ok hV.env id { f with attr := V.env.attrCall now .write f.attr } (hR.room hV.env) stored.isSome H).resize_ok k hR.repr
    (Nat.le_trans hl (limit_le hR))
  refine ⟨{ f with attr := V.env.attrCall now .write f.attr, st := st' }, ?_, h'.good, h'.kind, h'.own, fun h => absurd h hc, fun _ => ⟨⟨stored, H, hR.keys, hR.pad, hR.padle, k2, hR.hdr, hR.inv⟩, hcl, ?_, hent⟩⟩
  · unfold truncateObj
    dsimp only [attrCall] at k1 ⊢
    rw [k1]
    rfl
  · show (Spec.resize n.data k).length ≤ _
    unfold Spec.resize
    simp only [List.length_append, List.length_take, List.length_replicate]
    omega

/-! ## Flushing, closing, making -/

/-- Flushing changes nothing that can be seen, and saves the object. -/
theorem node_flush {o : LiveObj} {n : Inode} (h : NodeOk V id o.cls o.file o.cache n) (now : TimeSpec) (hn : ValidTime now) :
    ∃ o', o.flush V id now = (.ok (), o') ∧ NodeOk V id o'.cls o'.file o'.cache n ∧ SavedOk V id n (o'.file.st.data, o'.file.st.metaS.file) ∧
      o'.cls = o.cls ∧ o'.parent = o.parent ∧ o'.closed = o.closed := by
  obtain ⟨cls, file, cache, parent, closed⟩ := o
  dsimp only at h
  by_cases hc : cls = 4
  · subst hc
    obtain ⟨⟨A, s, l, hr, hd, hp⟩, hlen⟩ := h.dir rfl
    obtain ⟨s1, d1, A1, e1, r1, hd1, hc1, hst, hA⟩ := DirFile.flush_dir_ok hV.env hV.room (cmpOk_of hV.names) hV.order now hn hr hd
      (by rw [hp.length_eq, ← capacity_eq]; exact hlen)
    have hAo : A1.mode = A.mode ∧ A1.uid = A.uid ∧ A1.gid = A.gid ∧ A1.nlink = A.nlink := by
      rw [hA]
      split
      · exact attrStep_write_own _ _
      · exact ⟨rfl, rfl, rfl, rfl⟩
    have hg1 : DirFile.Good V.env id V.dirs ⟨n.entries, A1⟩ d1 := ⟨s1, l, r1, hd1, hp⟩
    have ho1 : own d1.file.attr = own n.attr := (good_own ⟨s, l, hr, hd, hp⟩ hg1 hAo).trans h.own
    refine ⟨⟨4, d1.file, d1.cache, parent, closed⟩, ?_, ⟨.inl rfl, h.kind, ho1, fun _ => ⟨⟨A1, ?_⟩, hlen⟩, fun h => absurd rfl h⟩, ⟨4, fun rng => ?_⟩, rfl, rfl, rfl⟩
    · unfold LiveObj.flush
      dsimp only
      rw [if_pos (show (4 : Nat) = typeDirectory from rfl), e1]
    · rw [← good_env hg1]; exact hg1
    · obtain ⟨f, e2, r2⟩ := hst rng
      have hg2 : DirFile.Good V.env id V.dirs ⟨n.entries, A1⟩ ⟨V.env, id, f, []⟩ := ⟨_, l, r2, Securefs.dir_drop hd1 hc1, hp⟩
      exact ⟨f, e2, .inl rfl, h.kind, (good_own hg1 hg2 ⟨rfl, rfl, rfl, rfl⟩).trans ho1, fun _ => ⟨⟨A1, hg2⟩, hlen⟩, fun h => absurd rfl h⟩
  · obtain ⟨⟨stored, H, hR⟩, hcl, hlen, hent⟩ := h.file hc
    obtain ⟨f2, hdr, H2, k1, R2, ea, hdirty⟩ := flushObj_ok hV.env hR
    have hcl2 : clean f2.attr = clean n.attr := by rw [ea]; exact hcl
    refine ⟨⟨cls, f2, cache, parent, closed⟩, ?_, ⟨h.good, h.kind, own_of_clean hcl2, fun h => absurd h hc, fun _ => ⟨⟨_, _, R2⟩, hcl2, hlen, hent⟩⟩, ⟨cls, fun rng => ?_⟩, rfl, rfl, rfl⟩
    · unfold LiveObj.flush
      dsimp only
      rw [if_neg (show ¬ cls = typeDirectory from hc), k1]
    · obtain ⟨st, k2, R3⟩ := openObj_ok hV.env R2 hdirty (by rw [ea]) rng
      exact ⟨_, k2, h.good, h.kind, own_of_clean hcl2, fun h => absurd h hc, fun _ => ⟨⟨_, _, R3⟩, hcl2, hlen, hent⟩⟩

/-- What a new file of the ideal file system has. -/
def newAttr (V : VolEnv) (now : TimeSpec) (mode uid gid : UInt32) : FileAttr :=
  (FileAttr.setNumFree 0 FileAttr.blank).initializeEmpty V.env.storeTime now V.osUid V.osGid mode uid gid

theorem node_create {cls : Nat} (hc : GoodCls cls) (now : TimeSpec) (hn : ValidTime now) (mode uid gid : UInt32) (hm : modeForType cls = mode &&& sIfmt)
    (rng : Nat) (parent : Bytes) : ∃ f, V.env.createObj id now V.osUid V.osGid mode uid gid rng = .ok f ∧
      NodeOk V id cls f [] ⟨newAttr V now mode uid gid, parent, [], []⟩ := by
  obtain ⟨f0, H, e1, ea, R1⟩ := openObj_new hV.env id rng
  obtain ⟨f, e2, stored, H2, R, ha⟩ := createObj_ok hV.env id now hn V.osUid V.osGid mode uid gid rng
  have hf : f = { f0 with attr := newAttr V now mode uid gid } := by
    unfold createObj at e2
    simp only [bind, Except.bind, e1] at e2
    injection e2 with e2
    rw [← e2, ea]
    rfl
  have hattr : f.attr = newAttr V now mode uid gid := by rw [hf]
  refine ⟨f, e2, hc, hm, by rw [hattr], fun h => ?_, fun _ => ⟨⟨_, _, R⟩, by rw [hattr], Nat.zero_le _, rfl⟩⟩
  obtain ⟨d, e3, hg⟩ := DirFile.createDir_ok hV.env V.dirs id now hn V.osUid V.osGid mode uid gid rng
  have hd : d = ⟨V.env, id, f, []⟩ := by
    unfold DirFile.createDir at e3
    simp only [bind, Except.bind, e2] at e3
    injection e3 with e3
    exact e3.symm
  rw [hd] at hg
  exact ⟨⟨_, hg⟩, Nat.zero_le _⟩

end

end Securefs.Vol

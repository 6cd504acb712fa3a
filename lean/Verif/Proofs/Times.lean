import Verif.Spec.Times
import Verif.Proofs.AttrMoments
import Verif.Proofs.DataMoments
/-!
# Changes show in the times of a file

Helper lemmas for `Verif/Props/Times.lean`.
-/

namespace Securefs.Tm

open Securefs Securefs.Spec Securefs.Mo Securefs.Am

/-! ## Files -/

/-- Everything that is asked of a section; a section that takes links away only has to do the first two, one that sets times the first and the third. -/
structure Good (u d : Bool) (t : TimeSpec) (x y : Inode) : Prop where
  shown : ShowsIn t x y
  stamped : u = false → Stamped t x y
  counted : d = false → Counted t x y

theorem good_refl (u d : Bool) (t : TimeSpec) (x : Inode) : Good u d t x x :=
  ⟨⟨fun h => (h.elim (· rfl) (· rfl)).elim, fun h => (h.elim (· rfl) fun h => h.elim (· rfl) (· rfl)).elim⟩,
    fun _ => ⟨.inl rfl, .inl rfl, .inl rfl, rfl⟩, fun _ h => (h rfl).elim⟩

theorem good_trans {d : Bool} {t : TimeSpec} {x y z : Inode} (h1 : Good false d t x y) (h2 : Good false d t y z) : Good false d t x z := by
  obtain ⟨s1, p1, c1⟩ := h1
  obtain ⟨s2, p2, c2⟩ := h2
  have p1 := p1 rfl
  have p2 := p2 rfl
  have keep : y.attr.mtime = t ∧ y.attr.ctime = t → z.attr.mtime = t ∧ z.attr.ctime = t := by
    rintro ⟨a, b⟩
    refine ⟨?_, ?_⟩
    · rcases p2.mtime with e | ⟨e, _⟩
      · rw [e]; exact a
      · exact e
    · rcases p2.ctime with e | e
      · rw [e]; exact b
      · exact e
  have keepC : y.attr.ctime = t → z.attr.ctime = t := by
    intro b
    rcases p2.ctime with e | e
    · rw [e]; exact b
    · exact e
  refine ⟨⟨fun h => ?_, fun h => ?_⟩, fun _ => ⟨?_, ?_, ?_, ?_⟩, fun hd h => ?_⟩
  · by_cases hy : y.data ≠ x.data ∨ y.entries ≠ x.entries
    · exact keep (s1.content hy)
    · push Not at hy
      exact s2.content (by rw [hy.1, hy.2]; exact h)
  · by_cases hy : y.attr.mode ≠ x.attr.mode ∨ y.attr.uid ≠ x.attr.uid ∨ y.attr.gid ≠ x.attr.gid
    · exact keepC (s1.owner hy)
    · push Not at hy
      exact s2.owner (by rw [hy.1, hy.2.1, hy.2.2]; exact h)
  · rcases p2.mtime with e | e
    · rcases p1.mtime with e' | e'
      · exact .inl (e.trans e')
      · exact .inr (keep e')
    · exact .inr e
  · rcases p2.ctime with e | e
    · rcases p1.ctime with e' | e'
      · exact .inl (e.trans e')
      · exact .inr (keepC e')
    · exact .inr e
  · rcases p2.atime with e | e
    · rcases p1.atime with e' | e'
      · exact .inl (e.trans e')
      · exact .inr (e.trans e')
    · exact .inr e
  · exact p2.btime.trans p1.btime
  · by_cases hy : y.attr.nlink = x.attr.nlink
    · exact c2 hd (by rw [hy]; exact h)
    · exact keepC (c1 hd hy)

theorem born_good {d : Bool} {t : TimeSpec} {y z : Inode} (h1 : BornAt t y) (h2 : Good false d t y z) : BornAt t z := by
  have p := h2.stamped rfl
  obtain ⟨a, b, c, e⟩ := h1
  refine ⟨?_, ?_, ?_, ?_⟩
  · rcases p.atime with h | h
    · exact h.trans a
    · exact h
  · rcases p.mtime with h | h
    · exact h.trans b
    · exact h.1
  · rcases p.ctime with h | h
    · exact h.trans c
    · exact h
  · exact p.btime.trans e

/-! ## Attributes -/

theorem good_attr {u d : Bool} {t : TimeSpec} {x : Inode} {a : FileAttr} (ho : a.mode ≠ x.attr.mode ∨ a.uid ≠ x.attr.uid ∨ a.gid ≠ x.attr.gid → a.ctime = t)
    (hs : u = false → Stamped t x { x with attr := a }) (hc : d = false → a.nlink ≠ x.attr.nlink → a.ctime = t) : Good u d t x { x with attr := a } :=
  ⟨⟨fun h => (h.elim (· rfl) (· rfl)).elim, ho⟩, hs, hc⟩

theorem good_atime (u d st : Bool) (t : TimeSpec) (x : Inode) : Good u d t x { x with attr := x.attr.touchAtime st t } := by
  refine good_attr (fun h => ?_) (fun _ => ?_) fun _ h => ?_
  · unfold FileAttr.touchAtime at h ⊢
    split at h <;> simp at h
  · unfold FileAttr.touchAtime
    split
    · exact ⟨.inl rfl, .inl rfl, .inr rfl, rfl⟩
    · exact ⟨.inl rfl, .inl rfl, .inl rfl, rfl⟩
  · unfold FileAttr.touchAtime at h
    split at h <;> simp at h

theorem good_modified (u d : Bool) (t : TimeSpec) (x : Inode) (data : Bytes) (es : List DirEntry) :
    Good u d t x { x with attr := x.attr.touchMtime true t, data := data, entries := es } :=
  ⟨⟨fun _ => ⟨rfl, rfl⟩, fun _ => rfl⟩, fun _ => ⟨.inr ⟨rfl, rfl⟩, .inr rfl, .inl rfl, rfl⟩, fun _ _ => rfl⟩

theorem good_setNlink (u d : Bool) (t : TimeSpec) (x : Inode) (v : UInt32) : Good u d t x { x with attr := x.attr.setNlink true t v } := by
  unfold FileAttr.setNlink
  split
  · exact good_refl _ _ _ _
  · exact good_attr (fun _ => rfl) (fun _ => ⟨.inl rfl, .inr rfl, .inl rfl, rfl⟩) fun _ _ => rfl

theorem good_setMode (u d : Bool) (t : TimeSpec) (x : Inode) (v : UInt32) : Good u d t x { x with attr := x.attr.setMode true t v } := by
  unfold FileAttr.setMode
  split
  · exact good_refl _ _ _ _
  · exact good_attr (fun _ => rfl) (fun _ => ⟨.inl rfl, .inr rfl, .inl rfl, rfl⟩) fun _ _ => rfl

theorem good_setUid (u d : Bool) (t : TimeSpec) (x : Inode) (v : UInt32) : Good u d t x { x with attr := x.attr.setUid true t v } := by
  unfold FileAttr.setUid
  split
  · exact good_refl _ _ _ _
  · exact good_attr (fun _ => rfl) (fun _ => ⟨.inl rfl, .inr rfl, .inl rfl, rfl⟩) fun _ _ => rfl

theorem good_setGid (u d : Bool) (t : TimeSpec) (x : Inode) (v : UInt32) : Good u d t x { x with attr := x.attr.setGid true t v } := by
  unfold FileAttr.setGid
  split
  · exact good_refl _ _ _ _
  · exact good_attr (fun _ => rfl) (fun _ => ⟨.inl rfl, .inr rfl, .inl rfl, rfl⟩) fun _ _ => rfl

theorem good_weak {u d : Bool} {t : TimeSpec} {x y : Inode} (h : Good false false t x y) : Good u d t x y :=
  ⟨h.shown, fun _ => h.stamped rfl, fun _ => h.counted rfl⟩

theorem good_chown (u d : Bool) (t : TimeSpec) (x : Inode) (a b : UInt32) : Good u d t x { x with attr := x.attr.chown true t a b } := by
  unfold FileAttr.chown
  dsimp only
  refine good_weak ?_
  have one : Good false false t x { x with attr := if a ≠ 0xffffffff then x.attr.setUid true t a else x.attr } := by
    split
    · exact good_setUid _ _ _ _ _
    · exact good_refl _ _ _ _
  refine good_trans one ?_
  generalize (if a ≠ 0xffffffff then x.attr.setUid true t a else x.attr) = y
  split
  · exact good_setGid _ _ t { x with attr := y } b
  · exact good_refl _ _ _ _

theorem good_utimens (d : Bool) (t g : TimeSpec) (ts : Option (TimeSpec × TimeSpec)) (x : Inode) : Good true d t x { x with attr := x.attr.utimens true g ts } := by
  refine good_attr (fun h => ?_) (fun h => nomatch h) fun _ h => ?_
  · cases ts <;> simp [FileAttr.utimens] at h
  · cases ts <;> simp [FileAttr.utimens] at h

theorem good_unlink (u : Bool) (t : TimeSpec) (x : Inode) : Good u true t x { x with attr := x.attr.unlink } :=
  good_attr (fun h => (h.elim (· rfl) fun h => h.elim (· rfl) (· rfl)).elim) (fun _ => ⟨.inl rfl, .inl rfl, .inl rfl, rfl⟩) fun h => nomatch h

/-! ## Sections -/

/-- A section keeps the clock, and is as it should be on all files. -/
def GoodSec (u d : Bool) {β : Type} (f : Sec β) : Prop := ∀ fs, (f fs).2.now = fs.now ∧ Moment.dated (Good u d) (fs, (f fs).2)

theorem dated_refl (u d : Bool) (fs : FullFs) : Moment.dated (Good u d) (fs, fs) :=
  fun id => ⟨fun x h => ⟨x, h, good_refl _ _ _ _⟩, fun y h h' => by rw [h] at h'; cases h'⟩

theorem dated_set {u d : Bool} {fs : FullFs} {id : Bytes} {n m : Inode} (h : fs.get id = some n) (e : Good u d fs.now n m) :
    Moment.dated (Good u d) (fs, fs.set id m) := by
  intro k
  refine ⟨fun x hx => ?_, fun y hn hy => ?_⟩
  · show ∃ y, (fs.set id m).get k = some y ∧ _
    rw [Dm.get_set h]
    by_cases hk : k = id
    · subst hk
      rw [if_pos rfl]
      have hx' : fs.get k = some x := hx
      rw [h] at hx'
      cases hx'
      exact ⟨m, rfl, e⟩
    · rw [if_neg hk]
      exact ⟨x, hx, good_refl _ _ _ _⟩
  · have hy' : (fs.set id m).get k = some y := hy
    have hn' : fs.get k = none := hn
    rw [Dm.get_set h] at hy'
    by_cases hk : k = id
    · subst hk; rw [h] at hn'; cases hn'
    · rw [if_neg hk, hn'] at hy'; cases hy'

theorem good_file {u d : Bool} {β : Type} {id : Bytes} {f : TimeSpec → Inode → Res β × Inode} (h : ∀ t n, Good u d t n (f t n).2) : GoodSec u d (Sec.file id f) := by
  intro fs
  unfold Sec.file
  cases hg : fs.get id with
  | none => exact ⟨rfl, dated_refl _ _ _⟩
  | some n => exact ⟨rfl, dated_set hg (h _ _)⟩

theorem good_dir {u d : Bool} {β : Type} {h : FH} {f : TimeSpec → Inode → Res β × Inode} (hf : ∀ t n, Good u d t n (f t n).2) : GoodSec u d (Sec.dir h f) := by
  refine good_file fun t n => ?_
  cases castAs h typeDirectory n with
  | error _ => exact good_refl _ _ _ _
  | ok _ => exact hf t n

theorem good_reg {u d : Bool} {β : Type} {h : FH} {f : TimeSpec → Inode → Res β × Inode} (hf : ∀ t n, Good u d t n (f t n).2) : GoodSec u d (Sec.reg h f) := by
  refine good_file fun t n => ?_
  cases castAs h typeRegular n with
  | error _ => exact good_refl _ _ _ _
  | ok _ => exact hf t n

theorem good_pure {u d : Bool} {α : Type} (a : α) : GoodSec u d (Sec.pure a) := fun fs => ⟨rfl, dated_refl _ _ fs⟩

theorem good_bind {d : Bool} {α β : Type} {x : Sec α} {f : α → Sec β} (hx : GoodSec false d x) (hf : ∀ a, GoodSec false d (f a)) : GoodSec false d (Sec.bind x f) := by
  intro fs
  have h1 := hx fs
  unfold Sec.bind
  revert h1
  cases x fs with
  | mk r fs' =>
    cases r with
    | error e => exact id
    | ok a =>
      rintro ⟨n1, h1⟩
      obtain ⟨n2, h2⟩ := hf a fs'
      dsimp only at n1
      refine ⟨n2.trans n1, fun k => ⟨fun p hp => ?_, fun q hn hq => ?_⟩⟩
      · obtain ⟨y, hy, gy⟩ := (h1 k).1 p hp
        obtain ⟨z, hz, gz⟩ := (h2 k).1 y hy
        have gz' : Good false d fs.now y z := by rw [← n1]; exact gz
        exact ⟨z, hz, good_trans gy gz'⟩
      · cases hm : fs'.get k with
        | none =>
          have := (h2 k).2 q hm hq
          show BornAt fs.now q
          rw [← n1]
          exact this
        | some y =>
          obtain ⟨z, hz, gz⟩ := (h2 k).1 y hm
          have e : z = q := by
            have hq' := hq
            have hz' := hz
            dsimp only at hq' hz'
            rw [hz'] at hq'
            injection hq'
          subst e
          have gz' : Good false d fs.now y z := by rw [← n1]; exact gz
          exact born_good ((h1 k).2 y hn hm) gz'

theorem GoodSec.weak {u d : Bool} {β : Type} {f : Sec β} (h : GoodSec false false f) : GoodSec u d f :=
  fun fs => ⟨(h fs).1, fun id => ⟨fun x hx => by
    obtain ⟨y, a, b⟩ := ((h fs).2 id).1 x hx
    exact ⟨y, a, good_weak b⟩, ((h fs).2 id).2⟩⟩

section
variable {cfg : FsCfg} (hst : cfg.storeTime = true) (u d : Bool)

theorem good_openAs (id : Bytes) (type : Nat) : GoodSec u d (secOpenAs id type) := by
  intro fs
  unfold secOpenAs
  split
  · split <;> exact ⟨rfl, dated_refl _ _ _⟩
  · split
    · exact ⟨rfl, dated_refl _ _ _⟩
    · split <;> exact ⟨rfl, dated_refl _ _ _⟩

theorem good_getParent (h : FH) : GoodSec u d (secGetParent h) := good_file fun _ _ => good_refl _ _ _ _
theorem good_setParent (h : FH) (id : Bytes) : GoodSec u d (secSetParent h id) := good_file fun _ _ =>
  ⟨⟨fun h => (h.elim (· rfl) (· rfl)).elim, fun h => (h.elim (· rfl) fun h => h.elim (· rfl) (· rfl)).elim⟩,
    fun _ => ⟨.inl rfl, .inl rfl, .inl rfl, rfl⟩, fun _ h => (h rfl).elim⟩
theorem good_secUnlink (h : FH) : GoodSec u true (secUnlink h) := good_file fun _ _ => good_unlink _ _ _
theorem good_flush (h : FH) : GoodSec u d (secFlush h) := good_file fun _ _ =>
  good_attr (fun h => (h.elim (· rfl) fun h => h.elim (· rfl) (· rfl)).elim) (fun _ => ⟨.inl rfl, .inl rfl, .inl rfl, rfl⟩) fun _ h => (h rfl).elim
theorem good_stat (ov : OwnerOverride) (h : FH) : GoodSec u d (secStat cfg ov h) := good_file fun _ _ => good_refl _ _ _ _
theorem good_readdir (fill : Nat → Int) (h : FH) : GoodSec u d (secReaddir cfg fill h) := good_dir fun _ _ => good_atime _ _ _ _ _
theorem good_read (h : FH) (off len : Nat) : GoodSec u d (secRead cfg h off len) := good_reg fun _ _ => good_atime _ _ _ _ _

theorem good_linkGet (h : FH) : GoodSec u d (secLinkGet cfg h) := by
  refine good_file fun t n => ?_
  cases castAs h typeSymlink n with
  | error _ => exact good_refl _ _ _ _
  | ok _ => exact good_atime _ _ _ _ _

theorem good_get (h : FH) (name : Bytes) : GoodSec u d (secGet cfg h name) := by
  refine good_dir fun t n => ?_
  unfold Inode.getEntry
  dsimp only
  split <;> exact good_atime _ _ _ _ _

include hst

theorem good_write (h : FH) (off : Nat) (x : Bytes) : GoodSec u d (secWrite cfg h off x) :=
  good_reg fun t n => by rw [hst]; exact good_modified u d t n _ n.entries
theorem good_truncate (h : FH) (size : Nat) : GoodSec u d (secTruncate cfg h size) :=
  good_reg fun t n => by rw [hst]; exact good_modified u d t n _ n.entries

theorem good_linkSet (h : FH) (target : Bytes) : GoodSec u d (secLinkSet cfg h target) := by
  refine good_file fun t n => ?_
  cases castAs h typeSymlink n with
  | error _ => exact good_refl _ _ _ _
  | ok _ => dsimp only; rw [hst]; exact good_modified u d t n _ n.entries

theorem good_add (h : FH) (e : DirEntry) : GoodSec u d (secAdd cfg h e) := by
  refine good_dir fun t n => ?_
  unfold Inode.addEntry
  dsimp only
  rw [hst]
  repeat' split
  all_goals exact good_modified u d t n n.data _

theorem good_remove (h : FH) (name : Bytes) : GoodSec u d (secRemove cfg h name) := by
  refine good_dir fun t n => ?_
  unfold Inode.removeEntry
  dsimp only
  rw [hst]
  repeat' split
  all_goals exact good_modified u d t n n.data _

omit hst in
theorem good_unlinkEmpty (h : FH) : GoodSec u true (secUnlinkEmpty cfg h) := by
  refine good_dir fun t n => ?_
  unfold Inode.unlinkEmpty
  dsimp only
  split
  · exact good_atime _ _ _ _ _
  · have g := good_trans (good_atime false true cfg.storeTime t n) (good_unlink _ _ _)
    exact ⟨g.shown, fun _ => g.stamped rfl, fun h => nomatch h⟩

theorem good_create (id : Bytes) (type : Nat) (mode uid gid : UInt32) : GoodSec u d (secCreate cfg id type mode uid gid) := by
  intro fs
  unfold secCreate
  split
  · exact ⟨rfl, dated_refl _ _ _⟩
  · cases hg : fs.get id with
    | some n => exact ⟨rfl, dated_refl _ _ _⟩
    | none =>
      refine ⟨rfl, fun k => ⟨fun x hx => ⟨x, ?_, good_refl _ _ _ _⟩, fun y hn hy => ?_⟩⟩
      · have hx' : fs.nodes.lookup k = some x := hx
        unfold FullFs.get
        dsimp only
        rw [lookup_append, hx']
      · have hn' : fs.nodes.lookup k = none := hn
        unfold FullFs.get at hy
        dsimp only at hy
        rw [lookup_append, hn'] at hy
        by_cases hk : k = id
        · subst hk
          simp at hy
          subst hy
          rw [hst]
          exact ⟨rfl, rfl, rfl, rfl⟩
        · simp [hk] at hy

theorem good_link (base : FH) (last : Bytes) (f : FH) : GoodSec u d (secLink cfg base last f) := by
  refine GoodSec.weak (good_bind (good_file fun _ _ => good_refl _ _ _ _) fun type => good_bind (good_add hst _ _ _ _) fun added => ?_)
  split
  · exact good_file fun t n => by rw [hst]; exact good_setNlink _ _ _ _ _
  · exact good_pure _

theorem good_rename (bf : FH) (lf : Bytes) (bt : FH) (lt : Bytes) : GoodSec u d (secRename cfg bf lf bt lt) := by
  refine GoodSec.weak (good_bind (good_remove hst _ _ _ _) fun r => ?_)
  cases r with
  | none => exact good_pure _
  | some x =>
    refine good_bind (good_remove hst _ _ _ _) fun r2 => ?_
    cases r2 with
    | none => exact good_bind (good_add hst _ _ _ _) fun _ => good_pure _
    | some y =>
      dsimp only
      split
      · exact good_bind (good_add hst _ _ _ _) fun _ => good_bind (good_add hst _ _ _ _) fun _ => good_pure _
      · exact good_bind (good_add hst _ _ _ _) fun _ => good_pure _

end

/-! ## Programs -/

/-- All sections of a program are as they should be. -/
def GoodProg (u d : Bool) {α : Type} : Prog α → Prop
  | .ret _ => True
  | .throw _ => True
  | .sec f k => GoodSec u d f ∧ ∀ b, GoodProg u d (k b)

theorem GoodProg.bind {u d : Bool} {α β : Type} {g : α → Prog β} : ∀ {p : Prog α}, GoodProg u d p → (∀ a, GoodProg u d (g a)) → GoodProg u d (p.bind g)
  | .ret a, _, hg => hg a
  | .throw _, _, _ => trivial
  | .sec _ _, h, hg => ⟨h.1, fun b => GoodProg.bind (h.2 b) hg⟩

theorem GoodProg.one {u d : Bool} {α β : Type} {f : Sec β} {g : β → Prog α} (h : GoodSec u d f) (hg : ∀ b, GoodProg u d (g b)) :
    GoodProg u d ((Prog.one f).bind g) := ⟨h, hg⟩

/-- All moments of a program are as they should be. -/
theorem GoodProg.always {u d : Bool} {α : Type} : ∀ {p : Prog α}, GoodProg u d p → Always p fun ms _ => ∀ m ∈ ms, Moment.dated (Good u d) m
  | .ret _, _ => fun _ h => nomatch h
  | .throw _, _ => fun _ h => nomatch h
  | .sec f k, h => by
    refine ⟨(fun _ h => nomatch h), fun fs => ?_⟩
    have h1 := (h.1 fs).2
    revert h1
    cases f fs with
    | mk x fs' =>
      intro h1
      cases x with
      | error e =>
        intro m hm
        rcases List.mem_cons.mp hm with rfl | hm
        · exact h1
        · exact nomatch hm
      | ok b =>
        refine (GoodProg.always (h.2 b)).mono fun ms r hm m hx => ?_
        rcases List.mem_cons.mp hx with rfl | hx
        · exact h1
        · exact hm m hx

section
variable (cfg : FsCfg) (u d : Bool)

theorem goodProg_walk {rec : Bytes → FH → List Bytes → Prog (Option FH)} (hr : ∀ i h l, GoodProg u d (rec i h l)) :
    ∀ (l : List Bytes) (i : Bytes) (h : FH), GoodProg u d (walk cfg rec i h l)
  | [], _, _ => trivial
  | s :: rest, i, h => by
    rw [walk]
    split
    · exact goodProg_walk hr rest i h
    · split
      · exact .one (good_getParent _ _ _) fun _ => .one (good_openAs _ _ _ _) fun _ => goodProg_walk hr rest _ _
      · refine .one (good_get _ _ _ _) fun found => ?_
        cases found with
        | none => trivial
        | some e =>
          refine .one (good_openAs _ _ _ _) fun _ => .one (good_setParent _ _ _ _) fun _ => ?_
          split
          · refine .one (good_linkGet _ _ _) fun t => GoodProg.bind (hr _ _ _) fun r => ?_
            cases r with
            | none => trivial
            | some c => exact goodProg_walk hr rest _ _
          · exact goodProg_walk hr rest _ _

theorem goodProg_genericOpen : ∀ (k : Nat) (i : Bytes) (h : FH) (l : List Bytes), GoodProg u d (genericOpen cfg k i h l)
  | 0, _, _, _ => trivial
  | k + 1, i, h, l => goodProg_walk cfg u d (goodProg_genericOpen k) l i h

theorem goodProg_openBase (path : Bytes) : GoodProg u d (openBase cfg path) := by
  unfold openBase
  refine .one (good_openAs _ _ _ _) fun root => ?_
  split
  · trivial
  · split
    · trivial
    · refine GoodProg.bind (goodProg_genericOpen _ _ _ _ _ _ _) fun r => ?_
      cases r <;> trivial

theorem goodProg_openAll (path : Bytes) (fl : Bool) : GoodProg u d (openAll cfg path fl) := by
  unfold openAll
  split
  · exact .one (good_openAs _ _ _ _) fun _ => trivial
  · refine GoodProg.bind (goodProg_openBase _ _ _ _) fun x => .one (good_get _ _ _ _) fun found => ?_
    cases found with
    | none => trivial
    | some e =>
      refine .one (good_openAs _ _ _ _) fun _ => .one (good_setParent _ _ _ _) fun _ => ?_
      split
      · exact .one (good_linkGet _ _ _) fun t => goodProg_genericOpen _ _ _ _ _ _ _
      · trivial

variable (hst : cfg.storeTime = true)
include hst

theorem goodProg_createFile (path : Bytes) (mode : UInt32) (type : Nat) (uid gid : UInt32) (id : Bytes) :
    GoodProg u true (createFile cfg path mode type uid gid id) := by
  unfold createFile
  refine GoodProg.bind (goodProg_openBase _ _ _ _) fun x => .one (good_create hst _ _ _ _ _ _ _) fun h => .one (good_add hst _ _ _ _) fun added => ?_
  split
  · exact .one (good_setParent _ _ _ _) fun _ => trivial
  · exact .one (good_secUnlink _ _) fun _ => trivial

omit hst in
theorem goodProg_withAttr {path : Bytes} {f : TimeSpec → FileAttr → FileAttr} (hf : ∀ t x, Good u d t x { x with attr := f t x.attr }) :
    GoodProg u d (withAttr cfg path false f) := by
  unfold withAttr
  refine GoodProg.bind (goodProg_openAll _ _ _ _ _) fun r => ?_
  cases r with
  | none => trivial
  | some h => exact .one (good_file fun t n => hf t n) fun _ => trivial

/-- All sections of all calls are as they should be. -/
theorem goodProg_op (op : FullOp) (hu : SetsTimes op → u = true) (hd : DropsLinks op → d = true) :
    GoodProg u d (op.prog cfg) := by
  cases op with
  | create p m a b i =>
    obtain rfl := hd trivial
    exact GoodProg.bind (goodProg_createFile _ _ hst _ _ _ _ _ _) fun _ => trivial
  | mkdir p m a b i =>
    obtain rfl := hd trivial
    exact GoodProg.bind (goodProg_createFile _ _ hst _ _ _ _ _ _) fun _ => trivial
  | symlink t f a b i =>
    obtain rfl := hd trivial
    exact GoodProg.bind (goodProg_createFile _ _ hst _ _ _ _ _ _) fun _ => .one (good_linkSet hst _ _ _ _) fun _ => trivial
  | unlink p =>
    obtain rfl := hd trivial
    refine GoodProg.bind (goodProg_openBase _ _ _ _) fun x => .one (good_remove hst _ _ _ _) fun r => ?_
    cases r with
    | none => trivial
    | some e => exact .one (good_openAs _ _ _ _) fun _ => .one (good_secUnlink _ _) fun _ => trivial
  | rmdir p =>
    obtain rfl := hd trivial
    refine GoodProg.bind (goodProg_openBase _ _ _ _) fun x => .one (good_remove hst _ _ _ _) fun r => ?_
    cases r with
    | none => trivial
    | some e => exact .one (good_openAs _ _ _ _) fun _ => .one (good_unlinkEmpty _ _) fun _ => trivial
  | link s t =>
    refine GoodProg.bind (goodProg_openAll _ _ _ _ _) fun r => ?_
    cases r with
    | none => trivial
    | some h => exact GoodProg.bind (goodProg_openBase _ _ _ _) fun x => .one (good_link hst _ _ _ _ _) fun _ => trivial
  | rename f t =>
    obtain rfl := hd trivial
    refine GoodProg.bind (goodProg_openBase _ _ _ _) fun x => GoodProg.bind (goodProg_openBase _ _ _ _) fun y => .one (good_rename hst _ _ _ _ _ _) fun r => ?_
    cases r with
    | missing => trivial
    | done => trivial
    | replaced e => exact .one (good_openAs _ _ _ _) fun _ => .one (good_secUnlink _ _) fun _ => trivial
  | chmod p m => exact goodProg_withAttr _ _ _ fun t x => by rw [hst]; exact good_setMode _ _ _ _ _
  | chown p a b => exact goodProg_withAttr _ _ _ fun t x => by rw [hst]; exact good_chown _ _ _ _ _ _
  | utimens p g ts =>
    obtain rfl := hu trivial
    exact goodProg_withAttr _ _ _ fun t x => by rw [hst]; exact good_utimens _ _ _ _ _
  | getattr p =>
    refine GoodProg.bind (GoodProg.bind (goodProg_openAll _ _ _ _ _) fun r => ?_) fun _ => trivial
    cases r with
    | none => trivial
    | some h => exact .one (good_stat _ _ _ _) fun _ => trivial
  | «open» p tr =>
    refine GoodProg.bind (GoodProg.bind (goodProg_openAll _ _ _ _ _) fun r => ?_) fun _ => trivial
    cases r with
    | none => trivial
    | some h =>
      cases tr with
      | false => trivial
      | true => exact .one (good_truncate hst _ _ _ _) fun _ => trivial
  | readlink p n =>
    refine GoodProg.bind ?_ fun _ => trivial
    unfold fullReadlink
    split
    · trivial
    · split
      · trivial
      · refine GoodProg.bind (goodProg_openAll _ _ _ _ _) fun r => ?_
        cases r with
        | none => trivial
        | some h => exact .one (good_linkGet _ _ _) fun _ => trivial
  | opendir p =>
    refine GoodProg.bind (GoodProg.bind (goodProg_openAll _ _ _ _ _) fun r => ?_) fun _ => trivial
    cases r with
    | none => trivial
    | some h => dsimp only; split <;> trivial
  | truncate p n =>
    refine GoodProg.bind (goodProg_openAll _ _ _ _ _) fun r => ?_
    cases r with
    | none => trivial
    | some h => exact .one (good_truncate hst _ _ _ _) fun _ => trivial
  | read h off len => exact GoodProg.one (good_read _ _ _ _ _) fun _ => trivial
  | write h off x => exact GoodProg.one (good_write hst _ _ _ _ _) fun _ => trivial
  | ftruncate h n => exact GoodProg.one (good_truncate hst _ _ _ _) fun _ => trivial
  | fgetattr h => exact GoodProg.one (good_stat _ _ _ _) fun _ => trivial
  | readdir h fill =>
    refine GoodProg.bind ?_ fun _ => trivial
    unfold fullReaddir
    split
    · trivial
    · exact .one (good_readdir _ _ _ _) fun _ => trivial
  | flush h => exact GoodProg.one (good_flush _ _ _) fun _ => trivial
  | fsync h => exact GoodProg.one (good_file fun _ _ => good_refl _ _ _ _) fun _ => trivial

end

/-! ## Histories -/

/-- All threads do what they should. -/
def GoodSys (s : FullSys) : Prop := ∀ p ∈ s.threads, GoodProg false true p

theorem goodSys_set {s : FullSys} {fs : FullFs} {i : Nat} {p : Prog Int} (h : GoodSys s) (hp : GoodProg false true p) : GoodSys ⟨fs, s.threads.set i p⟩ := by
  intro q hq
  rcases List.mem_or_eq_of_mem_set hq with hq | rfl
  · exact h q hq
  · exact hp

/-- What one event does to files, when nobody sets times. -/
theorem step_dated {cfg : FsCfg} (hst : cfg.storeTime = true) {s : FullSys} (h : GoodSys s) (e : FullEvent) (hu : ∀ op, e = .start op → ¬ SetsTimes op) :
    GoodSys (s.step cfg e) ∧ ∀ id y, (s.step cfg e).fs.get id = some y →
      (∃ x, s.fs.get id = some x ∧ Good false true s.fs.now x y) ∨ (s.fs.get id = none ∧ BornAt s.fs.now y) := by
  have same : ∀ id y, s.fs.get id = some y → (∃ x, s.fs.get id = some x ∧ Good false true s.fs.now x y) ∨ (s.fs.get id = none ∧ BornAt s.fs.now y) :=
    fun id y hy => .inl ⟨y, hy, good_refl _ _ _ _⟩
  cases e with
  | start op =>
    refine ⟨fun p hp => ?_, same⟩
    rcases List.mem_append.mp hp with hp | hp
    · exact h p hp
    · obtain rfl := List.mem_singleton.mp hp
      exact goodProg_op cfg false true hst op (fun hs => (hu op rfl hs).elim) fun _ => rfl
  | tick now => exact ⟨h, same⟩
  | fail i er =>
    unfold FullSys.step
    dsimp only
    split
    · exact ⟨goodSys_set h trivial, same⟩
    · exact ⟨h, same⟩
  | evict k =>
    unfold FullSys.step
    dsimp only
    cases hg : s.fs.get k with
    | none => exact ⟨h, same⟩
    | some n =>
      refine ⟨h, fun id y hy => ?_⟩
      dsimp only at hy
      rw [Dm.get_set hg] at hy
      by_cases hk : id = k
      · subst hk
        rw [if_pos rfl] at hy
        cases hy
        exact .inl ⟨n, hg, ⟨⟨fun h => (h.elim (· rfl) (· rfl)).elim, fun h => (h.elim (· rfl) fun h => h.elim (· rfl) (· rfl)).elim⟩,
          fun _ => ⟨.inl rfl, .inl rfl, .inl rfl, rfl⟩, fun _ h => (h rfl).elim⟩⟩
      · rw [if_neg hk] at hy
        exact same id y hy
  | reap k =>
    unfold FullSys.step
    dsimp only
    cases hg : s.fs.get k with
    | none => exact ⟨h, same⟩
    | some n =>
      dsimp only
      split
      · refine ⟨h, fun id y hy => same id y ?_⟩
        have hy2 : (s.fs.nodes.filter fun p => p.1 ≠ k).lookup id = some y := hy
        rw [nodes_lookup_filter_ne] at hy2
        split at hy2
        · cases hy2
        · exact hy2
      · exact ⟨h, same⟩
  | step i =>
    unfold FullSys.step FullSys.stepThread
    dsimp only
    cases ht : s.threads[i]? with
    | none => exact ⟨h, same⟩
    | some p =>
      have hp := h p (List.mem_of_getElem? ht)
      cases p with
      | ret a => exact ⟨h, same⟩
      | throw er => exact ⟨h, same⟩
      | sec f k =>
        have h1 := (hp.1 s.fs).2
        have key : ∀ fs', Moment.dated (Good false true) (s.fs, fs') → ∀ id y, fs'.get id = some y →
            (∃ x, s.fs.get id = some x ∧ Good false true s.fs.now x y) ∨ (s.fs.get id = none ∧ BornAt s.fs.now y) := by
          intro fs' hd id y hy
          cases hg : s.fs.get id with
          | none => exact .inr ⟨rfl, (hd id).2 y hg hy⟩
          | some x =>
            obtain ⟨z, hz, gz⟩ := (hd id).1 x hg
            have hz' : fs'.get id = some z := hz
            rw [hy] at hz'
            cases hz'
            exact .inl ⟨x, rfl, gz⟩
        dsimp only
        revert h1
        cases f s.fs with
        | mk r fs' =>
          intro h1
          cases r with
          | error er => exact ⟨goodSys_set h trivial, key fs' h1⟩
          | ok b => exact ⟨goodSys_set h (hp.2 b), key fs' h1⟩

/-- The clock after an event. -/
theorem step_now {cfg : FsCfg} {s : FullSys} (h : GoodSys s) (e : FullEvent) : (s.step cfg e).fs.now = s.fs.now ∨ e = .tick (s.step cfg e).fs.now := by
  cases e with
  | start op => exact .inl rfl
  | tick now => exact .inr rfl
  | fail i er => unfold FullSys.step; dsimp only; split <;> exact .inl rfl
  | evict k => unfold FullSys.step; dsimp only; split <;> exact .inl rfl
  | reap k =>
    unfold FullSys.step
    dsimp only
    split
    · exact .inl rfl
    · split <;> exact .inl rfl
  | step i =>
    refine .inl ?_
    unfold FullSys.step FullSys.stepThread
    dsimp only
    cases ht : s.threads[i]? with
    | none => rfl
    | some p =>
      have hp := h p (List.mem_of_getElem? ht)
      cases p with
      | ret a => rfl
      | throw er => rfl
      | sec f k =>
        have h1 := (hp.1 s.fs).1
        dsimp only
        revert h1
        cases f s.fs with
        | mk r fs' => cases r <;> exact id

/-- A property of a file that changes keep, unless they show in its times, holds as long as its times do not show changes. -/
theorem run_kept {cfg : FsCfg} (hst : cfg.storeTime = true) {id : Bytes} {P : Inode → Prop} {t0 : TimeSpec}
    (hP : ∀ t x y, t ≠ t0 → Good false true t x y → P x → P y) (hb : ∀ t y, t ≠ t0 → BornAt t y → P y) :
    ∀ (evs : List FullEvent) (s : FullSys), GoodSys s → (∀ op, .start op ∈ evs → ¬ SetsTimes op) → s.fs.now ≠ t0 → (∀ t, .tick t ∈ evs → t ≠ t0) →
      (∀ x, s.fs.get id = some x → P x) → ∀ y, (s.run cfg evs).fs.get id = some y → P y
  | [], _, _, _, _, _, h => h
  | e :: evs, s, hs, hu, hn, ht, h => by
    obtain ⟨hs', hd⟩ := step_dated hst hs e fun op he => hu op (by rw [he]; exact List.mem_cons_self)
    refine run_kept hst hP hb evs (s.step cfg e) hs' (fun op ho => hu op (List.mem_cons_of_mem _ ho)) ?_ (fun t ho => ht t (List.mem_cons_of_mem _ ho)) ?_
    · rcases step_now hs e with h1 | h1
      · rw [h1]; exact hn
      · exact ht _ (by rw [← h1]; exact List.mem_cons_self)
    · intro y hy
      rcases hd id y hy with ⟨x, hx, g⟩ | ⟨_, hB⟩
      · exact hP _ x y hn g (h x hx)
      · exact hb _ y hn hB

theorem goodSys_run {cfg : FsCfg} (hst : cfg.storeTime = true) : ∀ (evs : List FullEvent) (s : FullSys), GoodSys s → (∀ op, .start op ∈ evs → ¬ SetsTimes op) →
    GoodSys (s.run cfg evs)
  | [], _, h, _ => h
  | e :: evs, s, h, hu => goodSys_run hst evs _ (step_dated hst h e fun op he => hu op (by rw [he]; exact List.mem_cons_self)).1
      fun op ho => hu op (List.mem_cons_of_mem _ ho)

end Securefs.Tm

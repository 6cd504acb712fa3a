import Verif.Props.FullFsExact
import Verif.Proofs.FullFsData
/-!
# C79: files of the full format behave as files through their handles

`Sequential` states, `viewOf` and paths are as in C70.  `Refers A h f` says that the handle `h` is one of the file `f`: `C79_open` and
`C79_create` give such handles, and `C79_history` says that they stay so, whatever happens to the names of the file.
-/

namespace Securefs.Props

open Securefs Spec

/-- The demonstration file system with `abc` in `/g`. -/
def dataFs : FullFs := runOps fullDemoCfg demoFs [.write ⟨fullDemoId 4, 8⟩ 0 [97, 98, 99]]

theorem dataFs_sequential : Sequential fullDemoCfg dataFs := opsCheck_sound _ _ demoFs_sequential (by decide +kernel)

/-- The handle of `/g`. -/
def dataFh : FH := ⟨fullDemoId 4, 8⟩

theorem dataFh_refers : Refers (viewOf dataFs) dataFh ⟨0x81a4, 3, 4, 2, [97, 98, 99], []⟩ :=
  ⟨by decide +kernel, by decide +kernel, by decide +kernel⟩

/-! ## Opening -/

/-- `open` is exact, and its handle refers to the file that the path leads to. -/
theorem C79_open {cfg : FsCfg} (hs : SameEquiv cfg.same) {fs : FullFs} (h : Sequential cfg fs) (path : Bytes) (trunc : Bool) :
    let out := (fullOpen cfg path trunc).run fs
    (out.1, viewOf out.2) = specOpen cfg.same (viewOf fs) path trunc ∧
    ∀ n fh, out.1 = .ok (n, some fh) → n = 0 ∧ ∃ f, Refers (viewOf out.2) fh f := by
  have hi := (seq_inv hs h).inv
  obtain ⟨fs', h1, h2⟩ := open_exact (cfg := cfg) hi path trunc
  dsimp only
  rw [h1, h2]
  refine ⟨rfl, fun n fh ho => ?_⟩
  revert ho
  obtain ⟨fs1, _, _, hcase⟩ := openAll_cases (cfg := cfg) hi path true
  unfold specOpen onFile
  rcases hcase with ⟨e, hres, _⟩ | ⟨hres, _⟩ | ⟨p, o, a, hres, _, hid, hh⟩
  · rw [hres]; intro ho; cases ho
  · rw [hres]; intro ho; cases ho
  · have ha : viewOf fs p.1 = some a := by rw [← hid]; exact hh.obj
    have h0 : a.kind ≠ 0 := hh.refers.known
    rw [hres]
    dsimp only
    rw [ha]
    dsimp only
    cases trunc with
    | false =>
      rw [if_neg (by decide)]
      intro ho
      injection ho with ho
      injection ho with h3 h4
      injection h4 with h4
      subst h4
      exact ⟨h3.symm, a, ha, rfl, h0⟩
    | true =>
      rw [if_pos rfl]
      split
      · next h8 =>
        intro ho
        injection ho with ho
        injection ho with h3 h4
        injection h4 with h4
        subst h4
        refine ⟨h3.symm, { a with data := [] }, ?_, h8, h0⟩
        dsimp only
        rw [alter_eq ha]
        exact updA_self _ _ _
      · intro ho; cases ho

/-- `open` of `/g`, `open` of `/h` with `O_TRUNC`, of the directory behind `/s` with `O_TRUNC`, and of the circular `/l`. -/
example : ((fullOpen fullDemoCfg [47, 103] false).run dataFs).1 = .ok (0, some dataFh) ∧
    ((fullOpen fullDemoCfg [47, 104] true).run dataFs).1 = .ok (0, some dataFh) ∧
    (specOpen fullDemoCfg.same (viewOf dataFs) [47, 104] true).2 (fullDemoId 4) = some ⟨0x81a4, 3, 4, 2, [], []⟩ ∧
    ((fullOpen fullDemoCfg [47, 115] true).run dataFs).1 = .error (.vfs 1) ∧
    ((fullOpen fullDemoCfg [47, 108] false).run dataFs).1 = .error (.vfs 40) := by
  refine ⟨?_, ?_, ?_, ?_, ?_⟩ <;> decide +kernel

/-- `create` gives a handle of the new, empty file, and does otherwise what C70 says. -/
theorem C79_create {cfg : FsCfg} (hs : SameEquiv cfg.same) {fs : FullFs} (h : Sequential cfg fs) (path : Bytes) (mode uid gid : UInt32)
    {id : Bytes} (hn : viewOf fs id = none) :
    let out := (fullCreate cfg path mode uid gid id).run fs
    (out.1.map Prod.fst, out.2) = (((vcreate cfg path mode uid gid id).run fs).1, ((vcreate cfg path mode uid gid id).run fs).2) ∧
    ∀ n fh, out.1 = .ok (n, fh) → n = 0 ∧ fh = some ⟨id, 8⟩ ∧ ∃ f, Refers (viewOf out.2) ⟨id, 8⟩ f ∧ f.data = [] := by
  have hi := (seq_inv hs h).inv
  dsimp only
  unfold fullCreate vcreate
  obtain ⟨fs', hv⟩ := createFile_view (cfg := cfg) hi path mode (type := typeRegular) (.inr (.inl rfl)) uid gid hn
  have key : ∀ e fs', (createFile cfg path mode typeRegular uid gid id).run fs = (.error e, fs') →
      (((((createFile cfg path mode typeRegular uid gid id).bind fun h => Prog.ret ((0 : Int), some h)).run fs).1.map Prod.fst,
        (((createFile cfg path mode typeRegular uid gid id).bind fun h => Prog.ret ((0 : Int), some h)).run fs).2) =
        ((((createFile cfg path mode typeRegular uid gid id).bind fun _ => Prog.ret (0 : Int)).run fs).1,
         (((createFile cfg path mode typeRegular uid gid id).bind fun _ => Prog.ret (0 : Int)).run fs).2)) ∧
      ∀ n fh, (((createFile cfg path mode typeRegular uid gid id).bind fun h => Prog.ret ((0 : Int), some h)).run fs).1 = .ok (n, fh) →
        n = 0 ∧ fh = some ⟨id, 8⟩ ∧ ∃ f, Refers (viewOf
          (((createFile cfg path mode typeRegular uid gid id).bind fun h => Prog.ret ((0 : Int), some h)).run fs).2) ⟨id, 8⟩ f ∧ f.data = [] := by
    intro e fs' hrun
    rw [run_bind_error hrun, run_bind_error hrun]
    exact ⟨rfl, fun n fh ho => by cases ho⟩
  cases hres : resolveParent cfg.same (viewOf fs) path with
  | error e => rw [hres] at hv; exact key _ _ hv.1
  | ok r =>
    obtain ⟨p, last⟩ := r
    rw [hres] at hv
    dsimp only at hv
    cases hl : lookupIn cfg.same (viewOf fs) p.1 last with
    | error e => rw [hl] at hv; exact key _ _ hv.1
    | ok r =>
      cases r with
      | some e => rw [hl] at hv; exact key _ _ hv.1
      | none =>
        rw [hl] at hv
        obtain ⟨hrun, hview, hk, hne⟩ := hv
        rw [run_bind_ok hrun, run_bind_ok hrun]
        refine ⟨rfl, fun n fh ho => ?_⟩
        injection ho with ho
        injection ho with h1 h2
        refine ⟨h1.symm, h2.symm, newFile cfg.osUid cfg.osGid mode typeRegular uid gid [], ⟨?_, hk, by rw [hk]; decide⟩, rfl⟩
        show viewOf fs' id = _
        rw [hview]
        unfold alter withFile
        rw [if_neg hne, if_pos rfl]

/-- `create /d/n`, and reading and writing the new file. -/
example : ((fullCreate fullDemoCfg [47, 100, 47, 110] 0x1a4 1 2 (fullDemoId 9)).run dataFs).1 = .ok (0, some ⟨fullDemoId 9, 8⟩) ∧
    viewOf dataFs (fullDemoId 9) = none ∧
    ((fullRead fullDemoCfg ⟨fullDemoId 9, 8⟩ 0 5).run
      ((fullWrite fullDemoCfg ⟨fullDemoId 9, 8⟩ 2 [120, 121]).run
        ((fullCreate fullDemoCfg [47, 100, 47, 110] 0x1a4 1 2 (fullDemoId 9)).run dataFs).2).2).1 = .ok (4, [0, 0, 120, 121]) := by
  refine ⟨?_, ?_, ?_⟩ <;> decide +kernel

/-! ## Through a handle -/

theorem toCInt_small {n : Nat} (h : n < 2 ^ 31) : toCInt n = n := by
  unfold toCInt
  rw [Nat.mod_eq_of_lt (by omega), if_pos h]

/-- Reading through a handle of a regular file: the bytes that are there, and nothing changes.  `EPERM` for other files. -/
theorem C79_read {cfg : FsCfg} {fs : FullFs} {h : FH} {f : AFile} (hr : Refers (viewOf fs) h f) (off len : Nat) (hlen : len < 2 ^ 31) :
    let out := (fullRead cfg h off len).run fs
    viewOf out.2 = viewOf fs ∧
    (f.kind = 8 → ∃ b : Bytes, out.1 = .ok ((b.length : Int), b) ∧ Got f.data off len b) ∧ (f.kind ≠ 8 → out.1 = .error (.vfs 1)) := by
  obtain ⟨fs', h1, h2⟩ := read_run (cfg := cfg) hr off len
  dsimp only
  unfold fullRead
  rw [hr.cls]
  by_cases h8 : h.cls = 8
  · rw [if_pos h8] at h1
    rw [run_one_ok h1]
    refine ⟨h2, fun _ => ⟨_, ?_, got_read _ _ _⟩, fun h => absurd h8 h⟩
    have := (got_read f.data off len).1
    show Except.ok (toCInt _, _) = _
    rw [toCInt_small (by omega)]
  · rw [if_neg h8] at h1
    rw [run_one_error h1]
    exact ⟨h2, fun h => absurd h h8, fun _ => rfl⟩

/-- Two bytes of `/g` from the second one, ten from the last one, and a read through a handle of a directory. -/
example : ((fullRead fullDemoCfg dataFh 1 2).run dataFs).1 = .ok (2, [98, 99]) ∧ ((fullRead fullDemoCfg dataFh 2 10).run dataFs).1 = .ok (1, [99]) ∧
    ((fullRead fullDemoCfg ⟨fullDemoId 1, 4⟩ 0 10).run dataFs).1 = .error (.vfs 1) := by
  refine ⟨?_, ?_, ?_⟩ <;> decide +kernel

/-- Writing through a handle of a regular file: these bytes of this file change, and nothing else anywhere.  `EPERM` for other files. -/
theorem C79_write {cfg : FsCfg} {fs : FullFs} {h : FH} {f : AFile} (hr : Refers (viewOf fs) h f) (off : Nat) (d : Bytes) (hlen : d.length < 2 ^ 31) :
    let out := (fullWrite cfg h off d).run fs
    (f.kind = 8 → out.1 = .ok (d.length : Int) ∧ ∃ c', Written f.data off d c' ∧ viewOf out.2 = alter (viewOf fs) h.id fun f => { f with data := c' }) ∧
    (f.kind ≠ 8 → out.1 = .error (.vfs 1) ∧ viewOf out.2 = viewOf fs) := by
  obtain ⟨fs', h1, h2⟩ := write_run (cfg := cfg) hr off d
  dsimp only
  unfold fullWrite
  rw [hr.cls]
  by_cases h8 : h.cls = 8
  · rw [if_pos h8] at h1 h2
    rw [run_one_ok h1]
    refine ⟨fun _ => ⟨?_, _, written_write f.data off d, ?_⟩, fun h => absurd h8 h⟩
    · show Except.ok (toCInt _) = _
      rw [toCInt_small hlen]
    · show viewOf fs' = _
      rw [h2, alter_eq hr.file, alter_eq hr.file]
  · rw [if_neg h8] at h1 h2
    rw [run_one_error h1]
    exact ⟨fun h => absurd h h8, fun _ => ⟨rfl, h2⟩⟩

/-- Two bytes after the end of `/g`: the gap is filled with zeros. -/
example : ((fullWrite fullDemoCfg dataFh 5 [120, 121]).run dataFs).1 = .ok 2 ∧
    ((fullRead fullDemoCfg dataFh 0 10).run ((fullWrite fullDemoCfg dataFh 5 [120, 121]).run dataFs).2).1 = .ok (7, [97, 98, 99, 0, 0, 120, 121]) := by
  refine ⟨?_, ?_⟩ <;> decide +kernel

/-- `ftruncate` through a handle, and `truncate` of a path, are exact. -/
theorem C79_truncate {cfg : FsCfg} (hs : SameEquiv cfg.same) {fs : FullFs} (hq : Sequential cfg fs) (size : Nat) :
    (∀ (h : FH) (f : AFile), Refers (viewOf fs) h f → let out := (fullFtruncate cfg h size).run fs
      (f.kind = 8 → out.1 = .ok 0 ∧ ∃ c', Resized f.data size c' ∧ viewOf out.2 = alter (viewOf fs) h.id fun f => { f with data := c' }) ∧
      (f.kind ≠ 8 → out.1 = .error (.vfs 1) ∧ viewOf out.2 = viewOf fs)) ∧
    (∀ path, let out := (fullTruncate cfg path size).run fs
      (out.1, viewOf out.2) = specTruncate cfg.same (viewOf fs) path size) ∧
    ∀ c, Resized c size (Spec.resize c size) := by
  refine ⟨fun h f hr => ?_, fun path => ?_, fun c => resized_resize c size⟩
  · obtain ⟨fs', h1, h2⟩ := truncate_run (cfg := cfg) hr size
    dsimp only
    unfold fullFtruncate
    rw [hr.cls]
    by_cases h8 : h.cls = 8
    · rw [if_pos h8] at h1 h2
      rw [run_one_ok h1]
      refine ⟨fun _ => ⟨rfl, _, resized_resize f.data size, ?_⟩, fun h => absurd h8 h⟩
      show viewOf fs' = _
      rw [h2, alter_eq hr.file, alter_eq hr.file]
    · rw [if_neg h8] at h1 h2
      rw [run_one_error h1]
      exact ⟨fun h => absurd h h8, fun _ => ⟨rfl, h2⟩⟩
  · obtain ⟨fs', h1, h2⟩ := truncate_exact (cfg := cfg) (seq_inv hs hq).inv path size
    dsimp only
    rw [h1, h2]

/-- `/h` cut to one byte, `/g` filled up to four, a directory, a name that is not there. -/
example : ((fullRead fullDemoCfg dataFh 0 10).run ((fullTruncate fullDemoCfg [47, 104] 1).run dataFs).2).1 = .ok (1, [97]) ∧
    ((fullRead fullDemoCfg dataFh 0 10).run ((fullFtruncate fullDemoCfg dataFh 4).run dataFs).2).1 = .ok (4, [97, 98, 99, 0]) ∧
    ((fullTruncate fullDemoCfg [47, 100] 1).run dataFs).1 = .error (.vfs 1) ∧ ((fullTruncate fullDemoCfg [47, 120] 1).run dataFs).1 = .ok (-2) := by
  refine ⟨?_, ?_, ?_, ?_⟩ <;> decide +kernel

/-- `stat`, by handle and by path, shows mode, owners, links and size of the file, and changes nothing; the times are those stored. -/
theorem C79_stat {cfg : FsCfg} (hs : SameEquiv cfg.same) (ov : OwnerOverride) {fs : FullFs} (hq : Sequential cfg fs) :
    (∀ (h : FH) (f : AFile), Refers (viewOf fs) h f → let out := (fullFgetattr cfg ov h).run fs
      viewOf out.2 = viewOf fs ∧ ∃ st n, out.1 = .ok (0, some st) ∧ StatOf ov h.id f st ∧ fs.get h.id = some n ∧
        st.times = if cfg.storeTime then some (n.attr.atime, n.attr.mtime, n.attr.ctime, n.attr.btime) else none) ∧
    (∀ path, let out := (fullGetattr cfg ov path).run fs
      viewOf out.2 = viewOf fs ∧
      match resolvePath cfg.same (viewOf fs) path false with
      | .error e => out.1 = .error e
      | .ok none => out.1 = .ok (-2, none)
      | .ok (some p) => ∃ f st, viewOf fs p.1 = some f ∧ out.1 = .ok (0, some st) ∧ StatOf ov p.1 f st) := by
  refine ⟨fun h f hr => ?_, fun path => ?_⟩
  · obtain ⟨fs', st, n, h1, h2, _, h3, h4, h5⟩ := stat_run (cfg := cfg) (ov := ov) hr
    dsimp only
    unfold fullFgetattr
    rw [run_one_ok h1]
    exact ⟨h2, st, n, rfl, h3, h4, h5⟩
  · obtain ⟨fs', h1, h2, h3⟩ := getattr_exact (cfg := cfg) ov (seq_inv hs hq).inv path
    dsimp only
    rw [h1]
    exact ⟨h2, h3⟩

/-- `stat` of `/g` by handle, and of the link `/s` with another owner shown. -/
example : (((fullFgetattr fullDemoCfg ⟨none, none⟩ dataFh).run dataFs).1.map fun r => r.2.map fun st => (st.mode, st.uid, st.nlink, st.size)) =
      .ok (some (0x81a4, 3, 2, some 3)) ∧
    (((fullGetattr fullDemoCfg ⟨some 77, none⟩ [47, 115]).run dataFs).1.map fun r => r.2.map fun st => (st.mode, st.uid, st.gid, st.size)) =
      .ok (some (0xa1a4, 77, 2, some 6)) := by
  refine ⟨?_, ?_⟩ <;> decide +kernel

theorem times_set {fs : FullFs} {id : Bytes} {n : Inode} (hn : fs.get id = some n) (m : Inode) (x : Bytes) :
    timesOf (fs.set id m) x = if x = id then some (m.attr.atime, m.attr.mtime, m.attr.ctime, m.attr.btime) else timesOf fs x := by
  unfold timesOf
  by_cases hx : x = id
  · rw [if_pos hx, hx, get_set_self hn]; rfl
  · rw [if_neg hx, get_set_ne _ _ hx]

theorem timesRead_touch {n : Inode} (now : TimeSpec) :
    let a := n.attr.touchAtime true now
    (a.atime, a.mtime, a.ctime, a.btime) = timesRead now (n.attr.atime, n.attr.mtime, n.attr.ctime, n.attr.btime) := by
  dsimp only
  unfold FileAttr.touchAtime timesRead
  simp only [Bool.true_and, Bool.or_eq_true, decide_eq_true_eq, Int64.lt_iff_toInt_lt]
  split <;> rfl

/-- Where times are stored: writing and truncating set the times of the changes of this file to the current time, reading and listing its
    time of access where it is due, and `stat`, `flush` and `fsync` none; the times of all other files stay. -/
theorem C79_times {cfg : FsCfg} (hst : cfg.storeTime = true) {fs : FullFs} {h : FH} {f : AFile} (hr : Refers (viewOf fs) h f) (x : Bytes) :
    (f.kind = 8 → ∀ off d, timesOf ((fullWrite cfg h off d).run fs).2 x =
      if x = h.id then (timesOf fs x).map (timesWritten fs.now) else timesOf fs x) ∧
    (f.kind = 8 → ∀ size, timesOf ((fullFtruncate cfg h size).run fs).2 x =
      if x = h.id then (timesOf fs x).map (timesWritten fs.now) else timesOf fs x) ∧
    (f.kind = 8 → ∀ off len, timesOf ((fullRead cfg h off len).run fs).2 x =
      if x = h.id then (timesOf fs x).map (timesRead fs.now) else timesOf fs x) ∧
    (f.kind = 4 → ∀ fill, timesOf ((fullReaddir cfg fill h).run fs).2 x =
      if x = h.id then (timesOf fs x).map (timesRead fs.now) else timesOf fs x) ∧
    (∀ ov, timesOf ((fullFgetattr cfg ov h).run fs).2 x = timesOf fs x) ∧
    timesOf ((fullFlush h).run fs).2 x = timesOf fs x ∧ timesOf ((fullFsync h).run fs).2 x = timesOf fs x := by
  obtain ⟨n, hn, hv⟩ := get_of_view hr.file
  have hcur : timesOf fs h.id = some (n.attr.atime, n.attr.mtime, n.attr.ctime, n.attr.btime) := by unfold timesOf; rw [hn]; rfl
  have hch : ∀ (g : Bytes → Bytes) (o : Res Unit) (fs' : FullFs), f.kind = 8 →
      Sec.reg h (fun now n => (.ok (), { n with attr := n.attr.touchMtime cfg.storeTime now, data := g n.data })) fs = (o, fs') →
      timesOf fs' x = if x = h.id then (timesOf fs x).map (timesWritten fs.now) else timesOf fs x := by
    intro g o fs' h8 hrun
    obtain ⟨m, hm, _, e⟩ := reg_run hr fun now n =>
      ((.ok () : Res Unit), { n with attr := n.attr.touchMtime cfg.storeTime now, data := g n.data })
    rw [hn] at hm
    injection hm with hm
    rw [e, if_pos (hr.cls.symm.trans h8)] at hrun
    injection hrun with _ hrun
    rw [← hrun, times_set hn]
    split
    · next hx =>
      rw [hx, hcur, ← hm, hst]
      rfl
    · rfl
  have same : ∀ m : Inode, m.attr.atime = n.attr.atime → m.attr.mtime = n.attr.mtime → m.attr.ctime = n.attr.ctime → m.attr.btime = n.attr.btime →
      timesOf (fs.set h.id m) x = timesOf fs x := by
    intro m h1 h2 h3 h4
    rw [times_set hn]
    split
    · next hx => rw [hx, hcur, h1, h2, h3, h4]
    · rfl
  have acc : timesOf (fs.set h.id { n with attr := n.attr.touchAtime cfg.storeTime fs.now }) x =
      if x = h.id then (timesOf fs x).map (timesRead fs.now) else timesOf fs x := by
    rw [times_set hn, hst]
    split
    · next hx =>
      rw [hx, hcur]
      exact congrArg some (timesRead_touch (n := n) fs.now)
    · rfl
  refine ⟨fun h8 off d => ?_, fun h8 size => ?_, fun h8 off len => ?_, fun h4 fill => ?_, fun ov => ?_, ?_, ?_⟩
  · cases hw : secWrite cfg h off d fs with
    | mk o fs1 =>
      unfold fullWrite
      rw [run_bind, run_one, hw]
      have := hch (fun c => Spec.write c off d) o fs1 h8 hw
      cases o <;> exact this
  · cases hw : secTruncate cfg h size fs with
    | mk o fs1 =>
      unfold fullFtruncate
      rw [run_bind, run_one, hw]
      have := hch (fun c => Spec.resize c size) o fs1 h8 hw
      cases o <;> exact this
  · obtain ⟨m, hm, _, e⟩ := reg_run hr fun now n => (.ok (Spec.read n.data off len), { n with attr := n.attr.touchAtime cfg.storeTime now })
    rw [hn] at hm
    injection hm with hm
    rw [if_pos (hr.cls.symm.trans h8), ← hm] at e
    unfold fullRead secRead
    rw [run_one_ok e]
    exact acc
  · have hcast : castAs h typeDirectory n = .ok () := by
      rw [castAs_of_kind hr.held.good (by rw [hv]; exact hr.cls), if_pos (show h.cls = typeDirectory from hr.cls.symm.trans h4)]
    unfold fullReaddir
    rw [if_neg (by rw [ne_eq, not_not]; exact hr.cls.symm.trans h4), run_bind, run_one]
    unfold secReaddir Sec.dir
    rw [file_run hn, hcast]
    dsimp only
    cases fillEntries fill 0 n.entries <;> exact acc
  · unfold fullFgetattr
    rw [run_bind, run_one]
    unfold secStat
    rw [file_run hn]
    exact same n rfl rfl rfl rfl
  · unfold fullFlush
    rw [run_bind, run_one]
    unfold secFlush
    rw [file_run hn]
    exact same _ rfl rfl rfl rfl
  · unfold fullFsync
    rw [run_bind, run_one, file_run hn]
    exact same n rfl rfl rfl rfl

/-- A write at a later time, and a read after it. -/
example : fullDemoCfg.storeTime = true ∧
    (timesOf ((fullWrite fullDemoCfg dataFh 0 [1]).run { dataFs with now := ⟨50, 7⟩ }).2 dataFh.id).map (fun t => (t.2.1, t.2.2.1)) =
      some (⟨50, 7⟩, ⟨50, 7⟩) ∧
    (timesOf ((fullRead fullDemoCfg dataFh 0 1).run { ((fullWrite fullDemoCfg dataFh 0 [1]).run { dataFs with now := ⟨50, 7⟩ }).2 with
      now := ⟨60, 0⟩ }).2 dataFh.id).map (fun t => t.1) = some ⟨60, 0⟩ := by
  refine ⟨?_, ?_, ?_⟩ <;> decide +kernel

/-! ## What changes the contents of a file -/

/-- The contents of a regular file change by writing and truncating this file, and by no other operation: not by renaming, linking or
    removing its names, and not by anything done to other files.  The contents of symbolic links never change.  Kinds never change. -/
theorem C79_contents {cfg : FsCfg} (hs : SameEquiv cfg.same) {fs : FullFs} (h : Sequential cfg fs) (op : FullOp) {id : Bytes} {f : AFile}
    (hf : viewOf fs id = some f) :
    ∃ f', viewOf ((op.prog cfg).run fs).2 id = some f' ∧ f'.kind = f.kind ∧
      f'.data = if f.kind = 8 then effectOn cfg.same (viewOf fs) id op f.data else f.data := by
  have hi := (seq_inv hs h).inv
  by_cases h8 : f.kind = 8
  · rw [if_pos h8, h8]
    exact contents_op hi op ⟨f, hf, h8, rfl⟩
  · rw [if_neg h8]
    exact other_op hi op h8 ⟨f, hf, rfl, rfl⟩

/-- `rename /e /h`, which takes the name `/h` away from `/g`, keeps the contents of `/g`; `truncate` of the link to it does not. -/
example : (viewOf (runOps fullDemoCfg dataFs [.rename [47, 100, 47, 102] [47, 104]]) (fullDemoId 4)).map AFile.data = some [97, 98, 99] ∧
    effectOn fullDemoCfg.same (viewOf dataFs) (fullDemoId 4) (.rename [47, 100, 47, 102] [47, 104]) [97, 98, 99] = [97, 98, 99] ∧
    effectOn fullDemoCfg.same (viewOf dataFs) (fullDemoId 4) (.truncate [47, 104] 1) [97, 98, 99] = [97] := by
  refine ⟨?_, ?_, ?_⟩ <;> decide +kernel

/-- A handle stays a handle of its file as long as it is held, whatever other operations do, and reading through it gives what the
    writes and truncations of this file, in their order, make of its contents at the beginning. -/
theorem C79_history {cfg : FsCfg} (hs : SameEquiv cfg.same) {fs fs' : FullFs} (hq : Sequential cfg fs) {h : FH} {f : AFile} (h8 : h.cls = 8)
    (hr : Refers (viewOf fs) h f) {c' : Bytes} (hc : Course cfg h.id fs f.data fs' c') :
    (∃ f', Refers (viewOf fs') h f' ∧ f'.data = c') ∧
    ∀ off len, len < 2 ^ 31 → ∃ b : Bytes, ((fullRead cfg h off len).run fs').1 = .ok ((b.length : Int), b) ∧ Got c' off len b := by
  obtain ⟨_, f', h1, h2, h3⟩ := course_has hs hq ⟨f, hr.file, hr.cls.trans h8, rfl⟩ hc
  have hr' : Refers (viewOf fs') h f' := ⟨h1, h2.trans h8.symm, by rw [h2]; decide⟩
  refine ⟨⟨f', hr', h3⟩, fun off len hlen => ?_⟩
  obtain ⟨_, h4, _⟩ := C79_read (cfg := cfg) hr' off len hlen
  rw [← h3]
  exact h4 h2

/-- Both names of `/g` are removed, something is written through the handle, and another file is made: reading still works. -/
example : Course fullDemoCfg dataFh.id dataFs [97, 98, 99]
      (runOps fullDemoCfg dataFs [.unlink [47, 103], .unlink [47, 104], .write dataFh 3 [100], .create [47, 103] 0x1a4 1 2 (fullDemoId 9)])
      [97, 98, 99, 100] ∧
    ((fullRead fullDemoCfg dataFh 0 10).run (runOps fullDemoCfg dataFs
      [.unlink [47, 103], .unlink [47, 104], .write dataFh 3 [100], .create [47, 103] 0x1a4 1 2 (fullDemoId 9)])).1 = .ok (4, [97, 98, 99, 100]) := by
  refine ⟨?_, by decide +kernel⟩
  have h0 : Course fullDemoCfg dataFh.id dataFs [97, 98, 99] dataFs [97, 98, 99] := .refl
  have h1 := h0.op (.unlink [47, 103]) (askedCheck_sound (by decide +kernel)) (roomCheck_sound _ _ (by decide +kernel))
  have h2 := h1.op (.unlink [47, 104]) (askedCheck_sound (by decide +kernel)) (roomCheck_sound _ _ (by decide +kernel))
  have h3 := h2.op (.write dataFh 3 [100]) (askedCheck_sound (by decide +kernel)) (roomCheck_sound _ _ (by decide +kernel))
  exact h3.op (.create [47, 103] 0x1a4 1 2 (fullDemoId 9)) (askedCheck_sound (by decide +kernel)) (roomCheck_sound _ _ (by decide +kernel))

/-! ## Directories -/

/-- Listing a directory through its handle: every entry once, with the number that `stat` shows for the file and the type of the file,
    after `.` and `..`; nothing changes.  If the caller refuses an entry, its error is returned. -/
theorem C79_readdir {cfg : FsCfg} (hs : SameEquiv cfg.same) {fs : FullFs} (hq : Sequential cfg fs) {h : FH} {f : AFile}
    (hr : Refers (viewOf fs) h f) (h4 : f.kind = 4) (fill : Nat → Int) :
    let out := (fullReaddir cfg fill h).run fs
    viewOf out.2 = viewOf fs ∧
    ((∀ i, i < f.entries.length → fill i = 0) → ∃ up rest, out.1 = .ok (0, ⟨[46], 2 ^ 64 - 1 - leValue (h.id.take 8), 0x4000⟩ ::
        ⟨[46, 46], up, 0x4000⟩ :: rest) ∧
      List.Forall₂ (fun (e : DirEntry) (it : DirItem) => it.name = e.name ∧ it.ino = 2 ^ 64 - 1 - leValue (e.id.take 8) ∧
        ∃ g, viewOf fs e.id = some g ∧ it.mode = g.mode &&& 0xf000) f.entries rest) ∧
    (∀ j, j < f.entries.length → (∀ i, i < j → fill i = 0) → fill j ≠ 0 → out.1 = .error (.vfs (fill j).natAbs)) := by
  have hi := (seq_inv hs hq).inv
  obtain ⟨fs', n, hn, hv, hview, hrun⟩ := readdir_run (cfg := cfg) hr (hr.cls.symm.trans h4) fill
  dsimp only
  rw [hrun]
  refine ⟨hview, fun hfill => ?_, fun j hj h0 hne => ?_⟩
  · rw [fill_ok f.entries 0 fun j _ h2 => hfill j (by omega), shownInode_eq]
    refine ⟨_, _, rfl, ?_⟩
    rw [List.forall₂_map_right_iff]
    refine List.forall₂_same.mpr fun e he => ⟨rfl, shownInode_eq _, ?_⟩
    obtain ⟨_, h0, g, hg, hgk⟩ := hi.tree.entry _ f e hr.file he
    refine ⟨g, hg, ?_⟩
    exact kind_mode (by rw [← hgk]; exact kind_good (by rw [hgk]; exact h0)) hgk
  · rw [fill_stop f.entries 0 j hj (fun m _ h2 => h0 m (by omega)) (by rw [Nat.zero_add]; exact hne), Nat.zero_add]
    rfl

/-- Opening a directory by path and listing it: `open` of the directory is exact, and `..` is the directory above. -/
theorem C79_listdir {cfg : FsCfg} (hs : SameEquiv cfg.same) {fs : FullFs} (hq : Sequential cfg fs) (path : Bytes) :
    let out := (fullOpendir cfg path).run fs
    (out.1, viewOf out.2) = specOpendir cfg.same (viewOf fs) path ∧
    ∀ p fh, resolvePath cfg.same (viewOf fs) path true = .ok (some p) → out.1 = .ok (0, some fh) →
      fh = ⟨p.1, 4⟩ ∧ ∃ rest, ((fullReaddir cfg (fun _ => 0) fh).run out.2).1 = .ok (0, ⟨[46], 2 ^ 64 - 1 - leValue (p.1.take 8), 0x4000⟩ ::
        ⟨[46, 46], 2 ^ 64 - 1 - leValue (p.up.1.take 8), 0x4000⟩ :: rest) := by
  have hi := (seq_inv hs hq).inv
  obtain ⟨fs', h1, h2, hview, h3⟩ := opendir_exact (cfg := cfg) hi path
  dsimp only
  rw [h1, h2]
  refine ⟨rfl, fun p fh hp ho => ?_⟩
  have hpar := h3 p hp
  revert ho
  unfold specOpendir onFile
  rw [hp]
  dsimp only
  cases hf : viewOf fs p.1 with
  | none => intro ho; cases ho
  | some f =>
    dsimp only
    split
    · next h4 =>
      intro ho
      injection ho with ho
      injection ho with _ ho
      injection ho with ho
      subst ho
      refine ⟨rfl, ?_⟩
      have hr : Refers (viewOf fs') ⟨p.1, 4⟩ f := ⟨by rw [hview]; exact hf, h4, by rw [h4]; decide⟩
      obtain ⟨fs2, n, hn, _, _, hrun⟩ := readdir_run (cfg := cfg) hr rfl fun _ => 0
      obtain ⟨m, hm, hmp⟩ := hpar
      have hnm : n = m := by
        have : fs'.get p.1 = some n := hn
        rw [hm] at this
        injection this with this
        exact this.symm
      rw [hrun, fill_ok f.entries 0 fun _ _ _ => rfl]
      rw [hnm, hmp, shownInode_eq, shownInode_eq]
      exact ⟨_, rfl⟩
    · intro ho
      cases ho

/-- `/s/../s`, a way to `/d`, and its listing. -/
example : ((fullOpendir fullDemoCfg [47, 115, 47, 46, 46, 47, 115]).run dataFs).1 = .ok (0, some ⟨fullDemoId 1, 4⟩) ∧
    resolvePath fullDemoCfg.same (viewOf dataFs) [47, 115, 47, 46, 46, 47, 115] true = .ok (some (fullDemoId 1, [kRootId])) ∧
    (((fullReaddir fullDemoCfg (fun _ => 0) ⟨fullDemoId 1, 4⟩).run dataFs).1.map fun r => r.2.map fun it => (it.name, it.mode)) =
      .ok [([46], 0x4000), ([46, 46], 0x4000), ([102], 0x8000)] ∧
    ((fullReaddir fullDemoCfg (fun i => if i = 1 then -12 else 0) ⟨kRootId, 4⟩).run dataFs).1 = .error (.vfs 12) := by
  refine ⟨?_, ?_, ?_, ?_⟩ <;> decide +kernel

/-- Directories `/a`, `/b` and `/a/c`, with identifiers that differ at the beginning. -/
def dotdotFs : FullFs :=
  runOps fullDemoCfg (FullFs.fresh fullDemoCfg ⟨1, 0⟩)
    [.mkdir [47, 97] 0x1ed 1 2 (List.replicate 32 1), .mkdir [47, 98] 0x1ed 1 2 (List.replicate 32 2),
     .mkdir [47, 97, 47, 99] 0x1ed 1 2 (List.replicate 32 3)]

/-- C79 does not hold for `..`: a directory that is open while it is renamed into another directory goes on to list the old directory as
    the one above. -/
theorem C79_dotdot_violated :
    ∃ fs, Sequential fullDemoCfg fs ∧
      ((fullOpendir fullDemoCfg [47, 97, 47, 99]).run dotdotFs).1 = .ok (0, some ⟨List.replicate 32 3, 4⟩) ∧
      fs = runOps fullDemoCfg dotdotFs [.opendir [47, 97, 47, 99], .rename [47, 97, 47, 99] [47, 98, 47, 99]] ∧
      resolvePath fullDemoCfg.same (viewOf fs) [47, 98, 47, 99] true = .ok (some (List.replicate 32 3, [List.replicate 32 2, kRootId])) ∧
      ((fullReaddir fullDemoCfg (fun _ => 0) ⟨List.replicate 32 3, 4⟩).run fs).1 =
        .ok (0, [⟨[46], 2 ^ 64 - 1 - leValue (List.replicate 8 3), 0x4000⟩, ⟨[46, 46], 2 ^ 64 - 1 - leValue (List.replicate 8 1), 0x4000⟩]) := by
  refine ⟨_, ?_, ?_, rfl, ?_, ?_⟩
  · exact opsCheck_sound _ _ (opsCheck_sound _ _ (.fresh _) (by decide +kernel)) (by decide +kernel)
  all_goals decide +kernel

/-! ## Closing -/

/-- Closing what `open` gave for a regular file, and what `opendir` gave, hands the object back. -/
theorem C79_release {cfg : FsCfg} (hs : SameEquiv cfg.same) {fs : FullFs} (hq : Sequential cfg fs) (path : Bytes) (trunc : Bool) (fh : FH) :
    (∀ n f, ((fullOpen cfg path trunc).run fs).1 = .ok (n, some fh) → viewOf fs fh.id = some f → f.kind = 8 → fullRelease fh = (0, true)) ∧
    (∀ n, ((fullOpendir cfg path).run fs).1 = .ok (n, some fh) → fullReleasedir fh = (0, true)) := by
  refine ⟨fun n f ho hf h8 => ?_, fun n ho => ?_⟩
  · obtain ⟨h1, h2⟩ := C79_open hs hq path trunc
    obtain ⟨_, g, hg⟩ := h2 n fh ho
    have h3 : viewOf ((fullOpen cfg path trunc).run fs).2 fh.id = some g := hg.file
    have h4 := C79_contents hs hq (.open path trunc) hf
    obtain ⟨f', h5, h6, _⟩ := h4
    have h7 : (((FullOp.open path trunc).prog cfg).run fs).2 = ((fullOpen cfg path trunc).run fs).2 := by
      show (((fullOpen cfg path trunc).bind fun r => .ret r.1).run fs).2 = _
      rw [run_bind]
      generalize (fullOpen cfg path trunc).run fs = o
      obtain ⟨o, fs1⟩ := o
      cases o <;> rfl
    rw [h7, h3] at h5
    injection h5 with h5
    subst h5
    unfold fullRelease
    rw [if_neg (by rw [ne_eq, not_not, ← hg.cls, h6, h8]; rfl)]
  · obtain ⟨fs', h1, _, _, _⟩ := opendir_exact (cfg := cfg) (seq_inv hs hq).inv path
    rw [h1] at ho
    revert ho
    unfold specOpendir onFile
    cases resolvePath cfg.same (viewOf fs) path true with
    | error e => intro ho; cases ho
    | ok r =>
      cases r with
      | none => intro ho; cases ho
      | some p =>
        dsimp only
        cases viewOf fs p.1 with
        | none => intro ho; cases ho
        | some f =>
          dsimp only
          split
          · intro ho
            injection ho with ho
            injection ho with _ ho
            injection ho with ho
            subst ho
            rfl
          · intro ho; cases ho

/-- C79 does not hold for closing anything else: `open` succeeds for a directory, but `release` refuses the handle and keeps the object for ever. -/
theorem C79_release_violated : ∃ fh, ((fullOpen fullDemoCfg [47, 100] false).run dataFs).1 = .ok (0, some fh) ∧ fullRelease fh = (-22, false) :=
  ⟨⟨fullDemoId 1, 4⟩, by decide +kernel, by decide +kernel⟩

end Securefs.Props

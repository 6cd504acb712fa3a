import Verif.Proofs.FullFsExact
import Verif.Spec.FullFsData
/-!
# Contents of files in the full format
-/

namespace Securefs

open Spec

/-! ## Bytes -/

theorem got_read (c : Bytes) (off len : Nat) : Got c off len (Spec.read c off len) := by
  unfold Got Spec.read
  refine ⟨by rw [List.length_take, List.length_drop], fun i hi => ?_⟩
  rw [List.length_take, List.length_drop] at hi
  rw [List.getElem?_take_of_lt (by omega), List.getElem?_drop]

theorem resized_resize (c : Bytes) (n : Nat) : Resized c n (Spec.resize c n) := by
  unfold Resized Spec.resize
  refine ⟨by rw [List.length_append, List.length_take, List.length_replicate]; omega, fun i hi => ?_⟩
  by_cases h : i < c.length
  · rw [if_pos h, List.getElem?_append_left (by rw [List.length_take]; omega), List.getElem?_take_of_lt hi]
  · rw [if_neg h, List.getElem?_append_right (by rw [List.length_take]; omega), List.length_take, List.getElem?_replicate, if_pos (by omega)]

theorem written_write (c : Bytes) (off : Nat) (d : Bytes) : Written c off d (Spec.write c off d) := by
  unfold Written Spec.write
  by_cases hd : d = []
  · rw [if_pos hd, if_pos hd, hd]
    refine ⟨rfl, fun i hi => ?_⟩
    rw [if_neg (by simp only [List.length_nil]; omega), if_pos hi]
  · rw [if_neg hd, if_neg hd]
    have hpos : 0 < d.length := List.length_pos_iff.mpr hd
    have hpad : (c ++ List.replicate (off - c.length) 0).length = max c.length off := by
      rw [List.length_append, List.length_replicate]; omega
    have h1 : ((c ++ List.replicate (off - c.length) 0).take off).length = off := by
      rw [List.length_take, hpad]; omega
    have hlen : ((c ++ List.replicate (off - c.length) 0).take off ++ d ++ c.drop (off + d.length)).length = max c.length (off + d.length) := by
      rw [List.length_append, List.length_append, h1, List.length_drop]; omega
    refine ⟨hlen, fun i hi => ?_⟩
    rw [hlen] at hi
    by_cases ha : i < off
    · rw [if_neg (by omega), List.append_assoc, List.getElem?_append_left (by rw [h1]; exact ha), List.getElem?_take_of_lt ha]
      by_cases hc : i < c.length
      · rw [if_pos hc, List.getElem?_append_left hc]
      · rw [if_neg hc, List.getElem?_append_right (by omega), List.getElem?_replicate, if_pos (by omega)]
    · by_cases hb : i < off + d.length
      · rw [if_pos ⟨by omega, hb⟩, List.append_assoc, List.getElem?_append_right (by rw [h1]; omega), h1,
          List.getElem?_append_left (by omega)]
      · rw [if_neg (by omega), if_pos (by omega), List.getElem?_append_right (by rw [List.length_append, h1]; omega), List.length_append, h1,
          List.getElem?_drop]
        congr 1
        omega

theorem shownInode_eq (id : Bytes) : shownInode id = 2 ^ 64 - 1 - leValue (id.take 8) := by
  unfold shownInode
  congr 1
  generalize id.take 8 = l
  induction l with
  | nil => rfl
  | cons b l ih => rw [List.foldr_cons, ih]; rfl

/-! ## Accesses through a handle -/

theorem Spec.Refers.held {A : AFs} {h : FH} {f : AFile} (hr : Refers A h f) : Held A h f :=
  ⟨hr.file, hr.cls, by rw [← hr.cls]; exact kind_good hr.known⟩

theorem Held.refers {A : AFs} {h : FH} {f : AFile} (hh : Held A h f) : Refers A h f :=
  ⟨hh.obj, hh.kind, by
    rw [hh.kind]
    rcases hh.good with h | h | h <;> rw [h] <;> decide⟩

theorem reg_run {β : Type} {fs : FullFs} {h : FH} {f : AFile} (hr : Refers (viewOf fs) h f) (F : TimeSpec → Inode → Res β × Inode) :
    ∃ n, fs.get h.id = some n ∧ viewFile n = f ∧
      Sec.reg h F fs = if h.cls = 8 then ((F fs.now n).1, fs.set h.id (F fs.now n).2) else (.error (.vfs 1), fs.set h.id n) := by
  obtain ⟨n, hn, hv⟩ := get_of_view hr.file
  refine ⟨n, hn, hv, ?_⟩
  unfold Sec.reg
  rw [file_run hn, castAs_of_kind hr.held.good (by rw [hv]; exact hr.cls)]
  by_cases h8 : h.cls = 8
  · rw [if_pos h8, if_pos (show h.cls = typeRegular from h8)]
  · rw [if_neg h8, if_neg (show ¬ h.cls = typeRegular from h8)]

theorem view_touchMtime_data (cfg : FsCfg) (now : TimeSpec) (n : Inode) (d : Bytes) :
    viewFile { n with attr := n.attr.touchMtime cfg.storeTime now, data := d } = { viewFile n with data := d } := by
  unfold viewFile FileAttr.touchMtime
  split <;> rfl

theorem read_run {cfg : FsCfg} {fs : FullFs} {h : FH} {f : AFile} (hr : Refers (viewOf fs) h f) (off len : Nat) :
    ∃ fs', secRead cfg h off len fs = (if h.cls = 8 then .ok (Spec.read f.data off len) else .error (.vfs 1), fs') ∧ viewOf fs' = viewOf fs := by
  unfold secRead
  obtain ⟨n, hn, hv, hrun⟩ := reg_run hr fun now n => (.ok (Spec.read n.data off len), { n with attr := n.attr.touchAtime cfg.storeTime now })
  rw [hrun]
  by_cases h8 : h.cls = 8
  · rw [if_pos h8, if_pos h8]
    refine ⟨_, by rw [← hv]; rfl, ?_⟩
    exact view_set_same hn (view_touchAtime cfg _ _)
  · rw [if_neg h8, if_neg h8]
    exact ⟨_, rfl, view_set_same hn rfl⟩

theorem change_run {cfg : FsCfg} {fs : FullFs} {h : FH} {f : AFile} (hr : Refers (viewOf fs) h f) (g : Bytes → Bytes) :
    ∃ fs', Sec.reg h (fun now n => (.ok (), { n with attr := n.attr.touchMtime cfg.storeTime now, data := g n.data })) fs =
        (if h.cls = 8 then .ok () else .error (.vfs 1), fs') ∧
      viewOf fs' = if h.cls = 8 then alter (viewOf fs) h.id fun f => { f with data := g f.data } else viewOf fs := by
  obtain ⟨n, hn, hv, hrun⟩ := reg_run hr fun now n =>
    ((.ok () : Res Unit), { n with attr := n.attr.touchMtime cfg.storeTime now, data := g n.data })
  rw [hrun]
  by_cases h8 : h.cls = 8
  · rw [if_pos h8, if_pos h8, if_pos h8]
    refine ⟨_, rfl, ?_⟩
    rw [view_set hn, view_touchMtime_data, alter_eq hr.file, hv]
    subst hv
    rfl
  · rw [if_neg h8, if_neg h8, if_neg h8]
    exact ⟨_, rfl, view_set_same hn rfl⟩

theorem write_run {cfg : FsCfg} {fs : FullFs} {h : FH} {f : AFile} (hr : Refers (viewOf fs) h f) (off : Nat) (d : Bytes) :
    ∃ fs', secWrite cfg h off d fs = (if h.cls = 8 then .ok () else .error (.vfs 1), fs') ∧
      viewOf fs' = if h.cls = 8 then alter (viewOf fs) h.id fun f => { f with data := Spec.write f.data off d } else viewOf fs :=
  change_run hr fun c => Spec.write c off d

theorem truncate_run {cfg : FsCfg} {fs : FullFs} {h : FH} {f : AFile} (hr : Refers (viewOf fs) h f) (size : Nat) :
    ∃ fs', secTruncate cfg h size fs = (if h.cls = 8 then .ok () else .error (.vfs 1), fs') ∧
      viewOf fs' = if h.cls = 8 then alter (viewOf fs) h.id fun f => { f with data := Spec.resize f.data size } else viewOf fs :=
  change_run hr fun c => Spec.resize c size

theorem stat_run {cfg : FsCfg} {ov : OwnerOverride} {fs : FullFs} {h : FH} {f : AFile} (hr : Refers (viewOf fs) h f) :
    ∃ fs' st n, secStat cfg ov h fs = (.ok st, fs') ∧ viewOf fs' = viewOf fs ∧ fs'.now = fs.now ∧ StatOf ov h.id f st ∧
      fs.get h.id = some n ∧ st.times = if cfg.storeTime then some (n.attr.atime, n.attr.mtime, n.attr.ctime, n.attr.btime) else none := by
  obtain ⟨n, hn, hv⟩ := get_of_view hr.file
  unfold secStat
  rw [file_run hn]
  refine ⟨_, _, n, rfl, view_set_same hn rfl, rfl, ⟨?_, ?_, ?_, ?_, ?_, shownInode_eq _⟩, hn, rfl⟩
  · rw [← hv]; rfl
  · rw [← hv]; cases ov.uid <;> rfl
  · rw [← hv]; cases ov.gid <;> rfl
  · rw [← hv]; rfl
  · intro h4
    dsimp only
    rw [if_neg (show ¬ h.cls = typeDirectory by rw [← hr.cls]; exact h4), ← hv]
    rfl

/-! ## Opening by path -/

theorem open_exact {cfg : FsCfg} {fs : FullFs} (hi : TreeInv fs) (path : Bytes) (trunc : Bool) :
    ∃ fs', (fullOpen cfg path trunc).run fs = ((specOpen cfg.same (viewOf fs) path trunc).1, fs') ∧
      viewOf fs' = (specOpen cfg.same (viewOf fs) path trunc).2 := by
  obtain ⟨fs1, _, hv1, hcase⟩ := openAll_cases (cfg := cfg) hi path true
  unfold specOpen onFile fullOpen
  rcases hcase with ⟨e, hres, hrun⟩ | ⟨hres, hrun⟩ | ⟨p, h, a, hres, hrun, hid, hh⟩
  · rw [hres, run_bind_error hrun]; exact ⟨fs1, rfl, hv1⟩
  · rw [hres, run_bind_ok hrun]; exact ⟨fs1, rfl, hv1⟩
  · have ha : viewOf fs p.1 = some a := by rw [← hid]; exact hh.obj
    rw [hres, run_bind_ok hrun]
    dsimp only
    rw [ha]
    dsimp only
    cases trunc with
    | false =>
      rw [if_neg (by decide), if_neg (by decide)]
      refine ⟨fs1, ?_, hv1⟩
      rw [hh.kind, ← hid]
      rfl
    | true =>
      rw [if_pos rfl, if_pos rfl]
      have hr1 : Refers (viewOf fs1) h a := by rw [hv1]; exact hh.refers
      obtain ⟨fs2, hs2, hv2⟩ := truncate_run (cfg := cfg) hr1 0
      rw [hv1] at hv2
      rw [hh.kind]
      by_cases h8 : h.cls = 8
      · rw [if_pos h8] at hs2 hv2
        rw [if_pos h8, run_one_ok hs2]
        refine ⟨fs2, ?_, ?_⟩
        · rw [← hid]
          show (Except.ok (0, some h), fs2) = _
          rw [← h8]
        · rw [hv2, hid]
          dsimp only
          congr 1
          funext f
          rw [show Spec.resize f.data 0 = [] by unfold Spec.resize; simp]
      · rw [if_neg h8] at hs2 hv2
        rw [if_neg h8, run_one_error hs2]
        exact ⟨fs2, rfl, hv2⟩

theorem truncate_exact {cfg : FsCfg} {fs : FullFs} (hi : TreeInv fs) (path : Bytes) (size : Nat) :
    ∃ fs', (fullTruncate cfg path size).run fs = ((specTruncate cfg.same (viewOf fs) path size).1, fs') ∧
      viewOf fs' = (specTruncate cfg.same (viewOf fs) path size).2 := by
  obtain ⟨fs1, _, hv1, hcase⟩ := openAll_cases (cfg := cfg) hi path true
  unfold specTruncate onFile fullTruncate
  rcases hcase with ⟨e, hres, hrun⟩ | ⟨hres, hrun⟩ | ⟨p, h, a, hres, hrun, hid, hh⟩
  · rw [hres, run_bind_error hrun]; exact ⟨fs1, rfl, hv1⟩
  · rw [hres, run_bind_ok hrun]; exact ⟨fs1, rfl, hv1⟩
  · have ha : viewOf fs p.1 = some a := by rw [← hid]; exact hh.obj
    rw [hres, run_bind_ok hrun]
    dsimp only
    rw [ha]
    dsimp only
    have hr1 : Refers (viewOf fs1) h a := by rw [hv1]; exact hh.refers
    obtain ⟨fs2, hs2, hv2⟩ := truncate_run (cfg := cfg) hr1 size
    rw [hv1] at hv2
    rw [hh.kind]
    by_cases h8 : h.cls = 8
    · rw [if_pos h8] at hs2 hv2
      rw [if_pos h8, run_one_ok hs2]
      exact ⟨fs2, rfl, by rw [hv2, hid]⟩
    · rw [if_neg h8] at hs2 hv2
      rw [if_neg h8, run_one_error hs2]
      exact ⟨fs2, rfl, hv2⟩

theorem getattr_exact {cfg : FsCfg} (ov : OwnerOverride) {fs : FullFs} (hi : TreeInv fs) (path : Bytes) :
    ∃ fs', ((fullGetattr cfg ov path).run fs).2 = fs' ∧ viewOf fs' = viewOf fs ∧
      match resolvePath cfg.same (viewOf fs) path false with
      | .error e => ((fullGetattr cfg ov path).run fs).1 = .error e
      | .ok none => ((fullGetattr cfg ov path).run fs).1 = .ok (-2, none)
      | .ok (some p) => ∃ f st, viewOf fs p.1 = some f ∧ ((fullGetattr cfg ov path).run fs).1 = .ok (0, some st) ∧ StatOf ov p.1 f st := by
  obtain ⟨fs1, _, hv1, hcase⟩ := openAll_cases (cfg := cfg) hi path false
  unfold fullGetattr
  rcases hcase with ⟨e, hres, hrun⟩ | ⟨hres, hrun⟩ | ⟨p, h, a, hres, hrun, hid, hh⟩
  · rw [hres, run_bind_error hrun]; exact ⟨fs1, rfl, hv1, rfl⟩
  · rw [hres, run_bind_ok hrun]; exact ⟨fs1, rfl, hv1, rfl⟩
  · rw [hres, run_bind_ok hrun]
    dsimp only
    have hr1 : Refers (viewOf fs1) h a := by rw [hv1]; exact hh.refers
    obtain ⟨fs2, st, n, hs2, hv2, _, hst, _⟩ := stat_run (cfg := cfg) (ov := ov) hr1
    rw [run_one_ok hs2]
    refine ⟨fs2, rfl, hv2.trans hv1, a, st, ?_, rfl, ?_⟩
    · rw [← hid]; exact hh.obj
    · rw [← hid]; exact hst

/-! ## What stays -/

/-- A file is there with this kind and these contents. -/
def Has (x : Bytes) (k : Nat) (d : Bytes) (fs : FullFs) : Prop := ∃ f, viewOf fs x = some f ∧ f.kind = k ∧ f.data = d

/-- From `I` a program ends in `J`, whether it returns or throws. -/
def Ends (I : FullFs → Prop) {α : Type} (p : Prog α) (J : FullFs → Prop) : Prop := ∀ fs, I fs → J (p.run fs).2

/-- The same for a section. -/
def EndsS (I : FullFs → Prop) {α : Type} (f : Sec α) (J : FullFs → Prop) : Prop := ∀ fs, I fs → J (f fs).2

theorem EndsS.one {I J : FullFs → Prop} {α : Type} {f : Sec α} (h : EndsS I f J) : Ends I (Prog.one f) J := fun fs hI => by
  rw [run_one]; exact h fs hI

theorem Ends.bind {I J : FullFs → Prop} {α β : Type} {p : Prog α} {g : α → Prog β} (hp : Ends I p I) (hg : ∀ a, Ends I (g a) J)
    (hIJ : ∀ fs, I fs → J fs) : Ends I (p.bind g) J := by
  intro fs hI
  have := hp fs hI
  rw [run_bind]
  revert this
  generalize p.run fs = out
  obtain ⟨o, fs1⟩ := out
  intro h1
  cases o with
  | error e => exact hIJ _ h1
  | ok a => exact hg a fs1 h1

theorem Ends.bind' {I : FullFs → Prop} {α β : Type} {p : Prog α} {g : α → Prog β} (hp : Ends I p I) (hg : ∀ a, Ends I (g a) I) :
    Ends I (p.bind g) I := hp.bind hg fun _ h => h

theorem EndsS.bind {I : FullFs → Prop} {α β : Type} {p : Sec α} {g : α → Sec β} (hp : EndsS I p I) (hg : ∀ a, EndsS I (g a) I) :
    EndsS I (Sec.bind p g) I := by
  intro fs hI
  have := hp fs hI
  unfold Sec.bind
  revert this
  generalize p fs = out
  obtain ⟨o, fs1⟩ := out
  intro h1
  cases o with
  | error e => exact h1
  | ok a => exact hg a fs1 h1

theorem ends_ret {I J : FullFs → Prop} {α : Type} (a : α) (h : ∀ fs, I fs → J fs) : Ends I (Prog.ret a) J := fun fs hI => h fs hI

theorem ends_throw {I J : FullFs → Prop} {α : Type} (e : Err) (h : ∀ fs, I fs → J fs) : Ends I (Prog.throw e : Prog α) J := fun fs hI => h fs hI

theorem ends_ret' {I : FullFs → Prop} {α : Type} (a : α) : Ends I (Prog.ret a) I := fun _ hI => hI

theorem has_file {x : Bytes} {k : Nat} {d : Bytes} {β : Type} (id : Bytes) {f : TimeSpec → Inode → Res β × Inode}
    (hf : id ≠ x ∨ ∀ now n, (viewFile (f now n).2).kind = (viewFile n).kind ∧ (f now n).2.data = n.data) : EndsS (Has x k d) (Sec.file id f) (Has x k d) := by
  rintro fs ⟨a, ha, hk, hd⟩
  unfold Sec.file
  cases hg : fs.get id with
  | none => exact ⟨a, ha, hk, hd⟩
  | some n =>
    dsimp only
    unfold Has
    rw [view_set hg]
    dsimp only
    by_cases hx : x = id
    · rw [if_pos hx]
      rcases hf with hf | hf
      · exact absurd hx.symm hf
      · obtain ⟨h1, h2⟩ := hf fs.now n
        rw [hx, view_of_get hg] at ha
        injection ha with ha
        refine ⟨_, rfl, ?_, ?_⟩
        · rw [h1, ha]; exact hk
        · rw [← hd, ← ha]; exact h2
    · rw [if_neg hx]; exact ⟨a, ha, hk, hd⟩

theorem has_dir {x : Bytes} {k : Nat} {d : Bytes} {β : Type} (h : FH) {f : TimeSpec → Inode → Res β × Inode}
    (hf : ∀ now n, (f now n).2.attr.mode = n.attr.mode ∧ (f now n).2.data = n.data) : EndsS (Has x k d) (Sec.dir h f) (Has x k d) := by
  refine has_file h.id (.inr fun now n => ?_)
  cases castAs h typeDirectory n with
  | error e => exact ⟨rfl, rfl⟩
  | ok _ => exact ⟨kind_of_mode (hf now n).1, (hf now n).2⟩

theorem has_reg {x : Bytes} {k : Nat} {d : Bytes} {β : Type} (h : FH) {f : TimeSpec → Inode → Res β × Inode}
    (hf : ∀ now n, (f now n).2.attr.mode = n.attr.mode ∧ (f now n).2.data = n.data) : EndsS (Has x k d) (Sec.reg h f) (Has x k d) := by
  refine has_file h.id (.inr fun now n => ?_)
  cases castAs h typeRegular n with
  | error e => exact ⟨rfl, rfl⟩
  | ok _ => exact ⟨kind_of_mode (hf now n).1, (hf now n).2⟩

variable {x : Bytes} {k : Nat} {d : Bytes}

theorem has_openAs (id : Bytes) (type : Nat) : EndsS (Has x k d) (secOpenAs id type) (Has x k d) := by
  intro fs h
  have : (secOpenAs id type fs).2 = fs := by
    unfold secOpenAs
    split
    · split <;> rfl
    · cases fs.get id with
      | none => rfl
      | some _ => dsimp only; split <;> rfl
  rw [this]; exact h

theorem has_setParent (h : FH) (id : Bytes) : EndsS (Has x k d) (secSetParent h id) (Has x k d) := has_file _ (.inr fun _ _ => ⟨rfl, rfl⟩)

theorem has_add (cfg : FsCfg) (h : FH) (e : DirEntry) : EndsS (Has x k d) (secAdd cfg h e) (Has x k d) := by
  refine has_dir h fun now n => ?_
  unfold Inode.addEntry
  dsimp only
  split
  · exact ⟨touchMtime_mode _ _ _, rfl⟩
  · split <;> exact ⟨touchMtime_mode _ _ _, rfl⟩

theorem has_remove (cfg : FsCfg) (h : FH) (name : Bytes) : EndsS (Has x k d) (secRemove cfg h name) (Has x k d) := by
  refine has_dir h fun now n => ?_
  unfold Inode.removeEntry
  dsimp only
  split <;> exact ⟨touchMtime_mode _ _ _, rfl⟩

theorem has_unlink (h : FH) : EndsS (Has x k d) (secUnlink h) (Has x k d) := has_file _ (.inr fun _ _ => ⟨rfl, rfl⟩)

theorem has_unlinkEmpty (cfg : FsCfg) (h : FH) : EndsS (Has x k d) (secUnlinkEmpty cfg h) (Has x k d) := by
  refine has_dir h fun now n => ?_
  unfold Inode.unlinkEmpty
  dsimp only
  split <;> exact ⟨touchAtime_mode _ _ _, rfl⟩

theorem has_linkGet (cfg : FsCfg) (h : FH) : EndsS (Has x k d) (secLinkGet cfg h) (Has x k d) := by
  refine has_file h.id (.inr fun now n => ?_)
  cases castAs h typeSymlink n with
  | error e => exact ⟨rfl, rfl⟩
  | ok _ => exact ⟨kind_of_mode (touchAtime_mode _ _ _), rfl⟩

theorem has_attr (h : FH) {f : TimeSpec → FileAttr → FileAttr} (hf : ∀ now a, (f now a).mode &&& 0xf000 = a.mode &&& 0xf000) :
    EndsS (Has x k d) (secAttr h f) (Has x k d) := by
  refine has_file h.id (.inr fun now n => ⟨?_, rfl⟩)
  unfold AFile.kind viewFile
  dsimp only
  rw [hf]

theorem has_create (cfg : FsCfg) (id : Bytes) (type : Nat) (mode uid gid : UInt32) :
    EndsS (Has x k d) (secCreate cfg id type mode uid gid) (Has x k d) := by
  rintro fs ⟨f, hf, h1⟩
  unfold secCreate
  split
  · exact ⟨f, hf, h1⟩
  · cases hg : fs.get id with
    | some n => exact ⟨f, hf, h1⟩
    | none =>
      dsimp only
      refine ⟨f, ?_, h1⟩
      obtain ⟨n, hn, hv⟩ := get_of_view hf
      unfold viewOf
      have : ∀ l : List (Bytes × Inode), FullFs.get { fs with nodes := fs.nodes ++ l } x = some n := by
        intro l
        unfold FullFs.get at hn ⊢
        dsimp only
        rw [List.lookup_append, hn]
        rfl
      rw [this]
      show some (viewFile n) = _
      rw [hv]

theorem has_link (cfg : FsCfg) (base : FH) (last : Bytes) (f : FH) : EndsS (Has x k d) (secLink cfg base last f) (Has x k d) := by
  unfold secLink
  refine EndsS.bind (has_file _ (.inr fun _ _ => ⟨rfl, rfl⟩)) fun type => EndsS.bind (has_add _ _ _) fun added => ?_
  cases added with
  | true =>
    rw [if_pos rfl]
    exact has_file _ (.inr fun _ _ => ⟨kind_of_mode (setNlink_mode _ _ _ _), rfl⟩)
  | false => exact fun _ h => h

theorem has_rename (cfg : FsCfg) (bf : FH) (lf : Bytes) (bt : FH) (lt : Bytes) : EndsS (Has x k d) (secRename cfg bf lf bt lt) (Has x k d) := by
  unfold secRename
  have hp : ∀ r : RenameOut, EndsS (Has x k d) (Sec.pure r) (Has x k d) := fun _ _ h => h
  refine EndsS.bind (has_remove _ _ _) fun r => ?_
  cases r with
  | none => exact hp _
  | some e =>
    refine EndsS.bind (has_remove _ _ _) fun r2 => ?_
    cases r2 with
    | none => exact EndsS.bind (has_add _ _ _) fun _ => hp _
    | some e2 =>
      dsimp only
      split
      · exact EndsS.bind (has_add _ _ _) fun _ => EndsS.bind (has_add _ _ _) fun _ => hp _
      · exact EndsS.bind (has_add _ _ _) fun _ => hp _

/-- The tree, and a file. -/
def TH (x : Bytes) (k : Nat) (d : Bytes) (fs : FullFs) : Prop := TreeInv fs ∧ Has x k d fs

theorem TH.has : ∀ fs, TH x k d fs → Has x k d fs := fun _ h => h.2

theorem th_openAll (cfg : FsCfg) (path : Bytes) (rl : Bool) : Ends (TH x k d) (openAll cfg path rl) (TH x k d) := by
  rintro fs ⟨hi, hx⟩
  obtain ⟨fs1, h1, hv1, hcase⟩ := openAll_cases (cfg := cfg) hi path rl
  have : ((openAll cfg path rl).run fs).2 = fs1 := by
    rcases hcase with ⟨e, _, hrun⟩ | ⟨_, hrun⟩ | ⟨p, h, a, _, hrun, _, _⟩ <;> rw [hrun]
  rw [this]
  exact ⟨h1, by unfold Has; rw [hv1]; exact hx⟩

theorem th_openBase (cfg : FsCfg) (path : Bytes) : Ends (TH x k d) (openBase cfg path) (TH x k d) := by
  rintro fs ⟨hi, hx⟩
  obtain ⟨fs1, h1, hv1, hcase⟩ := openBase_cases (cfg := cfg) hi path
  have : ((openBase cfg path).run fs).2 = fs1 := by
    rcases hcase with ⟨e, _, hrun⟩ | ⟨p, last, h, f, _, hrun, _, _⟩ <;> rw [hrun]
  rw [this]
  exact ⟨h1, by unfold Has; rw [hv1]; exact hx⟩

theorem Ends.weak {I I' J : FullFs → Prop} {α : Type} {p : Prog α} (h : Ends I p J) (hI : ∀ fs, I' fs → I fs) : Ends I' p J :=
  fun fs h' => h fs (hI fs h')

theorem has_createFile (cfg : FsCfg) (path : Bytes) (mode : UInt32) (type : Nat) (uid gid : UInt32) (newId : Bytes) :
    Ends (TH x k d) (createFile cfg path mode type uid gid newId) (Has x k d) := by
  unfold createFile
  refine Ends.bind (th_openBase cfg path) (fun r => ?_) TH.has
  refine Ends.weak (I := Has x k d) ?_ TH.has
  refine Ends.bind' (has_create _ _ _ _ _ _).one fun h => Ends.bind' (has_add _ _ _).one fun ok => ?_
  split
  · exact Ends.bind' (has_setParent _ _).one fun _ => ends_ret' _
  · exact Ends.bind' (has_unlink _).one fun _ => ends_throw _ fun _ h => h

theorem has_withAttr (cfg : FsCfg) (path : Bytes) (rl : Bool) {f : TimeSpec → FileAttr → FileAttr}
    (hf : ∀ now a, (f now a).mode &&& 0xf000 = a.mode &&& 0xf000) : Ends (TH x k d) (withAttr cfg path rl f) (Has x k d) := by
  unfold withAttr
  refine Ends.bind (th_openAll cfg path rl) (fun r => Ends.weak (I := Has x k d) ?_ TH.has) TH.has
  cases r with
  | none => exact ends_ret' _
  | some h => exact Ends.bind' (has_attr h hf).one fun _ => ends_ret' _

theorem createFile_newId {cfg : FsCfg} {path : Bytes} {mode : UInt32} {type : Nat} {uid gid : UInt32} {newId : Bytes} {fs fs' : FullFs} {h : FH}
    (hi : TreeInv fs) (hx : Has x k d fs) (hrun : (createFile cfg path mode type uid gid newId).run fs = (.ok h, fs')) : h.id ≠ x := by
  unfold createFile at hrun
  obtain ⟨fs1, h1, hv1, hcase⟩ := openBase_cases (cfg := cfg) hi path
  have hx1 : Has x k d fs1 := by unfold Has; rw [hv1]; exact hx
  rcases hcase with ⟨e, _, hb⟩ | ⟨p, last, b, f, _, hb, _, _⟩
  · rw [run_bind_error hb] at hrun; cases hrun
  · rw [run_bind_ok hb] at hrun
    dsimp only at hrun
    cases hc : secCreate cfg newId type mode uid gid fs1 with
    | mk o fs2 =>
      cases o with
      | error e => rw [run_one_error hc] at hrun; cases hrun
      | ok h' =>
        rw [run_one_ok hc] at hrun
        have hid : h'.id ≠ x := by
          unfold secCreate at hc
          split at hc
          · cases hc
          · cases hg : fs1.get newId with
            | some n => rw [hg] at hc; cases hc
            | none =>
              rw [hg] at hc
              injection hc with h2 _
              injection h2 with h2
              rw [← h2]
              rintro rfl
              obtain ⟨a, ha, _⟩ := hx1
              obtain ⟨n, hn, _⟩ := get_of_view ha
              rw [hg] at hn
              cases hn
        cases ha : secAdd cfg b ⟨last, h'.id, type⟩ fs2 with
        | mk o fs3 =>
          cases o with
          | error e => rw [run_one_error ha] at hrun; cases hrun
          | ok ok =>
            rw [run_one_ok ha] at hrun
            cases ok with
            | true =>
              rw [if_pos rfl] at hrun
              cases hp : secSetParent h' b.id fs3 with
              | mk o fs4 =>
                cases o with
                | error e => rw [run_one_error hp] at hrun; cases hrun
                | ok _ =>
                  rw [run_one_ok hp] at hrun
                  injection hrun with h2 _
                  injection h2 with h2
                  rw [← h2]
                  exact hid
            | false =>
              rw [if_neg (by decide)] at hrun
              cases hp : secUnlink h' fs3 with
              | mk o fs4 =>
                cases o with
                | error e => rw [run_one_error hp] at hrun; cases hrun
                | ok _ => rw [run_one_ok hp] at hrun; cases hrun

theorem has_change {cfg : FsCfg} {h : FH} {g : Bytes → Bytes} {fs : FullFs} {c : Bytes} (hx : Has x 8 c fs) :
    Has x 8 (if h = ⟨x, 8⟩ then g c else c)
      (Sec.reg h (fun now n => ((.ok () : Res Unit), { n with attr := n.attr.touchMtime cfg.storeTime now, data := g n.data })) fs).2 := by
  obtain ⟨f, hf, hk, hd⟩ := hx
  by_cases he : h = ⟨x, 8⟩
  · rw [if_pos he]
    have hr : Refers (viewOf fs) h f := ⟨by rw [he]; exact hf, by rw [he]; exact hk, by rw [hk]; decide⟩
    obtain ⟨fs', h1, h2⟩ := change_run (cfg := cfg) hr g
    rw [h1]
    refine ⟨{ f with data := g f.data }, ?_, ?_, ?_⟩
    · rw [h2, if_pos (by rw [he]), alter_eq hr.file, he]
      exact updA_self _ _ _
    · exact hk
    · rw [hd]
  · rw [if_neg he]
    by_cases hid : h.id = x
    · have hcls : h.cls ≠ 8 := by
        rintro hc
        apply he
        cases h
        simp only at hid hc
        rw [hid, hc]
      obtain ⟨n, hn, hv⟩ := get_of_view hf
      unfold Sec.reg
      rw [hid, file_run hn]
      have : ∃ e, castAs h typeRegular n = .error e := by
        unfold castAs
        split
        · exact ⟨_, rfl⟩
        · rw [if_pos (show h.cls ≠ typeRegular from hcls)]; exact ⟨_, rfl⟩
      obtain ⟨e, he⟩ := this
      rw [he]
      refine ⟨f, ?_, hk, hd⟩
      dsimp only
      rw [view_set_same hn rfl]
      exact hf
    · exact has_file h.id (.inl hid) fs ⟨f, hf, hk, hd⟩

/-- The contents of a regular file after an operation. -/
theorem contents_op {cfg : FsCfg} {fs : FullFs} (hi : TreeInv fs) (op : FullOp) {c : Bytes} (hx : Has x 8 c fs) :
    Has x 8 (effectOn cfg.same (viewOf fs) x op c) ((op.prog cfg).run fs).2 := by
  have hth : TH x 8 c fs := ⟨hi, hx⟩
  have path : ∀ {p : Bytes} {n : Nat}, Has x 8 (if leadsTo cfg.same (viewOf fs) p x then Spec.resize c n else c)
      (viewOf fs |> fun _ => ((fullTruncate cfg p n).run fs).2) := by
    intro p n
    obtain ⟨fs', h1, h2⟩ := truncate_exact (cfg := cfg) hi p n
    dsimp only
    rw [h1]
    unfold Has
    rw [h2]
    obtain ⟨f, hf, hk, hd⟩ := hx
    unfold specTruncate onFile leadsTo
    cases hres : resolvePath cfg.same (viewOf fs) p true with
    | error e => exact ⟨f, hf, hk, hd⟩
    | ok r =>
      cases r with
      | none => exact ⟨f, hf, hk, hd⟩
      | some q =>
        dsimp only
        by_cases hq : q.1 = x
        · rw [if_pos (by simpa using hq), hq, hf]
          dsimp only
          rw [if_pos hk, alter_eq hf]
          exact ⟨_, updA_self _ _ _, hk, by rw [hd]⟩
        · rw [if_neg (by simpa using hq)]
          cases hA : viewOf fs q.1 with
          | none => exact ⟨f, hf, hk, hd⟩
          | some g =>
            dsimp only
            split
            · rw [alter_eq hA]
              exact ⟨f, (updA_ne _ _ (Ne.symm hq)).trans hf, hk, hd⟩
            · exact ⟨f, hf, hk, hd⟩
  cases op with
  | create p m u g i => 
    have hc : Ends (TH x 8 c) (createFile cfg p m typeRegular u g i) (TH x 8 c) := fun fs hI =>
      ⟨(hoare_createFile cfg p m typeRegular (.inr (.inl rfl)) u g i fs hI.1).1, has_createFile cfg p m typeRegular u g i fs hI⟩
    exact Ends.bind hc (fun _ => ends_ret _ TH.has) TH.has fs hth
  | mkdir p m u g i => 
    have hc : Ends (TH x 8 c) (createFile cfg p m typeDirectory u g i) (TH x 8 c) := fun fs hI =>
      ⟨(hoare_createFile cfg p m typeDirectory (.inl rfl) u g i fs hI.1).1, has_createFile cfg p m typeDirectory u g i fs hI⟩
    exact Ends.bind hc (fun _ => ends_ret _ TH.has) TH.has fs hth
  | symlink t p u g i =>
    show Has x 8 c ((vsymlink cfg t p u g i).run fs).2
    have h1 := has_createFile (x := x) (k := 8) (d := c) cfg p 0x1a4 typeSymlink u g i fs hth
    unfold vsymlink
    cases hc : (createFile cfg p 0x1a4 typeSymlink u g i).run fs with
    | mk o fs1 =>
      rw [hc] at h1
      cases o with
      | error e => rw [run_bind_error hc]; exact h1
      | ok h =>
        have hne := createFile_newId hi hx hc
        rw [run_bind_ok hc]
        exact Ends.bind' (EndsS.one (has_file h.id (.inl hne))) (fun _ => ends_ret' _) fs1 h1
  | unlink p =>
    refine Ends.bind (th_openBase cfg p) (fun r => Ends.weak (I := Has x 8 c) ?_ TH.has) TH.has fs hth
    refine Ends.bind' (has_remove _ _ _).one fun e => ?_
    cases e with
    | none => exact ends_ret' _
    | some e => exact Ends.bind' (has_openAs _ _).one fun _ => Ends.bind' (has_unlink _).one fun _ => ends_ret' _
  | rmdir p =>
    refine Ends.bind (th_openBase cfg p) (fun r => Ends.weak (I := Has x 8 c) ?_ TH.has) TH.has fs hth
    refine Ends.bind' (has_remove _ _ _).one fun e => ?_
    cases e with
    | none => exact ends_ret' _
    | some e => exact Ends.bind' (has_openAs _ _).one fun _ => Ends.bind' (has_unlinkEmpty _ _).one fun _ => ends_ret' _
  | link s t =>
    refine Ends.bind (th_openAll cfg s true) (fun r => ?_) TH.has fs hth
    cases r with
    | none => exact ends_ret _ TH.has
    | some h =>
      refine Ends.bind (th_openBase cfg t) (fun r => Ends.weak (I := Has x 8 c) ?_ TH.has) TH.has
      exact Ends.bind' (has_link _ _ _ _).one fun _ => ends_ret' _
  | rename a b =>
    refine Ends.bind (th_openBase cfg a) (fun r => ?_) TH.has fs hth
    refine Ends.bind (th_openBase cfg b) (fun r2 => Ends.weak (I := Has x 8 c) ?_ TH.has) TH.has
    refine Ends.bind' (has_rename _ _ _ _ _).one fun o => ?_
    cases o with
    | missing => exact ends_ret' _
    | done => exact ends_ret' _
    | replaced e => exact Ends.bind' (has_openAs _ _).one fun _ => Ends.bind' (has_unlink _).one fun _ => ends_ret' _
  | chmod p m =>
    refine has_withAttr cfg p false (fun now a => ?_) fs hth
    unfold FileAttr.chmod FileAttr.setMode
    split
    · rfl
    · dsimp only
      rw [touchCtime_mode]
      exact chmod_type _ _
  | chown p u g => exact has_withAttr cfg p false (fun now a => by rw [chown_mode]) fs hth
  | utimens p g ts =>
    refine has_withAttr cfg p false (fun now a => ?_) fs hth
    unfold FileAttr.utimens
    split
    · cases ts with
      | none => rfl
      | some x => rfl
    · rfl
  | getattr p =>
    refine Ends.bind (Ends.bind' (th_openAll cfg p false) fun r => ?_) (fun _ => ends_ret _ TH.has) TH.has fs hth
    cases r with
    | none => exact ends_ret' _
    | some h =>
      refine Ends.bind' ?_ fun _ => ends_ret' _
      intro fs hI
      rw [run_one]
      exact ⟨(hoare_stat cfg _ h fs hI.1).1, has_file h.id (.inr fun _ _ => ⟨rfl, rfl⟩) fs hI.2⟩
  | «open» p t =>
    have hrun : (((FullOp.open p t).prog cfg).run fs).2 = ((fullOpen cfg p t).run fs).2 := by
      show (((fullOpen cfg p t).bind fun r => .ret r.1).run fs).2 = _
      rw [run_bind]
      generalize (fullOpen cfg p t).run fs = o
      obtain ⟨o, fs1⟩ := o
      cases o <;> rfl
    rw [hrun]
    obtain ⟨fs', h1, h2⟩ := open_exact (cfg := cfg) hi p t
    rw [h1]
    unfold Has
    dsimp only
    rw [h2]
    obtain ⟨f, hf, hk, hd⟩ := hx
    cases t with
    | false =>
      show ∃ f : AFile, _ ∧ _ ∧ f.data = c
      unfold specOpen onFile
      cases hres : resolvePath cfg.same (viewOf fs) p true with
      | error e => exact ⟨f, hf, hk, hd⟩
      | ok r =>
        cases r with
        | none => exact ⟨f, hf, hk, hd⟩
        | some q =>
          dsimp only
          cases hA : viewOf fs q.1 with
          | none => exact ⟨f, hf, hk, hd⟩
          | some g => exact ⟨f, hf, hk, hd⟩
    | true =>
      show ∃ f : AFile, _ ∧ _ ∧ f.data = if leadsTo cfg.same (viewOf fs) p x then [] else c
      unfold specOpen onFile leadsTo
      cases hres : resolvePath cfg.same (viewOf fs) p true with
      | error e => exact ⟨f, hf, hk, hd⟩
      | ok r =>
        cases r with
        | none => exact ⟨f, hf, hk, hd⟩
        | some q =>
          dsimp only
          by_cases hq : q.1 = x
          · rw [if_pos (show (q.1 == x) = true by simpa using hq), hq, hf]
            dsimp only
            rw [if_pos rfl, if_pos hk, alter_eq hf]
            exact ⟨_, updA_self _ _ _, hk, rfl⟩
          · rw [if_neg (show ¬ (q.1 == x) = true by simpa using hq)]
            cases hA : viewOf fs q.1 with
            | none => exact ⟨f, hf, hk, hd⟩
            | some g =>
              dsimp only
              rw [if_pos rfl]
              split
              · rw [alter_eq hA]
                exact ⟨f, (updA_ne _ _ (Ne.symm hq)).trans hf, hk, hd⟩
              · exact ⟨f, hf, hk, hd⟩
  | readlink p n =>
    refine Ends.bind (I := TH x 8 c) ?_ (fun _ => ends_ret _ TH.has) TH.has fs hth
    unfold fullReadlink
    split
    · exact ends_ret' _
    · split
      · exact ends_ret' _
      · refine Ends.bind' (th_openAll cfg p false) fun r => ?_
        cases r with
        | none => exact ends_ret' _
        | some h =>
          refine Ends.bind' ?_ fun _ => ends_ret' _
          intro fs hI
          rw [run_one]
          exact ⟨(hoare_linkGet cfg h fs hI.1).1, has_linkGet cfg h fs hI.2⟩
  | opendir p =>
    refine Ends.bind (Ends.bind' (th_openAll cfg p true) fun r => ?_) (fun _ => ends_ret _ TH.has) TH.has fs hth
    cases r with
    | none => exact ends_ret' _
    | some h => dsimp only; split <;> exact ends_ret' _
  | truncate p n => exact path
  | read h off len =>
    exact Ends.bind' (Ends.bind' (has_reg h fun _ _ => ⟨touchAtime_mode _ _ _, rfl⟩).one fun _ => ends_ret' _) (fun _ => ends_ret' _) fs hx
  | write h off b =>
    have := has_change (cfg := cfg) (h := h) (g := fun c => Spec.write c off b) hx
    show Has x 8 _ ((fullWrite cfg h off b).run fs).2
    unfold fullWrite
    rw [run_bind, run_one]
    revert this
    show Has x 8 _ (secWrite cfg h off b fs).2 → _
    generalize secWrite cfg h off b fs = o
    obtain ⟨o, fs1⟩ := o
    intro h1
    cases o <;> exact h1
  | ftruncate h n =>
    have := has_change (cfg := cfg) (h := h) (g := fun c => Spec.resize c n) hx
    show Has x 8 _ ((fullFtruncate cfg h n).run fs).2
    unfold fullFtruncate
    rw [run_bind, run_one]
    revert this
    show Has x 8 _ (secTruncate cfg h n fs).2 → _
    generalize secTruncate cfg h n fs = o
    obtain ⟨o, fs1⟩ := o
    intro h1
    cases o <;> exact h1
  | fgetattr h =>
    exact Ends.bind' (Ends.bind' (EndsS.one (has_file h.id (.inr fun _ _ => ⟨rfl, rfl⟩))) fun _ => ends_ret' _) (fun _ => ends_ret' _) fs hx
  | readdir h fill =>
    refine Ends.bind' ?_ (fun _ => ends_ret' _) fs hx
    unfold fullReaddir
    split
    · exact ends_ret' _
    · exact Ends.bind' (has_dir h fun _ _ => ⟨touchAtime_mode _ _ _, rfl⟩).one fun _ => ends_ret' _
  | flush h => exact Ends.bind' (EndsS.one (has_file h.id (.inr fun _ _ => ⟨rfl, rfl⟩))) (fun _ => ends_ret' _) fs hx
  | fsync h => exact Ends.bind' (EndsS.one (has_file h.id (.inr fun _ _ => ⟨rfl, rfl⟩))) (fun _ => ends_ret' _) fs hx

theorem getattr_view {cfg : FsCfg} {fs : FullFs} (hi : TreeInv fs) (path : Bytes) :
    ((((FullOp.getattr path).prog cfg).run fs).1, viewOf (((FullOp.getattr path).prog cfg).run fs).2) = specAttr cfg.same (viewOf fs) path false id := by
  obtain ⟨fs', h1, h2, h3⟩ := getattr_exact (cfg := cfg) ⟨none, none⟩ hi path
  show ((((fullGetattr cfg ⟨none, none⟩ path).bind fun r => .ret r.1).run fs).1, viewOf (((fullGetattr cfg ⟨none, none⟩ path).bind fun r => .ret r.1).run fs).2) = _
  rw [run_bind]
  revert h1 h3
  generalize (fullGetattr cfg ⟨none, none⟩ path).run fs = o
  obtain ⟨o, fs1⟩ := o
  intro h1 h3
  dsimp only at h1
  subst h1
  unfold specAttr onFile
  cases hres : resolvePath cfg.same (viewOf fs) path false with
  | error e => rw [hres] at h3; dsimp only at h3; subst h3; exact Prod.ext rfl h2
  | ok r =>
    cases r with
    | none => rw [hres] at h3; dsimp only at h3; subst h3; exact Prod.ext rfl h2
    | some p =>
      rw [hres] at h3
      obtain ⟨f, st, hf, h4, _⟩ := h3
      dsimp only at h4
      subst h4
      dsimp only
      rw [hf]
      refine Prod.ext rfl ?_
      dsimp only [Prog.run]
      rw [h2, alter_id (g := id) fun _ => rfl]

theorem open_view {cfg : FsCfg} {fs : FullFs} (hi : TreeInv fs) (path : Bytes) :
    ((((FullOp.open path false).prog cfg).run fs).1, viewOf (((FullOp.open path false).prog cfg).run fs).2) = specAttr cfg.same (viewOf fs) path true id := by
  obtain ⟨fs', h1, h2⟩ := open_exact (cfg := cfg) hi path false
  show ((((fullOpen cfg path false).bind fun r => .ret r.1).run fs).1, viewOf (((fullOpen cfg path false).bind fun r => .ret r.1).run fs).2) = _
  rw [run_bind, h1]
  revert h2
  unfold specOpen specAttr onFile
  cases hres : resolvePath cfg.same (viewOf fs) path true with
  | error e => exact fun h2 => Prod.ext rfl h2
  | ok r =>
    cases r with
    | none => exact fun h2 => Prod.ext rfl h2
    | some p =>
      dsimp only
      cases hf : viewOf fs p.1 with
      | none => exact fun h2 => Prod.ext rfl h2
      | some f =>
        dsimp only
        rw [if_neg (by decide)]
        intro h2
        refine Prod.ext rfl ?_
        dsimp only [Prog.run]
        rw [alter_id (g := id) fun _ => rfl]
        exact h2

/-! ## Symbolic links and directories keep their contents -/

/-- The contents of what is no regular file do not change. -/
theorem other_op {cfg : FsCfg} {fs : FullFs} (hi : TreeInv fs) (op : FullOp) {c : Bytes} {k : Nat} (hk : k ≠ 8) (hx : Has x k c fs) :
    Has x k c ((op.prog cfg).run fs).2 := by
  have hth : TH x k c fs := ⟨hi, hx⟩
  have hreg : ∀ (h : FH) (g : Bytes → Bytes), EndsS (Has x k c)
      (Sec.reg h fun now n => ((.ok () : Res Unit), { n with attr := n.attr.touchMtime cfg.storeTime now, data := g n.data })) (Has x k c) := by
    rintro h g fs ⟨f, hf, hfk, hd⟩
    by_cases hid : h.id = x
    · obtain ⟨n, hn, hv⟩ := get_of_view hf
      unfold Sec.reg
      rw [hid, file_run hn]
      have : ∃ e, castAs h typeRegular n = .error e := by
        unfold castAs
        split
        · exact ⟨_, rfl⟩
        · next hm =>
          split
          · exact ⟨_, rfl⟩
          · next hc =>
            exfalso
            rw [ne_eq, not_not] at hm hc
            rw [hc] at hm
            apply hk
            rw [← hfk, ← hv]
            have hm : n.attr.mode &&& 0xf000 = 0x8000 := hm.symm
            unfold AFile.kind viewFile
            dsimp only
            rw [hm]
            decide
      obtain ⟨e, he⟩ := this
      rw [he]
      refine ⟨f, ?_, hfk, hd⟩
      dsimp only
      rw [view_set_same hn rfl]
      exact hf
    · exact has_file h.id (.inl hid) fs ⟨f, hf, hfk, hd⟩
  have htr : ∀ (h : FH) (n : Nat), EndsS (Has x k c) (secTruncate cfg h n) (Has x k c) := fun h n => hreg h fun c => Spec.resize c n
  have hwr : ∀ (h : FH) (off : Nat) (b : Bytes), EndsS (Has x k c) (secWrite cfg h off b) (Has x k c) := fun h off b =>
    hreg h fun c => Spec.write c off b
  clear hreg
  cases op with
  | create p m u g i =>
    have hc : Ends (TH x k c) (createFile cfg p m typeRegular u g i) (TH x k c) := fun fs hI =>
      ⟨(hoare_createFile cfg p m typeRegular (.inr (.inl rfl)) u g i fs hI.1).1, has_createFile cfg p m typeRegular u g i fs hI⟩
    exact Ends.bind hc (fun _ => ends_ret _ TH.has) TH.has fs hth
  | mkdir p m u g i =>
    have hc : Ends (TH x k c) (createFile cfg p m typeDirectory u g i) (TH x k c) := fun fs hI =>
      ⟨(hoare_createFile cfg p m typeDirectory (.inl rfl) u g i fs hI.1).1, has_createFile cfg p m typeDirectory u g i fs hI⟩
    exact Ends.bind hc (fun _ => ends_ret _ TH.has) TH.has fs hth
  | symlink t p u g i =>
    show Has x k c ((vsymlink cfg t p u g i).run fs).2
    have h1 := has_createFile (x := x) (k := k) (d := c) cfg p 0x1a4 typeSymlink u g i fs hth
    unfold vsymlink
    cases hc : (createFile cfg p 0x1a4 typeSymlink u g i).run fs with
    | mk o fs1 =>
      rw [hc] at h1
      cases o with
      | error e => rw [run_bind_error hc]; exact h1
      | ok h =>
        have hne := createFile_newId hi hx hc
        rw [run_bind_ok hc]
        exact Ends.bind' (EndsS.one (has_file h.id (.inl hne))) (fun _ => ends_ret' _) fs1 h1
  | unlink p =>
    refine Ends.bind (th_openBase cfg p) (fun r => Ends.weak (I := Has x k c) ?_ TH.has) TH.has fs hth
    refine Ends.bind' (has_remove _ _ _).one fun e => ?_
    cases e with
    | none => exact ends_ret' _
    | some e => exact Ends.bind' (has_openAs _ _).one fun _ => Ends.bind' (has_unlink _).one fun _ => ends_ret' _
  | rmdir p =>
    refine Ends.bind (th_openBase cfg p) (fun r => Ends.weak (I := Has x k c) ?_ TH.has) TH.has fs hth
    refine Ends.bind' (has_remove _ _ _).one fun e => ?_
    cases e with
    | none => exact ends_ret' _
    | some e => exact Ends.bind' (has_openAs _ _).one fun _ => Ends.bind' (has_unlinkEmpty _ _).one fun _ => ends_ret' _
  | link s t =>
    refine Ends.bind (th_openAll cfg s true) (fun r => ?_) TH.has fs hth
    cases r with
    | none => exact ends_ret _ TH.has
    | some h =>
      refine Ends.bind (th_openBase cfg t) (fun r => Ends.weak (I := Has x k c) ?_ TH.has) TH.has
      exact Ends.bind' (has_link _ _ _ _).one fun _ => ends_ret' _
  | rename a b =>
    refine Ends.bind (th_openBase cfg a) (fun r => ?_) TH.has fs hth
    refine Ends.bind (th_openBase cfg b) (fun r2 => Ends.weak (I := Has x k c) ?_ TH.has) TH.has
    refine Ends.bind' (has_rename _ _ _ _ _).one fun o => ?_
    cases o with
    | missing => exact ends_ret' _
    | done => exact ends_ret' _
    | replaced e => exact Ends.bind' (has_openAs _ _).one fun _ => Ends.bind' (has_unlink _).one fun _ => ends_ret' _
  | chmod p m =>
    refine has_withAttr cfg p false (fun now a => ?_) fs hth
    unfold FileAttr.chmod FileAttr.setMode
    split
    · rfl
    · dsimp only
      rw [touchCtime_mode]
      exact chmod_type _ _
  | chown p u g => exact has_withAttr cfg p false (fun now a => by rw [chown_mode]) fs hth
  | utimens p g ts =>
    refine has_withAttr cfg p false (fun now a => ?_) fs hth
    unfold FileAttr.utimens
    split
    · cases ts with
      | none => rfl
      | some x => rfl
    · rfl
  | getattr p =>
    refine Ends.bind (Ends.bind' (th_openAll cfg p false) fun r => ?_) (fun _ => ends_ret _ TH.has) TH.has fs hth
    cases r with
    | none => exact ends_ret' _
    | some h =>
      refine Ends.bind' ?_ fun _ => ends_ret' _
      intro fs hI
      rw [run_one]
      exact ⟨(hoare_stat cfg _ h fs hI.1).1, has_file h.id (.inr fun _ _ => ⟨rfl, rfl⟩) fs hI.2⟩
  | «open» p t =>
    refine Ends.bind (Ends.bind' (th_openAll cfg p true) fun r => ?_) (fun _ => ends_ret _ TH.has) TH.has fs hth
    cases r with
    | none => exact ends_ret' _
    | some h =>
      cases t with
      | false => exact ends_ret' _
      | true =>
        refine Ends.bind' ?_ fun _ => ends_ret' _
        intro fs hI
        rw [run_one]
        exact ⟨(hoare_truncate cfg h 0 fs hI.1).1, htr h 0 fs hI.2⟩
  | readlink p n =>
    refine Ends.bind (I := TH x k c) ?_ (fun _ => ends_ret _ TH.has) TH.has fs hth
    unfold fullReadlink
    split
    · exact ends_ret' _
    · split
      · exact ends_ret' _
      · refine Ends.bind' (th_openAll cfg p false) fun r => ?_
        cases r with
        | none => exact ends_ret' _
        | some h =>
          refine Ends.bind' ?_ fun _ => ends_ret' _
          intro fs hI
          rw [run_one]
          exact ⟨(hoare_linkGet cfg h fs hI.1).1, has_linkGet cfg h fs hI.2⟩
  | opendir p =>
    refine Ends.bind (Ends.bind' (th_openAll cfg p true) fun r => ?_) (fun _ => ends_ret _ TH.has) TH.has fs hth
    cases r with
    | none => exact ends_ret' _
    | some h => dsimp only; split <;> exact ends_ret' _
  | truncate p n =>
    refine Ends.bind (th_openAll cfg p true) (fun r => Ends.weak (I := Has x k c) ?_ TH.has) TH.has fs hth
    cases r with
    | none => exact ends_ret' _
    | some h => exact Ends.bind' (EndsS.one (htr h n)) fun _ => ends_ret' _
  | read h off len =>
    exact Ends.bind' (Ends.bind' (has_reg h fun _ _ => ⟨touchAtime_mode _ _ _, rfl⟩).one fun _ => ends_ret' _) (fun _ => ends_ret' _) fs hx
  | write h off b => exact Ends.bind' (EndsS.one (hwr h off b)) (fun _ => ends_ret' _) fs hx
  | ftruncate h n => exact Ends.bind' (EndsS.one (htr h n)) (fun _ => ends_ret' _) fs hx
  | fgetattr h =>
    exact Ends.bind' (Ends.bind' (EndsS.one (has_file h.id (.inr fun _ _ => ⟨rfl, rfl⟩))) fun _ => ends_ret' _) (fun _ => ends_ret' _) fs hx
  | readdir h fill =>
    refine Ends.bind' ?_ (fun _ => ends_ret' _) fs hx
    unfold fullReaddir
    split
    · exact ends_ret' _
    · exact Ends.bind' (has_dir h fun _ _ => ⟨touchAtime_mode _ _ _, rfl⟩).one fun _ => ends_ret' _
  | flush h => exact Ends.bind' (EndsS.one (has_file h.id (.inr fun _ _ => ⟨rfl, rfl⟩))) (fun _ => ends_ret' _) fs hx
  | fsync h => exact Ends.bind' (EndsS.one (has_file h.id (.inr fun _ _ => ⟨rfl, rfl⟩))) (fun _ => ends_ret' _) fs hx

/-! ## Between operations -/

theorem has_evict {cfg : FsCfg} {fs : FullFs} {k : Nat} {c : Bytes} (hx : Has x k c fs) (id : Bytes) :
    Has x k c (FullSys.step cfg ⟨fs, []⟩ (.evict id)).fs := by
  simp only [FullSys.step]
  cases hg : fs.get id with
  | none => exact hx
  | some n =>
    unfold Has
    dsimp only
    rw [view_evict hg]
    exact hx

theorem has_reap {cfg : FsCfg} {fs : FullFs} {k : Nat} {c : Bytes} (hx : Has x k c fs) {id : Bytes} (hne : id ≠ x) :
    Has x k c (FullSys.step cfg ⟨fs, []⟩ (.reap id)).fs := by
  simp only [FullSys.step]
  cases hg : fs.get id with
  | none => exact hx
  | some n =>
    dsimp only
    split
    · obtain ⟨f, hf, h1⟩ := hx
      refine ⟨f, ?_, h1⟩
      rw [← hf]
      unfold viewOf FullFs.get
      dsimp only
      congr 1
      generalize fs.nodes = l
      induction l with
      | nil => rfl
      | cons p l ih =>
        obtain ⟨a, b⟩ := p
        by_cases ha : a = id
        · rw [List.filter_cons_of_neg (by simpa using ha), List.lookup_cons, ih, show (x == a) = false by
            rw [beq_eq_false_iff_ne]; rw [ha]; exact Ne.symm hne]
        · rw [List.filter_cons_of_pos (by simpa using ha), List.lookup_cons, List.lookup_cons, ih]
    · exact hx

theorem course_has {cfg : FsCfg} (hs : SameEquiv cfg.same) {fs fs' : FullFs} {c c' : Bytes} (h : Sequential cfg fs) (hx : Has x 8 c fs)
    (hc : Course cfg x fs c fs' c') : Sequential cfg fs' ∧ Has x 8 c' fs' := by
  induction hc with
  | refl => exact ⟨h, hx⟩
  | op _ op asked room ih => exact ⟨.op ih.1 op asked room, contents_op (seq_inv hs ih.1).inv op ih.2⟩
  | tick _ now ih => exact ⟨.tick ih.1 now, ih.2⟩
  | evict _ id ih => exact ⟨.evict ih.1 id, has_evict ih.2 id⟩
  | reap _ id hne ih => exact ⟨.reap ih.1 id, has_reap ih.2 hne⟩

/-! ## Listing a directory -/

theorem fill_ok {fill : Nat → Int} : ∀ (l : List DirEntry) (i : Nat), (∀ j, i ≤ j → j < i + l.length → fill j = 0) →
    fillEntries fill i l = .ok (l.map fun e => ⟨e.name, shownInode e.id, modeForType e.type⟩)
  | [], _, _ => rfl
  | e :: l, i, h => by
    unfold fillEntries
    rw [if_neg (by rw [h i (Nat.le_refl _) (by simp)]; decide), fill_ok l (i + 1) fun j h1 h2 => h j (by omega) (by rw [List.length_cons]; omega)]
    rfl

theorem fill_stop {fill : Nat → Int} : ∀ (l : List DirEntry) (i j : Nat), j < l.length → (∀ m, i ≤ m → m < i + j → fill m = 0) → fill (i + j) ≠ 0 →
    fillEntries fill i l = .error (.vfs (fill (i + j)).natAbs)
  | [], _, _, h, _, _ => by simp at h
  | e :: l, i, 0, _, _, h => by
    unfold fillEntries
    rw [Nat.add_zero] at h
    rw [if_pos (by simpa using h)]
    rfl
  | e :: l, i, j + 1, hj, h0, h => by
    unfold fillEntries
    rw [if_neg (by rw [h0 i (Nat.le_refl _) (by omega)]; decide),
      fill_stop l (i + 1) j (by simpa using hj) (fun m h1 h2 => h0 m (by omega) (by omega)) (by rw [show i + 1 + j = i + (j + 1) by omega]; exact h)]
    dsimp only
    rw [show i + 1 + j = i + (j + 1) by omega]

theorem readdir_run {cfg : FsCfg} {fs : FullFs} {h : FH} {f : AFile} (hr : Refers (viewOf fs) h f) (h4 : h.cls = 4) (fill : Nat → Int) :
    ∃ fs' n, fs.get h.id = some n ∧ viewFile n = f ∧ viewOf fs' = viewOf fs ∧
      (fullReaddir cfg fill h).run fs = ((fillEntries fill 0 f.entries).map fun l =>
        (0, ⟨[46], shownInode h.id, 0x4000⟩ :: ⟨[46, 46], shownInode n.parent, 0x4000⟩ :: l), fs') := by
  obtain ⟨n, hn, hv⟩ := get_of_view hr.file
  have he : n.entries = f.entries := by rw [← hv]; rfl
  unfold fullReaddir
  rw [if_neg (by rw [ne_eq, not_not]; exact h4)]
  have hcast : castAs h typeDirectory n = .ok () := by
    rw [castAs_of_kind hr.held.good (by rw [hv]; exact hr.cls), if_pos (show h.cls = typeDirectory from h4)]
  cases hfill : fillEntries fill 0 f.entries with
  | error e =>
    have hsec : secReaddir cfg fill h fs = (.error e, fs.set h.id { n with attr := n.attr.touchAtime cfg.storeTime fs.now }) := by
      unfold secReaddir Sec.dir
      rw [file_run hn, hcast]
      dsimp only
      rw [he, hfill]
    rw [run_one_error hsec]
    exact ⟨_, n, hn, hv, view_set_same hn (view_touchAtime cfg _ _), rfl⟩
  | ok l =>
    have hsec : secReaddir cfg fill h fs = (.ok (⟨[46], shownInode h.id, 0x4000⟩ :: ⟨[46, 46], shownInode n.parent, 0x4000⟩ :: l),
        fs.set h.id { n with attr := n.attr.touchAtime cfg.storeTime fs.now }) := by
      unfold secReaddir Sec.dir
      rw [file_run hn, hcast]
      dsimp only
      rw [he, hfill]
    rw [run_one_ok hsec]
    exact ⟨_, n, hn, hv, view_set_same hn (view_touchAtime cfg _ _), rfl⟩

theorem opendir_exact {cfg : FsCfg} {fs : FullFs} (hi : TreeInv fs) (path : Bytes) :
    ∃ fs', (fullOpendir cfg path).run fs = ((specOpendir cfg.same (viewOf fs) path).1, fs') ∧
      viewOf fs' = (specOpendir cfg.same (viewOf fs) path).2 ∧ viewOf fs' = viewOf fs ∧
      ∀ p, resolvePath cfg.same (viewOf fs) path true = .ok (some p) → ParentIs fs' p.1 p.up.1 := by
  have hb := openAll_agrees (cfg := cfg) hi.tree hi.root path true
  obtain ⟨hc, hb⟩ := hb
  unfold specOpendir onFile fullOpendir
  cases hrun : (openAll cfg path true).run fs with
  | mk o fs1 =>
    rw [hrun] at hc hb
    dsimp only at hc hb
    cases hres : resolvePath cfg.same (viewOf fs) path true with
    | error e =>
      rw [hres] at hb
      dsimp only at hb
      subst hb
      rw [run_bind_error hrun]
      exact ⟨fs1, rfl, hc.view, hc.view, fun p h => by cases h⟩
    | ok r =>
      cases r with
      | none =>
        rw [hres] at hb
        dsimp only at hb
        subst hb
        rw [run_bind_ok hrun]
        exact ⟨fs1, rfl, hc.view, hc.view, fun p h => by cases h⟩
      | some p =>
        rw [hres] at hb
        obtain ⟨h, hb1, hsim⟩ := hb
        subst hb1
        rw [run_bind_ok hrun]
        dsimp only
        obtain ⟨f, hf, hk⟩ := hsim.obj
        rw [hsim.id] at hf
        rw [hf]
        dsimp only
        have hpar : ParentIs fs1 p.1 p.up.1 := by
          have hch := hsim.chain
          obtain ⟨a, l⟩ := p
          cases l with
          | nil => obtain ⟨h1, h2⟩ := hch; dsimp only at h1; rw [h1] at h2 ⊢; exact h2
          | cons b l => exact hch.1
        by_cases h4 : h.cls = 4
        · rw [if_neg (by rw [ne_eq, not_not]; exact h4), if_pos (hk.trans h4)]
          refine ⟨fs1, ?_, hc.view, hc.view, fun q hq => ?_⟩
          · rw [← hsim.id, ← h4]; rfl
          · injection hq with hq; injection hq with hq; rw [← hq]; exact hpar
        · rw [if_pos (show h.cls ≠ typeDirectory from h4), if_neg (by rw [hk]; exact h4)]
          refine ⟨fs1, rfl, hc.view, hc.view, fun q hq => ?_⟩
          injection hq with hq; injection hq with hq; rw [← hq]; exact hpar

end Securefs

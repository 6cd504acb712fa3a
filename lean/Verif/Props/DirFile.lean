import Verif.Proofs.DirFileBloat
import Verif.Props.Btree
import Verif.Props.FileObj
/-!
# C84: a directory of the full format in its encrypted file

The model is `Verif/Model/DirFile.lean`, the specification `Verif/Spec/DirFile.lean`.
-/

namespace Securefs.Props

open Securefs Spec DirFile

/-- C84: a new directory can be made, and whatever is then done with it – additions, removals, lookups, listings, changes of attributes,
    flushes, rebuildings, and closings after which it is opened again from its encrypted backing files – the answers are those of a finite
    set of entries with plain attributes. -/
theorem C84_dir {E : FileEnv} (hE : FileEnvOk E) (hroom : RoomForDirs E) (C : BCfg) (hC : GoodConfig C) (id : Bytes) (now : TimeSpec)
    (hn : ValidTime now) (osUid osGid mode uid gid : UInt32) (rng : Nat) (cs : List (TimeSpec × DirCall))
    (hh : GoodDirHistory (sameName C.cmp) [] cs) :
    ∃ d, createDir E id now osUid osGid mode uid gid rng = .ok d ∧
      ∃ os p, PlainDirRun (sameName C.cmp) (newDir E.storeTime now osUid osGid mode uid gid) cs os p ∧
        List.Forall₂ AnswersLike (runDir C d cs).1 os := by
  obtain ⟨d, e, hg⟩ := createDir_ok hE C id now hn osUid osGid mode uid gid rng
  obtain ⟨os, p, h1, h2, _⟩ := runDir_ok hE hroom (cmpOk_of hC.1) hC.2 cs hg (by simp [newDir]) hh
  exact ⟨d, e, os, p, h1, h2⟩

/-- C84: once a directory has been flushed, its two backing files hold all of it: an object made from them later, with any state of the
    random generator, has the entries and attributes of the old one and goes on as the ideal directory does. -/
theorem C84_durable {E : FileEnv} (hE : FileEnvOk E) (hroom : RoomForDirs E) (C : BCfg) (hC : GoodConfig C) (id : Bytes) (now : TimeSpec)
    (hn : ValidTime now) (osUid osGid mode uid gid : UInt32) (rng rng' : Nat) (cs cs' : List (TimeSpec × DirCall)) (t : TimeSpec)
    (ht : ValidTime t) (hh : GoodDirHistory (sameName C.cmp) [] cs)
    (hh' : GoodDirHistory (sameName C.cmp) (entriesAfter (sameName C.cmp) [] cs) cs') :
    ∃ d d1, createDir E id now osUid osGid mode uid gid rng = .ok d ∧ flush C t (runDir C d cs).2 = (.ok (), d1) ∧
      ∃ g, openDir E id d1.file.st.data d1.file.st.metaS.file rng' = .ok g ∧
        ∃ os p o p1 os' p2, PlainDirRun (sameName C.cmp) (newDir E.storeTime now osUid osGid mode uid gid) cs os p ∧
          PlainDirStep (sameName C.cmp) (stamp t) p .flush o p1 ∧
          PlainDirRun (sameName C.cmp) p1 cs' os' p2 ∧ List.Forall₂ AnswersLike (runDir C g cs').1 os' := by
  have hC1 := cmpOk_of hC.1
  obtain ⟨d, e, hg⟩ := createDir_ok hE C id now hn osUid osGid mode uid gid rng
  obtain ⟨os, p, h1, _, hg1, hm, he⟩ := runDir_ok hE hroom hC1 hC.2 cs hg (by simp [newDir]) hh
  obtain ⟨m, A⟩ := p
  dsimp only at hm he
  obtain ⟨s, l, hr, hd, hp⟩ := hg1
  dsimp only at hr hp
  obtain ⟨s1, d1, A1, e1, r1, hd1, hc1, hst, hA⟩ := flush_dir_ok hE hroom hC1 hC.2 t ht hr hd (by rw [hp.length_eq, ← capacity_eq]; exact hm)
  obtain ⟨f, e2, r2⟩ := hst rng'
  have hnil : l = [] ↔ m = [] := by rw [← List.length_eq_zero_iff, ← List.length_eq_zero_iff, hp.length_eq]
  obtain ⟨os', p2, h3, h4, _⟩ := runDir_ok hE hroom hC1 hC.2 cs' (p := ⟨m, A1⟩) ⟨_, l, r2, dir_drop hd1 hc1, hp⟩ hm (by rw [he]; exact hh')
  refine ⟨d, d1, e, e1, ⟨E, id, f, []⟩, ?_, os, ⟨m, A⟩, .out .done, ⟨m, A1⟩, os', p2, h1, ⟨?_, rfl, rfl⟩, h3, h4⟩
  · unfold openDir
    simp only [bind, Except.bind, e2]
  · show A1 = A ∨ (m ≠ [] ∧ A1 = _)
    by_cases hb : l ≠ [] ∧ s.nfree > 5 ∧ s.nfree > s.data.length / 6144
    · rw [if_pos hb] at hA
      exact Or.inr ⟨fun h => hb.1 (hnil.2 h), hA⟩
    · rw [if_neg hb] at hA
      exact Or.inl hA

/-- C84: a flush changes an attribute only when the directory has entries, more than five of its pages are free, and more than two
    thirds of all; then it sets the times of modification and change. -/
theorem C84_flush_attrs {E : FileEnv} (hE : FileEnvOk E) (hroom : RoomForDirs E) (C : BCfg) (hC : GoodConfig C) (id : Bytes) (now : TimeSpec)
    (hn : ValidTime now) (osUid osGid mode uid gid : UInt32) (rng : Nat) (cs : List (TimeSpec × DirCall)) (t : TimeSpec) (ht : ValidTime t)
    (hh : GoodDirHistory (sameName C.cmp) [] cs) {d : DirObj} (hd : createDir E id now osUid osGid mode uid gid rng = .ok d) :
    ∃ d', flush C t (runDir C d cs).2 = (.ok (), d') ∧
      let a := attrsOf E.storeTime (runDir C d cs).2.file.attr
      let a' := attrsOf E.storeTime d'.file.attr
      a'.mode = a.mode ∧ a'.uid = a.uid ∧ a'.gid = a.gid ∧ a'.nlink = a.nlink ∧
      a'.times = if entriesAfter (sameName C.cmp) [] cs ≠ [] ∧ a.pages.2.2 > 5 ∧ a.pages.2.2 > (runDir C d cs).2.size / 6144
        then a.times.map (fun x => (x.1, stamp t, stamp t, x.2.2.2)) else a.times := by
  have hC1 := cmpOk_of hC.1
  obtain ⟨d0, e, hg⟩ := createDir_ok hE C id now hn osUid osGid mode uid gid rng
  rw [hd] at e
  cases e
  obtain ⟨os, p, h1, _, hg1, hm, he⟩ := runDir_ok hE hroom hC1 hC.2 cs hg (by simp [newDir]) hh
  have hg2 := hg1
  obtain ⟨s, l, hr, _, _⟩ := hg2
  obtain ⟨d', e1, s1, l1, r1, _, _⟩ := flush_attrs hE hroom hC1 hC.2 hg1 hm t ht
  refine ⟨d', e1, ?_⟩
  dsimp only
  have he : p.entries = entriesAfter (sameName C.cmp) [] cs := he
  rw [hr.attrs, r1.attrs, hr.nfree, he]
  dsimp only
  by_cases hb : entriesAfter (sameName C.cmp) [] cs ≠ [] ∧ s.nfree > 5 ∧ s.nfree > (runDir C d cs).2.size / 6144
  · rw [if_pos hb, if_pos hb]; exact ⟨rfl, rfl, rfl, rfl, rfl⟩
  · rw [if_neg hb, if_neg hb]; exact ⟨rfl, rfl, rfl, rfl, rfl⟩

theorem cmp_refl {cmp : Bytes → Bytes → Int} (h : TotalPreorder cmp) (a : Bytes) : cmp a a = 0 := by
  have := h.1 a a
  omega

/-- The stat answer of an object that shows the times `ts`. -/
theorem stat_times {E : FileEnv} (hE : FileEnvOk E) {id A s d} (hr : Rel E id A s d) (hst : E.storeTime = true) (C : BCfg) (now : TimeSpec) :
    ∃ sz m u g n a b c e, call C now .stat d = (.ok (.stat sz m u g n (some (a, b, c, e))), d) ∧ A.times = some (stamp a, stamp b, stamp c, stamp e) := by
  have ha := congrArg Attrs.times hr.attrs
  refine ⟨d.size, d.file.attr.mode, d.file.attr.uid, d.file.attr.gid, d.file.attr.nlink, d.file.attr.atime, d.file.attr.mtime, d.file.attr.ctime, d.file.attr.btime, ?_, ?_⟩
  · show ((.ok (DirAnswer.stat d.size _ _ _ _ (if d.env.storeTime then _ else _)), d) : Res DirAnswer × DirObj) = _
    rw [hr.env, hst]
    rfl
  · rw [← show _ = A.times from ha, hst]; rfl

/-- C84, violated: that a flush changes nothing a user can see.  Add 92 entries or more at one time, remove all but one at that time, and
    ask for the times, flush, and ask again: the second answer has the time of the flush as time of modification and of change, although
    the directory has not been modified.  `rebuild` adds the entries anew with `add_entry`, which sets the times. -/
theorem C84_flush_times_violated {E : FileEnv} (hE : FileEnvOk E) (hroom : RoomForDirs E) (hst : E.storeTime = true) (C : BCfg)
    (hC : GoodConfig C) (id : Bytes) (now t t' : TimeSpec) (hn : ValidTime now) (ht : ValidTime t) (ht' : ValidTime t')
    (osUid osGid mode uid gid : UInt32) (rng : Nat) (x : DirEntry) (l : List DirEntry)
    (hv : ∀ e ∈ x :: l, e.name.length ≤ 255 ∧ (∀ c ∈ e.name, c ≠ 0) ∧ e.id.length = 32 ∧ e.type < 2 ^ 32)
    (hdis : (x :: l).Pairwise fun a b => C.cmp a.name b.name ≠ 0) (h92 : 92 ≤ (x :: l).length) (hmax : (x :: l).length ≤ dirCapacity) :
    ∃ d, createDir E id now osUid osGid mode uid gid rng = .ok d ∧
      ∃ as sz m u g n a b c e sz' m' u' g' n' a' b' c' e',
        (runDir C d ((x :: l).map (fun e => (t, .add e)) ++ l.map (fun e => (t, .remove e.name)) ++ [(t, .stat), (t', .flush), (t', .stat)])).1 =
          as ++ [.stat sz m u g n (some (a, b, c, e)), .out .done, .stat sz' m' u' g' n' (some (a', b', c', e'))] ∧
        stamp b = stamp t ∧ stamp c = stamp t ∧ stamp b' = stamp t' ∧ stamp c' = stamp t' ∧ stamp a = stamp a' := by
  have hC1 := cmpOk_of hC.1
  obtain ⟨d, e, s, l0, hr, hd, hp⟩ := createDir_ok hE C id now hn osUid osGid mode uid gid rng
  refine ⟨d, e, ?_⟩
  have hl0 : l0 = [] := List.perm_nil.1 hp
  subst hl0
  have hok : ∀ e ∈ x :: l, EntryOk e := fun e he => by
    obtain ⟨h1, h2, h3, h4⟩ := hv e he
    exact ⟨h1, h2, h3, h4⟩
  obtain ⟨s1, l1, r1, hd1, hp1⟩ := adds_run hE hroom hC1 t ht (x :: l) [] _ s d hr hd hok hdis (by simp) (by simpa [← capacity_eq] using hmax)
  rw [if_neg (by simp)] at r1
  obtain ⟨s2, l2, r2, hd2, hp2, hlen2⟩ := removes_run hE hroom hC1 (cmp_refl hC.1) t ht l [x] l1 _ s1 _ r1 hd1
    (hp1.trans (by rw [List.nil_append]; exact List.perm_append_singleton x l |>.symm)) (fun e he => hok e (by simp [he]))
  rw [write_twice, ite_self] at r2
  have hl2 : l2 = [x] := List.perm_singleton.1 hp2
  subst hl2
  have hpages := many_pages hd1 (by rw [hp1.length_eq]; simpa using h92)
  have hfree := one_page hd2
  obtain ⟨s3, d3, A3, e3, r3, hd3, _, _, hA3⟩ := flush_dir_ok hE hroom hC1 hC.2 t' ht' r2 hd2 (by simp [maxDirEntries])
  rw [if_pos ⟨by simp, by omega, by omega⟩] at hA3
  subst hA3
  obtain ⟨sz, m, u, g, n, a, b, c, f, k1, v1⟩ := stat_times hE r2 hst C t
  obtain ⟨sz', m', u', g', n', a', b', c', f', k2, v2⟩ := stat_times hE r3 hst C t'
  refine ⟨(runDir C d ((x :: l).map fun e => (t, .add e))).1 ++ (runDir C (runDir C d ((x :: l).map fun e => (t, .add e))).2
    (l.map fun e => (t, .remove e.name))).1, sz, m, u, g, n, a, b, c, f, sz', m', u', g', n', a', b', c', f', ?_, ?_⟩
  · rw [runDir_append, runDir_append]
    have kf : call C t' .flush (runDir C (runDir C d ((x :: l).map fun e => (t, .add e))).2 (l.map fun e => (t, .remove e.name))).2 =
        (.ok (.out .done), d3) := by
      rw [call, bind_ok e3]; rfl
    have k : (runDir C (runDir C (runDir C d ((x :: l).map fun e => (t, .add e))).2 (l.map fun e => (t, .remove e.name))).2
        [(t, .stat), (t', .flush), (t', .stat)]).1 =
        [.stat sz m u g n (some (a, b, c, f)), .out .done, .stat sz' m' u' g' n' (some (a', b', c', f'))] := by
      simp only [runDir, k1, kf, k2]
    dsimp only
    rw [k]
  · have hts : (newDir E.storeTime now osUid osGid mode uid gid).attrs.times = some (stamp now, stamp now, stamp now, stamp now) := by
      simp [newDir, plainNew, hst]
    simp only [attrStep, hts, Option.map_some, Option.some.injEq, Prod.mk.injEq] at v1 v2
    obtain ⟨p1, p2, p3, _⟩ := v1
    obtain ⟨q1, q2, q3, _⟩ := v2
    exact ⟨p2.symm, p3.symm, q2.symm, q3.symm, p1.symm.trans q1⟩

/-- C84, violated: that an attempt to add an entry that is refused leaves the directory as it was.  An overlong name is refused, but the
    directory has been marked as modified at that time. -/
theorem C84_refused_times_violated (C : BCfg) (now : TimeSpec) (e : DirEntry) (h : e.name.length > 255) (d : DirObj) (hst : d.env.storeTime = true) :
    ∃ d', call C now (.add e) d = (.error (.vfs 36), d') ∧ d'.file.attr.mtime = now ∧ d'.file.attr.ctime = now := by
  have e1 : ∀ d1, DirFile.addEntry C e d1 = (.error (.vfs 36), d1) := by
    intro d1; rw [DirFile.addEntry, if_pos (show e.name.length > maxFilename from h)]; rfl
  refine ⟨{ d with file := { d.file with attr := d.file.attr.touchMtime d.env.storeTime now } }, ?_, ?_, ?_⟩
  · rw [call, DirFile.bind_err]
    rw [addEntryT, DirFile.bind_ok (show touchMtime now d = (.ok (), _) from rfl), e1]
  · rw [hst]; rfl
  · rw [hst]; rfl

/-! ## A concrete case -/

/-- Additions, one of them refused, an overlong name, a removal, changes of attributes and reopenings. -/
def c84demo : List (TimeSpec × DirCall) :=
  [(⟨10, 1⟩, .add (demoEntry 1)), (⟨11, 2⟩, .add (demoEntry 2)), (⟨12, 3⟩, .add (demoEntry 1)), (⟨13, 4⟩, .attr (.chmod 0o700)),
   (⟨14, 5⟩, .add ⟨List.replicate 256 1, List.replicate 32 0, 1⟩), (⟨15, 6⟩, .stat), (⟨16, 7⟩, .remove (demoEntry 2).name),
   (⟨17, 8⟩, .get (demoEntry 1).name), (⟨18, 9⟩, .get (demoEntry 2).name), (⟨19, 1⟩, .flush), (⟨20, 1⟩, .empty), (⟨20, 2⟩, .stat)]

example : FileEnvOk (Toy.env 5 true) ∧ RoomForDirs (Toy.env 5 true) ∧ GoodConfig demoCfg :=
  ⟨Toy.env_ok 5 true (by decide), by unfold RoomForDirs Toy.env; decide, demo_config⟩

set_option maxRecDepth 10000 in
theorem c84demo_good : GoodDirHistory (sameName demoCfg.cmp) [] (c84demo ++ [(⟨21, 1⟩, .reopen 77), (⟨22, 1⟩, .list), (⟨23, 1⟩, .rebuild)]) := by
  refine ⟨?_, ?_⟩ <;> decide +kernel

set_option maxRecDepth 100000 in
/-- The answers of the model to the first part: the refused additions count as modifications, a lookup sets the time of access, the
    flush leaves the times alone. -/
example : ((createDir (Toy.env 5 true) [1, 2, 3] ⟨1, 1⟩ 500 500 0o40755 0xffffffff 3 0).map fun d => (runDir demoCfg d c84demo).1) =
    .ok [.out (.flag true), .out (.flag true), .out (.flag false), .out .done, .out (.fail (.vfs 36)),
      .stat 4096 0o40700 500 3 1 (some (⟨1, 1⟩, ⟨14, 5⟩, ⟨14, 5⟩, ⟨1, 1⟩)), .out (.entry (some (demoEntry 2))),
      .out (.entry (some (demoEntry 1))), .out (.entry none), .out .done, .out (.flag false),
      .stat 4096 0o40700 500 3 1 (some (⟨17, 8⟩, ⟨16, 7⟩, ⟨16, 7⟩, ⟨1, 1⟩))] := by decide +kernel

/-- Entries as `C84_flush_times_violated` asks for. -/
example : (∀ e ∈ (List.range 92).map demoEntry, e.name.length ≤ 255 ∧ (∀ c ∈ e.name, c ≠ 0) ∧ e.id.length = 32 ∧ e.type < 2 ^ 32) ∧
    ((List.range 92).map demoEntry).Pairwise fun a b => demoCfg.cmp a.name b.name ≠ 0 := by
  constructor <;> decide +kernel

end Securefs.Props

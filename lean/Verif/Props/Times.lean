import Verif.Proofs.Times
import Verif.Props.DataMoments
/-!
# C115: changes show in the times of a file (full format, with `--store_time`)

The threads of `FullSys`, whose calls run section by section with anything in between.
-/

namespace Securefs.Props

open Securefs Securefs.Spec

/-- C115: at every moment of every call, also of one that fails or never ends, a change of contents, of entries, of mode or of owner shows in the times of the
    file, and a new file has the time of the clock in all of its times. -/
theorem C115_shown (cfg : FsCfg) (hst : cfg.storeTime = true) (s : FullSys) (op : FullOp) (evs : List FullEvent) :
    ∀ m ∈ moments cfg s.threads.length (s.step cfg (.start op)) evs, m.dated ShowsIn := by
  have hp : (s.step cfg (.start op)).threads[s.threads.length]? = some (op.prog cfg) := by
    show (s.threads ++ [op.prog cfg])[s.threads.length]? = _
    simp
  obtain ⟨_, h⟩ := (Mo.Always.history evs hp (Tm.goodProg_op cfg true true hst op (fun _ => rfl) fun _ => rfl).always).2.2
  intro m hm id
  refine ⟨fun x hx => ?_, (h m hm id).2⟩
  obtain ⟨y, hy, g⟩ := (h m hm id).1 x hx
  exact ⟨y, hy, g.shown⟩

/-- C115: calls other than the one for this set the times of files to that of the clock only, and never set the time of modification without that of change
    or change the time of birth. -/
theorem C115_stamped (cfg : FsCfg) (hst : cfg.storeTime = true) (s : FullSys) (op : FullOp) (hu : ¬ SetsTimes op) (evs : List FullEvent) :
    ∀ m ∈ moments cfg s.threads.length (s.step cfg (.start op)) evs, m.dated Stamped := by
  have hp : (s.step cfg (.start op)).threads[s.threads.length]? = some (op.prog cfg) := by
    show (s.threads ++ [op.prog cfg])[s.threads.length]? = _
    simp
  obtain ⟨_, h⟩ := (Mo.Always.history evs hp (Tm.goodProg_op cfg false true hst op (fun h => (hu h).elim) fun _ => rfl).always).2.2
  intro m hm id
  refine ⟨fun x hx => ?_, (h m hm id).2⟩
  obtain ⟨y, hy, g⟩ := (h m hm id).1 x hx
  exact ⟨y, hy, g.stamped rfl⟩

/-- C115: calls that take no link away show a change of the number of links in the time of change.  What is missing: those that do (see
    `C115_links_violated`). -/
theorem C115_links_partial (cfg : FsCfg) (hst : cfg.storeTime = true) (s : FullSys) (op : FullOp) (hd : ¬ DropsLinks op) (evs : List FullEvent) :
    ∀ m ∈ moments cfg s.threads.length (s.step cfg (.start op)) evs, m.dated Counted := by
  have hp : (s.step cfg (.start op)).threads[s.threads.length]? = some (op.prog cfg) := by
    show (s.threads ++ [op.prog cfg])[s.threads.length]? = _
    simp
  obtain ⟨_, h⟩ := (Mo.Always.history evs hp (Tm.goodProg_op cfg true false hst op (fun _ => rfl) fun h => (hd h).elim).always).2.2
  intro m hm id
  refine ⟨fun x hx => ?_, (h m hm id).2⟩
  obtain ⟨y, hy, g⟩ := (h m hm id).1 x hx
  exact ⟨y, hy, g.counted rfl⟩

/-- C115: a program that has seen the time of modification of a file, and sees the same one later, can rely on its contents (its entries, if it is a directory)
    being the same, whatever threads have done and whatever has failed in between, and whatever threads were in the middle of when it looked first: if the clock
    does not show this very time again, and nobody has set times. -/
theorem C115_unmodified (cfg : FsCfg) (hst : cfg.storeTime = true) (fs0 : FullFs) (pre evs : List FullEvent) (hu : ∀ op, .start op ∈ pre ++ evs → ¬ SetsTimes op)
    {id : Bytes} {x y : Inode} (hx : (FullSys.run cfg ⟨fs0, []⟩ pre).fs.get id = some x)
    (hy : (FullSys.run cfg (FullSys.run cfg ⟨fs0, []⟩ pre) evs).fs.get id = some y)
    (hn : (FullSys.run cfg ⟨fs0, []⟩ pre).fs.now ≠ x.attr.mtime) (ht : ∀ t, .tick t ∈ evs → t ≠ x.attr.mtime) (he : y.attr.mtime = x.attr.mtime) :
    y.data = x.data ∧ y.entries = x.entries := by
  have hs : Tm.GoodSys (FullSys.run cfg ⟨fs0, []⟩ pre) :=
    Tm.goodSys_run hst pre _ (fun _ h => nomatch h) fun op ho => hu op (List.mem_append_left _ ho)
  refine Tm.run_kept hst (id := id) (t0 := x.attr.mtime) (P := fun z => z.attr.mtime = x.attr.mtime → z.data = x.data ∧ z.entries = x.entries) ?_ ?_ evs _ hs
    (fun op ho => hu op (List.mem_append_right _ ho)) hn ht ?_ y hy he
  · intro t a b hne g ha hb
    have hc : ¬ (b.data ≠ a.data ∨ b.entries ≠ a.entries) := fun hc => hne (((g.shown.content hc).1.symm).trans hb)
    push Not at hc
    rcases (g.stamped rfl).mtime with e | e
    · rw [hc.1, hc.2]
      exact ha (e.symm.trans hb)
    · exact (hne (e.1.symm.trans hb)).elim
  · intro t b hne hB hb
    exact (hne (hB.2.1.symm.trans hb)).elim
  · intro z hz _
    rw [hx] at hz
    cases hz
    exact ⟨rfl, rfl⟩

/-- C115: the same for the time of change, which also tells of changes of the mode, the owners and the time of modification. -/
theorem C115_unchanged (cfg : FsCfg) (hst : cfg.storeTime = true) (fs0 : FullFs) (pre evs : List FullEvent) (hu : ∀ op, .start op ∈ pre ++ evs → ¬ SetsTimes op)
    {id : Bytes} {x y : Inode} (hx : (FullSys.run cfg ⟨fs0, []⟩ pre).fs.get id = some x)
    (hy : (FullSys.run cfg (FullSys.run cfg ⟨fs0, []⟩ pre) evs).fs.get id = some y)
    (hn : (FullSys.run cfg ⟨fs0, []⟩ pre).fs.now ≠ x.attr.ctime) (ht : ∀ t, .tick t ∈ evs → t ≠ x.attr.ctime) (he : y.attr.ctime = x.attr.ctime) :
    y.data = x.data ∧ y.entries = x.entries ∧ y.attr.mode = x.attr.mode ∧ y.attr.uid = x.attr.uid ∧ y.attr.gid = x.attr.gid ∧ y.attr.mtime = x.attr.mtime := by
  have hs : Tm.GoodSys (FullSys.run cfg ⟨fs0, []⟩ pre) :=
    Tm.goodSys_run hst pre _ (fun _ h => nomatch h) fun op ho => hu op (List.mem_append_left _ ho)
  refine Tm.run_kept hst (id := id) (t0 := x.attr.ctime)
    (P := fun z => z.attr.ctime = x.attr.ctime → z.data = x.data ∧ z.entries = x.entries ∧ z.attr.mode = x.attr.mode ∧ z.attr.uid = x.attr.uid ∧
      z.attr.gid = x.attr.gid ∧ z.attr.mtime = x.attr.mtime) ?_ ?_ evs _ hs
    (fun op ho => hu op (List.mem_append_right _ ho)) hn ht ?_ y hy he
  · intro t a b hne g ha hb
    have hc : ¬ (b.data ≠ a.data ∨ b.entries ≠ a.entries) := fun hc => hne (((g.shown.content hc).2.symm).trans hb)
    have ho : ¬ (b.attr.mode ≠ a.attr.mode ∨ b.attr.uid ≠ a.attr.uid ∨ b.attr.gid ≠ a.attr.gid) := fun hc => hne ((g.shown.owner hc).symm.trans hb)
    push Not at hc ho
    have hm : b.attr.mtime = a.attr.mtime := by
      rcases (g.stamped rfl).mtime with e | e
      · exact e
      · exact (hne (e.2.symm.trans hb)).elim
    rcases (g.stamped rfl).ctime with e | e
    · rw [hc.1, hc.2, ho.1, ho.2.1, ho.2.2, hm]
      exact ha (e.symm.trans hb)
    · exact (hne (e.symm.trans hb)).elim
  · intro t b hne hB hb
    exact (hne (hB.2.2.1.symm.trans hb)).elim
  · intro z hz _
    rw [hx] at hz
    cases hz
    exact ⟨rfl, rfl, rfl, rfl, rfl, rfl⟩

/-! ## What does not hold -/

/-- `/f` with a second name `/g`, at a later time. -/
def timesFs : FullFs := { runOps fullDemoCfg momentFs [.link [47, 102] [47, 103]] with now := ⟨5, 0⟩ }

/-- The number of links, the time of change and the time of modification of a file. -/
def timesAt (fs : FullFs) (id : Bytes) : Option (UInt32 × TimeSpec × TimeSpec) := (fs.get id).map fun n => (n.attr.nlink, n.attr.ctime, n.attr.mtime)

/-- C115: taking one of two links away does not show in the time of change of the file (POSIX: "Upon successful completion, unlink() shall mark for update the
    last data modification and last file status change timestamps of the parent directory.  Also, if the file's link count is not 0, the last file status change
    timestamp of the file shall be marked for update"). -/
theorem C115_links_violated : (FullOp.unlink [47, 103]).prog fullDemoCfg |>.run timesFs |> fun r =>
    r.1 = .ok 0 ∧ timesAt timesFs (fullDemoId 1) = some (2, ⟨1, 0⟩, ⟨1, 0⟩) ∧ timesAt r.2 (fullDemoId 1) = some (1, ⟨1, 0⟩, ⟨1, 0⟩) := by
  refine ⟨?_, ?_, ?_⟩ <;> decide +kernel

/-- C115: a call that fails without any effect, because the name is not there, sets the times of the directory. -/
theorem C115_failed_violated : (FullOp.unlink [47, 104]).prog fullDemoCfg |>.run timesFs |> fun r =>
    (∃ e, r.1 = e ∧ e ≠ .ok 0) ∧ (r.2.get kRootId).map (·.entries) = (timesFs.get kRootId).map (·.entries) ∧
      timesAt timesFs kRootId = some (1, ⟨1, 0⟩, ⟨1, 0⟩) ∧ timesAt r.2 kRootId = some (1, ⟨5, 0⟩, ⟨5, 0⟩) := by
  refine ⟨⟨_, rfl, ?_⟩, ?_, ?_, ?_⟩ <;> decide +kernel

/-- What is written to `/f`, and then its times set to what they were. -/
def timesForge : List FullOp := [.write momentH 0 [9], .utimens [47, 102] ⟨1, 0⟩ (some (⟨1, 0⟩, ⟨1, 0⟩))]

/-- C115: with the call that sets times even the time of change can be what it was although the contents have changed: it is set to a value which the code does not
    determine (C44), here the old one. -/
theorem C115_forged_violated : runOps fullDemoCfg timesFs timesForge |> fun fs =>
    timesAt fs (fullDemoId 1) = timesAt timesFs (fullDemoId 1) ∧ contents fs (fullDemoId 1) = some [9] ∧ contents timesFs (fullDemoId 1) = some [] := by
  refine ⟨?_, ?_, ?_⟩ <;> decide +kernel

/-! ## Examples -/

/-- Two threads write to `/f`, one of which began before a program looked at it, and a third one changes its mode. -/
def timesPre : List FullEvent := [.start (.write momentH 0 [1, 2]), .tick ⟨2, 0⟩]
/-- What happens then. -/
def timesRace : List FullEvent := [.start (.read momentH 0 9), .step 1, .tick ⟨3, 0⟩, .step 0, .start (.chmod [47, 102] 0o700), .tick ⟨4, 0⟩] ++ List.replicate 5 (.step 2)

/-- The contents and the mode have changed, and this is seen in the times. -/
example : let s := FullSys.run fullDemoCfg ⟨momentFs, []⟩ timesPre
    timesAt s.fs (fullDemoId 1) = some (1, ⟨1, 0⟩, ⟨1, 0⟩) ∧ contents s.fs (fullDemoId 1) = some [] ∧
    timesAt (s.run fullDemoCfg timesRace).fs (fullDemoId 1) = some (1, ⟨4, 0⟩, ⟨3, 0⟩) ∧ contents (s.run fullDemoCfg timesRace).fs (fullDemoId 1) = some [1, 2] ∧
    (moments fullDemoCfg 0 ⟨momentFs, []⟩ (timesPre ++ timesRace)).length = 1 ∧ (moments fullDemoCfg 2 ⟨momentFs, []⟩ (timesPre ++ timesRace)).length = 5 := by
  refine ⟨?_, ?_, ?_, ?_, ?_, ?_⟩ <;> decide +kernel

/-- The hypotheses of `C115_unmodified` hold of the root directory in this history, whose entries stay the same. -/
example : (∀ op, FullEvent.start op ∈ timesPre ++ timesRace → ¬ SetsTimes op) ∧ (∀ t, FullEvent.tick t ∈ timesRace → t ≠ ⟨1, 0⟩) ∧
    timesAt (FullSys.run fullDemoCfg ⟨momentFs, []⟩ timesPre).fs kRootId = some (1, ⟨1, 0⟩, ⟨1, 0⟩) ∧ fullDemoCfg.storeTime = true ∧
    timesAt (FullSys.run fullDemoCfg (FullSys.run fullDemoCfg ⟨momentFs, []⟩ timesPre) timesRace).fs kRootId = some (1, ⟨1, 0⟩, ⟨1, 0⟩) := by
  refine ⟨?_, ?_, ?_, rfl, ?_⟩
  · intro op h
    simp [timesPre, timesRace] at h
    rcases h with rfl | rfl | rfl <;> simp [SetsTimes]
  · intro t h
    simp [timesRace] at h
    rcases h with rfl | rfl <;> decide
  · decide +kernel
  · decide +kernel

/-- A link shows in the time of change. -/
example : timesAt (runOps fullDemoCfg { momentFs with now := ⟨7, 0⟩ } [.link [47, 102] [47, 103]]) (fullDemoId 1) = some (2, ⟨7, 0⟩, ⟨1, 0⟩) ∧
    ¬ DropsLinks (.link [47, 102] [47, 103]) ∧ ¬ SetsTimes (.link [47, 102] [47, 103]) := ⟨by decide +kernel, id, id⟩

end Securefs.Props

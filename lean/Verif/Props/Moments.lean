import Verif.Proofs.MomentsOps
import Verif.Props.FullFs
/-!
# Property C101: each call on names takes effect at one moment

Any number of threads execute calls on names, their sections interleaved in any order, with objects evicted and files removed in between.  Each call that
returns has changed names at one of its own moments at most, in the directory to which it was led, and its answer was true at that moment (`C101_moment`).
A call that ends with an exception, fails, or is still going on has changed names at one moment at most (`C101_once`), and most exceptions mean that it has
changed none (`C101_refused`).

It does not follow that overlapping calls are as good as one after the other: the directory in which a name is made may be gone by then
(`C101_orphan_violated`), and the path may at no moment have led to the file (`C101_path_violated`).

The model is `Verif/Model/FullFs.lean`.
-/

namespace Securefs.Props

open Securefs Spec

/-- C101: what a call that has returned has done, and when.  `s` is any state, with any calls going on; `evs` is what happens from the moment on at which the
    call starts. -/
theorem C101_moment {cfg : FsCfg} (hs : SameEquiv cfg.same) (s : FullSys) (op : FullOp) (evs : List FullEvent) (v : Int)
    (hv : ((s.step cfg (.start op)).run cfg evs).threads[s.threads.length]? = some (.ret v)) :
    Effect cfg.same (moments cfg s.threads.length (s.step cfg (.start op)) evs) v op := by
  have hp : (s.step cfg (.start op)).threads[s.threads.length]? = some (op.prog cfg) := by
    show (s.threads ++ [op.prog cfg])[s.threads.length]? = _
    simp
  exact (Mo.Always.history evs hp (Mo.always_op hs op)).1 v hv

/-- C101: a call changes names at no more than one moment, whether it returns, throws, is made to fail at any place, or is still going on. -/
theorem C101_once {cfg : FsCfg} (hs : SameEquiv cfg.same) (s : FullSys) (op : FullOp) (evs : List FullEvent) :
    AtMostOnce cfg.same (moments cfg s.threads.length (s.step cfg (.start op)) evs) := by
  have hp : (s.step cfg (.start op)).threads[s.threads.length]? = some (op.prog cfg) := by
    show (s.threads ++ [op.prog cfg])[s.threads.length]? = _
    simp
  obtain ⟨r, hr⟩ := (Mo.Always.history evs hp (Mo.always_op hs op)).2.2
  exact Mo.EffR.once hr

/-- C101: what a call has done that ends with an exception of its own. -/
theorem C101_refused {cfg : FsCfg} (hs : SameEquiv cfg.same) (s : FullSys) (op : FullOp) (evs : List FullEvent) (e : Err)
    (he : ((s.step cfg (.start op)).run cfg evs).threads[s.threads.length]? = some (.throw e))
    (hf : ∀ e', FullEvent.fail s.threads.length e' ∉ evs) :
    Refused cfg.same (moments cfg s.threads.length (s.step cfg (.start op)) evs) e op := by
  have hp : (s.step cfg (.start op)).threads[s.threads.length]? = some (op.prog cfg) := by
    show (s.threads ++ [op.prog cfg])[s.threads.length]? = _
    simp
  rcases (Mo.Always.history evs hp (Mo.always_op hs op)).2.1 e he with h | ⟨⟨e', h⟩, _⟩
  · exact h
  · exact absurd h (hf e')

/-! ## Examples -/

/-- The result of a thread. -/
def threadResult (s : FullSys) (i : Nat) : Option (Res Int) :=
  match s.threads[i]? with
  | some (.ret v) => some (.ok v)
  | some (.throw e) => some (.error e)
  | _ => none

theorem threadResult_ok {s : FullSys} {i : Nat} {v : Int} (h : threadResult s i = some (.ok v)) : s.threads[i]? = some (.ret v) := by
  unfold threadResult at h
  split at h
  · rename_i h1; injection h with h; injection h with h; rw [h1, h]
  · injection h with h; cases h
  · cases h

theorem threadResult_error {s : FullSys} {i : Nat} {e : Err} (h : threadResult s i = some (.error e)) : s.threads[i]? = some (.throw e) := by
  unfold threadResult at h
  split at h
  · injection h with h; cases h
  · rename_i h1; injection h with h; injection h with h; rw [h1, h]
  · cases h

/-- While `unlink /s/f` goes on, where `s` is a link to `e/../d`, another thread renames `/d` to `/q`: the file is unlinked in `/q`. -/
def unlinkRace : List FullEvent := List.replicate 13 (.step 0) ++ [.start (.rename [47, 100] [47, 113])] ++ List.replicate 12 (.step 1) ++ List.replicate 12 (.step 0)

/-- Both return 0, and the call has 16 moments. -/
example : ((FullSys.step fullDemoCfg ⟨demoFs, []⟩ (.start (.unlink [47, 115, 47, 102]))).run fullDemoCfg unlinkRace).threads[0]? = some (.ret 0) ∧
    nameAt fullDemoCfg.same (viewOf ((FullSys.step fullDemoCfg ⟨demoFs, []⟩ (.start (.unlink [47, 115, 47, 102]))).run fullDemoCfg unlinkRace).fs) kRootId [113] =
      some (fullDemoId 1, 4) ∧
    nameAt fullDemoCfg.same (viewOf ((FullSys.step fullDemoCfg ⟨demoFs, []⟩ (.start (.unlink [47, 115, 47, 102]))).run fullDemoCfg unlinkRace).fs) (fullDemoId 1) [102] =
      none ∧
    (moments fullDemoCfg 0 (FullSys.step fullDemoCfg ⟨demoFs, []⟩ (.start (.unlink [47, 115, 47, 102]))) unlinkRace).length = 16 :=
  ⟨threadResult_ok (by decide +kernel), by decide +kernel, by decide +kernel, by decide +kernel⟩

/-- `rmdir /d` throws `ENOTEMPTY`: it has removed the name, and it has thrown because the directory was not empty at a later moment. -/
example : ((FullSys.step fullDemoCfg ⟨demoFs, []⟩ (.start (.rmdir [47, 100]))).run fullDemoCfg (List.replicate 4 (.step 0))).threads[0]? = some (.throw (.vfs 39)) ∧
    (moments fullDemoCfg 0 (FullSys.step fullDemoCfg ⟨demoFs, []⟩ (.start (.rmdir [47, 100]))) (List.replicate 4 (.step 0))).map
      (fun m => nameAt fullDemoCfg.same (viewOf m.2) kRootId [100]) = [some (fullDemoId 1, 4), none, none, none] :=
  ⟨threadResult_error (by decide +kernel), by decide +kernel⟩

/-! ## What does not follow -/

/-- The calls `mkdir /a/b` and `rmdir /a`: the first has found `/a` when the second removes it. -/
def orphanRace : List FullEvent :=
  [.start (.mkdir [47, 97, 47, 98] 0x1ed 1 2 (fullDemoId 2)), .start (.rmdir [47, 97])] ++ List.replicate 4 (.step 0) ++ List.replicate 4 (.step 1) ++
    List.replicate 3 (.step 0)

/-- Calls that overlap are not as good as one after the other: `mkdir /a/b` and `rmdir /a` both succeed, and the new directory has its name in a directory that
    has none and whose backing files are due for removal.  In either order, one of the two fails. -/
theorem C101_orphan_violated :
    let fs := runOps fullDemoCfg (FullFs.fresh fullDemoCfg ⟨1, 0⟩) [.mkdir [47, 97] 0x1ed 1 2 (fullDemoId 1)]
    let s := FullSys.run fullDemoCfg ⟨fs, []⟩ orphanRace
    let mk := vmkdir fullDemoCfg [47, 97, 47, 98] 0x1ed 1 2 (fullDemoId 2)
    let rm := vrmdir fullDemoCfg [47, 97]
    s.threads[0]? = some (.ret 0) ∧ s.threads[1]? = some (.ret 0) ∧
    (viewOf s.fs kRootId).map AFile.entries = some [] ∧ linkCount s.fs (fullDemoId 1) = 0 ∧
    nameAt fullDemoCfg.same (viewOf s.fs) (fullDemoId 1) [98] = some (fullDemoId 2, 4) ∧
    (mk.run fs).1 = .ok 0 ∧ (rm.run (mk.run fs).2).1 = .error (.vfs 39) ∧
    (rm.run fs).1 = .ok 0 ∧ (mk.run (rm.run fs).2).1 = .error (.vfs 2) :=
  ⟨threadResult_ok (by decide +kernel), threadResult_ok (by decide +kernel), by decide +kernel, by decide +kernel, by decide +kernel, by decide +kernel,
    by decide +kernel, by decide +kernel, by decide +kernel⟩

/-- The call `getattr /a/f`, which has found `/a` when another thread renames it to `/x` and makes `/x/f`. -/
def pathRace : List FullEvent :=
  [.start (.getattr [47, 97, 47, 102])] ++ List.replicate 4 (.step 0) ++ [.start (.rename [47, 97] [47, 120])] ++ List.replicate 3 (.step 1) ++
    [.start (.create [47, 120, 47, 102] 0x1a4 1 2 (fullDemoId 2))] ++ List.replicate 7 (.step 2) ++ List.replicate 4 (.step 0)

/-- A path is followed at several moments: `getattr /a/f` succeeds although at no moment `/a/f` has led to a file. -/
theorem C101_path_violated :
    let fs := runOps fullDemoCfg (FullFs.fresh fullDemoCfg ⟨1, 0⟩) [.mkdir [47, 97] 0x1ed 1 2 (fullDemoId 1)]
    (FullSys.run fullDemoCfg ⟨fs, []⟩ pathRace).threads[0]? = some (.ret 0) ∧
    ∀ k ≤ pathRace.length, ∀ p, resolvePath fullDemoCfg.same (viewOf (FullSys.run fullDemoCfg ⟨fs, []⟩ (pathRace.take k)).fs) [47, 97, 47, 102] false ≠ .ok (some p) := by
  refine ⟨threadResult_ok (by decide +kernel), ?_⟩
  have h : ∀ k ≤ pathRace.length, (match resolvePath fullDemoCfg.same (viewOf (FullSys.run fullDemoCfg
      ⟨runOps fullDemoCfg (FullFs.fresh fullDemoCfg ⟨1, 0⟩) [.mkdir [47, 97] 0x1ed 1 2 (fullDemoId 1)], []⟩ (pathRace.take k)).fs) [47, 97, 47, 102] false with
    | .ok (some _) => false
    | _ => true) = true := by decide +kernel
  intro k hk p hp
  have := h k hk
  rw [hp] at this
  cases this

end Securefs.Props

import Verif.Proofs.DataSerial
import Verif.Props.Moments
/-!
# Property C106: each call on contents takes effect at one moment

Any number of threads execute calls of all kinds, their sections interleaved in any order.  A call that returns has changed the contents of one file at one of
its own moments, or none (`C106_moment`); a call that throws, fails or is still going on has changed none (`C106_only_returned`), and nothing else changes
contents, except that files without names are removed (`C106_between`).  What `read` gives is part of the contents at its moment (`C106_read`), and the size
that `fgetattr` shows is that of the contents at its moment (`C106_stat`).

It follows that calls of `read`, `write` and `ftruncate` on handles that overlap are as good as one after the other (`C106_serial`).

The model is `Verif/Model/FullFs.lean`.
-/

namespace Securefs.Props

open Securefs Spec

/-- C106: what a call that has returned has done to contents, and when.  `s` is any state, with any calls going on; `evs` is what happens from the moment on at
    which the call starts. -/
theorem C106_moment (cfg : FsCfg) (s : FullSys) (op : FullOp) (evs : List FullEvent) (v : Int)
    (hv : ((s.step cfg (.start op)).run cfg evs).threads[s.threads.length]? = some (.ret v)) :
    DataEffect cfg.same (moments cfg s.threads.length (s.step cfg (.start op)) evs) v op := by
  have hp : (s.step cfg (.start op)).threads[s.threads.length]? = some (op.prog cfg) := by
    show (s.threads ++ [op.prog cfg])[s.threads.length]? = _
    simp
  exact (Mo.Always.history evs hp (Dm.always_data cfg op)).1 v hv

/-- C106: a call that has not returned has changed no contents, whether it throws, is made to fail at any place, or is still going on. -/
theorem C106_only_returned (cfg : FsCfg) (s : FullSys) (op : FullOp) (evs : List FullEvent)
    (hv : ¬ Returned ((s.step cfg (.start op)).run cfg evs) s.threads.length) :
    AllStill (moments cfg s.threads.length (s.step cfg (.start op)) evs) := by
  have hp : (s.step cfg (.start op)).threads[s.threads.length]? = some (op.prog cfg) := by
    show (s.threads ++ [op.prog cfg])[s.threads.length]? = _
    simp
  exact Dm.not_returned evs hp (Dm.always_data cfg op) hv

/-- C106: what happens besides the sections of calls changes no contents; files without names may be removed. -/
theorem C106_between (cfg : FsCfg) (s : FullSys) (e : FullEvent) (he : ∀ i, e ≠ .step i) (id : Bytes) :
    contents (s.step cfg e).fs id = contents s.fs id ∨ (e = .reap id ∧ linkCount s.fs id = 0 ∧ contents (s.step cfg e).fs id = none) :=
  Dm.between cfg s e he id

/-- C106: `read` gives the part of the contents that is asked for, as they were at its moment: the program of the call, which stores the bytes in the buffer,
    comes to that result at this moment. -/
theorem C106_read (cfg : FsCfg) (s : FullSys) (h : FH) (off len : Nat) (evs : List FullEvent) (v : Int)
    (hv : ((s.step cfg (.start (.read h off len))).run cfg evs).threads[s.threads.length]? = some (.ret v)) :
    ∃ m b, moments cfg s.threads.length (s.step cfg (.start (.read h off len))) evs = [m] ∧ contents m.1 h.id = some b ∧
      Ran (fullRead cfg h off len) [m] (.ok (v, Spec.read b off len)) := by
  have hp : (s.step cfg (.start (.read h off len))).threads[s.threads.length]? = some ((FullOp.read h off len).prog cfg) := by
    show (s.threads ++ [(FullOp.read h off len).prog cfg])[s.threads.length]? = _
    simp
  exact Dm.ran_read ((Mo.Always.history evs hp (Dm.always_ran _)).1 v hv _ rfl)

/-- C106: the size that `fgetattr` fills in is that of the contents at its moment. -/
theorem C106_stat (cfg : FsCfg) (s : FullSys) (h : FH) (hc : h.cls ≠ 4) (evs : List FullEvent) (v : Int)
    (hv : ((s.step cfg (.start (.fgetattr h))).run cfg evs).threads[s.threads.length]? = some (.ret v)) :
    ∃ m b st, moments cfg s.threads.length (s.step cfg (.start (.fgetattr h))) evs = [m] ∧ contents m.1 h.id = some b ∧
      Ran (fullFgetattr cfg ⟨none, none⟩ h) [m] (.ok (v, some st)) ∧ st.size = some b.length := by
  have hp : (s.step cfg (.start (.fgetattr h))).threads[s.threads.length]? = some ((FullOp.fgetattr h).prog cfg) := by
    show (s.threads ++ [(FullOp.fgetattr h).prog cfg])[s.threads.length]? = _
    simp
  exact Dm.ran_stat hc ((Mo.Always.history evs hp (Dm.always_ran _)).1 v hv _ rfl)

/-- C106: calls of `read`, `write` and `ftruncate` on handles of one file are as good as one after the other, in an order in which each one that had returned
    before another one was started comes before it.  Other calls may go on at the same time, except those that change the contents of a file which they find
    by its path; the file is not removed. -/
theorem C106_serial (cfg : FsCfg) (fs : FullFs) (id b : Bytes) (hb : contents fs id = some b) (evs : List FullEvent) (hr : FullEvent.reap id ∉ evs)
    (ho : ∀ op, FullEvent.start op ∈ evs → ¬ byPath id op) : ∃ order, Serial cfg fs evs id b order := by
  obtain ⟨order, h⟩ := Dm.inv_all (cfg := cfg) hb evs.length evs rfl hr ho
  exact ⟨order, h.serial⟩

/-! ## Examples -/

/-- A file system with the file `/f`. -/
def momentFs : FullFs := runOps fullDemoCfg (FullFs.fresh fullDemoCfg ⟨1, 0⟩) [.create [47, 102] 0x1a4 1 2 (fullDemoId 1)]

/-- A handle of it. -/
def momentH : FH := ⟨fullDemoId 1, 8⟩

/-- Two threads write to the file and one reads it while a fourth one renames it; the second is first to write. -/
def momentRace : List FullEvent :=
  [.start (.write momentH 0 [1, 2]), .start (.rename [47, 102] [47, 103]), .start (.write momentH 1 [9, 9]), .step 1, .step 2, .start (.read momentH 0 10), .step 1, .step 3,
    .evict (fullDemoId 1), .step 0, .step 1, .step 1]

/-- All of them return; the reader has read what the second has written, and the first has written over it. -/
example : (List.range 4).map (threadResult (FullSys.run fullDemoCfg ⟨momentFs, []⟩ momentRace)) = [some (.ok 2), some (.ok 0), some (.ok 2), some (.ok 3)] ∧
    contents momentFs (fullDemoId 1) = some [] ∧
    (moments fullDemoCfg 3 ⟨momentFs, []⟩ momentRace).map (fun m => contents m.1 (fullDemoId 1)) = [some [0, 9, 9]] ∧
    contents (FullSys.run fullDemoCfg ⟨momentFs, []⟩ momentRace).fs (fullDemoId 1) = some [1, 2, 9] :=
  ⟨by decide +kernel, by decide +kernel, by decide +kernel, by decide +kernel⟩

/-- The hypotheses of `C106_serial` hold of it. -/
example : FullEvent.reap (fullDemoId 1) ∉ momentRace ∧ ∀ op, FullEvent.start op ∈ momentRace → ¬ byPath (fullDemoId 1) op := by
  refine ⟨?_, ?_⟩
  · intro h
    simp [momentRace] at h
  · intro op h
    simp [momentRace] at h
    rcases h with rfl | rfl | rfl | rfl <;> exact fun h => h

/-- A `truncate` by path that is made to fail after two sections: it has not returned. -/
example : ¬ Returned ((FullSys.step fullDemoCfg ⟨momentFs, []⟩ (.start (.truncate [47, 102] 5))).run fullDemoCfg [.step 0, .step 0, .fail 0 (.vfs 5)]) 0 := by
  have h : threadResult ((FullSys.step fullDemoCfg ⟨momentFs, []⟩ (.start (.truncate [47, 102] 5))).run fullDemoCfg [.step 0, .step 0, .fail 0 (.vfs 5)]) 0 =
      some (.error (.vfs 5)) := by decide +kernel
  rintro ⟨v, hv⟩
  rw [threadResult_error h] at hv
  cases hv

/-- The same call when it is not disturbed: the contents are changed at the last of its moments. -/
example : threadResult ((FullSys.step fullDemoCfg ⟨momentFs, []⟩ (.start (.truncate [47, 102] 5))).run fullDemoCfg (List.replicate 9 (.step 0))) 0 = some (.ok 0) ∧
    (moments fullDemoCfg 0 (FullSys.step fullDemoCfg ⟨momentFs, []⟩ (.start (.truncate [47, 102] 5))) (List.replicate 9 (.step 0))).map
      (fun m => contents m.2 (fullDemoId 1)) = [some [], some [], some [], some [], some [0, 0, 0, 0, 0]] :=
  ⟨by decide +kernel, by decide +kernel⟩

end Securefs.Props

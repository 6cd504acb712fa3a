import Verif.Proofs.AttrTold
import Verif.Props.DataMoments
import Verif.Props.VolThreads
/-!
# C109: modes and owners change at one moment, and what is told was true at one moment

The threads of `FullSys`, whose calls run section by section with anything in between, and the threads on an encrypted volume.
-/

namespace Securefs.Props

open Securefs Securefs.Spec

/-- C109: a call that has returned has changed the mode or the owners of one file at one of its moments, or has made a file which has them before it has a
    name, or has changed nothing of this at all: for each call as it should be. -/
theorem C109_moment (cfg : FsCfg) (s : FullSys) (op : FullOp) (evs : List FullEvent) (v : Int)
    (hv : ((s.step cfg (.start op)).run cfg evs).threads[s.threads.length]? = some (.ret v)) :
    AttrEffect cfg (moments cfg s.threads.length (s.step cfg (.start op)) evs) v op := by
  have hp : (s.step cfg (.start op)).threads[s.threads.length]? = some (op.prog cfg) := by
    show (s.threads ++ [op.prog cfg])[s.threads.length]? = _
    simp
  exact (Mo.Always.history evs hp (Am.always_attr cfg op)).1 v hv

/-- C109: a call that has not returned has changed no mode and no owner, whether it throws, is made to fail at any place, or is still going on; one that makes
    a file may have made it. -/
theorem C109_cut (cfg : FsCfg) (s : FullSys) (op : FullOp) (evs : List FullEvent) (hv : ¬ Returned ((s.step cfg (.start op)).run cfg evs) s.threads.length) :
    AttrCut cfg (moments cfg s.threads.length (s.step cfg (.start op)) evs) op := by
  have hp : (s.step cfg (.start op)).threads[s.threads.length]? = some (op.prog cfg) := by
    show (s.threads ++ [op.prog cfg])[s.threads.length]? = _
    simp
  exact Am.not_returned evs hp hv

/-- C109: what happens besides the sections of calls changes no mode and no owner; files without names may be removed. -/
theorem C109_between (cfg : FsCfg) (s : FullSys) (e : FullEvent) (he : ∀ i, e ≠ .step i) (id : Bytes) :
    owned (s.step cfg e).fs id = owned s.fs id ∨ (e = .reap id ∧ linkCount s.fs id = 0 ∧ owned (s.step cfg e).fs id = none) :=
  Am.between cfg s e he id

/-- C109: a call that has returned `v` has given an answer with this number that was true at one of its moments. -/
theorem C109_told (cfg : FsCfg) (s : FullSys) (op : FullOp) (evs : List FullEvent) (v : Int)
    (hv : ((s.step cfg (.start op)).run cfg evs).threads[s.threads.length]? = some (.ret v)) :
    ∃ x, VolAnswer.result x = v ∧ Ran (idealOp cfg op) (moments cfg s.threads.length (s.step cfg (.start op)) evs) (.ok x) ∧
      Told cfg.same (moments cfg s.threads.length (s.step cfg (.start op)) evs) op x := by
  have hp : (s.step cfg (.start op)).threads[s.threads.length]? = some (op.prog cfg) := by
    show (s.threads ++ [op.prog cfg])[s.threads.length]? = _
    simp
  have h1 := (Mo.Always.history evs hp (Dm.always_ran _)).1 v hv _ rfl
  rw [← Vt.numbered_op] at h1
  obtain ⟨x, h2, h3⟩ := Am.bind_ran h1
  exact ⟨x, h3, h2, Am.told_ran h2⟩

/-- C109: whatever a call on an encrypted volume has answered was true at one moment of the call, in one history of the plain file system that is the same for
    all calls. -/
theorem C109_volume {V : VolEnv} (hV : VolEnvOk V) {kind : Bytes → Nat} (hk : kind kRootId = 4) {now : TimeSpec} (hn : ValidTime now) (pre : List VolEvent)
    (hp : ∀ done e rest rs I, done ++ e :: rest = pre → IdealFits V.env (idealCfg V) kind ⟨FullFs.fresh (idealCfg V) now, []⟩ done rs I →
      EventFits V.env (idealCfg V) kind I e) (evs : List VolSysEvent) :
    ∃ v, volMount V [] 0 now = .ok v ∧ ∃ rs J, IdealFits V.env (idealCfg V) kind ⟨FullFs.fresh (idealCfg V) now, []⟩ pre rs J ∧
      ∃ done rest I l, done ++ rest = evs ∧ IdealMoves V.env (idealCfg V) kind ⟨J.fs, [], J.held⟩ done I ∧ AllAsFull done l ∧ started l = volStarted done ∧
      (∀ i op x, (volStarted done)[i]? = some op → volAnswer (VolSys.run V ⟨(volRun V v pre).2, []⟩ done) i = some x →
        Told (idealCfg V).same (moments (idealCfg V) i ⟨J.fs, []⟩ l) op x) ∧
      ∀ e, rest.head? = some e → ¬ MoveWithin V.env kind I e := by
  obtain ⟨v, e, rs, J, h1, done, rest, I, l, h2, h3, h4, h5, h6, h7⟩ := C107_answers hV hk hn pre hp evs
  refine ⟨v, e, rs, J, h1, done, rest, I, l, h2, h3, h4, h5, fun i op x hop hx => ?_, h7⟩
  obtain ⟨b, hl, hr⟩ := h6 i op x hop hx
  exact Am.told_like (Am.told_ran hr) hl

/-! ## Examples -/

/-- One thread changes the mode of `/f`, another one its owner, and a third one makes `/g`, while a fourth one asks for the attributes of `/f`. -/
def attrRace : List FullEvent :=
  [.start (.chmod [47, 102] 0o7777), .start (.chown [47, 102] 7 0xffffffff), .start (.create [47, 103] 0o640 3 4 (fullDemoId 2)), .start (.getattr [47, 102])] ++
    (List.range 5).flatMap (fun _ => [.step 0, .step 3, .step 2, .step 1])

/-- All of them return; the last has seen the new mode and the old owner. -/
example : (List.range 4).map (threadResult (FullSys.run fullDemoCfg ⟨momentFs, []⟩ attrRace)) = [some (.ok 0), some (.ok 0), some (.ok 0), some (.ok 0)] ∧
    owned momentFs (fullDemoId 1) = some (0x81a4, 1, 2) ∧
    ((moments fullDemoCfg 3 ⟨momentFs, []⟩ attrRace).map (fun m => owned m.1 (fullDemoId 1))).getLast? = some (some (0x81ff, 1, 2)) ∧
    owned (FullSys.run fullDemoCfg ⟨momentFs, []⟩ attrRace).fs (fullDemoId 1) = some (0x81ff, 7, 2) ∧
    owned (FullSys.run fullDemoCfg ⟨momentFs, []⟩ attrRace).fs (fullDemoId 2) = some (0x81a0, 3, 4) :=
  ⟨by decide +kernel, by decide +kernel, by decide +kernel, by decide +kernel, by decide +kernel⟩

/-- A `create` that is made to fail after the file has come to be: it has not returned. -/
example : ¬ Returned ((FullSys.step fullDemoCfg ⟨momentFs, []⟩ (.start (.create [47, 103] 0o640 3 4 (fullDemoId 2)))).run fullDemoCfg [.step 0, .step 0, .fail 0 (.vfs 5)]) 0 ∧
    owned ((FullSys.step fullDemoCfg ⟨momentFs, []⟩ (.start (.create [47, 103] 0o640 3 4 (fullDemoId 2)))).run fullDemoCfg [.step 0, .step 0, .fail 0 (.vfs 5)]).fs
      (fullDemoId 2) = some (0x81a0, 3, 4) := by
  refine ⟨?_, by decide +kernel⟩
  have h : threadResult ((FullSys.step fullDemoCfg ⟨momentFs, []⟩ (.start (.create [47, 103] 0o640 3 4 (fullDemoId 2)))).run fullDemoCfg
      [.step 0, .step 0, .fail 0 (.vfs 5)]) 0 = some (.error (.vfs 5)) := by decide +kernel
  rintro ⟨v, hv⟩
  rw [threadResult_error h] at hv
  cases hv

end Securefs.Props

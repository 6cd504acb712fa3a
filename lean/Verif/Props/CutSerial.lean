import Verif.Proofs.CutSerial
import Verif.Props.VolMoments
import Verif.Props.VolSerial
/-!
# C111: all calls on the contents of a file are as good as one after the other

As C106 and C108, with the calls that cut off a file which they find by its path.  The specification is `Verif/Spec/CutSerial.lean`.
-/

namespace Securefs.Props

open Securefs Spec Vol

/-- C111: for the contents of a file, any number of overlapping calls are as good as some of them one after the other, and the rest not at all: calls through
    handles, `truncate`, and `open` with `O_TRUNC`, where those that find the file by a path do so while others rename, link and remove it.  The file is
    not removed meanwhile. -/
theorem C111_serial (cfg : FsCfg) (fs : FullFs) (id b : Bytes) (hb : contents fs id = some b) (evs : List FullEvent) (hr : FullEvent.reap id ∉ evs) :
    ∃ order, CutSerial cfg fs evs id b order := by
  obtain ⟨order, h⟩ := Cs.inv_all (cfg := cfg) hb evs.length evs rfl hr
  exact ⟨order, h.serial⟩

/-- C111: the same on an encrypted volume, with the answers that callers get. -/
theorem C111_volume {V : VolEnv} (hV : VolEnvOk V) {kind : Bytes → Nat} (hk : kind kRootId = 4) {now : TimeSpec} (hn : ValidTime now) (pre : List VolEvent)
    (hp : ∀ done e rest rs I, done ++ e :: rest = pre → IdealFits V.env (idealCfg V) kind ⟨FullFs.fresh (idealCfg V) now, []⟩ done rs I →
      EventFits V.env (idealCfg V) kind I e) (evs : List VolSysEvent) :
    ∃ v, volMount V [] 0 now = .ok v ∧ ∃ rs J, IdealFits V.env (idealCfg V) kind ⟨FullFs.fresh (idealCfg V) now, []⟩ pre rs J ∧
      ∃ done rest I l, done ++ rest = evs ∧ IdealMoves V.env (idealCfg V) kind ⟨J.fs, [], J.held⟩ done I ∧ AllAsFull done l ∧
      (∀ e, rest.head? = some e → ¬ MoveWithin V.env kind I e) ∧
      ∀ id b, contents J.fs id = some b → VolSysEvent.close id ∉ evs →
        ∃ order, CutSerial (idealCfg V) J.fs l id b order ∧ VolCutSerial V ⟨(volRun V v pre).2, []⟩ done id b order := by
  obtain ⟨v, e, rs, J, h1, h2, h3⟩ := Vt.begin_ok hV hn hk pre hp
  obtain ⟨done, rest, l, I, h4, h5, h6, h7⟩ := Vt.sim_run hV evs h3
  refine ⟨v, e, rs, J, h1, done, rest, I, l, h4, h5, h6.full, h7, fun id b hb hc => ?_⟩
  have hm := Vt.mem_as h6.full
  have hsub : ∀ x, x ∈ done → x ∈ evs := fun x hx => h4 ▸ List.mem_append_left _ hx
  obtain ⟨order, hs⟩ := C111_serial (idealCfg V) J.fs id b hb l (fun h => hc (hsub _ (hm.2 id h)))
  exact ⟨order, hs, Vt.cut_ok rfl h6 hs⟩

/-! ## Examples -/

/-- A thread cuts `/f` off to one byte by its path and another one renames it to `/g` meanwhile, while a third one writes to it and a fourth one opens `/f` with
    `O_TRUNC`, which comes too late. -/
def cutRace : List FullEvent :=
  [.start (.truncate [47, 102] 1), .start (.rename [47, 102] [47, 103]), .start (.write ⟨fullDemoId 1, 8⟩ 0 [7, 8, 9]), .start (.open [47, 102] true),
    .step 0, .step 0, .step 0, .step 2] ++ (List.range 8).flatMap (fun _ => [.step 1]) ++ (List.range 8).flatMap (fun _ => [.step 0, .step 3])

/-- The write and the truncation by the old path have taken place, and the file has another name; `open` has found nothing. -/
example : contents momentFs (fullDemoId 1) = some [] ∧ FullEvent.reap (fullDemoId 1) ∉ cutRace ∧
    (List.range 4).map (threadResult (FullSys.run fullDemoCfg ⟨momentFs, []⟩ cutRace)) = [some (.ok 0), some (.ok 0), some (.ok 3), some (.ok (-2))] ∧
    contents (FullSys.run fullDemoCfg ⟨momentFs, []⟩ cutRace).fs (fullDemoId 1) = some [7] := by
  refine ⟨by decide +kernel, ?_, by decide +kernel, by decide +kernel⟩
  intro h
  simp [cutRace] at h

/-- The hypotheses of `C111_volume` hold for the volume and the history of C107, where the file of the handle has contents and is not closed. -/
example : VolEnvOk c85vol ∧ c107kind kRootId = 4 ∧ ValidTime ⟨1, 0⟩ ∧
    (∀ done e rest rs I, done ++ e :: rest = c107pre → IdealFits c85vol.env (idealCfg c85vol) c107kind ⟨FullFs.fresh (idealCfg c85vol) ⟨1, 0⟩, []⟩ done rs I →
      EventFits c85vol.env (idealCfg c85vol) c107kind I e) ∧
    contents (preEnd (idealCfg c85vol) ⟨FullFs.fresh (idealCfg c85vol) ⟨1, 0⟩, []⟩ c107pre).fs (fullDemoId 2) = some [] ∧
    VolSysEvent.close (fullDemoId 2) ∉ c107evs := by
  refine ⟨c85vol_ok, by decide +kernel, by decide, fun done e rest rs I hd hf => preCheck_sound done e rest rs _ I (hd ▸ c107pre_ok) hf, by decide +kernel, ?_⟩
  intro h
  simp [c107evs] at h

end Securefs.Props

import Verif.Props.VolThreads
import Verif.Props.DataMoments
/-!
# C108: overlapping calls on a file of an encrypted volume are as good as one after the other

The model is `Verif/Model/VolThreads.lean`, the specification `Verif/Spec/VolSerial.lean`.
-/

namespace Securefs.Props

open Securefs Spec Vol

/-- C108: a new volume is mounted, used for a while, and then by any number of threads at once.  The calls of `read`, `write` and `ftruncate` through handles on
    a file give the answers that they give one after the other, in an order in which each one that had returned before another one was started comes before
    it, up to the first event that exceeds a limit, if there is one.  Between any two sections the encrypted backing files may be written and read back.
    Other calls may go on at the same time, except those that change the contents of a file which they find by its path; the object of the file is
    not closed. -/
theorem C108_serial {V : VolEnv} (hV : VolEnvOk V) {kind : Bytes → Nat} (hk : kind kRootId = 4) {now : TimeSpec} (hn : ValidTime now) (pre : List VolEvent)
    (hp : ∀ done e rest rs I, done ++ e :: rest = pre → IdealFits V.env (idealCfg V) kind ⟨FullFs.fresh (idealCfg V) now, []⟩ done rs I →
      EventFits V.env (idealCfg V) kind I e) (evs : List VolSysEvent) :
    ∃ v, volMount V [] 0 now = .ok v ∧ ∃ rs J, IdealFits V.env (idealCfg V) kind ⟨FullFs.fresh (idealCfg V) now, []⟩ pre rs J ∧
      ∃ done rest I, done ++ rest = evs ∧ IdealMoves V.env (idealCfg V) kind ⟨J.fs, [], J.held⟩ done I ∧
      (∀ e, rest.head? = some e → ¬ MoveWithin V.env kind I e) ∧
      ∀ id b, contents J.fs id = some b → VolSysEvent.close id ∉ evs → (∀ op, VolSysEvent.start op ∈ evs → ¬ byPath id op) →
        ∃ order, VolSerial V ⟨(volRun V v pre).2, []⟩ done id b order := by
  obtain ⟨v, e, rs, J, h1, h2, h3⟩ := Vt.begin_ok hV hn hk pre hp
  obtain ⟨done, rest, l, I, h4, h5, h6, h7⟩ := Vt.sim_run hV evs h3
  refine ⟨v, e, rs, J, h1, done, rest, I, h4, h5, h7, fun id b hb hc ho => ?_⟩
  have hm := Vt.mem_as h6.full
  have hsub : ∀ x, x ∈ done → x ∈ evs := fun x hx => h4 ▸ List.mem_append_left _ hx
  obtain ⟨order, hs⟩ := C106_serial (idealCfg V) J.fs id b hb l (fun h => hc (hsub _ (hm.2 id h))) fun op h => ho op (hsub _ (hm.1 op h))
  exact ⟨order, Vt.serial_ok rfl h6 hs⟩

/-! ## A case -/

/-- Two threads write to the file `/d/f` and one reads it while a fourth one moves it. -/
def c108evs : List VolSysEvent :=
  [.start (.write c85file 0 [1, 2]), .start (.rename [47, 100, 47, 102] [47, 103]), .start (.write c85file 1 [9, 9]), .step 1, .step 2,
    .start (.read c85file 0 10), .step 1, .step 1, .step 3, .step 0, .step 1, .step 1, .step 1, .step 1, .step 1]

theorem c108evs_ok : movesCheck c85vol.env (idealCfg c85vol) c107kind
    ⟨(preEnd (idealCfg c85vol) ⟨FullFs.fresh (idealCfg c85vol) ⟨1, 0⟩, []⟩ c107pre).fs, [],
      (preEnd (idealCfg c85vol) ⟨FullFs.fresh (idealCfg c85vol) ⟨1, 0⟩, []⟩ c107pre).held⟩ c108evs = true := by decide +kernel

/-- The hypotheses hold, and no event is beyond the limits. -/
example : contents (preEnd (idealCfg c85vol) ⟨FullFs.fresh (idealCfg c85vol) ⟨1, 0⟩, []⟩ c107pre).fs (fullDemoId 2) = some [] ∧
    VolSysEvent.close (fullDemoId 2) ∉ c108evs ∧ (∀ op, VolSysEvent.start op ∈ c108evs → ¬ byPath (fullDemoId 2) op) ∧
    ∀ rs J done e rest I, IdealFits c85vol.env (idealCfg c85vol) c107kind ⟨FullFs.fresh (idealCfg c85vol) ⟨1, 0⟩, []⟩ c107pre rs J →
      done ++ e :: rest = c108evs → IdealMoves c85vol.env (idealCfg c85vol) c107kind ⟨J.fs, [], J.held⟩ done I → MoveWithin c85vol.env c107kind I e := by
  refine ⟨by decide +kernel, ?_, ?_, fun rs J done e rest I hf hd hm => ?_⟩
  · intro h
    simp [c108evs] at h
  · intro op h
    simp [c108evs] at h
    rcases h with rfl | rfl | rfl | rfl <;> exact fun h => h
  · have hJ := preEnd_unique _ _ _ _ c107pre_ok hf
    subst hJ
    exact movesCheck_sound done e rest _ I (hd ▸ c108evs_ok) hm

/-- The answers on the encrypted volume. -/
def c108seen : List (Option VolAnswer) :=
  match volMount c85vol [] 0 ⟨1, 0⟩ with
  | .ok v => (List.range 4).map (volAnswer (VolSys.run c85vol ⟨(volRun c85vol v c107pre).2, []⟩ c108evs))
  | .error _ => []

set_option maxRecDepth 100000 in
/-- All four have returned; the reader has read what the third thread had written, and not what the first one then wrote. -/
example : c108seen = [some (.code 2), some (.code 0), some (.code 2), some (.bytes 3 [0, 9, 9])] := by decide +kernel

end Securefs.Props

import Verif.Proofs.VolMoments
import Verif.Props.Moments
import Verif.Props.AttrMoments
/-!
# C110: calls of threads on an encrypted volume take effect at one moment

Threads on a mounted volume of encrypted files: for the whole of a history, until the first event outside the limits of the format, there is one history of the
plain file system in which each call has its effects on names, contents, modes and owners at one of its own moments, and has answered what was true then.
-/

namespace Securefs.Props

open Securefs Securefs.Spec

/-- C110: each call on the volume that has returned has taken effect at one moment of its own, each other one may have changed names at one moment and nothing
    else, and one that has been refused has done what it may before it is refused. -/
theorem C110_moments {V : VolEnv} (hV : VolEnvOk V) {kind : Bytes → Nat} (hk : kind kRootId = 4) {now : TimeSpec} (hn : ValidTime now) (pre : List VolEvent)
    (hp : ∀ done e rest rs I, done ++ e :: rest = pre → IdealFits V.env (idealCfg V) kind ⟨FullFs.fresh (idealCfg V) now, []⟩ done rs I →
      EventFits V.env (idealCfg V) kind I e) (evs : List VolSysEvent) :
    ∃ v, volMount V [] 0 now = .ok v ∧ ∃ rs J, IdealFits V.env (idealCfg V) kind ⟨FullFs.fresh (idealCfg V) now, []⟩ pre rs J ∧
      ∃ done rest I l, done ++ rest = evs ∧ IdealMoves V.env (idealCfg V) kind ⟨J.fs, [], J.held⟩ done I ∧ AllAsFull done l ∧ started l = volStarted done ∧
      (∀ i op, (volStarted done)[i]? = some op →
        (∀ x, volAnswer (VolSys.run V ⟨(volRun V v pre).2, []⟩ done) i = some x → Done (idealCfg V) (moments (idealCfg V) i ⟨J.fs, []⟩ l) op x) ∧
        (volAnswer (VolSys.run V ⟨(volRun V v pre).2, []⟩ done) i = none → Undone (idealCfg V) (moments (idealCfg V) i ⟨J.fs, []⟩ l) op) ∧
        ∀ e, volThrown (VolSys.run V ⟨(volRun V v pre).2, []⟩ done) i = some e → (∀ e', VolSysEvent.fail i e' ∉ done) →
          Refused (idealCfg V).same (moments (idealCfg V) i ⟨J.fs, []⟩ l) e op) ∧
      ∀ e, rest.head? = some e → ¬ MoveWithin V.env kind I e := by
  obtain ⟨v, e, rs, J, h1, h2, h3⟩ := Vt.begin_ok hV hn hk pre hp
  obtain ⟨done, rest, l, I, h4, h5, h6, h7⟩ := Vt.sim_run hV evs h3
  have hsame : SameEquiv (idealCfg V).same := Vol.sameEquiv_of hV.names
  have hrun := h6.came.run
  refine ⟨v, e, rs, J, h1, done, rest, I, l, h4, h5, h6.full, Vt.started_all h6.full, fun i op hop => ?_, h7⟩
  rw [← Vt.started_all h6.full] at hop
  obtain ⟨l1, l2, hl, hlen, hm⟩ := Vt.at_start (idealCfg V) i op l ⟨J.fs, []⟩ (Nat.zero_le _) hop
  generalize hs1 : FullSys.run (idealCfg V) ⟨J.fs, []⟩ l1 = s1 at hlen hm
  have hend : (s1.step (idealCfg V) (.start op)).run (idealCfg V) l2 = ⟨I.fs, I.threads.map numbered⟩ := by
    rw [← hrun, hl, Dm.run_append, ← hs1]
    rfl
  subst hlen
  rw [hm]
  refine ⟨fun x hx => ?_, fun hx => ?_, fun er he hf => ?_⟩
  · obtain ⟨c, hc, hlike⟩ := (h6.last.answer _).1 x hx
    have hv : ((s1.step (idealCfg V) (.start op)).run (idealCfg V) l2).threads[s1.threads.length]? = some (.ret (VolAnswer.result x)) := by
      rw [hend, Vt.result_like hlike]
      show (I.threads.map numbered)[_]? = _
      rw [List.getElem?_map, hc]
      rfl
    refine ⟨C101_moment hsame s1 op l2 _ hv, C106_moment _ s1 op l2 _ hv, C109_moment _ s1 op l2 _ hv, ?_⟩
    obtain ⟨p', e1, f1⟩ := h6.came.new _ op hop
    simp only [List.length_nil, Nat.zero_add] at e1 f1
    rw [hc] at e1
    injection e1 with e1
    subst e1
    have hr := f1 [] c (.ret c)
    rw [List.append_nil] at hr
    have := Am.told_like (Am.told_ran hr) hlike
    rw [← hm]
    exact this
  · have hv : ¬ Returned ((s1.step (idealCfg V) (.start op)).run (idealCfg V) l2) s1.threads.length := by
      rw [hend, Vt.returned_iff]
      rintro ⟨b, hb⟩
      obtain ⟨a, ha, _⟩ := (h6.last.answer _).2 b hb
      rw [ha] at hx
      cases hx
    exact ⟨C101_once hsame s1 op l2, C106_only_returned _ s1 op l2 hv, C109_cut _ s1 op l2 hv⟩
  · refine C101_refused hsame s1 op l2 er ?_ fun e' hmem => hf e' (Vt.fail_all h6.full _ e' ?_)
    · rw [hend]
      show (I.threads.map numbered)[_]? = _
      rw [List.getElem?_map, h6.last.thrown _ er he]
      rfl
    · rw [hl]
      exact List.mem_append_right _ (.tail _ hmem)

/-! ## Examples -/

/-- The hypotheses of `C110_moments` and of `C109_volume` hold for the volume and the history of C107, where one call writes to a file, one moves it and one
    asks for its attributes. -/
example : VolEnvOk c85vol ∧ c107kind kRootId = 4 ∧ ValidTime ⟨1, 0⟩ ∧
    ∀ done e rest rs I, done ++ e :: rest = c107pre → IdealFits c85vol.env (idealCfg c85vol) c107kind ⟨FullFs.fresh (idealCfg c85vol) ⟨1, 0⟩, []⟩ done rs I →
      EventFits c85vol.env (idealCfg c85vol) c107kind I e :=
  ⟨c85vol_ok, by decide +kernel, by decide, fun done e rest rs I hd hf => preCheck_sound done e rest rs _ I (hd ▸ c107pre_ok) hf⟩

/-- The write has changed the contents at its one moment in that history. -/
example : (moments (idealCfg c85vol) 2 ⟨(preEnd (idealCfg c85vol) ⟨FullFs.fresh (idealCfg c85vol) ⟨1, 0⟩, []⟩ c107pre).fs, []⟩
      (c107evs.flatMap fun e => match e with | .start op => [.start op] | .step i => [.step i] | _ => [])).map
        (fun m => (contents m.1 (fullDemoId 2), contents m.2 (fullDemoId 2))) = [(some [], some [0, 0, 0, 1, 2, 3])] := by
  decide +kernel

end Securefs.Props

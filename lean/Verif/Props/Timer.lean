import Verif.Proofs.Timer
/-!
# C49: the idle timer
-/

namespace Securefs.Props

open Securefs Spec

/-- The decision to run the callback is made at a time that is not before the point in time that was set last, in any history. -/
theorem C49_not_early (epoch : Int) (evs : List TimerEv) (clock now : Int) (h0 : ((Timer.init epoch).run evs).pc ≠ .fired)
    (h : ((Timer.init epoch).run (evs ++ [.work clock now])).pc = .fired) :
    ∀ t, (timePoints evs ++ [epoch]).head? = some t → now ≥ t := by
  intro t ht
  rw [Timer.run_trigger] at ht
  injection ht with ht
  rw [Timer.run_snoc] at h
  rw [← ht]
  exact Timer.work_fires h0 h

/-- Set to 100 and then to 150; the work thread wakes at 100, waits again, and fires at 151. -/
example : ((Timer.init 0).run [.set 100, .work 1 1, .set 150, .work 100 101, .work 102 102]).pc = .waiting 150 ∧
    ((Timer.init 0).run ([.set 100, .work 1 1, .set 150, .work 100 101, .work 102 102] ++ [.work 150 151])).pc = .fired := by decide

/-- C49, that the callback runs, as far as it holds: when the points in time were set in order, the next two steps of the work thread at a
    time that is not before the last of them run the callback, unless it has run already.  Missing: a point in time that is earlier than
    the one before may be overlooked (`C49_late_violated`). -/
theorem C49_runs_partial (epoch : Int) (evs : List TimerEv) (hs : NoShutdown evs) (ho : InOrder epoch evs) {t : Int}
    (ht : (timePoints evs).head? = some t) {c1 n1 : Int} (hc : c1 ≥ t) (hn : n1 ≥ t) (c2 n2 : Int) :
    ((Timer.init epoch).run (evs ++ [.work c1 n1, .work c2 n2])).pc = .called := by
  have htr := Timer.run_trigger epoch evs
  rw [List.head?_append, ht] at htr
  injection htr with htr
  obtain ⟨h1, h2⟩ := Timer.run_started epoch evs hs
  rw [Timer.run_append]
  refine Timer.fires (Timer.run_exiting epoch evs hs) h1 (h2 (fun he => by rw [he] at ht; cases ht)) (by rw [← htr]; exact hn)
    (by rw [← htr]; exact hc) ?_
  intro d hd
  have hmem := Timer.run_deadline epoch evs d hd
  have hle : d ≤ t := by
    cases hp : timePoints evs with
    | nil => rw [hp] at ht; cases ht
    | cons a rest =>
      rw [hp] at ht hmem
      injection ht with ht
      subst ht
      have ho : (timePoints evs ++ [epoch]).Pairwise (· ≥ ·) := ho
      rw [hp, List.cons_append, List.pairwise_cons] at ho
      rcases List.mem_cons.mp hmem with rfl | hmem
      · exact Int.le_refl _
      · exact ho.1 _ hmem
  omega

/-- A point in time that is earlier than the one before is noticed at once if it is the last that was set: the next two steps of the work
    thread at or after it run the callback, although the thread may be waiting for a later one. -/
theorem C49_earlier (epoch : Int) (evs : List TimerEv) (hs : NoShutdown evs) {t : Int}
    (ht : ∀ u, (timePoints evs ++ [epoch]).head? = some u → t < u) {c1 n1 : Int} (hc : c1 ≥ t) (hn : n1 ≥ t) (c2 n2 : Int) :
    ((Timer.init epoch).run (evs ++ [.set t] ++ [.work c1 n1, .work c2 n2])).pc = .called := by
  have htr := ht _ (Timer.run_trigger epoch evs)
  rw [Timer.run_append, Timer.run_snoc]
  obtain ⟨h1, _⟩ := Timer.run_started epoch evs hs
  exact Timer.fires_woken htr (Timer.run_exiting epoch evs hs) h1 hc hn

/-- The thread waits for 100 when 50 is set; it fires at 51. -/
example : NoShutdown [.set 100, .work 1 1] ∧ (timePoints [.set 100, .work 1 1] ++ [0]).head? = some 100 ∧
    ((Timer.init 0).run [.set 100, .work 1 1]).pc = .waiting 100 ∧
    ((Timer.init 0).run ([.set 100, .work 1 1] ++ [.set 50] ++ [.work 51 51, .work 52 52])).pc = .called := by
  refine ⟨by unfold NoShutdown; decide, by decide, by decide, by decide⟩

/-- In any history the callback runs when it is not before any of the points in time that were set. -/
theorem C49_runs_late (epoch : Int) (evs : List TimerEv) (hs : NoShutdown evs) (hne : timePoints evs ≠ []) {c1 n1 : Int}
    (hc : ∀ t ∈ timePoints evs ++ [epoch], c1 ≥ t) (hn : ∀ t ∈ timePoints evs ++ [epoch], n1 ≥ t) (c2 n2 : Int) :
    ((Timer.init epoch).run (evs ++ [.work c1 n1, .work c2 n2])).pc = .called := by
  have htr := List.mem_of_mem_head? (Timer.run_trigger epoch evs)
  obtain ⟨h1, h2⟩ := Timer.run_started epoch evs hs
  rw [Timer.run_append]
  exact Timer.fires (Timer.run_exiting epoch evs hs) h1 (h2 hne) (hn _ htr) (hc _ htr)
    fun d hd => hc _ (Timer.run_deadline epoch evs d hd)

example : NoShutdown [.set 100, .work 1 1, .set 150] ∧ InOrder 0 [.set 100, .work 1 1, .set 150] ∧
    (timePoints [.set 100, .work 1 1, .set 150]).head? = some 150 ∧
    ((Timer.init 0).run [.set 100, .work 1 1, .set 150]).pc = .waiting 100 := by
  refine ⟨by unfold NoShutdown; decide, by unfold InOrder; decide, by decide, by decide⟩

example : NoShutdown [.set 100, .work 1 1, .set 50, .set 60] ∧ timePoints [.set 100, .work 1 1, .set 50, .set 60] = [60, 50, 100] := by
  refine ⟨by unfold NoShutdown; decide, by decide⟩

/-- C49 does not hold when a later call sets a later time before the work thread has seen an earlier one: the wake-up is lost.  After
    `100`, `50` and `60`, with nothing set after, the thread sleeps at every time before `100`, however many steps it is given. -/
theorem C49_late_violated (steps : List (Int × Int)) (h : ∀ p ∈ steps, p.1 < 100) :
    ((Timer.init 0).run ([.set 100, .work 1 1, .set 50, .set 60] ++ steps.map fun p => .work p.1 p.2)).pc = .waiting 100 := by
  rw [Timer.run_append]
  have hs : (Timer.init 0).run [.set 100, .work 1 1, .set 50, .set 60] = ⟨60, false, false, .waiting 100⟩ := by decide
  rw [hs]
  induction steps with
  | nil => rfl
  | cons p rest ih =>
    have h1 : (⟨60, false, false, .waiting 100⟩ : Timer).work p.1 p.2 = ⟨60, false, false, .waiting 100⟩ := by
      have := h p List.mem_cons_self
      unfold Timer.work
      dsimp only
      rw [if_neg]
      rintro (hh | hh | hh)
      · cases hh
      · cases hh
      · omega
    show (((⟨60, false, false, .waiting 100⟩ : Timer).work p.1 p.2).run (rest.map fun p => .work p.1 p.2)).pc = _
    rw [h1]
    exact ih fun q hq => h q (List.mem_cons_of_mem _ hq)

/-- A timer that has run its callback cannot be set again: the callback is never called a second time. -/
theorem C49_not_rearmed (s : Timer) (h : s.pc = .called) (evs : List TimerEv) : (s.run evs).pc = .called := by
  induction evs generalizing s with
  | nil => exact h
  | cons e rest ih =>
    refine ih _ ?_
    cases e with
    | set t => show (if s.pc = .absent then _ else s.pc) = _; rw [h, if_neg nofun]
    | work c n => show (s.work c n).pc = _; unfold Timer.work; rw [h]; exact h
    | shutdown => exact h

example : ((Timer.init 0).run [.set 5, .work 6 6, .work 7 7]).pc = .called := by decide

/-! ## The idle hook -/

/-- The hook before the first activity. -/
def idleInit (epoch : Int) : IdleHook := ⟨Timer.init epoch, []⟩

/-- C49 for the hook as far as it holds: if every activity is recorded before the next begins and the clock does not go back, then the
    decision to shut down is made no earlier than the timeout after the last activity, and it is made, and the callback run, in the next two
    steps of the work thread at or after that time.  Missing: threads that overtake each other between reading the clock and setting the
    timer, and activity between the decision and the callback (`C49_idle_violated`). -/
theorem C49_idle_partial (epoch timeout : Int) (us : List Use) {a : Int} (ha : (activities us).head? = some a)
    (hmono : ((activities us).map (· + timeout) ++ [epoch]).Pairwise (· ≥ ·)) :
    (∀ clock now, ((idleInit epoch).run timeout (useEvents us)).timer.pc ≠ .fired →
      ((idleInit epoch).run timeout (useEvents (us ++ [.work clock now]))).timer.pc = .fired → now ≥ a + timeout) ∧
    (∀ c1 n1 c2 n2, c1 ≥ a + timeout → n1 ≥ a + timeout →
      ((idleInit epoch).run timeout (useEvents (us ++ [.work c1 n1, .work c2 n2]))).timer.pc = .called) := by
  have hrun : ∀ us', ((idleInit epoch).run timeout (useEvents us')).timer = (Timer.init epoch).run (timerEvents timeout us') :=
    fun us' => (IdleHook.run_use timeout us' (idleInit epoch) rfl).1
  have happ : ∀ x y, timerEvents timeout (x ++ y) = timerEvents timeout x ++ timerEvents timeout y := by
    intro x y
    induction x with
    | nil => rfl
    | cons u rest ih => cases u <;> simp [timerEvents, ih]
  have hhead : (timePoints (timerEvents timeout us)).head? = some (a + timeout) := by
    rw [timePoints_timerEvents, List.head?_map, ha]; rfl
  refine ⟨?_, ?_⟩
  · intro clock now h0 h
    rw [hrun] at h0
    rw [hrun, happ] at h
    exact C49_not_early epoch _ clock now h0 h _ (by rw [List.head?_append, hhead]; rfl)
  · intro c1 n1 c2 n2 hc hn
    rw [hrun, happ]
    exact C49_runs_partial epoch _ (noShutdown_timerEvents timeout us) (by unfold InOrder; rw [timePoints_timerEvents]; exact hmono) hhead hc hn c2 n2

example : (activities [.activity 1 10, .work 11 11, .activity 2 20]).head? = some 20 ∧
    ((activities [.activity 1 10, .work 11 11, .activity 2 20]).map (· + 60) ++ [0]).Pairwise (· ≥ ·) := by decide

/-- C49 does not hold for the hook when threads overtake each other: thread 1 reads the clock at 10, thread 2 reads it at 20 and sets the
    timer, then thread 1 sets it; with a timeout of 60 the callback runs at 70, although the last activity was at 20.  Nor does it when
    activity falls between the decision and the callback. -/
theorem C49_idle_violated :
    ((idleInit 0).run 60 [.read 1 10, .read 2 20, .apply 2, .apply 1, .work 70 70, .work 70 70]).timer.pc = .called ∧
    ((idleInit 0).run 60 [.read 1 10, .apply 1, .work 70 70, .read 2 71, .apply 2, .work 71 71]).timer.pc = .called := by decide

end Securefs.Props

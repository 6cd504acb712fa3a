import Verif.Proofs.Shutdown
/-!
# C69: serving requests and shutting down
-/

namespace Securefs.Props

open Spec

/-- No worker is interrupted while it processes a request: in every state that can be reached, by any interleaving, every request that a
    worker has received has been processed to the end, but for the one it is at, and cancellation is disabled for a worker that is at
    one. -/
theorem C69_no_interruption {n : Nat} {s : SrvSys} (h : SrvReaches n s) :
    NoneLost s ∧ ∀ i, (s.w i).pc = .handling → (s.w i).enabled = false :=
  ⟨fun i _ => ((srv_reaches h).worker i).count, fun i => ((srv_reaches h).worker i).handling⟩

/-- The end of any worker, whatever the reason, is noticed: the waiting thread has woken up, or there is a byte in the pipe for it. -/
theorem C69_noticed {n : Nat} {s : SrvSys} (h : SrvReaches n s) {i : Nat} (hi : i < s.n) (he : (s.w i).pc = .ended) :
    s.waiter ≠ .reading ∨ 0 < s.pipe := by
  by_cases hw : s.waiter = .reading
  · exact .inr ((srv_reaches h).woken hw ⟨i, hi, he⟩)
  · exact .inl hw

/-- A signal is never lost: as long as the waiting thread has not woken up, the byte stays in the pipe, and it can be read. -/
theorem C69_signal {s s' : SrvSys} {es : List SrvEv} (hp : 0 < s.pipe ∨ s.waiter ≠ .reading)
    (hr : s.run es = some s') : 0 < s'.pipe ∨ s'.waiter ≠ .reading := by
  induction es generalizing s with
  | nil => cases hr; exact hp
  | cons e es ih =>
    unfold SrvSys.run at hr
    split at hr
    · cases hr
    · rename_i s1 h1
      refine ih ?_ hr
      unfold SrvSys.step at h1
      split at h1
      · cases h1
      have hn : ∀ t : SrvSys, 0 < t.note.pipe := note_pos
      cases e <;> dsimp only at h1 <;> repeat' split at h1
      all_goals first
        | (cases h1; done)
        | (cases h1; exact hp)
        | (cases h1; exact .inl (hn _))
        | (cases h1; exact .inr nofun)
        | (cases h1; split <;> first | exact .inl (hn _) | exact hp)

/-- Once the waiting thread has woken up, the shutdown never gets stuck: until all threads have ended, some thread can go on by itself, even if
    the kernel sends no more requests.  And it takes a bounded number of steps, even if it does. -/
theorem C69_ends {n : Nat} {s : SrvSys} (h : SrvReaches n s) (hw : s.waiter ≠ .reading) (ha : s.aborted = false) :
    (¬ Joined s → ∃ e s', OwnStep e ∧ s.step e = some s') ∧
    ∃ bound, s.exited = true → ∀ es s', s.run es = some s' → (es.filter (· ≠ .signal)).length ≤ bound :=
  ⟨fun hj => srv_progress (srv_reaches h) ha hw hj, s.left, fun hx es s' hr => by have := run_left hx hr; omega⟩

/-- The result is an error exactly if receiving has failed, and then it is the number of the last failure. -/
theorem C69_result {n : Nat} {s : SrvSys} (h : SrvReaches n s) :
    s.errorCode = s.failures.headD 0 ∧ (s.errorCode = 0 ↔ s.failures = []) := by
  obtain ⟨h1, h2⟩ := (srv_reaches h).err
  refine ⟨h1, ?_⟩
  rw [h1]
  cases hf : s.failures with
  | nil => simp
  | cons c cs =>
    rw [hf] at h2
    have := h2 c (by simp)
    simp
    omega

/-- If every worker has begun to wait for its first request before the shutdown starts, the process is not aborted. -/
theorem C69_no_abort_partial {n : Nat} {s s' : SrvSys} {es : List SrvEv} (h : SrvReaches n s) (ha : s.aborted = false)
    (hf : ∀ i < s.n, ¬ Fresh (s.w i)) (hr : s.run es = some s') : s'.aborted = false :=
  (noFresh_run ⟨ha, hf⟩ (srv_reaches h) hr).1

/-- Two workers.  One has received a request and works at it when a signal arrives; the other one has not got to run yet.  It is cancelled,
    finds that the session has exited, and is cancelled for good in the deferred call, which must not throw: the process is aborted, in the
    middle of the request of the other worker. -/
def abortRun : List SrvEv := [.begin 0, .test 0, .recv 0 .request, .signal, .wake, .exit, .cancel, .cancel, .cancel, .begin 1, .test 1, .leave 1]

theorem C69_abort_violated : ∃ s, SrvReaches 2 s ∧ s.aborted = true ∧ (s.w 0).pc = .handling ∧ ∀ e, s.step e = none :=
  ⟨_, ⟨abortRun, rfl⟩, rfl, rfl, fun e => by unfold SrvSys.step; exact if_pos rfl⟩

/-- There is at least one worker, and exactly one without multithreading.  Partial: the number of processors has to be known, see
    `C69_no_worker_violated`. -/
theorem C69_worker_partial (multithreaded : Bool) (cores : Nat) (h : 0 < cores) :
    0 < SrvSys.workerCount multithreaded cores ∧ (multithreaded = false → SrvSys.workerCount multithreaded cores = 1) := by
  unfold SrvSys.workerCount
  cases multithreaded
  · exact ⟨Nat.one_pos, fun _ => rfl⟩
  · exact ⟨h, nofun⟩

example : SrvSys.workerCount true 4 = 4 ∧ SrvSys.workerCount false 4 = 1 := ⟨rfl, rfl⟩

/-- If the number of processors cannot be determined, there are no workers: the file system is mounted, but no request is ever received. -/
theorem C69_no_worker_violated : SrvSys.workerCount true 0 = 0 ∧
    ∀ s, SrvReaches 0 s → ∀ i r, s.step (.recv i r) = none := by
  refine ⟨rfl, fun s hs i r => ?_⟩
  obtain ⟨es, hr⟩ := hs
  have : s.n = 0 := run_n hr
  unfold SrvSys.step
  split
  · rfl
  · exact if_neg (fun hc => by omega)

/-- An orderly run: two workers, one request to unmount, and everything ends. -/
def orderlyRun : List SrvEv :=
  [.begin 0, .test 0, .begin 1, .test 1, .recv 1 .request, .handled 1 true, .test 1, .wake, .exit, .recv 1 .intr, .test 1, .leave 1, .cancel,
   .cancel, .cancel, .cancelled 0, .leave 0]

/-- The predicate of the examples, for a process of two workers. -/
def orderlyEnd : Option SrvSys → Bool
  | none => false
  | some s => !s.aborted && s.waiter == .ended && (s.w 0).pc == .ended && (s.w 1).pc == .ended && s.errorCode == 0 && (s.w 1).answered == 1

example : orderlyEnd ((SrvSys.init 2).run orderlyRun) = true := by decide

/-- The hypotheses of the theorems are met in the middle of it. -/
example : ∃ s, SrvReaches 2 s ∧ s.waiter ≠ .reading ∧ s.aborted = false ∧ s.exited = true ∧ ¬ Joined s :=
  ⟨_, ⟨orderlyRun.take 9, rfl⟩, nofun, rfl, rfl, nofun⟩

example : ∃ s, SrvReaches 1 s ∧ s.aborted = false ∧ (s.w 0).pc = .recv ∧ ∀ i < s.n, ¬ Fresh (s.w i) :=
  ⟨_, ⟨[.begin 0, .test 0], rfl⟩, rfl, rfl, fun i hi => by
    have : i = 0 := Nat.lt_one_iff.mp hi
    subst this
    rintro ⟨_, h | h | h⟩ <;> cases h⟩

/-- A failure of receiving ends everything, with its number as the result. -/
example : ∃ s, SrvReaches 1 s ∧ Joined s ∧ s.errorCode = -19 :=
  ⟨_, ⟨[.begin 0, .test 0, .recv 0 (.fail (-19)), .leave 0, .wake, .exit, .cancel, .cancel], rfl⟩,
    ⟨rfl, fun i hi => by have : i = 0 := Nat.lt_one_iff.mp hi; subst this; rfl⟩, rfl⟩

end Securefs.Props

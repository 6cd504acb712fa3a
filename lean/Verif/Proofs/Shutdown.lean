import Verif.Spec.Shutdown
/-!
# Lemmas about serving and shutting down
-/

namespace Securefs

open Spec

/-- What holds of every worker. -/
structure WorkerInv (w : SrvWorker) : Prop where
  recv : w.pc = .recv → w.enabled = true
  handling : w.pc = .handling → w.enabled = false
  unwinding : w.pc = .unwinding → w.pending = true
  count : w.got = w.answered + if w.pc = .handling then 1 else 0

/-- What holds of every state. -/
structure SrvInv (s : SrvSys) : Prop where
  worker : ∀ i, WorkerInv (s.w i)
  early : s.waiter = .reading ∨ s.waiter = .exiting → s.exited = false ∧ ∀ i, (s.w i).pending = false
  late : ∀ k, s.waiter = .cancelling k → s.exited = true ∧ k ≤ s.n ∧ ∀ i < k, (s.w i).pending = true
  fin : s.waiter = .ended → s.exited = true ∧ ∀ i < s.n, (s.w i).pending = true
  woken : s.waiter = .reading → (∃ i < s.n, (s.w i).pc = .ended) → 0 < s.pipe
  err : s.errorCode = s.failures.headD 0 ∧ ∀ c ∈ s.failures, c < 0

theorem srv_init (n : Nat) : SrvInv (SrvSys.init n) where
  worker _ := ⟨nofun, nofun, nofun, rfl⟩
  early _ := ⟨rfl, fun _ => rfl⟩
  late _ h := by cases h
  fin h := by cases h
  woken _ h := by obtain ⟨i, _, h⟩ := h; cases h
  err := ⟨rfl, nofun⟩

theorem put_same {s : SrvSys} {i : Nat} {x : SrvWorker} : (s.put i x).w i = x := by simp [SrvSys.put]

theorem put_other {s : SrvSys} {i j : Nat} {x : SrvWorker} (h : j ≠ i) : (s.put i x).w j = s.w j := by simp [SrvSys.put, h]

theorem note_pos (s : SrvSys) : 0 < s.note.pipe := by
  unfold SrvSys.note SrvSys.pipeSize
  dsimp only
  split <;> omega

theorem note_ge (s : SrvSys) : s.pipe ≤ s.note.pipe := by
  unfold SrvSys.note
  dsimp only
  split <;> omega

/-- A worker takes a step that keeps its pending request. -/
theorem SrvInv.put {s : SrvSys} (h : SrvInv s) {i : Nat} {x : SrvWorker} (hx : WorkerInv x) (hp : x.pending = (s.w i).pending)
    (he : x.pc = .ended → (s.w i).pc = .ended ∨ 0 < s.pipe) : SrvInv (s.put i x) where
  worker j := by
    by_cases hj : j = i
    · subst hj; rw [put_same]; exact hx
    · rw [put_other hj]; exact h.worker j
  early hw := ⟨(h.early hw).1, fun j => by
    by_cases hj : j = i
    · subst hj; rw [put_same, hp]; exact (h.early hw).2 j
    · rw [put_other hj]; exact (h.early hw).2 j⟩
  late k hw := ⟨(h.late k hw).1, (h.late k hw).2.1, fun j hlt => by
    by_cases hj : j = i
    · subst hj; rw [put_same, hp]; exact (h.late k hw).2.2 j hlt
    · rw [put_other hj]; exact (h.late k hw).2.2 j hlt⟩
  fin hw := ⟨(h.fin hw).1, fun j hlt => by
    by_cases hj : j = i
    · subst hj; rw [put_same, hp]; exact (h.fin hw).2 j hlt
    · rw [put_other hj]; exact (h.fin hw).2 j hlt⟩
  woken hw := by
    rintro ⟨j, hlt, hj⟩
    by_cases hji : j = i
    · subst hji
      rw [put_same] at hj
      rcases he hj with h' | h'
      · exact h.woken hw ⟨j, hlt, h'⟩
      · exact h'
    · rw [put_other hji] at hj
      exact h.woken hw ⟨j, hlt, hj⟩
  err := h.err

theorem SrvInv.note {s : SrvSys} (h : SrvInv s) : SrvInv s.note where
  worker := h.worker
  early := h.early
  late := h.late
  fin := h.fin
  woken _ _ := note_pos s
  err := h.err

/-- A worker ends, after it has written to the pipe. -/
theorem SrvInv.put_note {s : SrvSys} (h : SrvInv s) {i : Nat} {x : SrvWorker} (hx : WorkerInv x) (hp : x.pending = (s.w i).pending) :
    SrvInv (s.put i x).note := by
  have : SrvInv (s.note.put i x) := h.note.put hx hp (fun _ => .inr (note_pos s))
  exact this

theorem srv_step {s s' : SrvSys} {e : SrvEv} (h : SrvInv s) (hs : s.step e = some s') : SrvInv s' := by
  unfold SrvSys.step at hs
  split at hs
  · cases hs
  cases e with
  | begin i =>
    dsimp only at hs
    split at hs
    · rename_i hc
      cases hs
      refine h.put ⟨nofun, nofun, nofun, ?_⟩ rfl nofun
      have := (h.worker i).count
      simp only [hc.2] at this
      simpa using this
    · cases hs
  | test i =>
    dsimp only at hs
    split at hs
    · rename_i hc
      have := (h.worker i).count
      simp only [hc.2] at this
      split at hs
      · cases hs
        exact h.put ⟨nofun, nofun, nofun, by simpa using this⟩ rfl nofun
      · cases hs
        exact h.put ⟨fun _ => rfl, nofun, nofun, by simpa using this⟩ rfl nofun
    · cases hs
  | recv i r =>
    dsimp only at hs
    split at hs
    · rename_i hc
      have := (h.worker i).count
      simp only [hc.2] at this
      cases r with
      | request =>
        cases hs
        exact h.put ⟨nofun, fun _ => rfl, nofun, by simpa using this⟩ rfl nofun
      | intr =>
        cases hs
        exact h.put ⟨nofun, nofun, nofun, by simpa using this⟩ rfl nofun
      | eof =>
        cases hs
        exact h.put ⟨nofun, nofun, nofun, by simpa using this⟩ rfl nofun
      | fail c =>
        dsimp only at hs
        split at hs
        · rename_i hneg
          cases hs
          have h' : SrvInv (s.put i { s.w i with pc := .leaving, enabled := false }) :=
            h.put ⟨nofun, nofun, nofun, by simpa using this⟩ rfl nofun
          exact ⟨h'.worker, h'.early, h'.late, h'.fin, h'.woken, rfl, fun d hd => by
            rcases List.mem_cons.mp hd with rfl | hd
            · exact hneg
            · exact h.err.2 d hd⟩
        · cases hs
    · cases hs
  | cancelled i =>
    dsimp only at hs
    split at hs
    · rename_i hc
      cases hs
      have := (h.worker i).count
      simp only [hc.2.1] at this
      exact h.put ⟨nofun, nofun, fun _ => hc.2.2.2, by simpa using this⟩ rfl nofun
    · cases hs
  | handled i u =>
    dsimp only at hs
    split at hs
    · rename_i hc
      have := (h.worker i).count
      simp only [hc.2] at this
      have h' : SrvInv (s.put i { s.w i with pc := .check, answered := (s.w i).answered + 1 }) :=
        h.put ⟨nofun, nofun, nofun, by simpa using this⟩ rfl nofun
      cases hs
      split
      · exact h'.note
      · exact h'
    · cases hs
  | leave i =>
    dsimp only at hs
    split at hs
    · rename_i hc
      have := (h.worker i).count
      simp only [hc.2] at this
      split at hs
      · cases hs
        exact ⟨h.worker, h.early, h.late, h.fin, h.woken, h.err⟩
      · cases hs
        exact h.put_note ⟨nofun, nofun, nofun, by simpa using this⟩ rfl
    · split at hs
      · rename_i hc
        have := (h.worker i).count
        simp only [hc.2] at this
        cases hs
        exact h.put_note ⟨nofun, nofun, nofun, by simpa using this⟩ rfl
      · cases hs
  | signal =>
    cases hs
    exact h.note
  | wake =>
    dsimp only at hs
    split at hs
    · rename_i hc
      cases hs
      exact ⟨h.worker, fun _ => h.early (.inl hc.1), nofun, nofun, nofun, h.err⟩
    · cases hs
  | exit =>
    dsimp only at hs
    split at hs
    · rename_i hc
      cases hs
      exact ⟨h.worker, fun hw => (by rcases hw with hw | hw <;> cases hw),
        fun k hk => (by cases hk; exact ⟨rfl, Nat.zero_le _, fun i hi => absurd hi (Nat.not_lt_zero i)⟩), nofun, nofun, h.err⟩
    · cases hs
  | cancel =>
    dsimp only at hs
    split at hs
    · rename_i k hk
      obtain ⟨h1, h2, h3⟩ := h.late k hk
      split at hs
      · rename_i hlt
        cases hs
        refine ⟨fun j => ?_, fun hw => (by rcases hw with hw | hw <;> cases hw), ?_, nofun, nofun, h.err⟩
        · show WorkerInv ((s.put k { s.w k with pending := true }).w j)
          by_cases hj : j = k
          · subst hj
            rw [put_same]
            have := h.worker j
            exact ⟨this.recv, this.handling, fun _ => rfl, this.count⟩
          · rw [put_other hj]; exact h.worker j
        · intro k' hk'
          cases hk'
          refine ⟨h1, hlt, fun j hj => ?_⟩
          show ((s.put k { s.w k with pending := true }).w j).pending = true
          by_cases hjk : j = k
          · subst hjk; rw [put_same]
          · rw [put_other hjk]; exact h3 j (by omega)
      · rename_i hge
        cases hs
        exact ⟨h.worker, fun hw => (by rcases hw with hw | hw <;> cases hw), nofun, fun _ => ⟨h1, fun i hi => h3 i (by show i < k; have : i < s.n := hi; omega)⟩,
          nofun, h.err⟩
    · cases hs

theorem srv_run {es : List SrvEv} : ∀ {s s' : SrvSys}, SrvInv s → s.run es = some s' → SrvInv s' := by
  induction es with
  | nil => intro s s' h hr; cases hr; exact h
  | cons e es ih =>
    intro s s' h hr
    unfold SrvSys.run at hr
    split at hr
    · cases hr
    · rename_i s1 h1
      exact ih (srv_step h h1) hr

theorem srv_reaches {n : Nat} {s : SrvSys} (h : SrvReaches n s) : SrvInv s := by
  obtain ⟨es, hr⟩ := h
  exact srv_run (srv_init n) hr

theorem step_n {s s' : SrvSys} {e : SrvEv} (hs : s.step e = some s') : s'.n = s.n := by
  unfold SrvSys.step at hs
  split at hs
  · cases hs
  cases e <;> dsimp only at hs <;> repeat' split at hs
  all_goals first | (cases hs; done) | (cases hs; rfl) | (cases hs; split <;> rfl)

theorem run_n {es : List SrvEv} : ∀ {s s' : SrvSys}, s.run es = some s' → s'.n = s.n := by
  induction es with
  | nil => intro s s' hr; cases hr; rfl
  | cons e es ih =>
    intro s s' hr
    unfold SrvSys.run at hr
    split at hr
    · cases hr
    · rename_i s1 h1
      exact (ih hr).trans (step_n h1)

theorem step_exited {s s' : SrvSys} {e : SrvEv} (hs : s.step e = some s') (h : s.exited = true) : s'.exited = true := by
  unfold SrvSys.step at hs
  split at hs
  · cases hs
  cases e <;> dsimp only at hs <;> repeat' split at hs
  all_goals first | (cases hs; done) | (cases hs; exact h) | (cases hs; rfl) | (cases hs; split <;> exact h)

/-- The sum of a function over the workers. -/
def sumTo (f : Nat → Nat) : Nat → Nat
  | 0 => 0
  | n + 1 => sumTo f n + f n

theorem sumTo_congr {f g : Nat → Nat} {n : Nat} (h : ∀ i < n, f i = g i) : sumTo f n = sumTo g n := by
  induction n with
  | zero => rfl
  | succ n ih => rw [sumTo, sumTo, ih (fun i hi => h i (by omega)), h n (by omega)]

theorem sumTo_lt {f g : Nat → Nat} {i n : Nat} (hi : i < n) (h : g i < f i) (ho : ∀ j, j ≠ i → g j = f j) : sumTo g n < sumTo f n := by
  induction n with
  | zero => omega
  | succ n ih =>
    rw [sumTo, sumTo]
    by_cases hin : i = n
    · subst hin
      rw [sumTo_congr (fun j hj => ho j (by omega))]
      omega
    · have := ih (by omega)
      rw [ho n (by omega)]
      omega

/-- How many steps a worker has left once the session has exited. -/
def SrvPc.left : SrvPc → Nat
  | .start => 3
  | .check => 2
  | .recv => 4
  | .handling => 3
  | .leaving => 1
  | .unwinding => 1
  | .ended => 0

/-- The same for the waiting thread, of `n` workers. -/
def WaiterPc.left (n : Nat) : WaiterPc → Nat
  | .reading => n + 3
  | .exiting => n + 2
  | .cancelling k => n - k + 1
  | .ended => 0

/-- How many steps there are left once the session has exited. -/
def SrvSys.left (s : SrvSys) : Nat := sumTo (fun i => (s.w i).pc.left) s.n + s.waiter.left s.n + if s.aborted then 0 else 1

theorem left_put {s : SrvSys} {i : Nat} {x : SrvWorker} (hi : i < s.n) (h : x.pc.left < (s.w i).pc.left) : (s.put i x).left < s.left := by
  have : sumTo (fun j => ((s.put i x).w j).pc.left) s.n < sumTo (fun j => (s.w j).pc.left) s.n := by
    refine sumTo_lt hi ?_ ?_
    · rw [put_same]; exact h
    · intro j hj; rw [put_other hj]
  show sumTo (fun j => ((s.put i x).w j).pc.left) s.n + s.waiter.left s.n + (if s.aborted then 0 else 1) < _
  unfold SrvSys.left
  omega

theorem step_left {s s' : SrvSys} {e : SrvEv} (hx : s.exited = true) (hs : s.step e = some s') (he : e ≠ .signal) : s'.left < s.left := by
  unfold SrvSys.step at hs
  split at hs
  · cases hs
  rename_i hab
  have hab' : s.aborted = false := by simpa using hab
  cases e with
  | begin i =>
    dsimp only at hs
    split at hs
    · rename_i hc; cases hs
      exact left_put hc.1 (by rw [hc.2]; simp [SrvPc.left])
    · cases hs
  | test i =>
    dsimp only at hs
    split at hs
    · rename_i hc
      cases hs
      exact left_put hc.1 (by rw [hc.2]; simp [SrvPc.left])
    · cases hs
  | recv i r =>
    dsimp only at hs
    split at hs
    · rename_i hc
      cases r with
      | request => cases hs; exact left_put hc.1 (by rw [hc.2]; simp [SrvPc.left])
      | intr => cases hs; exact left_put hc.1 (by rw [hc.2]; simp [SrvPc.left])
      | eof => cases hs; exact left_put hc.1 (by rw [hc.2]; simp [SrvPc.left])
      | fail c =>
        dsimp only at hs
        split at hs
        · cases hs
          exact (left_put (s := s) (x := { s.w i with pc := .leaving, enabled := false }) hc.1 (by rw [hc.2]; simp [SrvPc.left]) :)
        · cases hs
    · cases hs
  | cancelled i =>
    dsimp only at hs
    split at hs
    · rename_i hc; cases hs
      exact left_put hc.1 (by rw [hc.2.1]; simp [SrvPc.left])
    · cases hs
  | handled i u =>
    dsimp only at hs
    split at hs
    · rename_i hc
      cases hs
      have := left_put (s := s) (x := { s.w i with pc := .check, answered := (s.w i).answered + 1 }) hc.1 (by rw [hc.2]; simp [SrvPc.left])
      split
      · exact this
      · exact this
    · cases hs
  | leave i =>
    dsimp only at hs
    split at hs
    · rename_i hc
      split at hs
      · cases hs
        unfold SrvSys.left
        rw [hab']
        dsimp only
        rw [if_pos rfl, if_neg (by decide)]
        omega
      · cases hs
        exact (left_put (s := s) (x := { s.w i with pc := .ended }) hc.1 (by rw [hc.2]; simp [SrvPc.left]) :)
    · split at hs
      · rename_i hc
        cases hs
        exact (left_put (s := s) (x := { s.w i with pc := .ended }) hc.1 (by rw [hc.2]; simp [SrvPc.left]) :)
      · cases hs
  | signal => exact absurd rfl he
  | wake =>
    dsimp only at hs
    split at hs
    · rename_i hc; cases hs
      unfold SrvSys.left
      dsimp only
      rw [hc.1]
      unfold WaiterPc.left
      dsimp only
      omega
    · cases hs
  | exit =>
    dsimp only at hs
    split at hs
    · rename_i hc; cases hs
      unfold SrvSys.left
      dsimp only
      rw [hc]
      unfold WaiterPc.left
      dsimp only
      omega
    · cases hs
  | cancel =>
    dsimp only at hs
    split at hs
    · rename_i k hk
      split at hs
      · rename_i hlt
        cases hs
        have : sumTo (fun j => ((s.put k { s.w k with pending := true }).w j).pc.left) s.n = sumTo (fun j => (s.w j).pc.left) s.n := by
          refine sumTo_congr fun j _ => ?_
          by_cases hj : j = k
          · subst hj; rw [put_same]
          · rw [put_other hj]
        show sumTo (fun j => ((s.put k { s.w k with pending := true }).w j).pc.left) s.n + (s.n - (k + 1) + 1) +
          (if s.aborted then 0 else 1) < _
        unfold SrvSys.left
        rw [this, hk]
        unfold WaiterPc.left
        dsimp only
        omega
      · cases hs
        unfold SrvSys.left
        dsimp only
        rw [hk]
        unfold WaiterPc.left
        dsimp only
        omega
    · cases hs

theorem signal_left (s : SrvSys) : s.note.left = s.left := rfl

theorem step_signal {s s' : SrvSys} (hs : s.step .signal = some s') : s' = s.note := by
  unfold SrvSys.step at hs
  split at hs
  · cases hs
  · cases hs; rfl

theorem run_left {es : List SrvEv} : ∀ {s s' : SrvSys}, s.exited = true → s.run es = some s' →
    (es.filter (· ≠ .signal)).length + s'.left ≤ s.left := by
  induction es with
  | nil => intro s s' _ hr; cases hr; simp
  | cons e es ih =>
    intro s s' hx hr
    unfold SrvSys.run at hr
    split at hr
    · cases hr
    · rename_i s1 h1
      have := ih (step_exited h1 hx) hr
      by_cases he : e = .signal
      · subst he
        rw [step_signal h1, signal_left] at this
        simpa using this
      · have hl := step_left hx h1 he
        simp only [List.filter_cons, decide_eq_true_eq, ne_eq, he, not_false_eq_true, if_true, List.length_cons] at this ⊢
        omega

/-- What the shutdown of a process with no fresh workers cannot break. -/
def NoFresh (s : SrvSys) : Prop := s.aborted = false ∧ ∀ i < s.n, ¬ Fresh (s.w i)

theorem NoFresh.put {s : SrvSys} (h : NoFresh s) {i : Nat} {x : SrvWorker} (hx : ¬ Fresh x) : NoFresh (s.put i x) :=
  ⟨h.1, fun j hjn => by
    by_cases hj : j = i
    · subst hj; rw [put_same]; exact hx
    · rw [put_other hj]; exact h.2 j hjn⟩

theorem noFresh_step {s s' : SrvSys} {e : SrvEv} (h : NoFresh s) (hi : SrvInv s) (hs : s.step e = some s') : NoFresh s' := by
  unfold SrvSys.step at hs
  split at hs
  · cases hs
  have hdis : ∀ {x : SrvWorker}, x.enabled = false → ¬ Fresh x := fun hf hx => (by cases hf.symm.trans hx.1)
  have hpc : ∀ {x : SrvWorker}, x.pc ≠ .start → x.pc ≠ .check → x.pc ≠ .leaving → ¬ Fresh x := fun h1 h2 h3 hx =>
    hx.2.elim h1 fun h => h.elim h2 h3
  have hoff : ∀ {i}, i < s.n → (s.w i).pc = .start ∨ (s.w i).pc = .check ∨ (s.w i).pc = .leaving → (s.w i).enabled = false := fun {i} hin hp => by
    cases hb : (s.w i).enabled with
    | false => rfl
    | true => exact absurd ⟨hb, hp⟩ (h.2 i hin)
  cases e with
  | begin i =>
    dsimp only at hs
    split at hs
    · rename_i hc; cases hs
      exact h.put (hdis (hoff hc.1 (.inl hc.2)))
    · cases hs
  | test i =>
    dsimp only at hs
    split at hs
    · rename_i hc
      split at hs
      · cases hs; exact h.put (hdis (hoff hc.1 (.inr (.inl hc.2))))
      · cases hs; exact h.put (hpc (by simp) (by simp) (by simp))
    · cases hs
  | recv i r =>
    dsimp only at hs
    split at hs
    · cases r with
      | request => cases hs; exact h.put (hdis rfl)
      | intr => cases hs; exact h.put (hdis rfl)
      | eof => cases hs; exact h.put (hdis rfl)
      | fail c =>
        dsimp only at hs
        split at hs
        · cases hs
          exact (h.put (i := i) (x := { s.w i with pc := .leaving, enabled := false }) (hdis rfl) :)
        · cases hs
    · cases hs
  | cancelled i =>
    dsimp only at hs
    split at hs
    · cases hs; exact h.put (hpc (by simp) (by simp) (by simp))
    · cases hs
  | handled i u =>
    dsimp only at hs
    split at hs
    · rename_i hc
      cases hs
      have := h.put (i := i) (x := { s.w i with pc := .check, answered := (s.w i).answered + 1 })
        (hdis ((hi.worker i).handling hc.2))
      split
      · exact this
      · exact this
    · cases hs
  | leave i =>
    dsimp only at hs
    split at hs
    · rename_i hc
      rw [if_neg (fun hx => (by cases (hoff hc.1 (.inr (.inr hc.2))).symm.trans hx.1))] at hs
      cases hs
      exact (h.put (i := i) (x := { s.w i with pc := .ended }) (hpc (by simp) (by simp) (by simp)) :)
    · split at hs
      · cases hs
        exact (h.put (i := i) (x := { s.w i with pc := .ended }) (hpc (by simp) (by simp) (by simp)) :)
      · cases hs
  | signal => cases hs; exact h
  | wake =>
    dsimp only at hs
    split at hs
    · cases hs; exact h
    · cases hs
  | exit =>
    dsimp only at hs
    split at hs
    · cases hs; exact h
    · cases hs
  | cancel =>
    dsimp only at hs
    split at hs
    · rename_i k hk
      split at hs
      · cases hs
        refine ⟨h.1, fun j hjn => ?_⟩
        show ¬ Fresh ((s.put k { s.w k with pending := true }).w j)
        by_cases hj : j = k
        · subst hj; rw [put_same]; exact fun hx => h.2 j hjn hx
        · rw [put_other hj]; exact h.2 j hjn
      · cases hs; exact h
    · cases hs

theorem noFresh_run {es : List SrvEv} : ∀ {s s' : SrvSys}, NoFresh s → SrvInv s → s.run es = some s' → NoFresh s' := by
  induction es with
  | nil => intro s s' h _ hr; cases hr; exact h
  | cons e es ih =>
    intro s s' h hi hr
    unfold SrvSys.run at hr
    split at hr
    · cases hr
    · rename_i s1 h1
      exact ih (noFresh_step h hi h1) (srv_step hi h1) hr

/-- Once the shutdown has begun, there is always a step that a thread makes by itself, until all have ended. -/
theorem srv_progress {s : SrvSys} (h : SrvInv s) (ha : s.aborted = false) (hx : s.waiter ≠ .reading) (hj : ¬ Joined s) :
    ∃ e s', OwnStep e ∧ s.step e = some s' := by
  cases hw : s.waiter with
  | reading => exact absurd hw hx
  | exiting =>
    refine ⟨.exit, { s with waiter := .cancelling 0, exited := true }, trivial, ?_⟩
    unfold SrvSys.step
    rw [if_neg (by rw [ha]; decide)]
    exact if_pos hw
  | cancelling k =>
    by_cases hk : k < s.n
    · refine ⟨.cancel, { s.put k { s.w k with pending := true } with waiter := .cancelling (k + 1) }, trivial, ?_⟩
      unfold SrvSys.step
      rw [if_neg (by rw [ha]; decide)]
      dsimp only
      rw [hw]
      exact if_pos hk
    · refine ⟨.cancel, { s with waiter := .ended }, trivial, ?_⟩
      unfold SrvSys.step
      rw [if_neg (by rw [ha]; decide)]
      dsimp only
      rw [hw]
      exact if_neg hk
  | ended =>
    obtain ⟨h1, h2⟩ := h.fin hw
    have : ∃ i, i < s.n ∧ (s.w i).pc ≠ .ended := Classical.byContradiction fun hno => hj ⟨hw, fun i hi =>
      Classical.byContradiction fun hne => hno ⟨i, hi, hne⟩⟩
    obtain ⟨i, hi, hne⟩ := this
    cases hp : (s.w i).pc with
    | ended => exact absurd hp hne
    | start =>
      refine ⟨.begin i, s.put i { s.w i with pc := .check }, trivial, ?_⟩
      unfold SrvSys.step
      rw [if_neg (by rw [ha]; decide)]
      exact if_pos ⟨hi, hp⟩
    | check =>
      refine ⟨.test i, s.put i { s.w i with pc := .leaving }, trivial, ?_⟩
      unfold SrvSys.step
      rw [if_neg (by rw [ha]; decide)]
      dsimp only
      rw [if_pos ⟨hi, hp⟩, if_pos h1]
    | recv =>
      refine ⟨.cancelled i, s.put i { s.w i with pc := .unwinding }, trivial, ?_⟩
      unfold SrvSys.step
      rw [if_neg (by rw [ha]; decide)]
      exact if_pos ⟨hi, hp, (h.worker i).recv hp, h2 i hi⟩
    | handling =>
      refine ⟨.handled i false, s.put i { s.w i with pc := .check, answered := (s.w i).answered + 1 }, trivial, ?_⟩
      unfold SrvSys.step
      rw [if_neg (by rw [ha]; decide)]
      exact if_pos ⟨hi, hp⟩
    | leaving =>
      by_cases hc : (s.w i).enabled = true ∧ (s.w i).pending = true
      · refine ⟨.leave i, { s with aborted := true }, trivial, ?_⟩
        unfold SrvSys.step
        rw [if_neg (by rw [ha]; decide)]
        dsimp only
        rw [if_pos ⟨hi, hp⟩, if_pos hc]
      · refine ⟨.leave i, (s.put i { s.w i with pc := .ended }).note, trivial, ?_⟩
        unfold SrvSys.step
        rw [if_neg (by rw [ha]; decide)]
        dsimp only
        rw [if_pos ⟨hi, hp⟩, if_neg hc]
    | unwinding =>
      refine ⟨.leave i, (s.put i { s.w i with pc := .ended }).note, trivial, ?_⟩
      unfold SrvSys.step
      rw [if_neg (by rw [ha]; decide)]
      dsimp only
      rw [if_neg (by rw [hp]; exact fun hc => by cases hc.2), if_pos ⟨hi, hp⟩]

end Securefs

import Verif.Spec.Timer
/-!
# Lemmas about the idle timer
-/

namespace Securefs

open Spec

theorem timePoints_append (a b : List TimerEv) : timePoints (a ++ b) = timePoints b ++ timePoints a := by
  induction a with
  | nil => simp [timePoints]
  | cons e rest ih => cases e <;> simp [timePoints, ih]

theorem Timer.run_append (s : Timer) (a b : List TimerEv) : s.run (a ++ b) = (s.run a).run b := by
  unfold Timer.run; rw [List.foldl_append]

theorem Timer.run_snoc (s : Timer) (a : List TimerEv) (e : TimerEv) : s.run (a ++ [e]) = (s.run a).step e := by
  rw [Timer.run_append]; rfl

theorem Timer.check_trigger (s : Timer) (now : Int) : (s.check now).trigger = s.trigger := by
  unfold Timer.check; split
  · rfl
  · split <;> rfl

theorem Timer.check_exiting (s : Timer) (now : Int) : (s.check now).exiting = s.exiting := by
  unfold Timer.check; split
  · rfl
  · split <;> rfl

theorem Timer.work_trigger (s : Timer) (clock now : Int) : (s.work clock now).trigger = s.trigger := by
  unfold Timer.work
  split
  · split
    · exact s.check_trigger now
    · rfl
  · split
    · exact s.check_trigger now
    · rfl
  · rfl
  · rfl

theorem Timer.work_exiting (s : Timer) (clock now : Int) : (s.work clock now).exiting = s.exiting := by
  unfold Timer.work
  split
  · split
    · exact s.check_exiting now
    · rfl
  · split
    · exact s.check_exiting now
    · rfl
  · rfl
  · rfl

/-- Induction on histories from the end. -/
theorem snocRec {α : Type} {P : List α → Prop} (nil : P []) (snoc : ∀ l a, P l → P (l ++ [a])) (l : List α) : P l := by
  have : ∀ r : List α, P r.reverse := by
    intro r
    induction r with
    | nil => exact nil
    | cons a r ih => rw [List.reverse_cons]; exact snoc _ _ ih
  have h := this l.reverse
  rwa [List.reverse_reverse] at h

/-- The trigger is the latest point in time that was set. -/
theorem Timer.run_trigger (epoch : Int) (evs : List TimerEv) :
    (timePoints evs ++ [epoch]).head? = some ((Timer.init epoch).run evs).trigger := by
  induction evs using snocRec with
  | nil => rfl
  | snoc l e ih =>
    rw [Timer.run_snoc, timePoints_append]
    cases e with
    | set t => rfl
    | work clock now =>
      show _ = some (((Timer.init epoch).run l).work clock now).trigger
      rw [Timer.work_trigger]
      exact ih
    | shutdown => exact ih

theorem Timer.run_exiting (epoch : Int) (evs : List TimerEv) (h : NoShutdown evs) : ((Timer.init epoch).run evs).exiting = false := by
  induction evs using snocRec with
  | nil => rfl
  | snoc l e ih =>
    have hl := ih (fun hm => h (List.mem_append_left _ hm))
    rw [Timer.run_snoc]
    cases e with
    | set t => exact hl
    | work clock now =>
      show (((Timer.init epoch).run l).work clock now).exiting = false
      rw [Timer.work_exiting]
      exact hl
    | shutdown => exact absurd (List.mem_append_right _ List.mem_cons_self) h

theorem Timer.check_pc (s : Timer) (now : Int) (h : s.exiting = false) : (s.check now).pc = .fired ∨ (s.check now).pc = .entering := by
  unfold Timer.check
  rw [h, if_neg (by decide)]
  split
  · exact .inl rfl
  · exact .inr rfl

/-- A deadline that is waited for was the point in time at some moment, and it is not after it if they are in order. -/
theorem Timer.run_deadline (epoch : Int) (evs : List TimerEv) (d : Int) (h : ((Timer.init epoch).run evs).pc = .waiting d) :
    d ∈ timePoints evs ++ [epoch] := by
  induction evs using snocRec generalizing d with
  | nil => cases h
  | snoc l e ih =>
    rw [Timer.run_snoc] at h
    rw [timePoints_append]
    have htr := Timer.run_trigger epoch l
    cases e with
    | set t =>
      have h : (if ((Timer.init epoch).run l).pc = .absent then TimerPc.entering else ((Timer.init epoch).run l).pc) = .waiting d := h
      split at h
      · cases h
      · exact List.mem_cons_of_mem _ (ih d h)
    | work clock now =>
      show d ∈ timePoints l ++ [epoch]
      have hc : ∀ s : Timer, (s.check now).pc ≠ .waiting d := by
        intro s hs
        unfold Timer.check at hs
        split at hs
        · cases hs
        · split at hs <;> cases hs
      have h : (((Timer.init epoch).run l).work clock now).pc = .waiting d := h
      unfold Timer.work at h
      split at h
      · split at h
        · exact absurd h (hc _)
        · injection h with h
          rw [h] at htr
          exact List.mem_of_mem_head? htr
      · next d' hpc =>
        split at h
        · exact absurd h (hc _)
        · exact ih d h
      · cases h
      · exact ih d h
    | shutdown => exact ih d h

/-- Once something was set and nobody destroys the timer, the thread runs or has run. -/
theorem Timer.run_started (epoch : Int) (evs : List TimerEv) (h : NoShutdown evs) :
    ((Timer.init epoch).run evs).pc ≠ .exited ∧ (timePoints evs ≠ [] → ((Timer.init epoch).run evs).pc ≠ .absent) := by
  induction evs using snocRec with
  | nil => exact ⟨nofun, fun h => absurd rfl h⟩
  | snoc l e ih =>
    have hn : NoShutdown l := fun hm => h (List.mem_append_left _ hm)
    obtain ⟨h1, h2⟩ := ih hn
    rw [Timer.run_snoc, timePoints_append]
    cases e with
    | set t =>
      show (if ((Timer.init epoch).run l).pc = .absent then TimerPc.entering else ((Timer.init epoch).run l).pc) ≠ .exited ∧
        (_ → (if ((Timer.init epoch).run l).pc = .absent then TimerPc.entering else ((Timer.init epoch).run l).pc) ≠ .absent)
      split
      · exact ⟨nofun, fun _ => nofun⟩
      · next hne => exact ⟨h1, fun _ => hne⟩
    | work clock now =>
      show (((Timer.init epoch).run l).work clock now).pc ≠ .exited ∧ (timePoints l ≠ [] → (((Timer.init epoch).run l).work clock now).pc ≠ .absent)
      have he := Timer.run_exiting epoch l hn
      have hc : (((Timer.init epoch).run l).check now).pc ≠ .exited ∧ (timePoints l ≠ [] → (((Timer.init epoch).run l).check now).pc ≠ .absent) := by
        rcases Timer.check_pc _ now he with hh | hh <;> rw [hh]
        · exact ⟨nofun, fun _ => nofun⟩
        · exact ⟨nofun, fun _ => nofun⟩
      unfold Timer.work
      split
      · split
        · exact hc
        · exact ⟨nofun, fun _ => nofun⟩
      · split
        · exact hc
        · exact ⟨h1, h2⟩
      · exact ⟨nofun, fun _ => nofun⟩
      · exact ⟨h1, h2⟩
    | shutdown => exact absurd (List.mem_append_right _ List.mem_cons_self) h

/-- The work thread fires at a time that is not before the trigger. -/
theorem Timer.work_fires {s : Timer} {clock now : Int} (h0 : s.pc ≠ .fired) (h : (s.work clock now).pc = .fired) : now ≥ s.trigger := by
  have hc : (s.check now).pc = .fired → now ≥ s.trigger := by
    intro hs
    unfold Timer.check at hs
    split at hs
    · cases hs
    · split at hs
      · next hh => exact hh
      · cases hs
  unfold Timer.work at h
  split at h
  · split at h
    · exact hc h
    · cases h
  · split at h
    · exact hc h
    · exact absurd h h0
  · cases h
  · exact absurd h h0

/-- Two steps at a time that is not before the trigger and the deadline. -/
theorem Timer.fires_woken {s : Timer} {t : Int} (ht : t < s.trigger) (he : s.exiting = false) (hx : s.pc ≠ .exited) {c1 n1 c2 n2 : Int}
    (_hc : c1 ≥ t) (hn : n1 ≥ t) : (((s.set t).work c1 n1).work c2 n2).pc = .called := by
  have hw : (s.set t).wake = true := decide_eq_true ht
  have hcheck : (s.set t).check n1 = { s.set t with wake := false, pc := .fired } := by
    unfold Timer.check
    rw [if_neg (show ¬ (s.set t).exiting = true by show ¬ s.exiting = true; rw [he]; decide), if_pos (show n1 ≥ (s.set t).trigger from hn)]
  have hf : ∀ (s' : Timer) (c n : Int), s'.pc = .fired → (s'.work c n).pc = .called := by
    intro s' c n hp
    unfold Timer.work
    rw [hp]
  have hl : ∀ (s' : Timer) (c n : Int), s'.pc = .called → (s'.work c n).pc = .called := by
    intro s' c n hp
    unfold Timer.work
    rw [hp]
    exact hp
  cases hp : (s.set t).pc with
  | absent =>
    have : (if s.pc = .absent then TimerPc.entering else s.pc) = .absent := hp
    split at this
    · cases this
    · exact absurd this ‹_›
  | exited =>
    have : (if s.pc = .absent then TimerPc.entering else s.pc) = .exited := hp
    split at this
    · cases this
    · exact absurd this hx
  | entering =>
    apply hf
    unfold Timer.work
    rw [hp]
    dsimp only
    rw [if_pos (.inl hw), hcheck]
  | waiting d =>
    apply hf
    unfold Timer.work
    rw [hp]
    dsimp only
    rw [if_pos (.inl hw), hcheck]
  | fired => exact hl _ _ _ (hf _ _ _ hp)
  | called => exact hl _ _ _ (hl _ _ _ hp)

theorem Timer.fires {s : Timer} (he : s.exiting = false) (hx : s.pc ≠ .exited) (ha : s.pc ≠ .absent) {c1 n1 c2 n2 : Int}
    (hn : n1 ≥ s.trigger) (hc : c1 ≥ s.trigger) (hd : ∀ d, s.pc = .waiting d → c1 ≥ d) :
    ((s.work c1 n1).work c2 n2).pc = .called := by
  have hcheck : s.check n1 = { s with wake := false, pc := .fired } := by
    unfold Timer.check
    rw [he, if_neg (by decide), if_pos hn]
  have hf : ∀ (s' : Timer) (c n : Int), s'.pc = .fired → (s'.work c n).pc = .called := by
    intro s' c n hp
    unfold Timer.work
    rw [hp]
  have hl : ∀ (s' : Timer) (c n : Int), s'.pc = .called → (s'.work c n).pc = .called := by
    intro s' c n hp
    unfold Timer.work
    rw [hp]
    exact hp
  cases hp : s.pc with
  | absent => exact absurd hp ha
  | exited => exact absurd hp hx
  | entering =>
    apply hf
    unfold Timer.work
    rw [hp]
    dsimp only
    rw [if_pos (.inr (.inr hc)), hcheck]
  | waiting d =>
    apply hf
    unfold Timer.work
    rw [hp]
    dsimp only
    rw [if_pos (.inr (.inr (hd d hp))), hcheck]
  | fired => exact hl _ _ _ (hf _ _ _ hp)
  | called => exact hl _ _ _ (hl _ _ _ hp)

/-! ## The hook -/

/-- The events of the timer when every activity is recorded at once. -/
def timerEvents (timeout : Int) : List Use → List TimerEv
  | [] => []
  | .activity _ now :: rest => .set (now + timeout) :: timerEvents timeout rest
  | .work clock now :: rest => .work clock now :: timerEvents timeout rest

theorem IdleHook.run_use (timeout : Int) (us : List Use) (s : IdleHook) (hs : s.pending = []) :
    ((s.run timeout (useEvents us)).timer = s.timer.run (timerEvents timeout us)) ∧ (s.run timeout (useEvents us)).pending = [] := by
  induction us generalizing s with
  | nil => exact ⟨rfl, hs⟩
  | cons u rest ih =>
    cases u with
    | activity i now =>
      have h1 : (s.step timeout (.read i now)).step timeout (.apply i) = { timer := s.timer.set (now + timeout), pending := [] } := by
        simp [IdleHook.step, hs, List.lookup]
      have := ih { timer := s.timer.set (now + timeout), pending := [] } rfl
      show ((((s.step timeout (.read i now)).step timeout (.apply i)).run timeout (useEvents rest)).timer = _) ∧ _
      rw [h1]
      refine ⟨this.1, ?_⟩
      show (((s.step timeout (.read i now)).step timeout (.apply i)).run timeout (useEvents rest)).pending = _
      rw [h1]
      exact this.2
    | work clock now => exact ih { s with timer := s.timer.work clock now } hs

theorem timePoints_timerEvents (timeout : Int) (us : List Use) : timePoints (timerEvents timeout us) = (activities us).map (· + timeout) := by
  induction us with
  | nil => rfl
  | cons u rest ih => cases u <;> simp [timerEvents, timePoints, activities, ih]

theorem noShutdown_timerEvents (timeout : Int) (us : List Use) : NoShutdown (timerEvents timeout us) := by
  induction us with
  | nil => exact nofun
  | cons u rest ih =>
    cases u with
    | activity i now =>
      intro hm
      rcases List.mem_cons.mp hm with hm | hm
      · cases hm
      · exact ih hm
    | work clock now =>
      intro hm
      rcases List.mem_cons.mp hm with hm | hm
      · cases hm
      · exact ih hm

end Securefs

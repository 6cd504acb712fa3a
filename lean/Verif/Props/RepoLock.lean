import Verif.Proofs.RepoLock
/-!
# C51: Two mounts of the same volume exclude each other

Proved for attempts that do not overlap in time, starting from any lock file and any processes, with processes failing or dying at any system
call.  What is missing for the full claim, and false in the code: attempts that overlap (`C51_overlap_violated`), the end of an unmount
(`C51_unmount_violated`), and process identifiers that are used again (`C51_reuse_violated`).
-/

namespace Securefs.Props

open Spec

/-- The state after complete uses. -/
def afterUses (s : LockSys) (us : List LockUse) : LockSys := s.run (us.flatMap LockUse.events)

/-- At most one process has the volume mounted. -/
theorem C51_exclusive_partial {s : LockSys} (hs : Clean s) {us : List LockUse} (hu : ∀ u ∈ us, PidOk u) {p q : Nat}
    (hp : Holds (afterUses s us) p) (hq : Holds (afterUses s us) q) : p = q := by
  have h := LockSys.Inv.uses us s hs.inv hu
  obtain ⟨hr, i, hi⟩ := hp
  obtain ⟨hr', j, hj⟩ := hq
  exact LockSys.owned_unique (h.owned p i hr hi) (h.owned q j hr' hj)

/-- A mount succeeds exactly if the lock file does not name a process that exists. -/
theorem C51_mount_iff {s : LockSys} (hs : Clean s) {us : List LockUse} (hu : ∀ u ∈ us, PidOk u) {p : Nat} (hp : 0 < p ∧ p < 2 ^ 31)
    (hr : (afterUses s us).running p = true) (hi : (afterUses s us).pc p = .idle) :
    Holds (afterUses s (us ++ [.mount p])) p ↔ ¬ ∃ pid, LockedBy (afterUses s us) pid := by
  have h := LockSys.Inv.uses us s hs.inv hu
  have ht : afterUses s (us ++ [.mount p]) = (afterUses s us).run (List.replicate 5 (.step p)) := by
    unfold afterUses
    rw [List.flatMap_append, LockSys.run_append]
    rfl
  rw [ht]
  change (afterUses s us).Inv at h
  generalize afterUses s us = t at h hr hi
  have hrun := ((h.mid p).steps hp 5 t hr).2
  unfold Holds
  rw [hrun]
  cases hn : t.name with
  | none =>
    obtain ⟨i, hm⟩ := LockSys.mount_free hr hi hn
    refine ⟨fun _ => ?_, fun _ => ⟨hr, i, hm⟩⟩
    rintro ⟨pid, i, content, h1, _⟩
    rw [hn] at h1
    cases h1
  | some i =>
    obtain ⟨content, hc⟩ : ∃ c, t.inodes[i]? = some c := ⟨_, List.getElem?_eq_getElem (h.name i hn)⟩
    rw [LockSys.mount_present hr hi hn hc]
    have hl : ∀ pid, LockedBy t pid ↔ simpleAtoi content = some pid ∧ isProcessRunning t.running pid = true := by
      intro pid
      constructor
      · rintro ⟨i', c', h1, h2, h3⟩
        rw [hn] at h1
        injection h1 with h1
        subst h1
        rw [hc] at h2
        injection h2 with h2
        subst h2
        exact h3
      · intro h3; exact ⟨i, content, hn, hc, h3⟩
    cases ha : simpleAtoi content with
    | none =>
      refine ⟨fun _ => ?_, fun _ => ⟨hr, i, rfl⟩⟩
      rintro ⟨pid, hx⟩
      rw [hl, ha] at hx
      exact absurd hx.1 nofun
    | some pid =>
      dsimp only
      by_cases hrun : isProcessRunning t.running pid = true
      · rw [if_pos hrun]
        refine ⟨?_, fun hx => absurd ⟨pid, (hl pid).mpr ⟨ha, hrun⟩⟩ hx⟩
        rintro ⟨_, i, hx⟩
        cases hx
      · rw [if_neg hrun]
        refine ⟨fun _ => ?_, fun _ => ⟨hr, i, rfl⟩⟩
        rintro ⟨pid', hx⟩
        rw [hl, ha] at hx
        obtain ⟨h1, h2⟩ := hx
        injection h1 with h1
        rw [← h1] at h2
        exact hrun h2

/-- The lock of a process that died is taken over by the next. -/
theorem C51_takeover {s : LockSys} (hs : Clean s) {us : List LockUse} (hu : ∀ u ∈ us, PidOk u) {p q : Nat} (hp : 0 < p ∧ p < 2 ^ 31)
    (hpq : p ≠ q) (hq : Holds (afterUses s us) q) (hr : (afterUses s us).running p = true) (hi : (afterUses s us).pc p = .idle) :
    Holds (afterUses s (us ++ [.die q, .mount p])) p := by
  have h := LockSys.Inv.uses us s hs.inv hu
  obtain ⟨hrq, i, hiq⟩ := hq
  obtain ⟨hq0, hq1, hq2, hq3⟩ := h.owned q i hrq hiq
  have hd : ∀ u ∈ us ++ [LockUse.die q], PidOk u := by
    intro u hx
    rcases List.mem_append.mp hx with hx | hx
    · exact hu u hx
    · rw [List.mem_singleton.mp hx]; exact ⟨hq0, hq1⟩
  have he : us ++ [.die q, .mount p] = (us ++ [.die q]) ++ [.mount p] := by simp
  have ht : afterUses s (us ++ [.die q]) = (afterUses s us).step (.die q) := by
    unfold afterUses
    rw [List.flatMap_append, LockSys.run_append]
    rfl
  rw [he]
  refine (C51_mount_iff hs hd hp ?_ ?_).mpr ?_
  · rw [ht]; show (if p = q then false else _) = true; rw [if_neg hpq]; exact hr
  · rw [ht]; exact (LockSys.setPc_ne _ _ hpq).trans hi
  · rw [ht]
    rintro ⟨pid, j, content, h1, h2, h3, h4⟩
    have h1 : (afterUses s us).name = some j := h1
    have hq2 : (afterUses s us).name = some i := hq2
    rw [hq2] at h1
    injection h1 with h1
    subst h1
    have h2 : (afterUses s us).inodes[i]? = some content := h2
    have hq3 : (afterUses s us).inodes[i]? = some (decimal q) := hq3
    rw [hq3] at h2
    injection h2 with h2
    rw [← h2, simpleAtoi_decimal hq1] at h3
    injection h3 with h3
    subst h3
    unfold isProcessRunning at h4
    rw [if_neg (by omega), Int.toNat_natCast] at h4
    have h4 : (if q = q then false else (afterUses s us).running q) = true := h4
    rw [if_pos rfl] at h4
    cases h4

/-- After an unmount the lock file is gone, the process can mount again, and so can every other. -/
theorem C51_release {s : LockSys} (hs : Clean s) {us : List LockUse} (hu : ∀ u ∈ us, PidOk u) {p q : Nat} (hp : 0 < p ∧ p < 2 ^ 31)
    (hq : Holds (afterUses s us) q) (hr : (afterUses s us).running p = true) (hi : p = q ∨ (afterUses s us).pc p = .idle) :
    (afterUses s (us ++ [.unmount q])).name = none ∧ ¬ Holds (afterUses s (us ++ [.unmount q])) q ∧
      Holds (afterUses s (us ++ [.unmount q, .mount p])) p := by
  have h := LockSys.Inv.uses us s hs.inv hu
  obtain ⟨hrq, i, hiq⟩ := hq
  obtain ⟨hq0, hq1, _⟩ := h.owned q i hrq hiq
  have hd : ∀ u ∈ us ++ [LockUse.unmount q], PidOk u := by
    intro u hx
    rcases List.mem_append.mp hx with hx | hx
    · exact hu u hx
    · rw [List.mem_singleton.mp hx]; exact ⟨hq0, hq1⟩
  have he : us ++ [.unmount q, .mount p] = (us ++ [.unmount q]) ++ [.mount p] := by simp
  have ht : afterUses s (us ++ [.unmount q]) = (((afterUses s us).step (.unmount q)).step (.leave q)).step (.leave q) := by
    unfold afterUses
    rw [List.flatMap_append, LockSys.run_append]
    rfl
  have hname : (afterUses s (us ++ [.unmount q])).name = none := by
    rw [ht]; simp [LockSys.step, LockSys.stepLeave, LockSys.setPc, hrq, hiq]
  have hpc : ∀ r, (afterUses s (us ++ [.unmount q])).pc r = if r = q then .idle else (afterUses s us).pc r := by
    intro r
    rw [ht]
    by_cases hrq' : r = q
    · simp [LockSys.step, LockSys.stepLeave, LockSys.setPc, hrq, hiq, hrq']
    · simp [LockSys.step, LockSys.stepLeave, LockSys.setPc, hrq, hiq, hrq']
  have hrun : (afterUses s (us ++ [.unmount q])).running = (afterUses s us).running := by
    rw [ht]; simp [LockSys.step, LockSys.stepLeave, LockSys.setPc, hrq, hiq]
  refine ⟨hname, ?_, ?_⟩
  · rintro ⟨_, j, hj⟩
    rw [hpc, if_pos rfl] at hj
    cases hj
  · rw [he]
    refine (C51_mount_iff hs hd hp ?_ ?_).mpr ?_
    · rw [hrun]; exact hr
    · rw [hpc]
      rcases hi with rfl | hi
      · exact if_pos rfl
      · split
        · rfl
        · exact hi
    · rintro ⟨pid, j, content, h1, _⟩
      rw [hname] at h1
      cases h1

/-! ## Where the claim is false -/

/-- No lock file, and processes 7 and 8 exist. -/
def demoLock : LockSys := { inodes := [], name := none, pc := fun _ => .idle, running := fun p => p == 7 || p == 8 }

/-- A lock file of process 3, which has died, and processes 7 and 8. -/
def demoStale : LockSys := { demoLock with inodes := [decimal 3], name := some 0 }

/-- Attempts that overlap can both succeed: the second process opens the lock file when the first has created it but not yet written its
    identifier into it; or both find the lock of a process that has died. -/
theorem C51_overlap_violated :
    (let t := demoLock.run [.step 7, .step 8, .step 8, .step 8, .step 7, .step 7, .step 8, .step 8]
     Holds t 7 ∧ Holds t 8) ∧
    (let t := demoStale.run [.step 7, .step 8, .step 7, .step 8, .step 7, .step 8, .step 7, .step 8, .step 7, .step 8]
     Holds t 7 ∧ Holds t 8) := by
  refine ⟨⟨⟨?_, 0, ?_⟩, ?_, 0, ?_⟩, ⟨?_, 0, ?_⟩, ?_, 0, ?_⟩ <;> decide +kernel

/-- An unmount removes the lock file before the file table writes what has not been written: another process can have mounted the volume by
    then. -/
theorem C51_unmount_violated :
    let t := demoLock.run [.step 7, .step 7, .step 7, .unmount 7, .leave 7, .step 8, .step 8, .step 8]
    Holds t 8 ∧ Uses t 7 ∧ t.pc 7 = .flushing := by
  refine ⟨⟨?_, 0 + 1, ?_⟩, ⟨?_, .inr (.inr ?_)⟩, ?_⟩ <;> decide +kernel

/-- The lock of a process that has died is not taken over if the mounting process has got the same identifier, as happens in a container that
    is started again: it takes itself for the owner. -/
theorem C51_reuse_violated :
    let t := afterUses demoLock [.mount 7, .die 7, .spawn 7, .mount 7]
    (∀ p, ¬ Holds t p) ∧ t.pc 7 = .refused := by
  refine ⟨?_, by decide +kernel⟩
  rintro p ⟨hr, i, hi⟩
  have h7 : (afterUses demoLock [.mount 7, .die 7, .spawn 7, .mount 7]).pc 7 = .refused := by decide +kernel
  by_cases hp : p = 7
  · rw [hp, h7] at hi; cases hi
  · have hpc : (afterUses demoLock [.mount 7, .die 7, .spawn 7, .mount 7]).pc p = .idle := by
      refine LockSys.run_pc_ne _ demoLock fun ev hev => ?_
      have : ev.proc = 7 := by revert ev; decide
      rw [this]
      exact hp
    rw [hpc] at hi
    cases hi

/-! ## Concrete cases -/

example : Clean demoStale := ⟨fun _ => rfl, fun i h => by injection h with h; subst h; decide⟩

/-- Process 7 takes over, process 8 is refused, process 7 unmounts. -/
example :
    (afterUses demoStale [.mount 7]).pc 7 = .mounted 0 ∧ (afterUses demoStale [.mount 7]).inodes = [[55]] ∧
    (afterUses demoStale [.mount 7, .mount 8]).pc 8 = .refused ∧ (afterUses demoStale [.mount 7, .mount 8, .unmount 7]).name = none ∧
    (afterUses demoStale [.mount 7, .unmount 7, .mount 8]).pc 8 = .mounted 1 ∧
    (afterUses demoStale [.mount 7, .die 7, .mount 8]).pc 8 = .mounted 0 ∧
    (afterUses demoStale [.crash 7 4, .mount 8]).pc 8 = .mounted 0 := by
  refine ⟨?_, ?_, ?_, ?_, ?_, ?_, ?_⟩ <;> decide +kernel

example : ∀ u ∈ [LockUse.mount 7, .mount 8, .unmount 7], PidOk u := by decide

/-- The lock file names a process that exists. -/
example : LockedBy (afterUses demoStale [.mount 7]) 7 := ⟨0, [55], by decide +kernel, by decide +kernel, by decide +kernel, by decide +kernel⟩

end Securefs.Props

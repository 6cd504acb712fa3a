import Verif.Proofs.PairLock
/-!
# C53: Locking two files never deadlocks

For any number of threads that construct and destroy guards for one and for two files, in any order of arguments, and for both ways of writing
`std::lock`.  Not claimed: fairness.  Two threads that always step in lockstep can both fail to lock their second mutex again and again.
-/

namespace Securefs.Props

open Spec

/-- Two threads that have guards for the same file are the same thread. -/
theorem C53_exclusive (rotate : Bool) (evs : List GuardSys.Ev) {t u f : Nat} {fs gs : List Nat}
    (ht : (GuardSys.init.run rotate evs).pc t = .holding fs) (hu : (GuardSys.init.run rotate evs).pc u = .holding gs) (hf : f ∈ fs) (hg : f ∈ gs) :
    t = u := by
  have h := GuardSys.Inv.run (rotate := rotate) evs _ GuardSys.inv_init
  have h1 := (h.owner t f).mpr (by rw [ht]; exact hf)
  have h2 := (h.owner u f).mpr (by rw [hu]; exact hg)
  rw [h1] at h2
  injection h2

/-- No thread that another waits for is itself waiting: chains of waiting threads have one link, and there are no cycles. -/
theorem C53_no_cycle (rotate : Bool) (evs : List GuardSys.Ev) {chain : List Nat} (h : WaitChain rotate (GuardSys.init.run rotate evs) chain) :
    chain.length ≤ 2 ∧ ∀ t, ¬ WaitsFor rotate (GuardSys.init.run rotate evs) t t := by
  have hi := GuardSys.Inv.run (rotate := rotate) evs _ GuardSys.inv_init
  constructor
  · match chain, h with
    | [], _ => exact Nat.zero_le _
    | [_], _ => exact Nat.le_succ _
    | [_, _], _ => exact Nat.le_refl _
    | t :: u :: v :: rest, h =>
      obtain ⟨⟨_, f, hf, _⟩, ⟨hw, _⟩, _⟩ := h
      exact absurd hw (GuardSys.owner_moves hi hf).2
  · rintro t ⟨hw, f, hf, _⟩
    exact (GuardSys.owner_moves hi hf).2 hw

/-- If any thread has work to do, some thread can do it. -/
theorem C53_progress (rotate : Bool) (evs : List GuardSys.Ev) {t : Nat} (h : Busy (GuardSys.init.run rotate evs) t) :
    ∃ u, Busy (GuardSys.init.run rotate evs) u ∧ (GuardSys.init.run rotate evs).step rotate u ≠ none := by
  have hi := GuardSys.Inv.run (rotate := rotate) evs _ GuardSys.inv_init
  by_cases hs : (GuardSys.init.run rotate evs).step rotate t = none
  · obtain ⟨_, f, u, ho, _⟩ := GuardSys.waits_cases ⟨h, hs⟩
    obtain ⟨h1, h2⟩ := GuardSys.owner_moves (rotate := rotate) hi ho
    exact ⟨u, h1, fun hx => h2 ⟨h1, hx⟩⟩
  · exact ⟨t, h, hs⟩

/-- A thread that has begun to lock one file or a pair can always still get it: whatever has happened since, it has had its guard already, or
    the threads can go on, without beginning anything new, so that it gets it, with all its files locked by it.  This includes a file paired
    with itself. -/
theorem C53_gets_guard (rotate : Bool) (evs : List GuardSys.Ev) {t : Nat} {g : Guard} (hg : ∀ f, g ≠ .spin f)
    (hidle : (GuardSys.init.run rotate evs).pc t = .idle) (more : List GuardSys.Ev) :
    (∃ before after, more = before ++ after ∧ Guarded (GuardSys.init.run rotate (evs ++ .start t g :: before)) t g) ∨
    ∃ steps : List Nat, Guarded (GuardSys.init.run rotate (evs ++ .start t g :: more ++ steps.map .step)) t g := by
  have hi := GuardSys.Inv.run (rotate := rotate) evs _ GuardSys.inv_init
  have hsplit : ∀ l, GuardSys.init.run rotate (evs ++ .start t g :: l) = ((GuardSys.init.run rotate evs).start t g).run rotate l := by
    intro l
    rw [GuardSys.run_append']
    rfl
  have hc := GuardSys.start_constructing g hidle
  have hi' := hi.start t g
  rcases GuardSys.run_constructing (rotate := rotate) more _ hi' hc with h | ⟨before, after, h1, h2⟩
  · obtain ⟨steps, hfin⟩ := GuardSys.finish (rotate := rotate) (hi'.run more _) h hg
    refine .inr ⟨steps, ?_⟩
    rw [GuardSys.run_append', hsplit]
    exact hfin
  · refine .inl ⟨before, after, h1, ?_⟩
    rw [hsplit]
    rcases h2 with h2 | ⟨_, f, h2⟩
    · exact h2
    · exact absurd h2 (hg f)

/-- A spinning lock never waits. -/
theorem C53_spin (rotate : Bool) (evs : List GuardSys.Ev) {t f left : Nat} (h : (GuardSys.init.run rotate evs).pc t = .spinning f left) :
    ¬ Waits rotate (GuardSys.init.run rotate evs) t := by
  intro hw
  obtain ⟨_, f', _, _, hx | ⟨_, hx⟩⟩ := GuardSys.waits_cases hw
  · rw [h] at hx; cases hx
  · rw [h] at hx; cases hx

/-! ## Concrete cases -/

/-- Two threads that lock the same pair in opposite orders have each locked one file. -/
def demoPair : List GuardSys.Ev := [.start 1 (.two 10 20), .start 2 (.two 20 10), .step 1, .step 2]

example : (GuardSys.init.run true demoPair).pc 1 = .try2 10 20 ∧ (GuardSys.init.run true demoPair).pc 2 = .try2 20 10 := by
  constructor <;> decide +kernel

/-- Thread 1 fails, unlocks, and waits for the other file; thread 2 gets both. -/
example :
    (GuardSys.init.run true (demoPair ++ [.step 1, .step 1])).pc 1 = .want2 20 10 ∧
    (GuardSys.init.run true (demoPair ++ [.step 1, .step 1, .step 2])).pc 2 = .holding [10, 20] ∧
    (GuardSys.init.run true (demoPair ++ [.step 1, .step 1, .step 2])).step true 1 = none ∧
    (GuardSys.init.run true (demoPair ++ [.step 1, .step 1, .step 2, .step 2, .step 2, .step 2, .step 1, .step 1])).pc 1 = .holding [10, 20] := by
  refine ⟨?_, ?_, rfl, ?_⟩ <;> decide +kernel

/-- One thread waits for another. -/
example : WaitChain true (GuardSys.init.run true (demoPair ++ [.step 1, .step 1, .step 2])) [1, 2] :=
  ⟨⟨⟨by unfold Busy; decide +kernel, rfl⟩, 20, by decide +kernel, .inr ⟨10, by decide +kernel⟩⟩, trivial⟩

/-- A file paired with itself. -/
example : (GuardSys.init.run true [.start 1 (.two 10 10), .step 1]).pc 1 = .holding [10] := by decide +kernel

end Securefs.Props

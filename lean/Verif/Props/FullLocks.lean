import Verif.Proofs.FullLocksRun
/-!
# C105: calls of the full format do not block each other for ever
-/

namespace Securefs.Props
open Securefs Securefs.Spec.Lk Securefs.Lk

/-- An identifier for the examples. -/
private def idOf (n : UInt8) : Bytes := n :: List.replicate 31 0

/-- C105 (order): whatever a callback of the full format meets, as long as there is memory, it waits for a mutex only while all that it has locked are before
    it in the order shards, files, identifiers of parents, log; it waits for two files only while it holds nothing, it uses what a mutex protects and
    unlocks it only while it holds it, and it ends holding nothing. -/
theorem C105_order (c : FullCall) (h : CallMem c) : Obeys (fun _ => False) c.acts := obeys_acts c h

/- A rename through a link whose directory is dropped as the last holder on the way, onto a file that is there. -/
example : CallMem (.rename (.link (idOf 1) .ok none (.child (idOf 2) .ok (some {}) .arrived) (some {}) .arrived) (.child (idOf 3) .ok none .arrived)
    (some (idOf 4, .ok, some { outstanding := true })) (some {}) none) := by
  refine ⟨⟨?_, ⟨?_, trivial⟩, trivial⟩, ⟨?_, trivial⟩, ?_⟩ <;> simp [Mem]
example : (FullCall.rename .arrived (.child (idOf 3) .ok none .arrived) none (some {}) none).acts =
    [.lock (.file kRootId), .use (.file kRootId), .unlock (.file kRootId),
     .lock (.shard 28), .use (.shard 28), .unlock (.shard 28), .lock (.parent (idOf 3)), .use (.parent (idOf 3)), .unlock (.parent (idOf 3)),
     .pair (.file kRootId) (.file (idOf 3)), .use (.file kRootId), .use (.file (idOf 3)), .unlock (.file (idOf 3)), .unlock (.file kRootId),
     .lock (.shard 28), .use (.shard 28), .unlock (.shard 28)] := by decide +kernel

/-- C105 (use): the calls do use the files under their mutexes: a call on a handle or an opened path uses that file, a listing uses the identifier of the
    parent as well, a new link uses directory and file, a rename both directories, and whoever drops the last holder uses the shard of the file. -/
theorem C105_uses :
    (∀ h, .use (.file h) ∈ (FullCall.onHandle h).acts) ∧
    (∀ t l h, (openAll t).2 = some h → .use (.file h) ∈ (FullCall.onPath t l).acts) ∧
    (∀ h full, .use (.file h) ∈ (FullCall.readdir h full).acts ∧ .use (.parent h) ∈ (FullCall.readdir h full).acts) ∧
    (∀ t b lb ls h d, (openAll t).2 = some h → (openBase b).2 = some d →
      .use (.file h) ∈ (FullCall.link t b lb ls).acts ∧ .use (.file d) ∈ (FullCall.link t b lb ls).acts) ∧
    (∀ f t rep lt lf d d', (openBase f).2 = some d → (openBase t).2 = some d' →
      .use (.file d) ∈ (FullCall.rename f t rep lt lf).acts ∧ .use (.file d') ∈ (FullCall.rename f t rep lt lf).acts) ∧
    (∀ h c i, h ≠ kRootId → FileTab.shardOf h = .ok i → .use (.shard i) ∈ (FullCall.release h true (some c)).acts) := by
  have hp : ∀ f g, Act.use (.file f) ∈ withPair f g ∧ Act.use (.file g) ∈ withPair f g := by
    intro f g
    unfold withPair
    split
    · rename_i e; subst e; simp [withFile]
    · simp
  refine ⟨fun h => by simp [FullCall.acts, withFile], ?_, fun h full => by simp [FullCall.acts, withFile, parentOf], ?_, ?_, ?_⟩
  · intro t l h e
    cases e1 : openAll t with
    | mk a o =>
      rw [e1] at e
      simp only at e
      subst e
      simp [FullCall.acts, e1, withFile]
  · intro t b lb ls h d e e'
    cases e1 : openAll t with
    | mk a o =>
      cases e2 : openBase b with
      | mk a' o' =>
        rw [e1] at e
        rw [e2] at e'
        simp only at e e'
        subst e e'
        simp [FullCall.acts, e1, e2, hp]
  · intro f t rep lt lf d d' e e'
    cases e1 : openBase f with
    | mk a o =>
      cases e2 : openBase t with
      | mk a' o' =>
        rw [e1] at e
        rw [e2] at e'
        simp only at e e'
        subst e e'
        cases rep with
        | none => simp [FullCall.acts, e1, e2, hp]
        | some p =>
          simp only [FullCall.acts, e1, e2]
          split <;> simp [hp]
  · intro h c i hne hs
    simp [FullCall.acts, drop, close, hne, closeInternal, withShard, hs]

example : (openAll (.follow .arrived (idOf 1) .ok none (.child (idOf 2) .ok none .arrived) none)).2 = some (idOf 2) := by decide +kernel

/-- C105 (no deadlock): whatever calls have begun and in whatever order their threads have gone on, somebody can go on, unless all calls have ended. -/
theorem C105_no_deadlock (rotate : Bool) (evs : List LockSys.Ev) (h : HistoryMem evs) : ¬ Deadlocked rotate (LockSys.init.run rotate evs) :=
  LockSys.not_stuck (LockSys.good_run LockSys.good_init h)

/-- C105 (ends): at every moment there is a way to go on on which all calls end. -/
theorem C105_ends (rotate : Bool) (evs : List LockSys.Ev) (h : HistoryMem evs) :
    ∃ ts : List Nat, AllDone ((LockSys.init.run rotate evs).run rotate (ts.map .step)) :=
  LockSys.ends _ (LockSys.good_run LockSys.good_init h) (Nat.le_refl _)

/-- C105 (waiting): a call that cannot go on waits for a mutex that another call has: never for one of its own, and it never uses or unlocks a mutex that it
    does not have. -/
theorem C105_waits_for_another (rotate : Bool) (evs : List LockSys.Ev) (h : HistoryMem evs) (t : Nat)
    (hw : Waits rotate (LockSys.init.run rotate evs) t) :
    ∃ m u x r, (LockSys.init.run rotate evs).owner m = some u ∧ u ≠ t ∧ (LockSys.init.run rotate evs).threads[t]? = some (x :: r) ∧
      (x = .lock m ∨ ∃ b, x = .pair m b) := by
  obtain ⟨⟨x, r, hx⟩, hs⟩ := hw
  obtain ⟨m, u, ho, hne, hx'⟩ := LockSys.waits_other (LockSys.good_run LockSys.good_init h) hx hs
  exact ⟨m, u, x, r, ho, hne, hx, hx'⟩

/- Two renames between the same directories in opposite directions, each with its first mutex. -/
private def crossed : List LockSys.Ev :=
  .begin (.rename .arrived (.child (idOf 3) .ok none .arrived) none none none) ::
  .begin (.rename (.child (idOf 3) .ok none .arrived) .arrived none none none) ::
  (List.replicate 9 (LockSys.Ev.step 1) ++ List.replicate 10 (LockSys.Ev.step 0) ++ [.step 1])
example : HistoryMem crossed := by
  intro c hc
  simp [crossed] at hc
  rcases hc with rfl | rfl <;> simp [CallMem, TripMem, Mem]
example : ((LockSys.init.run false crossed).threads.map (fun a => a.head?)) =
    [some (.tryNext (.file kRootId) (.file (idOf 3))), some (.tryNext (.file (idOf 3)) (.file kRootId))] := by decide +kernel
example : Waits false (LockSys.init.run false (.begin (.onHandle (idOf 3)) :: .begin (.readdir (idOf 3) false) :: [.step 0])) 1 :=
  ⟨⟨_, _, rfl⟩, by decide +kernel⟩

/-- A call that cannot open a file for lack of memory, and how far it comes. -/
private def short : FullCall := .onPath (.found .arrived (idOf 3) .noMemory none) none
private def shortRun : List LockSys.Ev := .begin short :: List.replicate 5 (.step 0)

/-- C105 fails if memory runs out: when the hash table of open files cannot grow in `open_as`, the new holder is destroyed before the guard of the shard, and
    the thread waits for a mutex that it has itself.  Whatever happens afterwards, it waits for ever and keeps the mutex, so that nobody can open or close
    another file of that shard. -/
theorem C105_alloc_violated :
    ∃ (c : FullCall) (evs : List LockSys.Ev) (m : Mu), ¬ CallMem c ∧ evs.head? = some (.begin c) ∧
      (∀ rotate, Deadlocked rotate (LockSys.init.run rotate evs)) ∧
      ∀ rotate evs', (LockSys.init.run rotate (evs ++ evs')).owner m = some 0 ∧ Waits rotate (LockSys.init.run rotate (evs ++ evs')) 0 := by
  refine ⟨short, shortRun, .shard 28, ?_, rfl, ?_, ?_⟩
  · intro h; exact h.2 rfl
  · intro rotate
    refine ⟨fun h => ?_, fun t => ?_⟩
    · have : ((LockSys.init.run rotate shortRun).threads.all
        (fun a => decide (a = []))) = false := by cases rotate <;> decide +kernel
      rw [List.all_eq_false] at this
      obtain ⟨a, ha, hne⟩ := this
      simp only [decide_eq_true_eq] at hne
      exact hne (h a ha)
    · cases t with
      | zero => 
        have : ((LockSys.init.run rotate shortRun).step rotate 0).isSome
            = false := by cases rotate <;> decide +kernel
        exact Option.not_isSome_iff_eq_none.mp (by rw [this]; exact Bool.false_ne_true)
      | succ t =>
        have : (LockSys.init.run rotate shortRun).threads.length
            = 1 := by cases rotate <;> decide +kernel
        unfold LockSys.step
        rw [List.getElem?_eq_none (by omega)]
  · intro rotate evs'
    rw [LockSys.run_append]
    have h0 : LockSys.SelfBlocked (LockSys.init.run rotate
        shortRun) 0 (.shard 28) := by
      refine ⟨by cases rotate <;> decide +kernel, [.use (.shard 28), .unlock (.shard 28), .unlock (.shard 28)], by cases rotate <;> decide +kernel⟩
    obtain ⟨ho, r, hr⟩ := LockSys.selfBlocked_run (rotate := rotate) evs' h0
    refine ⟨ho, ⟨_, r, hr⟩, ?_⟩
    unfold LockSys.step
    rw [hr]
    exact if_neg (by rw [ho]; exact Option.some_ne_none _)

end Securefs.Props

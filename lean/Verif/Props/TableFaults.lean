import Verif.Proofs.TableFaults
import Verif.Props.FileTable
/-!
# Property C99: files that cannot be written back

Changes are kept in memory until a file is closed.  What ought to hold when writing back fails: the change stays in memory, is written as
soon as writing works again, and the failing of one file costs no other file its changes.
-/

namespace Securefs.Props

open Securefs

variable {α : Type}

namespace Spec99

/-- The changes of a file that are not in the backing files. -/
def Unsaved (st : FileTab α) (id : Bytes) : Prop := st.disk id ≠ st.current id

/-- Nobody has the file open. -/
def Unused (st : FileTab α) (id : Bytes) : Prop := ∀ t a, (t, a) ∈ st.files.handles → st.files.file a ≠ some id

/-- What should happen when the process ends although some file could not be written: all the others are up to date. -/
def OthersSaved (st : FileTab α) (failed : Bytes) (d : Bytes → Option (FileVal α)) : Prop := ∀ id, id ≠ failed → d id = st.current id

/-- What does happen: each of the others is up to date or as it was, so no value appears that nobody wrote. -/
def OthersSavedOrOld (st : FileTab α) (failed : Bytes) (d : Bytes → Option (FileVal α)) : Prop :=
  ∀ id, id ≠ failed → d id = st.current id ∨ d id = st.disk id

end Spec99

/-! ## Where the example stands: thread 1 has changed file 1 and closed it, writing it back failed; thread 2 has changed file 33 and uses the
root -/

/-- The steps of the example. -/
def failSchedule : List (TabEvent Nat) :=
  [.openAs 1 (demoId 1) false, .modify 1 1 ⟨1, 11⟩, .openAs 2 (demoId 33) false, .modify 2 2 ⟨2, 21⟩, .drop 1 1, .readId 1,
   .closeInternal 1 (some ⟨7, 999⟩)]

theorem failSchedule_typed (more : List (TabEvent Nat)) (h : more.all wellTypedCheck = true) :
    ∀ e ∈ failSchedule ++ more, Spec.WellTyped e := by
  apply wellTyped_of_check
  rw [List.all_append, h, Bool.and_true]
  decide +kernel

/-! ## Failing to write back on close -/

/-- C99: a change that is not in the backing files is in an object in memory, and that object is not in the cache, from which objects are thrown
    away: it is the root or in the map of its shard, where every later opening of the file finds it. -/
theorem C99_kept (fresh : α) (st : FileTab α) (h : Reachable fresh st) (id : Bytes) (hu : Spec99.Unsaved st id) :
    ∃ a o, st.obj a = some o ∧ o.id = id ∧ st.current id = some o.val ∧
      (id = kRootId ∨ ∃ i, FileTab.shardOf id = .ok i ∧ (id, a) ∈ (st.shards i).live ∧ a ∉ (st.shards i).cache) := by
  have hg := h.good
  obtain ⟨a, o, h1, h2, h3, h4⟩ := FileTab.unsaved_live hg hu
  refine ⟨a, o, h1, h2, h3, ?_⟩
  rcases h4 with rfl | ⟨i, hi⟩
  · obtain ⟨o0, r1, r2⟩ := hg.1.root
    rw [h1] at r1
    cases r1
    exact Or.inl (h2.symm.trans r2)
  · obtain ⟨_, _, _, q3, _⟩ := hg.1.live_ok i id a hi
    refine Or.inr ⟨i, q3, hi, fun hc => ?_⟩
    obtain ⟨o', q1, _, _, q4, _⟩ := hg.1.cache_ok i a hc
    rw [h1] at q1
    cases q1
    rw [h2] at q4
    exact hu (q4.trans h3.symm)

/-- The failed file of the example is such a file: the backing files hold what the failed writing left, memory holds the change. -/
example : ∃ st : FileTab Nat, Reachable 0 st ∧ Spec99.Unsaved st (demoId 1) ∧ (st.disk (demoId 1)).map FileVal.data = some 999 ∧
    (st.current (demoId 1)).map FileVal.data = some 11 := by
  refine ⟨_, demo_reachable (failSchedule ++ []) (failSchedule_typed [] rfl) _ rfl, ?_, ?_, ?_⟩
  · unfold Spec99.Unsaved; decide +kernel
  · decide +kernel
  · decide +kernel

/-- C99: closing a file that cannot be written changes no file as its users see it and no handle, and touches no backing file but its own. -/
theorem C99_close_fails (fresh : α) (st : FileTab α) (h : Reachable fresh st) (t : Nat) (id : Bytes) (v : FileVal α)
    (ht : st.closing.lookup t = some (.lockShard id)) (hn : ∀ w, st.current id = some w → w.nlink ≠ 0) (st' : FileTab α) (b : Bool)
    (hs : FileTab.step fresh st (.closeInternal t (some v)) = .ok st' b) :
    (∀ x, st'.current x = st.current x) ∧ st'.holders = st.holders ∧ (∀ x, x ≠ id → st'.disk x = st.disk x) ∧ Reachable fresh st' := by
  obtain ⟨⟨⟨h1, _⟩, _⟩, h3⟩ := C34_step fresh st h (.closeInternal t (some v)) trivial st' b hs
  have hstep : st.closeInternal t (some v) = .ok st' b := by
    unfold FileTab.step at hs
    split at hs
    · cases hs
    · exact hs
  obtain ⟨g1, g2, g3⟩ := FileTab.close_fails h.good ht hn hstep
  refine ⟨fun x => ?_, h1, g2, h3⟩
  by_cases hx : x = id
  · rcases g3 with g3 | ⟨a, o, k1, k2⟩
    · unfold FileTab.current
      rw [g1, g3]
    · rw [hx, ← k2, FileTab.current_obj h.good.1.uniq k1, FileTab.current_obj h3.good.1.uniq (by unfold FileTab.obj; rw [g1]; exact k1)]
  · unfold FileTab.current
    rw [g1, g2 x hx]

/-- The closing that fails in the example. -/
example : ∃ st st' : FileTab Nat, Reachable 0 st ∧ st.closing.lookup 1 = some (.lockShard (demoId 1)) ∧
    (∀ w, st.current (demoId 1) = some w → w.nlink ≠ 0) ∧ FileTab.step 0 st (.closeInternal 1 (some ⟨7, 999⟩)) = .ok st' false := by
  have hr : ∀ st, endState (FileTab.run 0 demoStart (failSchedule.take 6)) = some st → Reachable 0 st :=
    fun st hst => demo_reachable _ (wellTyped_of_check _ (by decide +kernel)) st hst
  refine ⟨_, _, hr _ rfl, rfl, ?_, rfl⟩
  intro w hw
  have : w = ⟨1, 11⟩ := by
    have h2 : (some (⟨1, 11⟩ : FileVal Nat)) = some w := by rw [← hw]; decide +kernel
    exact (Option.some.inj h2).symm
  rw [this]
  decide

/-- C99: once writing works again, the next closing of the file by its last user brings the backing files up to date, whatever failures came
    before. -/
theorem C99_retry (fresh : α) (st : FileTab α) (h : Reachable fresh st) (t : Nat) (id : Bytes) (hid : id.length = 32) (hr : id ≠ kRootId)
    (ht : st.closing.lookup t = some (.lockShard id)) (hfree : Spec99.Unused st id) (v : FileVal α) (hv : st.current id = some v)
    (hn : v.nlink ≠ 0) :
    ∃ st' b, FileTab.step fresh st (.closeInternal t none) = .ok st' b ∧ st'.disk id = some v ∧ ¬ Spec99.Unsaved st' id := by
  have hw : Spec.WellTyped (α := α) (.closeInternal t none) := trivial
  cases hs : FileTab.step fresh st (.closeInternal t none) with
  | ok st' b =>
    have hstep : st.closeInternal t none = .ok st' b := by
      unfold FileTab.step at hs
      split at hs
      · cases hs
      · exact hs
    have hd := FileTab.close_saves h.good hid hr ht hfree hv hn hstep
    refine ⟨st', b, rfl, hd, fun hu => hu ?_⟩
    obtain ⟨⟨⟨_, k⟩, _⟩, _⟩ := C34_step fresh st h (.closeInternal t none) hw st' b hs
    rw [hd]
    rcases k with k | ⟨id', w, k1, k2, _, k4⟩
    · have k' := congrFun k id
      exact (k'.trans hv).symm
    · have k' := congrFun k4 id
      by_cases hi : id = id'
      · subst hi
        have : st.current id = some w := k1
        rw [hv] at this
        cases this
        exact absurd k2 hn
      · rw [Spec.update, if_neg hi] at k'
        exact (k'.trans hv).symm
  | disabled =>
    exfalso
    unfold FileTab.step at hs
    simp only [TabEvent.thread, TabEvent.isClosing, ht, Option.isSome_some, Bool.true_and, Bool.not_true, Bool.false_eq_true, if_false] at hs
    obtain ⟨i, hi⟩ := FileTab.shardOf_ok hid hr
    unfold FileTab.closeInternal at hs
    rw [ht] at hs
    dsimp only at hs
    rw [hi] at hs
    dsimp only at hs
    split at hs
    · cases hs
    · split at hs
      · cases hs
      · split at hs
        · cases hs
        · split at hs
          · exact FileTab.eject_enabled hs
          · exact FileTab.eject_enabled hs
  | useAfterFree =>
    have hok := FileTab.step_ok fresh h.good (.closeInternal t none) hw
    rw [hs] at hok
    obtain ⟨_, _, h1, _⟩ := hok
    cases h1

/-- The failed file of the example is opened, changed and closed again by another thread. -/
example : ∃ st : FileTab Nat, Reachable 0 st ∧ st.closing.lookup 5 = some (.lockShard (demoId 1)) ∧ Spec99.Unused st (demoId 1) ∧
    st.current (demoId 1) = some ⟨1, 12⟩ ∧ st.disk (demoId 1) = some ⟨7, 999⟩ := by
  refine ⟨_, demo_reachable (failSchedule ++ [.openAs 5 (demoId 1) false, .modify 5 1 ⟨1, 12⟩, .drop 5 1, .readId 5])
    (failSchedule_typed _ (by decide +kernel)) _ rfl, rfl, ?_, by decide +kernel, by decide +kernel⟩
  intro t a hm
  have hm' : (t, a) ∈ [((2 : Nat), (2 : Nat))] := hm
  rw [List.mem_singleton] at hm'
  cases hm'
  decide +kernel

/-! ## Failing to write back the root -/

/-- C99 is false for the root: whenever a thread has dropped the last handle of the root, which every operation on a path does, and the root cannot
    be written, the process ends, and of all other files the backing files stay as they are.  Every unsaved change of every file is lost. -/
theorem C99_root_violated (fresh : α) (st : FileTab α) (h : Reachable fresh st) (t : Nat) (v : FileVal α)
    (ht : st.closing.lookup t = some (.readId 0)) :
    ∃ d, FileTab.stepFault fresh st (.rootFails t v) = .terminated d ∧ d kRootId = some v ∧ (∀ id, id ≠ kRootId → d id = st.disk id) ∧
      ∀ id, id ≠ kRootId → Spec99.Unsaved st id → d id ≠ st.current id := by
  obtain ⟨o, r1, r2⟩ := h.good.1.root
  refine ⟨(st.setDisk kRootId (some v)).disk, ?_, ?_, ?_, ?_⟩
  · show st.rootFails t v = _
    unfold FileTab.rootFails
    rw [ht]
    dsimp only
    rw [r1]
    dsimp only
    rw [if_pos r2]
  · simp [FileTab.setDisk]
  · intro id hid
    simp [FileTab.setDisk, hid]
  · intro id hid hu
    show (st.setDisk kRootId (some v)).disk id ≠ _
    simp only [FileTab.setDisk, hid, if_false]
    exact hu

/-- In the example thread 2 looks at the root; file 1 and file 33 have changes that are not saved. -/
example : ∃ st : FileTab Nat, Reachable 0 st ∧ st.closing.lookup 2 = some (.readId 0) ∧ Spec99.Unsaved st (demoId 1) ∧
    Spec99.Unsaved st (demoId 33) := by
  refine ⟨_, demo_reachable (failSchedule ++ [.openAs 2 kRootId false, .drop 2 0]) (failSchedule_typed _ (by decide +kernel)) _ rfl,
    rfl, ?_, ?_⟩
  · unfold Spec99.Unsaved; decide +kernel
  · unfold Spec99.Unsaved; decide +kernel

/-- C99 is false for the root, as a complete execution: two files are changed, one of them is closed and still open elsewhere; an operation that only
    looks at the root ends, and nothing of either change is left. -/
theorem C99_execution_violated : ∃ d, FileTab.runFault 0 demoStart
      ([.openAs 1 (demoId 1) false, .modify 1 1 ⟨1, 11⟩, .openAs 2 (demoId 33) false, .modify 2 2 ⟨2, 21⟩, .openAs 3 kRootId false, .drop 3 0].map
        TabFault.plain ++ [.rootFails 3 ⟨1, 5⟩]) = .terminated d ∧
    d (demoId 1) = some ⟨1, 10⟩ ∧ d (demoId 33) = some ⟨2, 20⟩ := by
  refine ⟨_, rfl, ?_, ?_⟩
  · decide +kernel
  · decide +kernel

/-! ## Failing to write back at unmounting -/

/-- C99 as far as it is true at unmounting: without failures everything is saved; with them unmounting either still finishes with everything saved,
    or ends at the one file that failed, and then every other file is up to date or as it was. -/
theorem C99_unmount_partial (fresh : α) (st : FileTab α) (h : Reachable fresh st) (plan : List (Option (FileVal α))) :
    (∃ st', st.shutdownFault plan = .ok st' true ∧ ∀ id, st'.disk id = st.current id) ∨
    ∃ d failed v, st.shutdownFault plan = .terminated d ∧ some v ∈ plan ∧ d failed = some v ∧ Spec99.OthersSavedOrOld st failed d := by
  obtain ⟨st1, h1, h2⟩ := FileTab.shutdown_ok h.good
  rcases FileTab.shutdownFault_cases plan h1 with g | ⟨d, g⟩
  · exact Or.inl ⟨st1, g, h2⟩
  · obtain ⟨f, v, k1, k2, k3⟩ := FileTab.shutdownFault_end (cur := st.current) (fun a o ho => FileTab.current_obj h.good.1.uniq ho) g
    exact Or.inr ⟨d, f, v, g, k1, k2, k3⟩

/-- C99: without failures unmounting saves everything, also the files whose closing had failed. -/
theorem C99_unmount_saves (fresh : α) (st : FileTab α) (h : Reachable fresh st) (plan : List (Option (FileVal α))) (hp : ∀ x ∈ plan, x = none) :
    ∃ st', st.shutdownFault plan = .ok st' true ∧ ∀ id, ¬ Spec99.Unsaved st' id ∧ st'.disk id = st.current id := by
  obtain ⟨st1, h1, h2⟩ := FileTab.shutdown_ok h.good
  refine ⟨st1, FileTab.shutdownFault_none hp h1, fun id => ⟨fun hu => hu ?_, h2 id⟩⟩
  rw [h2 id]
  exact (FileTab.shutdown_current h.good h1 id).symm

/-- Unmounting in the state of the example, in which two files have unsaved changes: the failing third flush is that of file 33. -/
example : ∃ st : FileTab Nat, Reachable 0 st ∧ Spec99.Unsaved st (demoId 1) ∧ Spec99.Unsaved st (demoId 33) ∧
    (∃ d, st.shutdownFault [none, some ⟨9, 9⟩] = .terminated d ∧ d (demoId 33) = some ⟨9, 9⟩ ∧ d (demoId 1) = some ⟨7, 999⟩) ∧
    ∃ d, st.shutdownFault [none, none, some ⟨9, 9⟩] = .terminated d ∧ d (demoId 33) = some ⟨2, 21⟩ ∧ d (demoId 1) = some ⟨9, 9⟩ := by
  refine ⟨_, demo_reachable (failSchedule ++ []) (failSchedule_typed [] rfl) _ rfl, ?_, ?_, ⟨_, rfl, ?_, ?_⟩, ⟨_, rfl, ?_, ?_⟩⟩
  · unfold Spec99.Unsaved; decide +kernel
  · unfold Spec99.Unsaved; decide +kernel
  all_goals decide +kernel

/-- C99 is false at unmounting: if the root, which is flushed first, cannot be written, no other file is, and whatever has unsaved changes loses
    them. -/
theorem C99_unmount_violated (fresh : α) (st : FileTab α) (h : Reachable fresh st) (v : FileVal α) (plan : List (Option (FileVal α))) :
    ∃ d, st.shutdownFault (some v :: plan) = .terminated d ∧ (∀ id, id ≠ kRootId → d id = st.disk id) ∧
      ((∃ id, id ≠ kRootId ∧ Spec99.Unsaved st id) → ¬ Spec99.OthersSaved st kRootId d) := by
  obtain ⟨o, r1, r2⟩ := h.good.1.root
  have hd : ∀ id, id ≠ kRootId → (st.setDisk kRootId (some v)).disk id = st.disk id := fun id hid => by simp [FileTab.setDisk, hid]
  refine ⟨(st.setDisk kRootId (some v)).disk, ?_, hd, ?_⟩
  · unfold FileTab.shutdownFault
    rw [FileTab.flushAllFault, r1]
    dsimp only
    rw [r2]
  · rintro ⟨id, h1, h2⟩ h3
    exact h2 ((hd id h1).symm.trans (h3 id h1))

/-- The state of the example has such files. -/
example : ∃ st : FileTab Nat, Reachable 0 st ∧ ∃ id, id ≠ kRootId ∧ Spec99.Unsaved st id := by
  refine ⟨_, demo_reachable (failSchedule ++ []) (failSchedule_typed [] rfl) _ rfl, demoId 33, by decide +kernel, ?_⟩
  unfold Spec99.Unsaved
  decide +kernel

end Securefs.Props

import Verif.Proofs.GetPathTable
import Verif.Props.FileTable
/-!
# C66 again: whether the names that `vgetpath` points to are still there

`Verif/Props/GetPath.lean` takes a view into a directory as good as long as the entries of the directory are the same.  Here the other
condition is looked at: the object that owns the entries must not have been destroyed.
-/

namespace Securefs.Props

open Securefs Securefs.Spec

variable {α : Type}

/-- An object that a thread held stays where it is through every schedule of any threads in which at most 41 files of its shard are closed and
    which does not remove its last link. -/
theorem C66_kept (fresh : α) {st st' : FileTab α} (h : Reachable fresh st) {t a : Nat} (hm : (t, a) ∈ st.holders) {o : FileObj α}
    (ho : st.obj a = some o) (hn : o.val.nlink ≠ 0) {s : Nat} (hs : FileTab.shardOf o.id = .ok s) {es : List (TabEvent α)} {b : Bool}
    (hw : ∀ e ∈ es, WellTyped e) (hl : StaysLinked a es) (hc : closings fresh s st es ≤ 41) (hr : FileTab.run fresh st es = .ok st' b) :
    ∃ o', st'.obj a = some o' ∧ o'.id = o.id := by
  obtain ⟨o', h1, h2, _⟩ := FileTab.run_kept fresh hs es st st' b 0 h.good hw hl (FileTab.held_kept h.good hm ho hn) (by omega) hr
  exact ⟨o', h1, h2⟩

/-- Without other threads: if at most 41 of the directories on the path, the last name left out, are in the same shard, the names are all there
    when they are read, in every state and for all other parameters. -/
theorem C66_short_partial (fresh : α) {st : FileTab α} (h : Reachable fresh st) {t : Nat} (hq : st.closing.lookup t = none) {ids : List Bytes}
    (hlen : ∀ id ∈ ids, id.length = 32) (hex : ∀ id ∈ ids, ∃ v, st.current id = some v ∧ v.nlink ≠ 0)
    (hs : ∀ s, inShard s ids.dropLast ≤ 41) : ∃ st' last, FileTab.getpath fresh st t ids = .ok (st', last) true := by
  have hg := h.good
  obtain ⟨o, ho, hid⟩ := hg.1.root
  have hopen : st.openAs t kRootId false = .ok (st.hold t 0 o) true := by
    unfold FileTab.openAs
    rw [if_pos rfl, ho]
  have hok := FileTab.openAs_ok fresh hg t kRootId false (by decide +kernel)
  rw [hopen] at hok
  obtain ⟨hg1, ⟨hcur1, -⟩, -⟩ := hok
  change (st.hold t 0 o).current = st.current at hcur1
  have hobj := FileTab.obj_hold st t 0 o (FileTab.obj_lt ho)
  obtain ⟨st', views, last, b, hwalk, _, _, _, hv, hb⟩ := FileTab.walk_kept fresh t ids (st.hold t 0 o) 0 kRootId hg1 hq
    ⟨List.mem_cons_self .., { o with ref := o.ref + 1 }, by rw [hobj]; exact updAt_same _ _ _, hid, .inl rfl⟩ hlen
    (by
      intro id hi v hcv
      obtain ⟨w, hw, hn⟩ := hex id hi
      rw [hcur1, hw] at hcv
      cases hcv; exact hn)
  have hbt : b = true := hb.mpr (by
    intro id hi
    obtain ⟨w, hw, _⟩ := hex id hi
    rw [hcur1, hw]; simp)
  subst hbt
  have hgood := hv (by
    intro s
    cases ids with
    | nil => simp [inShard]
    | cons x l =>
      have : inShard s ((kRootId :: x :: l).dropLast) = inShard s (x :: l).dropLast := by
        show inShard s (kRootId :: (x :: l).dropLast) = _
        unfold inShard
        rw [List.countP_cons, FileTab.shardOf_root]
        rfl
      rw [this]; exact hs s)
  refine ⟨st', last, ?_⟩
  unfold FileTab.getpath
  rw [hopen]
  dsimp only
  rw [hwalk]
  dsimp only
  rw [if_pos hgood]

/-- So it is for every path of at most 42 names. -/
theorem C66_short_length_partial (fresh : α) {st : FileTab α} (h : Reachable fresh st) {t : Nat} (hq : st.closing.lookup t = none)
    {ids : List Bytes} (hlen : ∀ id ∈ ids, id.length = 32) (hex : ∀ id ∈ ids, ∃ v, st.current id = some v ∧ v.nlink ≠ 0)
    (hl : ids.length ≤ 42) : ∃ st' last, FileTab.getpath fresh st t ids = .ok (st', last) true := by
  refine C66_short_partial fresh h hq hlen hex fun s => ?_
  have : inShard s ids.dropLast ≤ ids.dropLast.length := List.countP_le_length
  rw [List.length_dropLast] at this
  omega

/-- Identifiers that are all in the same shard. -/
def deepId (k : Nat) : Bytes := 1 :: UInt8.ofNat k :: zeros 30

/-- All of them are there. -/
def deepDisk (id : Bytes) : Option (FileVal Nat) := if id.take 1 = [1] then some ⟨1, 7⟩ else none

/-- A process that has used nine files, one after the other. -/
def deepSchedule : List (TabEvent Nat) :=
  (List.range 9).flatMap fun k => [.openAs 1 (deepId (200 + k)) false, .drop 1 (k + 1), .readId 1, .closeInternal 1 none]

/-- The state after that. -/
def deepStart : FileTab Nat :=
  match endState (FileTab.run 0 (FileTab.init ⟨1, 0⟩ deepDisk) deepSchedule) with
  | some st => st
  | none => FileTab.init ⟨1, 0⟩ deepDisk

theorem deepDisk_linked : ∀ id v, id ≠ kRootId → deepDisk id = some v → v.nlink ≠ 0 := by
  intro id v _ h
  unfold deepDisk at h
  split at h
  · cases h; simp
  · cases h

theorem reach_of_end {disk : Bytes → Option (FileVal Nat)} (hd : ∀ id v, id ≠ kRootId → disk id = some v → v.nlink ≠ 0) {es : List (TabEvent Nat)}
    {st : FileTab Nat} (hc : es.all wellTypedCheck = true) (h : endState (FileTab.run 0 (FileTab.init ⟨1, 0⟩ disk) es) = some st) : Reachable 0 st := by
  cases hr : FileTab.run 0 (FileTab.init ⟨1, 0⟩ disk) es with
  | ok st' b =>
    rw [hr] at h
    cases h
    exact ⟨_, _, es, b, hd, wellTyped_of_check _ hc, hr⟩
  | disabled => rw [hr] at h; cases h
  | useAfterFree => rw [hr] at h; cases h

theorem deepStart_end : endState (FileTab.run 0 (FileTab.init ⟨1, 0⟩ deepDisk) deepSchedule) = some deepStart := by
  have h : (endState (FileTab.run 0 (FileTab.init ⟨1, 0⟩ deepDisk) deepSchedule)).isSome = true := by decide +kernel
  unfold deepStart
  cases he : endState (FileTab.run 0 (FileTab.init ⟨1, 0⟩ deepDisk) deepSchedule) with
  | none => rw [he] at h; cases h
  | some st => rfl

theorem deepStart_reachable : Reachable 0 deepStart := reach_of_end deepDisk_linked (by decide +kernel) deepStart_end

/-- Whether a destroyed object was touched. -/
def touchedFreed {σ : Type} : TabRes σ → Bool
  | .useAfterFree => true
  | _ => false

/-- C66 is false without other threads as well: nine files have been used before, and then `getpath` is called for a path of 43 directories that are
    all in one shard.  Closing the 42nd of them destroys the object of the first one, whose name is read afterwards.  With 42 directories it goes
    well. -/
theorem C66_deep_violated : Reachable 0 deepStart ∧ deepStart.closing = [] ∧
    touchedFreed (FileTab.getpath 0 deepStart 1 ((List.range 43).map deepId)) = true ∧
    touchedFreed (FileTab.getpath 0 deepStart 1 ((List.range 42).map deepId)) = false := by
  refine ⟨deepStart_reachable, ?_, ?_, ?_⟩ <;> decide +kernel

/-- The hypotheses of `C66_short_length_partial` hold for those 42 directories. -/
example : ∃ st' last, FileTab.getpath 0 deepStart 1 ((List.range 42).map deepId) = .ok (st', last) true := by
  have hcur : ∀ k < 42, (deepStart.current (deepId k)).map (fun v => v.nlink ≠ 0) = some (true = true) := by
    have : ∀ k < 42, (match deepStart.current (deepId k) with | some v => decide (v.nlink ≠ 0) | none => false) = true := by decide +kernel
    intro k hk
    have h := this k hk
    cases hc : deepStart.current (deepId k) with
    | none => rw [hc] at h; cases h
    | some v =>
      rw [hc] at h
      simp only [Option.map_some, Option.some.injEq]
      simpa using h
  refine C66_short_length_partial 0 deepStart_reachable (by decide +kernel) ?_ ?_ (by simp)
  · intro id hi
    obtain ⟨k, _, rfl⟩ := List.mem_map.mp hi
    simp [deepId, zeros]
  · intro id hi
    obtain ⟨k, hk, rfl⟩ := List.mem_map.mp hi
    have h := hcur k (by simpa using hk)
    cases hc : deepStart.current (deepId k) with
    | none => rw [hc] at h; cases h
    | some v =>
      rw [hc] at h
      refine ⟨v, rfl, ?_⟩
      simpa using h

/-- Thread 1 has walked from the root to a directory and on to a file in it, so that a view into the directory is left; the directory was closed.
    Thread 2 opens and closes other files, without changing anything. -/
def readersSchedule (n : Nat) : List (TabEvent Nat) :=
  [.openAs 1 kRootId false, .openAs 1 (deepId 0) false, .drop 1 0, .readId 1, .closeInternal 1 none, .openAs 1 (deepId 1) false, .drop 1 10, .readId 1,
   .closeInternal 1 none] ++
  (List.range n).flatMap fun k => [.openAs 2 (deepId (2 + k)) false, .drop 2 (k + 12), .readId 2, .closeInternal 2 none]

/-- With other threads nobody has to change anything: 41 files of the same shard that another thread opens and closes are enough to destroy the
    directory, here the object 10, in which `getpath` still has a name to read; with 40 it is there. -/
theorem C66_readers_violated :
    ((endState (FileTab.run 0 deepStart (readersSchedule 41))).map fun st => (st.obj 10).isSome) = some false ∧
    ((endState (FileTab.run 0 deepStart (readersSchedule 40))).map fun st => ((st.obj 10).map FileObj.id)) = some (some (deepId 0)) := by
  refine ⟨?_, ?_⟩ <;> decide +kernel

/-- In the second case `C66_kept` says so: from the moment at which thread 1 holds the directory there are 41 closings, the one of the directory among
    them. -/
example : ((endState (FileTab.run 0 deepStart ((readersSchedule 40).take 2))).map fun st =>
    (decide ((1, 10) ∈ st.holders), (st.obj 10).map (fun o => (FileTab.shardOf o.id, o.val.nlink)), closings 0 30 st ((readersSchedule 40).drop 2))) =
    some (true, some (.ok 30, 1), 41) := by
  decide +kernel

end Securefs.Props

import Verif.Proofs.FileTable
import Verif.Proofs.FilePaths
/-!
# Properties C34 to C37: the table of open files

A schedule is any list of steps of any threads (`FileTab.run`).  `Spec.Step` (`Verif/Spec/FileTable.lean`) is what the
steps may do to the files as their users see them (`FileTab.files`).
-/

namespace Securefs.Props

open Securefs

variable {α : Type}

/-- The states a process can get into: it starts with the root object and backing files that all have a link, and runs any
    schedule without touching a destroyed object. -/
def Reachable (fresh : α) (st : FileTab α) : Prop :=
  ∃ (root : FileVal α) (disk : Bytes → Option (FileVal α)) (es : List (TabEvent α)) (b : Bool),
    (∀ id v, id ≠ kRootId → disk id = some v → v.nlink ≠ 0) ∧ (∀ e ∈ es, Spec.WellTyped e) ∧
    FileTab.run fresh (FileTab.init root disk) es = .ok st b

theorem Reachable.good {fresh : α} {st : FileTab α} (h : Reachable fresh st) : FileTab.Good st := by
  obtain ⟨root, disk, es, b, h1, h2, h3⟩ := h
  exact FileTab.run_good fresh es _ st b (FileTab.init_good root disk h1) h2 h3

/-! ## A small process used in the examples: three files, two of them in the same shard. -/

/-- An identifier. -/
def demoId (n : UInt8) : Bytes := n :: zeros 31

/-- The backing files of the example. -/
def demoDisk (id : Bytes) : Option (FileVal Nat) :=
  if id = demoId 1 then some ⟨1, 10⟩ else if id = demoId 33 then some ⟨2, 20⟩ else if id = demoId 2 then some ⟨1, 30⟩ else none

/-- The start of the example. -/
def demoStart : FileTab Nat := FileTab.init ⟨1, 0⟩ demoDisk

/-- Two threads open, change, close, unlink and create files. -/
def demoSchedule : List (TabEvent Nat) :=
  [.openAs 1 (demoId 1) false, .openAs 2 (demoId 33) false, .openAs 2 (demoId 1) false, .modify 1 1 ⟨1, 11⟩, .drop 1 1,
   .modify 2 1 ⟨0, 12⟩, .drop 2 1, .openAs 1 kRootId false, .readId 2, .closeInternal 2 none, .createAs 1 (demoId 7) false,
   .modify 1 3 ⟨1, 70⟩, .drop 1 3, .readId 1, .closeInternal 1 none, .openAs 3 (demoId 7) false, .give 1 3 0]

/-- Whether a run ended well, and in which state. -/
def endState {σ : Type} : TabRes σ → Option σ
  | .ok st _ => some st
  | _ => none

theorem demoDisk_linked : ∀ id v, id ≠ kRootId → demoDisk id = some v → v.nlink ≠ 0 := by
  intro id v _ h
  unfold demoDisk at h
  split at h
  · cases h; simp
  · split at h
    · cases h; simp
    · split at h
      · cases h; simp
      · cases h

theorem demo_reachable (es : List (TabEvent Nat)) (hw : ∀ e ∈ es, Spec.WellTyped e) (st : FileTab Nat)
    (h : endState (FileTab.run 0 demoStart es) = some st) : Reachable 0 st := by
  cases hr : FileTab.run 0 demoStart es with
  | ok st' b =>
    rw [hr] at h
    cases h
    exact ⟨_, _, es, b, demoDisk_linked, hw, hr⟩
  | disabled => rw [hr] at h; cases h
  | useAfterFree => rw [hr] at h; cases h

/-- Decides `Spec.WellTyped`. -/
def wellTypedCheck : TabEvent Nat → Bool
  | .openAs _ id _ | .createAs _ id _ => id.length == 32
  | _ => true

theorem wellTyped_of_check (es : List (TabEvent Nat)) (h : es.all wellTypedCheck = true) : ∀ e ∈ es, Spec.WellTyped e := by
  intro e he
  have := List.all_eq_true.mp h e he
  cases e <;> simp_all [wellTypedCheck, Spec.WellTyped]

/-- The state the example schedule leads to, which is not trivial: a handle of a created file and one of a linked file are
    open, the unlinked file is gone, and its shard-mate is still there. -/
theorem demo_end : ∃ st, endState (FileTab.run 0 demoStart demoSchedule) = some st ∧
    st.holders = [(3, 0), (3, 3), (2, 2)] ∧ st.current (demoId 1) = none ∧ st.disk (demoId 1) = none ∧
    (st.current (demoId 7)).map FileVal.data = some 70 ∧ (st.current (demoId 33)).map FileVal.data = some 20 := by
  refine ⟨_, rfl, ?_⟩
  decide +kernel

/-! ## C34 -/

/-- C34: in every state any schedule leads to, at most one object exists per file, every handle stands for an object that is
    alive and a file that exists, and all handles of a file are the same object. -/
theorem C34_one_object (fresh : α) (st : FileTab α) (h : Reachable fresh st) : Spec.OneObject st.files := by
  have hg := h.good
  constructor
  · intro t a hm
    cases ho : st.obj a with
    | none => exact absurd ho (hg.1.held t a hm)
    | some o =>
      refine ⟨o.id, o.val, ?_, FileTab.current_obj hg.1.uniq ho⟩
      show (st.obj a).map FileObj.id = some o.id
      rw [ho]; rfl
  · intro a b id ha hb
    change (st.obj a).map FileObj.id = some id at ha
    change (st.obj b).map FileObj.id = some id at hb
    cases hoa : st.obj a with
    | none => rw [hoa] at ha; cases ha
    | some oa =>
      cases hob : st.obj b with
      | none => rw [hob] at hb; cases hb
      | some ob =>
        rw [hoa] at ha; rw [hob] at hb
        simp only [Option.map_some, Option.some.injEq] at ha hb
        exact hg.1.uniq a b oa ob hoa hob (by rw [ha, hb])

example : ∃ st : FileTab Nat, Reachable 0 st ∧ st.holders.length = 3 := by
  obtain ⟨st, h1, h2, _⟩ := demo_end
  exact ⟨st, demo_reachable demoSchedule (wellTyped_of_check _ (by decide +kernel)) st h1, by rw [h2]; rfl⟩

/-- C34: every step of every schedule does to the files, as their users see them, what the specification allows: opening finds
    the last value anybody wrote whichever object it was written through, and no file changes behind its users' backs. -/
theorem C34_step (fresh : α) (st : FileTab α) (h : Reachable fresh st) (e : TabEvent α) (hw : Spec.WellTyped e) (st' : FileTab α)
    (b : Bool) (hs : FileTab.step fresh st e = .ok st' b) : Spec.Step fresh st.files st'.files b e ∧ Reachable fresh st' := by
  have hok := FileTab.step_ok fresh h.good e hw
  rw [hs] at hok
  refine ⟨hok.2, ?_⟩
  obtain ⟨root, disk, es, b0, h1, h2, h3⟩ := h
  refine ⟨root, disk, es ++ [e], true, h1, ?_, ?_⟩
  · intro x hx
    rcases List.mem_append.mp hx with hx | hx
    · exact h2 x hx
    · rw [List.mem_singleton] at hx; subst hx; exact hw
  · have key : ∀ (l : List (TabEvent α)) (s : FileTab α), FileTab.run fresh s l = .ok st b0 → FileTab.run fresh s (l ++ [e]) = .ok st' true := by
      intro l
      induction l with
      | nil =>
        intro s hl
        cases hl
        simp only [List.nil_append, FileTab.run, hs]
      | cons x l ih =>
        intro s hl
        simp only [List.cons_append, FileTab.run] at hl ⊢
        cases hx : FileTab.step fresh s x with
        | ok s1 b1 => rw [hx] at hl; exact ih s1 hl
        | disabled => rw [hx] at hl; exact ih s hl
        | useAfterFree => rw [hx] at hl; cases hl
    exact key es _ h3

/-- Opening again the file created, changed and closed by another thread. -/
example : ∃ (st st' : FileTab Nat) (b : Bool), Reachable 0 st ∧ FileTab.step 0 st (.openAs 5 (demoId 7) false) = .ok st' b ∧
    b = true ∧ st'.holders.length = 4 ∧ (st'.current (demoId 7)).map FileVal.data = some 70 := by
  have hreach : ∀ st, endState (FileTab.run 0 demoStart demoSchedule) = some st → Reachable 0 st :=
    fun st h => demo_reachable demoSchedule (wellTyped_of_check _ (by decide +kernel)) st h
  refine ⟨_, _, _, hreach _ rfl, rfl, ?_⟩
  decide +kernel

/-- C34: opening a file that exists succeeds unless the operating system refuses; a file being in use never stands in the
    way. -/
theorem C34_open_succeeds (fresh : α) (st : FileTab α) (h : Reachable fresh st) (t : Nat) (id : Bytes) (hid : id.length = 32)
    (hex : st.current id ≠ none) (ht : st.closing.lookup t = none) :
    ∃ st', FileTab.step fresh st (.openAs t id false) = .ok st' true := by
  have hok := FileTab.step_ok fresh h.good (.openAs t id false) hid
  cases hs : FileTab.step fresh st (.openAs t id false) with
  | ok st' b =>
    rw [hs] at hok
    obtain ⟨_, ⟨_, h2⟩, _⟩ := hok
    cases b with
    | true => exact ⟨st', rfl⟩
    | false =>
      rw [if_neg (by simp)] at h2
      rcases h2.1 with h3 | h3
      · exact absurd h3 hex
      · cases h3
  | disabled =>
    exfalso
    unfold FileTab.step at hs
    simp only [TabEvent.thread, ht, Option.isSome_none, Bool.false_and, Bool.false_eq_true, if_false] at hs
    unfold FileTab.openAs at hs
    by_cases hr : id = kRootId
    · rw [if_pos hr] at hs
      split at hs <;> cases hs
    · rw [if_neg hr] at hs
      obtain ⟨i, hi⟩ := FileTab.shardOf_ok hid hr
      rw [hi] at hs
      dsimp only at hs
      split at hs
      · split at hs <;> cases hs
      · split at hs
        · cases hs
        · split at hs <;> cases hs
        · split at hs
          · cases hs
          · rw [if_neg (by simp)] at hs; cases hs
  | useAfterFree =>
    rw [hs] at hok
    obtain ⟨_, _, h1, _⟩ := hok
    cases h1

example : ∃ st : FileTab Nat, Reachable 0 st ∧ st.current (demoId 33) ≠ none ∧ st.closing.lookup 9 = none := by
  have hreach : ∀ st, endState (FileTab.run 0 demoStart demoSchedule) = some st → Reachable 0 st :=
    fun st h => demo_reachable demoSchedule (wellTyped_of_check _ (by decide +kernel)) st h
  refine ⟨_, hreach _ rfl, ?_⟩
  constructor
  · decide +kernel
  · rfl

/-! ## C35 -/

/-- C35: the backing files of a file are there exactly as long as the file exists. -/
theorem C35_backing (fresh : α) (st : FileTab α) (h : Reachable fresh st) (id : Bytes) (hid : id ≠ kRootId) :
    st.disk id = none ↔ st.current id = none := by
  have hg := h.good
  constructor
  · intro hd
    rw [FileTab.current_disk (FileTab.disk_none_no_obj hg hid hd), hd]
  · intro hc
    rcases FileTab.current_cases st hg.1.uniq id with ⟨_, _, _, _, h1⟩ | ⟨_, h1⟩
    · rw [h1] at hc; cases hc
    · rw [← h1, hc]

/-- C35: a step that removes the backing files of a file is a close that finds the link count zero and no handle left. -/
theorem C35_removed_only (fresh : α) (st : FileTab α) (h : Reachable fresh st) (e : TabEvent α) (hw : Spec.WellTyped e) (st' : FileTab α)
    (b : Bool) (hs : FileTab.step fresh st e = .ok st' b) (id : Bytes) (hid : id ≠ kRootId) (hd : st.disk id ≠ none) (hd' : st'.disk id = none) :
    (∃ t f, e = .closeInternal t f) ∧ (∃ v, st.current id = some v ∧ v.nlink = 0) ∧
      ∀ t a, (t, a) ∈ st.holders → st.files.file a ≠ some id := by
  obtain ⟨⟨hstep, _⟩, hr'⟩ := C34_step fresh st h e hw st' b hs
  have hc : st.current id ≠ none := fun hx => hd ((C35_backing fresh st h id hid).mpr hx)
  have hc' : st'.current id = none := (C35_backing fresh st' hr' id hid).mp hd'
  have absurd_same : st'.current = st.current → False := fun he => hc (by rw [← he]; exact hc')
  have absurd_upd : ∀ i v, st'.current = Spec.update st.current i (some v) → False := by
    intro i v he
    rw [he] at hc'
    unfold Spec.update at hc'
    by_cases hi : id = i
    · rw [if_pos hi] at hc'; cases hc'
    · rw [if_neg hi] at hc'; exact hc hc'
  cases e with
  | openAs t i f => exact (absurd_same hstep.1).elim
  | createAs t i f =>
    cases b with
    | true => exact (absurd_upd _ _ hstep.2.1).elim
    | false =>
      rcases hstep.2 with ⟨h1, _⟩ | ⟨_, _, h1⟩
      · exact (absurd_same h1).elim
      · exact (absurd_upd _ _ h1).elim
  | modify t a v =>
    obtain ⟨_, _, i, _, h1⟩ := hstep
    exact (absurd_upd _ _ h1).elim
  | give t t' a => exact (absurd_same hstep.2.1).elim
  | drop t a => exact (absurd_same hstep.2.1).elim
  | readId t => exact (absurd_same hstep.1).elim
  | closeInternal t f =>
    refine ⟨⟨t, f, rfl⟩, ?_⟩
    rcases hstep.2 with h1 | ⟨i, v, h1, h2, h3, h4⟩
    · exact (absurd_same h1).elim
    · have hi : id = i := by
        by_contra hi
        change st'.current = Spec.update st.current i none at h4
        rw [h4] at hc'
        unfold Spec.update at hc'
        rw [if_neg hi] at hc'
        exact hc hc'
      subst hi
      exact ⟨⟨v, h1, h2⟩, h3⟩

/-- The schedule up to the moment before the unlinked file goes. -/
example : ∃ (st st' : FileTab Nat) (b : Bool), Reachable 0 st ∧ FileTab.step 0 st (.closeInternal 2 none) = .ok st' b ∧
    st.disk (demoId 1) ≠ none ∧ st'.disk (demoId 1) = none := by
  have hreach : ∀ st, endState (FileTab.run 0 demoStart (demoSchedule.take 9)) = some st → Reachable 0 st :=
    fun st h => demo_reachable (demoSchedule.take 9) (wellTyped_of_check _ (by decide +kernel)) st h
  refine ⟨_, _, _, hreach _ rfl, rfl, ?_⟩
  constructor
  · decide +kernel
  · rfl

/-- C35: a file without a link that nobody holds any more does not outlive the closing of its last handle: when no thread is
    in the middle of closing, every file whose link count is zero is held by somebody. -/
theorem C35_removed_when (fresh : α) (st : FileTab α) (h : Reachable fresh st) (hq : st.closing = []) (id : Bytes) (hid : id ≠ kRootId)
    (v : FileVal α) (hv : st.current id = some v) (hn : v.nlink = 0) : ∃ t a, (t, a) ∈ st.holders ∧ st.files.file a = some id := by
  have hg := h.good
  rcases FileTab.current_cases st hg.1.uniq id with ⟨a, o, h1, h2, h3⟩ | ⟨h1, h3⟩
  · rw [hv] at h3
    cases h3
    have hne : a ≠ 0 := by
      rintro rfl
      obtain ⟨o0, g1, g2⟩ := hg.1.root
      rw [h1] at g1; cases g1
      exact hid (h2.symm.trans g2)
    rcases hg.1.owned a o h1 hne with ⟨i, hi⟩ | ⟨i, hi⟩
    · by_cases hr : o.ref = 0
      · obtain ⟨t, ht⟩ := hg.1.pend i _ a o hi h1 hr hn
        rw [hq] at ht
        simp at ht
      · have hc := hg.1.refs a o h1
        have hpos : 0 < st.holders.countP fun p => decide (p.2 = a) := by omega
        obtain ⟨⟨t, a'⟩, hm, ha'⟩ := List.countP_pos_iff.mp hpos
        have ha' : a' = a := by simpa using ha'
        subst ha'
        refine ⟨t, a', hm, ?_⟩
        show (st.obj a').map FileObj.id = some id
        rw [h1]; simp [h2]
    · obtain ⟨o', g1, _, _, _, g5⟩ := hg.1.cache_ok i a hi
      rw [h1] at g1; cases g1
      exact absurd hn g5
  · rw [hv] at h3
    exact absurd hn (hg.1.disk_linked id v h1 h3.symm)

/-- An open file that has been unlinked. -/
example : ∃ st : FileTab Nat, Reachable 0 st ∧ st.closing = [] ∧ (st.current (demoId 1)).map FileVal.nlink = some 0 := by
  have hreach : ∀ st, endState (FileTab.run 0 demoStart (demoSchedule.take 6)) = some st → Reachable 0 st :=
    fun st h => demo_reachable (demoSchedule.take 6) (wellTyped_of_check _ (by decide +kernel)) st h
  refine ⟨_, hreach _ rfl, rfl, ?_⟩
  decide +kernel

/-- C35: a thread that is closing can always go on, whatever the others do, unless its object has been destroyed under it. -/
theorem C35_progress (fresh : α) (st : FileTab α) (h : Reachable fresh st) (t : Nat) (c : Closing) (hc : st.closing.lookup t = some c) :
    (∃ a, c = .readId a ∧ st.obj a = none) ∨ ∃ e st' b, FileTab.step fresh st e = .ok st' b ∧ e.thread = t ∧ e.isClosing = true := by
  cases c with
  | readId a =>
    cases ho : st.obj a with
    | none => exact Or.inl ⟨a, rfl, ho⟩
    | some o =>
      right
      have hstep : FileTab.step fresh st (.readId t) = FileTab.readId st t := by
        simp [FileTab.step, TabEvent.isClosing]
      unfold FileTab.readId at hstep
      rw [hc] at hstep
      dsimp only at hstep
      rw [ho] at hstep
      dsimp only at hstep
      by_cases hr : o.id = kRootId
      · rw [if_pos hr] at hstep
        exact ⟨_, _, _, hstep, rfl, rfl⟩
      · rw [if_neg hr] at hstep
        exact ⟨_, _, _, hstep, rfl, rfl⟩
  | lockShard id =>
    right
    have hok := FileTab.step_ok fresh h.good (.closeInternal t none) trivial
    cases hs : FileTab.step fresh st (.closeInternal t none) with
    | ok st' b => exact ⟨_, st', b, hs, rfl, rfl⟩
    | useAfterFree =>
      rw [hs] at hok
      obtain ⟨_, _, h1, _⟩ := hok
      cases h1
    | disabled =>
      exfalso
      simp only [FileTab.step, TabEvent.isClosing, Bool.not_true, Bool.and_false, Bool.false_eq_true, if_false, FileTab.closeInternal, hc] at hs
      have hej : ∀ (s : FileTab α) (i : Nat), FileTab.eject s i ≠ .disabled := by
        intro s i he
        unfold FileTab.eject at he
        dsimp only at he
        split at he
        · split at he <;> cases he
        · cases he
      split at hs
      · cases hs
      · split at hs
        · cases hs
        · split at hs
          · cases hs
          · split at hs
            · cases hs
            · split at hs
              · exact hej _ _ hs
              · exact hej _ _ hs

example : ∃ st : FileTab Nat, Reachable 0 st ∧ ∃ c, st.closing.lookup 2 = some c := by
  have hreach : ∀ st, endState (FileTab.run 0 demoStart (demoSchedule.take 7)) = some st → Reachable 0 st :=
    fun st h => demo_reachable (demoSchedule.take 7) (wellTyped_of_check _ (by decide +kernel)) st h
  exact ⟨_, hreach _ rfl, _, rfl⟩

/-- C35: an idle object has no handle, has a link, and its value is in the backing files; at most fifty are kept per shard. -/
theorem C35_idle (fresh : α) (st : FileTab α) (h : Reachable fresh st) (i : Nat) :
    (st.shards i).cache.length ≤ 50 ∧
    ∀ a ∈ (st.shards i).cache, ∃ o, st.obj a = some o ∧ st.disk o.id = some o.val ∧ o.val.nlink ≠ 0 ∧ ∀ t, (t, a) ∉ st.holders := by
  have hg := h.good
  refine ⟨hg.2 i, ?_⟩
  intro a ha
  obtain ⟨o, h1, _, _, h4, h5⟩ := hg.1.cache_ok i a ha
  exact ⟨o, h1, h4, h5, fun t hm => hg.1.held_not_cached hm i ha⟩

/-- An idle object. -/
example : ∃ st : FileTab Nat, Reachable 0 st ∧ ∃ i, (st.shards i).cache ≠ [] := by
  have hreach : ∀ st, endState (FileTab.run 0 demoStart (demoSchedule.take 15)) = some st → Reachable 0 st :=
    fun st h => demo_reachable (demoSchedule.take 15) (wellTyped_of_check _ (by decide +kernel)) st h
  refine ⟨_, hreach _ rfl, 24, ?_⟩
  decide +kernel

/-- C35: an object is destroyed only by a close, only when nobody holds it, and only after its value has been written to the
    backing files or its link count has become zero and the backing files have been removed. -/
theorem C35_destroyed (fresh : α) (st : FileTab α) (h : Reachable fresh st) (e : TabEvent α) (hw : Spec.WellTyped e) (st' : FileTab α)
    (b : Bool) (hs : FileTab.step fresh st e = .ok st' b) (a : Nat) (o : FileObj α) (ho : st.obj a = some o) (hd : st'.obj a = none) :
    (∃ t f, e = .closeInternal t f) ∧ (∀ t, (t, a) ∉ st.holders) ∧
      (st'.disk o.id = some o.val ∨ (o.val.nlink = 0 ∧ st'.disk o.id = none)) := by
  have hg := h.good
  have hci : ∃ t f, e = .closeInternal t f := by
    by_contra hci
    obtain ⟨o', h1, _⟩ := FileTab.step_alive fresh hg hs (fun t f hx => hci ⟨t, f, hx⟩) ho
    rw [hd] at h1; cases h1
  obtain ⟨⟨hstep, hfile⟩, hr'⟩ := C34_step fresh st h e hw st' b hs
  refine ⟨hci, ?_, ?_⟩
  · intro t hm
    have h1 := hfile t a hm
    change (st'.obj a).map FileObj.id = (st.obj a).map FileObj.id at h1
    rw [hd, ho] at h1
    cases h1
  · obtain ⟨t, f, rfl⟩ := hci
    have hcl : st.closeInternal t f = .ok st' b := by
      unfold FileTab.step at hs
      simpa [TabEvent.isClosing] using hs
    have hno : ∀ x ox, st'.obj x = some ox → ox.id ≠ o.id := by
      intro x ox hx hid
      have h1 := FileTab.closeInternal_objs hcl hx
      have := hg.1.uniq x a ox o h1 ho hid
      subst this
      rw [hd] at hx; cases hx
    have hcur := FileTab.current_disk hno
    have hcur0 := FileTab.current_obj hg.1.uniq ho
    rcases hstep.2 with h1 | ⟨i, v, h1, h2, _, h4⟩
    · left
      change st'.current = st.current at h1
      rw [← hcur, h1, hcur0]
    · change st'.current = Spec.update st.current i none at h4
      change st.current i = some v at h1
      rw [h4] at hcur
      unfold Spec.update at hcur
      by_cases hi : o.id = i
      · subst hi
        rw [if_pos rfl] at hcur
        rw [h1] at hcur0; cases hcur0
        exact Or.inr ⟨h2, hcur.symm⟩
      · rw [if_neg hi, hcur0] at hcur
        exact Or.inl hcur.symm

example : ∃ (st st' : FileTab Nat) (b : Bool), Reachable 0 st ∧ FileTab.step 0 st (.closeInternal 2 none) = .ok st' b ∧
    (st.obj 1).isSome = true ∧ st'.obj 1 = none := by
  have hreach : ∀ st, endState (FileTab.run 0 demoStart (demoSchedule.take 9)) = some st → Reachable 0 st :=
    fun st h => demo_reachable (demoSchedule.take 9) (wellTyped_of_check _ (by decide +kernel)) st h
  refine ⟨_, _, _, hreach _ rfl, rfl, ?_⟩
  constructor
  · decide +kernel
  · rfl

/-- C35: shutting the table down leaves the current value of every file in the backing files. -/
theorem C35_shutdown (fresh : α) (st : FileTab α) (h : Reachable fresh st) :
    ∃ st', FileTab.shutdown st = .ok st' true ∧ ∀ id, st'.disk id = st.current id :=
  FileTab.shutdown_ok h.good

/-- A changed file that has not been written yet. -/
example : ∃ st : FileTab Nat, Reachable 0 st ∧ (st.disk (demoId 1)).map FileVal.data = some 10 ∧
    (st.current (demoId 1)).map FileVal.data = some 11 := by
  have hreach : ∀ st, endState (FileTab.run 0 demoStart (demoSchedule.take 5)) = some st → Reachable 0 st :=
    fun st h => demo_reachable (demoSchedule.take 5) (wellTyped_of_check _ (by decide +kernel)) st h
  refine ⟨_, hreach _ rfl, ?_⟩
  decide +kernel

/-! ## C36 -/

/-- C36 is false: thread 1 closes the last handle and is interrupted between decrementing the counter and reading the
    identifier; thread 2 opens the file, unlinks it and closes it; thread 1 then reads a destroyed object. -/
theorem C36_violated : FileTab.run 0 demoStart
    [.openAs 1 (demoId 1) false, .drop 1 1, .openAs 2 (demoId 1) false, .modify 2 1 ⟨0, 10⟩, .drop 2 1, .readId 2,
     .closeInternal 2 none, .readId 1] = .useAfterFree := by rfl

/-- C36 as far as it is true: the only place where a destroyed object can be touched is the reading of the identifier after
    the decrement; opening, creating, using, handing over, closing and ejecting never touch one. -/
theorem C36_window_partial (fresh : α) (st : FileTab α) (h : Reachable fresh st) (e : TabEvent α) (hw : Spec.WellTyped e)
    (hs : FileTab.step fresh st e = .useAfterFree) :
    ∃ t a, e = .readId t ∧ (t, Closing.readId a) ∈ st.closing ∧ st.obj a = none := by
  have hok := FileTab.step_ok fresh h.good e hw
  rw [hs] at hok
  exact hok

example : ∃ st : FileTab Nat, Reachable 0 st ∧ FileTab.step 0 st (.readId 1) = .useAfterFree := by
  have hreach : ∀ es : List (TabEvent Nat), es.all wellTypedCheck = true → ∀ st, endState (FileTab.run 0 demoStart es) = some st → Reachable 0 st :=
    fun es hc st h => demo_reachable es (wellTyped_of_check _ hc) st h
  exact ⟨_, hreach [.openAs 1 (demoId 1) false, .drop 1 1, .openAs 2 (demoId 1) false, .modify 2 1 ⟨0, 10⟩, .drop 2 1, .readId 2,
     .closeInternal 2 none] (by decide +kernel) _ rfl, rfl⟩

/-- C36 as far as it is true: as long as no link count becomes zero and at most fifty of the files used fall into one shard,
    no schedule touches a destroyed object. -/
theorem C36_calm_partial (fresh : α) (root : FileVal α) (disk : Bytes → Option (FileVal α)) (L : List Bytes) (hL : FileTab.Sparse L)
    (hd : ∀ id v, id ≠ kRootId → disk id = some v → v.nlink ≠ 0) (es : List (TabEvent α))
    (hw : ∀ e ∈ es, Spec.WellTyped e) (hc : ∀ e ∈ es, FileTab.CalmEvent L e) :
    FileTab.run fresh (FileTab.init root disk) es ≠ .useAfterFree := by
  have hinit : FileTab.Calm L (FileTab.init root disk) := by
    have hg := FileTab.init_good root disk hd
    have hobj : ∀ a o, (FileTab.init root disk).obj a = some o → a = 0 ∧ o = { id := kRootId, ref := 0, val := root } := by
      intro a o h
      have hlt := FileTab.obj_lt h
      have h0 : a = 0 := by
        have : (FileTab.init root disk).objs.length = 1 := rfl
        omega
      subst h0
      cases h
      exact ⟨rfl, rfl⟩
    refine { good := hg, alive := ?_, inL := ?_, linked := ?_, closing := ?_ }
    · intro a ha
      have : (FileTab.init root disk).objs.length = 1 := rfl
      have h0 : a = 0 := by omega
      subst h0
      simp [FileTab.obj, FileTab.init]
    · intro a o ho hr
      rw [(hobj a o ho).2] at hr
      exact absurd rfl hr
    · intro id v hr hv
      refine hd id v hr ?_
      rw [FileTab.current_disk] at hv
      · exact hv
      · intro a o ho hid
        rw [(hobj a o ho).2] at hid
        exact hr hid.symm
    · intro t a hm; cases hm
  have key : ∀ (l : List (TabEvent α)) (s : FileTab α), FileTab.Calm L s → (∀ e ∈ l, Spec.WellTyped e) → (∀ e ∈ l, FileTab.CalmEvent L e) →
      FileTab.run fresh s l ≠ .useAfterFree := by
    intro l
    induction l with
    | nil => intro s _ _ _ h; cases h
    | cons e l ih =>
      intro s hs h1 h2
      have hst := FileTab.calm_step fresh hL hs e (h1 e (by simp)) (h2 e (by simp))
      unfold FileTab.run
      cases he : FileTab.step fresh s e with
      | ok s' b =>
        rw [he] at hst
        exact ih s' hst (fun x hx => h1 x (List.mem_cons_of_mem _ hx)) (fun x hx => h2 x (List.mem_cons_of_mem _ hx))
      | disabled => exact ih s hs (fun x hx => h1 x (List.mem_cons_of_mem _ hx)) (fun x hx => h2 x (List.mem_cons_of_mem _ hx))
      | useAfterFree => rw [he] at hst; exact hst.elim
  exact key es _ hinit hw hc

/-- The schedule of `C36_violated` without the unlinking. -/
example : FileTab.run 0 demoStart
    [.openAs 1 (demoId 1) false, .drop 1 1, .openAs 2 (demoId 1) false, .modify 2 1 ⟨1, 10⟩, .drop 2 1, .readId 2,
     .closeInternal 2 none, .readId 1] ≠ .useAfterFree := by
  refine C36_calm_partial 0 _ _ [demoId 1] ?_ demoDisk_linked _ (wellTyped_of_check _ (by decide +kernel)) ?_
  · intro i ids hn hm
    have : ids.Subperm [demoId 1] := List.subperm_of_subset hn (fun x hx => (hm x hx).1)
    have := this.length_le
    simp at this
    omega
  · intro e he
    simp only [List.mem_cons, List.not_mem_nil, or_false] at he
    rcases he with rfl | rfl | rfl | rfl | rfl | rfl | rfl | rfl <;> simp [FileTab.CalmEvent]

/-! ## C37 -/

/-- C37: in the newer layout different identifiers have different data and metadata paths, and no data path is a metadata
    path. -/
theorem C37_v2_distinct (id id' : Bytes) (d m d' m' : Bytes) (h : pathsV2 id = .ok (d, m)) (h' : pathsV2 id' = .ok (d', m'))
    (hl : id.length = 32) (hl' : id'.length = 32) : (d = d' → id = id') ∧ (m = m' → id = id') ∧ d ≠ m' := by
  rw [pathsV2_eq] at h h'
  cases h; cases h'
  have hinj : ∀ x y : Bytes, x.length = 32 → y.length = 32 → hexDigits (x.take 1) ++ 47 :: hexDigits (x.drop 1) = hexDigits (y.take 1) ++ 47 :: hexDigits (y.drop 1) → x = y := by
    intro x y hx hy he
    obtain ⟨h1, h2⟩ := List.append_inj he (by rw [hexDigits_length, hexDigits_length, List.length_take, List.length_take, hx, hy])
    rw [← List.take_append_drop 1 x, ← List.take_append_drop 1 y, hexDigits_inj h1, hexDigits_inj (List.cons.inj h2).2]
  refine ⟨hinj id id' hl hl', fun he => hinj id id' hl hl' (List.append_cancel_right he), ?_⟩
  intro he
  have h1 : (46 : UInt8) ∈ hexDigits (id'.take 1) ++ 47 :: hexDigits (id'.drop 1) ++ metaSuffix := by
    rw [List.mem_append]; right; decide
  rw [← he] at h1
  simp only [List.mem_append, List.mem_cons] at h1
  rcases h1 with h1 | h1 | h1
  · exact digit_ne_dot (hexDigits_digit _ _ h1) rfl
  · revert h1; decide
  · exact digit_ne_dot (hexDigits_digit _ _ h1) rfl

example : pathsV2 (demoId 1) ≠ pathsV2 (demoId 33) ∧ (demoId 1).length = 32 := by decide +kernel

/-- C37: the same in the legacy layout. -/
theorem C37_v1_distinct (id id' : Bytes) (d m d' m' : Bytes) (h : pathsV1 id = .ok (d, m)) (h' : pathsV1 id' = .ok (d', m'))
    (hl : id.length = 32) (hl' : id'.length = 32) : (d = d' → id = id') ∧ (m = m' → id = id') ∧ d ≠ m' := by
  rw [pathsV1_eq] at h h'
  cases h; cases h'
  have hinj : ∀ x y : Bytes, x.length = 32 → y.length = 32 →
      hexDigits (x.take 1) ++ 47 :: hexDigits ((x.drop 1).take 5) ++ 47 :: hexDigits (x.drop 6) =
        hexDigits (y.take 1) ++ 47 :: hexDigits ((y.drop 1).take 5) ++ 47 :: hexDigits (y.drop 6) → x = y := by
    intro x y hx hy he
    rw [List.append_assoc, List.append_assoc] at he
    obtain ⟨h1, h2⟩ := List.append_inj he (by rw [hexDigits_length, hexDigits_length, List.length_take, List.length_take, hx, hy])
    have h2 := (List.cons.inj h2).2
    obtain ⟨h3, h4⟩ := List.append_inj h2 (by
      rw [hexDigits_length, hexDigits_length, List.length_take, List.length_take, List.length_drop, List.length_drop, hx, hy])
    have hx' : x = x.take 1 ++ ((x.drop 1).take 5 ++ x.drop 6) := by
      conv => lhs; rw [← List.take_append_drop 1 x, ← List.take_append_drop 5 (x.drop 1), List.drop_drop]
    have hy' : y = y.take 1 ++ ((y.drop 1).take 5 ++ y.drop 6) := by
      conv => lhs; rw [← List.take_append_drop 1 y, ← List.take_append_drop 5 (y.drop 1), List.drop_drop]
    rw [hx', hy', hexDigits_inj h1, hexDigits_inj h3, hexDigits_inj (List.cons.inj h4).2]
  refine ⟨hinj id id' hl hl', fun he => hinj id id' hl hl' (List.append_cancel_right he), ?_⟩
  intro he
  have h1 : (46 : UInt8) ∈ hexDigits (id'.take 1) ++ 47 :: hexDigits ((id'.drop 1).take 5) ++ 47 :: hexDigits (id'.drop 6) ++ metaSuffix := by
    rw [List.mem_append]; right; decide
  rw [← he] at h1
  simp only [List.mem_append, List.mem_cons] at h1
  rcases h1 with (h1 | h1 | h1) | h1 | h1
  · exact digit_ne_dot (hexDigits_digit _ _ h1) rfl
  · revert h1; decide
  · exact digit_ne_dot (hexDigits_digit _ _ h1) rfl
  · revert h1; decide
  · exact digit_ne_dot (hexDigits_digit _ _ h1) rfl

example : ∃ d m, pathsV1 (demoId 255) = .ok (d, m) ∧ d.length = 66 := ⟨_, _, rfl, by decide +kernel⟩

/-- C37: the repair scan gets the identifier back from the metadata file, wherever the storage is, and ignores the data
    file (newer layout). -/
theorem C37_v2_scan (id d m base dir name dname : Bytes) (h : pathsV2 id = .ok (d, m)) (hl : id.length = 32)
    (hm : m = dir ++ 47 :: name) (hn : (47 : UInt8) ∉ name) (hd : d = dir ++ 47 :: dname) (hdn : (47 : UInt8) ∉ dname) :
    scanId (base ++ 47 :: dir) name = .ok (some id) ∧ scanId (base ++ 47 :: dir) dname = .ok none := by
  rw [pathsV2_eq] at h
  cases h
  have hms : (47 : UInt8) ∉ metaSuffix := by decide
  have hlast : (47 : UInt8) ∉ hexDigits (id.drop 1) := fun hx => digit_ne_slash (hexDigits_digit _ _ hx) rfl
  have hm' : hexDigits (id.take 1) ++ 47 :: (hexDigits (id.drop 1) ++ metaSuffix) = dir ++ 47 :: name := by
    rw [← hm]; simp
  obtain ⟨h1, h2⟩ := last_slash_unique hm' (fun hx => (List.mem_append.mp hx).elim hlast hms) hn
  obtain ⟨_, h3⟩ := last_slash_unique hd hlast hdn
  subst h1 h2 h3
  constructor
  · refine scanId_of (digits := hexDigits id) (ends_meta _) hl ?_ rfl
    have hrev : (base ++ 47 :: hexDigits (id.take 1) ++ 47 :: hexDigits (id.drop 1)).reverse =
        (hexDigits (id.drop 1)).reverse ++ (47 :: ((hexDigits (id.take 1)).reverse ++ (47 :: base.reverse))) := by simp
    rw [hrev]
    have e1 : (64 : Nat) = (hexDigits (id.drop 1)).length + 2 := by rw [hexDigits_length, List.length_drop, hl]
    rw [e1, scan_digits _ _ _ _ (hexDigits_digit _), scan_slash]
    have e2 : 1 + 1 = (hexDigits (id.take 1)).length + 0 := by rw [hexDigits_length, List.length_take, hl]; rfl
    rw [e2, scan_digits _ _ _ _ (hexDigits_digit _), scan_done, List.append_nil, ← hexDigits_append, List.take_append_drop]
  · unfold scanId
    rw [not_ends_meta (hexDigits_digit _)]
    rfl

example : scanId (['/', 's', '/', '0', '1'].map Char.toUInt8) (hexDigits (zeros 31) ++ metaSuffix) = .ok (some (demoId 1)) := by
  decide +kernel

/-- C37: the same in the legacy layout. -/
theorem C37_v1_scan (id d m base dir name dname : Bytes) (h : pathsV1 id = .ok (d, m)) (hl : id.length = 32)
    (hm : m = dir ++ 47 :: name) (hn : (47 : UInt8) ∉ name) (hd : d = dir ++ 47 :: dname) (hdn : (47 : UInt8) ∉ dname) :
    scanId (base ++ 47 :: dir) name = .ok (some id) ∧ scanId (base ++ 47 :: dir) dname = .ok none := by
  rw [pathsV1_eq] at h
  cases h
  have hms : (47 : UInt8) ∉ metaSuffix := by decide
  have hlast : (47 : UInt8) ∉ hexDigits (id.drop 6) := fun hx => digit_ne_slash (hexDigits_digit _ _ hx) rfl
  have hm' : (hexDigits (id.take 1) ++ 47 :: hexDigits ((id.drop 1).take 5)) ++ 47 :: (hexDigits (id.drop 6) ++ metaSuffix) = dir ++ 47 :: name := by
    rw [← hm]; simp
  obtain ⟨h1, h2⟩ := last_slash_unique hm' (fun hx => (List.mem_append.mp hx).elim hlast hms) hn
  obtain ⟨_, h3⟩ := last_slash_unique hd hlast hdn
  subst h1 h2 h3
  constructor
  · refine scanId_of (digits := hexDigits id) (ends_meta _) hl ?_ rfl
    have hrev : (base ++ 47 :: (hexDigits (id.take 1) ++ 47 :: hexDigits ((id.drop 1).take 5)) ++ 47 :: hexDigits (id.drop 6)).reverse =
        (hexDigits (id.drop 6)).reverse ++ (47 :: ((hexDigits ((id.drop 1).take 5)).reverse ++ (47 :: ((hexDigits (id.take 1)).reverse ++ (47 :: base.reverse))))) := by
      simp
    rw [hrev]
    have e1 : (64 : Nat) = (hexDigits (id.drop 6)).length + 12 := by rw [hexDigits_length, List.length_drop, hl]
    rw [e1, scan_digits _ _ _ _ (hexDigits_digit _), scan_slash]
    have e2 : 11 + 1 = (hexDigits ((id.drop 1).take 5)).length + 2 := by
      rw [hexDigits_length, List.length_take, List.length_drop, hl]; rfl
    rw [e2, scan_digits _ _ _ _ (hexDigits_digit _), scan_slash]
    have e3 : 1 + 1 = (hexDigits (id.take 1)).length + 0 := by rw [hexDigits_length, List.length_take, hl]; rfl
    rw [e3, scan_digits _ _ _ _ (hexDigits_digit _), scan_done, List.append_nil, ← hexDigits_append, ← hexDigits_append,
      show id.take 1 ++ ((id.drop 1).take 5 ++ id.drop 6) = id by
        conv => rhs; rw [← List.take_append_drop 1 id, ← List.take_append_drop 5 (id.drop 1), List.drop_drop]]
  · unfold scanId
    rw [not_ends_meta (hexDigits_digit _)]
    rfl

example : scanId (['/', 's', '/', '0', '1', '/'].map Char.toUInt8 ++ hexDigits (zeros 5)) (hexDigits (zeros 26) ++ metaSuffix) =
    .ok (some (demoId 1)) := by decide +kernel

end Securefs.Props

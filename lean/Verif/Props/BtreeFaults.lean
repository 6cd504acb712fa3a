import Verif.Proofs.BtreeFaults
import Verif.Proofs.DirFileBloat
import Verif.Props.Btree
/-!
# Property C97: directories of the full format over a file that fails

A call on a directory during which reading or writing its file fails is to report the error, and to leave the entries that were there.
That holds of every call that is to change nothing, of writing back, of the search for a name that is to be added or removed, and of all
changes to directories of 1 to 12 entries, and of all changes of larger ones for which nothing has to be split or merged
(`C97_calm_partial`; for the larger ones there is an example in `Verif/Props/BtreeRoom.lean`); and every error is reported
(`C97_reported`).  It does not hold of adding when the root has to be split (`C97_split_violated`), of adding to a full node
(`C97_full_violated`), of writing back a directory that has shrunk (`C97_rebuild_violated`, `C97_blank_violated`), and of removing when
the node gets too short (`C97_remove_violated`, `C97_drain_violated`).

The model is `Verif/Model/BtreeFaults.lean`; each call on the file fails or not as a plan says, and a failing one has taken effect or not.
-/

namespace Securefs.Props

open Securefs Spec

/-! ## Errors are reported -/

/-- C97: a call that returns has met no failure, and has done what it does over a file that does not fail.  A call that throws reports the
    error of a call on the file that failed, or the error it has over a file that does not fail.  `s` is any state, also one that earlier
    failures have left. -/
theorem C97_reported (C : BCfg) (op : DirOp) (s : BSt) (plan : List (Option PageFault)) :
    (∀ o F, BF.dirCall C op ⟨s, plan⟩ = (.ok o, F) →
      dirStepModel C s op = (o, F.st) ∧ ∃ k, F.plan = plan.drop k ∧ ∀ x ∈ plan.take k, x = none) ∧
    (∀ e F, BF.dirCall C op ⟨s, plan⟩ = (.error e, F) →
      (dirStepModel C s op).1 = .fail e ∨ ∃ x, some x ∈ plan ∧ e = .vfs x.errno) := by
  refine ⟨fun o F h => ?_, fun e F h => ?_⟩
  · obtain ⟨h1, h2⟩ := (BF.dirCall_impl C op).sound _ _ _ h
    refine ⟨?_, h2⟩
    rw [dirStepModel]
    dsimp only at h1
    rw [h1]
  · rcases (BF.dirCall_impl C op).tells _ _ _ h with h1 | h1
    · left
      rw [dirStepModel]
      dsimp only at h1
      rw [h1]
    · exact Or.inr h1

set_option maxRecDepth 100000 in
/-- Both cases occur: adding to an empty directory takes two calls on the file. -/
example : (BF.dirStepModel demoCfg emptyDir (.add (demoEntry 0)) [none, none, some ⟨5, true⟩]).1 = .flag true ∧
    (BF.dirCall demoCfg (.add (demoEntry 0)) ⟨emptyDir, [none, none, some ⟨5, true⟩]⟩).2.plan.length = 1 ∧
    (BF.dirStepModel demoCfg emptyDir (.add (demoEntry 0)) [none, some ⟨5, true⟩]).1 = .fail (.vfs 5) := by decide +kernel

/-! ## Nothing is lost -/

/-- C97, part: on every history of calls in which failures hit only questions, additions of names that are there, removals of names that
    are not, the search for a name that is to be added or removed, additions to directories of 1 to 12 entries, removals from directories
    of at most 12, additions to leaves that are not full, removals, also of entries of inner nodes, that leave six entries in the leaf that
    gets shorter, and writing back a directory that is not to be rebuilt, every call gives the answer of the ideal directory, or the error
    of a call on the file that failed and then changes nothing; and the directory holds what the ideal one holds.  Missing are failures in
    later parts of calls for which nodes of larger directories are split or merged, and of the first addition; see the `_violated`
    theorems. -/
theorem C97_calm_partial (C : BCfg) (hC : GoodConfig C) (ops : List (DirOp × List (Option PageFault))) (h : ∀ op ∈ ops, op.1.Valid)
    (hcalm : BF.Calm C emptyDir [] ops) :
    DirFollows (sameName C.cmp) [] (ops.zip (BF.dirRunModel C emptyDir ops).1) ∧
    ∃ l treePages freePages, l.Perm (dirLeft (sameName C.cmp) [] (ops.zip (BF.dirRunModel C emptyDir ops).1)) ∧
      WellFormed C.cmp (BF.dirRunModel C emptyDir ops).2 l treePages freePages := by
  obtain ⟨l, h1, h2, h3⟩ := BF.dirRun_calm (cmpOk_of hC.1) hC.2 ops emptyDir [] [] (dir_empty C) (List.Perm.refl _) h (by simp) hcalm
  obtain ⟨tp, fp, hw⟩ := wellFormed_of h1
  exact ⟨h3, l, tp, fp, h2, hw⟩

/-- One addition, closing, an addition that fails and one that does not, a removal that fails, writing back that fails, closing, and a
    removal that does not fail. -/
def smallOps : List (DirOp × List (Option PageFault)) :=
  [(.add (demoEntry 0), []), (.reopen, []), (.add (demoEntry 1), [some ⟨5, false⟩]), (.add (demoEntry 2), []), (.reopen, []),
    (.remove (demoEntry 0).name, [some ⟨5, true⟩]), (.add (demoEntry 3), []), (.flush, [some ⟨28, true⟩]), (.reopen, []),
    (.remove (demoEntry 0).name, []), (.list, [])]

set_option maxRecDepth 100000 in
/-- The history is as required; three calls report errors, and it leaves what the other calls have left. -/
example : (∀ op ∈ smallOps, op.1.Valid) ∧ BF.Calm demoCfg emptyDir [] smallOps ∧
    (BF.dirRunModel demoCfg emptyDir smallOps).1 = [.flag true, .done, .fail (.vfs 5), .flag true, .done, .fail (.vfs 5), .flag true, .fail (.vfs 28),
      .done, .entry (some (demoEntry 0)), .entries [demoEntry 2, demoEntry 3]] := by decide +kernel

/-- Fourteen additions, closing, a question that fails once and then does not, an addition and a removal of which the search fails, an
    addition of a name that is there, a change, writing back that fails at its second page, having written or not, and closing. -/
def faultyOps : List (DirOp × List (Option PageFault)) :=
  (List.range 14).map (fun i => (.add (demoEntry i), [])) ++
    [(.reopen, []), (.get (demoEntry 9).name, [none, some ⟨5, false⟩]), (.add (demoEntry 15), [some ⟨5, false⟩]),
      (.remove (demoEntry 4).name, [some ⟨5, false⟩]), (.add (demoEntry 3), [some ⟨5, false⟩]), (.remove (demoEntry 13).name, []),
      (.flush, [none, some ⟨28, true⟩]), (.reopen, []), (.get (demoEntry 13).name, [])]

set_option maxRecDepth 100000 in
example : (∀ op ∈ faultyOps, op.1.Valid) ∧ BF.Calm demoCfg emptyDir [] faultyOps := by decide +kernel

/-! ## Adding -/

/-- Thirteen entries, which fill the root. -/
def thirteen : List (DirOp × List (Option PageFault)) := (List.range 13).map fun i => (.add (demoEntry i), [])

/-- A fourteenth, for which the disk has room for one more page but not for two; questions; closing; opening and listing. -/
def splitOps : List (DirOp × List (Option PageFault)) :=
  thirteen ++ [(.add (demoEntry 13), [none, none, some ⟨28, false⟩]), (.list, []), (.get (demoEntry 9).name, []), (.reopen, []), (.list, [])]

set_option maxRecDepth 100000 in
/-- C97 is violated: thirteen entries fill the root.  While the fourteenth is added, a page for the second node has been had, and the disk
    is full when a page for the new root is wanted.  The error is reported, but of the thirteen entries only the first six are left, in
    memory and on disk. -/
theorem C97_split_violated : ∃ C : BCfg, GoodConfig C ∧ ∃ ops : List (DirOp × List (Option PageFault)),
    GoodHistory C (ops.map Prod.fst) ∧ (dirRun (sameName C.cmp) [] ((ops.take 13).map Prod.fst)).2.reverse = (List.range 13).map demoEntry ∧
    (BF.dirRunModel C emptyDir ops).1.drop 13 =
      [.fail (.vfs 28), .entries ((List.range 6).map demoEntry), .entry none, .done, .entries ((List.range 6).map demoEntry)] := by
  refine ⟨demoCfg, demo_config, splitOps, ?_, ?_, ?_⟩
  · unfold GoodHistory
    decide +kernel
  · decide +kernel
  · decide +kernel

/-- Two additions to a full directory on a full disk; the disk has room again when the directory is asked, listed and written back. -/
def fullOps : List (DirOp × List (Option PageFault)) :=
  thirteen ++ [(.add (demoEntry 13), [some ⟨28, false⟩]), (.add (demoEntry 14), [some ⟨28, false⟩]), (.get (demoEntry 13).name, []), (.list, []),
    (.flush, []), (.flush, []), (.remove (demoEntry 14).name, []), (.flush, [])]

set_option maxRecDepth 100000 in
/-- C97 is violated: if there is no page for the second node either, the addition reports an error, but the entry is there.  After a second
    such addition the node is too large for its page, and writing back fails although no call on the file fails any more, until an entry is
    removed. -/
theorem C97_full_violated : ∃ C : BCfg, GoodConfig C ∧ ∃ ops : List (DirOp × List (Option PageFault)),
    GoodHistory C (ops.map Prod.fst) ∧ (∀ op ∈ ops.drop 15, op.2.length = 0) ∧
    (BF.dirRunModel C emptyDir ops).1.drop 13 =
      [.fail (.vfs 28), .fail (.vfs 28), .entry (some (demoEntry 13)), .entries ((List.range 15).map demoEntry), .fail .corrupt, .fail .corrupt,
        .entry (some (demoEntry 14)), .done] := by
  refine ⟨demoCfg, demo_config, fullOps, ?_, ?_, ?_⟩
  · unfold GoodHistory
    decide +kernel
  · decide +kernel
  · decide +kernel

/-! ## Writing back a directory that has shrunk -/

/-- C97 is violated: whenever writing back is to rebuild a directory that is not empty, a single failure, of the call that is to give the
    file its first page again, leaves an empty directory and an empty file. -/
theorem C97_rebuild_violated (C : BCfg) (hC : GoodConfig C) (ops : List DirOp) (h : GoodHistory C ops)
    (hne : (dirRun (sameName C.cmp) [] ops).2 ≠ []) (hdue : BF.dueRebuild (dirRunModel C emptyDir ops).2) :
    ∃ k, BF.dirStepModel C (dirRunModel C emptyDir ops).2 .flush (List.replicate k none ++ [some ⟨28, false⟩]) = (.fail (.vfs 28), emptyDir) := by
  obtain ⟨l, h1, h2, _⟩ := dirRun_run (cmpOk_of hC.1) hC.2 ops emptyDir [] [] (dir_empty C) (List.Perm.refl _) h.1 (by simp) h.2
  exact BF.rebuild_loses h1 (by rintro rfl; exact hne (List.nil_perm.1 h2)) hdue

/-- Fourteen entries, which need three nodes; closing and opening; rebuilding while the second read fails; questions; closing, opening. -/
def blankOps : List (DirOp × List (Option PageFault)) :=
  (List.range 14).map (fun i => (.add (demoEntry i), [])) ++
    [(.reopen, []), (.rebuild, [none, some ⟨5, false⟩]), (.get (demoEntry 6).name, []), (.reopen, []), (.list, [])]

set_option maxRecDepth 100000 in
/-- C97 is violated: a rebuild moves the names out of the nodes while it walks the tree.  If a node cannot be read, the nodes walked
    before keep entries without names, and count as changed: the names are lost on disk too.  Here the file has not been cut, and every
    call but one read works. -/
theorem C97_blank_violated : ∃ C : BCfg, GoodConfig C ∧ ∃ ops : List (DirOp × List (Option PageFault)),
    GoodHistory C (ops.map Prod.fst) ∧ (BF.dirRunModel C emptyDir ops).1.drop 15 =
      [.fail (.vfs 5), .entry none, .done,
        .entries ({ demoEntry 6 with name := [] } :: (List.range 6).map demoEntry ++ (List.range' 7 7).map demoEntry)] := by
  refine ⟨demoCfg, demo_config, blankOps, ?_, ?_⟩
  · unfold GoodHistory
    decide +kernel
  · decide +kernel

/-! ## Removing -/

/-- Fourteen entries, which need three nodes; closing and opening; the removal of one while the third read, that of the sibling, fails;
    questions; closing, opening. -/
def siblingOps : List (DirOp × List (Option PageFault)) :=
  (List.range 14).map (fun i => (.add (demoEntry i), [])) ++
    [(.reopen, []), (.remove (demoEntry 0).name, [none, none, some ⟨5, false⟩]), (.get (demoEntry 0).name, []), (.reopen, []), (.list, [])]

set_option maxRecDepth 100000 in
/-- C97 is violated: an entry is taken out before the sibling of its node is read.  If that read fails, the removal reports the error, but
    the entry is gone, on disk too. -/
theorem C97_remove_violated : ∃ C : BCfg, GoodConfig C ∧ ∃ ops : List (DirOp × List (Option PageFault)),
    GoodHistory C (ops.map Prod.fst) ∧ (BF.dirRunModel C emptyDir ops).1.drop 15 =
      [.fail (.vfs 5), .entry none, .done, .entries (demoEntry 6 :: (List.range' 1 5).map demoEntry ++ (List.range' 7 7).map demoEntry)] := by
  refine ⟨demoCfg, demo_config, siblingOps, ?_, ?_⟩
  · unfold GoodHistory
    decide +kernel
  · decide +kernel

/-- The same fourteen entries; the removal of five from one node while the sibling cannot be read; the removal of the sixth when it can. -/
def drainOps : List (DirOp × List (Option PageFault)) :=
  (List.range 14).map (fun i => (.add (demoEntry i), [])) ++
    [(.reopen, []), (.remove (demoEntry 0).name, [none, none, some ⟨5, false⟩])] ++
    (List.range' 1 4).map (fun i => (.remove (demoEntry i).name, [some ⟨5, false⟩])) ++ [(.remove (demoEntry 5).name, [])]

set_option maxRecDepth 100000 in
/-- C97 is violated: removals that fail like this leave a node ever shorter.  When the last entry of such a node is removed and nothing
    fails, the last entry of an empty vector is asked for. -/
theorem C97_drain_violated : ∃ C : BCfg, GoodConfig C ∧ ∃ ops : List (DirOp × List (Option PageFault)),
    GoodHistory C (ops.map Prod.fst) ∧ (∀ op ∈ ops.drop 20, op.2.length = 0) ∧ (BF.dirRunModel C emptyDir ops).1.drop 15 =
      [.fail (.vfs 5), .fail (.vfs 5), .fail (.vfs 5), .fail (.vfs 5), .fail (.vfs 5), .fail .outOfBounds] := by
  refine ⟨demoCfg, demo_config, drainOps, ?_, ?_, ?_⟩
  · unfold GoodHistory
    decide +kernel
  · decide +kernel
  · decide +kernel

/-! ## That directories are rebuilt -/

theorem fits_removes (same : Bytes → Bytes → Bool) : ∀ (es m : List DirEntry), m.length ≤ dirCapacity →
    Fits same m (es.map fun e => .remove e.name)
  | [], _, _ => trivial
  | e :: es, m, h => by
    have h1 : (dirStep same m (.remove e.name)).2.length ≤ m.length := by
      rw [dirStep]
      split
      · exact Nat.le_refl _
      · exact List.length_filter_le _ _
    exact ⟨Nat.le_trans h1 h, fits_removes same es _ (Nat.le_trans h1 h)⟩

theorem fits_adds (same : Bytes → Bytes → Bool) (ops : List DirOp) (hops : ∀ m : List DirEntry, m.length ≤ dirCapacity → Fits same m ops) :
    ∀ (es m : List DirEntry), m.length + es.length ≤ dirCapacity → Fits same m (es.map .add ++ ops)
  | [], m, h => hops m (by simpa using h)
  | e :: es, m, h => by
    have h1 : (dirStep same m (.add e)).2.length ≤ m.length + 1 := by
      rw [dirStep]
      split
      · exact Nat.le_succ _
      · split
        · exact Nat.le_succ _
        · exact Nat.le_refl _
    rw [List.length_cons] at h
    refine ⟨by omega, fits_adds same ops hops es _ (by omega)⟩

theorem dirRun_append (same : Bytes → Bytes → Bool) (ops' : List DirOp) : ∀ (ops : List DirOp) (m : List DirEntry),
    (dirRun same m (ops ++ ops')).2 = (dirRun same (dirRun same m ops).2 ops').2
  | [], _ => rfl
  | _ :: ops, _ => dirRun_append same ops' ops _

theorem ideal_adds {cmp : Bytes → Bytes → Int} : ∀ (es m : List DirEntry), (∀ e ∈ es, e.name.length ≤ 255) →
    (∀ e ∈ es, ∀ x ∈ m, cmp e.name x.name ≠ 0) → (es.Pairwise fun a b => cmp b.name a.name ≠ 0) →
    (dirRun (sameName cmp) m (es.map .add)).2 = es.reverse ++ m
  | [], m, _, _, _ => rfl
  | e :: es, m, h1, h2, h3 => by
    have h4 := List.pairwise_cons.1 h3
    have h5 : (dirStep (sameName cmp) m (.add e)).2 = e :: m := by
      rw [dirStep, if_neg (by have := h1 e (by simp); omega), if_neg]
      intro h
      obtain ⟨x, hx, hx'⟩ := List.any_eq_true.1 h
      exact h2 e (by simp) x hx (by simpa [sameName] using hx')
    rw [List.map_cons, dirRun]
    dsimp only
    rw [h5, ideal_adds es (e :: m) (fun a ha => h1 a (by simp [ha])) (by
      intro a ha x hx
      rcases List.mem_cons.1 hx with rfl | hx
      · exact h4.1 a ha
      · exact h2 a (by simp [ha]) x hx) h4.2]
    simp

theorem ideal_removes {cmp : Bytes → Bytes → Int} (x : DirEntry) : ∀ (es m : List DirEntry), x ∈ m → (∀ e ∈ es, cmp e.name x.name ≠ 0) →
    x ∈ (dirRun (sameName cmp) m (es.map fun e => .remove e.name)).2
  | [], m, h, _ => h
  | e :: es, m, h, h' => by
    refine ideal_removes x es _ ?_ (fun a ha => h' a (by simp [ha]))
    rw [dirStep]
    split
    · exact h
    · exact List.mem_filter.2 ⟨h, by simp [sameName, h' e (by simp)]⟩

/-- C97, that directories are rebuilt: after 92 additions or more and the removal of all entries but the first, writing back is to rebuild
    the directory, which still holds that entry. -/
theorem C97_rebuild_reached (C : BCfg) (hC : GoodConfig C) (x : DirEntry) (l : List DirEntry)
    (hv : ∀ e ∈ x :: l, e.name.length ≤ 255 ∧ (∀ c ∈ e.name, c ≠ 0) ∧ e.id.length = 32 ∧ e.type < 2 ^ 32)
    (hdis : (x :: l).Pairwise fun a b => C.cmp a.name b.name ≠ 0) (h92 : 92 ≤ (x :: l).length) (hmax : (x :: l).length ≤ dirCapacity) :
    GoodHistory C ((x :: l).map .add ++ l.map fun e => .remove e.name) ∧
    x ∈ (dirRun (sameName C.cmp) [] ((x :: l).map .add ++ l.map fun e => .remove e.name)).2 ∧
    BF.dueRebuild (dirRunModel C emptyDir ((x :: l).map .add ++ l.map fun e => .remove e.name)).2 := by
  have hC1 := cmpOk_of hC.1
  have hr0 : ∀ a, C.cmp a a = 0 := by
    intro a
    have := hC1.anti a a
    omega
  have hok : ∀ e ∈ x :: l, EntryOk e := fun e he => hv e he
  have hdis' : (x :: l).Pairwise fun a b => C.cmp b.name a.name ≠ 0 :=
    hdis.imp fun h h0 => h ((hC1.eq_comm _ _).2 h0)
  have hva : ∀ op ∈ (x :: l).map DirOp.add, op.Valid := by
    intro op ho
    obtain ⟨e, he, rfl⟩ := List.mem_map.1 ho
    exact (hv e he).2
  have hfa : Fits (sameName C.cmp) [] ((x :: l).map DirOp.add) := by
    have := fits_adds (sameName C.cmp) [] (fun _ _ => trivial) (x :: l) [] (by simpa using hmax)
    rwa [List.append_nil] at this
  have hid := ideal_adds (cmp := C.cmp) (x :: l) [] (fun e he => (hv e he).1) (by simp) hdis'
  refine ⟨⟨?_, fits_adds _ _ (fun m hm => fits_removes _ l m hm) (x :: l) [] (by simpa using hmax)⟩, ?_, ?_⟩
  · intro op ho
    rcases List.mem_append.1 ho with ho | ho
    · exact hva op ho
    · obtain ⟨e, he, rfl⟩ := List.mem_map.1 ho
      trivial
  · rw [dirRun_append, hid]
    exact ideal_removes x l _ (by simp) (List.pairwise_cons.1 hdis').1
  · obtain ⟨l1, h1, h2, _⟩ := dirRun_run hC1 hC.2 _ emptyDir [] [] (dir_empty C) (List.Perm.refl _) hva (by simp) hfa
    rw [hid, List.append_nil] at h2
    have h4 := DirFile.many_pages h1 (by rw [h2.length_eq]; simpa using h92)
    have hp : l1.Perm (l ++ [x]) := h2.trans ((List.reverse_perm _).trans (List.perm_append_singleton x l).symm)
    obtain ⟨l', g1, g2, g3⟩ := BF.removes_len hC1 hr0 _ _ l1 _ h1 hp (fun e he => hok e (by simp [he]))
    rw [List.perm_singleton.1 g2] at g1
    have h5 := DirFile.one_page g1
    rw [BF.dirRunModel_append]
    generalize (dirRunModel C (dirRunModel C emptyDir ((x :: l).map DirOp.add)).2 (l.map fun e => DirOp.remove e.name)).2 = s at h5 g3 ⊢
    generalize (dirRunModel C emptyDir ((x :: l).map DirOp.add)).2 = s0 at h4 g3
    show s.nfree > 5 ∧ s.nfree > s.data.length / 6144
    omega

/-- Ninety-two such entries. -/
example : (demoEntry 0 :: (List.range' 1 91).map demoEntry).Pairwise (fun a b => demoCfg.cmp a.name b.name ≠ 0) ∧
    (∀ e ∈ demoEntry 0 :: (List.range' 1 91).map demoEntry, e.name.length ≤ 255 ∧ (∀ c ∈ e.name, c ≠ 0) ∧ e.id.length = 32 ∧ e.type < 2 ^ 32) ∧
    (demoEntry 0 :: (List.range' 1 91).map demoEntry).length = 92 := by
  have h0 : demoEntry 0 :: (List.range' 1 91).map demoEntry = (List.range' 0 92).map demoEntry := rfl
  rw [h0]
  refine ⟨?_, ?_, by simp⟩
  · rw [List.pairwise_map]
    refine List.Pairwise.imp_of_mem ?_ (List.pairwise_lt_range' (s := 0) (n := 92) (step := 1))
    intro a b ha hb hab h1
    have hb' := (List.mem_range'_1.1 hb).2
    have h2 : UInt8.ofNat (a + 1) < UInt8.ofNat (b + 1) := by
      rw [UInt8.lt_iff_toNat_lt]
      simp
      omega
    have h3 : binaryCompare [102, UInt8.ofNat (a + 1)] [102, UInt8.ofNat (b + 1)] = -1 := by
      rw [binaryCompare, if_neg (by decide), if_neg (by decide), binaryCompare, if_pos h2]
    have h4 : binaryCompare [102, UInt8.ofNat (a + 1)] [102, UInt8.ofNat (b + 1)] = 0 := h1
    rw [h3] at h4
    cases h4
  · intro e he
    obtain ⟨i, hi, rfl⟩ := List.mem_map.1 he
    have := (List.mem_range'_1.1 hi).2
    refine ⟨by simp [demoEntry], ?_, by simp [demoEntry], by simp only [demoEntry]; omega⟩
    intro c hc
    simp only [demoEntry, List.mem_cons, List.not_mem_nil, or_false] at hc
    rcases hc with rfl | rfl
    · decide
    · intro h0
      have := congrArg UInt8.toNat h0
      simp at this
      omega

end Securefs.Props

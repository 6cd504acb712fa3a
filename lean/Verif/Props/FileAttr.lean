import Verif.Proofs.FileAttr
/-!
# Properties C42, C43, C44, C54: attributes and times of full-format files
-/

namespace Securefs.Props

open Securefs Spec

/-! ## A file for the examples -/

/-- A file with all fields in use. -/
def demoAttr : FileAttr :=
  { mode := 0x81a4, uid := 1000, gid := 100, nlink := 2, rootPage := 7, startFree := 0xffffffff, numFree := 3,
    atime := ⟨100, 5⟩, mtime := ⟨200, 999999999⟩, ctime := ⟨150, 0⟩, btime := ⟨-1, 1⟩, dirty := false }

/-- A history with every kind of event. -/
def demoAttrOps : List (TimeSpec × AttrOp) :=
  [(⟨1000, 1⟩, .read), (⟨1001, 2⟩, .chmod 0xfe00), (⟨1002, 3⟩, .reload), (⟨1003, 4⟩, .chown 5 0xffffffff), (⟨1004, 4⟩, .write),
   (⟨1005, 0⟩, .setNlink 3), (⟨1006, 0⟩, .flush), (⟨1007, 0⟩, .unlink), (⟨1008, 0⟩, .setRootPage 9), (⟨1009, 0⟩, .utimens ⟨1009, 0⟩ (some (⟨-5, 6⟩, ⟨7, 8⟩))),
   (⟨1010, 0⟩, .setStartFree 1), (⟨1011, 0⟩, .setNumFree 2), (⟨1012, 0⟩, .reload)]

/-! ## C42 -/

/-- C42: chmod takes exactly the nine permission bits from the request and all others from the file, whatever the request
    contains; the type of the file stays; of the other fields only the change time may differ; and the file is marked for saving
    unless nothing changed. -/
theorem C42_chmod (st : Bool) (now : TimeSpec) (m : UInt32) (a : FileAttr) :
    (∀ i, (a.chmod st now m).mode.toNat.testBit i = if i < 9 then m.toNat.testBit i else a.mode.toNat.testBit i) ∧
    (a.chmod st now m).realType = a.realType ∧
    (∃ c d, a.chmod st now m = { a with mode := (a.chmod st now m).mode, ctime := c, dirty := d }) ∧
    ((a.chmod st now m).mode ≠ a.mode → (a.chmod st now m).dirty = true) ∧
    ((a.chmod st now m).mode = a.mode → a.chmod st now m = a) := by
  have hmode : (a.chmod st now m).mode = (a.mode &&& ~~~0x1ff) ||| (m &&& 0x1ff) := by
    unfold FileAttr.chmod FileAttr.setMode
    split
    · assumption
    · cases st <;> rfl
  have hbits : ∀ i, (a.chmod st now m).mode.toNat.testBit i = if i < 9 then m.toNat.testBit i else a.mode.toNat.testBit i := by
    intro i
    rw [hmode, AttrFile.chmod_bits, Nat.mul_comm, Nat.two_pow_add_eq_or_of_lt (i := 9) (b := m.toNat % 512) (by omega) (a.mode.toNat / 512),
      Nat.testBit_or, Nat.mul_comm, Nat.testBit_mul_two_pow, show (512 : Nat) = 2 ^ 9 from rfl, Nat.testBit_div_two_pow, Nat.testBit_mod_two_pow]
    by_cases h : i < 9
    · simp [h, show ¬ 9 ≤ i by omega]
    · simp [h, show 9 ≤ i by omega, show i - 9 + 9 = i by omega]
  refine ⟨hbits, ?_, ?_, ?_, ?_⟩
  · unfold FileAttr.realType
    congr 2
    apply UInt32.toNat_inj.mp
    rw [UInt32.toNat_and, UInt32.toNat_and]
    apply Nat.eq_of_testBit_eq
    intro i
    rw [Nat.testBit_and, Nat.testBit_and, hbits i]
    by_cases h : i < 9
    · have : sIfmt.toNat.testBit i = false := by
        have : ∀ j < 9, sIfmt.toNat.testBit j = false := by decide
        exact this i h
      simp [this]
    · rw [if_neg h]
  · unfold FileAttr.chmod FileAttr.setMode
    split
    · exact ⟨a.ctime, a.dirty, rfl⟩
    · cases st
      · exact ⟨a.ctime, true, rfl⟩
      · exact ⟨now, true, rfl⟩
  · intro h
    unfold FileAttr.chmod FileAttr.setMode at h ⊢
    split at h
    · exact absurd rfl h
    · rename_i hne
      rw [if_neg hne]
  · intro h
    rw [hmode] at h
    unfold FileAttr.chmod FileAttr.setMode
    rw [if_pos h.symm]

/-- A request with bits outside the permissions, and one that changes nothing. -/
example : (demoAttr.chmod true ⟨9, 9⟩ 0xfe49).mode = 0x8049 ∧ demoAttr.chmod true ⟨9, 9⟩ 0x1a4 = demoAttr := by decide

/-- C42: chown changes exactly the owner and group that are not given as -1; of the other fields only the change time may
    differ; and the file is marked for saving unless nothing changed. -/
theorem C42_chown (st : Bool) (now : TimeSpec) (u g : UInt32) (a : FileAttr) :
    (a.chown st now u g).uid = (if u = 0xffffffff then a.uid else u) ∧
    (a.chown st now u g).gid = (if g = 0xffffffff then a.gid else g) ∧
    (∃ c d, a.chown st now u g = { a with uid := (a.chown st now u g).uid, gid := (a.chown st now u g).gid, ctime := c, dirty := d }) ∧
    ((a.chown st now u g).uid ≠ a.uid ∨ (a.chown st now u g).gid ≠ a.gid → (a.chown st now u g).dirty = true) ∧
    ((a.chown st now u g).uid = a.uid → (a.chown st now u g).gid = a.gid → a.chown st now u g = a) := by
  have huid : ∀ (v : UInt32) (b : FileAttr), ∃ c d, b.setUid st now v = { b with uid := v, ctime := c, dirty := d } ∧
      (v ≠ b.uid → d = true) ∧ (d = true ∨ d = b.dirty) ∧ (v = b.uid → b.setUid st now v = b) := by
    intro v b
    unfold FileAttr.setUid
    by_cases h : b.uid = v
    · subst h
      rw [if_pos rfl]
      exact ⟨b.ctime, b.dirty, rfl, fun h => absurd rfl h, Or.inr rfl, fun _ => rfl⟩
    · rw [if_neg h]
      cases st
      · exact ⟨b.ctime, true, rfl, fun _ => rfl, Or.inl rfl, fun h' => absurd h'.symm h⟩
      · exact ⟨now, true, rfl, fun _ => rfl, Or.inl rfl, fun h' => absurd h'.symm h⟩
  have hgid : ∀ (v : UInt32) (b : FileAttr), ∃ c d, b.setGid st now v = { b with gid := v, ctime := c, dirty := d } ∧
      (v ≠ b.gid → d = true) ∧ (d = true ∨ d = b.dirty) ∧ (v = b.gid → b.setGid st now v = b) := by
    intro v b
    unfold FileAttr.setGid
    by_cases h : b.gid = v
    · subst h
      rw [if_pos rfl]
      exact ⟨b.ctime, b.dirty, rfl, fun h => absurd rfl h, Or.inr rfl, fun _ => rfl⟩
    · rw [if_neg h]
      cases st
      · exact ⟨b.ctime, true, rfl, fun _ => rfl, Or.inl rfl, fun h' => absurd h'.symm h⟩
      · exact ⟨now, true, rfl, fun _ => rfl, Or.inl rfl, fun h' => absurd h'.symm h⟩
  obtain ⟨c1, d1, e1, e2, _, e4⟩ := huid u a
  unfold FileAttr.chown
  dsimp only
  by_cases hu : u = 0xffffffff
  · rw [if_neg (show ¬ u ≠ 0xffffffff by simpa using hu), if_pos hu]
    obtain ⟨c2, d2, f1, f2, _, f4⟩ := hgid g a
    by_cases hg : g = 0xffffffff
    · rw [if_neg (show ¬ g ≠ 0xffffffff by simpa using hg), if_pos hg]
      exact ⟨rfl, rfl, ⟨a.ctime, a.dirty, rfl⟩, fun h => h.elim (fun h => absurd rfl h) (fun h => absurd rfl h), fun _ _ => rfl⟩
    · rw [if_pos hg, if_neg hg]
      refine ⟨by rw [f1], by rw [f1], ⟨c2, d2, by rw [f1]⟩, ?_, ?_⟩
      · intro h
        rw [f1] at h ⊢
        exact h.elim (fun h => absurd rfl h) f2
      · intro _ h
        refine f4 ?_
        rw [f1] at h; exact h
  · rw [if_pos hu, if_neg hu]
    obtain ⟨c2, d2, f1, f2, f3, f4⟩ := hgid g (a.setUid st now u)
    have hg1 : (a.setUid st now u).gid = a.gid := by rw [e1]
    by_cases hg : g = 0xffffffff
    · rw [if_neg (show ¬ g ≠ 0xffffffff by simpa using hg), if_pos hg]
      refine ⟨by rw [e1], by rw [e1], ⟨c1, d1, by rw [e1]⟩, ?_, ?_⟩
      · intro h
        rw [e1] at h ⊢
        exact h.elim e2 (fun h => absurd rfl h)
      · intro h _
        refine e4 ?_
        rw [e1] at h; exact h
    · rw [if_pos hg, if_neg hg]
      refine ⟨by rw [f1, e1], by rw [f1], ⟨c2, d2, by rw [f1, e1]⟩, ?_, ?_⟩
      · intro h
        rw [f1] at h ⊢
        rcases h with h | h
        · rcases f3 with f3 | f3
          · exact f3
          · dsimp only at h ⊢
            rw [f3, e1]
            refine e2 ?_
            rw [e1] at h; exact h
        · refine f2 ?_
          rw [hg1]; exact h
      · intro h h'
        have hu' : u = a.uid := by rw [f1, e1] at h; exact h
        have hg' : g = a.gid := by rw [f1] at h'; exact h'
        rw [f4 (by rw [hg1]; exact hg'), e4 hu']

example : (demoAttr.chown true ⟨9, 9⟩ 0xffffffff 5).uid = 1000 ∧ (demoAttr.chown true ⟨9, 9⟩ 0xffffffff 5).gid = 5 ∧
    (demoAttr.chown true ⟨9, 9⟩ 0xffffffff 5).dirty = true ∧ demoAttr.chown true ⟨9, 9⟩ 0xffffffff 100 = demoAttr := by decide

/-! ## C43 -/

/-- C43: from the creation of a file on, in every history of reads, writes, attribute changes, flushes and reloads, the attributes
    shown are those of an ideal file that has no header and no dirty mark and for which flushing and reloading do nothing.  Time
    stamps have 32-bit nanoseconds. -/
theorem C43_refines (st : Bool) (now : TimeSpec) (osUid osGid mode uid gid : UInt32) (hn : ValidTime now) (ops : List (TimeSpec × AttrOp))
    (hv : ∀ p ∈ ops, ValidTime p.1 ∧ AttrOpValid p.2) :
    ∃ f f', AttrFile.created st now osUid osGid mode uid gid = .ok f ∧ AttrFile.run st f ops = .ok f' ∧
      attrsOf st f.attr =
        { mode := mode.toNat
          uid := if uid.toNat = keepOwner then osUid.toNat else uid.toNat
          gid := if gid.toNat = keepOwner then osGid.toNat else gid.toNat
          nlink := 1
          pages := (2 ^ 32 - 1, 2 ^ 32 - 1, 0)
          times := if st then some (stamp now, stamp now, stamp now, stamp now) else none } ∧
      attrsOf st f'.attr = attrRun (attrsOf st f.attr) ops := by
  obtain ⟨f, h1, h2⟩ := AttrFile.created_ok st now hn osUid osGid mode uid gid
  obtain ⟨f', g1, _, g3⟩ := AttrFile.run_ok ops h2 hv
  refine ⟨f, f', h1, g1, ?_, g3⟩
  simp only [AttrFile.created, FileAttr.readHeader] at h1
  have h1 := (Except.ok.inj h1).symm
  subst h1
  have hu : (uid.toNat = keepOwner) ↔ uid = 0xffffffff := by rw [AttrFile.uint32_eq_iff]; rfl
  have hg : (gid.toNat = keepOwner) ↔ gid = 0xffffffff := by rw [AttrFile.uint32_eq_iff]; rfl
  simp only [hu, hg]
  unfold attrsOf FileAttr.initializeEmpty
  dsimp only
  by_cases k1 : uid = 0xffffffff <;> by_cases k2 : gid = 0xffffffff <;> cases st <;>
    simp only [k1, k2, if_true, if_false, Bool.false_eq_true] <;> rfl

example : (∀ p ∈ demoAttrOps, ValidTime p.1 ∧ AttrOpValid p.2) ∧ (demoAttrOps.any fun p => match p.2 with | .reload => true | _ => false) = true := by
  decide

/-- C43: the header of any file can be written, has the fixed size, and gives every field back; when times are not stored they are
    zero and stay so. -/
theorem C43_header (st : Bool) (a : FileAttr) (ht : FileAttr.TimesOk st a) :
    ∃ h, FileAttr.encodeHeader st a = .ok h ∧ h.length = (if st then 80 else 32) ∧
      FileAttr.readHeader st (some h) = .ok { a with dirty := false } :=
  FileAttr.header_roundtrip st a ht

example : FileAttr.TimesOk true demoAttr := by
  refine ⟨?_, ?_, ?_, ?_⟩ <;> decide

/-- C43 without the hypothesis on nanoseconds is false: only their low 32 bits are stored. -/
theorem C43_nanoseconds : ∃ a h, FileAttr.encodeHeader true a = .ok h ∧
    (FileAttr.readHeader true (some h)).map (fun b => b.atime.nsec) ≠ .ok a.atime.nsec :=
  ⟨{ demoAttr with atime := ⟨0, 4294967296⟩ }, _, rfl, by decide +kernel⟩

/-! ## C44 -/

/-- C44 is false: the change time, and for 'now' all three times, are taken from a variable that is never assigned, so there are
    outcomes in which they are not the current time. -/
theorem C44_violated : ∃ garbage now : TimeSpec,
    (demoAttr.utimens true garbage (some (⟨1, 2⟩, ⟨3, 4⟩))).ctime ≠ now ∧
    (demoAttr.utimens true garbage none).atime ≠ now ∧ (demoAttr.utimens true garbage none).mtime ≠ now ∧
    (demoAttr.utimens true garbage none).ctime ≠ now :=
  ⟨⟨0, 0⟩, ⟨1763200000, 0⟩, by decide⟩

/-- C44 as far as it is true: requested access and modification times are stored exactly and the file is marked for saving; all else
    but the change time stays.  When times are not stored nothing in the file changes. -/
theorem C44_requested_partial (garbage x y : TimeSpec) (a : FileAttr) :
    (a.utimens true garbage (some (x, y))).atime = x ∧ (a.utimens true garbage (some (x, y))).mtime = y ∧
    (a.utimens true garbage (some (x, y))).dirty = true ∧
    (∃ c, a.utimens true garbage (some (x, y)) = { a with atime := x, mtime := y, ctime := c, dirty := true }) ∧
    ∀ ts, a.utimens false garbage ts = a := by
  exact ⟨rfl, rfl, rfl, ⟨garbage, rfl⟩, fun _ => rfl⟩

example : (demoAttr.utimens true ⟨0, 0⟩ (some (⟨1, 2⟩, ⟨3, 4⟩))).mtime = ⟨3, 4⟩ := by decide

/-! ## C54 -/

/-- C54: when times are stored, a read sets the access time to the current time if its seconds are below those of the modification or
    the change time, marking the file for saving, and does nothing otherwise. -/
theorem C54_read (now : TimeSpec) (a : FileAttr) :
    a.touchAtime true now = if a.atime.sec.toInt < a.mtime.sec.toInt ∨ a.atime.sec.toInt < a.ctime.sec.toInt then
      { a with atime := now, dirty := true } else a := by
  unfold FileAttr.touchAtime
  simp only [Bool.true_and, Bool.or_eq_true, decide_eq_true_eq, Int64.lt_iff_toInt_lt]

/-- Seconds decide, and negative times are before positive ones. -/
example : (demoAttr.touchAtime true ⟨500, 0⟩).atime = ⟨500, 0⟩ ∧
    ({ demoAttr with atime := ⟨200, 0⟩ }.touchAtime true ⟨500, 0⟩).atime = ⟨200, 0⟩ ∧
    ({ demoAttr with atime := ⟨-1, 0⟩, mtime := ⟨-3, 0⟩, ctime := ⟨-2, 0⟩ }.touchAtime true ⟨500, 0⟩).atime = ⟨-1, 0⟩ := by decide

/-- C54: when times are stored, a write sets modification and change time to the current time, together; an attribute change that
    changes something sets the change time; nothing else changes.  When times are not stored no time changes. -/
theorem C54_write (now : TimeSpec) (a : FileAttr) :
    a.touchMtime true now = { a with mtime := now, ctime := now, dirty := true } ∧
    (∀ v, v ≠ a.mode → a.setMode true now v = { a with mode := v, ctime := now, dirty := true }) ∧
    (∀ v, v ≠ a.uid → a.setUid true now v = { a with uid := v, ctime := now, dirty := true }) ∧
    (∀ v, v ≠ a.gid → a.setGid true now v = { a with gid := v, ctime := now, dirty := true }) ∧
    (∀ v, v ≠ a.nlink → a.setNlink true now v = { a with nlink := v, ctime := now, dirty := true }) ∧
    a.touchAtime false now = a ∧ a.touchMtime false now = a ∧
    (∀ v, v ≠ a.mode → a.setMode false now v = { a with mode := v, dirty := true }) := by
  refine ⟨rfl, ?_, ?_, ?_, ?_, rfl, rfl, ?_⟩ <;> intro v hv
  · unfold FileAttr.setMode; rw [if_neg (Ne.symm hv)]; rfl
  · unfold FileAttr.setUid; rw [if_neg (Ne.symm hv)]; rfl
  · unfold FileAttr.setGid; rw [if_neg (Ne.symm hv)]; rfl
  · unfold FileAttr.setNlink; rw [if_neg (Ne.symm hv)]; rfl
  · unfold FileAttr.setMode; rw [if_neg (Ne.symm hv)]; rfl

example : (demoAttr.setUid true ⟨7, 7⟩ 3).ctime = ⟨7, 7⟩ ∧ (demoAttr.setUid true ⟨7, 7⟩ 3).mtime = demoAttr.mtime := by decide

/-- C54: over any history from creation on, the times are those of the ideal file, for which a read is relatime, a write sets both
    times and an attribute change the change time (`Spec.attrStep`); in particular neither flushing nor reloading disturbs them. -/
theorem C54_history (now : TimeSpec) (osUid osGid mode uid gid : UInt32) (hn : ValidTime now) (ops : List (TimeSpec × AttrOp))
    (hv : ∀ p ∈ ops, ValidTime p.1 ∧ AttrOpValid p.2) :
    ∃ f f', AttrFile.created true now osUid osGid mode uid gid = .ok f ∧ AttrFile.run true f ops = .ok f' ∧
      some (stamp f'.attr.atime, stamp f'.attr.mtime, stamp f'.attr.ctime, stamp f'.attr.btime) = (attrRun (attrsOf true f.attr) ops).times := by
  obtain ⟨f, f', h1, h2, _, h4⟩ := C43_refines true now osUid osGid mode uid gid hn ops hv
  exact ⟨f, f', h1, h2, by rw [← h4]; rfl⟩

example : (attrRun (attrsOf true demoAttr) demoAttrOps).times = some ((-5, 6), (7, 8), (1009, 0), (-1, 1)) := by decide +kernel

end Securefs.Props

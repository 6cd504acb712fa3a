import Verif.Props.Limits
import Verif.Proofs.Crash
/-!
# Properties C10 and C11: the machine stops in the middle of an operation

`Torn f g f'` says: every byte of the file `f'` found after the crash is the old byte (of `f`) or the new
one (of `g`).  This includes every prefix of the bytes of the write, and also any reordering of pages.
-/

namespace Securefs.Props

/-- **C10.**  A lite file with content `c`, a write inside the file, and a crash that leaves an arbitrary
    mixture of old and new bytes: the file still opens, has its old size, and every read that touches no
    block overlapped by the write returns the old content. -/
theorem C10_torn_write (C : LiteCfg) (hC : C.WF) (o : LiteObj) (st st' : LiteSt) (c : Bytes)
    (hr : LiteReached C o st c) (off : Nat) (d : Bytes) (hin : off + d.length ≤ c.length)
    (hw : (C.dev o).write st off d = .ok st') (f' : Bytes) (ht : Torn st.file st'.file f') (n' : Nat) :
    C.openFile ⟨f', n'⟩ = .ok (o, ⟨f', n'⟩) ∧ C.size o ⟨f', n'⟩ = c.length ∧
    ∀ off2 len2, 0 < len2 → off2 + len2 ≤ liteMaxBlocks * C.bs →
      ((off2 + len2 - 1) / C.bs < off / C.bs ∨ (off + d.length - 1) / C.bs < off2 / C.bs) →
      (C.dev o).read ⟨f', n'⟩ off2 len2 = .ok (Spec.read c off2 len2) := by
  obtain ⟨hR, hl⟩ := hr.repr hC
  have hb : 0 < C.bs := by have := hC.bs_ge; omega
  by_cases hd : d = []
  · subst hd
    unfold BlockDev.write at hw
    rw [if_pos (by rfl)] at hw
    cases hw
    have hle : o.headerSize + 0 * C.ubs + ([] : Bytes).length ≤ st.file.length := by
      have := hR.1.hdr_le; simpa using this
    have ht' : Torn st.file (splice st.file (o.headerSize + 0 * C.ubs) []) f' := by rwa [splice_nil]
    have h2 := LiteCfg.torn_open hC hR hle ht' n'
    refine ⟨h2.1, h2.2, ?_⟩
    intro off2 len2 h3 h4 _
    exact LiteCfg.torn_read hC hR.1 (t := 0) hle (by simp) ht' n' off2 len2 h3 (Or.inr (Nat.zero_le _)) h4
  · obtain ⟨out, h1, h2, h3⟩ := LiteCfg.write_out hC hR.1 hl hd hin hw
    rw [h1] at ht
    have h4 := LiteCfg.torn_open hC hR h2 ht n'
    refine ⟨h4.1, h4.2, ?_⟩
    intro off2 len2 h5 h6 h7
    exact LiteCfg.torn_read hC hR.1 h2 h3 ht n' off2 len2 h5 (by omega) h6

/-- The hypotheses are met: a reached file of three blocks, a write into the second one; for instance every
    prefix of the new bytes followed by the old ones is a `Torn` file (both files have the same length). -/
example : ∃ o st st', LiteReached (Toy.lite false 3) o st (List.replicate 70 7) ∧
    ((Toy.lite false 3).dev o).write st 40 [1, 2, 3] = .ok st' := by
  obtain ⟨o, st, h⟩ := toy_lite_reached false
  obtain ⟨hR, hl⟩ := h.repr (Toy.lite_wf false 3)
  obtain ⟨st', h1, _⟩ := (LiteCfg.refines (Toy.lite_wf false 3)).write_refines hR.1 40 [1, 2, 3]
    (by simp [liteMaxBlocks, LiteCfg.dev, Toy.lite])
  exact ⟨o, st, st', h, h1⟩

theorem torn_prefix (f g : Bytes) (h : f.length = g.length) (j : Nat) :
    Torn f g (g.take j ++ f.drop j) := by
  refine ⟨by simp; omega, ?_⟩
  intro i
  simp only [List.getElem?_append, List.getElem?_take, List.getElem?_drop, List.length_take]
  by_cases hi : i < min j g.length
  · rw [if_pos hi, if_pos (by omega)]
    exact Or.inr rfl
  · rw [if_neg hi]
    rcases Nat.lt_or_ge i g.length with h1 | h1
    · left; congr 1; omega
    · left
      rw [List.getElem?_eq_none (by omega), List.getElem?_eq_none (by omega)]

/-- **C11, partial (lite, shrinking).**  A crash during the first of the two steps of a shrinking, or
    between them: every block below the new last block is still readable (and the whole file if the new
    size is a multiple of the block size).  Missing: the bytes of the new last block below the new size,
    for which the claim is false (`C11_lite_truncate_loses_block`). -/
theorem C11_lite_shrink_partial (C : LiteCfg) (hC : C.WF) (o : LiteObj) (st st' : LiteSt) (c : Bytes)
    (hr : LiteReached C o st c) (n : Nat) (hn : n < c.length)
    (hw : (C.dev o).shrinkPrep st n = .ok st') (f' : Bytes) (ht : Torn st.file st'.file f') (n' : Nat) :
    C.openFile ⟨f', n'⟩ = .ok (o, ⟨f', n'⟩) ∧
    ∀ off len, off + len ≤ n → (n % C.bs = 0 ∨ off + len ≤ n / C.bs * C.bs) →
      (C.dev o).read ⟨f', n'⟩ off len = .ok (Spec.read c off len) := by
  obtain ⟨hR, hl⟩ := hr.repr hC
  have hb : 0 < C.bs := by have := hC.bs_ge; omega
  obtain ⟨out, h1, h2, h3, h4⟩ := LiteCfg.shrinkPrep_out hC hR.1 hn hw
  rw [h1] at ht
  refine ⟨(LiteCfg.torn_open hC hR h2 ht n').1, ?_⟩
  intro off len h5 h6
  rcases Nat.eq_zero_or_pos len with h0 | h0
  · subst h0
    simp [BlockDev.read, Spec.read]
  · refine LiteCfg.torn_read hC hR.1 h2 h4 ht n' off len h0 (Or.inl ?_) (by omega)
    have hm := Nat.div_add_mod' n C.bs
    exact (Nat.div_lt_iff_lt_mul hb).mpr (by omega)

example : ∃ o st st', LiteReached (Toy.lite false 3) o st (List.replicate 70 7) ∧
    ((Toy.lite false 3).dev o).shrinkPrep st 40 = .ok st' := by
  obtain ⟨o, st, h⟩ := toy_lite_reached false
  obtain ⟨hR, hl⟩ := h.repr (Toy.lite_wf false 3)
  obtain ⟨st', h1, _⟩ := (LiteCfg.refines (Toy.lite_wf false 3)).resize_refines hR.1 40
    (by simp [liteMaxBlocks, LiteCfg.dev, Toy.lite])
  unfold BlockDev.resize BlockDev.uncheckedResize at h1
  rw [(LiteCfg.refines (Toy.lite_wf false 3)).size_eq hR.1] at h1
  rw [if_neg (by simp), if_pos (by simp)] at h1
  simp only [bind, Except.bind] at h1
  split at h1
  · cases h1
  · rename_i st1 h2
    exact ⟨o, st, st1, h, h2⟩

/-- **C11 (lite, growing).**  A crash between the two steps of an extension loses nothing: the old content
    is still there, possibly followed by zeros. -/
theorem C11_lite_grow (C : LiteCfg) (hC : C.WF) (o : LiteObj) (st st' : LiteSt) (c : Bytes)
    (hr : LiteReached C o st c) (n : Nat) (hn : c.length < n) (hlim : n ≤ liteMaxBlocks * C.bs)
    (hw : (C.dev o).growPrep st c.length n = .ok st') (n' : Nat) :
    C.openFile ⟨st'.file, n'⟩ = .ok (o, ⟨st'.file, n'⟩) ∧
    ∀ off len, off + len ≤ c.length → (C.dev o).read ⟨st'.file, n'⟩ off len = .ok (Spec.read c off len) := by
  obtain ⟨hR, hl⟩ := hr.repr hC
  have hb : 0 < C.bs := by have := hC.bs_ge; omega
  have hz : ∃ k, LiteCfg.Repr C o st' (c ++ zeros k) := by
    unfold BlockDev.growPrep at hw
    split at hw
    · obtain ⟨s, h1, h2⟩ := (LiteCfg.refines hC).zeroFill_refines hR.1 n (by omega) hlim
      rw [h1] at hw; cases hw
      exact ⟨_, h2⟩
    · rename_i hs
      have hne : c.length / C.bs ≠ n / C.bs := fun h => hs (Or.inr h)
      have hle : c.length / C.bs ≤ n / C.bs := Nat.div_le_div_right (by omega)
      have hmul : (c.length / C.bs + 1) * C.bs ≤ n / C.bs * C.bs := Nat.mul_le_mul_right _ (by omega)
      rw [Nat.add_mul, Nat.one_mul] at hmul
      have hdm := Nat.div_add_mod' n C.bs
      have hdc := Nat.div_add_mod' c.length C.bs
      have hmc := Nat.mod_lt c.length hb
      obtain ⟨s, h1, h2⟩ := (LiteCfg.refines (o := o) hC).zeroFill_refines hR.1 (c.length / C.bs * C.bs + C.bs)
        (by omega) (by show _ ≤ liteMaxBlocks * C.bs; omega)
      change (C.dev o).zeroFillTo st c.length (c.length / C.bs * C.bs + C.bs) = .ok st' at hw
      rw [h1] at hw; cases hw
      exact ⟨_, h2⟩
  obtain ⟨k, hk⟩ := hz
  have hk' : LiteCfg.Repr C o ⟨st'.file, n'⟩ (c ++ zeros k) := ⟨hk.header, hk.idLen, hk.enc⟩
  refine ⟨LiteCfg.openFile_existing hC hk' hR.2, ?_⟩
  intro off len h
  rw [(LiteCfg.refines hC).read_refines hk' off len (by show _ ≤ liteMaxBlocks * C.bs; omega)]
  congr 1
  unfold Spec.read
  rw [List.drop_append_of_le_length (by omega), List.take_append_of_le_length (by rw [List.length_drop]; omega)]

example : ∃ o st st', LiteReached (Toy.lite true 3) o st (List.replicate 70 7) ∧
    ((Toy.lite true 3).dev o).growPrep st 70 200 = .ok st' := by
  obtain ⟨o, st, h⟩ := toy_lite_reached true
  obtain ⟨hR, hl⟩ := h.repr (Toy.lite_wf true 3)
  obtain ⟨s, h1, h2⟩ := (LiteCfg.refines (o := o) (Toy.lite_wf true 3)).zeroFill_refines hR.1 96
    (by simp) (by simp [liteMaxBlocks, LiteCfg.dev, Toy.lite])
  refine ⟨o, st, s, h, ?_⟩
  unfold BlockDev.growPrep
  rw [if_neg (by simp [LiteCfg.dev, Toy.lite])]
  simpa [show ((Toy.lite true 3).dev o).bs = 32 from rfl] using h1

set_option maxRecDepth 100000 in
/-- **C11 fails (lite, shrinking).**  A file with 32 bytes (one block) is truncated to 20.  After the first
    step and before the second, the block is no longer readable: the first 20 bytes, all of which both the
    old and the new file have, are lost. -/
theorem C11_lite_truncate_loses_block :
    ∃ (o : LiteObj) (st st' : LiteSt),
      LiteReached (Toy.lite false 0) o st (List.replicate 32 7) ∧
      ((Toy.lite false 0).dev o).shrinkPrep st 20 = .ok st' ∧
      (Toy.lite false 0).openFile st' = .ok (o, st') ∧
      ((Toy.lite false 0).dev o).read st' 0 20 = .error .verify := by
  have hl : ∀ op ∈ [Spec.Op.write 0 (List.replicate 32 7)],
      op.extent ≤ liteMaxBlocks * (Toy.lite false 0).bs := by
    simp [Spec.Op.extent, Toy.lite, liteMaxBlocks]
  refine ⟨⟨List.replicate 16 1, []⟩,
    ⟨List.replicate 16 1 ++ (Toy.lite false 0).encodeBlock ⟨List.replicate 16 1, []⟩ 0
      (List.replicate 12 2) (List.replicate 32 7), 2⟩,
    ⟨List.replicate 16 1 ++ (Toy.lite false 0).encodeBlock ⟨List.replicate 16 1, []⟩ 0
        (List.replicate 12 3) (List.replicate 20 7)
      ++ ((Toy.lite false 0).encodeBlock ⟨List.replicate 16 1, []⟩ 0
        (List.replicate 12 2) (List.replicate 32 7)).drop 48, 3⟩,
    ⟨0, (⟨List.replicate 16 1, []⟩, ⟨List.replicate 16 1, 1⟩), _, [.done], hl, ?_, ?_, ?_⟩, ?_, ?_, ?_⟩
  all_goals decide +kernel

/-! ### The full format -/

/-- **C11 fails (full, no flush).**  Take a full-format file whose metadata on disk is authenticated
    (`HmacValid`, as after any flush), and one more write or truncation.  A machine that stops before the
    next flush leaves files which the file system, verifying, refuses to open, with all their content;
    unless the two metadata versions, the one before and the one after, have the same HMAC. -/
theorem C11_full_unflushed_rejected (C : FullCfg) (hcheck : C.check = true)
    (st st' : FullSt) (hne : st.metaS.file ≠ []) (hflushed : HmacValid C.hm C.id st.metaS.file)
    (hop : (∃ off d, C.stream.write st off d = .ok st') ∨ (∃ n, C.stream.resize st n = .ok st'))
    (hcoll : C.hm (C.id ++ st'.metaS.file.drop 32) ≠ C.hm (C.id ++ st.metaS.file.drop 32)) (n' : Nat) :
    C.openFile st'.data st'.metaS.file n' = .error .hmac := by
  rcases hflushed with h | ⟨hl, hm⟩
  · exact absurd h hne
  have hP : FullCfg.MacIs (C.hm (C.id ++ st.metaS.file.drop 32)) st := ⟨hm, hl⟩
  have hP' : FullCfg.MacIs (C.hm (C.id ++ st.metaS.file.drop 32)) st' := by
    rcases hop with ⟨off, d, h⟩ | ⟨n, h⟩
    · exact BlockDev.write_keeps (D := C.dev) (FullCfg.writeMulti_mac _) (FullCfg.adjust_mac _) hP h
    · exact BlockDev.uncheckedResize_keeps (D := C.dev) (FullCfg.writeMulti_mac _) (FullCfg.adjust_mac _) hP h
  unfold FullCfg.openFile
  rw [hcheck, hmacOpen_rejects hP'.2 (by rw [hP'.1]; exact fun h => hcoll h.symm)]
  rfl

/-- The file of the witness below: a header and 70 bytes were written and flushed. -/
def flushedFile : Res FullSt := do
  let p ← (Toy.full false).hrun ⟨[], ⟨[], false⟩, 0⟩
    [.writeHeader [5], .file (.write 0 (List.replicate 70 7)), .flush]
  .ok p.1

set_option maxRecDepth 100000 in
/-- A concrete run: the flushed file opens; after one more write, which succeeds and reads back, the files
    without a flush do not open any more.  So the hypotheses of `C11_full_unflushed_rejected` can be met. -/
theorem C11_full_unflushed_witness :
    (do let st ← flushedFile
        let q ← (Toy.full false).openFile st.data st.metaS.file 9
        (Toy.full false).stream.read q 68 9) = .ok [7, 7] ∧
    (do let st ← flushedFile
        let st' ← (Toy.full false).stream.write st 3 [1, 2]
        (Toy.full false).stream.read st' 2 4) = .ok [7, 1, 2, 7] ∧
    (do let st ← flushedFile
        let st' ← (Toy.full false).stream.write st 3 [1, 2]
        let q ← (Toy.full false).openFile st'.data st'.metaS.file 9
        (Toy.full false).stream.read q 68 2) = .error .hmac := by
  decide +kernel

end Securefs.Props

import Verif.Props.Toy
import Verif.Proofs.Limits
/-!
# Property C08: operations that would exceed the maximum number of blocks

`writeS` and `resizeS` give the state the file is left in, whether or not the call throws.
`C08_*_agree` state that they are the same calls as the `write` and `resize` of the other properties.
The maximum is `liteMaxBlocks = 2^31-1` blocks for the lite and `fullMaxBlocks = 2^30` for the full format.
-/

namespace Securefs.Props

/-- A lite file after a history of calls within the limit, with content `c`. -/
def LiteReached (C : LiteCfg) (o : LiteObj) (st : LiteSt) (c : Bytes) : Prop :=
  ∃ n p ops outs, (∀ op ∈ ops, Spec.Op.extent op ≤ liteMaxBlocks * C.bs) ∧
    C.openFile ⟨[], n⟩ = .ok p ∧ C.stream.run p ops = .ok ((o, st), outs) ∧ c = (Spec.run [] ops).1

/-- A full-format file after a history of calls within the limit, with content `c`. -/
def FullReached (C : FullCfg) (st : FullSt) (c : Bytes) : Prop :=
  ∃ n p ops outs, (∀ op ∈ ops, Spec.Op.extent op ≤ fullMaxBlocks * C.bs) ∧
    C.openFile [] [] n = .ok p ∧ C.stream.run p ops = .ok (st, outs) ∧ c = (Spec.run [] ops).1

theorem LiteReached.repr {C : LiteCfg} (hC : C.WF) {o st c} (h : LiteReached C o st c) :
    LiteCfg.SRepr C (o, st) c ∧ c.length ≤ liteMaxBlocks * C.bs := by
  obtain ⟨n, p, ops, outs, hl, h1, h2, rfl⟩ := h
  obtain ⟨p0, h1', hR⟩ := LiteCfg.openFile_empty hC ⟨[], n⟩ rfl
  rw [h1] at h1'; cases h1'
  obtain ⟨p1, h2', hR'⟩ := (LiteCfg.stream_refines hC).run_ok ops hR hl
  rw [h2] at h2'; cases h2'
  exact ⟨hR', spec_run_le ops (by simp) hl⟩

theorem FullReached.repr {C : FullCfg} (hC : C.WF) {st c} (h : FullReached C st c) :
    (∃ H, FullCfg.Repr C false H st c) ∧ c.length ≤ fullMaxBlocks * C.bs := by
  obtain ⟨n, p, ops, outs, hl, h1, h2, rfl⟩ := h
  obtain ⟨p0, h1', hR⟩ := FullCfg.openFile_empty n hC
  rw [h1] at h1'; cases h1'
  obtain ⟨p1, h2', hR'⟩ := (FullCfg.stream_refines hC _ _).run_ok ops hR hl
  rw [h2] at h2'; cases h2'
  exact ⟨⟨_, hR'⟩, spec_run_le ops (by simp) hl⟩

/-- A reached lite file with three blocks of content, used as a witness below. -/
theorem toy_lite_reached (sparse : Bool) :
    ∃ o st, LiteReached (Toy.lite sparse 3) o st (List.replicate 70 7) := by
  obtain ⟨p, h1, hR⟩ := LiteCfg.openFile_empty (Toy.lite_wf sparse 3) ⟨[], 0⟩ rfl
  have hl : ∀ op ∈ [Spec.Op.write 0 (List.replicate 70 7)],
      op.extent ≤ liteMaxBlocks * (Toy.lite sparse 3).bs := by
    simp [Spec.Op.extent, Toy.lite, liteMaxBlocks]
  obtain ⟨⟨o, st⟩, h2, _⟩ := (LiteCfg.stream_refines (Toy.lite_wf sparse 3)).run_ok
    [.write 0 (List.replicate 70 7)] hR hl
  exact ⟨o, st, 0, p, _, _, hl, h1, h2, by simp [Spec.run, Spec.step, Spec.write]⟩

/-- A reached full-format file with two blocks of content. -/
theorem toy_full_reached (sparse : Bool) :
    ∃ st, FullReached (Toy.full sparse) st (List.replicate 70 7) := by
  obtain ⟨p, h1, hR⟩ := FullCfg.openFile_empty 0 (Toy.full_wf sparse)
  have hl : ∀ op ∈ [Spec.Op.write 0 (List.replicate 70 7)],
      op.extent ≤ fullMaxBlocks * (Toy.full sparse).bs := by
    simp [Spec.Op.extent, Toy.full, fullMaxBlocks]
  obtain ⟨st, h2, _⟩ := (FullCfg.stream_refines (Toy.full_wf sparse) _ _).run_ok
    [.write 0 (List.replicate 70 7)] hR hl
  exact ⟨st, 0, p, _, _, hl, h1, h2, by simp [Spec.run, Spec.step, Spec.write]⟩

/-- `writeS` is `write`, with the state kept on failure. -/
theorem C08_write_agree {σ : Type} (D : BlockDev σ) (st : σ) (off : Nat) (d : Bytes) :
    D.write st off d = match D.writeS st off d with
      | (st', none) => .ok st'
      | (_, some e) => .error e := BlockDev.writeS_eq D st off d

/-- `resizeS` is `resize`, with the state kept on failure. -/
theorem C08_resize_agree {σ : Type} (D : BlockDev σ) (st : σ) (n : Nat) :
    D.resize st n = match D.resizeS st n with
      | (st', none) => .ok st'
      | (_, some e) => .error e := BlockDev.resizeS_eq D st n

/-- **C08, partial (lite).**  A write that starts inside the file (or at its end) and would cross the
    limit, and an extension beyond the limit without sparse files, are refused and change nothing.
    Missing: writes starting beyond the end of the file (`C08_lite_gap_write_extends`) and extensions of
    sparse files (`C08_lite_sparse_extension_accepted`), for which the claim is false. -/
theorem C08_lite_over_limit_partial (C : LiteCfg) (hC : C.WF) (o : LiteObj) (st : LiteSt) (c : Bytes)
    (hr : LiteReached C o st c) :
    (∀ off d, off ≤ c.length → liteMaxBlocks * C.bs < off + d.length →
      (C.dev o).writeS st off d = (st, some .tooLong)) ∧
    (∀ n, liteMaxBlocks * C.bs < n → C.sparse = false → (C.dev o).resizeS st n = (st, some .tooLong)) := by
  obtain ⟨hR, hl⟩ := hr.repr hC
  exact ⟨fun off d h1 h2 => BlockDev.writeS_over (LiteCfg.refines hC) (C.limited o) hR.1 hl off d h1 h2,
    fun n h1 h2 => BlockDev.resizeS_over (LiteCfg.refines hC) (C.limited o) hR.1 hl n h1 (Or.inl h2)⟩

/-- **C08, partial (full).**  The same for the full format. -/
theorem C08_full_over_limit_partial (C : FullCfg) (hC : C.WF) (st : FullSt) (c : Bytes)
    (hr : FullReached C st c) :
    (∀ off d, off ≤ c.length → fullMaxBlocks * C.bs < off + d.length →
      C.dev.writeS st off d = (st, some .tooLong)) ∧
    (∀ n, fullMaxBlocks * C.bs < n → C.sparse = false → C.dev.resizeS st n = (st, some .tooLong)) := by
  obtain ⟨⟨H, hR⟩, hl⟩ := hr.repr hC
  exact ⟨fun off d h1 h2 => BlockDev.writeS_over (FullCfg.refines hC _ _) C.limited hR hl off d h1 h2,
    fun n h1 h2 => BlockDev.resizeS_over (FullCfg.refines hC _ _) C.limited hR hl n h1 (Or.inl h2)⟩

/-- **C08 fails (lite, gap write).**  Every write that starts beyond the end of the file and crosses the
    limit fails with an error, but the file has grown to the start of the write. -/
theorem C08_lite_gap_write_extends (C : LiteCfg) (hC : C.WF) (o : LiteObj) (st : LiteSt) (c : Bytes)
    (hr : LiteReached C o st c) (off : Nat) (d : Bytes) (h1 : c.length < off)
    (h2 : off ≤ liteMaxBlocks * C.bs) (h3 : liteMaxBlocks * C.bs < off + d.length) :
    ∃ st', (C.dev o).writeS st off d = (st', some .tooLong) ∧ C.size o st = c.length ∧
      C.size o st' = off ∧ off ≠ c.length := by
  obtain ⟨hR, hl⟩ := hr.repr hC
  obtain ⟨st', h4, h5⟩ := BlockDev.writeS_gap (LiteCfg.refines hC) (C.limited o) hR.1 off d h1 h2 h3
  refine ⟨st', h4, LiteCfg.dev_size hC hR.1, ?_, by omega⟩
  rw [LiteCfg.dev_size hC h5]
  simp [Spec.resize]; omega

/-- **C08 fails (full, gap write).** -/
theorem C08_full_gap_write_extends (C : FullCfg) (hC : C.WF) (st : FullSt) (c : Bytes)
    (hr : FullReached C st c) (off : Nat) (d : Bytes) (h1 : c.length < off)
    (h2 : off ≤ fullMaxBlocks * C.bs) (h3 : fullMaxBlocks * C.bs < off + d.length) :
    ∃ st', C.dev.writeS st off d = (st', some .tooLong) ∧ C.stream.size st = c.length ∧
      C.stream.size st' = off ∧ off ≠ c.length := by
  obtain ⟨⟨H, hR⟩, hl⟩ := hr.repr hC
  obtain ⟨st', h4, h5⟩ := BlockDev.writeS_gap (FullCfg.refines hC _ _) C.limited hR off d h1 h2 h3
  refine ⟨st', h4, (FullCfg.refines hC _ _).size_eq hR, ?_, by omega⟩
  have := (FullCfg.refines hC _ _).size_eq h5
  change C.stream.size st' = _ at this
  rw [this]
  simp [Spec.resize]; omega

/-- **C08 fails (lite, sparse extension).**  On a sparse file every extension beyond the limit is accepted:
    the new size is reported, but reading there is an error. -/
theorem C08_lite_sparse_extension_accepted (C : LiteCfg) (hC : C.WF) (hsp : C.sparse = true)
    (o : LiteObj) (st : LiteSt) (c : Bytes) (hr : LiteReached C o st c)
    (hlt : c.length < liteMaxBlocks * C.bs) (n : Nat) (hn : liteMaxBlocks * C.bs < n) :
    ∃ st', (C.dev o).resizeS st n = (st', none) ∧ C.size o st' = n ∧
      (C.dev o).read st' (n - 1) 1 = .error .tooLong := by
  obtain ⟨hR, hl⟩ := hr.repr hC
  obtain ⟨st', h4, h5⟩ := BlockDev.resizeS_sparse (LiteCfg.refines hC) hR.1 hsp hlt n hn
  have hb : 0 < C.bs := by have := hC.bs_ge; omega
  refine ⟨st', h4, ?_, BlockDev.read_over (C.limited o) hb _ _ _ (by omega) ?_⟩
  · rw [LiteCfg.dev_size hC h5]
    change c.length < liteMaxBlocks * C.bs at hlt
    simp [Spec.resize]; omega
  · change liteMaxBlocks * C.bs < _
    omega

/-- **C08 fails (full, sparse extension).** -/
theorem C08_full_sparse_extension_accepted (C : FullCfg) (hC : C.WF) (hsp : C.sparse = true)
    (st : FullSt) (c : Bytes) (hr : FullReached C st c)
    (hlt : c.length < fullMaxBlocks * C.bs) (n : Nat) (hn : fullMaxBlocks * C.bs < n) :
    ∃ st', C.dev.resizeS st n = (st', none) ∧ C.stream.size st' = n ∧
      C.stream.read st' (n - 1) 1 = .error .tooLong := by
  obtain ⟨⟨H, hR⟩, hl⟩ := hr.repr hC
  obtain ⟨st', h4, h5⟩ := BlockDev.resizeS_sparse (FullCfg.refines hC _ _) hR hsp hlt n hn
  refine ⟨st', h4, ?_, (BlockDev.read_over C.limited hC.bs_pos st' (n - 1) 1 (by omega) ?_ :)⟩
  · have := (FullCfg.refines hC _ _).size_eq h5
    change C.stream.size st' = _ at this
    rw [this]
    simp [Spec.resize]; omega
  · change fullMaxBlocks * C.bs < _
    omega

/-- The hypotheses of the C08 theorems hold for files with content; the positions exist. -/
example : (Toy.lite true 3).WF ∧ (∃ o st, LiteReached (Toy.lite true 3) o st (List.replicate 70 7)) ∧
    (List.replicate 70 (7 : UInt8)).length < liteMaxBlocks * (Toy.lite true 3).bs ∧
    liteMaxBlocks * (Toy.lite true 3).bs < liteMaxBlocks * (Toy.lite true 3).bs + [(1 : UInt8)].length :=
  ⟨Toy.lite_wf true 3, toy_lite_reached true, by simp [liteMaxBlocks, Toy.lite], by simp⟩

example : (Toy.full true).WF ∧ (∃ st, FullReached (Toy.full true) st (List.replicate 70 7)) ∧
    (List.replicate 70 (7 : UInt8)).length < fullMaxBlocks * (Toy.full true).bs ∧
    fullMaxBlocks * (Toy.full true).bs < fullMaxBlocks * (Toy.full true).bs + [(1 : UInt8)].length :=
  ⟨Toy.full_wf true, toy_full_reached true, by simp [fullMaxBlocks, Toy.full], by simp⟩

/-- **C08, reading.**  A read whose end is beyond the limit is refused. -/
theorem C08_read_over_limit (C : LiteCfg) (hb : 0 < C.bs) (o : LiteObj) (st : LiteSt) (off len : Nat)
    (hl : 0 < len) (hover : liteMaxBlocks * C.bs < off + len) :
    (C.dev o).read st off len = .error .tooLong :=
  BlockDev.read_over (C.limited o) hb st off len hl hover

example : 0 < (Toy.lite false 0).bs ∧ liteMaxBlocks * (Toy.lite false 0).bs < 5 + liteMaxBlocks * 32 :=
  ⟨by decide, by simp [Toy.lite, liteMaxBlocks]⟩

end Securefs.Props

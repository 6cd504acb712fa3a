import Verif.Props.Limits
import Verif.Proofs.FaultsInit
/-!
# Property C86: a failing call damages only what it covers

Open files of both formats over a system whose calls fail at any moment: no space is left, the device reports errors, a `pwrite` stops
halfway.  `Faulty` holds the state of a file and what happens to the next system calls; an empty list means that they succeed.
The specification is `Verif/Spec/Frail.lean`.
-/

namespace Securefs.Props

/-- **C86 (lite, no failures).**  If no system call fails, the functions with failures are those of the other properties. -/
theorem C86_lite_faultless (C : LiteCfg) (o : LiteObj) (st : LiteSt) :
    (∀ off len, (C.faultDev o).read off len ⟨st, []⟩ = ((C.dev o).read st off len, ⟨st, []⟩)) ∧
    (∀ off d, match (C.dev o).write st off d with
      | .ok st' => (C.faultDev o).write off d ⟨st, []⟩ = (.ok (), ⟨st', []⟩)
      | .error e => ((C.faultDev o).write off d ⟨st, []⟩).1 = .error e) ∧
    (∀ n, match (C.dev o).resize st n with
      | .ok st' => (C.faultDev o).resize n ⟨st, []⟩ = (.ok (), ⟨st', []⟩)
      | .error e => ((C.faultDev o).resize n ⟨st, []⟩).1 = .error e) ∧
    (C.faultDev o).size ⟨st, []⟩ = (.ok ((C.dev o).size st), ⟨st, []⟩) ∧
    (match C.openFile st with
      | .ok (o', st') => C.openF ⟨st, []⟩ = (.ok o', ⟨st', []⟩)
      | .error e => (C.openF ⟨st, []⟩).1 = .error e) := by
  refine ⟨LiteCfg.calm.reads st, fun off d => ?_, fun n => ?_, LiteCfg.calm.size st, ?_⟩
  · have h := (LiteCfg.calm (C := C) (o := o)).writes st off d
    rcases e : (C.dev o).write st off d with er | q <;> rw [e] at h <;> exact h
  · have h := (LiteCfg.calm (C := C) (o := o)).resize st n
    rcases e : (C.dev o).resize st n with er | q <;> rw [e] at h <;> exact h
  have h := C.openF_calm st
  rcases e : C.openFile st with er | q <;> rw [e] at h <;> exact h

/-- The functions are not trivial: a write that fails halfway, and one that does not. -/
example : ((Toy.lite false 0).faultDev ⟨[], []⟩).write 0 [1, 2] ⟨⟨zeros 16, 0⟩, [none, none, some ⟨28, 5⟩]⟩ =
      (.error (.vfs 28), ⟨⟨zeros 16 ++ List.replicate 5 1, 1⟩, []⟩) ∧
    (((Toy.lite false 0).faultDev ⟨[], []⟩).write 0 [1, 2] ⟨⟨zeros 16, 0⟩, []⟩).1 = .ok () := ⟨rfl, rfl⟩

/-- **C86 (full, no failures).** -/
theorem C86_full_faultless (C : FullCfg) (st : FullSt) :
    (∀ off len, C.faultDev.read off len ⟨st, []⟩ = (C.dev.read st off len, ⟨st, []⟩)) ∧
    (∀ off d, match C.dev.write st off d with
      | .ok st' => C.faultDev.write off d ⟨st, []⟩ = (.ok (), ⟨st', []⟩)
      | .error e => (C.faultDev.write off d ⟨st, []⟩).1 = .error e) ∧
    (∀ n, match C.dev.resize st n with
      | .ok st' => C.faultDev.resize n ⟨st, []⟩ = (.ok (), ⟨st', []⟩)
      | .error e => (C.faultDev.resize n ⟨st, []⟩).1 = .error e) ∧
    C.faultDev.size ⟨st, []⟩ = (.ok (C.dev.size st), ⟨st, []⟩) ∧
    (C.flushF ⟨st, []⟩ = match C.flush st with
      | .ok st' => (.ok (), ⟨st', []⟩)
      | .error e => (.error e, ⟨st, []⟩)) := by
  refine ⟨FullCfg.calm.reads st, fun off d => ?_, fun n => ?_, FullCfg.calm.size st, FullCfg.flushF_calm st⟩
  · have h := (FullCfg.calm (C := C)).writes st off d
    rcases e : C.dev.write st off d with er | q <;> rw [e] at h <;> exact h
  · have h := (FullCfg.calm (C := C)).resize st n
    rcases e : C.dev.resize st n with er | q <;> rw [e] at h <;> exact h

/-- A lite file with three blocks of content. -/
def Toy.torn0 : LiteSt :=
  ⟨List.replicate 16 1 ++ ((List.replicate 12 2 ++ List.replicate 32 7 ++ List.replicate 16 247) ++
    (List.replicate 12 3 ++ List.replicate 32 7 ++ List.replicate 16 10) ++ (List.replicate 12 4 ++ List.replicate 6 7 ++ List.replicate 16 73)), 4⟩

/-- The same file, with the second block torn. -/
def Toy.torn1 : LiteSt :=
  ⟨List.replicate 16 1 ++ ((List.replicate 12 2 ++ List.replicate 32 7 ++ List.replicate 16 247) ++
    (List.replicate 5 5 ++ List.replicate 7 3 ++ List.replicate 32 7 ++ List.replicate 16 10) ++
    (List.replicate 12 4 ++ List.replicate 6 7 ++ List.replicate 16 73)), 5⟩

/-- **C86 (lite).**  Take an intact open file, any calls, and any failures of the system below.
    * What the user observes is what they observe on a file of which a failing call may spoil the blocks that it covers, and nothing else; the
      content of all other blocks is as if the failing call had not been made.
    * When the system works again, every call succeeds that neither reads a spoilt block nor changes one in part: in particular spoilt blocks can be
      overwritten as a whole, and are intact then.
    * The file can be closed and opened again. -/
theorem C86_lite (C : LiteCfg) (hC : C.WF) (o : LiteObj) (st : LiteSt) (c : Bytes) (hr : LiteReached C o st c)
    (plan : List (Option SysFault)) (calls : List Spec.FileCall) :
    ∃ f, Spec.Frail.Run C.bs ⟨c, fun _ => True⟩ ((C.faultDev o).run ⟨st, plan⟩ calls).1 f ∧
      (∀ call : Spec.FileCall, call.op.extent ≤ liteMaxBlocks * C.bs → f.determined C.bs call →
        (∀ i, call.covers C.bs f.content.length i → ¬ call.renews C.bs f.content.length i → f.intact i) →
        ∃ out F' f', (C.faultDev o).call call ⟨((C.faultDev o).run ⟨st, plan⟩ calls).2.st, []⟩ = (.ok out, F') ∧ f.Step C.bs call (.ok out) f') ∧
      C.openFile ((C.faultDev o).run ⟨st, plan⟩ calls).2.st = .ok (o, ((C.faultDev o).run ⟨st, plan⟩ calls).2.st) := by
  obtain ⟨⟨hR, hpad⟩, _⟩ := hr.repr hC
  obtain ⟨f, h1, h2⟩ := (LiteCfg.frameH hC).run calls (F := ⟨st, plan⟩) (LiteCfg.rel_init hC hR)
  refine ⟨f, h1, fun call hx hd hc => ?_, LiteCfg.openFile_hdr hC h2.1.1 h2.1.2 hR.idLen hpad⟩
  obtain ⟨out, st', h3⟩ := (LiteCfg.frameH hC).live LiteCfg.calm (LiteCfg.lively hC) h2 call hx hd hc
  obtain ⟨f', h4, _⟩ := (LiteCfg.frameH hC).step (F := ⟨_, []⟩) h2 call
  rw [h3] at h4
  exact ⟨out, _, f', h3, h4⟩

/-- An open file; a write that fails halfway, as the disk is full; the block that it covers is spoilt, and a later write replaces it. -/
example : (Toy.lite false 3).WF ∧ (∃ o st, LiteReached (Toy.lite false 3) o st (List.replicate 70 7)) ∧
    (Spec.FileCall.write 40 [1, 2, 3]).covers 32 70 1 ∧ ¬ (Spec.FileCall.write 40 [1, 2, 3]).covers 32 70 0 ∧
    ¬ (Spec.FileCall.write 40 [1, 2, 3]).covers 32 70 2 ∧ (Spec.FileCall.write 32 (List.replicate 32 9)).renews 32 70 1 ∧
    (Spec.FileCall.write 32 (List.replicate 32 9)).op.extent ≤ liteMaxBlocks * (Toy.lite false 3).bs :=
  ⟨Toy.lite_wf false 3, toy_lite_reached false, by simp [Spec.FileCall.covers], by simp [Spec.FileCall.covers], by simp [Spec.FileCall.covers],
    by simp [Spec.FileCall.renews], by simp [Spec.FileCall.op, Spec.Op.extent, Toy.lite, liteMaxBlocks]⟩

set_option maxRecDepth 100000 in
/-- `C86_lite` cannot say more of a spoilt block: the same write, made again when there is space, reads the block first and fails for ever, while the whole
    block can be replaced. -/
theorem C86_lite_torn : ∃ o st, LiteReached (Toy.lite false 0) o st (List.replicate 70 7) ∧
    ∃ st1, ((Toy.lite false 0).faultDev o).write 40 [1, 2, 3] ⟨st, [none, none, some ⟨28, 5⟩]⟩ = (.error (.vfs 28), ⟨st1, []⟩) ∧
      (((Toy.lite false 0).faultDev o).write 40 [1, 2, 3] ⟨st1, []⟩).1 = .error .verify ∧
      (((Toy.lite false 0).faultDev o).read 32 32 ⟨st1, []⟩).1 = .error .verify ∧
      (((Toy.lite false 0).faultDev o).read 0 32 ⟨st1, []⟩).1 = .ok (List.replicate 32 7) ∧
      (((Toy.lite false 0).faultDev o).write 32 (List.replicate 32 9) ⟨st1, []⟩).1 = .ok () := by
  obtain ⟨p, h1, hR⟩ := LiteCfg.openFile_empty (Toy.lite_wf false 0) ⟨[], 0⟩ rfl
  have hl : ∀ op ∈ [Spec.Op.write 0 (List.replicate 70 7)],
      op.extent ≤ liteMaxBlocks * (Toy.lite false 0).bs := by
    simp [Spec.Op.extent, Toy.lite, liteMaxBlocks]
  refine ⟨⟨List.replicate 16 1, []⟩, Toy.torn0, ⟨0, ⟨⟨List.replicate 16 1, []⟩, ⟨List.replicate 16 1, 1⟩⟩, _, [.done], hl, by decide +kernel,
    by decide +kernel, by decide +kernel⟩, Toy.torn1, ?_, ?_, ?_, ?_, ?_⟩
  · rfl
  all_goals decide +kernel

/-- The constructor of the lite stream is not covered by `C86_lite`: if the disk is full when a new file gets its id or its padding, the part of the header
    that was written stays, and the file can never be opened again. -/
theorem C86_lite_header_violated : ∃ st st',
    (Toy.lite false 3).openF ⟨⟨[], 0⟩, [none, some ⟨28, 1⟩]⟩ = (.error (.vfs 28), ⟨st, []⟩) ∧ (Toy.lite false 3).openFile st = .error .invalidArg ∧
    (Toy.lite false 3).openF ⟨⟨[], 0⟩, [none, none, some ⟨28, 1⟩]⟩ = (.error (.vfs 28), ⟨st', []⟩) ∧
    (Toy.lite false 3).openFile st' = .error .invalidArg :=
  ⟨⟨[1], 1⟩, ⟨List.replicate 16 1 ++ [2], 2⟩, rfl, rfl, rfl, rfl⟩

/-- **C86 (full).**  The same for the full format, as long as the file is open. -/
theorem C86_full (C : FullCfg) (hC : C.WF) (st : FullSt) (c : Bytes) (hr : FullReached C st c)
    (plan : List (Option SysFault)) (calls : List Spec.FileCall) :
    ∃ f, Spec.Frail.Run C.bs ⟨c, fun _ => True⟩ (C.faultDev.run ⟨st, plan⟩ calls).1 f ∧
      (∀ call : Spec.FileCall, call.op.extent ≤ fullMaxBlocks * C.bs → f.determined C.bs call →
        (∀ i, call.covers C.bs f.content.length i → ¬ call.renews C.bs f.content.length i → f.intact i) →
        ∃ out F' f', C.faultDev.call call ⟨(C.faultDev.run ⟨st, plan⟩ calls).2.st, []⟩ = (.ok out, F') ∧ f.Step C.bs call (.ok out) f') := by
  obtain ⟨⟨H, hR⟩, _⟩ := hr.repr hC
  obtain ⟨f, h1, h2⟩ := (FullCfg.frame hC).run calls (F := ⟨st, plan⟩) (FullCfg.rel_init hC hR)
  refine ⟨f, h1, fun call hx hd hc => ?_⟩
  obtain ⟨out, st', h3⟩ := (FullCfg.frame hC).live FullCfg.calm (FullCfg.lively hC) h2 call hx hd hc
  obtain ⟨f', h4, _⟩ := (FullCfg.frame hC).step (F := ⟨_, []⟩) h2 call
  rw [h3] at h4
  exact ⟨out, _, f', h3, h4⟩

example : (Toy.full true).WF ∧ (∃ st, FullReached (Toy.full true) st (List.replicate 70 7)) ∧
    (Spec.FileCall.resize 10).covers 64 70 1 ∧ (Spec.FileCall.resize 10).renews 64 70 1 ∧
    (Spec.FileCall.resize 10).op.extent ≤ fullMaxBlocks * (Toy.full true).bs :=
  ⟨Toy.full_wf true, toy_full_reached true, by simp [Spec.FileCall.covers], by simp [Spec.FileCall.renews],
    by simp [Spec.FileCall.op, Spec.Op.extent, Toy.full, fullMaxBlocks]⟩

/-- A meta file with checksum `h`, no header, and `m` as the records of the blocks. -/
def Toy.metaFile (h : UInt8) (m : Bytes) : Bytes := List.replicate 32 h ++ zeros 36 ++ m

/-- A full-format file with one block, flushed. -/
def Toy.oneBlock : FullSt := ⟨List.replicate 64 7, ⟨Toy.metaFile 39 (List.replicate 12 1 ++ List.replicate 16 167), false⟩, 1⟩

/-- The same file after a second block was appended of whose record only five bytes were written. -/
def Toy.halfRecord : FullSt :=
  ⟨List.replicate 64 7 ++ List.replicate 64 1, ⟨Toy.metaFile 39 (List.replicate 12 1 ++ List.replicate 16 167 ++ List.replicate 5 2), false⟩, 2⟩

set_option maxRecDepth 100000 in
/-- C86 is violated by closing a file of the full format that is not marked as changed.  `HMACStream::write` marks it only after a write that succeeds: if
    the disk is full when a block is appended, and a part of its record has been written, flushing does nothing, and the file can never be opened again, although
    its first block is intact. -/
theorem C86_full_reopen_violated : ∃ st st1, FullReached (Toy.full false) st (List.replicate 64 7) ∧
    (Toy.full false).faultDev.write 64 (List.replicate 64 1) ⟨st, [none, none, some ⟨28, 5⟩]⟩ = (.error (.vfs 28), ⟨st1, []⟩) ∧
    ((Toy.full false).faultDev.read 0 64 ⟨st1, []⟩).1 = .ok (List.replicate 64 7) ∧
    (Toy.full false).flush st1 = .ok st1 ∧ (Toy.full false).openFile st1.data st1.metaS.file st1.rng = .error .hmac := by
  have hl : ∀ op ∈ [Spec.Op.write 0 (List.replicate 64 7), .reopen],
      op.extent ≤ fullMaxBlocks * (Toy.full false).bs := by
    simp [Spec.Op.extent, Toy.full, fullMaxBlocks]
  refine ⟨Toy.oneBlock, Toy.halfRecord, ⟨0, ⟨[], ⟨[], false⟩, 0⟩, _, [.done, .done], hl, ?_, ?_, ?_⟩, rfl, ?_, ?_, ?_⟩ <;> decide +kernel

/-- A full-format file with two blocks. -/
def Toy.twoBlocks : FullSt :=
  ⟨List.replicate 70 7, ⟨Toy.metaFile 0 (List.replicate 12 1 ++ List.replicate 16 167 ++ List.replicate 12 2 ++ List.replicate 16 235), true⟩, 2⟩

theorem Toy.twoBlocks_reached : FullReached (Toy.full true) Toy.twoBlocks (List.replicate 70 7) := by
  have hl : ∀ op ∈ [Spec.Op.write 0 (List.replicate 70 7)], op.extent ≤ fullMaxBlocks * (Toy.full true).bs := by
    simp [Spec.Op.extent, Toy.full, fullMaxBlocks]
  refine ⟨0, ⟨[], ⟨[], false⟩, 0⟩, _, [.done], hl, ?_, ?_, ?_⟩ <;> decide +kernel

/-- The same file after truncation of the data file alone. -/
def Toy.halfTruncated : FullSt :=
  ⟨List.replicate 10 7, ⟨Toy.metaFile 0 (List.replicate 12 3 ++ List.replicate 16 219 ++ List.replicate 12 2 ++ List.replicate 16 235), true⟩, 3⟩

set_option maxRecDepth 100000 in
/-- `C86_full` cannot say more of blocks behind the end of the file: after a truncation that fails between the two files, the same truncation succeeds without
    doing anything, and when the file grows again on a system with sparse files, a block that should be zeros cannot be read. -/
theorem C86_full_half_truncated : ∃ st st1 st2, FullReached (Toy.full true) st (List.replicate 70 7) ∧
    (Toy.full true).faultDev.resize 10 ⟨st, [none, none, none, none, none, none, some ⟨5, 0⟩]⟩ = (.error (.vfs 5), ⟨st1, []⟩) ∧
    (Toy.full true).faultDev.resize 10 ⟨st1, []⟩ = (.ok (), ⟨st1, []⟩) ∧
    (Toy.full true).faultDev.resize 100 ⟨st1, []⟩ = (.ok (), ⟨st2, []⟩) ∧
    ((Toy.full true).faultDev.read 64 32 ⟨st2, []⟩).1 = .error .verify := by
  refine ⟨Toy.twoBlocks, Toy.halfTruncated, ⟨List.replicate 10 7 ++ zeros 90,
    ⟨Toy.metaFile 0 (List.replicate 12 4 ++ List.replicate 16 11 ++ List.replicate 12 2 ++ List.replicate 16 235), true⟩, 4⟩,
    Toy.twoBlocks_reached, rfl, rfl, rfl, ?_⟩
  decide +kernel

/-- **C86, partial (full, closing).**  After any calls and failures, if the file is marked as changed: a flush that fails can be repeated, and after a flush
    that succeeds the file can be closed and opened again, with the same intact blocks.
    Missing: files that are not marked as changed, for which it is false (`C86_full_reopen_violated`). -/
theorem C86_full_reopen_partial (C : FullCfg) (hC : C.WF) (st : FullSt) (c : Bytes) (hr : FullReached C st c)
    (plan plan' : List (Option SysFault)) (calls : List Spec.FileCall)
    (hd : (C.faultDev.run ⟨st, plan⟩ calls).2.st.metaS.dirty = true) :
    ∃ f, Spec.Frail.Run C.bs ⟨c, fun _ => True⟩ (C.faultDev.run ⟨st, plan⟩ calls).1 f ∧
    ∃ st1 st2, C.flushF ⟨(C.flushF ⟨(C.faultDev.run ⟨st, plan⟩ calls).2.st, plan'⟩).2.st, []⟩ = (.ok (), ⟨st1, []⟩) ∧
      C.openFile st1.data st1.metaS.file st1.rng = .ok st2 ∧
      (∀ call : Spec.FileCall, call.op.extent ≤ fullMaxBlocks * C.bs → f.determined C.bs call →
        (∀ i, call.covers C.bs f.content.length i → ¬ call.renews C.bs f.content.length i → f.intact i) →
        ∃ out F' f', C.faultDev.call call ⟨st2, []⟩ = (.ok out, F') ∧ f.Step C.bs call (.ok out) f') := by
  obtain ⟨⟨H, hR⟩, _⟩ := hr.repr hC
  obtain ⟨f, h1, h2⟩ := (FullCfg.frame hC).run calls (F := ⟨st, plan⟩) (FullCfg.rel_init hC hR)
  refine ⟨f, h1, ?_⟩
  generalize (C.faultDev.run ⟨st, plan⟩ calls).2.st = stx at *
  obtain ⟨a1, a2, a3⟩ := FullCfg.flushF_dirty hC stx plan' hd
  generalize (C.flushF ⟨stx, plan'⟩).2.st = sty at *
  have key : ∃ st1, C.flushF ⟨sty, []⟩ = (.ok (), ⟨st1, []⟩) ∧ st1.data = sty.data ∧ st1.metaS.file.drop 32 = sty.metaS.file.drop 32 ∧
      HmacValid C.hm C.id st1.metaS.file := by
    by_cases hdy : sty.metaS.dirty = true
    · refine ⟨⟨sty.data, ⟨ufWrite sty.metaS.file 0 (C.hm (C.id ++ sty.metaS.file.drop 32)), false⟩, sty.rng⟩, ?_, rfl,
        FullCfg.flush_shape hC.hm_len _ _ (by rw [hC.hm_len]), FullCfg.flush_valid hC _⟩
      rw [FullCfg.flushF_calm]
      unfold FullCfg.flush hmacFlush
      rw [if_pos hdy]
      simp only [runMac_ok, bind, Except.bind]
    · refine ⟨sty, ?_, rfl, rfl, ?_⟩
      · unfold FullCfg.flushF
        rw [if_neg hdy]
      · rcases a3 with h | h
        · exact absurd h hdy
        · exact h
  obtain ⟨st1, k1, k2, k3, k4⟩ := key
  refine ⟨st1, ⟨st1.data, ⟨st1.metaS.file, false⟩, st1.rng⟩, k1, ?_, fun call hx hdt hc => ?_⟩
  · unfold FullCfg.openFile
    rw [hmacOpen_ok C.check k4]; rfl
  · have h5 : FaultFrame.Rel C.dev (fun _ => True) (FullCfg.GoodF C) ⟨st1.data, ⟨st1.metaS.file, false⟩, st1.rng⟩ f := by
      refine ⟨trivial, ?_, fun i hi => FullCfg.good_drop (st := stx) (by dsimp only; rw [k2, a1]) (by dsimp only; rw [k3, a2]) (h2.2.2 i hi)⟩
      show st1.data.length = _
      rw [k2, a1]; exact h2.2.1
    obtain ⟨out, st', h3⟩ := (FullCfg.frame hC).live FullCfg.calm (FullCfg.lively hC) h5 call hx hdt hc
    obtain ⟨f', h4, _⟩ := (FullCfg.frame hC).step (F := ⟨_, []⟩) h5 call
    rw [h3] at h4
    exact ⟨out, _, f', h3, h4⟩

/-- A write marks the file as changed; then a truncation fails between the two files. -/
example : (Toy.full true).WF ∧ ∃ st, FullReached (Toy.full true) st (List.replicate 70 7) ∧
    ((Toy.full true).faultDev.run ⟨st, [none, none, none, none, none, none, some ⟨5, 0⟩]⟩ [.resize 10]).2.st.metaS.dirty = true :=
  ⟨Toy.full_wf true, Toy.twoBlocks, Toy.twoBlocks_reached, by decide +kernel⟩

end Securefs.Props

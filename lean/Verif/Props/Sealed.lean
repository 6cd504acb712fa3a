import Verif.Proofs.SealedLiteIv
import Verif.Proofs.SealedFullRun
import Verif.Props.Toy
/-!
# C95, C96: what the storage shows, and that no IV is used twice

C95 has the form of a simulation: the stored bytes of a file are put together from the contents and from
IVs (and holes) that are the same for all histories of one shape, that is, for all histories with the same
calls at the same positions with the same lengths.  The contents go only into the cipher, and a file of the
full format into the MAC over it.

C96: two blocks (or a block and the header of a file of the full format) that were ever stored under one IV
are the same block with the same bytes, provided the generator of random numbers does not repeat itself.
-/

namespace Securefs.Props
open Securefs

/-! ## C95 -/

/-- C95: a file of the lite format is its header, and for every block either zeros or IV, ciphertext and
    tag.  Header, IVs and which blocks are holes depend on the positions and lengths of the calls only. -/
theorem C95_lite_simulated {C : LiteCfg} (hC : C.WF) (n : Nat) (calls : List Spec.Op) (hlim : ∀ op ∈ calls, op.extent ≤ liteMaxBlocks * C.bs) :
    ∃ o ivs, ∀ ops : List Spec.Op, ops.map Spec.Op.shape = calls.map Spec.Op.shape →
      ∃ p st, C.openFile ⟨[], n⟩ = .ok p ∧ C.stream.run p ops = .ok ((o, st), (Spec.run [] ops).2) ∧
        st.file = Spec.render C.bs (C.ivSize + 16)
          (fun k iv pt => iv ++ ((C.gcm o.id).enc iv (le32 k ++ o.pad) pt).1 ++ ((C.gcm o.id).enc iv (le32 k ++ o.pad) pt).2)
          (o.id ++ o.pad) ivs (Spec.run [] ops).1 ∧
        Spec.HolesZero C.bs ivs (Spec.run [] ops).1 := by
  obtain ⟨⟨o, st0⟩, h0, hR0⟩ := LiteCfg.openFile_empty_strict hC n
  have hI0 := LiteCfg.ivInv_new hR0.1
  obtain ⟨b, hb1, hb2, hb3, _⟩ := LiteCfg.run_ivs hC calls hR0 hI0 hlim
  refine ⟨o, C.ivsOf o b.file, fun ops hs => ?_⟩
  have hlim' : ∀ op ∈ ops, op.extent ≤ liteMaxBlocks * C.bs := by
    intro op hop
    obtain ⟨op', h1, h2⟩ : ∃ op' ∈ calls, op'.shape = op.shape := by
      have : op.shape ∈ calls.map Spec.Op.shape := by rw [← hs]; exact List.mem_map_of_mem hop
      simpa using this
    rw [← shape_extent h2]
    exact hlim op' h1
  obtain ⟨a, ha1, ha2, ha3, _⟩ := LiteCfg.run_ivs hC ops hR0 hI0 hlim'
  have hT := LiteCfg.run_twin hC ops calls ⟨rfl, rfl, fun _ _ => rfl⟩ hR0 hR0 rfl hs hlim' ha1 hb1
  have hiv : C.ivsOf o a.file = C.ivsOf o b.file := by
    funext k
    unfold LiteCfg.ivsOf
    rw [LiteCfg.ivAt_agree hT.2]
  obtain ⟨r1, r2⟩ := LiteCfg.render_of_repr hC ha2.1 ha3.nonzero
  rw [hiv] at r1 r2
  exact ⟨(o, st0), a, h0, ha1, r1, r2⟩

/-- C95: the two files of the full format are ciphertexts, IVs and tags, and the MAC over the second file.
    Lengths, IVs and which blocks are holes depend on the positions and lengths of the calls only. -/
theorem C95_full_simulated {C : FullCfg} (hC : C.WF) (n : Nat) (calls : List Spec.HOp)
    (hlim : ∀ op ∈ calls, op.within (fullMaxBlocks * C.bs) C.headerSize) (hhf : Spec.headerFirst false calls) :
    ∃ ivs hiv len, ∀ ops : List Spec.HOp, ops.map Spec.HOp.shape = calls.map Spec.HOp.shape →
      ∃ p st f, C.openFile [] [] n = .ok p ∧ f = (Spec.hrun C.headerSize ⟨[], none⟩ ops).1 ∧
        C.hrun p ops = .ok (st, (Spec.hrun C.headerSize ⟨[], none⟩ ops).2) ∧
        st.metaS.file.length = len ∧
        st.data = Spec.render C.bs 0 (fun _ iv pt => (C.gcm.enc iv C.id pt).1) [] ivs f.content ∧
        ((st.metaS.file.drop 32 = [] ∧ f = ⟨[], none⟩) ∨
          st.metaS.file.drop 32 = (match f.header with
            | none => List.replicate (C.headerSize + C.ivSize + 16) 0
            | some h => hiv ++ (C.gcm.enc hiv C.id h).2 ++ (C.gcm.enc hiv C.id h).1) ++
            Spec.entries C.bs (C.ivSize + 16) (fun iv pt => (C.gcm.enc iv C.id pt).2) ivs f.content) ∧
        (st.metaS.dirty = false → st.metaS.file = [] ∨ st.metaS.file.take 32 = C.hm (C.id ++ st.metaS.file.drop 32)) ∧
        Spec.HolesZero C.bs ivs f.content := by
  obtain ⟨st0, h0, hR0, hI0⟩ := FullCfg.openFile_empty_strict n hC
  obtain ⟨b, hb1, hb2, hb3, _⟩ := FullCfg.hrun_sealed hC calls hR0 hI0 hlim hhf
  refine ⟨C.ivsOf (C.parts b), (b.metaS.file.drop 32).take C.ivSize, b.metaS.file.length, fun ops hs => ?_⟩
  have hlim' : ∀ op ∈ ops, op.within (fullMaxBlocks * C.bs) C.headerSize := by
    intro op hop
    obtain ⟨op', h1, h2⟩ : ∃ op' ∈ calls, op'.shape = op.shape := by
      have : op.shape ∈ calls.map Spec.HOp.shape := by rw [← hs]; exact List.mem_map_of_mem hop
      simpa using this
    exact FullCfg.hshape_within h2 (hlim op' h1)
  have hhf' := FullCfg.headerFirst_shape hs.symm hhf
  obtain ⟨a, ha1, ha2, ha3, _⟩ := FullCfg.hrun_sealed hC ops hR0 hI0 hlim' hhf'
  have hT := FullCfg.hrun_twin hC ops calls ⟨rfl, rfl, rfl, rfl, fun _ _ => rfl⟩ hR0 hR0 hI0 hI0 rfl rfl hs hlim' hhf' ha1 hb1
  obtain ⟨r1, r2, r3⟩ := FullCfg.render_of_repr hC ha2 ha3
  rw [FullCfg.ivsOf_twin hT] at r1 r2 r3
  rw [FullCfg.hdr_twin hT] at r2
  refine ⟨st0, a, _, h0, rfl, ha1, hT.shown.1, r1, r2, fun hd => ?_, r3⟩
  obtain ⟨H, hR, _⟩ := ha2
  rcases hR.valid hd with h | h
  · exact Or.inl h
  · exact Or.inr h.2

/-- Two histories of one shape, with different contents: a write over three blocks, a write far behind the
    end, a cut, and a reading. -/
def calls1 (x y : UInt8) : List Spec.Op :=
  [.write 0 (List.replicate 70 x), .write 200 [y, x], .resize 33, .read 0 40, .reopen, .write 1 [y]]

/-- The hypotheses of `C95_lite_simulated` hold for both, and they leave different files. -/
example : (Toy.lite true 3).WF ∧ (∀ op ∈ calls1 0 0, op.extent ≤ liteMaxBlocks * (Toy.lite true 3).bs) ∧
    (calls1 1 2).map Spec.Op.shape = (calls1 0 0).map Spec.Op.shape ∧
    (match (Toy.lite true 3).openFile ⟨[], 0⟩ with
      | .ok p => (match (Toy.lite true 3).stream.run p (calls1 1 2), (Toy.lite true 3).stream.run p (calls1 3 4) with
        | .ok q, .ok r => decide (q.1.2.file ≠ r.1.2.file ∧ q.1.2.file.length = r.1.2.file.length)
        | _, _ => false)
      | _ => false) = true := by
  refine ⟨Toy.lite_wf _ _, ?_, rfl, by decide +kernel⟩
  intro op hop
  simp only [calls1, List.mem_cons, List.not_mem_nil, or_false] at hop
  rcases hop with rfl | rfl | rfl | rfl | rfl | rfl <;> simp [Spec.Op.extent, liteMaxBlocks, Toy.lite]

/-- The same with a header. -/
def hcalls1 (x y : UInt8) : List Spec.HOp :=
  .file (.resize 300) :: .writeHeader [x, y] :: .readHeader 2 :: .flush :: (calls1 x y).map .file ++ [.writeHeader [y], .flush]

/-- The hypotheses of `C95_full_simulated` hold for both, and they leave different files. -/
example : (Toy.full true).WF ∧ (∀ op ∈ hcalls1 0 0, op.within (fullMaxBlocks * (Toy.full true).bs) (Toy.full true).headerSize) ∧
    Spec.headerFirst false (hcalls1 0 0) ∧ (hcalls1 1 2).map Spec.HOp.shape = (hcalls1 0 0).map Spec.HOp.shape ∧
    (match (Toy.full true).openFile [] [] 0 with
      | .ok p => (match (Toy.full true).hrun p (hcalls1 1 2), (Toy.full true).hrun p (hcalls1 3 4) with
        | .ok q, .ok r => decide (q.1.data ≠ r.1.data ∧ q.1.metaS.file ≠ r.1.metaS.file ∧ q.1.metaS.file.length = r.1.metaS.file.length)
        | _, _ => false)
      | _ => false) = true := by
  refine ⟨Toy.full_wf _, ?_, ?_, rfl, by decide +kernel⟩
  · intro op hop
    simp only [hcalls1, calls1, List.map_cons, List.map_nil, List.cons_append, List.nil_append, List.mem_cons, List.not_mem_nil, or_false] at hop
    rcases hop with rfl | rfl | rfl | rfl | rfl | rfl | rfl | rfl | rfl | rfl | rfl | rfl <;>
      simp [Spec.HOp.within, Spec.Op.extent, fullMaxBlocks, Toy.full]
  · simp [hcalls1, calls1, Spec.headerFirst]

/-! ## C96 -/

/-- C96: in a file of the lite format no IV is ever used for two blocks, nor twice for one block with
    different contents. -/
theorem C96_lite_iv_once {C : LiteCfg} (hC : C.WF) (n : Nat) (pre mid : List Spec.Op)
    (hlim : ∀ op ∈ pre ++ mid, op.extent ≤ liteMaxBlocks * C.bs) :
    ∃ p o st1 st2, C.openFile ⟨[], n⟩ = .ok p ∧ C.stream.run p pre = .ok ((o, st1), (Spec.run [] pre).2) ∧
      C.stream.run (o, st1) mid = .ok ((o, st2), (Spec.run (Spec.run [] pre).1 mid).2) ∧
      ((∀ i j, i < st2.rng → j < st2.rng → C.rng.draw i C.ivSize = C.rng.draw j C.ivSize → i = j) →
        Spec.IvOnce (fun k => Spec.cut st1.file (o.headerSize + k * (C.ivSize + C.bs + 16)) C.ivSize)
          (fun k => Spec.cut st1.file (o.headerSize + k * (C.ivSize + C.bs + 16)) (C.ivSize + C.bs + 16))
          (fun k => Spec.cut st2.file (o.headerSize + k * (C.ivSize + C.bs + 16)) C.ivSize)
          (fun k => Spec.cut st2.file (o.headerSize + k * (C.ivSize + C.bs + 16)) (C.ivSize + C.bs + 16))) := by
  obtain ⟨⟨o, st0⟩, h0, hR0⟩ := LiteCfg.openFile_empty_strict hC n
  have hI0 := LiteCfg.ivInv_new hR0.1
  obtain ⟨st1, h1, hR1, hI1, _⟩ := LiteCfg.run_ivs hC pre hR0 hI0 fun op h => hlim op (by simp [h])
  obtain ⟨st2, h2, hR2, hI2, hL⟩ := LiteCfg.run_ivs hC mid hR1 hI1 fun op h => hlim op (by simp [h])
  refine ⟨_, o, st1, st2, h0, h1, h2, fun hd => ?_⟩
  have hu : C.ubs = C.ivSize + C.bs + 16 := by rw [LiteCfg.ubs_eq]; omega
  have e1 : ∀ (f : Bytes) k, Spec.cut f (o.headerSize + k * (C.ivSize + C.bs + 16)) (C.ivSize + C.bs + 16) = C.blockAt o f k := by
    intro f k; rw [← hu]; rfl
  have e2 : ∀ (f : Bytes) k, Spec.cut f (o.headerSize + k * (C.ivSize + C.bs + 16)) C.ivSize = C.ivAt o f k := by
    intro f k
    rw [← hu]
    unfold LiteCfg.ivAt LiteCfg.blockAt
    rw [List.take_take, Nat.min_eq_left (by omega)]
    rfl
  intro k k' hk hk' he
  dsimp only at hk hk' he ⊢
  rw [e1] at hk hk'
  rw [e2, e2] at he
  rw [e1, e1]
  rcases hL.blk k' hk' with h | ⟨i, i1, i2, i3⟩
  · have he' : C.ivAt o st1.file k = C.ivAt o st1.file k' := by
      rw [he]; unfold LiteCfg.ivAt; rw [h]
    have := hI1.once (LiteCfg.DrawsDiffer.mono hd hL.rng) k k' hk (by rw [← h]; exact hk') he'
    subst this
    exact ⟨rfl, h.symm⟩
  · obtain ⟨j, _, j2, j3⟩ := hI1.drawn k hk
    rw [j3, i3] at he
    have := hd j i (by have := hL.rng; omega) i2 he
    omega

/-- The draws of the toy generator differ, for long enough. -/
theorem toy_draws {i j : Nat} (hi : i < 100) (hj : j < 100) (h : Toy.rng.draw i 12 = Toy.rng.draw j 12) : i = j := by
  have h1 : UInt8.ofNat (i + 1) = UInt8.ofNat (j + 1) := by
    have := congrArg List.head? h
    simpa [Toy.rng] using this
  have h2 := congrArg UInt8.toNat h1
  simp only [UInt8.toNat_ofNat'] at h2
  omega

/-- A history in which the premise of `C96_lite_iv_once` on the draws holds, and blocks are encrypted before
    and after. -/
example : (match (Toy.lite true 3).openFile ⟨[], 0⟩ with
      | .ok p => (match (Toy.lite true 3).stream.run p (calls1 1 2) with
        | .ok q => (match (Toy.lite true 3).stream.run q.1 (calls1 3 4) with
          | .ok r => decide (q.1.2.rng < r.1.2.rng ∧ r.1.2.rng < 100 ∧ q.1.2.file.length = 108 ∧ r.1.2.file.length = 108 ∧
              Spec.cut q.1.2.file 79 12 ≠ Spec.cut r.1.2.file 79 12 ∧ (Spec.cut r.1.2.file 79 60).all (· == 0) = false)
          | _ => false)
        | _ => false)
      | _ => false) = true := by decide +kernel

/-- The place of the header (`none`) and of the blocks in a metadata file of the full format. -/
def metaPlace (C : FullCfg) : Option Nat → Nat
  | none => 32
  | some k => 32 + (C.headerSize + C.ivSize + 16) + k * (C.ivSize + 16)

/-- What is stored for the header (`none`) and for a block: its piece of the metadata file and its data. -/
def storedAt (C : FullCfg) (st : FullSt) : Option Nat → Bytes
  | none => Spec.cut st.metaS.file 32 (C.headerSize + C.ivSize + 16)
  | some k => Spec.cut st.metaS.file (32 + (C.headerSize + C.ivSize + 16) + k * (C.ivSize + 16)) (C.ivSize + 16) ++ Spec.cut st.data (k * C.bs) C.bs

/-- C96: in a file of the full format no IV is ever used for two blocks, for the header and a block, or
    twice for one of them with different contents. -/
theorem C96_full_iv_once {C : FullCfg} (hC : C.WF) (n : Nat) (pre mid : List Spec.HOp)
    (hlim : ∀ op ∈ pre ++ mid, op.within (fullMaxBlocks * C.bs) C.headerSize)
    (hf1 : Spec.headerFirst false pre) (hf2 : Spec.headerFirst (Spec.hrun C.headerSize ⟨[], none⟩ pre).1.header.isSome mid) :
    ∃ p st1 st2, C.openFile [] [] n = .ok p ∧ C.hrun p pre = .ok (st1, (Spec.hrun C.headerSize ⟨[], none⟩ pre).2) ∧
      C.hrun st1 mid = .ok (st2, (Spec.hrun C.headerSize (Spec.hrun C.headerSize ⟨[], none⟩ pre).1 mid).2) ∧
      ((∀ i j, i < st2.rng → j < st2.rng → C.rng.draw i C.ivSize = C.rng.draw j C.ivSize → i = j) →
        Spec.IvOnce (fun s => Spec.cut st1.metaS.file (metaPlace C s) C.ivSize) (storedAt C st1)
          (fun s => Spec.cut st2.metaS.file (metaPlace C s) C.ivSize) (storedAt C st2)) := by
  obtain ⟨st0, h0, hR0, hI0⟩ := FullCfg.openFile_empty_strict n hC
  obtain ⟨st1, h1, hR1, hI1, _⟩ := FullCfg.hrun_sealed hC pre hR0 hI0 (fun op h => hlim op (by simp [h])) hf1
  obtain ⟨st2, h2, hR2, hI2, hL⟩ := FullCfg.hrun_sealed hC mid hR1 hI1 (fun op h => hlim op (by simp [h])) hf2
  refine ⟨_, st1, st2, h0, h1, h2, fun hd => ?_⟩
  have hms : C.metaSize = C.ivSize + 16 := rfl
  have heh : C.encHeaderSize = C.headerSize + C.ivSize + 16 := rfl
  -- what is stored is what the invariant speaks of
  have hst : ∀ {st : FullSt} {f : Spec.HFile}, FullCfg.SHRepr C st f → ∀ s, allZeros (storedAt C st s) = false →
      C.slot (C.parts st) s = storedAt C st s ∧ C.iv (C.parts st) s = Spec.cut st.metaS.file (metaPlace C s) C.ivSize := by
    intro st f hR s hs
    obtain ⟨H, hR, _⟩ := hR
    cases s with
    | none =>
      unfold storedAt Spec.cut at hs
      unfold FullCfg.slot FullCfg.iv FullCfg.parts storedAt metaPlace Spec.cut
      dsimp only at hs ⊢
      rcases hR.pl with ⟨_, h⟩ | h
      · rw [h] at hs; simp [allZeros] at hs
      · rw [FullCfg.payload_of_le (C := C) h, List.take_take, heh, Nat.min_eq_left (by omega)]
        exact ⟨rfl, rfl⟩
    | some k =>
      unfold FullCfg.slot FullCfg.iv FullCfg.parts storedAt metaPlace Spec.cut
      dsimp only
      rw [FullCfg.payload_drop, FullCfg.payload_drop, heh, hms]
      exact ⟨rfl, rfl⟩
  intro s s' hs hs' he
  obtain ⟨a1, a2⟩ := hst hR1 s hs
  obtain ⟨b1, b2⟩ := hst hR2 s' hs'
  have hz1 : allZeros (C.slot (C.parts st1) s) = false := by rw [a1]; exact hs
  have hz2 : allZeros (C.slot (C.parts st2) s') = false := by rw [b1]; exact hs'
  dsimp only at he
  rw [← a2, ← b2] at he
  rw [← a1, ← b1]
  rcases hL.blk s' hz2 with ⟨h, hi⟩ | ⟨i, i1, i2, i3⟩
  · rw [hi] at he
    have := hI1.once (FullCfg.DrawsDiffer.mono hd hL.rng) s s' hz1 (by rw [← h]; exact hz2) he
    subst this
    exact ⟨rfl, h.symm⟩
  · obtain ⟨j, _, j2, j3⟩ := hI1.drawn s hz1
    rw [j3, i3] at he
    have hr := hL.rng
    have := hd j i (Nat.lt_of_lt_of_le j2 hr) i2 he
    omega

/-- A history in which the premise of `C96_full_iv_once` on the draws holds, and header and blocks are
    encrypted before and after. -/
example : Spec.headerFirst false (hcalls1 1 2) ∧ Spec.headerFirst (Spec.hrun 8 ⟨[], none⟩ (hcalls1 1 2)).1.header.isSome (hcalls1 3 4) ∧
    (match (Toy.full true).openFile [] [] 0 with
      | .ok p => (match (Toy.full true).hrun p (hcalls1 1 2) with
        | .ok q => (match (Toy.full true).hrun q.1 (hcalls1 3 4) with
          | .ok r => decide (q.1.rng < r.1.rng ∧ r.1.rng < 100 ∧ (storedAt (Toy.full true) q.1 none).all (· == 0) = false ∧
              (storedAt (Toy.full true) r.1 none).all (· == 0) = false ∧ (storedAt (Toy.full true) q.1 (some 0)).all (· == 0) = false ∧
              (storedAt (Toy.full true) r.1 (some 0)).all (· == 0) = false)
          | _ => false)
        | _ => false)
      | _ => false) = true := by
  refine ⟨by simp [hcalls1, calls1, Spec.headerFirst], by simp [hcalls1, calls1, Spec.headerFirst], by decide +kernel⟩

end Securefs.Props

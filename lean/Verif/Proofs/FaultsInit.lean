import Verif.Proofs.FaultsLive
/-! The start and the end of histories with failing calls: intact files, reopening. -/

namespace Securefs

/-- A further invariant. -/
theorem FaultFrame.strengthen {σ : Type} {D : FaultDev σ} {P : BlockDev σ} {Inv Inv' : σ → Prop} {Good : σ → Nat → Bytes → Prop} {maxB : Nat}
    (H : FaultFrame D P Inv Good maxB)
    (hw : ∀ {s e r inp F}, Inv F.st → Inv' F.st → s * P.bs ≤ P.size F.st → Inv' (D.writeMulti s e r inp F).2.st)
    (ha : ∀ {n F}, Inv F.st → Inv' F.st → Inv' (D.adjust n F).2.st) : FaultFrame D P (fun st => Inv st ∧ Inv' st) Good maxB where
  bs_pos := H.bs_pos
  bs_eq := H.bs_eq
  sparse_eq := H.sparse_eq
  size_sim := H.size_sim
  read_sim := H.read_sim
  write_sim := H.write_sim
  adjust_sim := H.adjust_sim
  write_inv h hs := ⟨H.write_inv h.1 hs, hw h.1 h.2 hs⟩
  adjust_inv h := ⟨H.adjust_inv h.1, ha h.1 h.2⟩
  read_len h := H.read_len h.1
  good_len h := H.good_len h.1
  good_read h := H.good_read h.1
  good_reads h := H.good_reads h.1
  write_frame h := H.write_frame h.1
  write_size h := H.write_size h.1
  write_full h := H.write_full h.1
  write_last h := H.write_last h.1
  shrink_last h := H.shrink_last h.1
  adjust_frame h := H.adjust_frame h.1
  adjust_size h := H.adjust_size h.1
  adjust_gone h := H.adjust_gone h.1
  adjust_zero h := H.adjust_zero h.1
  adjust_keep h := H.adjust_keep h.1

namespace LiteCfg
variable {C : LiteCfg} {o : LiteObj}

/-- The header is that of the object. -/
def HdrL (o : LiteObj) (st : LiteSt) : Prop := st.file.take o.headerSize = o.id ++ o.pad

/-- The file that is left by a failing or succeeding call begins with the same header. -/
theorem frameH (hC : C.WF) : FaultFrame (C.faultDev o) (C.dev o) (fun st => InvL o st ∧ HdrL o st) (GoodL C o) liteMaxBlocks := by
  have hU := ubs_pos hC
  refine (frame hC).strengthen ?_ ?_
  · intro s e r inp F hI hH hs
    have hs' : s * C.bs ≤ C.size o F.st := hs
    show HdrL o (C.writeMultiF o s e r inp F).2.st
    have hst : C.ubs * s + o.headerSize ≤ F.st.file.length := by
      rw [size_body hC hI] at hs'
      have := start_le hC hs'
      unfold InvL at hI; omega
    have key : ∀ out : Bytes, (ufWrite F.st.file (s * C.ubs + o.headerSize) out).take o.headerSize = F.st.file.take o.headerSize := by
      intro out
      rw [Nat.mul_comm, ufWrite_splice _ _ _ hst]
      unfold splice
      rw [List.append_assoc, List.take_append_of_le_length (by rw [List.length_take]; omega), List.take_take, Nat.min_eq_left (by omega)]
    unfold writeMultiF
    split
    · exact hH
    split
    · exact hH
    · rename_i q hq
      unfold HdrL
      rcases sys_st (w := fun st : LiteSt => ((), { st with file := ufWrite st.file (s * C.ubs + o.headerSize) q.1 }))
          (g := fun k st => { st with file := ufWrite st.file (s * C.ubs + o.headerSize) (q.1.take k) }) (F := ⟨{ F.st with rng := q.2 }, F.plan⟩) with h | ⟨k, h⟩
      · rw [h]; dsimp only; rw [key]; exact hH
      · rw [h]; dsimp only; rw [key]; exact hH
  · intro n F hI hH
    show HdrL o (C.adjustF o n F).2.st
    unfold adjustF
    unfold InvL at hI
    unfold HdrL
    rcases sys_st (w := fun st : LiteSt => ((), { st with file := ufResize st.file (C.underlyingSize o n) }))
        (g := fun _ st => st) (F := F) with h | ⟨k, h⟩
    · rw [h]; dsimp only
      rw [underlyingSize_eq]
      unfold ufResize
      rw [List.take_append_of_le_length (by rw [List.length_take]; omega), List.take_take, Nat.min_eq_left (by omega)]
      exact hH
    · rw [h]; exact hH

theorem rel_init (hC : C.WF) {st : LiteSt} {c : Bytes} (hR : Repr C o st c) :
    FaultFrame.Rel (C.dev o) (fun st => InvL o st ∧ HdrL o st) (GoodL C o) st ⟨c, fun _ => True⟩ := by
  have hb : 0 < C.bs := by have := hC.bs_ge; omega
  refine ⟨⟨hR.hdr_le, hR.header⟩, dev_size hC hR, fun i _ => ?_⟩
  show Good1 C o i (region C o st.file i) (Spec.block C.bs c i)
  have e1 : region C o st.file i = ((st.file.drop o.headerSize).drop (i * (C.bs + (C.ivSize + 16)))).take (C.bs + (C.ivSize + 16)) := by
    unfold region ufRead
    rw [List.drop_drop, ubs_eq, Nat.mul_comm]
  have hl := region_length (C := C) (o := o) st.file i
  rw [hR.len, Nat.add_sub_cancel_left] at hl
  rw [Nat.mul_comm, ubs_eq, ← encLen_sub hb, ← encLen_bs (ov := C.ivSize + 16) hb, ← encLen_min hb, encLen_sized hb (Nat.min_le_left _ _)] at hl
  have hbl := FaultFrame.block_length C.bs c i
  rw [← hbl] at hl
  by_cases h0 : Spec.block C.bs c i = []
  · left
    refine ⟨h0, List.eq_nil_of_length_eq_zero ?_⟩
    rw [hl, h0]; rfl
  · right
    have hpos : 0 < (Spec.block C.bs c i).length := List.length_pos_iff.2 h0
    rw [if_neg (by omega)] at hl
    refine ⟨h0, hl, ?_⟩
    have := hR.enc.blk i (by omega)
    rw [e1]
    rw [Nat.zero_add] at this
    exact this

/-- Opening without failures. -/
theorem openF_calm (C : LiteCfg) (st : LiteSt) : match C.openFile st with
    | .ok (o', st') => C.openF ⟨st, []⟩ = (.ok o', ⟨st', []⟩)
    | .error e => (C.openF ⟨st, []⟩).1 = .error e := by
  unfold LiteCfg.openFile LiteCfg.openF
  by_cases h1 : C.ivSize < 12 ∨ C.ivSize > 32
  · rw [if_pos h1, if_pos h1]; rfl
  rw [if_neg h1, if_neg h1]
  by_cases h2 : C.bs < 32
  · rw [if_pos h2, if_pos h2]; rfl
  rw [if_neg h2, if_neg h2]
  simp only [FIO.bind, FIO.sys]
  by_cases h3 : (ufRead st.file 0 16).length = 0
  · rw [if_pos h3, if_pos h3]
    by_cases h4 : C.padding (C.rng.draw st.rng 16) = 0
    · rw [if_pos h4]
      simp only [FIO.step, FIO.bind, FIO.sys, FIO.ret]
      rw [if_pos h4]
      rfl
    · rw [if_neg h4]
      simp only [FIO.step, FIO.bind, FIO.sys, FIO.ret]
      rw [if_neg h4]
      rfl
  · rw [if_neg h3, if_neg h3]
    by_cases h5 : (ufRead st.file 0 16).length ≠ 16
    · rw [if_pos h5, if_pos h5]; rfl
    rw [if_neg h5, if_neg h5]
    by_cases h4 : C.padding (ufRead st.file 0 16) = 0
    · rw [if_pos h4, if_pos h4]; rfl
    · rw [if_neg h4, if_neg h4]
      simp only [FIO.bind, FIO.sys]
      by_cases h6 : (ufRead st.file 16 (C.padding (ufRead st.file 0 16))).length ≠ C.padding (ufRead st.file 0 16)
      · rw [if_pos h6, if_pos h6]; rfl
      · rw [if_neg h6, if_neg h6]; rfl

/-- Opening needs only the header. -/
theorem openFile_hdr (hC : C.WF) {st : LiteSt} (hI : InvL o st) (hH : HdrL o st) (hid : o.id.length = 16)
    (hp : o.pad.length = C.padding o.id) : C.openFile st = .ok (o, st) := by
  unfold InvL LiteObj.headerSize at hI
  unfold HdrL LiteObj.headerSize at hH
  have hf : st.file = o.id ++ o.pad ++ st.file.drop (16 + o.pad.length) := by
    rw [← hH, List.take_append_drop]
  have h1 : ufRead st.file 0 16 = o.id := by
    rw [ufRead, List.drop_zero, hf, ← hid, List.append_assoc, List.take_left]
  have h2 : ufRead st.file 16 o.pad.length = o.pad := by
    rw [ufRead, hf, ← hid, List.append_assoc, List.drop_left, List.take_left]
  unfold openFile
  rw [if_neg (by have := hC.iv_ge; have := hC.iv_le; omega),
    if_neg (by have := hC.bs_ge; omega)]
  simp only [h1, hid]
  rw [if_neg (by omega), if_neg (by simp)]
  rw [hp] at h2
  simp only [h2]
  obtain ⟨id, pad⟩ := o
  dsimp only at *
  split
  · have : pad = [] := List.eq_nil_of_length_eq_zero (by omega)
    subst this
    rfl
  · rw [if_neg (by omega)]

end LiteCfg

namespace FullCfg
variable {C : FullCfg}

theorem rel_init (hC : C.WF) {st : FullSt} {hd : Bool} {H c : Bytes} (hR : Repr C hd H st c) :
    FaultFrame.Rel C.dev (fun _ => True) (GoodF C) st ⟨c, fun _ => True⟩ := by
  have hb := hC.bs_pos
  have hms := ms_pos (C := C)
  obtain ⟨m, hp, hE⟩ := hR.enc
  refine ⟨trivial, hE.dlen, fun i _ => ?_⟩
  show GoodF C st i (Spec.block C.bs c i)
  have em : mreg C st.metaS.file i = (m.drop (i * C.metaSize)).take C.metaSize := by
    have h1 : (C.payload st).drop (C.metaPos i) = m.drop (i * C.metaSize) := by
      rw [hp]; unfold metaPos
      rw [← hR.hlen, List.drop_length_add_append, Nat.mul_comm]
    have h2 : st.metaS.file.drop (C.metaPos i + 32) = (C.payload st).drop (C.metaPos i) := by
      unfold payload metaPos
      rw [Nat.add_comm _ 32, ← List.drop_drop]
      generalize st.metaS.file.drop 32 = P
      apply List.ext_getElem?
      intro i
      simp only [List.getElem?_drop, List.getElem?_append, zeros_getElem?]
      list_cases
    unfold mreg ufRead
    rw [h2, h1]
  have ed : dreg C st.data i = (st.data.drop (i * C.bs)).take C.bs := rfl
  have hdl := dreg_length (C := C) st.data i
  rw [hE.dlen, ← FaultFrame.block_length] at hdl
  have hbl := FaultFrame.block_length C.bs c i
  unfold GoodF
  rw [em]
  by_cases h0 : Spec.block C.bs c i = []
  · have hle : c.length ≤ i * C.bs := by
      have := congrArg List.length h0
      rw [hbl, List.length_nil] at this; omega
    have hmn : (m.drop (i * C.metaSize)).take C.metaSize = [] := by
      rw [List.drop_eq_nil_of_le, List.take_nil]
      rw [hE.mlen]
      exact Nat.mul_le_mul_right _ (nblk_le_iff hb hle)
    rw [hmn, pad_nil]
    exact ⟨.inl rfl, .inl ⟨h0, List.eq_nil_of_length_eq_zero (by rw [hdl, h0]; rfl), rfl⟩⟩
  · have hpos : 0 < (Spec.block C.bs c i).length := List.length_pos_iff.2 h0
    have hlt := nblk_lt (C := C) hb (show i * C.bs < c.length by omega)
    have hml : ((m.drop (i * C.metaSize)).take C.metaSize).length = C.metaSize := by
      have := Nat.mul_le_mul_right C.metaSize (show i + 1 ≤ nblk C.bs c.length from hlt)
      rw [Nat.add_mul, ← hE.mlen] at this
      rw [List.length_take, List.length_drop]; omega
    refine ⟨.inr hml, .inr ⟨h0, hdl, ?_⟩⟩
    rw [pad_full hml]
    exact hE.blk i (by omega)

/-- The meta file with a new authentication code. -/
theorem flush_shape (hm : ∀ m, (C.hm m).length = 32) (f : Bytes) (h : Bytes) (hl : h.length ≤ 32) :
    (ufWrite f 0 h).drop 32 = f.drop 32 := by
  rw [LiteCfg.ufWrite_splice _ _ _ (by omega)]
  unfold splice
  apply List.ext_getElem?
  intro i
  simp only [List.take_zero, List.nil_append, List.getElem?_drop, List.getElem?_append, Nat.zero_add]
  list_cases

theorem flush_valid (hC : C.WF) (f : Bytes) : HmacValid C.hm C.id (ufWrite f 0 (C.hm (C.id ++ f.drop 32))) := by
  right
  have hl := hC.hm_len (C.id ++ f.drop 32)
  refine ⟨?_, ?_⟩
  · rw [uw_length _ _ _ (by omega)]; omega
  · rw [flush_shape hC.hm_len _ _ (by omega), LiteCfg.ufWrite_splice _ _ _ (by omega)]
    unfold splice
    rw [List.take_zero, List.nil_append, List.take_append_of_le_length (by omega), List.take_of_length_le (by omega)]

/-- Blocks are not affected by what is in front of the header. -/
theorem good_drop {st st' : FullSt} {i : Nat} {p : Bytes} (hd : st'.data = st.data) (hm : st'.metaS.file.drop 32 = st.metaS.file.drop 32)
    (hg : GoodF C st i p) : GoodF C st' i p := by
  refine hg.of (by rw [hd]) (.inl ?_)
  unfold mreg ufRead
  rw [Nat.add_comm, ← List.drop_drop, ← List.drop_drop, hm]

/-- Flushing a file that is marked as changed: a failing call can be repeated, and a successful one makes the file acceptable. -/
theorem flushF_dirty (hC : C.WF) (st : FullSt) (plan : List (Option SysFault)) (hd : st.metaS.dirty = true) :
    let F := (C.flushF ⟨st, plan⟩).2
    F.st.data = st.data ∧ F.st.metaS.file.drop 32 = st.metaS.file.drop 32 ∧
    (F.st.metaS.dirty = true ∨ (HmacValid C.hm C.id F.st.metaS.file)) := by
  intro F
  have hF : F = (C.flushF ⟨st, plan⟩).2 := rfl
  unfold flushF at hF
  rw [if_pos hd] at hF
  rcases FIO.bind_cases (FIO.sys (fun st : FullSt => (runMac C.id st.metaS.file, st)) (fun _ st => st)) (fun m =>
      (FIO.lift m).bind fun m =>
      FIO.sys (fun st => ((), { st with metaS := ⟨ufWrite st.metaS.file 0 (C.hm m), false⟩ }))
        (fun k st => { st with metaS := ⟨ufWrite st.metaS.file 0 ((C.hm m).take k), st.metaS.dirty⟩ })) ⟨st, plan⟩ with ⟨a, h1, h2⟩ | ⟨er, h1, h2⟩
  · rw [h2] at hF
    obtain ⟨h3, h4⟩ := LiteCfg.sys_ok h1
    generalize hG : (FIO.sys (fun st : FullSt => (runMac C.id st.metaS.file, st)) (fun _ st => st) ⟨st, plan⟩).2 = G at *
    rw [runMac_ok] at h3
    subst h3
    rw [FIO.bind_eq (show FIO.lift (.ok (C.id ++ st.metaS.file.drop 32)) G = (.ok (C.id ++ st.metaS.file.drop 32), G) from rfl)] at hF
    rcases LiteCfg.sys_st (w := fun st : FullSt => ((), { st with metaS := ⟨ufWrite st.metaS.file 0 (C.hm (C.id ++ _)), false⟩ }))
        (g := fun k st => { st with metaS := ⟨ufWrite st.metaS.file 0 ((C.hm (C.id ++ _)).take k), st.metaS.dirty⟩ }) (F := G) with h | ⟨k, h⟩
    · rw [hF, h, h4]
      exact ⟨rfl, flush_shape hC.hm_len _ _ (by rw [hC.hm_len]), .inr (flush_valid hC _)⟩
    · rw [hF, h, h4]
      exact ⟨rfl, flush_shape hC.hm_len _ _ (by rw [List.length_take, hC.hm_len]; omega), .inl hd⟩
  · rw [h2] at hF
    have : F.st = st := by
      rw [hF]
      rcases LiteCfg.sys_st (w := fun st : FullSt => (runMac C.id st.metaS.file, st)) (g := fun _ st => st) (F := ⟨st, plan⟩) with h | ⟨_, h⟩ <;> exact h
    rw [this]
    exact ⟨rfl, rfl, .inl hd⟩

/-- Without failing calls, `flush` is the pure one. -/
theorem flushF_calm (st : FullSt) : C.flushF ⟨st, []⟩ = match C.flush st with
    | .ok st' => (.ok (), ⟨st', []⟩)
    | .error e => (.error e, ⟨st, []⟩) := by
  unfold flushF flush hmacFlush
  by_cases hd : st.metaS.dirty = true
  · rw [if_pos hd, if_pos hd]
    simp only [FIO.bind, FIO.sys, FIO.lift, runMac_ok, bind, Except.bind]
  · rw [if_neg hd, if_neg hd]
    rfl

end FullCfg
end Securefs

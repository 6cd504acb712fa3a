import Verif.Proofs.StreamFacts
/-! What a successful read says about an arbitrary backing file. -/

namespace Securefs

theorem le32_inj {a b : Nat} (ha : a < 2 ^ 32) (hb : b < 2 ^ 32) (h : le32 a = le32 b) : a = b := by
  simp only [le32, List.cons.injEq, and_true] at h
  obtain ⟨h0, h1, h2, h3⟩ := h
  have e0 := congrArg UInt8.toNat h0
  have e1 := congrArg UInt8.toNat h1
  have e2 := congrArg UInt8.toNat h2
  have e3 := congrArg UInt8.toNat h3
  simp only [UInt8.toNat_ofNat'] at e0 e1 e2 e3
  omega

theorem add_lt_of_lt_sub {q s e M : Nat} (h : q < e - s) (he : ¬ e > M) : s + q < M := by omega

theorem le32_length (a : Nat) : (le32 a).length = 4 := rfl

/-- A successful read is a window of one successful `readMulti`. -/
theorem BlockDev.read_inv {σ : Type} {D : BlockDev σ} {st : σ} {off len : Nat} {b : Bytes}
    (h : D.read st off len = .ok b) :
    b = [] ∨ ∃ e out, D.readMulti st (off / D.bs) e = .ok out ∧
      ∀ i, i < b.length → b[i]? = out[off % D.bs + i]? ∧ off % D.bs + i < out.length := by
  unfold BlockDev.read at h
  split at h
  · left; simpa using h.symm
  · dsimp only at h
    split at h
    · rename_i h0
      right
      refine ⟨_, b, h, ?_⟩
      intro i hi
      rw [h0.1, Nat.zero_add]
      exact ⟨rfl, hi⟩
    · simp only [bind, Except.bind] at h
      split at h
      · cases h
      rename_i out hout
      generalize ((off + len) / D.bs - off / D.bs + if (off + len) % D.bs > 0 then 1 else 0) * D.bs = X at h
      split at h
      · cases h
      split at h
      · left; simpa using h.symm
      · right
        refine ⟨_, out, hout, ?_⟩
        intro i hi
        simp only [Except.ok.injEq] at h
        rw [← h] at hi ⊢
        simp only [List.length_take, List.length_drop] at hi
        refine ⟨?_, by omega⟩
        rw [List.getElem?_take, if_pos (by omega), List.getElem?_drop]

namespace LiteCfg
variable {C : LiteCfg} {o : LiteObj}

theorem decodeBlock_length (hg : (C.gcm o.id).Lawful) {blk : Nat} {cur p : Bytes}
    (h : C.decodeBlock o blk cur = .ok p) (hl : 16 + C.ivSize ≤ cur.length) :
    p.length = cur.length - 16 - C.ivSize := by
  unfold decodeBlock at h
  split at h
  · simp only [Except.ok.injEq] at h
    rw [← h, zeros_length]
  · dsimp only at h
    split at h
    · cases h
    · simp only [Except.ok.injEq] at h
      rw [← h, hg.dec_len, List.length_take, List.length_drop]
      omega

theorem readLoop_inv (hg : (C.gcm o.id).Lawful) (hb : 0 < C.bs) :
    ∀ (fuel blk : Nat) (buf out : Bytes), C.readLoop o fuel blk buf = .ok out →
      ∀ i, i < out.length → ∃ p, C.decodeBlock o (blk + i / C.bs) ((buf.drop (i / C.bs * C.ubs)).take C.ubs) = .ok p
        ∧ out[i]? = p[i % C.bs]? ∧ i % C.bs < p.length ∧
        16 + C.ivSize < ((buf.drop (i / C.bs * C.ubs)).take C.ubs).length := by
  intro fuel
  induction fuel with
  | zero =>
    intro blk buf out h i hi
    unfold readLoop at h
    split at h
    · simp only [Except.ok.injEq] at h
      rw [← h] at hi; simp at hi
    · cases h
  | succ fuel ih =>
    intro blk buf out h i hi
    unfold readLoop at h
    split at h
    · simp only [Except.ok.injEq] at h
      rw [← h] at hi; simp at hi
    split at h
    · simp only [Except.ok.injEq] at h
      rw [← h] at hi; simp at hi
    rename_i hbig
    simp only [bind, Except.bind] at h
    split at h
    · cases h
    rename_i p hp
    split at h
    · cases h
    rename_i rest hrest
    simp only [Except.ok.injEq] at h
    have hpl := decodeBlock_length hg hp (by omega)
    have hu : C.ubs = C.bs + C.ivSize + 16 := rfl
    rw [← h] at hi ⊢
    have htl := List.length_take (l := buf) (i := C.ubs)
    by_cases hip : i < p.length
    · have hib : i < C.bs := by omega
      rw [Nat.div_eq_of_lt hib, Nat.mod_eq_of_lt hib, Nat.add_zero, Nat.zero_mul, List.drop_zero]
      exact ⟨p, hp, by rw [List.getElem?_append_left hip], hip, by omega⟩
    · -- the first block is full
      rw [List.length_append] at hi
      have hfull : p.length = C.bs := by
        by_contra hne
        have hshort : buf.length ≤ C.ubs := by omega
        rw [List.drop_eq_nil_of_le hshort] at hrest
        cases fuel with
        | zero => simp [readLoop] at hrest; rw [hrest] at hi; simp at hi; omega
        | succ => simp [readLoop] at hrest; rw [hrest] at hi; simp at hi; omega
      obtain ⟨q, h1, h2, h3, h4⟩ := ih (blk + 1) _ rest hrest (i - C.bs) (by omega)
      have e1 : i / C.bs = (i - C.bs) / C.bs + 1 := by
        rw [← Nat.add_div_right _ hb]; congr 1; omega
      have e2 : i % C.bs = (i - C.bs) % C.bs := by
        rw [← Nat.mod_eq_sub_mod (by omega)]
      rw [List.drop_drop] at h1 h4
      have e3 : C.ubs + (i - C.bs) / C.bs * C.ubs = i / C.bs * C.ubs := by
        rw [e1, Nat.add_mul]; omega
      have e4 : blk + 1 + (i - C.bs) / C.bs = blk + i / C.bs := by omega
      rw [e3] at h1 h4
      rw [e4] at h1
      refine ⟨q, h1, ?_, by omega, h4⟩
      rw [List.getElem?_append_right (by omega), hfull, e2]
      exact h2

theorem readMulti_inv (hg : (C.gcm o.id).Lawful) (hb : 0 < C.bs) {st : LiteSt} {s e : Nat} {out : Bytes}
    (h : C.readMulti o st s e = .ok out) (i : Nat) (hi : i < out.length) :
    ∃ p, C.decodeBlock o (s + i / C.bs) (ufRead st.file (o.headerSize + C.ubs * (s + i / C.bs)) C.ubs) = .ok p
      ∧ out[i]? = p[i % C.bs]? ∧ i % C.bs < p.length ∧ s + i / C.bs < liteMaxBlocks ∧
      16 + C.ivSize < (ufRead st.file (o.headerSize + C.ubs * (s + i / C.bs)) C.ubs).length := by
  unfold readMulti at h
  split at h
  · cases h
  rename_i he
  obtain ⟨p, h1, h2, h3, h4⟩ := readLoop_inv hg hb _ _ _ _ h i hi
  have hlen : i / C.bs < e - s := by
    by_contra hc
    have : (e - s) * C.ubs ≤ i / C.bs * C.ubs := Nat.mul_le_mul_right _ (by omega)
    rw [List.drop_eq_nil_of_le (by unfold ufRead; rw [List.length_take]; omega)] at h4
    simp at h4
  have hw : ((ufRead st.file (o.headerSize + C.ubs * s) ((e - s) * C.ubs)).drop (i / C.bs * C.ubs)).take C.ubs
      = ufRead st.file (o.headerSize + C.ubs * (s + i / C.bs)) C.ubs := by
    unfold ufRead
    rw [List.drop_take, List.take_take, List.drop_drop, Nat.mul_add, ← Nat.add_assoc,
      Nat.mul_comm C.ubs (i / C.bs), Nat.min_eq_left]
    rw [← Nat.sub_mul]
    exact Nat.le_mul_of_pos_left _ (Nat.sub_pos_of_lt hlen)
  rw [hw] at h1 h4
  exact ⟨p, h1, h2, h3, add_lt_of_lt_sub hlen he, h4⟩

/-- Every byte returned by a successful read is a byte of the decoding of the stored block it lies in. -/
theorem read_inv (hg : (C.gcm o.id).Lawful) (hb : 0 < C.bs) {st : LiteSt} {off len : Nat} {b : Bytes}
    (h : (C.dev o).read st off len = .ok b) (i : Nat) (hi : i < b.length) :
    ∃ p, C.decodeBlock o ((off + i) / C.bs) (ufRead st.file (o.headerSize + C.ubs * ((off + i) / C.bs)) C.ubs) = .ok p
      ∧ b[i]? = p[(off + i) % C.bs]? ∧ (off + i) % C.bs < p.length ∧ (off + i) / C.bs < liteMaxBlocks ∧
      16 + C.ivSize < (ufRead st.file (o.headerSize + C.ubs * ((off + i) / C.bs)) C.ubs).length := by
  rcases BlockDev.read_inv h with rfl | ⟨e, out, h1, h2⟩
  · simp at hi
  · obtain ⟨h3, h4⟩ := h2 i hi
    change C.readMulti o st (off / C.bs) e = .ok out at h1
    change b[i]? = out[off % C.bs + i]? at h3
    change off % C.bs + i < out.length at h4
    obtain ⟨p, a1, a2, a3, a4, a5⟩ := readMulti_inv hg hb h1 _ h4
    have e0 := Nat.div_add_mod' off C.bs
    have e1 : off / C.bs + (off % C.bs + i) / C.bs = (off + i) / C.bs := by
      rw [Nat.add_comm, ← Nat.add_mul_div_right _ _ hb]; congr 1; omega
    have e2 : (off % C.bs + i) % C.bs = (off + i) % C.bs := by
      rw [← Nat.add_mul_mod_self_right _ (off / C.bs)]; congr 1; omega
    rw [e1] at a1 a4 a5
    rw [e2] at a2 a3
    exact ⟨p, a1, h3.trans a2, a3, a4, a5⟩

end LiteCfg

namespace FullCfg
variable {C : FullCfg}

theorem decodeBlock_length (hg : C.gcm.Lawful) {d m p : Bytes} (h : C.decodeBlock d m = .ok p) :
    p.length = d.length := by
  unfold decodeBlock at h
  split at h
  · simp only [Except.ok.injEq] at h
    rw [← h, zeros_length]
  · dsimp only at h
    split at h
    · cases h
    · simp only [Except.ok.injEq] at h
      rw [← h, hg.dec_len]

theorem readLoop_inv (hg : C.gcm.Lawful) (hb : 0 < C.bs) :
    ∀ (fuel : Nat) (d m out : Bytes), C.readLoop fuel d m = .ok out →
      ∀ i, i < out.length → ∃ p, C.decodeBlock ((d.drop (i / C.bs * C.bs)).take C.bs)
          ((m.drop (i / C.bs * C.metaSize)).take C.metaSize) = .ok p
        ∧ out[i]? = p[i % C.bs]? ∧ i % C.bs < p.length := by
  intro fuel
  induction fuel with
  | zero =>
    intro d m out h i hi
    unfold readLoop at h
    split at h
    · simp only [Except.ok.injEq] at h
      rw [← h] at hi; simp at hi
    · cases h
  | succ fuel ih =>
    intro d m out h i hi
    unfold readLoop at h
    split at h
    · simp only [Except.ok.injEq] at h
      rw [← h] at hi; simp at hi
    simp only [bind, Except.bind] at h
    split at h
    · cases h
    rename_i p hp
    split at h
    · cases h
    rename_i rest hrest
    simp only [Except.ok.injEq] at h
    have hpl := decodeBlock_length hg hp
    rw [List.length_take] at hpl
    rw [← h] at hi ⊢
    by_cases hip : i < p.length
    · have hib : i < C.bs := by omega
      rw [Nat.div_eq_of_lt hib, Nat.mod_eq_of_lt hib, Nat.zero_mul, List.drop_zero, Nat.zero_mul,
        List.drop_zero]
      exact ⟨p, hp, by rw [List.getElem?_append_left hip], hip⟩
    · rw [List.length_append] at hi
      have hfull : p.length = C.bs := by
        by_contra hne
        rw [List.drop_eq_nil_of_le (show d.length ≤ C.bs by omega)] at hrest
        cases fuel with
        | zero => simp [readLoop] at hrest; rw [hrest] at hi; simp at hi; omega
        | succ => simp [readLoop] at hrest; rw [hrest] at hi; simp at hi; omega
      obtain ⟨q, h1, h2, h3⟩ := ih _ _ rest hrest (i - C.bs) (by omega)
      have e1 : i / C.bs = (i - C.bs) / C.bs + 1 := by
        rw [← Nat.add_div_right _ hb]; congr 1; omega
      have e2 : i % C.bs = (i - C.bs) % C.bs := by
        rw [← Nat.mod_eq_sub_mod (by omega)]
      rw [List.drop_drop, List.drop_drop] at h1
      have e3 : C.bs + (i - C.bs) / C.bs * C.bs = i / C.bs * C.bs := by
        rw [e1, Nat.add_mul]; omega
      have e4 : C.metaSize + (i - C.bs) / C.bs * C.metaSize = i / C.bs * C.metaSize := by
        rw [e1, Nat.add_mul]; omega
      rw [e3, e4] at h1
      refine ⟨q, h1, ?_, by omega⟩
      rw [List.getElem?_append_right (by omega), hfull, e2]
      exact h2

/-- The metadata entry of block `k`, zero if the metadata file is too short. -/
def entry (C : FullCfg) (st : FullSt) (k : Nat) : Bytes :=
  hmacRead st.metaS (C.metaPos k) C.metaSize
    ++ zeros (C.metaSize - (hmacRead st.metaS (C.metaPos k) C.metaSize).length)

theorem readMulti_inv (hg : C.gcm.Lawful) (hb : 0 < C.bs) {st : FullSt} {s e : Nat} {out : Bytes}
    (h : C.readMulti st s e = .ok out) (i : Nat) (hi : i < out.length) :
    ∃ p, C.decodeBlock (ufRead st.data ((s + i / C.bs) * C.bs) C.bs) (C.entry st (s + i / C.bs)) = .ok p
      ∧ out[i]? = p[i % C.bs]? ∧ i % C.bs < p.length ∧ s + i / C.bs < fullMaxBlocks := by
  unfold readMulti at h
  split at h
  · simp only [Except.ok.injEq] at h
    rw [← h] at hi; simp at hi
  split at h
  · cases h
  rename_i he
  dsimp only at h
  split at h
  · simp only [Except.ok.injEq] at h
    rw [← h] at hi; simp at hi
  split at h
  · cases h
  obtain ⟨p, h1, h2, h3⟩ := readLoop_inv hg hb _ _ _ _ h i hi
  have hpl := decodeBlock_length hg h1
  have hlen : i / C.bs < e - s := by
    by_contra hc
    have : (e - s) * C.bs ≤ i / C.bs * C.bs := Nat.mul_le_mul_right _ (by omega)
    rw [List.drop_eq_nil_of_le (by unfold ufRead; rw [List.length_take]; omega)] at hpl
    simp only [List.take_nil, List.length_nil] at hpl
    omega
  have hw : ((ufRead st.data (s * C.bs) ((e - s) * C.bs)).drop (i / C.bs * C.bs)).take C.bs
      = ufRead st.data ((s + i / C.bs) * C.bs) C.bs := by
    unfold ufRead
    rw [List.drop_take, List.take_take, List.drop_drop, Nat.add_mul, Nat.min_eq_left]
    rw [← Nat.sub_mul]
    exact Nat.le_mul_of_pos_left _ (Nat.sub_pos_of_lt hlen)
  have hle : C.metaSize ≤ (e - s) * C.metaSize - i / C.bs * C.metaSize := by
    rw [← Nat.sub_mul]
    exact Nat.le_mul_of_pos_left _ (Nat.sub_pos_of_lt hlen)
  have hm : ((hmacRead st.metaS (C.metaPos s) ((e - s) * C.metaSize)
        ++ zeros ((e - s) * C.metaSize - (hmacRead st.metaS (C.metaPos s) ((e - s) * C.metaSize)).length)).drop
          (i / C.bs * C.metaSize)).take C.metaSize = C.entry st (s + i / C.bs) := by
    unfold entry hmacRead ufRead
    have hpos : C.metaPos (s + i / C.bs) + 32 = C.metaPos s + 32 + i / C.bs * C.metaSize := by
      unfold metaPos
      rw [Nat.mul_add, Nat.mul_comm C.metaSize (i / C.bs)]; omega
    rw [hpos]
    generalize st.metaS.file = F
    generalize C.metaPos s + 32 = P at *
    generalize i / C.bs * C.metaSize = Q at *
    generalize (e - s) * C.metaSize = L at *
    generalize C.metaSize = M at *
    apply List.ext_getElem?
    intro j
    simp only [List.getElem?_take, List.getElem?_drop, List.getElem?_append, List.length_take,
      List.length_drop, zeros_getElem?]
    list_cases
  rw [hw, hm] at h1
  exact ⟨p, h1, h2, h3, add_lt_of_lt_sub hlen he⟩

theorem read_inv (hg : C.gcm.Lawful) (hb : 0 < C.bs) {st : FullSt} {off len : Nat} {b : Bytes}
    (h : C.dev.read st off len = .ok b) (i : Nat) (hi : i < b.length) :
    ∃ p, C.decodeBlock (ufRead st.data ((off + i) / C.bs * C.bs) C.bs) (C.entry st ((off + i) / C.bs)) = .ok p
      ∧ b[i]? = p[(off + i) % C.bs]? ∧ (off + i) % C.bs < p.length ∧ (off + i) / C.bs < fullMaxBlocks := by
  rcases BlockDev.read_inv h with rfl | ⟨e, out, h1, h2⟩
  · simp at hi
  · obtain ⟨h3, h4⟩ := h2 i hi
    change C.readMulti st (off / C.bs) e = .ok out at h1
    change b[i]? = out[off % C.bs + i]? at h3
    change off % C.bs + i < out.length at h4
    obtain ⟨p, a1, a2, a3, a4⟩ := readMulti_inv hg hb h1 _ h4
    have e0 := Nat.div_add_mod' off C.bs
    have e1 : off / C.bs + (off % C.bs + i) / C.bs = (off + i) / C.bs := by
      rw [Nat.add_comm, ← Nat.add_mul_div_right _ _ hb]; congr 1; omega
    have e2 : (off % C.bs + i) % C.bs = (off + i) % C.bs := by
      rw [← Nat.add_mul_mod_self_right _ (off / C.bs)]; congr 1; omega
    rw [e1] at a1 a4
    rw [e2] at a2 a3
    exact ⟨p, a1, h3.trans a2, a3, a4⟩

end FullCfg
end Securefs

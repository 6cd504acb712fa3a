import Verif.Proofs.Limits
/-! Files in which some bytes of an unfinished write have reached the disk. -/

namespace Securefs

/-- Every byte of `f'` is the byte of `f` or of `g` at the same place. -/
def Torn (f g f' : Bytes) : Prop := f'.length = f.length ∧ ∀ i : Nat, f'[i]? = f[i]? ∨ f'[i]? = g[i]?

namespace BlockDev
variable {σ : Type} {D : BlockDev σ} {P : σ → Prop}

theorem uncheckedWrite_keeps
    (hw : ∀ st s e r inp st', P st → D.writeMulti st s e r inp = .ok st' → P st')
    {st st' : σ} {inp : WInput} {off len : Nat} (hP : P st) (h : D.uncheckedWrite st inp off len = .ok st') :
    P st' := by
  unfold uncheckedWrite at h
  split at h
  · cases h; exact hP
  · dsimp only at h
    split at h
    · cases inp with
      | zeroFill => exact hw _ _ _ _ _ _ hP h
      | data d => exact hw _ _ _ _ _ _ hP h
    · simp only [bind, Except.bind] at h
      split at h
      · cases h
      split at h
      · cases h
      split at h
      · cases h
      exact hw _ _ _ _ _ _ hP h

theorem uncheckedResize_keeps
    (hw : ∀ st s e r inp st', P st → D.writeMulti st s e r inp = .ok st' → P st')
    (ha : ∀ st n st', P st → D.adjust st n = .ok st' → P st')
    {st st' : σ} {cur new : Nat} (hP : P st) (h : D.uncheckedResize st cur new = .ok st') : P st' := by
  unfold uncheckedResize at h
  split at h
  · cases h; exact hP
  · split at h
    · simp only [bind, Except.bind] at h
      split at h
      · cases h
      rename_i st1 h1
      refine ha _ _ _ ?_ h
      unfold shrinkPrep at h1
      split at h1
      · simp only [bind, Except.bind] at h1
        split at h1
        · cases h1
        split at h1
        · cases h1
        exact hw _ _ _ _ _ _ hP h1
      · cases h1; exact hP
    · simp only [bind, Except.bind] at h
      split at h
      · cases h
      rename_i st1 h1
      refine ha _ _ _ ?_ h
      unfold growPrep zeroFillTo at h1
      split at h1
      · exact uncheckedWrite_keeps hw hP h1
      · exact uncheckedWrite_keeps hw hP h1

theorem write_keeps
    (hw : ∀ st s e r inp st', P st → D.writeMulti st s e r inp = .ok st' → P st')
    (ha : ∀ st n st', P st → D.adjust st n = .ok st' → P st')
    {st st' : σ} {off : Nat} {d : Bytes} (hP : P st) (h : D.write st off d = .ok st') : P st' := by
  unfold write at h
  split at h
  · cases h; exact hP
  · split at h
    · simp only [bind, Except.bind] at h
      split at h
      · cases h
      rename_i st1 h1
      exact uncheckedWrite_keeps hw (uncheckedResize_keeps hw ha hP h1) h
    · exact uncheckedWrite_keeps hw hP h

end BlockDev

/-- The MAC stored in the metadata file is `t`. -/
def FullCfg.MacIs (t : Bytes) (st : FullSt) : Prop :=
  st.metaS.file.take 32 = t ∧ 32 ≤ st.metaS.file.length

theorem FullCfg.writeMulti_mac {C : FullCfg} (t : Bytes) (st : FullSt) (s e r : Nat) (inp : Bytes) (st' : FullSt)
    (hP : FullCfg.MacIs t st) (h : C.dev.writeMulti st s e r inp = .ok st') : FullCfg.MacIs t st' := by
  change C.writeMulti st s e r inp = .ok st' at h
  unfold FullCfg.writeMulti at h
  split at h
  · cases h
  simp only [bind, Except.bind] at h
  split at h
  · cases h
  simp only [Except.ok.injEq] at h
  subst h
  unfold FullCfg.MacIs hmacWrite ufWrite
  dsimp only
  split
  · exact hP
  · refine ⟨?_, ?_⟩
    · rw [List.append_assoc, List.append_assoc, List.take_append_of_le_length
        (by rw [List.length_take]; have := hP.2; omega), List.take_take, Nat.min_eq_left (by omega)]
      exact hP.1
    · simp only [List.length_append, List.length_take, zeros_length, List.length_drop]
      have := hP.2; omega

theorem FullCfg.adjust_mac {C : FullCfg} (t : Bytes) (st : FullSt) (n : Nat) (st' : FullSt)
    (hP : FullCfg.MacIs t st) (h : C.dev.adjust st n = .ok st') : FullCfg.MacIs t st' := by
  change C.adjust st n = .ok st' at h
  unfold FullCfg.adjust at h
  simp only [Except.ok.injEq] at h
  subst h
  unfold FullCfg.MacIs hmacResize ufResize
  dsimp only
  refine ⟨?_, ?_⟩
  · rw [List.take_append_of_le_length
      (by rw [List.length_take]; have := hP.2; omega), List.take_take, Nat.min_eq_left (by omega)]
    exact hP.1
  · simp only [List.length_append, List.length_take, zeros_length]
    have := hP.2; omega

theorem hmacOpen_rejects {hm : Bytes → Bytes} {id f : Bytes} (hl : 32 ≤ f.length)
    (h : f.take 32 ≠ hm (id ++ f.drop 32)) : hmacOpen hm id true f = .error .hmac := by
  unfold hmacOpen
  simp only [ufRead, List.drop_zero, if_true, List.length_take, runMac_ok, bind, Except.bind]
  rw [if_neg (by omega), if_neg (by omega), if_neg (fun h' => h h'.symm)]

namespace LiteCfg
variable {C : LiteCfg} {o : LiteObj}

/-- A read only depends on the blocks it covers. -/
theorem read_agree (hb : 0 < C.bs) {st st' : LiteSt} {off len : Nat} (hl : 0 < len)
    (h : ∀ i, o.headerSize + C.ubs * (off / C.bs) ≤ i →
      i < o.headerSize + C.ubs * ((off + len - 1) / C.bs + 1) → st.file[i]? = st'.file[i]?) :
    (C.dev o).read st off len = (C.dev o).read st' off len := by
  have hlast : (off + len) / C.bs + (if (off + len) % C.bs > 0 then 1 else 0) = (off + len - 1) / C.bs + 1 := by
    have h1 := Nat.div_add_mod' (off + len) C.bs
    have h2 := Nat.mod_lt (off + len) hb
    split
    · rename_i h0
      have : (off + len - 1) / C.bs = (off + len) / C.bs := by
        apply Nat.div_eq_of_lt_le
        · omega
        · rw [Nat.add_mul, Nat.one_mul]; omega
      omega
    · rename_i h0
      have hq : 0 < (off + len) / C.bs := by
        apply Nat.pos_of_ne_zero; intro hz; rw [hz] at h1; omega
      have h3 : ((off + len) / C.bs - 1) * C.bs + C.bs = (off + len) / C.bs * C.bs := by
        rw [Nat.sub_mul, Nat.one_mul]
        have : 1 * C.bs ≤ (off + len) / C.bs * C.bs := Nat.mul_le_mul_right _ hq
        omega
      have : (off + len - 1) / C.bs = (off + len) / C.bs - 1 := by
        apply Nat.div_eq_of_lt_le
        · omega
        · rw [Nat.add_mul, Nat.one_mul]; omega
      omega
  have hs : off / C.bs ≤ (off + len - 1) / C.bs + 1 := by
    have := Nat.div_le_div_right (c := C.bs) (show off ≤ off + len - 1 by omega)
    omega
  have key : C.readMulti o st (off / C.bs) ((off + len - 1) / C.bs + 1)
      = C.readMulti o st' (off / C.bs) ((off + len - 1) / C.bs + 1) := by
    unfold readMulti
    have : ufRead st.file (o.headerSize + C.ubs * (off / C.bs)) (((off + len - 1) / C.bs + 1 - off / C.bs) * C.ubs)
        = ufRead st'.file (o.headerSize + C.ubs * (off / C.bs)) (((off + len - 1) / C.bs + 1 - off / C.bs) * C.ubs) := by
      unfold ufRead
      apply List.ext_getElem?
      intro i
      rw [List.getElem?_take, List.getElem?_take]
      split
      · rename_i hi
        rw [List.getElem?_drop, List.getElem?_drop]
        apply h
        · omega
        · have : C.ubs * ((off + len - 1) / C.bs + 1)
              = C.ubs * (off / C.bs) + ((off + len - 1) / C.bs + 1 - off / C.bs) * C.ubs := by
            rw [Nat.mul_comm ((off + len - 1) / C.bs + 1 - off / C.bs), ← Nat.mul_add]; congr 1; omega
          omega
      · rfl
    rw [this]
  have hd : (C.dev o).bs = C.bs := rfl
  unfold BlockDev.read
  have hne : ¬ len = 0 := by omega
  rw [if_neg hne, if_neg hne]
  simp only [hd]
  by_cases h0 : off % C.bs = 0 ∧ (off + len) % C.bs = 0
  · rw [if_pos h0, if_pos h0]
    rw [if_neg (by omega), Nat.add_zero] at hlast
    rw [hlast]
    exact key
  · rw [if_neg h0, if_neg h0, hlast]
    change (C.readMulti o st _ _ >>= _) = (C.readMulti o st' _ _ >>= _)
    rw [key]

/-- A torn overwriting of the blocks from `s` on, up to the block before `t`, keeps all other blocks. -/
theorem torn_read (hC : C.WF) {st : LiteSt} {c : Bytes} (hR : Repr C o st c) {s t : Nat} {out f' : Bytes}
    (hfit : o.headerSize + s * C.ubs + out.length ≤ st.file.length)
    (hout : s * C.ubs + out.length ≤ t * C.ubs)
    (ht : Torn st.file (splice st.file (o.headerSize + s * C.ubs) out) f') (n' off len : Nat) (hl : 0 < len)
    (hdis : (off + len - 1) / C.bs < s ∨ t ≤ off / C.bs) (hlim : off + len ≤ liteMaxBlocks * C.bs) :
    (C.dev o).read ⟨f', n'⟩ off len = .ok (Spec.read c off len) := by
  have hb : 0 < C.bs := by have := hC.bs_ge; omega
  rw [← (refines hC).read_refines hR off len hlim]
  apply read_agree hb hl
  intro i h1 h2
  have hsp := getElem?_splice st.file (o.headerSize + s * C.ubs) out i (by omega)
  rcases ht.2 i with h | h
  · exact h
  · dsimp only
    rw [h, hsp]
    rcases hdis with hd | hd
    · have : C.ubs * ((off + len - 1) / C.bs + 1) ≤ C.ubs * s := Nat.mul_le_mul_left _ hd
      rw [Nat.mul_comm C.ubs s] at this
      rw [if_pos (by omega)]
    · have : C.ubs * t ≤ C.ubs * (off / C.bs) := Nat.mul_le_mul_left _ hd
      rw [Nat.mul_comm C.ubs t] at this
      rw [if_neg (by omega), if_neg (by omega)]

theorem torn_open (hC : C.WF) {st : LiteSt} {c : Bytes} (hR : SRepr C (o, st) c) {s : Nat} {out f' : Bytes}
    (hfit : o.headerSize + s * C.ubs + out.length ≤ st.file.length)
    (ht : Torn st.file (splice st.file (o.headerSize + s * C.ubs) out) f') (n' : Nat) :
    C.openFile ⟨f', n'⟩ = .ok (o, ⟨f', n'⟩) ∧ C.size o ⟨f', n'⟩ = c.length := by
  have hhead : f'.take o.headerSize = o.id ++ o.pad := by
    rw [← hR.1.header]
    apply List.ext_getElem?
    intro i
    rw [List.getElem?_take, List.getElem?_take]
    split
    · rename_i hi
      rcases ht.2 i with h | h
      · exact h
      · rw [h, getElem?_splice _ _ _ _ (by omega), if_pos (by omega)]
    · rfl
  refine ⟨?_, ?_⟩
  · have h1 : ufRead f' 0 16 = o.id := by
      have : f' = o.id ++ o.pad ++ f'.drop o.headerSize := by rw [← hhead, List.take_append_drop]
      rw [ufRead, List.drop_zero, this, ← hR.1.idLen, List.append_assoc, List.take_left]
    have h2 : ufRead f' 16 o.pad.length = o.pad := by
      have : f' = o.id ++ o.pad ++ f'.drop o.headerSize := by rw [← hhead, List.take_append_drop]
      rw [ufRead, this, ← hR.1.idLen, List.append_assoc, List.drop_left, List.take_left]
    have hp : o.pad.length = C.padding o.id := hR.2
    have hid : o.id.length = 16 := hR.1.idLen
    unfold openFile
    rw [if_neg (by have := hC.iv_ge; have := hC.iv_le; omega),
      if_neg (by have := hC.bs_ge; omega)]
    simp only [h1, hid]
    rw [if_neg (by omega), if_neg (by simp)]
    by_cases h0 : C.padding o.id = 0
    · rw [if_pos h0]
      have : o.pad = [] := List.eq_nil_of_length_eq_zero (by omega)
      rw [← this]
    · rw [if_neg h0, ← hp, h2, if_neg (by simp)]
  · have := dev_size hC hR.1
    unfold size at *
    dsimp only at *
    rw [ht.1]
    exact this

/-- What `writeMulti` does to the file. -/
theorem writeMulti_out (hC : C.WF) {st st' : LiteSt} {s e r : Nat} {input : Bytes} (hse : s ≤ e)
    (hr : r ≤ C.bs) (hs : o.headerSize + s * C.ubs ≤ st.file.length)
    (h : C.writeMulti o st s e r input = .ok st') :
    ∃ out, st'.file = splice st.file (o.headerSize + s * C.ubs) out ∧
      s * C.ubs + out.length = encLen C.bs (C.ivSize + 16) (e * C.bs + r) := by
  have hb : 0 < C.bs := by have := hC.bs_ge; omega
  unfold writeMulti at h
  split at h
  · cases h
  dsimp only at h
  rw [encLen_cond hb (e - s) r hr] at h
  cases hw : C.writeLoop o (e - s + 1) s (encLen C.bs (C.ivSize + 16) ((e - s) * C.bs + r)) st.rng input with
  | error e => simp only [hw, bind, Except.bind] at h; cases h
  | ok q =>
    simp only [hw, bind, Except.bind, Except.ok.injEq] at h
    obtain ⟨q1, q2⟩ := q
    obtain ⟨hl, _⟩ := writeLoop_iv (fun n => hC.rng.len n _) hb (hC.gcm o.id) _ _ _ _ _ hw
    refine ⟨q1, ?_, ?_⟩
    · rw [← h, Nat.add_comm (s * C.ubs)]
      exact ufWrite_splice _ _ _ hs
    · rw [hl, ubs_eq, ← encLen_add hb]
      congr 1
      rw [← Nat.add_assoc, ← Nat.add_mul]
      congr 2; omega

/-- The bytes touched by a write inside the file. -/
theorem write_out (hC : C.WF) {st st' : LiteSt} {c : Bytes} (hR : Repr C o st c)
    (hlim : c.length ≤ liteMaxBlocks * C.bs) {off : Nat} {d : Bytes} (hd : d ≠ [])
    (hin : off + d.length ≤ c.length) (h : (C.dev o).write st off d = .ok st') :
    ∃ out, st'.file = splice st.file (o.headerSize + off / C.bs * C.ubs) out ∧
      o.headerSize + off / C.bs * C.ubs + out.length ≤ st.file.length ∧
      off / C.bs * C.ubs + out.length ≤ ((off + d.length - 1) / C.bs + 1) * C.ubs := by
  have hb : 0 < C.bs := by have := hC.bs_ge; omega
  have hl : 0 < d.length := List.length_pos_iff.mpr hd
  obtain ⟨st1, r, buf, h1, h2, h3, h4, h5, h6⟩ := BlockDev.write_inv (D := C.dev o) hb hd h
  have hsz : (C.dev o).size st = c.length := dev_size hC hR
  have hst : st1 = st := h5 (by omega)
  subst hst
  change C.writeMulti o st1 (off / C.bs) ((off + d.length) / C.bs) r buf = .ok st' at h1
  change r ≤ C.bs at h2
  change 0 < (off + d.length) % C.bs → ∃ q, C.readMulti o st1 ((off + d.length) / C.bs) ((off + d.length) / C.bs + 1)
    = .ok q ∧ r = max ((off + d.length) % C.bs) q.length at h6
  change (off + d.length) % C.bs = 0 → r = 0 at h4
  have hm := Nat.div_add_mod' (off + d.length) C.bs
  have hml := Nat.mod_lt (off + d.length) hb
  have ho := Nat.div_add_mod' off C.bs
  have hlen := hR.len
  have hfit : o.headerSize + off / C.bs * C.ubs ≤ st1.file.length := by
    have := encLen_mono (ov := C.ivSize + 16) hb (show off / C.bs * C.bs ≤ c.length by omega)
    rw [encLen_mul hb, ← ubs_eq] at this
    omega
  have hsle : off / C.bs ≤ (off + d.length) / C.bs := Nat.div_le_div_right (by omega)
  obtain ⟨out, hf, hol⟩ := writeMulti_out hC hsle h2 hfit h1
  have hend : (off + d.length) / C.bs * C.bs + r ≤ c.length ∧
      (off + d.length) / C.bs * C.bs + r ≤ ((off + d.length - 1) / C.bs + 1) * C.bs := by
    rcases Nat.eq_zero_or_pos ((off + d.length) % C.bs) with h0 | h0
    · have hr0 := h4 h0
      have hgt := Nat.lt_div_mul_add (a := off + d.length - 1) hb
      rw [Nat.add_mul, Nat.one_mul]
      rw [hr0]
      refine ⟨by omega, ?_⟩
      -- both are multiples of the block size
      have : (off + d.length) / C.bs ≤ (off + d.length - 1) / C.bs + 1 := by
        by_contra hn
        have h7 : ((off + d.length - 1) / C.bs + 2) * C.bs ≤ (off + d.length) / C.bs * C.bs :=
          Nat.mul_le_mul_right _ (by omega)
        rw [Nat.add_mul] at h7
        omega
      have := Nat.mul_le_mul_right C.bs this
      rw [Nat.add_mul, Nat.one_mul] at this
      omega
    · obtain ⟨q, hq, hrq⟩ := h6 h0
      have hblk : (off + d.length) / C.bs < liteMaxBlocks :=
        BlockDev.Refines.lt_of_mod_pos (le_trans hin hlim) h0
      have hq' := (refines hC).read_eq hR (s := (off + d.length) / C.bs) (e := (off + d.length) / C.bs + 1)
        (by omega) (by omega)
      change C.readMulti o st1 _ _ = _ at hq'
      rw [hq'] at hq
      simp only [Except.ok.injEq] at hq
      have hql : q.length ≤ c.length - (off + d.length) / C.bs * C.bs := by
        rw [← hq, List.length_take, List.length_drop]
        exact Nat.min_le_right _ _
      have heq : (off + d.length - 1) / C.bs = (off + d.length) / C.bs := by
        apply Nat.div_eq_of_lt_le
        · omega
        · rw [Nat.add_mul, Nat.one_mul]; omega
      rw [heq, Nat.add_mul, Nat.one_mul]
      omega
  refine ⟨out, hf, ?_, ?_⟩
  · have := encLen_mono (ov := C.ivSize + 16) hb hend.1
    omega
  · have := encLen_mono (ov := C.ivSize + 16) hb hend.2
    rw [encLen_mul hb, ← ubs_eq] at this
    omega

/-- The bytes touched by the first step of a shrinking. -/
theorem shrinkPrep_out (hC : C.WF) {st st' : LiteSt} {c : Bytes} (hR : Repr C o st c) {n : Nat}
    (hn : n < c.length) (h : (C.dev o).shrinkPrep st n = .ok st') :
    ∃ out, st'.file = splice st.file (o.headerSize + n / C.bs * C.ubs) out ∧
      o.headerSize + n / C.bs * C.ubs + out.length ≤ st.file.length ∧ (n % C.bs = 0 → out = []) ∧
      n / C.bs * C.ubs + out.length ≤ (n / C.bs + 1) * C.ubs := by
  have hb : 0 < C.bs := by have := hC.bs_ge; omega
  have hm := Nat.div_add_mod' n C.bs
  have hml := Nat.mod_lt n hb
  have hlen := hR.len
  have hfit : o.headerSize + n / C.bs * C.ubs ≤ st.file.length := by
    have := encLen_mono (ov := C.ivSize + 16) hb (show n / C.bs * C.bs ≤ c.length by omega)
    rw [encLen_mul hb, ← ubs_eq] at this
    omega
  unfold BlockDev.shrinkPrep at h
  simp only [show (C.dev o).bs = C.bs from rfl] at h
  by_cases h0 : n % C.bs > 0
  · rw [if_pos h0] at h
    simp only [bind, Except.bind] at h
    split at h
    · cases h
    split at h
    · cases h
    obtain ⟨out, hf, hol⟩ := writeMulti_out hC (le_refl _) (by omega) hfit h
    refine ⟨out, hf, ?_, by omega, ?_⟩
    · have := encLen_mono (ov := C.ivSize + 16) hb (show n / C.bs * C.bs + n % C.bs ≤ c.length by omega)
      omega
    · have := encLen_mono (ov := C.ivSize + 16) hb (show n / C.bs * C.bs + n % C.bs ≤ (n / C.bs + 1) * C.bs by
        rw [Nat.add_mul]; omega)
      rw [encLen_mul hb, ← ubs_eq] at this
      omega
  · rw [if_neg h0] at h
    simp only [Except.ok.injEq] at h
    refine ⟨[], by rw [← h, splice_nil], by simpa using hfit, fun _ => rfl, ?_⟩
    rw [Nat.add_mul]; simp

end LiteCfg
end Securefs

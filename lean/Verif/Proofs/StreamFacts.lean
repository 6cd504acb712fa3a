import Verif.Proofs.LiteStream
import Verif.Proofs.FullStream
/-! Facts about the streams on arbitrary (not necessarily well-formed) files. -/

namespace Securefs

theorem allZeros_false_of_sublist {a b : Bytes} (h : a.Sublist b) (ha : allZeros a = false) :
    allZeros b = false := by
  unfold allZeros at *
  rw [List.all_eq_false] at *
  obtain ⟨x, hx, hn⟩ := ha
  exact ⟨x, h.subset hx, hn⟩

theorem ufRead_ufWrite_inside (f : Bytes) (off p n : Nat) (d : Bytes) (hp : off ≤ p)
    (hn : p + n ≤ off + d.length) (hn0 : 0 < n) :
    ufRead (ufWrite f off d) p n = (d.drop (p - off)).take n := by
  have hd : d.isEmpty = false := by
    cases d with
    | nil => simp at hn; omega
    | cons => rfl
  unfold ufRead ufWrite
  rw [hd]
  simp only [Bool.false_eq_true, if_false]
  apply List.ext_getElem?
  intro i
  simp only [List.getElem?_take, List.getElem?_drop, List.getElem?_append, List.length_append,
    List.length_take, zeros_length]
  list_cases

namespace BlockDev
variable {σ : Type} {D : BlockDev σ}

theorem memcpyAt_inv {buf src b : Bytes} {pos : Nat} (h : memcpyAt buf pos src = .ok b) :
    pos + src.length ≤ buf.length ∧ b.length = buf.length := by
  unfold memcpyAt at h
  split at h
  · rename_i hl
    simp only [Except.ok.injEq] at h
    refine ⟨hl, ?_⟩
    rw [← h]
    simp only [List.length_append, List.length_take, List.length_drop]
    omega
  · cases h

/-- A successful `uncheckedWrite` of at least one byte ends in one `writeMulti` of the blocks it covers. -/
theorem uncheckedWrite_inv (hb : 0 < D.bs) {st st' : σ} {inp : WInput} {off len : Nat} (hl : 0 < len)
    (h : D.uncheckedWrite st inp off len = .ok st') :
    ∃ r buf, D.writeMulti st (off / D.bs) ((off + len) / D.bs) r buf = .ok st' ∧ r ≤ D.bs ∧
      (off + len) % D.bs ≤ r ∧ ((off + len) % D.bs = 0 → r = 0) ∧
      (0 < (off + len) % D.bs → ∃ q, D.readMulti st ((off + len) / D.bs) ((off + len) / D.bs + 1) = .ok q ∧
        r = max ((off + len) % D.bs) q.length) := by
  unfold uncheckedWrite at h
  rw [if_neg (by omega)] at h
  dsimp only at h
  by_cases h0 : off % D.bs = 0 ∧ (off + len) % D.bs = 0
  · rw [if_pos h0] at h
    cases inp with
    | zeroFill => exact ⟨0, _, h, by omega, by omega, fun _ => rfl, by omega⟩
    | data d => exact ⟨0, _, h, by omega, by omega, fun _ => rfl, by omega⟩
  · rw [if_neg h0] at h
    simp only [bind, Except.bind] at h
    split at h
    · cases h
    rename_i buf1 hb1
    have hl1 : buf1.length = ((off + len) / D.bs - off / D.bs
        + (if (off + len) % D.bs > 0 then 1 else 0)) * D.bs := by
      unfold rmwHead at hb1
      split at hb1
      · simp only [bind, Except.bind] at hb1
        split at hb1
        · cases hb1
        · rw [(memcpyAt_inv hb1).2, zeros_length]
      · simp only [Except.ok.injEq] at hb1
        rw [← hb1, zeros_length]
    split at h
    · cases h
    rename_i p hp
    split at h
    · cases h
    rename_i buf3 hb3
    refine ⟨p.2, buf3, h, ?_⟩
    unfold rmwTail at hp
    split at hp
    · rename_i her
      simp only [bind, Except.bind] at hp
      split at hp
      · cases hp
      rename_i r hr
      split at hp
      · cases hp
      rename_i b hbb
      simp only [Except.ok.injEq] at hp
      have hm := (memcpyAt_inv hbb).1
      rw [hl1, if_pos her, Nat.add_mul] at hm
      have hlt := Nat.mod_lt (off + len) hb
      rw [← hp]
      simp only
      refine ⟨by omega, by omega, by omega, fun _ => ⟨r, hr, rfl⟩⟩
    · rename_i her
      simp only [Except.ok.injEq] at hp
      rw [← hp]
      simp only
      refine ⟨by omega, by omega, by simp, by omega⟩

/-- A successful non-empty `write` ends in one `writeMulti` of the blocks it covers. -/
theorem write_inv (hb : 0 < D.bs) {st st' : σ} {off : Nat} {d : Bytes} (hd : d ≠ [])
    (h : D.write st off d = .ok st') :
    ∃ st1 r buf, D.writeMulti st1 (off / D.bs) ((off + d.length) / D.bs) r buf = .ok st' ∧ r ≤ D.bs ∧
      (off + d.length) % D.bs ≤ r ∧ ((off + d.length) % D.bs = 0 → r = 0) ∧
      (off ≤ D.size st → st1 = st) ∧
      (0 < (off + d.length) % D.bs →
        ∃ q, D.readMulti st1 ((off + d.length) / D.bs) ((off + d.length) / D.bs + 1) = .ok q ∧
        r = max ((off + d.length) % D.bs) q.length) := by
  have hl : 0 < d.length := List.length_pos_iff.mpr hd
  unfold write at h
  rw [if_neg (by omega)] at h
  split at h
  · simp only [bind, Except.bind] at h
    split at h
    · cases h
    · rename_i st1 _
      obtain ⟨r, buf, h1, h2, h3, h4, h5⟩ := uncheckedWrite_inv hb hl h
      exact ⟨st1, r, buf, h1, h2, h3, h4, fun hle => absurd hle (by omega), h5⟩
  · obtain ⟨r, buf, h1, h2, h3, h4, h5⟩ := uncheckedWrite_inv hb hl h
    exact ⟨st, r, buf, h1, h2, h3, h4, fun _ => rfl, h5⟩

/-- A position inside `[off, off+len)` lies in a block covered by that `writeMulti`. -/
theorem covered {bs off len r i : Nat} (hb : 0 < bs) (h1 : off ≤ i) (h2 : i < off + len)
    (hr : (off + len) % bs ≤ r) :
    off / bs ≤ i / bs ∧ i / bs * bs < (off + len) / bs * bs + r := by
  refine ⟨Nat.div_le_div_right h1, ?_⟩
  have e1 := Nat.div_add_mod' i bs
  have e2 := Nat.div_add_mod' (off + len) bs
  omega

end BlockDev

namespace LiteCfg
variable {C : LiteCfg} {o : LiteObj}

/-- Every block written by `writeLoop` starts with a non-zero IV. -/
theorem writeLoop_iv (hlen : ∀ n, (C.rng.draw n C.ivSize).length = C.ivSize) (hb : 0 < C.bs)
    (hg : (C.gcm o.id).Lawful) :
    ∀ (fuel blk m rng : Nat) (input : Bytes) {out rng'},
      C.writeLoop o fuel blk (encLen C.bs (C.ivSize + 16) m) rng input = .ok (out, rng') →
      out.length = encLen C.bs (C.ivSize + 16) m ∧
      ∀ k, k * C.bs < m → allZeros ((out.drop (k * C.ubs)).take C.ivSize) = false := by
  intro fuel
  induction fuel with
  | zero =>
    intro blk m rng input out rng' h
    unfold writeLoop at h
    split at h
    · rename_i h0
      simp only [Except.ok.injEq, Prod.mk.injEq] at h
      rw [← h.1, h0]
      refine ⟨rfl, ?_⟩
      intro k hk
      exfalso
      have : 0 < encLen C.bs (C.ivSize + 16) m := by
        have h1 : 0 < m := by omega
        have h2 := encLen_mono (bs := C.bs) (ov := C.ivSize + 16) hb h1
        have h3 := encLen_le_small (bs := C.bs) (ov := C.ivSize + 16) hb (m := 1) (by omega) (by omega)
        simp only [Nat.succ_eq_add_one, Nat.zero_add] at h2
        omega
      omega
    · cases h
  | succ fuel ih =>
    intro blk m rng input out rng' h
    rcases Nat.eq_zero_or_pos m with rfl | hm
    · rw [encLen_zero hb] at h ⊢
      unfold writeLoop at h
      rw [if_pos rfl] at h
      simp only [Except.ok.injEq, Prod.mk.injEq] at h
      rw [← h.1]
      exact ⟨rfl, by intro k hk; omega⟩
    · have hu := @ubs_eq C
      -- size of the first block
      obtain ⟨v, hv, hvb, hrest⟩ : ∃ v, 0 < v ∧ v = min C.bs m ∧
          encLen C.bs (C.ivSize + 16) m = (v + (C.ivSize + 16)) + encLen C.bs (C.ivSize + 16) (m - v) := by
        refine ⟨min C.bs m, by omega, rfl, ?_⟩
        rcases Nat.lt_or_ge m C.bs with h1 | h1
        · rw [Nat.min_eq_right (by omega), Nat.sub_self, encLen_zero hb, encLen_small hb hm h1]; rfl
        · rw [Nat.min_eq_left h1]
          have := encLen_add (bs := C.bs) (ov := C.ivSize + 16) hb 1 (m - C.bs)
          rw [show 1 * C.bs + (m - C.bs) = m by omega, Nat.one_mul] at this
          exact this
      have hmin : min C.ubs (encLen C.bs (C.ivSize + 16) m) = v + (C.ivSize + 16) := by
        rcases Nat.lt_or_ge m C.bs with h1 | h1
        · rw [encLen_small hb hm h1, hu]; omega
        · rw [hrest, hu]; omega
      unfold writeLoop at h
      rw [if_neg (by omega)] at h
      dsimp only at h
      rw [hmin] at h
      rw [if_neg (by omega), show v + (C.ivSize + 16) - 16 - C.ivSize = v by omega, if_pos hv] at h
      split at h
      · cases h
      rename_i hin
      cases hq : drawIv C.rng C.ivSize C.ivFuel rng with
      | error e => simp only [hq, bind, Except.bind] at h; cases h
      | ok q =>
        simp only [hq, bind, Except.bind] at h
        have hr : encLen C.bs (C.ivSize + 16) m - (v + (C.ivSize + 16))
            = encLen C.bs (C.ivSize + 16) (m - v) := by omega
        rw [hr] at h
        cases hw : C.writeLoop o fuel (blk + 1) (encLen C.bs (C.ivSize + 16) (m - v)) q.2 (input.drop v) with
        | error e => simp only [hw] at h; cases h
        | ok rest =>
          simp only [hw, Except.ok.injEq, Prod.mk.injEq] at h
          obtain ⟨r1, r2⟩ := rest
          obtain ⟨hl, hk⟩ := ih _ _ _ _ hw
          obtain ⟨hivl, hnz⟩ := drawIv_inv C.rng C.ivSize hlen _ _ (iv := q.1) (n' := q.2) hq
          have hbl : (C.encodeBlock o blk q.1 (input.take v)).length = v + (C.ivSize + 16) := by
            unfold encodeBlock
            simp only [List.length_append, hg.ct_len, hg.mac_len, hivl, List.length_take]
            omega
          rw [← h.1]
          refine ⟨by rw [List.length_append, hbl, hl]; omega, ?_⟩
          intro k hkm
          rcases Nat.eq_zero_or_pos k with rfl | hk0
          · rw [Nat.zero_mul, List.drop_zero]
            unfold encodeBlock
            rw [List.append_assoc, List.append_assoc, ← hivl, List.take_left]
            exact hnz
          · have hfull : v = C.bs := by
              rw [hvb]
              have : 1 * C.bs ≤ k * C.bs := Nat.mul_le_mul_right _ hk0
              omega
            obtain ⟨j, rfl⟩ : ∃ j, k = j + 1 := ⟨k - 1, by omega⟩
            have e1 : (j + 1) * C.ubs = (C.encodeBlock o blk q.1 (input.take v)).length + j * C.ubs := by
              rw [hbl, hfull, hu, Nat.add_mul]; omega
            rw [e1, ← List.drop_drop, List.drop_left]
            apply hk
            rw [Nat.add_mul] at hkm
            omega

theorem writeMulti_iv (hlen : ∀ n, (C.rng.draw n C.ivSize).length = C.ivSize) (hb : 0 < C.bs)
    (hiv : 0 < C.ivSize) (hg : (C.gcm o.id).Lawful) {st st' : LiteSt} {s e r : Nat} {input : Bytes}
    (hr : r ≤ C.bs) (h : C.writeMulti o st s e r input = .ok st') (k : Nat)
    (hs : s ≤ k) (hk : k * C.bs < e * C.bs + r) (hse : s ≤ e) :
    allZeros (ufRead st'.file (o.headerSize + C.ubs * k) C.ivSize) = false := by
  unfold writeMulti at h
  split at h
  · cases h
  dsimp only at h
  rw [encLen_cond hb (e - s) r hr] at h
  cases hw : C.writeLoop o (e - s + 1) s (encLen C.bs (C.ivSize + 16) ((e - s) * C.bs + r)) st.rng input with
  | error e => simp only [hw, bind, Except.bind] at h; cases h
  | ok q =>
    simp only [hw, bind, Except.bind, Except.ok.injEq] at h
    obtain ⟨q1, q2⟩ := q
    obtain ⟨hl, hz⟩ := writeLoop_iv hlen hb hg _ _ _ _ _ hw
    rw [← h]
    dsimp only
    have hks : (k - s) * C.bs < (e - s) * C.bs + r := by
      have h1 : (k - s) * C.bs + s * C.bs = k * C.bs := by rw [← Nat.add_mul]; congr 1; omega
      have h2 : (e - s) * C.bs + s * C.bs = e * C.bs := by rw [← Nat.add_mul]; congr 1; omega
      omega
    have hmul : C.ubs * k = s * C.ubs + (k - s) * C.ubs := by
      rw [Nat.mul_comm, ← Nat.add_mul]; congr 1; omega
    have hlen2 : (k - s) * C.ubs + C.ivSize ≤ q1.length := by
      rw [hl]
      have h1 := encLen_mono (bs := C.bs) (ov := C.ivSize + 16) hb (show (k - s) * C.bs + 1 ≤ (e - s) * C.bs + r by omega)
      rw [encLen_add hb, ← ubs_eq] at h1
      have h3 := encLen_le_small (bs := C.bs) (ov := C.ivSize + 16) hb (m := 1) (by omega) (by omega)
      omega
    rw [ufRead_ufWrite_inside _ _ _ _ _ (by omega) (by omega) hiv]
    have := hz (k - s) hks
    rwa [show o.headerSize + C.ubs * k - (s * C.ubs + o.headerSize) = (k - s) * C.ubs by omega]

end LiteCfg

namespace FullCfg
variable {C : FullCfg}

theorem writeLoop_iv (hlen : ∀ n, (C.rng.draw n C.ivSize).length = C.ivSize) (hb : 0 < C.bs)
    (hg : C.gcm.Lawful) :
    ∀ (fuel m rng : Nat) (input : Bytes) {dat met rng'},
      C.writeLoop fuel m rng input = .ok (dat, met, rng') →
      met.length = nblk C.bs m * C.metaSize ∧
      ∀ k, k * C.bs < m → allZeros ((met.drop (k * C.metaSize)).take C.ivSize) = false := by
  intro fuel
  induction fuel with
  | zero =>
    intro m rng input dat met rng' h
    unfold writeLoop at h
    split at h
    · rename_i h0
      simp only [Except.ok.injEq, Prod.mk.injEq] at h
      rw [← h.2.1, h0, nblk_zero hb, Nat.zero_mul]
      exact ⟨rfl, by intro k hk; omega⟩
    · cases h
  | succ fuel ih =>
    intro m rng input dat met rng' h
    unfold writeLoop at h
    split at h
    · rename_i h0
      simp only [Except.ok.injEq, Prod.mk.injEq] at h
      rw [← h.2.1, h0, nblk_zero hb, Nat.zero_mul]
      exact ⟨rfl, by intro k hk; omega⟩
    · rename_i hm
      cases hq : drawIv C.rng C.ivSize C.ivFuel rng with
      | error e => simp only [hq, bind, Except.bind] at h; cases h
      | ok q =>
        simp only [hq, bind, Except.bind] at h
        split at h
        · cases h
        rename_i hin
        split at h
        · cases h
        rename_i rest hw
        obtain ⟨r1, r2, r3⟩ := rest
        simp only [Except.ok.injEq, Prod.mk.injEq] at h
        obtain ⟨hl, hk⟩ := ih _ _ _ hw
        obtain ⟨hivl, hnz⟩ := drawIv_inv C.rng C.ivSize hlen _ _ (iv := q.1) (n' := q.2) hq
        have hbl : (q.1 ++ (C.gcm.enc q.1 C.id (input.take (min C.bs m))).2).length = C.metaSize := by
          rw [List.length_append, hg.mac_len, hivl]; rfl
        rw [← h.2.1]
        refine ⟨?_, ?_⟩
        · rw [List.length_append, hbl, hl]
          have : nblk C.bs m = 1 + nblk C.bs (m - min C.bs m) := by
            rcases Nat.lt_or_ge m C.bs with h1 | h1
            · rw [Nat.min_eq_right (by omega), Nat.sub_self, nblk_zero hb,
                nblk_small hb (by omega) (by omega)]
            · rw [Nat.min_eq_left h1, ← nblk_add hb, Nat.one_mul]; congr 1; omega
          rw [this, Nat.add_mul, Nat.one_mul]
        · intro k hkm
          rcases Nat.eq_zero_or_pos k with rfl | hk0
          · rw [Nat.zero_mul, List.drop_zero, List.append_assoc, ← hivl, List.take_left]
            exact hnz
          · have hfull : min C.bs m = C.bs := by
              have : 1 * C.bs ≤ k * C.bs := Nat.mul_le_mul_right _ hk0
              omega
            obtain ⟨j, rfl⟩ : ∃ j, k = j + 1 := ⟨k - 1, by omega⟩
            have e1 : (j + 1) * C.metaSize
                = (q.1 ++ (C.gcm.enc q.1 C.id (input.take (min C.bs m))).2).length + j * C.metaSize := by
              rw [hbl, Nat.add_mul]; omega
            rw [e1, ← List.drop_drop, List.drop_left]
            apply hk
            rw [Nat.add_mul] at hkm
            omega

theorem writeMulti_iv (hlen : ∀ n, (C.rng.draw n C.ivSize).length = C.ivSize) (hb : 0 < C.bs)
    (hiv : 0 < C.ivSize) (hg : C.gcm.Lawful) {st st' : FullSt} {s e r : Nat} {input : Bytes}
    (h : C.writeMulti st s e r input = .ok st') (k : Nat)
    (hs : s ≤ k) (hk : k * C.bs < e * C.bs + r) (hse : s ≤ e) :
    allZeros (hmacRead st'.metaS (C.metaPos k) C.ivSize) = false := by
  unfold writeMulti at h
  split at h
  · cases h
  cases hw : C.writeLoop (e - s + 1) (C.bs * (e - s) + r) st.rng input with
  | error e => simp only [hw, bind, Except.bind] at h; cases h
  | ok q =>
    simp only [hw, bind, Except.bind, Except.ok.injEq] at h
    obtain ⟨q1, q2, q3⟩ := q
    obtain ⟨hl, hz⟩ := writeLoop_iv hlen hb hg _ _ _ _ hw
    rw [← h]
    dsimp only
    have hks : (k - s) * C.bs < C.bs * (e - s) + r := by
      have h1 : (k - s) * C.bs + s * C.bs = k * C.bs := by rw [← Nat.add_mul]; congr 1; omega
      have h2 : C.bs * (e - s) + s * C.bs = e * C.bs := by
        rw [Nat.mul_comm, ← Nat.add_mul]; congr 1; omega
      omega
    have hmul : C.metaPos k = C.metaPos s + (k - s) * C.metaSize := by
      unfold metaPos
      have : C.metaSize * k = C.metaSize * s + (k - s) * C.metaSize := by
        rw [Nat.mul_comm (k - s), ← Nat.mul_add]; congr 1; omega
      omega
    have hlen2 : (k - s) * C.metaSize + C.ivSize ≤ q2.length := by
      rw [hl]
      have h1 := nblk_mono (bs := C.bs) (show (k - s) * C.bs + 1 ≤ C.bs * (e - s) + r by omega)
      rw [nblk_add hb, nblk_small hb (m := 1) (by omega) (by omega)] at h1
      have h2 := Nat.mul_le_mul_right C.metaSize h1
      rw [Nat.add_mul, Nat.one_mul] at h2
      have : C.metaSize = C.ivSize + 16 := rfl
      omega
    unfold hmacRead hmacWrite
    dsimp only
    rw [ufRead_ufWrite_inside _ _ _ _ _ (by omega) (by omega) hiv]
    have := hz (k - s) hks
    rwa [show C.metaPos k + 32 - (C.metaPos s + 32) = (k - s) * C.metaSize by omega]

end FullCfg
end Securefs

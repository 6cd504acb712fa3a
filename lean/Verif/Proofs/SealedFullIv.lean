import Verif.Proofs.SealedFull
/-! The IVs of a file of the full format. -/

namespace Securefs

theorem piece_before {u t s k : Nat} {f x : Bytes} (hs : s * u ≤ f.length) (hk : k < s) (ht : t ≤ u) :
    ((splice f (s * u) x).drop (k * u)).take t = (f.drop (k * u)).take t := by
  have h1 : (k + 1) * u ≤ s * u := Nat.mul_le_mul_right _ hk
  rw [Nat.add_mul, Nat.one_mul] at h1
  apply List.ext_getElem?
  intro i
  rw [List.getElem?_take, List.getElem?_take, List.getElem?_drop, List.getElem?_drop, getElem?_splice _ _ _ _ hs]
  split
  · rw [if_pos (by omega)]
  · rfl

theorem piece_after {u t s k : Nat} {f x : Bytes} (hs : s * u ≤ f.length) (hk : s * u + x.length ≤ k * u) :
    ((splice f (s * u) x).drop (k * u)).take t = (f.drop (k * u)).take t := by
  apply List.ext_getElem?
  intro i
  rw [List.getElem?_take, List.getElem?_take, List.getElem?_drop, List.getElem?_drop, getElem?_splice _ _ _ _ hs]
  split
  · rw [if_neg (by omega), if_neg (by omega)]
  · rfl

theorem piece_in {u t s j : Nat} {f x : Bytes} (hs : s * u ≤ f.length) (hj : j * u + t ≤ x.length) :
    ((splice f (s * u) x).drop ((s + j) * u)).take t = (x.drop (j * u)).take t := by
  rw [Nat.add_mul]
  apply List.ext_getElem?
  intro i
  rw [List.getElem?_take, List.getElem?_take, List.getElem?_drop, List.getElem?_drop, getElem?_splice _ _ _ _ hs]
  split
  · rw [if_neg (by omega), if_pos (by omega)]
    congr 1; omega
  · rfl

namespace FullCfg
variable {C : FullCfg}

/-- What is stored: raw header, meta entries, data; and the random counter. -/
structure Parts where
  H : Bytes
  m : Bytes
  d : Bytes
  rng : Nat

/-- The parts of a state. -/
def parts (C : FullCfg) (st : FullSt) : Parts := ⟨(C.payload st).take C.encHeaderSize, (C.payload st).drop C.encHeaderSize, st.data, st.rng⟩

theorem parts_eq {hd : Bool} {H m : Bytes} {st : FullSt} {c : Bytes} (hR : Repr C.strict hd H st c) (hp : C.payload st = H ++ m) :
    C.parts st = ⟨H, m, st.data, st.rng⟩ := by
  have hl : H.length = C.encHeaderSize := hR.hlen
  unfold parts
  rw [hp, ← hl, List.take_left, List.drop_left]

/-- The stored bytes of the header (`none`) and of a block. -/
def slot (C : FullCfg) (p : Parts) : Option Nat → Bytes
  | none => p.H
  | some k => (p.m.drop (k * C.metaSize)).take C.metaSize ++ (p.d.drop (k * C.bs)).take C.bs

/-- Their IVs. -/
def iv (C : FullCfg) (p : Parts) : Option Nat → Bytes
  | none => p.H.take C.ivSize
  | some k => (p.m.drop (k * C.metaSize)).take C.ivSize

/-- The IV is one of the draws from `lo` to `hi`. -/
def Drawn (C : FullCfg) (lo hi : Nat) (iv : Bytes) : Prop := ∃ i, lo ≤ i ∧ i < hi ∧ iv = C.rng.draw i C.ivSize

theorem Drawn.mono {lo hi lo' hi' : Nat} {iv : Bytes} (h : C.Drawn lo hi iv) (h1 : lo' ≤ lo) (h2 : hi ≤ hi') : C.Drawn lo' hi' iv := by
  obtain ⟨i, a, b, c⟩ := h
  exact ⟨i, by omega, by omega, c⟩

/-- The draws up to `n` give different IVs. -/
def DrawsDiffer (C : FullCfg) (n : Nat) : Prop := ∀ i j, i < n → j < n → C.rng.draw i C.ivSize = C.rng.draw j C.ivSize → i = j

theorem DrawsDiffer.mono {m n : Nat} (h : C.DrawsDiffer n) (hm : m ≤ n) : C.DrawsDiffer m := fun i j hi hj => h i j (by omega) (by omega)

/-- The IVs of the file were drawn so far, none of a block is zeros, and no two are the same (if the
    generator did not repeat itself). -/
structure IvInv (C : FullCfg) (p : Parts) : Prop where
  drawn : ∀ s, allZeros (C.slot p s) = false → C.Drawn 0 p.rng (C.iv p s)
  nonzero : ∀ k, allZeros (C.slot p (some k)) = false → allZeros (C.iv p (some k)) = false
  once : C.DrawsDiffer p.rng → ∀ s s', allZeros (C.slot p s) = false → allZeros (C.slot p s') = false → C.iv p s = C.iv p s' → s = s'

/-- Everything encrypted in `b` is in `a` already, or has an IV drawn since. -/
structure IvLink (C : FullCfg) (a b : Parts) : Prop where
  rng : a.rng ≤ b.rng
  blk : ∀ s, allZeros (C.slot b s) = false → C.slot b s = C.slot a s ∧ C.iv b s = C.iv a s ∨ C.Drawn a.rng b.rng (C.iv b s)

theorem IvLink.refl (a : Parts) : IvLink C a a := ⟨Nat.le_refl _, fun _ _ => Or.inl ⟨rfl, rfl⟩⟩

theorem IvLink.trans {a b c : Parts} (h1 : IvLink C a b) (h2 : IvLink C b c) : IvLink C a c := by
  refine ⟨h1.rng.trans h2.rng, fun k hk => ?_⟩
  rcases h2.blk k hk with ⟨h, hi⟩ | h
  · rcases h1.blk k (by rw [← h]; exact hk) with ⟨h', hi'⟩ | h'
    · exact Or.inl ⟨h.trans h', hi.trans hi'⟩
    · exact Or.inr (by rw [hi]; exact h'.mono (Nat.le_refl _) h2.rng)
  · exact Or.inr (h.mono h1.rng (Nat.le_refl _))

/-- A change that keeps what was there or gives it an IV drawn in it (`f` says which draw). -/
theorem IvInv.change {a p p' : Parts} (hI : IvInv C p) (hL : IvLink C a p) (hle : p.rng ≤ p'.rng) (fresh : Option Nat → Prop) (f : Option Nat → Nat)
    (hf : ∀ s, fresh s → p.rng ≤ f s ∧ f s < p'.rng ∧ C.iv p' s = C.rng.draw (f s) C.ivSize)
    (hnz : ∀ k, fresh (some k) → allZeros (C.iv p' (some k)) = false)
    (hinj : ∀ s s', fresh s → fresh s' → f s = f s' → s = s')
    (hold : ∀ s, ¬ fresh s → allZeros (C.slot p' s) = false → C.iv p' s = C.iv p s ∧
      (C.slot p' s = C.slot p s ∨ (allZeros (C.slot p s) = false ∧ C.Drawn a.rng p.rng (C.iv p s)))) :
    IvInv C p' ∧ IvLink C a p' := by
  have hz : ∀ s, ¬ fresh s → allZeros (C.slot p' s) = false → allZeros (C.slot p s) = false := by
    intro s hs h
    rcases (hold s hs h).2 with h' | h'
    · rw [← h']; exact h
    · exact h'.1
  refine ⟨⟨fun s hs => ?_, fun k hk => ?_, fun hd s s' hs hs' he => ?_⟩, Nat.le_trans hL.rng hle, fun s hs => ?_⟩
  · by_cases h : fresh s
    · obtain ⟨h1, h2, h3⟩ := hf s h
      exact ⟨_, Nat.zero_le _, h2, h3⟩
    · rw [(hold s h hs).1]
      exact (hI.drawn s (hz s h hs)).mono (Nat.le_refl _) hle
  · by_cases h : fresh (some k)
    · exact hnz k h
    · rw [(hold _ h hk).1]
      exact hI.nonzero k (hz _ h hk)
  · -- an old and a new one differ
    have mixed : ∀ x y, fresh x → ¬ fresh y → allZeros (C.slot p' y) = false → C.iv p' x ≠ C.iv p' y := by
      intro x y hx hy hn hxy
      obtain ⟨h1, h2, h3⟩ := hf x hx
      rw [(hold y hy hn).1] at hxy
      obtain ⟨i, _, hi, hv⟩ := hI.drawn y (hz y hy hn)
      rw [h3, hv] at hxy
      have := hd _ _ h2 (by omega) hxy
      omega
    by_cases h : fresh s
    · by_cases h' : fresh s'
      · obtain ⟨h1, h2, h3⟩ := hf s h
        obtain ⟨h1', h2', h3'⟩ := hf s' h'
        rw [h3, h3'] at he
        exact hinj s s' h h' (hd _ _ h2 h2' he)
      · exact absurd he (mixed s s' h h' hs')
    · by_cases h' : fresh s'
      · exact absurd he.symm (mixed s' s h' h hs)
      · rw [(hold s h hs).1, (hold s' h' hs').1] at he
        exact hI.once (hd.mono hle) s s' (hz s h hs) (hz s' h' hs') he
  · by_cases h : fresh s
    · obtain ⟨h1, h2, h3⟩ := hf s h
      exact Or.inr ⟨_, Nat.le_trans hL.rng h1, h2, h3⟩
    · obtain ⟨h1, h2 | ⟨_, h2⟩⟩ := hold s h hs
      · rcases hL.blk s (hz s h hs) with ⟨h3, h4⟩ | h3
        · exact Or.inl ⟨h2.trans h3, h1.trans h4⟩
        · exact Or.inr (by rw [h1]; exact h3.mono (Nat.le_refl _) hle)
      · exact Or.inr (by rw [h1]; exact h2.mono (Nat.le_refl _) hle)

theorem writeLoop_draws (hC : C.WF) : ∀ (fuel n rng : Nat) (input : Bytes) {d m rng'},
    C.writeLoop fuel n rng input = .ok (d, m, rng') →
    d.length = n ∧ m.length = nblk C.bs n * C.metaSize ∧ rng ≤ rng' ∧ ∃ f : Nat → Nat,
      (∀ j, j * C.bs < n → rng ≤ f j ∧ f j < rng' ∧ (m.drop (j * C.metaSize)).take C.ivSize = C.rng.draw (f j) C.ivSize ∧
        allZeros (C.rng.draw (f j) C.ivSize) = false) ∧
      (∀ j j', j < j' → j' * C.bs < n → f j < f j') := by
  have hb := hC.bs_pos
  have hlen : ∀ n, (C.rng.draw n C.ivSize).length = C.ivSize := fun n => hC.rng.len n _
  have base : ∀ (n rng : Nat), n = 0 → (([] : Bytes).length = n ∧ ([] : Bytes).length = nblk C.bs n * C.metaSize ∧ rng ≤ rng ∧ ∃ f : Nat → Nat,
      (∀ j, j * C.bs < n → rng ≤ f j ∧ f j < rng ∧ (([] : Bytes).drop (j * C.metaSize)).take C.ivSize = C.rng.draw (f j) C.ivSize ∧
        allZeros (C.rng.draw (f j) C.ivSize) = false) ∧
      (∀ j j', j < j' → j' * C.bs < n → f j < f j')) := by
    rintro n rng rfl
    exact ⟨rfl, by rw [nblk_zero hb]; simp, Nat.le_refl _, fun _ => 0, fun j hj => by omega, fun j j' _ hj => by omega⟩
  intro fuel
  induction fuel with
  | zero =>
    intro n rng input d m rng' h
    rw [writeLoop] at h
    split at h
    · rename_i h0
      cases h
      exact base n rng h0
    · cases h
  | succ fuel ih =>
    intro n rng input d m rng' h
    rw [writeLoop] at h
    by_cases h0 : n = 0
    · rw [if_pos h0] at h
      cases h
      exact base n rng h0
    rw [if_neg h0] at h
    cases hq : drawIv C.rng C.ivSize C.ivFuel rng with
    | error e => simp only [hq, bind, Except.bind] at h; cases h
    | ok q =>
      simp only [hq, bind, Except.bind] at h
      split at h
      · cases h
      rename_i hin
      cases hw : C.writeLoop fuel (n - min C.bs n) q.2 (input.drop (min C.bs n)) with
      | error e => simp only [hw] at h; cases h
      | ok rest =>
        simp only [hw, Except.ok.injEq, Prod.mk.injEq] at h
        obtain ⟨d1, m1, r1⟩ := rest
        obtain ⟨hl, hm, hle, f, hf1, hf2⟩ := ih _ _ _ hw
        obtain ⟨hivl, hnz⟩ := drawIv_inv C.rng C.ivSize hlen _ _ (iv := q.1) (n' := q.2) hq
        obtain ⟨hq1, hq2⟩ := LiteCfg.drawIv_index C.rng C.ivSize _ _ (iv := q.1) (n' := q.2) hq
        have c1 := hC.gcm.ct_len q.1 C.id (input.take (min C.bs n))
        have t1 := hC.gcm.mac_len q.1 C.id (input.take (min C.bs n))
        rw [List.length_take] at c1
        have hE : (q.1 ++ (C.gcm.enc q.1 C.id (input.take (min C.bs n))).2).length = C.metaSize := by
          rw [List.length_append, hivl, t1]; rfl
        obtain ⟨h1, h2, h3⟩ := h
        dsimp only at h1 h2 h3 hle hf1
        subst h1 h2 h3
        have hnb : nblk C.bs n = nblk C.bs (n - min C.bs n) + 1 := by
          rcases Nat.le_total C.bs n with h | h
          · rw [Nat.min_eq_left h]
            have := nblk_add hb 1 (n - C.bs)
            rw [show 1 * C.bs + (n - C.bs) = n by omega] at this
            omega
          · rw [Nat.min_eq_right h, Nat.sub_self, nblk_zero hb, nblk_small hb (by omega) h]
        have hstep : ∀ j, 0 < j → j * C.bs < n → min C.bs n = C.bs ∧ (j - 1) * C.bs < n - min C.bs n := by
          intro j hj hjm
          have h3 : 1 * C.bs ≤ j * C.bs := Nat.mul_le_mul_right _ hj
          have h4 : (j - 1) * C.bs + 1 * C.bs = j * C.bs := by rw [← Nat.add_mul]; congr 1; omega
          omega
        refine ⟨by rw [List.length_append, hl]; omega, by rw [List.length_append, hE, hm, hnb, Nat.add_mul]; omega, by omega,
          fun j => if j = 0 then q.2 - 1 else f (j - 1), ?_, ?_⟩
        · intro j hj
          dsimp only
          by_cases h0 : j = 0
          · rw [if_pos h0, h0, Nat.zero_mul, List.drop_zero, ← hq2]
            refine ⟨by omega, by omega, ?_, hnz⟩
            rw [List.append_assoc, ← hivl, List.take_left]
          · rw [if_neg h0]
            obtain ⟨e1, e2⟩ := hstep j (by omega) hj
            obtain ⟨k1, k2, k3, k4⟩ := hf1 (j - 1) e2
            refine ⟨by omega, by omega, ?_, k4⟩
            rw [← k3]
            have e3 : j * C.metaSize = (q.1 ++ (C.gcm.enc q.1 C.id (input.take (min C.bs n))).2).length + (j - 1) * C.metaSize := by
              rw [hE]
              conv_lhs => rw [show j = (j - 1) + 1 by omega, Nat.add_mul, Nat.one_mul]
              omega
            rw [e3, ← List.drop_drop, List.drop_left]
        · intro j j' hjj hj'
          dsimp only
          obtain ⟨e1, e2⟩ := hstep j' (by omega) hj'
          rw [if_neg (show j' ≠ 0 by omega)]
          have := (hf1 (j' - 1) e2).1
          by_cases h0 : j = 0
          · rw [if_pos h0]; omega
          · rw [if_neg h0]
            exact hf2 _ _ (by omega) e2

/-- What a successful `writeMulti` does to the parts. -/
theorem writeMulti_parts (hC : C.WF) {hd H st c} (hR : Repr C.strict hd H st c) {s e r : Nat} {inp : Bytes} {st' : FullSt}
    (hs : s * C.bs ≤ c.length) (hpos : 0 < (e - s) * C.bs + r) (h : C.writeMulti st s e r inp = .ok st') :
    ∃ d m rng' m0, C.writeLoop (e - s + 1) ((e - s) * C.bs + r) st.rng inp = .ok (d, m, rng') ∧
      FEnc C.bs C.metaSize C.strict.decodeBlock st.data m0 c ∧ C.parts st = ⟨H, m0, st.data, st.rng⟩ ∧
      C.parts st' = ⟨H, splice m0 (s * C.metaSize) m, splice st.data (s * C.bs) d, rng'⟩ := by
  have hb := hC.bs_pos
  have hHl : H.length = C.encHeaderSize := hR.hlen
  unfold writeMulti at h
  split at h
  · cases h
  rw [Nat.mul_comm C.bs] at h
  simp only [bind, Except.bind] at h
  split at h
  · cases h
  rename_i q hq
  obtain ⟨d, m, rng'⟩ := q
  obtain ⟨hl, hm, _, _⟩ := writeLoop_draws hC _ _ _ _ hq
  obtain ⟨m0, hp, hE⟩ := hR.enc
  refine ⟨d, m, rng', m0, hq, hE, parts_eq hR hp, ?_⟩
  have hml : m ≠ [] := by
    intro hx
    rw [hx, List.length_nil] at hm
    have h1 := nblk_pos hb hpos
    have h2 : 0 < C.metaSize := by unfold metaSize; omega
    have := Nat.mul_pos h1 h2
    omega
  have hm0 : s * C.metaSize ≤ m0.length := by
    have h1 : m0.length = nblk C.bs c.length * C.metaSize := hE.mlen
    rw [h1]
    apply Nat.mul_le_mul_right
    have := nblk_mono (bs := C.bs) hs
    rwa [nblk_mul hb] at this
  have hpay : C.payload st = H ++ m0 := hp
  have hP : st'.metaS.file.drop 32 = H ++ splice m0 (s * C.metaSize) m := by
    cases h
    change (ufWrite st.metaS.file (C.metaPos s + 32) m).drop 32 = _
    rw [ufWrite_drop]
    unfold metaPos
    rw [write_payload _ C.encHeaderSize (C.metaSize * s) m hml]
    · change splice (C.payload st) _ _ = _
      rw [hpay, ← hHl, splice_app, Nat.mul_comm]
    · change _ ≤ (C.payload st).length
      rw [hpay, List.length_append, hHl, Nat.mul_comm]; omega
  have hpl : C.payload st' = H ++ splice m0 (s * C.metaSize) m := by
    rw [payload_of_le (by rw [hP, List.length_append, hHl]; omega), hP]
  unfold parts
  rw [hpl, ← hHl, List.take_left, List.drop_left]
  cases h
  dsimp only
  rw [LiteCfg.ufWrite_splice _ _ _ (by rw [hE.dlen]; exact hs)]

/-- What a successful `writeMulti` does to the IVs. -/
theorem writeMulti_ivs (hC : C.WF) {hd H st c} (hR : Repr C.strict hd H st c) {s e r : Nat} {inp : Bytes} {st' : FullSt} (hse : s ≤ e)
    (hs : s * C.bs ≤ c.length) (hpos : 0 < (e - s) * C.bs + r) (hI : IvInv C (C.parts st)) (h : C.writeMulti st s e r inp = .ok st') :
    IvInv C (C.parts st') ∧ IvLink C (C.parts st) (C.parts st') ∧
    (∀ k, s ≤ k → k * C.bs < e * C.bs + r → C.Drawn (C.parts st).rng (C.parts st').rng (C.iv (C.parts st') (some k)) ∧
      allZeros (C.iv (C.parts st') (some k)) = false) := by
  have hb := hC.bs_pos
  obtain ⟨d, m, rng', m0, hq, hE, e0, e1⟩ := writeMulti_parts hC hR hs hpos h
  obtain ⟨hl, hm, hle, f, hf1, hf2⟩ := writeLoop_draws hC _ _ _ _ hq
  have hd0 : s * C.bs ≤ st.data.length := by rw [hE.dlen]; exact hs
  have hm0 : s * C.metaSize ≤ m0.length := by
    rw [hE.mlen]
    apply Nat.mul_le_mul_right
    have := nblk_mono (bs := C.bs) hs
    rwa [nblk_mul hb] at this
  have hes : e * C.bs = s * C.bs + (e - s) * C.bs := by rw [← Nat.add_mul]; congr 1; omega
  have hcov : ∀ k, s ≤ k → k * C.bs < e * C.bs + r → st.rng ≤ f (k - s) ∧ f (k - s) < rng' ∧
      C.iv (C.parts st') (some k) = C.rng.draw (f (k - s)) C.ivSize ∧ allZeros (C.rng.draw (f (k - s)) C.ivSize) = false := by
    intro k hk hk2
    have hks : (k - s) * C.bs + s * C.bs = k * C.bs := by rw [← Nat.add_mul]; congr 1; omega
    obtain ⟨a1, a2, a3, a4⟩ := hf1 (k - s) (by omega)
    refine ⟨a1, a2, ?_, a4⟩
    rw [e1, ← a3]
    unfold iv
    dsimp only
    have hlen2 : (k - s) * C.metaSize + C.ivSize ≤ m.length := by
      rw [hm]
      have h1 : k - s + 1 ≤ nblk C.bs ((e - s) * C.bs + r) := by
        have := nblk_mono (bs := C.bs) (show (k - s) * C.bs + 1 ≤ (e - s) * C.bs + r by omega)
        rw [nblk_add hb, nblk_small hb (by omega) (by omega)] at this
        exact this
      have h2 := Nat.mul_le_mul_right C.metaSize h1
      have h3 : C.metaSize = C.ivSize + 16 := rfl
      rw [Nat.add_mul, Nat.one_mul] at h2
      omega
    have := piece_in (s := s) (f := m0) (x := m) (j := k - s) (t := C.ivSize) hm0 hlen2
    rwa [show s + (k - s) = k by omega] at this
  have hold : ∀ k, ¬ (s ≤ k ∧ k * C.bs < e * C.bs + r) → C.slot (C.parts st') (some k) = C.slot (C.parts st) (some k) ∧
      C.iv (C.parts st') (some k) = C.iv (C.parts st) (some k) := by
    intro k hk
    rw [e0, e1]
    unfold slot iv
    dsimp only
    have h3 : C.metaSize = C.ivSize + 16 := rfl
    by_cases h1 : k < s
    · rw [piece_before hm0 h1 (Nat.le_refl _), piece_before hd0 h1 (Nat.le_refl _), piece_before hm0 h1 (by omega)]
      exact ⟨rfl, rfl⟩
    · have h2 : e * C.bs + r ≤ k * C.bs := by
        by_contra hx
        exact hk ⟨by omega, by omega⟩
      have hks : (k - s) * C.bs + s * C.bs = k * C.bs := by rw [← Nat.add_mul]; congr 1; omega
      have hku : (k - s) * C.metaSize + s * C.metaSize = k * C.metaSize := by rw [← Nat.add_mul]; congr 1; omega
      have h4 : nblk C.bs ((e - s) * C.bs + r) ≤ k - s := nblk_le_iff hb (by omega)
      have h5 := Nat.mul_le_mul_right C.metaSize h4
      rw [piece_after hm0 (by omega), piece_after hd0 (by omega), piece_after hm0 (by omega)]
      exact ⟨rfl, rfl⟩
  have r0 : (C.parts st).rng = st.rng := rfl
  have r1 : (C.parts st').rng = rng' := by rw [e1]
  obtain ⟨hA, hB⟩ := IvInv.change (p' := C.parts st') hI (.refl _) (by rw [r0, r1]; exact hle) (fun x => ∃ k, x = some k ∧ s ≤ k ∧ k * C.bs < e * C.bs + r)
    (fun x => match x with | none => 0 | some k => f (k - s)) (by
      rintro _ ⟨k, rfl, h1, h2⟩
      obtain ⟨a1, a2, a3, _⟩ := hcov k h1 h2
      rw [r0, r1]
      exact ⟨a1, a2, a3⟩) (by
      rintro k ⟨_, hk, h1, h2⟩
      cases hk
      obtain ⟨_, _, a3, a4⟩ := hcov k h1 h2
      rw [a3]
      exact a4) (by
      rintro _ _ ⟨k, rfl, h1, h2⟩ ⟨k', rfl, h1', h2'⟩ he
      dsimp only at he
      have hks : (k - s) * C.bs + s * C.bs = k * C.bs := by rw [← Nat.add_mul]; congr 1; omega
      have hks' : (k' - s) * C.bs + s * C.bs = k' * C.bs := by rw [← Nat.add_mul]; congr 1; omega
      rcases Nat.lt_trichotomy (k - s) (k' - s) with hlt | heq | hgt
      · have := hf2 _ _ hlt (by omega); omega
      · congr 1; omega
      · have := hf2 _ _ hgt (by omega); omega) (by
      intro x hx _
      cases x with
      | none => rw [e0, e1]; exact ⟨rfl, Or.inl rfl⟩
      | some k =>
        obtain ⟨h1, h2⟩ := hold k (fun hc => hx ⟨k, rfl, hc⟩)
        exact ⟨h2, Or.inl h1⟩)
  refine ⟨hA, hB, fun k h1 h2 => ?_⟩
  obtain ⟨a1, a2, a3, a4⟩ := hcov k h1 h2
  rw [r0, r1, a3]
  exact ⟨⟨_, a1, a2, rfl⟩, a4⟩

/-- What `adjust` does to the parts. -/
theorem adjust_parts {hd H st c} (hR : Repr C.strict hd H st c) {n : Nat} {m0 : Bytes} (hp : C.payload st = H ++ m0) {st' : FullSt} (h : C.adjust st n = .ok st') :
    C.parts st' = ⟨H, Spec.resize m0 (nblk C.bs n * C.metaSize), Spec.resize st.data n, st.rng⟩ := by
  have hHl : H.length = C.encHeaderSize := hR.hlen
  have e := Except.ok.inj h
  have hP : st'.metaS.file.drop 32 = H ++ Spec.resize m0 (nblk C.bs n * C.metaSize) := by
    rw [← e]
    exact adjust_payload hHl hp _
  have hpl : C.payload st' = H ++ Spec.resize m0 (nblk C.bs n * C.metaSize) := by
    rw [payload_of_le (by rw [hP, List.length_append, hHl]; omega), hP]
  unfold parts
  rw [hpl, ← hHl, List.take_left, List.drop_left, ← e]
  rfl

theorem allZeros_nil : allZeros [] = true := rfl

theorem resize_cut {f : Bytes} {n : Nat} (h : n ≤ f.length) : Spec.resize f n = f.take n := by
  unfold Spec.resize
  rw [Nat.sub_eq_zero_of_le h]; simp

theorem resize_more {f : Bytes} {n : Nat} (h : f.length ≤ n) : Spec.resize f n = f ++ zeros (n - f.length) := by
  unfold Spec.resize
  rw [List.take_of_length_le h]
  rfl

theorem allZeros_app {a b : Bytes} (ha : allZeros a = true) (hb : allZeros b = true) : allZeros (a ++ b) = true := by
  rw [allZeros_append, ha, hb]; rfl

/-- Cutting a file whose last block (if it is cut) was just written. -/
theorem cut_ivs (hC : C.WF) {a : Parts} {H m0 d0 : Bytes} {rng n : Nat} (hn : n ≤ d0.length) (hm : m0.length = nblk C.bs d0.length * C.metaSize)
    (hI : IvInv C ⟨H, m0, d0, rng⟩) (hL : IvLink C a ⟨H, m0, d0, rng⟩)
    (hnew : 0 < n % C.bs → C.Drawn a.rng rng (C.iv ⟨H, m0, d0, rng⟩ (some (n / C.bs))) ∧ allZeros (C.iv ⟨H, m0, d0, rng⟩ (some (n / C.bs))) = false) :
    IvInv C ⟨H, Spec.resize m0 (nblk C.bs n * C.metaSize), Spec.resize d0 n, rng⟩ ∧
    IvLink C a ⟨H, Spec.resize m0 (nblk C.bs n * C.metaSize), Spec.resize d0 n, rng⟩ := by
  have hb := hC.bs_pos
  have hmm : nblk C.bs n * C.metaSize ≤ m0.length := by rw [hm]; exact Nat.mul_le_mul_right _ (nblk_mono hn)
  rw [resize_cut hmm, resize_cut hn]
  have hms : C.metaSize = C.ivSize + 16 := rfl
  have hdm := Nat.div_add_mod' n C.bs
  have hml := Nat.mod_lt n hb
  have hnb : nblk C.bs n = n / C.bs + if 0 < n % C.bs then 1 else 0 := by
    have h1 := nblk_add hb (n / C.bs) (n % C.bs)
    rw [hdm] at h1
    rw [h1]
    split
    · rename_i h0; rw [nblk_small hb h0 (by omega)]
    · rename_i h0; rw [show n % C.bs = 0 by omega, nblk_zero hb]
  refine IvInv.change hI hL (Nat.le_refl _) (fun _ => False) (fun _ => 0) (fun _ h => h.elim) (fun _ h => h.elim) (fun _ _ h => h.elim) fun s _ hs => ?_
  cases s with
  | none => exact ⟨rfl, Or.inl rfl⟩
  | some k =>
    unfold slot at hs
    dsimp only at hs
    rcases Nat.lt_trichotomy k (n / C.bs) with h | h | h
    · have h1 : (k + 1) * C.bs ≤ n / C.bs * C.bs := Nat.mul_le_mul_right _ h
      have h2 : (k + 1) * C.metaSize ≤ nblk C.bs n * C.metaSize := Nat.mul_le_mul_right _ (by omega)
      rw [Nat.add_mul, Nat.one_mul] at h1 h2
      unfold slot iv
      dsimp only
      rw [List.drop_take, List.drop_take, List.take_take, List.take_take, List.take_take, Nat.min_eq_left (by omega), Nat.min_eq_left (by omega),
        Nat.min_eq_left (by omega)]
      exact ⟨rfl, Or.inl rfl⟩
    · by_cases h0 : 0 < n % C.bs
      · obtain ⟨n1, n2⟩ := hnew h0
        rw [if_pos h0] at hnb
        have h2 : (k + 1) * C.metaSize ≤ nblk C.bs n * C.metaSize := Nat.mul_le_mul_right _ (by omega)
        rw [Nat.add_mul, Nat.one_mul] at h2
        rw [← h] at n1 n2
        refine ⟨?_, Or.inr ⟨?_, n1⟩⟩
        · unfold iv
          dsimp only
          rw [List.drop_take, List.take_take, Nat.min_eq_left (by omega)]
        · unfold slot
          dsimp only
          rw [allZeros_append]
          have : allZeros ((m0.drop (k * C.metaSize)).take C.metaSize) = false := by
            cases hx : allZeros ((m0.drop (k * C.metaSize)).take C.metaSize) with
            | false => rfl
            | true =>
              have := LiteCfg.allZeros_take C.ivSize hx
              rw [List.take_take, Nat.min_eq_left (by omega)] at this
              unfold iv at n2
              dsimp only at n2
              rw [this] at n2; cases n2
          rw [this]; rfl
      · rw [if_neg h0] at hnb
        have h2 : nblk C.bs n * C.metaSize ≤ k * C.metaSize := Nat.mul_le_mul_right _ (by omega)
        rw [h] at hs
        rw [List.drop_eq_nil_of_le (by rw [List.length_take, ← h]; omega), List.drop_eq_nil_of_le (by rw [List.length_take]; omega), List.take_nil, List.take_nil] at hs
        cases hs
    · have h2 : nblk C.bs n * C.metaSize ≤ k * C.metaSize := Nat.mul_le_mul_right _ (by split at hnb <;> omega)
      have h3 : (n / C.bs + 1) * C.bs ≤ k * C.bs := Nat.mul_le_mul_right _ h
      rw [Nat.add_mul, Nat.one_mul] at h3
      rw [List.drop_eq_nil_of_le (by rw [List.length_take]; omega), List.drop_eq_nil_of_le (by rw [List.length_take]; omega), List.take_nil, List.take_nil] at hs
      cases hs

/-- Appending zeros to a file of whole blocks. -/
theorem grow_ivs (hC : C.WF) {a : Parts} {H m0 d0 : Bytes} {rng n K : Nat} (hd : d0.length = K * C.bs) (hn : d0.length ≤ n)
    (hm : m0.length = K * C.metaSize) (hI : IvInv C ⟨H, m0, d0, rng⟩) (hL : IvLink C a ⟨H, m0, d0, rng⟩) :
    IvInv C ⟨H, Spec.resize m0 (nblk C.bs n * C.metaSize), Spec.resize d0 n, rng⟩ ∧
    IvLink C a ⟨H, Spec.resize m0 (nblk C.bs n * C.metaSize), Spec.resize d0 n, rng⟩ := by
  have hb := hC.bs_pos
  have hK : K ≤ nblk C.bs n := by
    have := nblk_mono (bs := C.bs) hn
    rwa [hd, nblk_mul hb] at this
  rw [resize_more (by rw [hm]; exact Nat.mul_le_mul_right _ hK), resize_more hn]
  have hms : C.metaSize = C.ivSize + 16 := rfl
  refine IvInv.change hI hL (Nat.le_refl _) (fun _ => False) (fun _ => 0) (fun _ h => h.elim) (fun _ h => h.elim) (fun _ _ h => h.elim) fun s _ hs => ?_
  cases s with
  | none => exact ⟨rfl, Or.inl rfl⟩
  | some k =>
    rcases Nat.lt_or_ge k K with h | h
    · have h1 : (k + 1) * C.bs ≤ K * C.bs := Nat.mul_le_mul_right _ h
      have h2 : (k + 1) * C.metaSize ≤ K * C.metaSize := Nat.mul_le_mul_right _ h
      rw [Nat.add_mul, Nat.one_mul] at h1 h2
      unfold slot iv
      dsimp only
      rw [List.drop_append_of_le_length (by omega), List.drop_append_of_le_length (by omega), List.take_append_of_le_length (by rw [List.length_drop]; omega),
        List.take_append_of_le_length (by rw [List.length_drop]; omega), List.take_append_of_le_length (by rw [List.length_drop]; omega)]
      exact ⟨rfl, Or.inl rfl⟩
    · have h1 : K * C.bs ≤ k * C.bs := Nat.mul_le_mul_right _ h
      have h2 : K * C.metaSize ≤ k * C.metaSize := Nat.mul_le_mul_right _ h
      unfold slot at hs
      dsimp only at hs
      have key : ∀ (f : Bytes) (p q t : Nat), f.length ≤ p → allZeros (((f ++ zeros q).drop p).take t) = true := by
        intro f p q t hp
        rw [List.drop_append, List.drop_eq_nil_of_le hp, List.nil_append]
        unfold zeros
        rw [List.drop_replicate, List.take_replicate]
        exact allZeros_zeros _
      rw [allZeros_app (key _ _ _ _ (by omega)) (key _ _ _ _ (by omega))] at hs
      cases hs

theorem uncheckedWrite_ivs (hC : C.WF) {hd H} {st st' : FullSt} {c : Bytes} (hR : Repr C.strict hd H st c) (hI : IvInv C (C.parts st)) {inp : WInput} {off len : Nat}
    (hoff : off ≤ c.length) (hlim : off + len ≤ fullMaxBlocks * C.bs) (h : C.dev.uncheckedWrite st inp off len = .ok st') :
    IvInv C (C.parts st') ∧ IvLink C (C.parts st) (C.parts st') := by
  have hb := hC.bs_pos
  have hp := BlockDev.uncheckedWrite_plan (refines_strict hC hd H) hR hlim h
  unfold BlockDev.writePlan at hp
  split at hp
  · cases hp
    exact ⟨hI, .refl _⟩
  · rename_i hlen
    obtain ⟨st1, ⟨buf, hw⟩, hx⟩ := hp
    cases hx
    change C.writeMulti st (off / C.bs) ((off + len) / C.bs) (if (off + len) % C.bs = 0 then 0 else
      max ((off + len) % C.bs) (min C.bs (c.length - (off + len) / C.bs * C.bs))) buf = .ok st' at hw
    have hdm := Nat.div_mul_le_self off C.bs
    have hdiv : off / C.bs ≤ (off + len) / C.bs := Nat.div_le_div_right (Nat.le_add_right _ _)
    have hpos : 0 < ((off + len) / C.bs - off / C.bs) * C.bs + (if (off + len) % C.bs = 0 then 0 else
      max ((off + len) % C.bs) (min C.bs (c.length - (off + len) / C.bs * C.bs))) := by
      split
      · rename_i h0
        have h1 := Nat.div_add_mod' (off + len) C.bs
        have h2 : off / C.bs < (off + len) / C.bs := by
          by_contra hx
          have : (off + len) / C.bs = off / C.bs := by omega
          rw [this] at h1
          omega
        have := Nat.mul_pos (show 0 < (off + len) / C.bs - off / C.bs by omega) hb
        omega
      · omega
    obtain ⟨h1, h2, _⟩ := writeMulti_ivs hC hR hdiv (by omega) hpos hI hw
    exact ⟨h1, h2⟩

theorem uncheckedResize_ivs (hC : C.WF) {hd H} {st st' : FullSt} {c : Bytes} (hR : Repr C.strict hd H st c) (hI : IvInv C (C.parts st)) {n : Nat}
    (hlim : n ≤ fullMaxBlocks * C.bs) (h : C.dev.uncheckedResize st c.length n = .ok st') :
    IvInv C (C.parts st') ∧ IvLink C (C.parts st) (C.parts st') := by
  have hb := hC.bs_pos
  obtain ⟨m0, hp0, hE⟩ := hR.enc
  have e0 := parts_eq hR hp0
  have hdl : st.data.length = c.length := hE.dlen
  have hml0 : m0.length = nblk C.bs c.length * C.metaSize := hE.mlen
  rcases Nat.lt_trichotomy n c.length with hn | hn | hn
  · have hp := BlockDev.uncheckedResize_plan (refines_strict hC hd H) hR hlim h
    unfold BlockDev.resizePlan at hp
    rw [if_neg (by omega), if_pos hn] at hp
    change BlockDev.DoesAll C.dev st ((if n % C.bs > 0 then [.blocks (n / C.bs) (n / C.bs) (n % C.bs)] else []) ++ [.adjust n]) st' at hp
    have hdm := Nat.div_add_mod' n C.bs
    by_cases h0 : n % C.bs > 0
    · rw [if_pos h0] at hp
      obtain ⟨st1, ⟨buf, hw⟩, st2, ha, hx⟩ := hp
      cases hx
      change C.writeMulti st (n / C.bs) (n / C.bs) (n % C.bs) buf = .ok st1 at hw
      change C.adjust st1 n = .ok st' at ha
      obtain ⟨h1, h2, h3⟩ := writeMulti_ivs hC hR (Nat.le_refl _) (by omega) (by omega) hI hw
      obtain ⟨d, m, rng', m0', hq, hE', e1, e2⟩ := writeMulti_parts hC hR (by omega) (by omega) hw
      obtain ⟨hl, hm, _, _⟩ := writeLoop_draws hC _ _ _ _ hq
      rw [e0] at e1
      injection e1 with _ e1 _ _
      subst e1
      rw [Nat.sub_self, Nat.zero_mul, Nat.zero_add] at hl hm
      have hmod := Nat.mod_lt n hb
      rw [nblk_small hb h0 (by omega), Nat.one_mul] at hm
      have hfd : n / C.bs * C.bs ≤ st.data.length := by omega
      have hfm : n / C.bs * C.metaSize ≤ m0.length := by
        rw [hml0]
        apply Nat.mul_le_mul_right
        have := nblk_mono (bs := C.bs) (show n / C.bs * C.bs ≤ c.length by omega)
        rwa [nblk_mul hb] at this
      have hld : (splice st.data (n / C.bs * C.bs) d).length = c.length := by rw [splice_length _ _ _ hfd]; omega
      have hlm : (splice m0 (n / C.bs * C.metaSize) m).length = nblk C.bs c.length * C.metaSize := by
        rw [splice_length _ _ _ hfm, hm, hml0]
        have h4 : n / C.bs + 1 ≤ nblk C.bs c.length := by
          have := nblk_mono (bs := C.bs) (Nat.le_of_lt hn)
          have h5 := nblk_add hb (n / C.bs) (n % C.bs)
          rw [hdm, nblk_small hb h0 (by omega)] at h5
          omega
        have h5 := Nat.mul_le_mul_right C.metaSize h4
        rw [Nat.add_mul, Nat.one_mul] at h5
        omega
      -- the second change, on the parts
      have hfin : C.parts st' = ⟨H, Spec.resize (splice m0 (n / C.bs * C.metaSize) m) (nblk C.bs n * C.metaSize),
          Spec.resize (splice st.data (n / C.bs * C.bs) d) n, rng'⟩ := by
        have hHl : H.length = C.encHeaderSize := hR.hlen
        have hpay1 : C.payload st1 = H ++ splice m0 (n / C.bs * C.metaSize) m := by
          have i1 : (C.parts st1).H = H := by rw [e2]
          have i2 : (C.parts st1).m = splice m0 (n / C.bs * C.metaSize) m := by rw [e2]
          change (C.payload st1).take C.encHeaderSize = H at i1
          change (C.payload st1).drop C.encHeaderSize = _ at i2
          rw [← List.take_append_drop C.encHeaderSize (C.payload st1), i1, i2]
        have hdat1 : st1.data = splice st.data (n / C.bs * C.bs) d := by
          have : (C.parts st1).d = splice st.data (n / C.bs * C.bs) d := by rw [e2]
          exact this
        have hrng1 : st1.rng = rng' := by
          have : (C.parts st1).rng = rng' := by rw [e2]
          exact this
        have e := Except.ok.inj ha
        have hP : st'.metaS.file.drop 32 = H ++ Spec.resize (splice m0 (n / C.bs * C.metaSize) m) (nblk C.bs n * C.metaSize) := by
          rw [← e]
          exact adjust_payload hHl hpay1 _
        have hpl : C.payload st' = H ++ Spec.resize (splice m0 (n / C.bs * C.metaSize) m) (nblk C.bs n * C.metaSize) := by
          rw [payload_of_le (by rw [hP, List.length_append, hHl]; omega), hP]
        unfold parts
        rw [hpl, ← hHl, List.take_left, List.drop_left, ← e, ← hdat1, ← hrng1]
        rfl
      rw [hfin]
      rw [e2] at h1 h2 h3
      exact cut_ivs hC (by omega) (by rw [hlm, hld]) h1 h2 fun _ => h3 _ (Nat.le_refl _) (by omega)
    · rw [if_neg h0] at hp
      obtain ⟨st2, ha, hx⟩ := hp
      cases hx
      rw [adjust_parts hR hp0 ha]
      rw [e0] at hI ⊢
      exact cut_ivs hC (by omega) (by rw [hml0, hdl]) hI (.refl _) fun h => absurd h (by omega)
  · unfold BlockDev.uncheckedResize at h
    rw [if_pos hn] at h
    cases h
    exact ⟨hI, .refl _⟩
  · unfold BlockDev.uncheckedResize at h
    rw [if_neg (by omega), if_neg (by omega)] at h
    simp only [bind, Except.bind] at h
    split at h
    · cases h
    rename_i st1 hg
    -- the length after the zero filling
    obtain ⟨fin, hf1, hf2, hf3, hf4⟩ : ∃ fin, c.length ≤ fin ∧ fin ≤ n ∧ (fin = n ∨ fin % C.bs = 0) ∧ C.dev.zeroFillTo st c.length fin = .ok st1 := by
      unfold BlockDev.growPrep at hg
      change (if C.sparse = false ∨ c.length / C.bs = n / C.bs then _ else C.dev.zeroFillTo st c.length (c.length / C.bs * C.bs + C.bs)) = _ at hg
      by_cases hs : C.sparse = false ∨ c.length / C.bs = n / C.bs
      · rw [if_pos hs] at hg
        exact ⟨n, by omega, Nat.le_refl _, Or.inl rfl, hg⟩
      · rw [if_neg hs] at hg
        have h3 : c.length / C.bs < n / C.bs := by
          have := Nat.div_le_div_right (c := C.bs) (show c.length ≤ n by omega)
          rcases Nat.lt_or_ge (c.length / C.bs) (n / C.bs) with h | h
          · exact h
          · exact absurd (Or.inr (by omega)) hs
        have h4 : (c.length / C.bs + 1) * C.bs ≤ n / C.bs * C.bs := Nat.mul_le_mul_right _ h3
        have h5 := Nat.div_mul_le_self n C.bs
        have h6 := Nat.div_add_mod' c.length C.bs
        have h7 := Nat.mod_lt c.length hb
        rw [Nat.add_mul, Nat.one_mul] at h4
        exact ⟨_, by omega, by omega, Or.inr (by rw [Nat.add_mod_right, Nat.mul_mod_left]), hg⟩
    obtain ⟨st1', hz1, hR1⟩ := (refines_strict hC hd H).zeroFill_refines hR fin hf1 (by exact Nat.le_trans hf2 hlim)
    rw [hz1] at hf4
    cases hf4
    obtain ⟨h1, h2⟩ := uncheckedWrite_ivs hC hR hI (Nat.le_refl _) (by omega) hz1
    have hcl : (c ++ zeros (fin - c.length)).length = fin := by rw [List.length_append, zeros_length]; omega
    obtain ⟨m1, hp1, hE1⟩ := hR1.enc
    have hdl1 : st1.data.length = fin := by rw [← hcl]; exact hE1.dlen
    have hml1 : m1.length = nblk C.bs fin * C.metaSize := by rw [← hcl]; exact hE1.mlen
    have e1 := parts_eq hR1 hp1
    rw [adjust_parts hR1 hp1 h]
    rcases hf3 with hf3 | hf3
    · rw [hf3] at hml1 hdl1
      rw [resize_cut (by omega), resize_cut (by omega), List.take_of_length_le (by omega), List.take_of_length_le (by omega), ← e1]
      exact ⟨h1, h2⟩
    · have hdm := Nat.div_add_mod' fin C.bs
      have hk : fin = fin / C.bs * C.bs := by omega
      rw [e1] at h1 h2
      exact grow_ivs hC (K := fin / C.bs) (by omega) (by omega) (by rw [hml1]; conv_lhs => rw [hk, nblk_mul hb]) h1 h2

theorem write_ivs (hC : C.WF) {hd H} {st st' : FullSt} {c : Bytes} (hR : Repr C.strict hd H st c) (hI : IvInv C (C.parts st)) {off : Nat} {d : Bytes}
    (hlim : off + d.length ≤ fullMaxBlocks * C.bs) (h : C.dev.write st off d = .ok st') :
    IvInv C (C.parts st') ∧ IvLink C (C.parts st) (C.parts st') := by
  unfold BlockDev.write at h
  by_cases h0 : d.length = 0
  · rw [if_pos h0] at h
    cases h
    exact ⟨hI, .refl _⟩
  rw [if_neg h0, (refines_strict hC hd H).size_eq hR] at h
  by_cases h1 : off > c.length
  · rw [if_pos h1] at h
    obtain ⟨st1, hr, hR1⟩ := (refines_strict hC hd H).uncheckedResize_refines hR off (by exact Nat.le_trans (Nat.le_add_right _ _) hlim)
    simp only [bind, Except.bind, hr] at h
    have hl : off ≤ (Spec.resize c off).length := by
      simp only [Spec.resize, List.length_append, List.length_take, List.length_replicate]; omega
    obtain ⟨a1, a2⟩ := uncheckedResize_ivs hC hR hI (by omega) hr
    obtain ⟨b1, b2⟩ := uncheckedWrite_ivs hC hR1 a1 hl hlim h
    exact ⟨b1, a2.trans b2⟩
  · rw [if_neg h1] at h
    exact uncheckedWrite_ivs hC hR hI (by omega) hlim h

end FullCfg
end Securefs

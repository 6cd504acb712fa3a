import Verif.Proofs.SealedLite
/-! Runs of a lite file: the stored form of the file, and the IVs. -/

namespace Securefs

/-! ## Lengths of the ideal -/

theorem spec_write_length (c : Bytes) (off : Nat) (d : Bytes) :
    (Spec.write c off d).length = if d.length = 0 then c.length else max c.length (off + d.length) := by
  unfold Spec.write
  by_cases h : d = []
  · rw [if_pos h, if_pos (by rw [h]; rfl)]
  · have : 0 < d.length := List.length_pos_iff.mpr h
    rw [if_neg h, if_neg (by omega)]
    simp only [List.length_append, List.length_take, List.length_replicate, List.length_drop]
    omega

theorem spec_step_length {c d : Bytes} (hl : c.length = d.length) {op1 op2 : Spec.Op} (hs : op1.shape = op2.shape) :
    (Spec.step c op1).1.length = (Spec.step d op2).1.length := by
  cases op1 <;> cases op2 <;> simp only [Spec.Op.shape, reduceCtorEq, Spec.Op.write.injEq, Spec.Op.resize.injEq] at hs
  · exact hl
  · obtain ⟨rfl, hs⟩ := hs
    have hxy := congrArg List.length hs
    simp only [List.length_replicate] at hxy
    simp only [Spec.step, spec_write_length, hxy, hl]
  · subst hs
    simp only [Spec.step, Spec.resize, List.length_append, List.length_take, List.length_replicate, hl]
  · exact hl
  · exact hl

theorem shape_extent {op1 op2 : Spec.Op} (hs : op1.shape = op2.shape) : op1.extent = op2.extent := by
  cases op1 <;> cases op2 <;>
    simp only [Spec.Op.shape, reduceCtorEq, Spec.Op.write.injEq, Spec.Op.resize.injEq, Spec.Op.read.injEq] at hs
  · simp only [Spec.Op.extent, hs.1, hs.2]
  · obtain ⟨rfl, hs⟩ := hs
    have hxy := congrArg List.length hs
    simp only [List.length_replicate] at hxy
    simp only [Spec.Op.extent, hxy]
  · simp only [Spec.Op.extent, hs]
  · rfl
  · rfl

/-- A list cut into pieces of length `u`. -/
theorem take_pieces (u : Nat) (l : Bytes) : ∀ n, l.take (n * u) = (List.range n).flatMap fun k => (l.drop (k * u)).take u
  | 0 => by simp
  | n + 1 => by
    rw [List.range_succ, List.flatMap_append, ← take_pieces u l n, Nat.add_mul, Nat.one_mul, List.take_add]
    simp

theorem flatMap_range_congr {f g : Nat → Bytes} {n : Nat} (h : ∀ k, k < n → f k = g k) : (List.range n).flatMap f = (List.range n).flatMap g := by
  induction n with
  | zero => rfl
  | succ n ih =>
    rw [List.range_succ, List.flatMap_append, List.flatMap_append, ih fun k hk => h k (by omega)]
    simp [h n (by omega)]

theorem lt_blocks {bs n k : Nat} (hb : 0 < bs) : k < Spec.blocks bs n ↔ k * bs < n := by
  unfold Spec.blocks
  constructor
  · intro h
    have h1 : (k + 1) * bs ≤ (n + bs - 1) / bs * bs := Nat.mul_le_mul_right _ h
    have h2 := Nat.div_mul_le_self (n + bs - 1) bs
    rw [Nat.add_mul, Nat.one_mul] at h1
    omega
  · intro h
    rw [Nat.lt_div_iff_mul_lt hb]
    have := Nat.mul_comm bs k
    omega

namespace LiteCfg
variable {C : LiteCfg} {o : LiteObj}

/-- The IVs that show in a file: none where the IV is zeros. -/
def ivsOf (C : LiteCfg) (o : LiteObj) (f : Bytes) (k : Nat) : Option Bytes :=
  if allZeros (C.ivAt o f k) then none else some (C.ivAt o f k)

theorem ivAt_agree {f g : Bytes} (h : Agree (C.shows o) f g) (k : Nat) : C.ivAt o f k = C.ivAt o g k := by
  unfold ivAt blockAt
  rw [List.take_take, List.take_take]
  apply List.ext_getElem?
  intro i
  rw [List.getElem?_take, List.getElem?_take, List.getElem?_drop, List.getElem?_drop]
  split
  · rename_i hi
    refine h.2 _ (Or.inr ?_)
    have hu : C.ivSize < C.ubs := by unfold ubs; omega
    rw [show o.headerSize + k * C.ubs + i - o.headerSize = i + k * C.ubs by omega, Nat.add_mul_mod_self_right, Nat.mod_eq_of_lt (by omega)]
    omega
  · rfl

theorem allZeros_take {b : Bytes} (n : Nat) (h : allZeros b = true) : allZeros (b.take n) = true := by
  unfold allZeros at *
  rw [List.all_eq_true] at *
  exact fun x hx => h x (List.mem_of_mem_take hx)

/-- In a file of real ciphertexts every block that is not a hole has an IV that is not zeros. -/
def IvNonzero (C : LiteCfg) (o : LiteObj) (f : Bytes) : Prop := ∀ k, allZeros (C.blockAt o f k) = false → allZeros (C.ivAt o f k) = false

/-- The file is the rendering of its contents with the IVs that show. -/
theorem render_of_repr (hC : C.WF) {st : LiteSt} {c : Bytes} (h : Repr C.strict o st c) (hz : IvNonzero C o st.file) :
    st.file = Spec.render C.bs (C.ivSize + 16) (C.encodeBlock o) (o.id ++ o.pad) (C.ivsOf o st.file) c ∧ Spec.HolesZero C.bs (C.ivsOf o st.file) c := by
  have hb : 0 < C.bs := by have := hC.bs_ge; omega
  have hblk : ∀ k, k * C.bs < c.length → C.blockAt o st.file k = (match C.ivsOf o st.file k with
      | none => List.replicate ((Spec.chunk C.bs c k).length + (C.ivSize + 16)) 0
      | some iv => C.encodeBlock o k iv (Spec.chunk C.bs c k)) ∧
      (C.ivsOf o st.file k = none → Spec.chunk C.bs c k = List.replicate (Spec.chunk C.bs c k).length 0) := by
    intro k hk
    unfold ivsOf
    rcases blockAt_sealed hC h hk with ⟨h1, h2⟩ | ⟨h1, h2⟩
    · have : allZeros (C.ivAt o st.file k) = true := allZeros_take _ (by rw [h1]; exact allZeros_zeros _)
      rw [if_pos this]
      exact ⟨h1, fun _ => h2⟩
    · have := hz k h1
      rw [if_neg (by rw [this]; decide)]
      refine ⟨h2, ?_⟩
      intro hx
      cases hx
  refine ⟨?_, ?_⟩
  · have hf := h.file_eq
    conv_lhs => rw [hf]
    unfold Spec.render
    congr 1
    have hlen : (st.file.drop o.headerSize).length ≤ Spec.blocks C.bs c.length * C.ubs := by
      have hl : (st.file.drop o.headerSize).length = encLen C.bs (C.ivSize + 16) c.length := h.enc.len
      rw [hl]
      have h1 : c.length ≤ Spec.blocks C.bs c.length * C.bs := by
        by_contra hx
        have := (lt_blocks (n := c.length) (k := Spec.blocks C.bs c.length) hb).mpr (by omega)
        omega
      have h2 := encLen_mono (ov := C.ivSize + 16) hb h1
      rwa [encLen_mul hb, ← ubs_eq] at h2
    rw [← List.take_of_length_le hlen, take_pieces]
    apply flatMap_range_congr
    intro k hk
    rw [List.drop_drop]
    exact (hblk k ((lt_blocks hb).mp hk)).1
  · intro k hk
    by_cases hkl : k * C.bs < c.length
    · exact (hblk k hkl).2 hk
    · have : Spec.chunk C.bs c k = [] := by
        unfold Spec.chunk
        rw [List.drop_eq_nil_of_le (by omega)]; simp
      rw [this]; rfl

/-! ## IVs -/

/-- The IV is one that was drawn between the counters `lo` and `hi`. -/
def Drawn (C : LiteCfg) (lo hi : Nat) (iv : Bytes) : Prop := ∃ i, lo ≤ i ∧ i < hi ∧ iv = C.rng.draw i C.ivSize

theorem drawIv_index (R : Rng) (size : Nat) : ∀ (fuel n : Nat) {iv n'}, drawIv R size fuel n = .ok (iv, n') → n < n' ∧ iv = R.draw (n' - 1) size
  | 0, _, _, _, h => by cases h
  | fuel + 1, n, iv, n', h => by
    rw [drawIv] at h
    split at h
    · have := drawIv_index R size fuel (n + 1) h
      exact ⟨by omega, this.2⟩
    · cases h
      exact ⟨by omega, rfl⟩

theorem writeLoop_draws (hC : C.WF) : ∀ (fuel blk m rng : Nat) (input : Bytes) {out rng'},
    C.writeLoop o fuel blk (encLen C.bs (C.ivSize + 16) m) rng input = .ok (out, rng') →
    out.length = encLen C.bs (C.ivSize + 16) m ∧ rng ≤ rng' ∧ ∃ f : Nat → Nat,
      (∀ j, j * C.bs < m → rng ≤ f j ∧ f j < rng' ∧ (out.drop (j * C.ubs)).take C.ivSize = C.rng.draw (f j) C.ivSize ∧
        allZeros (C.rng.draw (f j) C.ivSize) = false) ∧
      (∀ j j', j < j' → j' * C.bs < m → f j < f j') := by
  have hb : 0 < C.bs := by have := hC.bs_ge; omega
  have hlen : ∀ n, (C.rng.draw n C.ivSize).length = C.ivSize := fun n => hC.rng.len n _
  have hpos : ∀ {m}, 0 < m → 0 < encLen C.bs (C.ivSize + 16) m := by
    intro m hm
    have := encLen_inj_lt (ov := C.ivSize + 16) hb hm
    omega
  intro fuel
  induction fuel with
  | zero =>
    intro blk m rng input out rng' h
    rw [writeLoop] at h
    split at h
    · rename_i h0
      cases h
      have hm : m = 0 := by
        rcases Nat.eq_zero_or_pos m with hm | hm
        · exact hm
        · have := hpos hm; omega
      exact ⟨h0.symm, Nat.le_refl _, fun _ => 0, fun j hj => by omega, fun j j' _ hj => by omega⟩
    · cases h
  | succ fuel ih =>
    intro blk m rng input out rng' h
    rcases Nat.eq_zero_or_pos m with rfl | hm
    · rw [encLen_zero hb] at h ⊢
      rw [writeLoop, if_pos rfl] at h
      cases h
      exact ⟨rfl, Nat.le_refl _, fun _ => 0, fun j hj => by omega, fun j j' _ hj => by omega⟩
    · have hu := @ubs_eq C
      obtain ⟨v, hv, hvb, hrest⟩ : ∃ v, 0 < v ∧ v = min C.bs m ∧
          encLen C.bs (C.ivSize + 16) m = (v + (C.ivSize + 16)) + encLen C.bs (C.ivSize + 16) (m - v) := by
        refine ⟨min C.bs m, by omega, rfl, ?_⟩
        rcases Nat.lt_or_ge m C.bs with h1 | h1
        · rw [Nat.min_eq_right (by omega), Nat.sub_self, encLen_zero hb, encLen_small hb hm h1]; rfl
        · rw [Nat.min_eq_left h1]
          have := encLen_add (bs := C.bs) (ov := C.ivSize + 16) hb 1 (m - C.bs)
          rw [show 1 * C.bs + (m - C.bs) = m by omega, Nat.one_mul] at this
          exact this
      have hmin : min C.ubs (encLen C.bs (C.ivSize + 16) m) = v + (C.ivSize + 16) := by
        rcases Nat.lt_or_ge m C.bs with h1 | h1
        · rw [encLen_small hb hm h1, hu]; omega
        · rw [hrest, hu]; omega
      have := hpos hm
      rw [writeLoop, if_neg (by omega)] at h
      dsimp only at h
      rw [hmin, if_neg (by omega), show v + (C.ivSize + 16) - 16 - C.ivSize = v by omega, if_pos hv] at h
      split at h
      · cases h
      rename_i hin
      cases hq : drawIv C.rng C.ivSize C.ivFuel rng with
      | error e => simp only [hq, bind, Except.bind] at h; cases h
      | ok q =>
        simp only [hq, bind, Except.bind] at h
        have hr : encLen C.bs (C.ivSize + 16) m - (v + (C.ivSize + 16)) = encLen C.bs (C.ivSize + 16) (m - v) := by omega
        rw [hr] at h
        cases hw : C.writeLoop o fuel (blk + 1) (encLen C.bs (C.ivSize + 16) (m - v)) q.2 (input.drop v) with
        | error e => simp only [hw] at h; cases h
        | ok rest =>
          simp only [hw, Except.ok.injEq, Prod.mk.injEq] at h
          obtain ⟨r1, r2⟩ := rest
          obtain ⟨hl, hle, f, hf1, hf2⟩ := ih _ _ _ _ hw
          obtain ⟨hivl, hnz⟩ := drawIv_inv C.rng C.ivSize hlen _ _ (iv := q.1) (n' := q.2) hq
          obtain ⟨hq1, hq2⟩ := drawIv_index C.rng C.ivSize _ _ (iv := q.1) (n' := q.2) hq
          have hbl : (C.encodeBlock o blk q.1 (input.take v)).length = v + (C.ivSize + 16) := by
            rw [encodeBlock_length hC _ _ _ hivl, List.length_take]; omega
          obtain ⟨h1, h2⟩ := h
          subst h1
          dsimp only at hle h2 hf1
          have hstep : ∀ j, 0 < j → j * C.bs < m → v = C.bs ∧ (j - 1) * C.bs < m - v := by
            intro j hj hjm
            have h3 : 1 * C.bs ≤ j * C.bs := Nat.mul_le_mul_right _ hj
            have h4 : (j - 1) * C.bs + 1 * C.bs = j * C.bs := by rw [← Nat.add_mul]; congr 1; omega
            omega
          refine ⟨by rw [List.length_append, hbl, hl]; omega, by omega, fun j => if j = 0 then q.2 - 1 else f (j - 1), ?_, ?_⟩
          · intro j hj
            dsimp only
            by_cases h0 : j = 0
            · rw [if_pos h0, h0, Nat.zero_mul, List.drop_zero, ← hq2]
              refine ⟨by omega, by omega, ?_, hnz⟩
              unfold encodeBlock
              rw [List.append_assoc, List.append_assoc, ← hivl, List.take_left]
            · rw [if_neg h0]
              obtain ⟨e1, e2⟩ := hstep j (by omega) hj
              obtain ⟨k1, k2, k3, k4⟩ := hf1 (j - 1) e2
              refine ⟨by omega, by omega, ?_, k4⟩
              rw [← k3]
              have e3 : j * C.ubs = (C.encodeBlock o blk q.1 (input.take v)).length + (j - 1) * C.ubs := by
                rw [hbl, e1, ← hu]
                conv_lhs => rw [show j = (j - 1) + 1 by omega, Nat.add_mul, Nat.one_mul]
                omega
              rw [e3, ← List.drop_drop, List.drop_left]
          · intro j j' hjj hj'
            dsimp only
            obtain ⟨e1, e2⟩ := hstep j' (by omega) hj'
            rw [if_neg (show j' ≠ 0 by omega)]
            have := (hf1 (j' - 1) e2).1
            by_cases h0 : j = 0
            · rw [if_pos h0]; omega
            · rw [if_neg h0]
              exact hf2 _ _ (by omega) e2

/-- The draws up to `n` give different IVs. -/
def DrawsDiffer (C : LiteCfg) (n : Nat) : Prop := ∀ i j, i < n → j < n → C.rng.draw i C.ivSize = C.rng.draw j C.ivSize → i = j

theorem DrawsDiffer.mono {m n : Nat} (h : C.DrawsDiffer n) (hm : m ≤ n) : C.DrawsDiffer m := fun i j hi hj => h i j (by omega) (by omega)

/-- The IVs of the file were drawn so far, none is zeros, and no two blocks have the same one (if the
    generator did not repeat itself). -/
structure IvInv (C : LiteCfg) (o : LiteObj) (st : LiteSt) : Prop where
  drawn : ∀ k, allZeros (C.blockAt o st.file k) = false → C.Drawn 0 st.rng (C.ivAt o st.file k)
  nonzero : IvNonzero C o st.file
  once : C.DrawsDiffer st.rng → ∀ k k', allZeros (C.blockAt o st.file k) = false → allZeros (C.blockAt o st.file k') = false →
    C.ivAt o st.file k = C.ivAt o st.file k' → k = k'

/-- Every encrypted block of `b` is in `a` already, or has an IV drawn since. -/
structure IvLink (C : LiteCfg) (o : LiteObj) (a b : LiteSt) : Prop where
  rng : a.rng ≤ b.rng
  blk : ∀ k, allZeros (C.blockAt o b.file k) = false →
    C.blockAt o b.file k = C.blockAt o a.file k ∨ C.Drawn a.rng b.rng (C.ivAt o b.file k)

theorem IvLink.refl (a : LiteSt) : IvLink C o a a := ⟨Nat.le_refl _, fun _ _ => Or.inl rfl⟩

theorem Drawn.mono {lo hi lo' hi' : Nat} {iv : Bytes} (h : C.Drawn lo hi iv) (h1 : lo' ≤ lo) (h2 : hi ≤ hi') : C.Drawn lo' hi' iv := by
  obtain ⟨i, a, b, c⟩ := h
  exact ⟨i, by omega, by omega, c⟩

theorem IvLink.trans {a b c : LiteSt} (h1 : IvLink C o a b) (h2 : IvLink C o b c) : IvLink C o a c := by
  refine ⟨h1.rng.trans h2.rng, fun k hk => ?_⟩
  rcases h2.blk k hk with h | h
  · rcases h1.blk k (by rw [← h]; exact hk) with h' | h'
    · exact Or.inl (h.trans h')
    · exact Or.inr (by unfold ivAt at *; rw [h]; exact h'.mono (Nat.le_refl _) h2.rng)
  · exact Or.inr (h.mono h1.rng (Nat.le_refl _))

theorem blockAt_splice_before {f out : Bytes} {s k : Nat} (hs : o.headerSize + s * C.ubs ≤ f.length) (hk : k < s) :
    C.blockAt o (splice f (o.headerSize + s * C.ubs) out) k = C.blockAt o f k := by
  have h1 : (k + 1) * C.ubs ≤ s * C.ubs := Nat.mul_le_mul_right _ hk
  rw [Nat.add_mul, Nat.one_mul] at h1
  unfold blockAt
  apply List.ext_getElem?
  intro i
  rw [List.getElem?_take, List.getElem?_take, List.getElem?_drop, List.getElem?_drop, getElem?_splice _ _ _ _ hs]
  split
  · rw [if_pos (by omega)]
  · rfl

theorem blockAt_splice_after {f out : Bytes} {s k : Nat} (hs : o.headerSize + s * C.ubs ≤ f.length)
    (hk : s * C.ubs + out.length ≤ k * C.ubs) : C.blockAt o (splice f (o.headerSize + s * C.ubs) out) k = C.blockAt o f k := by
  unfold blockAt
  apply List.ext_getElem?
  intro i
  rw [List.getElem?_take, List.getElem?_take, List.getElem?_drop, List.getElem?_drop, getElem?_splice _ _ _ _ hs]
  split
  · rw [if_neg (by omega), if_neg (by omega)]
  · rfl

theorem ivAt_splice_in {f out : Bytes} {s j : Nat} (hs : o.headerSize + s * C.ubs ≤ f.length) (hj : j * C.ubs + C.ivSize ≤ out.length) :
    C.ivAt o (splice f (o.headerSize + s * C.ubs) out) (s + j) = (out.drop (j * C.ubs)).take C.ivSize := by
  unfold ivAt blockAt
  have hu : C.ivSize ≤ C.ubs := by unfold ubs; omega
  rw [List.take_take, Nat.min_eq_left hu, Nat.add_mul]
  apply List.ext_getElem?
  intro i
  rw [List.getElem?_take, List.getElem?_take, List.getElem?_drop, List.getElem?_drop, getElem?_splice _ _ _ _ hs]
  split
  · rw [if_neg (by omega), if_pos (by omega)]
    congr 1; omega
  · rfl

theorem ivAt_zeros {f : Bytes} {k : Nat} (h : allZeros (C.ivAt o f k) = false) : allZeros (C.blockAt o f k) = false := by
  cases h' : allZeros (C.blockAt o f k) with
  | false => rfl
  | true => rw [ivAt, allZeros_take _ h'] at h; cases h

/-- What a successful `writeMulti` does to the IVs. -/
theorem writeMulti_ivs (hC : C.WF) {st st' : LiteSt} {s e r : Nat} {inp : Bytes} (hse : s ≤ e) (hr : r ≤ C.bs)
    (hs : o.headerSize + s * C.ubs ≤ st.file.length) (hI : IvInv C o st) (h : C.writeMulti o st s e r inp = .ok st') :
    IvInv C o st' ∧ IvLink C o st st' ∧ (∀ k, s ≤ k → k * C.bs < e * C.bs + r → C.Drawn st.rng st'.rng (C.ivAt o st'.file k)) ∧ st.file.length ≤ st'.file.length := by
  have hb : 0 < C.bs := by have := hC.bs_ge; omega
  unfold writeMulti at h
  split at h
  · cases h
  dsimp only at h
  rw [encLen_cond hb (e - s) r hr] at h
  cases hw : C.writeLoop o (e - s + 1) s (encLen C.bs (C.ivSize + 16) ((e - s) * C.bs + r)) st.rng inp with
  | error e => simp only [hw, bind, Except.bind] at h; cases h
  | ok q =>
    simp only [hw, bind, Except.bind, Except.ok.injEq] at h
    obtain ⟨out, rng'⟩ := q
    obtain ⟨hl, hle, f, hf1, hf2⟩ := writeLoop_draws hC _ _ _ _ _ hw
    dsimp only at h
    rw [Nat.add_comm (s * C.ubs), ufWrite_splice _ _ _ hs] at h
    subst h
    dsimp only at hle ⊢
    have hes : e * C.bs = s * C.bs + (e - s) * C.bs := by rw [← Nat.add_mul]; congr 1; omega
    -- a covered block
    have hcov : ∀ k, s ≤ k → k * C.bs < e * C.bs + r → st.rng ≤ f (k - s) ∧ f (k - s) < rng' ∧
        C.ivAt o (splice st.file (o.headerSize + s * C.ubs) out) k = C.rng.draw (f (k - s)) C.ivSize ∧
        allZeros (C.rng.draw (f (k - s)) C.ivSize) = false := by
      intro k hk hk2
      have hks : (k - s) * C.bs + s * C.bs = k * C.bs := by rw [← Nat.add_mul]; congr 1; omega
      obtain ⟨a1, a2, a3, a4⟩ := hf1 (k - s) (by omega)
      refine ⟨a1, a2, ?_, a4⟩
      have hlen2 : (k - s) * C.ubs + C.ivSize ≤ out.length := by
        rw [hl]
        have h1 := encLen_mono (bs := C.bs) (ov := C.ivSize + 16) hb (show (k - s) * C.bs + 1 ≤ (e - s) * C.bs + r by omega)
        rw [encLen_add hb, ← ubs_eq] at h1
        have h3 := encLen_le_small (bs := C.bs) (ov := C.ivSize + 16) hb (m := 1) (by omega) (by omega)
        omega
      have := ivAt_splice_in (C := C) (o := o) (out := out) (j := k - s) hs hlen2
      rw [show s + (k - s) = k by omega] at this
      rw [this, a3]
    -- any other block
    have hold : ∀ k, ¬ (s ≤ k ∧ k * C.bs < e * C.bs + r) → C.blockAt o (splice st.file (o.headerSize + s * C.ubs) out) k = C.blockAt o st.file k := by
      intro k hk
      by_cases h1 : k < s
      · exact blockAt_splice_before hs h1
      · refine blockAt_splice_after hs ?_
        have h2 : e * C.bs + r ≤ k * C.bs := by
          by_contra hx
          exact hk ⟨by omega, by omega⟩
        have hks : (k - s) * C.bs + s * C.bs = k * C.bs := by rw [← Nat.add_mul]; congr 1; omega
        have h3 := encLen_mono (bs := C.bs) (ov := C.ivSize + 16) hb (show (e - s) * C.bs + r ≤ (k - s) * C.bs by omega)
        rw [encLen_mul hb, ← ubs_eq, ← hl] at h3
        have hku : (k - s) * C.ubs + s * C.ubs = k * C.ubs := by rw [← Nat.add_mul]; congr 1; omega
        omega
    have hiv : ∀ k, ¬ (s ≤ k ∧ k * C.bs < e * C.bs + r) → C.ivAt o (splice st.file (o.headerSize + s * C.ubs) out) k = C.ivAt o st.file k := by
      intro k hk
      unfold ivAt
      rw [hold k hk]
    refine ⟨⟨?_, ?_, ?_⟩, ⟨hle, ?_⟩, ?_, by rw [splice_length _ _ _ hs]; omega⟩
    · intro k hk
      by_cases hc : s ≤ k ∧ k * C.bs < e * C.bs + r
      · obtain ⟨_, a2, a3, _⟩ := hcov k hc.1 hc.2
        exact ⟨_, Nat.zero_le _, a2, a3⟩
      · dsimp only at hk ⊢
        rw [hold k hc] at hk
        rw [hiv k hc]
        exact (hI.drawn k hk).mono (Nat.le_refl _) hle
    · intro k hk
      by_cases hc : s ≤ k ∧ k * C.bs < e * C.bs + r
      · obtain ⟨_, _, a3, a4⟩ := hcov k hc.1 hc.2
        rw [a3]; exact a4
      · rw [hold k hc] at hk
        rw [hiv k hc]
        exact hI.nonzero k hk
    · intro hd k k' hk hk' he
      dsimp only at hd hk hk' he
      have mixed : ∀ {k k'}, (s ≤ k ∧ k * C.bs < e * C.bs + r) → ¬ (s ≤ k' ∧ k' * C.bs < e * C.bs + r) →
          allZeros (C.blockAt o (splice st.file (o.headerSize + s * C.ubs) out) k') = false →
          C.ivAt o (splice st.file (o.headerSize + s * C.ubs) out) k = C.ivAt o (splice st.file (o.headerSize + s * C.ubs) out) k' → False := by
        intro k k' hc hc' hk' he
        obtain ⟨a1, a2, a3, _⟩ := hcov k hc.1 hc.2
        rw [hold k' hc'] at hk'
        obtain ⟨i, _, i2, i3⟩ := hI.drawn k' hk'
        rw [a3, hiv k' hc', i3] at he
        have := hd _ _ a2 (by omega) he
        omega
      by_cases hc : s ≤ k ∧ k * C.bs < e * C.bs + r <;> by_cases hc' : s ≤ k' ∧ k' * C.bs < e * C.bs + r
      · obtain ⟨a1, a2, a3, _⟩ := hcov k hc.1 hc.2
        obtain ⟨b1, b2, b3, _⟩ := hcov k' hc'.1 hc'.2
        rw [a3, b3] at he
        have hff := hd _ _ a2 b2 he
        have hks : (k - s) * C.bs + s * C.bs = k * C.bs := by rw [← Nat.add_mul]; congr 1; omega
        have hks' : (k' - s) * C.bs + s * C.bs = k' * C.bs := by rw [← Nat.add_mul]; congr 1; omega
        rcases Nat.lt_trichotomy (k - s) (k' - s) with h1 | h1 | h1
        · have := hf2 _ _ h1 (by omega); omega
        · omega
        · have := hf2 _ _ h1 (by omega); omega
      · exact (mixed hc hc' hk' he).elim
      · exact (mixed hc' hc hk he.symm).elim
      · rw [hold k hc] at hk
        rw [hold k' hc'] at hk'
        rw [hiv k hc, hiv k' hc'] at he
        exact hI.once (hd.mono hle) k k' hk hk' he
    · intro k hk
      by_cases hc : s ≤ k ∧ k * C.bs < e * C.bs + r
      · obtain ⟨a1, a2, a3, _⟩ := hcov k hc.1 hc.2
        exact Or.inr ⟨_, a1, a2, a3⟩
      · exact Or.inl (hold k hc)
    · intro k h1 h2
      obtain ⟨a1, a2, a3, _⟩ := hcov k h1 h2
      exact ⟨_, a1, a2, a3⟩

end LiteCfg
end Securefs

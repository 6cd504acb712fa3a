import Verif.Model.FullStream
import Verif.Proofs.LiteStream
/-! The full-format stream, the HMAC stream and the padded stream refine byte arrays. -/

namespace Securefs

/-! ## HMACStream -/

theorem runMacLoop_ok (f : Bytes) : ∀ (fuel off : Nat), f.length - off < fuel →
    runMacLoop f fuel off = .ok (f.drop off) := by
  intro fuel
  induction fuel with
  | zero => intro off h; omega
  | succ fuel ih =>
    intro off h
    unfold runMacLoop
    have hl : (ufRead f off 4096).length = min 4096 (f.length - off) := by simp [ufRead]
    dsimp only
    by_cases h0 : (ufRead f off 4096).length = 0
    · rw [if_pos h0]
      rw [hl] at h0
      rw [List.drop_eq_nil_of_le (by omega)]
    · rw [if_neg h0]
      rw [hl] at h0
      rw [ih _ (by rw [hl]; omega)]
      simp only [bind, Except.bind]
      rw [← List.drop_drop]
      congr 1
      rw [hl]
      conv_rhs => rw [← List.take_append_drop (min 4096 (f.length - off)) (f.drop off)]
      congr 1
      unfold ufRead
      apply List.ext_getElem?
      intro i
      rw [List.getElem?_take, List.getElem?_take, List.getElem?_drop]
      list_cases

theorem runMac_ok (id f : Bytes) : runMac id f = .ok (id ++ f.drop 32) := by
  unfold runMac
  rw [runMacLoop_ok f _ _ (by omega)]
  rfl

/-- A meta file that `hmacOpen` accepts. -/
def HmacValid (hm : Bytes → Bytes) (id f : Bytes) : Prop :=
  f = [] ∨ (32 ≤ f.length ∧ f.take 32 = hm (id ++ f.drop 32))

theorem hmacOpen_ok {hm : Bytes → Bytes} {id f : Bytes} (check : Bool)
    (h : HmacValid hm id f) : hmacOpen hm id check f = .ok ⟨f, false⟩ := by
  unfold hmacOpen
  split
  · simp only [ufRead, List.drop_zero]
    rcases h with rfl | ⟨h1, h2⟩
    · simp
    · rw [List.length_take, Nat.min_eq_left h1, if_neg (by omega), if_neg (by omega), runMac_ok]
      simp only [bind, Except.bind]
      rw [if_pos h2.symm]
  · rfl

theorem hmacOpen_inv {hm : Bytes → Bytes} {id f : Bytes} {st : HmacSt}
    (h : hmacOpen hm id true f = .ok st) : HmacValid hm id f ∧ st = ⟨f, false⟩ := by
  unfold hmacOpen at h
  simp only [ufRead, List.drop_zero, if_true, List.length_take, runMac_ok, bind, Except.bind] at h
  split at h
  · rename_i h0
    have : f = [] := List.eq_nil_of_length_eq_zero (by omega)
    subst this
    cases h
    exact ⟨Or.inl rfl, rfl⟩
  · split at h
    · cases h
    · rename_i h1
      split at h
      · rename_i h2
        cases h
        exact ⟨Or.inr ⟨by omega, h2.symm⟩, rfl⟩
      · cases h

/-- Flushing makes the file valid, keeps the payload, and (for a non-empty payload) clears dirty. -/
theorem hmacFlush_ok {hm : Bytes → Bytes} (hl : ∀ m, (hm m).length = 32) {id : Bytes}
    {st : HmacSt} (h : st.dirty = false → HmacValid hm id st.file) :
    ∃ st', hmacFlush hm id st = .ok st' ∧ HmacValid hm id st'.file ∧ st'.dirty = false ∧
      st'.file.drop 32 = st.file.drop 32 ∧
      (st'.file.length = st.file.length ∨ (st.dirty = true ∧ st.file.length < 32 ∧ st'.file.length = 32)) := by
  unfold hmacFlush
  split
  · rename_i hd
    rw [runMac_ok]
    simp only [bind, Except.bind]
    rw [LiteCfg.ufWrite_splice _ _ _ (by omega)]
    have hdrop : (splice st.file 0 (hm (id ++ st.file.drop 32))).drop 32 = st.file.drop 32 := by
      unfold splice
      rw [List.take_zero, List.nil_append, hl, List.drop_left' (hl _)]
    refine ⟨_, rfl, Or.inr ⟨?_, ?_⟩, rfl, hdrop, ?_⟩
    · rw [splice_length _ _ _ (by omega), hl]; omega
    · rw [hdrop]
      unfold splice
      rw [List.take_zero, List.nil_append, hl, List.take_left' (hl _)]
    · rw [splice_length _ _ _ (by omega), hl]
      rcases Nat.lt_or_ge st.file.length 32 with h | h
      · right; exact ⟨hd, h, by omega⟩
      · left; omega
  · rename_i hd
    exact ⟨st, rfl, h (by simpa using hd), by simpa using hd, rfl, Or.inl rfl⟩

/-- Relation for the HMAC stream: the payload is the content. -/
def HmacRepr (hm : Bytes → Bytes) (id : Bytes) (st : HmacSt) (c : Bytes) : Prop :=
  st.file.drop 32 = c ∧ (st.dirty = false → HmacValid hm id st.file)

theorem ufWrite_drop (f : Bytes) (h off : Nat) (d : Bytes) :
    (ufWrite f (off + h) d).drop h = Spec.write (f.drop h) off d := by
  unfold ufWrite Spec.write
  cases d with
  | nil => simp
  | cons x xs =>
    simp only [List.isEmpty_cons, Bool.false_eq_true, ↓reduceIte, reduceCtorEq]
    generalize x :: xs = d
    apply List.ext_getElem?
    intro i
    simp only [List.getElem?_drop, List.getElem?_append, List.length_append, List.length_take,
      List.length_drop, zeros_length, List.getElem?_take, zeros_getElem?, List.length_replicate,
      List.getElem?_replicate]
    list_cases

theorem ufResize_drop (f : Bytes) (h n : Nat) :
    (ufResize f (n + h)).drop h = Spec.resize (f.drop h) n := by
  unfold ufResize Spec.resize
  apply List.ext_getElem?
  intro i
  simp only [List.getElem?_drop, List.getElem?_append, List.length_take,
    List.length_drop, List.getElem?_take, zeros_getElem?, List.getElem?_replicate]
  list_cases

theorem hmac_refines {hm : Bytes → Bytes} (hl : ∀ m, (hm m).length = 32) (id : Bytes)
    (check : Bool) (lim : Nat) : (hmacStream hm id check).Refines (HmacRepr hm id) lim := by
  refine ⟨?_, ?_, ?_, ?_, ?_⟩
  · rintro st c off len ⟨rfl, _⟩ _
    simp only [hmacStream, hmacRead, ufRead, Spec.read, List.drop_drop, Nat.add_comm off]
  · rintro st c off d ⟨rfl, _⟩ _
    exact ⟨_, rfl, ufWrite_drop _ _ _ _, fun h => by cases h⟩
  · rintro st c n ⟨rfl, _⟩ _
    exact ⟨_, rfl, ufResize_drop _ _ _, fun h => by cases h⟩
  · rintro st c ⟨rfl, _⟩
    simp only [hmacStream, hmacSize, List.length_drop]
    split <;> omega
  · rintro st c ⟨rfl, h⟩
    obtain ⟨st1, h1, hv, hd, hdrop, _⟩ := hmacFlush_ok hl h
    refine ⟨⟨st1.file, false⟩, ?_, hdrop, fun _ => hv⟩
    simp only [hmacStream, h1, bind, Except.bind]
    exact hmacOpen_ok check hv

/-! ## PaddedStream -/

/-- Relation for a padded stream: some `pad` bytes precede the content. -/
def PaddedRepr {σ : Type} (R : σ → Bytes → Prop) (pad : Nat) (st : σ) (c : Bytes) : Prop :=
  ∃ p : Bytes, p.length = pad ∧ R st (p ++ c)

theorem padded_refines {σ : Type} {S : Stream σ} {R : σ → Bytes → Prop} {lim : Nat}
    (H : S.Refines R lim) (pad : Nat) (hpad : pad ≤ lim) (rnd : Bytes) :
    (paddedStream S pad rnd).Refines (PaddedRepr R pad) (lim - pad) := by
  refine ⟨?_, ?_, ?_, ?_, ?_⟩
  · rintro st c off len ⟨p, rfl, hR⟩ hl
    have := H.read_ok (off + p.length) len hR (by omega)
    simp only [paddedStream, this, Spec.read]
    rw [Nat.add_comm off, ← List.drop_drop, List.drop_left]
  · rintro st c off d ⟨p, rfl, hR⟩ hl
    obtain ⟨st', h1, h2⟩ := H.write_ok (off + p.length) d hR (by omega)
    refine ⟨st', h1, p, rfl, ?_⟩
    convert h2 using 1
    unfold Spec.write
    split
    · rfl
    · apply List.ext_getElem?
      intro i
      simp only [List.getElem?_drop, List.getElem?_append, List.length_append, List.length_take,
        List.getElem?_take, List.length_replicate, List.getElem?_replicate]
      list_cases
  · rintro st c n ⟨p, rfl, hR⟩ hl
    obtain ⟨st', h1, h2⟩ := H.resize_ok (n + p.length) hR (by omega)
    refine ⟨st', h1, p, rfl, ?_⟩
    convert h2 using 1
    unfold Spec.resize
    apply List.ext_getElem?
    intro i
    simp only [List.getElem?_append, List.length_append, List.length_take,
      List.getElem?_take, List.getElem?_replicate]
    list_cases
  · rintro st c ⟨p, rfl, hR⟩
    simp only [paddedStream, H.size_ok hR, List.length_append]
    split <;> omega
  · rintro st c ⟨p, rfl, hR⟩
    obtain ⟨st', h1, h2⟩ := H.reopen_ok hR
    refine ⟨st', ?_, p, rfl, h2⟩
    simp only [paddedStream, h1, bind, Except.bind, paddedOpen, H.size_ok h2, List.length_append]
    rw [if_neg (by omega)]

theorem paddedOpen_empty {σ : Type} {S : Stream σ} {R : σ → Bytes → Prop} {lim : Nat}
    (H : S.Refines R lim) (pad : Nat) (hpad : pad ≤ lim) (rnd : Bytes) (hr : rnd.length = pad)
    {st : σ} (hR : R st []) : ∃ st', paddedOpen S pad rnd st = .ok st' ∧ PaddedRepr R pad st' [] := by
  unfold paddedOpen
  rw [H.size_ok hR]
  by_cases h : pad = 0
  · subst h
    exact ⟨st, by simp, [], rfl, hR⟩
  · rw [if_pos (by simp; omega)]
    obtain ⟨st', h1, h2⟩ := H.write_ok 0 rnd hR (by omega)
    refine ⟨st', h1, rnd, hr, ?_⟩
    have : rnd ≠ [] := by rintro rfl; simp at hr; omega
    simpa [Spec.write, this] using h2

/-! ## The encrypted stream of the full format -/

/-- Number of blocks of `n` bytes (proof helper). -/
def nblk (bs n : Nat) : Nat := (n + bs - 1) / bs

section Nblk
variable {bs : Nat}

theorem nblk_add (hb : 0 < bs) (k m : Nat) : nblk bs (k * bs + m) = k + nblk bs m := by
  unfold nblk
  rw [show k * bs + m + bs - 1 = m + bs - 1 + k * bs by omega, Nat.add_mul_div_right _ _ hb]
  omega

theorem nblk_zero (hb : 0 < bs) : nblk bs 0 = 0 := by
  unfold nblk
  exact Nat.div_eq_of_lt (by omega)

theorem nblk_mul (hb : 0 < bs) (k : Nat) : nblk bs (k * bs) = k := by
  have := nblk_add hb k 0
  rwa [nblk_zero hb, Nat.add_zero, Nat.add_zero] at this

theorem nblk_small (hb : 0 < bs) {m : Nat} (h0 : 0 < m) (h : m ≤ bs) : nblk bs m = 1 := by
  unfold nblk
  have : m + bs - 1 = (m - 1) + 1 * bs := by omega
  rw [this, Nat.add_mul_div_right _ _ hb, Nat.div_eq_of_lt (by omega)]

theorem nblk_mono {m n : Nat} (h : m ≤ n) : nblk bs m ≤ nblk bs n := by
  unfold nblk
  exact Nat.div_le_div_right (by omega)

theorem nblk_pos (hb : 0 < bs) {m : Nat} (h0 : 0 < m) : 1 ≤ nblk bs m := by
  rcases Nat.le_total m bs with h | h
  · rw [nblk_small hb h0 h]
  · have := nblk_mono (bs := bs) h
    have h1 := nblk_mul hb 1
    rw [Nat.one_mul] at h1
    omega

theorem nblk_min (m n : Nat) : nblk bs (min m n) = min (nblk bs m) (nblk bs n) := by
  rcases Nat.le_total m n with h | h
  · rw [Nat.min_eq_left h, Nat.min_eq_left (nblk_mono h)]
  · rw [Nat.min_eq_right h, Nat.min_eq_right (nblk_mono h)]

theorem nblk_sub (hb : 0 < bs) (k n : Nat) : nblk bs (n - k * bs) = nblk bs n - k := by
  rcases Nat.le_total (k * bs) n with h | h
  · have h2 := nblk_add hb k (n - k * bs)
    rw [show k * bs + (n - k * bs) = n by omega] at h2
    omega
  · have h1 := nblk_mono (bs := bs) h
    rw [nblk_mul hb] at h1
    rw [Nat.sub_eq_zero_of_le h, nblk_zero hb]; omega

theorem nblk_le_iff (hb : 0 < bs) {n k : Nat} (h : n ≤ k * bs) : nblk bs n ≤ k := by
  have := nblk_mono (bs := bs) h
  rwa [nblk_mul hb] at this

end Nblk

/-- `data` and `m` are the encrypted blocks and the meta entries of the content `c`. -/
structure FEnc (bs ms : Nat) (dec : Bytes → Bytes → Res Bytes) (data m c : Bytes) : Prop where
  dlen : data.length = c.length
  mlen : m.length = nblk bs c.length * ms
  blk : ∀ j, j * bs < c.length →
    dec ((data.drop (j * bs)).take bs) ((m.drop (j * ms)).take ms) = .ok ((c.drop (j * bs)).take bs)

namespace FEnc
variable {bs ms : Nat} {dec : Bytes → Bytes → Res Bytes} {data m c : Bytes}

theorem nil (hb : 0 < bs) : FEnc bs ms dec [] [] [] :=
  ⟨rfl, by simp [nblk_zero hb], by simp⟩

theorem lt_of_mul_lt {j s b : Nat} (h : j * b < s * b) : j < s :=
  Nat.lt_of_mul_lt_mul_right h

theorem take (hb : 0 < bs) (H : FEnc bs ms dec data m c) (s : Nat) :
    FEnc bs ms dec (data.take (s * bs)) (m.take (s * ms)) (c.take (s * bs)) := by
  refine ⟨?_, ?_, ?_⟩
  · rw [List.length_take, List.length_take, H.dlen]
  · rw [List.length_take, List.length_take, nblk_min, nblk_mul hb, H.mlen,
      Nat.mul_min_mul_right]
  · intro j hj
    rw [List.length_take] at hj
    have hjs : j < s := lt_of_mul_lt (b := bs) (by omega)
    have h1 : (j + 1) * bs ≤ s * bs := Nat.mul_le_mul_right _ hjs
    have h2 : (j + 1) * ms ≤ s * ms := Nat.mul_le_mul_right _ hjs
    rw [Nat.add_mul, Nat.one_mul] at h1 h2
    have := H.blk j (by omega)
    rw [List.drop_take, List.take_take, List.drop_take, List.take_take, List.drop_take,
      List.take_take, Nat.min_eq_left (by omega), Nat.min_eq_left (by omega)]
    exact this

theorem drop (hb : 0 < bs) (H : FEnc bs ms dec data m c) (s : Nat) :
    FEnc bs ms dec (data.drop (s * bs)) (m.drop (s * ms)) (c.drop (s * bs)) := by
  refine ⟨?_, ?_, ?_⟩
  · rw [List.length_drop, List.length_drop, H.dlen]
  · rw [List.length_drop, List.length_drop, nblk_sub hb, H.mlen, Nat.sub_mul]
  · intro j hj
    rw [List.length_drop] at hj
    have := H.blk (s + j) (by rw [Nat.add_mul]; omega)
    rw [List.drop_drop, List.drop_drop, List.drop_drop, ← Nat.add_mul, ← Nat.add_mul]
    exact this

theorem append (hb : 0 < bs) (H : FEnc bs ms dec data m c) {s : Nat} (hs : c.length = s * bs)
    {data' m' c' : Bytes} (H' : FEnc bs ms dec data' m' c') :
    FEnc bs ms dec (data ++ data') (m ++ m') (c ++ c') := by
  have hml : m.length = s * ms := by rw [H.mlen, hs, nblk_mul hb]
  have hdl : data.length = s * bs := by rw [H.dlen, hs]
  refine ⟨?_, ?_, ?_⟩
  · rw [List.length_append, List.length_append, H.dlen, H'.dlen]
  · rw [List.length_append, List.length_append, hs, nblk_add hb, hml, H'.mlen, Nat.add_mul]
  · intro j hj
    rw [List.length_append, hs] at hj
    rcases Nat.lt_or_ge j s with h | h
    · have h1 : (j + 1) * bs ≤ s * bs := Nat.mul_le_mul_right _ h
      have h2 : (j + 1) * ms ≤ s * ms := Nat.mul_le_mul_right _ h
      rw [Nat.add_mul, Nat.one_mul] at h1 h2
      have := H.blk j (by omega)
      rw [List.drop_append_of_le_length (l₁ := data) (by omega),
        List.drop_append_of_le_length (l₁ := m) (by omega),
        List.drop_append_of_le_length (l₁ := c) (by omega),
        List.take_append_of_le_length (by rw [List.length_drop]; omega),
        List.take_append_of_le_length (by rw [List.length_drop]; omega),
        List.take_append_of_le_length (by rw [List.length_drop]; omega)]
      exact this
    · obtain ⟨i, rfl⟩ := Nat.exists_eq_add_of_le h
      have := H'.blk i (by rw [Nat.add_mul] at hj; omega)
      have e1 : (data ++ data').drop ((s + i) * bs) = data'.drop (i * bs) := by
        rw [Nat.add_mul, ← hdl, ← List.drop_drop, List.drop_left]
      have e2 : (c ++ c').drop ((s + i) * bs) = c'.drop (i * bs) := by
        rw [Nat.add_mul, ← hs, ← List.drop_drop, List.drop_left]
      have e3 : (m ++ m').drop ((s + i) * ms) = m'.drop (i * ms) := by
        rw [Nat.add_mul, ← hml, ← List.drop_drop, List.drop_left]
      rw [e1, e2, e3]
      exact this

theorem overwrite (hb : 0 < bs) (H : FEnc bs ms dec data m c) {s k : Nat} {d e w : Bytes}
    (hs : s * bs ≤ c.length) (HW : FEnc bs ms dec d e w)
    (hw : w.length = k * bs ∨ c.length ≤ s * bs + w.length) :
    FEnc bs ms dec (splice data (s * bs) d) (splice m (s * ms) e) (splice c (s * bs) w) := by
  have ht := H.take hb s
  have htl : (c.take (s * bs)).length = s * bs := by rw [List.length_take]; omega
  have h1 := ht.append hb htl HW
  unfold splice
  rcases hw with hw | hw
  · have hd := H.drop hb (s + k)
    rw [HW.dlen, HW.mlen, hw, nblk_mul hb, ← Nat.add_mul, ← Nat.add_mul]
    exact h1.append hb (s := s + k) (by rw [List.length_append, htl, hw, Nat.add_mul]) hd
  · rw [List.drop_eq_nil_of_le hw, List.drop_eq_nil_of_le (as := data),
      List.drop_eq_nil_of_le (as := m), List.append_nil, List.append_nil, List.append_nil]
    · exact h1
    · rw [H.mlen, HW.mlen, ← Nat.add_mul, ← nblk_add hb]
      exact Nat.mul_le_mul_right _ (nblk_mono hw)
    · rw [H.dlen, HW.dlen]; exact hw

theorem zeros (hb : 0 < bs) (n : Nat)
    (hz : ∀ k, dec (Securefs.zeros k) (Securefs.zeros ms) = .ok (Securefs.zeros k)) :
    FEnc bs ms dec (Securefs.zeros n) (Securefs.zeros (nblk bs n * ms)) (Securefs.zeros n) := by
  refine ⟨rfl, by simp, ?_⟩
  intro j hj
  simp only [zeros_length] at hj
  have hlt : (j + 1) * ms ≤ nblk bs n * ms := by
    apply Nat.mul_le_mul_right
    have h1 := nblk_sub hb j n
    have h2 := nblk_pos hb (show 0 < n - j * bs by omega)
    omega
  rw [Nat.add_mul, Nat.one_mul] at hlt
  unfold Securefs.zeros at *
  rw [List.drop_replicate, List.take_replicate, List.drop_replicate, List.take_replicate,
    Nat.min_eq_left (a := ms) (by omega)]
  exact hz _

end FEnc

/-- Assumptions on a full-format configuration. -/
structure FullCfg.WF (C : FullCfg) : Prop where
  bs_pos : 0 < C.bs
  iv_ge : 12 ≤ C.ivSize
  gcm : C.gcm.Lawful
  rng : C.rng.Fair C.ivFuel
  hm_len : ∀ m, (C.hm m).length = 32

namespace FullCfg
variable {C : FullCfg}

abbrev FEncC (C : FullCfg) := FEnc C.bs C.metaSize C.decodeBlock

theorem decode_encode (hC : C.WF) (iv pt : Bytes) (hiv : iv.length = C.ivSize)
    (hnz : allZeros iv = false) :
    C.decodeBlock (C.gcm.enc iv C.id pt).1 (iv ++ (C.gcm.enc iv C.id pt).2) = .ok pt := by
  unfold decodeBlock
  rw [allZeros_append, hnz]
  simp only [Bool.false_and, Bool.false_eq_true, ↓reduceIte]
  rw [← hiv, List.take_left, List.drop_left, List.take_of_length_le
    (by rw [hC.gcm.mac_len]), hC.gcm.dec_enc]
  simp

theorem writeLoop_ok (hC : C.WF) : ∀ (fuel n rng : Nat) (input : Bytes), n ≤ input.length →
    n ≤ fuel * C.bs →
    ∃ d m rng', C.writeLoop fuel n rng input = .ok (d, m, rng') ∧ FEncC C d m (input.take n) := by
  have hb := hC.bs_pos
  intro fuel
  induction fuel with
  | zero =>
    intro n rng input h1 h2
    have : n = 0 := by omega
    subst this
    exact ⟨[], [], rng, rfl, by simpa using FEnc.nil hb⟩
  | succ fuel ih =>
    intro n rng input h1 h2
    rw [Nat.add_mul, Nat.one_mul] at h2
    unfold writeLoop
    rcases Nat.eq_zero_or_pos n with h0 | h0
    · subst h0
      exact ⟨[], [], rng, rfl, by simpa using FEnc.nil hb⟩
    · rw [if_neg (by omega)]
      obtain ⟨iv, n', hiv, hivl, hivz⟩ := drawIv_ok C.rng C.ivSize (fun n => hC.rng.len n _)
        C.ivFuel rng (hC.rng.nonzero rng _ hC.iv_ge)
      simp only [bind, Except.bind, hiv]
      rw [if_neg (by omega)]
      obtain ⟨d, m, rng', hl, hE⟩ := ih (n - min C.bs n) n' (input.drop (min C.bs n))
        (by rw [List.length_drop]; omega) (by omega)
      rw [hl]
      refine ⟨_, _, _, rfl, ?_⟩
      have hpl : (input.take (min C.bs n)).length = min C.bs n := by
        rw [List.length_take]; omega
      have hde := decode_encode hC iv (input.take (min C.bs n)) hivl hivz
      have hcl := hC.gcm.ct_len iv C.id (input.take (min C.bs n))
      have hmacl := hC.gcm.mac_len iv C.id (input.take (min C.bs n))
      have hblock : FEncC C (C.gcm.enc iv C.id (input.take (min C.bs n))).1
          (iv ++ (C.gcm.enc iv C.id (input.take (min C.bs n))).2) (input.take (min C.bs n)) := by
        refine ⟨hcl, ?_, ?_⟩
        · rw [hpl, nblk_small hb (by omega) (by omega), List.length_append, hivl, hmacl, Nat.one_mul]
          rfl
        · intro j hj
          have : j = 0 := by
            by_contra hj0
            have : C.bs ≤ j * C.bs := Nat.le_mul_of_pos_left _ (by omega)
            omega
          subst this
          simp only [Nat.zero_mul, List.drop_zero]
          rw [List.take_of_length_le (l := (C.gcm.enc iv C.id _).1) (by rw [hcl, hpl]; omega),
            List.take_of_length_le (l := iv ++ _)
              (by rw [List.length_append, hivl, hmacl]; exact le_refl _),
            List.take_of_length_le (l := input.take (min C.bs n)) (i := C.bs) (by rw [hpl]; omega)]
          exact hde
      rcases Nat.le_total C.bs n with h | h
      · have hsplit : input.take n = input.take (min C.bs n) ++
            (input.drop (min C.bs n)).take (n - min C.bs n) := by
          rw [Nat.min_eq_left h]
          conv_lhs => rw [show n = C.bs + (n - C.bs) by omega, List.take_add]
        rw [hsplit]
        exact hblock.append hb (s := 1) (by rw [hpl, Nat.min_eq_left h, Nat.one_mul]) hE
      · have hz : n - min C.bs n = 0 := by omega
        rw [hz, List.take_zero] at hE
        have hd : d = [] := List.eq_nil_of_length_eq_zero hE.dlen
        have hm : m = [] := List.eq_nil_of_length_eq_zero (by
          rw [hE.mlen, List.length_nil, nblk_zero hb, Nat.zero_mul])
        rw [hd, hm, List.append_nil, List.append_nil]
        rw [Nat.min_eq_right h] at hblock ⊢
        exact hblock

theorem readLoop_ok (hC : C.WF) : ∀ (fuel : Nat) (d m c z : Bytes), FEncC C d m c →
    c.length ≤ fuel * C.bs → C.readLoop fuel d (m ++ z) = .ok c := by
  have hb := hC.bs_pos
  intro fuel
  induction fuel with
  | zero =>
    intro d m c z H h
    have : c = [] := List.eq_nil_of_length_eq_zero (by omega)
    subst this
    have : d = [] := List.eq_nil_of_length_eq_zero H.dlen
    subst this
    rfl
  | succ fuel ih =>
    intro d m c z H h
    rw [Nat.add_mul, Nat.one_mul] at h
    unfold readLoop
    rcases Nat.eq_zero_or_pos c.length with h0 | h0
    · have : c = [] := List.eq_nil_of_length_eq_zero h0
      subst this
      have : d = [] := List.eq_nil_of_length_eq_zero H.dlen
      subst this
      rfl
    · have hne : d.isEmpty = false := by
        cases d with
        | nil => have := H.dlen; simp at this; omega
        | cons => rfl
      have hml : C.metaSize ≤ m.length := by
        rw [H.mlen]
        exact Nat.le_mul_of_pos_left _ (nblk_pos hb h0)
      rw [hne]
      simp only [Bool.false_eq_true, ↓reduceIte]
      have h1 := H.blk 0 (by omega)
      simp only [Nat.zero_mul, List.drop_zero] at h1
      have h2 := H.drop hb 1
      rw [Nat.one_mul, Nat.one_mul] at h2
      have h3 := ih _ _ _ z h2 (by rw [List.length_drop]; omega)
      rw [List.take_append_of_le_length hml, List.drop_append_of_le_length hml]
      simp only [bind, Except.bind, h1, h3]
      rw [List.take_append_drop]

/-- The payload of the meta file, with a missing header counted as zeros. -/
def payload (C : FullCfg) (st : FullSt) : Bytes :=
  st.metaS.file.drop 32 ++ Securefs.zeros (C.encHeaderSize - (st.metaS.file.drop 32).length)

/-- The relation between the two files and the content; `H` is the raw (encrypted) header, `hd`
    says that the metadata file surely has one. -/
structure Repr (C : FullCfg) (hd : Bool) (H : Bytes) (st : FullSt) (c : Bytes) : Prop where
  hlen : H.length = C.encHeaderSize
  pl : (hd = false ∧ st.metaS.file.drop 32 = []) ∨ C.encHeaderSize ≤ (st.metaS.file.drop 32).length
  enc : ∃ m, C.payload st = H ++ m ∧ FEncC C st.data m c
  valid : st.metaS.dirty = false → HmacValid C.hm C.id st.metaS.file

theorem write_payload (P : Bytes) (h off : Nat) (d : Bytes) (hd : d ≠ [])
    (hl : h + off ≤ (P ++ zeros (h - P.length)).length) :
    Spec.write P (h + off) d = splice (P ++ zeros (h - P.length)) (h + off) d := by
  unfold Spec.write splice
  rw [if_neg hd]
  rw [List.length_append, zeros_length] at hl
  apply List.ext_getElem?
  intro i
  simp only [List.getElem?_append, List.length_append, List.length_take, List.getElem?_drop,
    List.getElem?_take, zeros_getElem?, List.getElem?_replicate, List.length_replicate,
    zeros_length]
  list_cases

theorem resize_payload (P : Bytes) (h off : Nat) :
    Spec.resize P (h + off) = Spec.resize (P ++ zeros (h - P.length)) (h + off) := by
  unfold Spec.resize
  apply List.ext_getElem?
  intro i
  simp only [List.getElem?_append, List.length_append, List.length_take,
    List.getElem?_take, zeros_getElem?, List.getElem?_replicate, zeros_length]
  list_cases

theorem splice_app (H m : Bytes) (p : Nat) (d : Bytes) :
    splice (H ++ m) (H.length + p) d = H ++ splice m p d := by
  unfold splice
  rw [List.take_length_add_append, Nat.add_assoc, List.drop_length_add_append]
  simp

theorem resize_app (H m : Bytes) (n : Nat) :
    Spec.resize (H ++ m) (H.length + n) = H ++ Spec.resize m n := by
  unfold Spec.resize
  rw [List.take_length_add_append, List.length_append, Nat.add_sub_add_left, List.append_assoc]

/-- Behaviour of `writeMulti` on represented states. -/
theorem writeMulti_ok (hC : C.WF) {hd H st c} (hR : Repr C hd H st c) {s e r : Nat} {inp : Bytes}
    (hse : s ≤ e) (he : e ≤ fullMaxBlocks) (hr : r ≤ C.bs)
    (hin : (e - s) * C.bs + r ≤ inp.length) (hs : s * C.bs ≤ c.length)
    (hpos : 0 < (e - s) * C.bs + r) :
    ∃ d m rng' m0, C.writeMulti st s e r inp
        = .ok ⟨splice st.data (s * C.bs) d, hmacWrite st.metaS (C.metaPos s) m, rng'⟩ ∧
      FEncC C d m (inp.take ((e - s) * C.bs + r)) ∧
      C.payload st = H ++ m0 ∧ FEncC C st.data m0 c ∧
      (hmacWrite st.metaS (C.metaPos s) m).file.drop 32 = H ++ splice m0 (s * C.metaSize) m := by
  have hb := hC.bs_pos
  obtain ⟨d, m, rng', h1, h2⟩ := writeLoop_ok hC (e - s + 1) ((e - s) * C.bs + r) st.rng
    inp hin (by rw [Nat.add_mul, Nat.one_mul]; omega)
  obtain ⟨m0, hp, hE⟩ := hR.enc
  refine ⟨d, m, rng', m0, ?_, h2, hp, hE, ?_⟩
  · unfold writeMulti
    rw [if_neg (by omega), Nat.mul_comm C.bs]
    simp only [h1, bind, Except.bind]
    rw [LiteCfg.ufWrite_splice _ _ _ (by rw [hE.dlen]; exact hs)]
  · have hml : m ≠ [] := by
      intro h
      have h3 := h2.mlen
      rw [h, List.length_nil, List.length_take, Nat.min_eq_left hin] at h3
      have := nblk_pos hb hpos
      have : 0 < C.metaSize := by unfold metaSize; omega
      have := Nat.mul_pos (show 0 < nblk C.bs ((e - s) * C.bs + r) by omega) this
      omega
    have hm0 : s * C.metaSize ≤ m0.length := by
      rw [hE.mlen]
      apply Nat.mul_le_mul_right
      have := nblk_mono (bs := C.bs) hs
      rwa [nblk_mul hb] at this
    unfold hmacWrite
    simp only
    rw [ufWrite_drop]
    unfold metaPos
    rw [write_payload _ C.encHeaderSize (C.metaSize * s) m hml]
    · change splice (C.payload st) _ _ = _
      rw [hp, ← hR.hlen, splice_app, Nat.mul_comm]
    · change _ ≤ (C.payload st).length
      rw [hp, List.length_append, hR.hlen, Nat.mul_comm]; omega

theorem payload_of_le {st : FullSt} (h : C.encHeaderSize ≤ (st.metaS.file.drop 32).length) :
    C.payload st = st.metaS.file.drop 32 := by
  unfold payload
  rw [Nat.sub_eq_zero_of_le h]; simp [Securefs.zeros]

/-- Behaviour of `adjust` on the meta payload. -/
theorem adjust_payload {H : Bytes} {ms : HmacSt} {m0 : Bytes} (hlen : H.length = C.encHeaderSize)
    (hp : ms.file.drop 32 ++ Securefs.zeros (C.encHeaderSize - (ms.file.drop 32).length) = H ++ m0)
    (k : Nat) :
    (hmacResize ms (C.metaPos k)).file.drop 32 = H ++ Spec.resize m0 (k * C.metaSize) := by
  unfold hmacResize metaPos
  simp only
  rw [ufResize_drop, resize_payload, hp, ← hlen, resize_app, Nat.mul_comm]

theorem decode_zeros (k : Nat) : C.decodeBlock (Securefs.zeros k) (Securefs.zeros C.metaSize)
    = .ok (Securefs.zeros k) := by
  unfold decodeBlock; simp

/-- Reading blocks of a file whose metadata may have additional entries `x` at the end. -/
theorem readMulti_ok (hC : C.WF) {H st c m x} (hlen : H.length = C.encHeaderSize)
    (hp : C.payload st = H ++ (m ++ x)) (hE : FEncC C st.data m c) (hx : x.length % C.metaSize = 0)
    {s e : Nat} (_hse : s ≤ e) (he : e ≤ fullMaxBlocks) :
    C.readMulti st s e = .ok ((c.drop (s * C.bs)).take ((e - s) * C.bs)) := by
  have hb := hC.bs_pos
  unfold readMulti
  by_cases heq : s = e
  · rw [if_pos heq, heq]; simp
  · rw [if_neg heq, if_neg (by omega)]
    have h1 := (hE.drop hb s).take hb (e - s)
    have hm : hmacRead st.metaS (C.metaPos s) ((e - s) * C.metaSize)
        = ((m ++ x).drop (s * C.metaSize)).take ((e - s) * C.metaSize) := by
      unfold hmacRead ufRead
      congr 1
      have : st.metaS.file.drop (C.metaPos s + 32) = (C.payload st).drop (C.metaPos s) := by
        unfold payload metaPos
        rw [Nat.add_comm _ 32, ← List.drop_drop]
        generalize st.metaS.file.drop 32 = P
        apply List.ext_getElem?
        intro i
        simp only [List.getElem?_drop, List.getElem?_append, zeros_getElem?]
        list_cases
      rw [this, hp]
      unfold metaPos
      rw [← hlen, List.drop_length_add_append, Nat.mul_comm]
    have hd : ufRead st.data (s * C.bs) ((e - s) * C.bs)
        = (st.data.drop (s * C.bs)).take ((e - s) * C.bs) := rfl
    have hmlen : ∃ k, (hmacRead st.metaS (C.metaPos s) ((e - s) * C.metaSize)).length = k * C.metaSize := by
      rw [hm, List.length_take, List.length_drop, List.length_append, hE.mlen]
      obtain ⟨j, hj⟩ := Nat.dvd_of_mod_eq_zero hx
      rw [hj, Nat.mul_comm C.metaSize j, ← Nat.add_mul, ← Nat.sub_mul, Nat.mul_min_mul_right]
      exact ⟨_, rfl⟩
    obtain ⟨k, hk⟩ := hmlen
    dsimp only
    rw [← hd] at h1
    by_cases hz : (ufRead st.data (s * C.bs) ((e - s) * C.bs)).length = 0
    · rw [if_pos hz]
      have := h1.dlen
      rw [hz] at this
      rw [List.eq_nil_of_length_eq_zero this.symm]
    · rw [if_neg hz, if_neg (by rw [hk]; simp)]
      have hsplit : hmacRead st.metaS (C.metaPos s) ((e - s) * C.metaSize)
          = (m.drop (s * C.metaSize)).take ((e - s) * C.metaSize)
            ++ (hmacRead st.metaS (C.metaPos s) ((e - s) * C.metaSize)).drop
                ((m.drop (s * C.metaSize)).take ((e - s) * C.metaSize)).length := by
        rw [hm]
        generalize s * C.metaSize = A
        generalize (e - s) * C.metaSize = B
        apply List.ext_getElem?
        intro i
        simp only [List.getElem?_append, List.getElem?_take, List.getElem?_drop, List.length_take,
          List.length_drop]
        list_cases
      rw [hsplit, List.append_assoc]
      exact readLoop_ok hC (e - s) _ _ _ _ h1 (by
        rw [List.length_take]; exact Nat.min_le_left _ _)

theorem refines (hC : C.WF) (hd : Bool) (H : Bytes) : C.dev.Refines (Repr C hd H) fullMaxBlocks := by
  have hb := hC.bs_pos
  have hbs : C.dev.bs = C.bs := rfl
  refine ⟨hb, ?_, ?_, ?_, ?_, ?_, ?_⟩ <;> try simp only [hbs]
  · intro st c hR
    obtain ⟨m, _, hE⟩ := hR.enc
    exact hE.dlen
  · intro st c s e hR hse he
    obtain ⟨m, hp, hE⟩ := hR.enc
    exact readMulti_ok hC hR.hlen (x := []) (by rw [List.append_nil]; exact hp) hE (by simp) hse he
  · intro st c s e r inp hR hse he _ hr hin hs hcov hpos
    obtain ⟨d, m, rng', m0, h1, h2, hp, hE, hpay⟩ := writeMulti_ok hC hR hse he hr hin hs hpos
    have hle : C.encHeaderSize ≤ ((hmacWrite st.metaS (C.metaPos s) m).file.drop 32).length := by
      rw [hpay, List.length_append, hR.hlen]; omega
    refine ⟨_, h1, hR.hlen, Or.inr hle, ⟨splice m0 (s * C.metaSize) m, ?_, ?_⟩,
      fun h => by cases h⟩
    · rw [payload_of_le (by exact hle)]; exact hpay
    · have hlen : (inp.take ((e - s) * C.bs + r)).length = (e - s) * C.bs + r := by
        rw [List.length_take]; omega
      have hes : e * C.bs = s * C.bs + (e - s) * C.bs := by
        rw [← Nat.add_mul]; congr 1; omega
      by_cases hr0 : r = 0
      · exact hE.overwrite hb (k := e - s) hs h2 (Or.inl (by rw [hlen, hr0, Nat.add_zero]))
      · by_cases hrb : r = C.bs
        · exact hE.overwrite hb (k := e - s + 1) hs h2
            (Or.inl (by rw [hlen, hrb, Nat.add_mul, Nat.one_mul]))
        · exact hE.overwrite hb (k := 0) hs h2 (Or.inr (by rw [hlen]; omega))
  · intro st c n inp hR hn hmod hblk hin
    have hdm := Nat.div_add_mod' n C.bs
    have hml := Nat.mod_lt n hb
    have hs : n / C.bs * C.bs ≤ c.length := by omega
    obtain ⟨d, m, rng', m0, h1, h2, hp, hE, hpay⟩ := writeMulti_ok hC hR (s := n / C.bs)
      (e := n / C.bs) (r := n % C.bs) (inp := inp) (le_refl _) (by omega) (by omega)
      (by simpa using hin) hs (by simpa using hmod)
    simp only [Nat.sub_self, Nat.zero_mul, Nat.zero_add] at h2
    refine ⟨_, h1, _, rfl, ?_⟩
    have hnb : (n + C.bs - 1) / C.bs = n / C.bs + 1 := by
      have := nblk_add hb (n / C.bs) (n % C.bs)
      rw [hdm, nblk_small hb hmod (by omega)] at this
      exact this
    have hpl : (inp.take (n % C.bs)).length = n % C.bs := by rw [List.length_take]; omega
    have hdl : d.length = n % C.bs := by rw [h2.dlen, hpl]
    have hmlen : m.length = C.metaSize := by
      rw [h2.mlen, hpl, nblk_small hb hmod (by omega), Nat.one_mul]
    have hm0 : n / C.bs * C.metaSize ≤ m0.length := by
      rw [hE.mlen]
      apply Nat.mul_le_mul_right
      have := nblk_mono (bs := C.bs) hs
      rwa [nblk_mul hb] at this
    have hfin := adjust_payload (C := C) (ms := hmacWrite st.metaS (C.metaPos (n / C.bs)) m)
      (m0 := splice m0 (n / C.bs * C.metaSize) m) hR.hlen (by
        rw [hpay, List.length_append, hR.hlen, Nat.sub_eq_zero_of_le (by omega)]
        simp [Securefs.zeros]) (n / C.bs + 1)
    have hcut : ∀ (x : Bytes) (p q : Nat) (y : Bytes), p ≤ x.length → q = p + y.length →
        Spec.resize (splice x p y) q = x.take p ++ y := by
      intro x p q y h1 h2
      unfold Spec.resize
      rw [splice_length _ _ _ h1, h2, Nat.sub_eq_zero_of_le (by omega)]
      unfold splice
      rw [List.replicate_zero, List.append_nil]
      apply List.take_left'
      rw [List.length_append, List.length_take]; omega
    rw [hcut _ _ _ _ hm0 (by rw [hmlen, Nat.add_mul, Nat.one_mul])] at hfin
    have hle : C.encHeaderSize ≤ ((hmacResize (hmacWrite st.metaS (C.metaPos (n / C.bs)) m)
        (C.metaPos (n / C.bs + 1))).file.drop 32).length := by
      rw [hfin, List.length_append, hR.hlen]; omega
    refine ⟨hR.hlen, Or.inr ?_, ⟨m0.take (n / C.bs * C.metaSize) ++ m, ?_, ?_⟩,
      fun h => by cases h⟩
    · simp only [hnb]; exact hle
    · rw [payload_of_le]
      · simp only [hnb]; exact hfin
      · simp only [hnb]; exact hle
    · have hdata : ufResize (splice st.data (n / C.bs * C.bs) d) n
          = st.data.take (n / C.bs * C.bs) ++ d :=
        hcut _ _ _ _ (by rw [hE.dlen]; exact hs) (by rw [hdl]; omega)
      simp only [hdata]
      exact (hE.take hb (n / C.bs)).append hb (s := n / C.bs) (by rw [List.length_take]; omega) h2
  · intro st c n hR hn hmod
    obtain ⟨m0, hp, hE⟩ := hR.enc
    have hdm := Nat.div_add_mod' n C.bs
    have hn' : n / C.bs * C.bs = n := by omega
    refine ⟨_, rfl, ?_⟩
    have hnb : (n + C.bs - 1) / C.bs = n / C.bs := by
      have := nblk_mul hb (n / C.bs)
      rw [hn'] at this
      exact this
    have hfin := adjust_payload (C := C) hR.hlen hp (n / C.bs)
    have hm0 : n / C.bs * C.metaSize ≤ m0.length := by
      rw [hE.mlen]
      apply Nat.mul_le_mul_right
      have := nblk_mono (bs := C.bs) (show n / C.bs * C.bs ≤ c.length by omega)
      rwa [nblk_mul hb] at this
    have hcut : Spec.resize m0 (n / C.bs * C.metaSize) = m0.take (n / C.bs * C.metaSize) := by
      unfold Spec.resize
      rw [Nat.sub_eq_zero_of_le hm0]; simp
    rw [hcut] at hfin
    have hle : C.encHeaderSize ≤ ((hmacResize st.metaS
        (C.metaPos (n / C.bs))).file.drop 32).length := by
      rw [hfin, List.length_append, hR.hlen]; omega
    refine ⟨hR.hlen, Or.inr ?_, ⟨m0.take (n / C.bs * C.metaSize), ?_, ?_⟩,
      fun h => by cases h⟩
    · simp only [hnb]; exact hle
    · rw [payload_of_le]
      · simp only [hnb]; exact hfin
      · simp only [hnb]; exact hle
    · have hdata : ufResize st.data n = st.data.take (n / C.bs * C.bs) := by
        unfold ufResize
        rw [hE.dlen, Nat.sub_eq_zero_of_le hn, hn']; simp [Securefs.zeros]
      simp only [hdata]
      have := hE.take hb (n / C.bs)
      rwa [hn'] at this ⊢
  · intro st c n hR hn hal
    obtain ⟨m0, hp, hE⟩ := hR.enc
    refine ⟨_, rfl, ?_⟩
    have hfin := adjust_payload (C := C) hR.hlen hp (nblk C.bs n)
    have hnn := nblk_mono (bs := C.bs) hn
    have hm0 : m0.length ≤ nblk C.bs n * C.metaSize := by
      rw [hE.mlen]; exact Nat.mul_le_mul_right _ hnn
    have hgrow : Spec.resize m0 (nblk C.bs n * C.metaSize)
        = m0 ++ Securefs.zeros (nblk C.bs n * C.metaSize - m0.length) := by
      unfold Spec.resize
      rw [List.take_of_length_le hm0]; rfl
    rw [hgrow] at hfin
    have hle : C.encHeaderSize ≤ ((hmacResize st.metaS
        (C.metaPos (nblk C.bs n))).file.drop 32).length := by
      rw [hfin, List.length_append, hR.hlen]; omega
    refine ⟨hR.hlen, Or.inr hle,
      ⟨m0 ++ Securefs.zeros (nblk C.bs n * C.metaSize - m0.length), ?_, ?_⟩, fun h => by cases h⟩
    · rw [payload_of_le (by exact hle)]
      exact hfin
    · have hdata : ufResize st.data n = st.data ++ Securefs.zeros (n - c.length) := by
        unfold ufResize
        rw [hE.dlen, List.take_of_length_le (by rw [hE.dlen]; exact hn)]
      simp only [hdata]
      rcases hal with hal | hal
      · have hdm := Nat.div_add_mod' c.length C.bs
        have hc' : c.length = c.length / C.bs * C.bs := by omega
        have hk : nblk C.bs n * C.metaSize - m0.length = nblk C.bs (n - c.length) * C.metaSize := by
          rw [hE.mlen, ← Nat.sub_mul]
          congr 1
          have h3 := nblk_sub hb (c.length / C.bs) n
          have h4 := nblk_mul hb (c.length / C.bs)
          rw [← hc'] at h3 h4
          omega
        rw [hk]
        exact hE.append hb hc' (FEnc.zeros hb _ decode_zeros)
      · subst hal
        rw [hE.mlen, Nat.sub_self, Nat.sub_self]
        simpa [Securefs.zeros] using hE

theorem stream_refines (hC : C.WF) (hd : Bool) (H : Bytes) :
    C.stream.Refines (Repr C hd H) (fullMaxBlocks * C.bs) := by
  refine ⟨?_, ?_, ?_, ?_, ?_⟩
  · intro st c off len hR hl
    exact (refines hC hd H).read_refines hR off len hl
  · intro st c off d hR hl
    exact (refines hC hd H).write_refines hR off d hl
  · intro st c n hR hl
    exact (refines hC hd H).resize_refines hR n hl
  · intro st c hR
    exact (refines hC hd H).size_eq hR
  · intro st c hR
    obtain ⟨m1, h1, hv, hd, hdrop, _⟩ := hmacFlush_ok hC.hm_len hR.valid
    refine ⟨⟨st.data, ⟨m1.file, false⟩, st.rng⟩, ?_, hR.hlen, ?_, ?_, fun _ => hv⟩
    · simp only [stream, flush, h1, bind, Except.bind, openFile, hmacOpen_ok C.check hv]
    · simp only [hdrop]; exact hR.pl
    · obtain ⟨m, hp, hE⟩ := hR.enc
      refine ⟨m, ?_, hE⟩
      rw [← hp]
      unfold payload
      simp only [hdrop]

theorem openFile_empty (rng : Nat) (hC : C.WF) :
    ∃ st, C.openFile [] [] rng = .ok st ∧ Repr C false (Securefs.zeros C.encHeaderSize) st [] := by
  have hv : HmacValid C.hm C.id [] := Or.inl rfl
  refine ⟨⟨[], ⟨[], false⟩, rng⟩, ?_, by simp, Or.inl ⟨rfl, rfl⟩, ⟨[], ?_, FEnc.nil hC.bs_pos⟩,
    fun _ => hv⟩
  · simp only [openFile, hmacOpen_ok C.check hv, bind, Except.bind]
  · simp [payload]

/-! ### The header -/

/-- The raw header `H` decrypts to `h`. -/
def HeaderIs (C : FullCfg) (H h : Bytes) : Prop :=
  h.length = C.headerSize ∧
  (C.gcm.dec (H.take C.ivSize) C.id (H.drop (C.ivSize + 16)) ((H.drop C.ivSize).take 16)).2 = h

theorem writeHeader_ok (hC : C.WF) {hd H st c} (hR : Repr C hd H st c) (h : Bytes)
    (hh : h.length ≤ C.headerSize) :
    ∃ st' H', C.writeHeader st h = .ok st' ∧ Repr C true H' st' c ∧
      HeaderIs C H' (h ++ Securefs.zeros (C.headerSize - h.length)) := by
  set hp := h ++ Securefs.zeros (C.headerSize - h.length) with hhp
  have hpl : hp.length = C.headerSize := by rw [hhp, List.length_append, zeros_length]; omega
  set iv := C.rng.draw st.rng C.ivSize with hiv
  have hivl : iv.length = C.ivSize := hC.rng.len _ _
  set E := C.gcm.enc iv C.id hp with hE
  have hct : E.1.length = C.headerSize := by rw [hE, hC.gcm.ct_len, hpl]
  have hmac : E.2.length = 16 := by rw [hE, hC.gcm.mac_len]
  have hH' : (iv ++ E.2 ++ E.1).length = C.encHeaderSize := by
    simp only [List.length_append, hct, hmac, hivl, encHeaderSize]; omega
  obtain ⟨m0, hpay, hEnc⟩ := hR.enc
  have hne : iv ++ E.2 ++ E.1 ≠ [] := by
    intro hcon
    have := congrArg List.length hcon
    rw [hH', encHeaderSize] at this
    simp at this
  have hP : (hmacWrite st.metaS 0 (iv ++ E.2 ++ E.1)).file.drop 32 = (iv ++ E.2 ++ E.1) ++ m0 := by
    unfold hmacWrite
    simp only
    rw [ufWrite_drop]
    unfold Spec.write
    rw [if_neg hne, List.take_zero, List.nil_append, Nat.zero_add, hH']
    congr 1
    have h2 : (C.payload st).drop C.encHeaderSize = m0 := by
      rw [hpay, ← hR.hlen, List.drop_left]
    rw [← h2]
    unfold payload
    generalize st.metaS.file.drop 32 = P
    apply List.ext_getElem?
    intro i
    simp only [List.getElem?_drop, List.getElem?_append, zeros_getElem?]
    list_cases
  have hle : C.encHeaderSize ≤ ((hmacWrite st.metaS 0 (iv ++ E.2 ++ E.1)).file.drop 32).length := by
    rw [hP, List.length_append, hH']; omega
  refine ⟨C.uncheckedWriteHeader st hp, iv ++ E.2 ++ E.1, ?_,
    ⟨hH', Or.inr ?_, ⟨m0, ?_, hEnc⟩, ?_⟩, ⟨hpl, ?_⟩⟩
  · unfold writeHeader
    rw [if_neg (by omega)]
  · exact hle
  · rw [payload_of_le (by exact hle)]; exact hP
  · intro hd; cases hd
  · have e1 : (iv ++ E.2 ++ E.1).take C.ivSize = iv := by
      rw [List.append_assoc, ← hivl, List.take_left]
    have e2 : (iv ++ E.2 ++ E.1).drop (C.ivSize + 16) = E.1 := by
      apply List.drop_left'
      rw [List.length_append, hivl, hmac]
    have e3 : ((iv ++ E.2 ++ E.1).drop C.ivSize).take 16 = E.2 := by
      rw [List.append_assoc, ← hivl, List.drop_left, ← hmac, List.take_left]
    rw [e1, e2, e3, hE, hC.gcm.dec_enc]

theorem readHeader_ok {H st c} (hR : Repr C true H st c) {h : Bytes} (hh : HeaderIs C H h)
    (hpos : 0 < C.encHeaderSize)
    (len : Nat) (hl : len ≤ C.headerSize) :
    C.readHeader st len = .ok (some (h.take len)) := by
  have hle : C.encHeaderSize ≤ (st.metaS.file.drop 32).length := by
    rcases hR.pl with h | h
    · cases h.1
    · exact h
  obtain ⟨m0, hpay, _⟩ := hR.enc
  rw [payload_of_le hle] at hpay
  have hb : hmacRead st.metaS 0 C.encHeaderSize = H := by
    unfold hmacRead ufRead
    rw [Nat.zero_add, hpay, ← hR.hlen, List.take_left]
  unfold readHeader uncheckedReadHeader
  rw [if_neg (by omega)]
  simp only [hb, hR.hlen]
  rw [if_neg (by omega), if_neg (by simp)]
  simp only [bind, Except.bind, hh.2, Option.map]

theorem flush_ok (hC : C.WF) {hd H st c} (hR : Repr C hd H st c) :
    ∃ st', C.flush st = .ok st' ∧ Repr C hd H st' c ∧ st'.metaS.dirty = false ∧
      st'.data = st.data := by
  obtain ⟨m1, h1, hv, hdr, hdrop, _⟩ := hmacFlush_ok hC.hm_len hR.valid
  refine ⟨⟨st.data, m1, st.rng⟩, ?_, ⟨hR.hlen, ?_, ?_, fun _ => hv⟩, hdr, rfl⟩
  · simp only [flush, h1, bind, Except.bind]
  · simp only [hdrop]; exact hR.pl
  · obtain ⟨m, hp, hE⟩ := hR.enc
    refine ⟨m, ?_, hE⟩
    rw [← hp]
    unfold payload
    simp only [hdrop]

/-- The relation between a file with header and its ideal. -/
def HRepr (C : FullCfg) (st : FullSt) (f : Spec.HFile) : Prop :=
  ∃ H, Repr C f.header.isSome H st f.content ∧ ∀ h, f.header = some h → HeaderIs C H h

theorem hstep_ok (hC : C.WF) {st f} (hR : HRepr C st f) (op : Spec.HOp)
    (hw : op.within (fullMaxBlocks * C.bs) C.headerSize)
    (hf : ∀ len, op = .readHeader len → f.header.isSome = true) :
    ∃ st', C.hstep st op = .ok (st', (Spec.hstep C.headerSize f op).2) ∧
      HRepr C st' (Spec.hstep C.headerSize f op).1 := by
  obtain ⟨H, hR, hH⟩ := hR
  cases op with
  | file op =>
    have hx := (stream_refines hC f.header.isSome H).run_ok [op] hR
      (by intro o ho; simp only [List.mem_singleton] at ho; subst ho; exact hw)
    obtain ⟨st', h1, h2⟩ := hx
    simp only [Stream.run, bind, Except.bind] at h1
    split at h1
    · cases h1
    · rename_i p hp
      simp only [Spec.run, Except.ok.injEq, Prod.mk.injEq, List.cons.injEq, and_true] at h1 h2
      refine ⟨st', ?_, H, h2, hH⟩
      simp only [hstep, hp, bind, Except.bind, Spec.hstep, h1.1, h1.2]
  | writeHeader h =>
    obtain ⟨st', H', h1, h2, h3⟩ := writeHeader_ok hC hR h hw
    refine ⟨st', ?_, H', h2, ?_⟩
    · simp only [hstep, h1, bind, Except.bind, Spec.hstep]
    · intro h' hh
      simp only [Spec.hstep, Option.some.injEq] at hh
      rw [← hh]; exact h3
  | readHeader len =>
    have hs := hf len rfl
    obtain ⟨h, hh⟩ := Option.isSome_iff_exists.mp hs
    rw [hs] at hR
    refine ⟨st, ?_, H, by rw [show (Spec.hstep C.headerSize f (.readHeader len)).1 = f from rfl, hs]; exact hR, hH⟩
    have hpos : 0 < C.encHeaderSize := by unfold encHeaderSize; omega
    simp only [hstep, readHeader_ok hR (hH h hh) hpos len hw, bind, Except.bind, Spec.hstep, hh, Option.map]
  | flush =>
    obtain ⟨st', h1, h2, _⟩ := flush_ok hC hR
    refine ⟨st', ?_, H, h2, hH⟩
    simp only [hstep, h1, bind, Except.bind, Spec.hstep]

theorem hrun_ok (hC : C.WF) : ∀ (ops : List Spec.HOp) {st f}, HRepr C st f →
    (∀ op ∈ ops, op.within (fullMaxBlocks * C.bs) C.headerSize) →
    Spec.headerFirst f.header.isSome ops →
    ∃ st', C.hrun st ops = .ok (st', (Spec.hrun C.headerSize f ops).2) ∧
      HRepr C st' (Spec.hrun C.headerSize f ops).1 := by
  intro ops
  induction ops with
  | nil => intro st f hR _ _; exact ⟨st, rfl, hR⟩
  | cons op ops ih =>
    intro st f hR hw hf
    obtain ⟨st1, h1, hR1⟩ := hstep_ok hC hR op (hw op (by simp)) (by
      rintro len rfl; exact hf.1)
    have hf1 : Spec.headerFirst (Spec.hstep C.headerSize f op).1.header.isSome ops := by
      cases op with
      | readHeader len => exact hf.2
      | writeHeader h => exact hf
      | file op => exact hf
      | flush => exact hf
    obtain ⟨st2, h2, hR2⟩ := ih hR1 (fun o ho => hw o (by simp [ho])) hf1
    refine ⟨st2, ?_, ?_⟩
    · simp only [hrun, h1, h2, bind, Except.bind, Spec.hrun]
    · simpa [Spec.hrun] using hR2

end FullCfg
end Securefs

import Verif.Proofs.SealedLiteRun
import Verif.Proofs.FullStream
/-! The stored form of a file of the full format. -/

namespace Securefs.FullCfg
variable {C : FullCfg}

/-! ## Only real ciphertexts -/

/-- The configuration that accepts only real ciphertexts (only used in proofs). -/
noncomputable def strict (C : FullCfg) : FullCfg := { C with check := true, gcm := C.gcm.strict }

theorem WF.strict (hC : C.WF) : C.strict.WF := ⟨hC.bs_pos, hC.iv_ge, hC.gcm.strict, hC.rng, hC.hm_len⟩

theorem strict_writeLoop : ∀ (fuel rem rng : Nat) (input : Bytes), C.strict.writeLoop fuel rem rng input = C.writeLoop fuel rem rng input
  | 0, _, _, _ => rfl
  | fuel + 1, rem, rng, input => by
    rw [writeLoop, writeLoop]
    simp only [strict_writeLoop fuel]
    rfl

theorem strict_writeMulti (st : FullSt) (s e r : Nat) (input : Bytes) : C.strict.writeMulti st s e r input = C.writeMulti st s e r input := by
  unfold writeMulti
  simp only [strict_writeLoop]
  rfl

/-- A block that the strict configuration reads is a hole or a ciphertext. -/
theorem strict_decode {d m p : Bytes} (h : C.strict.decodeBlock d m = .ok p) :
    (allZeros m = true ∧ allZeros d = true ∧ p = zeros d.length) ∨
    (¬ (allZeros m = true ∧ allZeros d = true) ∧ C.gcm.enc (m.take C.ivSize) C.id p = (d, (m.drop C.ivSize).take 16)) := by
  unfold decodeBlock at h
  split at h
  · rename_i hz
    rw [Bool.and_eq_true] at hz
    exact Or.inl ⟨hz.1, hz.2, (Except.ok.inj h).symm⟩
  · rename_i hz
    refine Or.inr ⟨by rwa [Bool.and_eq_true] at hz, ?_⟩
    dsimp only at h
    split at h
    · cases h
    · rename_i hv
      have hv' : (C.gcm.strict.dec (m.take C.ivSize) C.id d ((m.drop C.ivSize).take 16)).1 = true := by
        have : C.strict.check = true := rfl
        rw [this, Bool.and_true, Bool.not_eq_true', Bool.not_eq_false] at hv
        exact hv
      have := Gcm.strict_inv hv'
      rw [← Except.ok.inj h]
      exact this

theorem strict_decode_ok (hC : C.WF) {d m p : Bytes} (h : C.strict.decodeBlock d m = .ok p) : C.decodeBlock d m = .ok p := by
  unfold decodeBlock
  rcases strict_decode h with ⟨hm, hd, hp⟩ | ⟨hz, hp⟩
  · rw [hm, hd, hp]; rfl
  · rw [if_neg (by rw [Bool.and_eq_true]; exact hz)]
    have := hC.gcm.dec_enc (m.take C.ivSize) C.id p
    rw [hp] at this
    simp [this]

theorem Repr.of_strict (hC : C.WF) {hd : Bool} {H : Bytes} {st : FullSt} {c : Bytes} (h : Repr C.strict hd H st c) : Repr C hd H st c := by
  obtain ⟨m, hm, hE⟩ := h.enc
  exact ⟨h.hlen, h.pl, ⟨m, hm, hE.dlen, hE.mlen, fun j hj => strict_decode_ok hC (hE.blk j hj)⟩, h.valid⟩

theorem refines_strict (hC : C.WF) (hd : Bool) (H : Bytes) : C.dev.Refines (Repr C.strict hd H) fullMaxBlocks := by
  have hS := refines hC.strict hd H
  have hw : ∀ st s e r inp, C.dev.writeMulti st s e r inp = C.strict.dev.writeMulti st s e r inp :=
    fun st s e r inp => (strict_writeMulti st s e r inp).symm
  refine ⟨hS.bs_pos, fun h => hS.size_eq h, fun h => (refines hC hd H).read_eq (h.of_strict hC), ?_, ?_, hS.cut_ok, hS.grow_ok⟩
  · intro st c s e r inp h
    rw [hw]
    exact hS.write_ok h
  · intro st c n inp h
    rw [hw]
    exact hS.shrink_ok h

theorem stream_refines_strict (hC : C.WF) (hd : Bool) (H : Bytes) : C.stream.Refines (Repr C.strict hd H) (fullMaxBlocks * C.bs) := by
  refine ⟨?_, ?_, ?_, ?_, ?_⟩
  · intro st c off len hR hl
    exact (refines_strict hC hd H).read_refines hR off len hl
  · intro st c off d hR hl
    exact (refines_strict hC hd H).write_refines hR off d hl
  · intro st c n hR hl
    exact (refines_strict hC hd H).resize_refines hR n hl
  · intro st c hR
    exact (refines_strict hC hd H).size_eq hR
  · intro st c hR
    obtain ⟨m1, h1, hv, hd, hdrop, _⟩ := hmacFlush_ok hC.hm_len (hR.of_strict hC).valid
    refine ⟨⟨st.data, ⟨m1.file, false⟩, st.rng⟩, ?_, hR.hlen, ?_, ?_, fun _ => hv⟩
    · simp only [stream, flush, h1, bind, Except.bind, openFile, hmacOpen_ok C.check hv]
    · simp only [hdrop]; exact hR.pl
    · obtain ⟨m, hp, hE⟩ := hR.enc
      refine ⟨m, ?_, hE⟩
      rw [← hp]
      unfold payload
      simp only [hdrop]

theorem flush_strict (hC : C.WF) {hd H st c} (hR : Repr C.strict hd H st c) :
    ∃ st', C.flush st = .ok st' ∧ Repr C.strict hd H st' c ∧ st'.metaS.dirty = false ∧ st'.data = st.data ∧ st'.rng = st.rng ∧
      st'.metaS.file.drop 32 = st.metaS.file.drop 32 := by
  obtain ⟨m1, h1, hv, hdr, hdrop, _⟩ := hmacFlush_ok hC.hm_len (hR.of_strict hC).valid
  refine ⟨⟨st.data, m1, st.rng⟩, ?_, ⟨hR.hlen, ?_, ?_, fun _ => hv⟩, hdr, rfl, rfl, hdrop⟩
  · simp only [flush, h1, bind, Except.bind]
  · simp only [hdrop]; exact hR.pl
  · obtain ⟨m, hp, hE⟩ := hR.enc
    refine ⟨m, ?_, hE⟩
    rw [← hp]
    unfold payload
    simp only [hdrop]

/-- The stored form of a header. -/
def sealHeader (C : FullCfg) (iv h : Bytes) : Bytes := iv ++ (C.gcm.enc iv C.id h).2 ++ (C.gcm.enc iv C.id h).1

theorem writeHeader_sealed (hC : C.WF) {hd H st c} (hR : Repr C.strict hd H st c) (h : Bytes) (hh : h.length ≤ C.headerSize) :
    ∃ st', C.writeHeader st h = .ok st' ∧
      Repr C.strict true (C.sealHeader (C.rng.draw st.rng C.ivSize) (h ++ zeros (C.headerSize - h.length))) st' c ∧
      st'.rng = st.rng + 1 ∧ st'.data = st.data ∧ (C.payload st').drop C.encHeaderSize = (C.payload st).drop C.encHeaderSize := by
  obtain ⟨st', H', h1, hR', _⟩ := writeHeader_ok hC.strict hR h hh
  have h1' : C.writeHeader st h = .ok st' := h1
  unfold writeHeader at h1'
  rw [if_neg (by omega)] at h1'
  have e := Except.ok.inj h1'
  have hX : (C.sealHeader (C.rng.draw st.rng C.ivSize) (h ++ zeros (C.headerSize - h.length))).length = C.encHeaderSize := by
    unfold sealHeader encHeaderSize
    simp only [List.length_append, hC.gcm.mac_len, hC.gcm.ct_len, hC.rng.len, zeros_length]
    omega
  set X := C.sealHeader (C.rng.draw st.rng C.ivSize) (h ++ zeros (C.headerSize - h.length)) with hXdef
  have hne : X ≠ [] := by
    intro hcon
    rw [hcon, encHeaderSize] at hX
    simp at hX
  have hP : st'.metaS.file.drop 32 = X ++ (st.metaS.file.drop 32).drop C.encHeaderSize := by
    rw [← e]
    change (ufWrite st.metaS.file (0 + 32) X).drop 32 = _
    rw [ufWrite_drop]
    unfold Spec.write
    rw [if_neg hne, List.take_zero, List.nil_append, Nat.zero_add, hX]
  have hpay : C.payload st' = X ++ (st.metaS.file.drop 32).drop C.encHeaderSize := by
    rw [payload_of_le (by rw [hP, List.length_append, hX]; omega), hP]
  have hH : H' = X := by
    obtain ⟨m, hm, _⟩ := hR'.enc
    have hm' : C.payload st' = H' ++ m := hm
    rw [hpay] at hm'
    have hl : H'.length = X.length := by rw [hX]; exact hR'.hlen
    exact (List.append_inj_left hm' hl.symm).symm
  refine ⟨st', h1, by rw [← hH]; exact hR', by rw [← e]; rfl, by rw [← e]; rfl, ?_⟩
  rw [hpay, ← hX, List.drop_left, hX]
  unfold payload
  generalize st.metaS.file.drop 32 = P
  rw [List.drop_append]
  unfold zeros
  rw [List.drop_replicate, Nat.sub_self, List.replicate_zero, List.append_nil]

/-! ## Equal plans leave files that agree in what shows -/

/-- The positions of the metadata file that show: the IVs of header and blocks. -/
def shows (C : FullCfg) (p : Nat) : Prop :=
  32 ≤ p ∧ (p - 32 < C.ivSize ∨ (C.encHeaderSize ≤ p - 32 ∧ (p - 32 - C.encHeaderSize) % C.metaSize < C.ivSize))

theorem writeLoop_agree (hC : C.WF) : ∀ (fuel rem rng : Nat) (i1 i2 : Bytes) {d1 d2 m1 m2 : Bytes} {r1 r2 : Nat},
    C.writeLoop fuel rem rng i1 = .ok (d1, m1, r1) → C.writeLoop fuel rem rng i2 = .ok (d2, m2, r2) →
    d1.length = rem ∧ d2.length = rem ∧ m1.length = m2.length ∧ r1 = r2 ∧ ∀ q, q % C.metaSize < C.ivSize → m1[q]? = m2[q]?
  | 0, rem, rng, i1, i2, d1, d2, m1, m2, r1, r2, h1, h2 => by
    rw [writeLoop] at h1 h2
    split at h1
    · rename_i h0
      rw [if_pos h0] at h2
      cases h1; cases h2
      exact ⟨h0.symm, h0.symm, rfl, rfl, fun _ _ => rfl⟩
    · cases h1
  | fuel + 1, rem, rng, i1, i2, d1, d2, m1, m2, r1, r2, h1, h2 => by
    rw [writeLoop] at h1 h2
    by_cases h0 : rem = 0
    · rw [if_pos h0] at h1 h2
      cases h1; cases h2
      exact ⟨h0.symm, h0.symm, rfl, rfl, fun _ _ => rfl⟩
    rw [if_neg h0] at h1 h2
    cases hq : drawIv C.rng C.ivSize C.ivFuel rng with
    | error e => simp only [hq, bind, Except.bind] at h1; cases h1
    | ok q =>
      simp only [hq, bind, Except.bind] at h1 h2
      split at h1
      · cases h1
      rename_i hin1
      split at h2
      · cases h2
      rename_i hin2
      split at h1
      · cases h1
      rename_i w1 hw1
      split at h2
      · cases h2
      rename_i w2 hw2
      obtain ⟨l1, l2, l3, hr, hs⟩ := writeLoop_agree hC fuel _ _ _ _ (d1 := w1.1) (m1 := w1.2.1) (r1 := w1.2.2) (d2 := w2.1) (m2 := w2.2.1) (r2 := w2.2.2) hw1 hw2
      cases h1; cases h2
      have hivl := (drawIv_inv C.rng C.ivSize (fun n => hC.rng.len n _) _ _ (iv := q.1) (n' := q.2) hq).1
      have c1 := hC.gcm.ct_len q.1 C.id (i1.take (min C.bs rem))
      have c2 := hC.gcm.ct_len q.1 C.id (i2.take (min C.bs rem))
      have t1 := hC.gcm.mac_len q.1 C.id (i1.take (min C.bs rem))
      have t2 := hC.gcm.mac_len q.1 C.id (i2.take (min C.bs rem))
      rw [List.length_take] at c1 c2
      have hms : C.metaSize = C.ivSize + 16 := rfl
      refine ⟨by rw [List.length_append, l1]; omega, by rw [List.length_append, l2]; omega, by simp only [List.length_append]; omega, hr, ?_⟩
      intro p hp
      have g1 : (q.1 ++ (C.gcm.enc q.1 C.id (i1.take (min C.bs rem))).2).length = C.ivSize + 16 := by rw [List.length_append]; omega
      have g2 : (q.1 ++ (C.gcm.enc q.1 C.id (i2.take (min C.bs rem))).2).length = C.ivSize + 16 := by rw [List.length_append]; omega
      rw [List.getElem?_append (l₂ := w1.2.1), List.getElem?_append (l₂ := w2.2.1), g1, g2]
      by_cases hlt : p < C.ivSize + 16
      · rw [if_pos hlt, if_pos hlt]
        rw [Nat.mod_eq_of_lt (by omega)] at hp
        rw [List.getElem?_append_left (by omega), List.getElem?_append_left (by omega)]
      · rw [if_neg hlt, if_neg hlt]
        refine hs _ ?_
        have : p % C.metaSize = (p - C.metaSize) % C.metaSize := by
          conv_lhs => rw [show p = p - C.metaSize + C.metaSize by omega, Nat.add_mod_right]
        rw [← hms, ← this]
        exact hp

/-- Two states of one file with the same random counter that agree in what shows. -/
structure Twin (C : FullCfg) (a b : FullSt) : Prop where
  rng : a.rng = b.rng
  len : a.data.length = b.data.length
  dirty : a.metaS.dirty = b.metaS.dirty
  shown : Agree C.shows a.metaS.file b.metaS.file

theorem ufWrite_length (f : Bytes) (off : Nat) (d : Bytes) :
    (ufWrite f off d).length = if d.isEmpty then f.length else max f.length (off + d.length) := by
  unfold ufWrite
  split
  · rfl
  · simp only [List.length_append, List.length_take, zeros_length, List.length_drop]; omega

theorem twin_does (hC : C.WF) {a b a' b' : FullSt} {p : Prim} (h : Twin C a b) (h1 : C.dev.Does a p a') (h2 : C.dev.Does b p b') : Twin C a' b' := by
  cases p with
  | adjust n =>
    have e1 := (Except.ok.inj h1).symm
    have e2 := (Except.ok.inj h2).symm
    rw [e1, e2]
    refine ⟨h.rng, ?_, rfl, h.shown.resize _⟩
    simp only [ufResize, List.length_append, List.length_take, zeros_length, h.len]
  | blocks s e r =>
    obtain ⟨i1, h1⟩ := h1
    obtain ⟨i2, h2⟩ := h2
    change C.writeMulti a s e r i1 = .ok a' at h1
    change C.writeMulti b s e r i2 = .ok b' at h2
    unfold writeMulti at h1 h2
    split at h1
    · cases h1
    rename_i he
    rw [if_neg he, ← h.rng] at h2
    simp only [bind, Except.bind] at h1 h2
    split at h1
    · cases h1
    rename_i w1 hw1
    split at h2
    · cases h2
    rename_i w2 hw2
    obtain ⟨l1, l2, l3, hr, hs⟩ := writeLoop_agree hC _ _ _ _ _ (d1 := w1.1) (m1 := w1.2.1) (r1 := w1.2.2) (d2 := w2.1) (m2 := w2.2.1) (r2 := w2.2.2) hw1 hw2
    cases h1; cases h2
    refine ⟨hr, ?_, rfl, h.shown.write l3 fun q hq => ?_⟩
    · dsimp only
      rw [ufWrite_length, ufWrite_length, l1, l2, h.len]
      have : w1.1.isEmpty = w2.1.isEmpty := by
        rw [Bool.eq_iff_iff, List.isEmpty_iff_length_eq_zero, List.isEmpty_iff_length_eq_zero, l1, l2]
      rw [this]
    · refine hs q ?_
      obtain ⟨_, hq⟩ := hq
      unfold metaPos at hq
      have he : C.ivSize < C.encHeaderSize := by unfold encHeaderSize; omega
      rcases hq with hq | ⟨_, hq⟩
      · omega
      · rwa [show C.encHeaderSize + C.metaSize * s + 32 + q - 32 - C.encHeaderSize = q + C.metaSize * s by omega, Nat.add_mul_mod_self_left] at hq

theorem twin_flush (hC : C.WF) {a b a' b' : FullSt} (h : Twin C a b) (h1 : C.flush a = .ok a') (h2 : C.flush b = .ok b') : Twin C a' b' := by
  unfold flush hmacFlush at h1 h2
  by_cases hd : b.metaS.dirty = true
  · rw [h.dirty, if_pos hd, runMac_ok] at h1
    rw [if_pos hd, runMac_ok] at h2
    cases h1; cases h2
    refine ⟨h.rng, h.len, rfl, h.shown.write (by rw [hC.hm_len, hC.hm_len]) fun q hq => ?_⟩
    obtain ⟨hq, _⟩ := hq
    rw [List.getElem?_eq_none (by rw [hC.hm_len]; omega), List.getElem?_eq_none (by rw [hC.hm_len]; omega)]
  · rw [h.dirty, if_neg hd] at h1
    rw [if_neg hd] at h2
    cases h1; cases h2
    exact h

theorem twin_open {a b a' b' : FullSt} (h : Twin C a b) (h1 : C.openFile a.data a.metaS.file a.rng = .ok a')
    (h2 : C.openFile b.data b.metaS.file b.rng = .ok b') : Twin C a' b' := by
  have key : ∀ {f : Bytes} {s : HmacSt}, hmacOpen C.hm C.id C.check f = .ok s → s = ⟨f, false⟩ := by
    intro f s hs
    unfold hmacOpen at hs
    split at hs
    · dsimp only at hs
      split at hs
      · cases hs; rfl
      split at hs
      · cases hs
      rw [runMac_ok] at hs
      simp only [bind, Except.bind] at hs
      split at hs
      · cases hs; rfl
      · cases hs
    · cases hs; rfl
  unfold openFile at h1 h2
  simp only [bind, Except.bind] at h1 h2
  split at h1
  · cases h1
  rename_i s1 hs1
  split at h2
  · cases h2
  rename_i s2 hs2
  cases h1; cases h2
  rw [key hs1, key hs2]
  exact ⟨h.rng, h.len, rfl, h.shown⟩

theorem twin_header (hC : C.WF) {a b a' b' : FullSt} {x y : Bytes} (hl : x.length = y.length) (h : Twin C a b)
    (h1 : C.writeHeader a x = .ok a') (h2 : C.writeHeader b y = .ok b') : Twin C a' b' := by
  unfold writeHeader at h1 h2
  split at h1
  · cases h1
  split at h2
  · cases h2
  cases h1; cases h2
  unfold uncheckedWriteHeader
  dsimp only
  rw [h.rng]
  have hiv : (C.rng.draw b.rng C.ivSize).length = C.ivSize := hC.rng.len _ _
  refine ⟨rfl, h.len, rfl, h.shown.write ?_ fun q hq => ?_⟩
  · simp only [List.length_append, hC.gcm.mac_len, hC.gcm.ct_len, zeros_length]; omega
  · obtain ⟨_, hq | ⟨hq, _⟩⟩ := hq
    · rw [List.append_assoc, List.append_assoc, List.getElem?_append_left (by omega), List.getElem?_append_left (by omega)]
    · unfold encHeaderSize at hq
      rw [List.getElem?_eq_none, List.getElem?_eq_none]
      · simp only [List.length_append, hC.gcm.mac_len, hC.gcm.ct_len, zeros_length]; omega
      · simp only [List.length_append, hC.gcm.mac_len, hC.gcm.ct_len, zeros_length]; omega

end Securefs.FullCfg

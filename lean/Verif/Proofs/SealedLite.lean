import Verif.Proofs.Sealed
/-! The stored form of a lite file. -/

namespace Securefs.LiteCfg
variable {C : LiteCfg} {o : LiteObj}

/-! ## Only real ciphertexts -/

/-- The configuration that accepts only real ciphertexts (only used in proofs). -/
noncomputable def strict (C : LiteCfg) : LiteCfg := { C with check := true, gcm := fun id => (C.gcm id).strict }

theorem WF.strict (hC : C.WF) : C.strict.WF := ⟨hC.bs_ge, hC.iv_ge, hC.iv_le, fun id => (hC.gcm id).strict, hC.rng⟩

theorem strict_writeLoop : ∀ (fuel blk rem rng : Nat) (input : Bytes), C.strict.writeLoop o fuel blk rem rng input = C.writeLoop o fuel blk rem rng input
  | 0, _, _, _, _ => rfl
  | fuel + 1, blk, rem, rng, input => by
    rw [writeLoop, writeLoop]
    simp only [strict_writeLoop fuel]
    rfl

theorem strict_writeMulti (st : LiteSt) (s e r : Nat) (input : Bytes) : C.strict.writeMulti o st s e r input = C.writeMulti o st s e r input := by
  unfold writeMulti
  simp only [strict_writeLoop]
  rfl

/-- A block that the strict configuration reads is a hole or a ciphertext. -/
theorem strict_decode {blk : Nat} {cur p : Bytes} (h : C.strict.decodeBlock o blk cur = .ok p) :
    (allZeros cur = true ∧ p = zeros (cur.length - 16 - C.ivSize)) ∨
    (allZeros cur = false ∧ (C.gcm o.id).enc (cur.take C.ivSize) (o.aad blk) p =
      ((cur.drop C.ivSize).take (cur.length - 16 - C.ivSize), cur.drop (cur.length - 16))) := by
  unfold decodeBlock at h
  split at h
  · rename_i hz; exact Or.inl ⟨hz, (Except.ok.inj h).symm⟩
  · rename_i hz
    refine Or.inr ⟨by simpa using hz, ?_⟩
    dsimp only at h
    split at h
    · cases h
    · rename_i hv
      have hv' : ((C.gcm o.id).strict.dec (cur.take C.ivSize) (o.aad blk) ((cur.drop C.ivSize).take (cur.length - 16 - C.ivSize))
          (cur.drop (cur.length - 16))).1 = true := by
        have : C.strict.check = true := rfl
        rw [this, Bool.true_and, Bool.not_eq_true', Bool.not_eq_false] at hv
        exact hv
      have := Gcm.strict_inv hv'
      rw [← Except.ok.inj h]
      exact this

theorem strict_decode_ok (hC : C.WF) {blk : Nat} {cur p : Bytes} (h : C.strict.decodeBlock o blk cur = .ok p) : C.decodeBlock o blk cur = .ok p := by
  unfold decodeBlock
  rcases strict_decode h with ⟨hz, hp⟩ | ⟨hz, hp⟩
  · rw [if_pos hz, hp]
  · rw [hz]
    have := (hC.gcm o.id).dec_enc (cur.take C.ivSize) (o.aad blk) p
    rw [hp] at this
    simp [this]

theorem Repr.of_strict (hC : C.WF) {st : LiteSt} {c : Bytes} (h : Repr C.strict o st c) : Repr C o st c :=
  ⟨h.header, h.idLen, ⟨h.enc.len, fun j hj => strict_decode_ok hC (h.enc.blk j hj)⟩⟩

theorem refines_strict (hC : C.WF) : (C.dev o).Refines (Repr C.strict o) liteMaxBlocks := by
  have hS := refines (o := o) hC.strict
  have hw : ∀ st s e r inp, (C.dev o).writeMulti st s e r inp = (C.strict.dev o).writeMulti st s e r inp :=
    fun st s e r inp => (strict_writeMulti st s e r inp).symm
  refine ⟨hS.bs_pos, fun h => hS.size_eq h, fun h => (refines hC).read_eq (h.of_strict hC), ?_, ?_, hS.cut_ok, hS.grow_ok⟩
  · intro st c s e r inp h
    rw [hw]
    exact hS.write_ok h
  · intro st c n inp h
    rw [hw]
    exact hS.shrink_ok h

theorem stream_refines_strict (hC : C.WF) : C.stream.Refines (SRepr C.strict) (liteMaxBlocks * C.bs) := by
  refine ⟨?_, ?_, ?_, ?_, ?_⟩
  · intro p c off len hR hl
    exact (refines_strict hC).read_refines hR.1 off len hl
  · intro p c off d hR hl
    obtain ⟨st', h1, h2⟩ := (refines_strict hC).write_refines hR.1 off d hl
    refine ⟨(p.1, st'), ?_, h2, hR.2⟩
    simp only [stream, h1, bind, Except.bind]
  · intro p c n hR hl
    obtain ⟨st', h1, h2⟩ := (refines_strict hC).resize_refines hR.1 n hl
    refine ⟨(p.1, st'), ?_, h2, hR.2⟩
    simp only [stream, h1, bind, Except.bind]
  · intro p c hR
    exact dev_size hC (hR.1.of_strict hC)
  · intro p c hR
    exact ⟨p, openFile_existing hC (hR.1.of_strict hC) hR.2, hR⟩

/-- The `k`-th stored block. -/
def blockAt (C : LiteCfg) (o : LiteObj) (f : Bytes) (k : Nat) : Bytes := (f.drop (o.headerSize + k * C.ubs)).take C.ubs

/-- The IV of the `k`-th stored block. -/
def ivAt (C : LiteCfg) (o : LiteObj) (f : Bytes) (k : Nat) : Bytes := (C.blockAt o f k).take C.ivSize

theorem blockAt_sealed (hC : C.WF) {st : LiteSt} {c : Bytes} (h : Repr C.strict o st c) {k : Nat} (hk : k * C.bs < c.length) :
    (C.blockAt o st.file k = zeros ((Spec.chunk C.bs c k).length + (C.ivSize + 16)) ∧ Spec.chunk C.bs c k = zeros (Spec.chunk C.bs c k).length) ∨
    (allZeros (C.blockAt o st.file k) = false ∧ C.blockAt o st.file k = C.encodeBlock o k (C.ivAt o st.file k) (Spec.chunk C.bs c k)) := by
  have hb : 0 < C.bs := by have := hC.bs_ge; omega
  have hd := h.enc.blk k hk
  have hcur : (st.file.drop o.headerSize |>.drop (k * (C.bs + (C.ivSize + 16))) |>.take (C.bs + (C.ivSize + 16))) = C.blockAt o st.file k := by
    unfold blockAt
    rw [List.drop_drop, ubs_eq]
  have hd' : C.strict.decodeBlock o k (C.blockAt o st.file k) = .ok (Spec.chunk C.bs c k) := by
    rw [← hcur]
    rw [Nat.zero_add k] at hd
    exact hd
  have hlen : (C.blockAt o st.file k).length = (Spec.chunk C.bs c k).length + (C.ivSize + 16) := by
    rw [← hcur, List.length_take, List.length_drop, h.enc.len]
    change min (C.bs + (C.ivSize + 16)) (encLen C.bs (C.ivSize + 16) c.length - _) = _
    rw [← encLen_sub hb, ← encLen_bs (ov := C.ivSize + 16) hb, ← encLen_min hb, Spec.chunk, List.length_take, List.length_drop,
      encLen_le_small hb (by omega) (by omega)]
  rcases strict_decode hd' with ⟨hz, hp⟩ | ⟨hz, hp⟩
  · left
    refine ⟨by rw [← hlen]; exact (allZeros_iff _).mp hz, ?_⟩
    rw [hp, zeros_length]
  · right
    refine ⟨hz, ?_⟩
    unfold encodeBlock ivAt
    rw [hp]
    dsimp only
    have e1 : (C.blockAt o st.file k).take C.ivSize ++ ((C.blockAt o st.file k).drop C.ivSize).take ((C.blockAt o st.file k).length - 16 - C.ivSize)
        = (C.blockAt o st.file k).take ((C.blockAt o st.file k).length - 16) := by
      conv_rhs => rw [show (C.blockAt o st.file k).length - 16 = C.ivSize + ((C.blockAt o st.file k).length - 16 - C.ivSize) by omega, List.take_add]
    rw [e1, List.take_append_drop]

/-! ## Equal plans leave files that agree in what shows -/

/-- The positions that show: the header and the IVs. -/
def shows (C : LiteCfg) (o : LiteObj) (p : Nat) : Prop := p < o.headerSize ∨ (p - o.headerSize) % C.ubs < C.ivSize

theorem writeLoop_agree (hC : C.WF) : ∀ (fuel blk rem rng : Nat) (i1 i2 : Bytes) {out1 out2 : Bytes} {r1 r2 : Nat},
    C.writeLoop o fuel blk rem rng i1 = .ok (out1, r1) → C.writeLoop o fuel blk rem rng i2 = .ok (out2, r2) →
    out1.length = rem ∧ out2.length = rem ∧ r1 = r2 ∧ ∀ q, q % C.ubs < C.ivSize → out1[q]? = out2[q]?
  | 0, blk, rem, rng, i1, i2, out1, out2, r1, r2, h1, h2 => by
    rw [writeLoop] at h1 h2
    split at h1
    · rename_i h0
      rw [if_pos h0] at h2
      cases h1; cases h2
      exact ⟨h0.symm, h0.symm, rfl, fun _ _ => rfl⟩
    · cases h1
  | fuel + 1, blk, rem, rng, i1, i2, out1, out2, r1, r2, h1, h2 => by
    rw [writeLoop] at h1 h2
    by_cases h0 : rem = 0
    · rw [if_pos h0] at h1 h2
      cases h1; cases h2
      exact ⟨h0.symm, h0.symm, rfl, fun _ _ => rfl⟩
    rw [if_neg h0] at h1 h2
    dsimp only at h1 h2
    by_cases hu : min C.ubs rem < 16 + C.ivSize
    · rw [if_pos hu] at h1; cases h1
    rw [if_neg hu] at h1 h2
    have hub : 0 < C.ubs := by unfold ubs; omega
    -- joins a first block to the rest
    have join : ∀ (a1 a2 b1 b2 : Bytes), a1.length = min C.ubs rem → a2.length = min C.ubs rem → (∀ q, q < C.ivSize → a1[q]? = a2[q]?) →
        b1.length = rem - min C.ubs rem → b2.length = rem - min C.ubs rem → (∀ q, q % C.ubs < C.ivSize → b1[q]? = b2[q]?) →
        ∀ q, q % C.ubs < C.ivSize → (a1 ++ b1)[q]? = (a2 ++ b2)[q]? := by
      intro a1 a2 b1 b2 l1 l2 ha m1 m2 hb q hq
      rw [List.getElem?_append, List.getElem?_append, l1, l2]
      by_cases hlt : q < min C.ubs rem
      · rw [if_pos hlt, if_pos hlt]
        rw [Nat.mod_eq_of_lt (by omega)] at hq
        exact ha q hq
      · rw [if_neg hlt, if_neg hlt]
        by_cases hfull : C.ubs ≤ rem
        · rw [Nat.min_eq_left hfull] at hlt ⊢
          refine hb _ ?_
          have : q % C.ubs = (q - C.ubs) % C.ubs := by
            conv_lhs => rw [show q = q - C.ubs + C.ubs by omega, Nat.add_mod_right]
          omega
        · have e1 : b1 = [] := List.eq_nil_of_length_eq_zero (by omega)
          have e2 : b2 = [] := List.eq_nil_of_length_eq_zero (by omega)
          rw [e1, e2]
    by_cases hv : min C.ubs rem - 16 - C.ivSize > 0
    · rw [if_pos hv] at h1 h2
      split at h1
      · cases h1
      rename_i hin1
      split at h2
      · cases h2
      rename_i hin2
      cases hq : drawIv C.rng C.ivSize C.ivFuel rng with
      | error e => simp only [hq, bind, Except.bind] at h1; cases h1
      | ok q =>
        simp only [hq, bind, Except.bind] at h1 h2
        split at h1
        · cases h1
        rename_i w1 hw1
        split at h2
        · cases h2
        rename_i w2 hw2
        obtain ⟨l1, l2, hr, hs⟩ := writeLoop_agree hC fuel _ _ _ _ _ (out1 := w1.1) (r1 := w1.2) (out2 := w2.1) (r2 := w2.2) hw1 hw2
        cases h1; cases h2
        have hivl := (drawIv_inv C.rng C.ivSize (fun n => hC.rng.len n _) _ _ (iv := q.1) (n' := q.2) hq).1
        have hb1 := encodeBlock_length (o := o) hC blk q.1 (i1.take (min C.ubs rem - 16 - C.ivSize)) hivl
        have hb2 := encodeBlock_length (o := o) hC blk q.1 (i2.take (min C.ubs rem - 16 - C.ivSize)) hivl
        rw [List.length_take] at hb1 hb2
        have k1 : (C.encodeBlock o blk q.1 (i1.take (min C.ubs rem - 16 - C.ivSize))).length = min C.ubs rem := by omega
        have k2 : (C.encodeBlock o blk q.1 (i2.take (min C.ubs rem - 16 - C.ivSize))).length = min C.ubs rem := by omega
        refine ⟨by rw [List.length_append, k1, l1]; omega, by rw [List.length_append, k2, l2]; omega, hr, ?_⟩
        refine join _ _ _ _ k1 k2 ?_ l1 l2 hs
        intro p hp
        unfold encodeBlock
        rw [List.append_assoc, List.append_assoc, List.getElem?_append_left (by omega), List.getElem?_append_left (by omega)]
    · rw [if_neg hv] at h1 h2
      simp only [bind, Except.bind] at h1 h2
      split at h1
      · cases h1
      rename_i w1 hw1
      split at h2
      · cases h2
      rename_i w2 hw2
      obtain ⟨l1, l2, hr, hs⟩ := writeLoop_agree hC fuel _ _ _ _ _ (out1 := w1.1) (r1 := w1.2) (out2 := w2.1) (r2 := w2.2) hw1 hw2
      cases h1; cases h2
      exact ⟨by rw [List.length_append, zeros_length, l1]; omega, by rw [List.length_append, zeros_length, l2]; omega, hr,
        join _ _ _ _ (zeros_length _) (zeros_length _) (fun _ _ => rfl) l1 l2 hs⟩

/-- Two states of one file with the same random counter that agree in what shows. -/
def Twin (C : LiteCfg) (o : LiteObj) (a b : LiteSt) : Prop := a.rng = b.rng ∧ Agree (C.shows o) a.file b.file

theorem twin_does (hC : C.WF) {a b a' b' : LiteSt} {p : Prim} (h : Twin C o a b) (h1 : (C.dev o).Does a p a') (h2 : (C.dev o).Does b p b') :
    Twin C o a' b' := by
  cases p with
  | adjust n =>
    have e1 : a' = { a with file := ufResize a.file (C.underlyingSize o n) } := (Except.ok.inj h1).symm
    have e2 : b' = { b with file := ufResize b.file (C.underlyingSize o n) } := (Except.ok.inj h2).symm
    rw [e1, e2]
    exact ⟨h.1, h.2.resize _⟩
  | blocks s e r =>
    obtain ⟨i1, h1⟩ := h1
    obtain ⟨i2, h2⟩ := h2
    change C.writeMulti o a s e r i1 = .ok a' at h1
    change C.writeMulti o b s e r i2 = .ok b' at h2
    unfold writeMulti at h1 h2
    split at h1
    · cases h1
    rename_i he
    rw [if_neg he, ← h.1] at h2
    simp only [bind, Except.bind] at h1 h2
    split at h1
    · cases h1
    rename_i w1 hw1
    split at h2
    · cases h2
    rename_i w2 hw2
    obtain ⟨l1, l2, hr, hs⟩ := writeLoop_agree hC _ _ _ _ _ _ (out1 := w1.1) (r1 := w1.2) (out2 := w2.1) (r2 := w2.2) hw1 hw2
    cases h1; cases h2
    refine ⟨hr, h.2.write (by rw [l1, l2]) fun q hq => hs q ?_⟩
    rcases hq with hq | hq
    · omega
    · rw [show s * C.ubs + o.headerSize + q - o.headerSize = q + s * C.ubs by omega, Nat.add_mul_mod_self_right] at hq
      exact hq

/-- Calls of one shape leave twins. -/
theorem twin_step (hC : C.WF) {a b a' b' : LiteSt} {o' o'' : LiteObj} {c d : Bytes} (h : Twin C o a b) (ha : SRepr C.strict (o, a) c) (hb : SRepr C.strict (o, b) d)
    (hl : c.length = d.length) {op1 op2 : Spec.Op} (hs : op1.shape = op2.shape) (hlim : op1.extent ≤ liteMaxBlocks * C.bs)
    {x1 x2 : Spec.Out} (h1 : C.stream.step (o, a) op1 = .ok ((o', a'), x1)) (h2 : C.stream.step (o, b) op2 = .ok ((o'', b'), x2)) :
    o' = o ∧ o'' = o ∧ Twin C o a' b' := by
  have hk := fun {a b a' b' ps} => BlockDev.DoesAll.keeps (D := C.dev o) (A := Twin C o) (twin_does hC) (ps := ps) (a := a) (b := b) (a' := a') (b' := b')
  cases op1 with
  | read off len =>
    cases op2 <;> simp only [Spec.Op.shape, Spec.Op.read.injEq, reduceCtorEq] at hs
    simp only [Stream.step, bind, Except.bind] at h1 h2
    split at h1
    · cases h1
    split at h2
    · cases h2
    cases h1; cases h2
    exact ⟨rfl, rfl, h⟩
  | size =>
    cases op2 <;> simp only [Spec.Op.shape, reduceCtorEq] at hs
    cases h1; cases h2
    exact ⟨rfl, rfl, h⟩
  | reopen =>
    cases op2 <;> simp only [Spec.Op.shape, reduceCtorEq] at hs
    simp only [Stream.step, stream, openFile_existing hC (ha.1.of_strict hC) ha.2, openFile_existing hC (hb.1.of_strict hC) hb.2,
      bind, Except.bind, Except.ok.injEq, Prod.mk.injEq] at h1 h2
    obtain ⟨⟨rfl, rfl⟩, _⟩ := h1
    obtain ⟨⟨rfl, rfl⟩, _⟩ := h2
    exact ⟨rfl, rfl, h⟩
  | write off x =>
    cases op2 with
    | write off' y =>
      simp only [Spec.Op.shape, Spec.Op.write.injEq] at hs
      obtain ⟨rfl, hs⟩ := hs
      have hxy : x.length = y.length := by have := congrArg List.length hs; simpa using this
      simp only [Stream.step, stream, bind, Except.bind] at h1 h2
      split at h1
      · cases h1
      rename_i w1 hw1
      split at h2
      · cases h2
      rename_i w2 hw2
      split at hw1
      · cases hw1
      rename_i v1 hv1
      split at hw2
      · cases hw2
      rename_i v2 hv2
      cases hw1; cases hw2; cases h1; cases h2
      simp only [Spec.Op.extent] at hlim
      have p1 := BlockDev.write_plan (refines_strict hC) ha.1 hlim hv1
      have p2 := BlockDev.write_plan (refines_strict hC) hb.1 (by rw [← hxy]; exact hlim) hv2
      rw [← hxy, ← hl] at p2
      exact ⟨rfl, rfl, hk h p1 p2⟩
    | read _ _ => simp [Spec.Op.shape] at hs
    | resize _ => simp [Spec.Op.shape] at hs
    | size => simp [Spec.Op.shape] at hs
    | reopen => simp [Spec.Op.shape] at hs
  | resize n =>
    cases op2 <;> simp only [Spec.Op.shape, Spec.Op.resize.injEq, reduceCtorEq] at hs
    subst hs
    simp only [Stream.step, stream, bind, Except.bind] at h1 h2
    split at h1
    · cases h1
    rename_i w1 hw1
    split at h2
    · cases h2
    rename_i w2 hw2
    split at hw1
    · cases hw1
    rename_i v1 hv1
    split at hw2
    · cases hw2
    rename_i v2 hv2
    cases hw1; cases hw2; cases h1; cases h2
    have p1 := BlockDev.resize_plan (refines_strict hC) ha.1 hlim hv1
    have p2 := BlockDev.resize_plan (refines_strict hC) hb.1 hlim hv2
    rw [← hl] at p2
    exact ⟨rfl, rfl, hk h p1 p2⟩

end Securefs.LiteCfg

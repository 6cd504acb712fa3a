import Verif.Proofs.SealedFullIv
/-! Histories on a file of the full format. -/

namespace Securefs.FullCfg
variable {C : FullCfg}

/-- The file and its ideal; the raw header is zeros as long as there is none. -/
def SHRepr (C : FullCfg) (st : FullSt) (f : Spec.HFile) : Prop :=
  ∃ H, Repr C.strict f.header.isSome H st f.content ∧
    (f.header = none → H = zeros C.encHeaderSize) ∧
    ∀ h, f.header = some h → h.length = C.headerSize ∧ H = C.sealHeader (H.take C.ivSize) h

theorem SHRepr.hrepr (hC : C.WF) {st : FullSt} {f : Spec.HFile} (h : SHRepr C st f) : HRepr C st f := by
  obtain ⟨H, hR, _, hh⟩ := h
  refine ⟨H, hR.of_strict hC, fun x hx => ?_⟩
  obtain ⟨hl, he⟩ := hh x hx
  have hHl : H.length = C.encHeaderSize := hR.hlen
  have hil : (H.take C.ivSize).length = C.ivSize := by rw [List.length_take, hHl, encHeaderSize]; omega
  refine ⟨hl, ?_⟩
  generalize H.take C.ivSize = iv at he hil
  subst he
  unfold sealHeader
  have hm := hC.gcm.mac_len iv C.id x
  have e2 : (iv ++ (C.gcm.enc iv C.id x).2 ++ (C.gcm.enc iv C.id x).1).drop (C.ivSize + 16) = (C.gcm.enc iv C.id x).1 := by
    apply List.drop_left'
    rw [List.length_append, hil, hm]
  have e3 : ((iv ++ (C.gcm.enc iv C.id x).2 ++ (C.gcm.enc iv C.id x).1).drop C.ivSize).take 16 = (C.gcm.enc iv C.id x).2 := by
    rw [List.append_assoc, ← hil, List.drop_left, ← hm, List.take_left]
  rw [e2, e3, hC.gcm.dec_enc]

theorem openFile_empty_strict (rng : Nat) (hC : C.WF) :
    ∃ st, C.openFile [] [] rng = .ok st ∧ SHRepr C st ⟨[], none⟩ ∧ IvInv C (C.parts st) := by
  have hv : HmacValid C.hm C.id [] := Or.inl rfl
  refine ⟨⟨[], ⟨[], false⟩, rng⟩, ?_, ⟨zeros C.encHeaderSize, ⟨by simp; rfl, Or.inl ⟨rfl, rfl⟩, ⟨[], ?_, FEnc.nil hC.bs_pos⟩, fun _ => hv⟩,
    fun _ => rfl, fun h hh => by cases hh⟩, ?_⟩
  · simp only [openFile, hmacOpen_ok C.check hv, bind, Except.bind]
  · simp [payload]; rfl
  · have hz : ∀ s, allZeros (C.slot (C.parts ⟨[], ⟨[], false⟩, rng⟩) s) = true := by
      have hp : C.payload ⟨[], ⟨[], false⟩, rng⟩ = zeros C.encHeaderSize := by simp [payload]
      intro s
      unfold slot parts
      rw [hp]
      cases s with
      | none => dsimp only; exact LiteCfg.allZeros_take _ (allZeros_zeros _)
      | some k =>
        dsimp only
        rw [List.drop_eq_nil_of_le (by simp)]
        simp [allZeros]
    refine ⟨fun s hs => ?_, fun k hk => ?_, fun _ s s' hs => ?_⟩
    · rw [hz] at hs; cases hs
    · rw [hz] at hk; cases hk
    · rw [hz] at hs; cases hs

theorem parts_of_payload {a b : FullSt} (hd : b.data = a.data) (hr : b.rng = a.rng) (hm : b.metaS.file.drop 32 = a.metaS.file.drop 32) : C.parts b = C.parts a := by
  unfold parts payload
  rw [hd, hr, hm]

/-- One call on the file: the parts, the IVs. -/
theorem hstep_sealed (hC : C.WF) {st : FullSt} {f : Spec.HFile} (hR : SHRepr C st f) (hI : IvInv C (C.parts st)) (op : Spec.HOp)
    (hw : op.within (fullMaxBlocks * C.bs) C.headerSize) (hf : ∀ len, op = .readHeader len → f.header.isSome = true) :
    ∃ st', C.hstep st op = .ok (st', (Spec.hstep C.headerSize f op).2) ∧ SHRepr C st' (Spec.hstep C.headerSize f op).1 ∧
      IvInv C (C.parts st') ∧ IvLink C (C.parts st) (C.parts st') := by
  obtain ⟨st0, h0, _⟩ := hstep_ok hC (hR.hrepr hC) op hw hf
  refine ⟨st0, h0, ?_⟩
  obtain ⟨H, hR, hn, hh⟩ := hR
  cases op with
  | file op =>
    obtain ⟨st', h1, h2⟩ := (stream_refines_strict hC f.header.isSome H).run_ok [op] hR (by intro o ho; simp only [List.mem_singleton] at ho; subst ho; exact hw)
    simp only [Stream.run, bind, Except.bind] at h1
    split at h1
    · cases h1
    rename_i p hp
    simp only [Spec.run, Except.ok.injEq, Prod.mk.injEq] at h1 h2
    simp only [hstep, hp, bind, Except.bind, Except.ok.injEq, Prod.mk.injEq] at h0
    obtain ⟨rfl, -⟩ := h0
    obtain ⟨rfl, -⟩ := h1
    refine ⟨⟨H, h2, hn, hh⟩, ?_⟩
    obtain ⟨st', x⟩ := p
    dsimp only at h2 ⊢
    simp only [Spec.HOp.within] at hw
    cases op with
    | read off len =>
      simp only [Stream.step, bind, Except.bind] at hp
      split at hp
      · cases hp
      cases hp
      exact ⟨hI, .refl _⟩
    | size =>
      cases hp
      exact ⟨hI, .refl _⟩
    | reopen =>
      obtain ⟨m1, hfl, hv, hd, hdrop, _⟩ := hmacFlush_ok hC.hm_len (hR.of_strict hC).valid
      simp only [Stream.step, stream, flush, hfl, bind, Except.bind, openFile, hmacOpen_ok C.check hv, Except.ok.injEq, Prod.mk.injEq] at hp
      obtain ⟨rfl, _⟩ := hp
      have : C.parts ⟨st.data, ⟨m1.file, false⟩, st.rng⟩ = C.parts st := parts_of_payload rfl rfl hdrop
      rw [this]
      exact ⟨hI, .refl _⟩
    | write off d =>
      simp only [Stream.step, stream, bind, Except.bind] at hp
      split at hp
      · cases hp
      rename_i v hv
      cases hp
      exact write_ivs hC hR hI hw hv
    | resize n =>
      simp only [Stream.step, stream, bind, Except.bind] at hp
      split at hp
      · cases hp
      rename_i v hv
      cases hp
      have hv' : C.dev.uncheckedResize st f.content.length n = .ok st' := by
        unfold BlockDev.resize at hv
        rwa [(refines_strict hC f.header.isSome H).size_eq hR] at hv
      exact uncheckedResize_ivs hC hR hI hw hv'
  | writeHeader h =>
    obtain ⟨st', h1, h2, h3, h4, h5⟩ := writeHeader_sealed hC hR h hw
    simp only [hstep, h1, bind, Except.bind, Except.ok.injEq, Prod.mk.injEq] at h0
    obtain ⟨rfl, -⟩ := h0
    have hil : (C.rng.draw st.rng C.ivSize).length = C.ivSize := hC.rng.len _ _
    have htake : ∀ x, (C.sealHeader (C.rng.draw st.rng C.ivSize) x).take C.ivSize = C.rng.draw st.rng C.ivSize := by
      intro x
      unfold sealHeader
      rw [List.append_assoc]
      exact List.take_left' hil
    refine ⟨⟨_, h2, (fun hx => by cases hx), fun x hx => ?_⟩, ?_⟩
    · simp only [Spec.hstep, Option.some.injEq] at hx
      subst hx
      refine ⟨by simp only [Spec.HOp.within] at hw; rw [List.length_append, List.length_replicate]; omega, ?_⟩
      rw [htake]
      rfl
    · obtain ⟨m0, hp0, _⟩ := hR.enc
      obtain ⟨m1, hp1, _⟩ := h2.enc
      have e0 := parts_eq hR hp0
      have e1 := parts_eq h2 hp1
      have hm : m1 = m0 := by
        have i1 : (C.payload st').drop C.encHeaderSize = m1 := congrArg Parts.m e1
        have i0 : (C.payload st).drop C.encHeaderSize = m0 := congrArg Parts.m e0
        rw [← i1, ← i0, h5]
      subst hm
      rw [e1, h3, h4]
      refine IvInv.change (p := C.parts st) hI (.refl _) (by rw [e0]; exact Nat.le_succ _) (fun s => s = none) (fun _ => st.rng) (fun s hs => ?_) (fun k hk => by cases hk)
        (fun s s' h h' _ => h.trans h'.symm) (fun s hs _ => ?_)
      · subst hs
        refine ⟨by rw [e0], by dsimp only; omega, ?_⟩
        unfold iv
        exact htake _
      · cases s with
        | none => exact absurd rfl hs
        | some k => rw [e0]; exact ⟨rfl, Or.inl rfl⟩
  | readHeader len =>
    simp only [hstep, bind, Except.bind] at h0
    split at h0
    · cases h0
    simp only [Except.ok.injEq, Prod.mk.injEq] at h0
    obtain ⟨rfl, _⟩ := h0
    exact ⟨⟨H, hR, hn, hh⟩, hI, .refl _⟩
  | flush =>
    obtain ⟨st', h1, h2, _, h3, h4, h5⟩ := flush_strict hC hR
    simp only [hstep, h1, bind, Except.bind, Except.ok.injEq, Prod.mk.injEq] at h0
    obtain ⟨rfl, -⟩ := h0
    rw [parts_of_payload h3 h4 h5]
    exact ⟨⟨H, h2, hn, hh⟩, hI, .refl _⟩

theorem headerFirst_step {p : Bool} {op : Spec.HOp} {ops : List Spec.HOp} {f : Spec.HFile} (hs : Nat) (hp : f.header.isSome = p) (h : Spec.headerFirst p (op :: ops)) :
    (∀ len, op = .readHeader len → f.header.isSome = true) ∧ Spec.headerFirst (Spec.hstep hs f op).1.header.isSome ops := by
  subst hp
  refine ⟨?_, ?_⟩
  · rintro len rfl; exact h.1
  · cases op with
    | readHeader len => exact h.2
    | writeHeader h' => exact h
    | file op => exact h
    | flush => exact h

/-- A history keeps the invariants. -/
theorem hrun_sealed (hC : C.WF) : ∀ (ops : List Spec.HOp) {st : FullSt} {f : Spec.HFile}, SHRepr C st f → IvInv C (C.parts st) →
    (∀ op ∈ ops, op.within (fullMaxBlocks * C.bs) C.headerSize) → Spec.headerFirst f.header.isSome ops →
    ∃ st', C.hrun st ops = .ok (st', (Spec.hrun C.headerSize f ops).2) ∧ SHRepr C st' (Spec.hrun C.headerSize f ops).1 ∧
      IvInv C (C.parts st') ∧ IvLink C (C.parts st) (C.parts st')
  | [], st, _, hR, hI, _, _ => ⟨st, rfl, hR, hI, .refl _⟩
  | op :: ops, st, f, hR, hI, hw, hf => by
    obtain ⟨g1, g2⟩ := headerFirst_step C.headerSize rfl hf
    obtain ⟨st1, h1, hR1, hI1, hL1⟩ := hstep_sealed hC hR hI op (hw op (by simp)) g1
    obtain ⟨st2, h2, hR2, hI2, hL2⟩ := hrun_sealed hC ops hR1 hI1 (fun o ho => hw o (by simp [ho])) g2
    refine ⟨st2, ?_, ?_, hI2, hL1.trans hL2⟩
    · simp only [hrun, h1, h2, bind, Except.bind, Spec.hrun]
    · simpa [Spec.hrun] using hR2

/-! ## Twins -/

theorem twin_hstep (hC : C.WF) {a b a' b' : FullSt} {f g : Spec.HFile} (h : Twin C a b) (ha : SHRepr C a f) (hb : SHRepr C b g)
    (hl : f.content.length = g.content.length) {op1 op2 : Spec.HOp} (hs : op1.shape = op2.shape) (hlim : op1.within (fullMaxBlocks * C.bs) C.headerSize)
    {x1 x2 : Spec.HOut} (h1 : C.hstep a op1 = .ok (a', x1)) (h2 : C.hstep b op2 = .ok (b', x2)) : Twin C a' b' := by
  have hk := fun {a b a' b' ps} => BlockDev.DoesAll.keeps (D := C.dev) (A := Twin C) (twin_does hC) (ps := ps) (a := a) (b := b) (a' := a') (b' := b')
  obtain ⟨H, ha, -, -⟩ := ha
  obtain ⟨G, hb, -, -⟩ := hb
  cases op1 with
  | readHeader len =>
    cases op2 <;> simp only [Spec.HOp.shape, reduceCtorEq] at hs
    simp only [hstep, bind, Except.bind] at h1 h2
    split at h1
    · cases h1
    split at h2
    · cases h2
    cases h1; cases h2
    exact h
  | flush =>
    cases op2 <;> simp only [Spec.HOp.shape, reduceCtorEq] at hs
    simp only [hstep, bind, Except.bind] at h1 h2
    split at h1
    · cases h1
    rename_i s1 hs1
    split at h2
    · cases h2
    rename_i s2 hs2
    cases h1; cases h2
    exact twin_flush hC h hs1 hs2
  | writeHeader x =>
    cases op2 with
    | writeHeader y =>
      simp only [Spec.HOp.shape, Spec.HOp.writeHeader.injEq] at hs
      have hxy : x.length = y.length := by have := congrArg List.length hs; simpa using this
      simp only [hstep, bind, Except.bind] at h1 h2
      split at h1
      · cases h1
      rename_i s1 hs1
      split at h2
      · cases h2
      rename_i s2 hs2
      cases h1; cases h2
      exact twin_header hC hxy h hs1 hs2
    | file _ => simp [Spec.HOp.shape] at hs
    | readHeader _ => simp [Spec.HOp.shape] at hs
    | flush => simp [Spec.HOp.shape] at hs
  | file op1 =>
    cases op2 with
    | writeHeader _ => simp [Spec.HOp.shape] at hs
    | readHeader _ => simp [Spec.HOp.shape] at hs
    | flush => simp [Spec.HOp.shape] at hs
    | file op2 =>
      simp only [Spec.HOp.shape, Spec.HOp.file.injEq] at hs
      simp only [Spec.HOp.within] at hlim
      simp only [hstep, bind, Except.bind] at h1 h2
      split at h1
      · cases h1
      rename_i p1 hp1
      split at h2
      · cases h2
      rename_i p2 hp2
      cases h1; cases h2
      cases op1 with
      | read off len =>
        cases op2 <;> simp only [Spec.Op.shape, Spec.Op.read.injEq, reduceCtorEq] at hs
        simp only [Stream.step, bind, Except.bind] at hp1 hp2
        split at hp1
        · cases hp1
        split at hp2
        · cases hp2
        cases hp1; cases hp2
        exact h
      | size =>
        cases op2 <;> simp only [Spec.Op.shape, reduceCtorEq] at hs
        cases hp1; cases hp2
        exact h
      | reopen =>
        cases op2 <;> simp only [Spec.Op.shape, reduceCtorEq] at hs
        simp only [Stream.step, stream, bind, Except.bind] at hp1 hp2
        split at hp1
        · cases hp1
        rename_i q1 hq1
        split at hp2
        · cases hp2
        rename_i q2 hq2
        split at hq1
        · cases hq1
        rename_i t1 ht1
        split at hq2
        · cases hq2
        rename_i t2 ht2
        cases hp1; cases hp2
        exact twin_open (twin_flush hC h ht1 ht2) hq1 hq2
      | write off x =>
        cases op2 with
        | write off' y =>
          simp only [Spec.Op.shape, Spec.Op.write.injEq] at hs
          obtain ⟨rfl, hs⟩ := hs
          have hxy : x.length = y.length := by have := congrArg List.length hs; simpa using this
          simp only [Stream.step, stream, bind, Except.bind] at hp1 hp2
          split at hp1
          · cases hp1
          rename_i v1 hv1
          split at hp2
          · cases hp2
          rename_i v2 hv2
          cases hp1; cases hp2
          simp only [Spec.Op.extent] at hlim
          have p1 := BlockDev.write_plan (refines_strict hC _ H) ha hlim hv1
          have p2 := BlockDev.write_plan (refines_strict hC _ G) hb (by rw [← hxy]; exact hlim) hv2
          rw [← hxy, ← hl] at p2
          exact hk h p1 p2
        | read _ _ => simp [Spec.Op.shape] at hs
        | resize _ => simp [Spec.Op.shape] at hs
        | size => simp [Spec.Op.shape] at hs
        | reopen => simp [Spec.Op.shape] at hs
      | resize n =>
        cases op2 <;> simp only [Spec.Op.shape, Spec.Op.resize.injEq, reduceCtorEq] at hs
        subst hs
        simp only [Stream.step, stream, bind, Except.bind] at hp1 hp2
        split at hp1
        · cases hp1
        rename_i v1 hv1
        split at hp2
        · cases hp2
        rename_i v2 hv2
        cases hp1; cases hp2
        have p1 := BlockDev.resize_plan (refines_strict hC _ H) ha hlim hv1
        have p2 := BlockDev.resize_plan (refines_strict hC _ G) hb hlim hv2
        rw [← hl] at p2
        exact hk h p1 p2

theorem hshape_within {op1 op2 : Spec.HOp} (hs : op1.shape = op2.shape) {a b : Nat} (h : op1.within a b) : op2.within a b := by
  cases op1 <;> cases op2 <;> simp only [Spec.HOp.shape, reduceCtorEq, Spec.HOp.file.injEq, Spec.HOp.writeHeader.injEq, Spec.HOp.readHeader.injEq] at hs
  · simp only [Spec.HOp.within] at *
    rw [← shape_extent hs]; exact h
  · have hxy := congrArg List.length hs
    simp only [List.length_replicate] at hxy
    simp only [Spec.HOp.within] at *
    rw [← hxy]; exact h
  · simp only [Spec.HOp.within] at *
    rw [← hs]; exact h
  · trivial

theorem hshape_step {op1 op2 : Spec.HOp} (hs : op1.shape = op2.shape) (n : Nat) {f g : Spec.HFile} (hl : f.content.length = g.content.length)
    (hh : f.header.isSome = g.header.isSome) :
    (Spec.hstep n f op1).1.content.length = (Spec.hstep n g op2).1.content.length ∧ (Spec.hstep n f op1).1.header.isSome = (Spec.hstep n g op2).1.header.isSome := by
  cases op1 <;> cases op2 <;> simp only [Spec.HOp.shape, reduceCtorEq, Spec.HOp.file.injEq, Spec.HOp.writeHeader.injEq, Spec.HOp.readHeader.injEq] at hs
  · exact ⟨spec_step_length hl hs, hh⟩
  · exact ⟨hl, rfl⟩
  · exact ⟨hl, hh⟩
  · exact ⟨hl, hh⟩

theorem headerFirst_shape : ∀ {ops1 ops2 : List Spec.HOp} {p : Bool}, ops1.map Spec.HOp.shape = ops2.map Spec.HOp.shape → Spec.headerFirst p ops1 → Spec.headerFirst p ops2
  | [], [], _, _, _ => trivial
  | [], _ :: _, _, hs, _ => by cases hs
  | _ :: _, [], _, hs, _ => by cases hs
  | o1 :: ops1, o2 :: ops2, p, hs, h => by
    simp only [List.map_cons, List.cons.injEq] at hs
    obtain ⟨hs1, hs2⟩ := hs
    cases o1 <;> cases o2 <;> simp only [Spec.HOp.shape, reduceCtorEq] at hs1
    · simp only [Spec.headerFirst] at h ⊢; exact headerFirst_shape (ops1 := ops1) (ops2 := ops2) (p := p) hs2 h
    · simp only [Spec.headerFirst] at h ⊢; exact headerFirst_shape (ops1 := ops1) (ops2 := ops2) (p := true) hs2 h
    · exact ⟨h.1, headerFirst_shape (ops1 := ops1) (ops2 := ops2) (p := p) hs2 h.2⟩
    · simp only [Spec.headerFirst] at h ⊢; exact headerFirst_shape (ops1 := ops1) (ops2 := ops2) (p := p) hs2 h

/-- Histories of one shape leave twins. -/
theorem hrun_twin (hC : C.WF) : ∀ (ops1 ops2 : List Spec.HOp) {a b a' b' : FullSt} {f g : Spec.HFile} {x1 x2 : List Spec.HOut}, Twin C a b →
    SHRepr C a f → SHRepr C b g → IvInv C (C.parts a) → IvInv C (C.parts b) → f.content.length = g.content.length → f.header.isSome = g.header.isSome →
    ops1.map Spec.HOp.shape = ops2.map Spec.HOp.shape →
    (∀ op ∈ ops1, op.within (fullMaxBlocks * C.bs) C.headerSize) → Spec.headerFirst f.header.isSome ops1 →
    C.hrun a ops1 = .ok (a', x1) → C.hrun b ops2 = .ok (b', x2) → Twin C a' b'
  | [], [], _, _, _, _, _, _, _, _, hT, _, _, _, _, _, _, _, _, _, h1, h2 => by cases h1; cases h2; exact hT
  | [], _ :: _, _, _, _, _, _, _, _, _, _, _, _, _, _, _, _, hs, _, _, _, _ => by cases hs
  | _ :: _, [], _, _, _, _, _, _, _, _, _, _, _, _, _, _, _, hs, _, _, _, _ => by cases hs
  | op1 :: ops1, op2 :: ops2, a, b, a', b', f, g, x1, x2, hT, ha, hb, hIa, hIb, hl, hh, hs, hlim, hf, h1, h2 => by
    simp only [List.map_cons, List.cons.injEq] at hs
    have hf2 : Spec.headerFirst g.header.isSome (op2 :: ops2) := by
      rw [← hh]
      exact headerFirst_shape (ops1 := op1 :: ops1) (by simp only [List.map_cons, hs.1, hs.2]) hf
    obtain ⟨g1, g2⟩ := headerFirst_step C.headerSize rfl hf
    obtain ⟨k1, _⟩ := headerFirst_step C.headerSize rfl hf2
    obtain ⟨s1, hs1, hR1, hI1, _⟩ := hstep_sealed hC ha hIa op1 (hlim op1 (by simp)) g1
    obtain ⟨s2, hs2, hR2, hI2, _⟩ := hstep_sealed hC hb hIb op2 (hshape_within hs.1 (hlim op1 (by simp))) k1
    have hT' := twin_hstep hC hT ha hb hl hs.1 (hlim op1 (by simp)) hs1 hs2
    obtain ⟨e1, e2⟩ := hshape_step hs.1 C.headerSize hl hh
    simp only [hrun, hs1, hs2, bind, Except.bind] at h1 h2
    split at h1
    · cases h1
    rename_i q1 hq1
    split at h2
    · cases h2
    rename_i q2 hq2
    cases h1; cases h2
    exact hrun_twin hC ops1 ops2 (x1 := q1.2) (x2 := q2.2) hT' hR1 hR2 hI1 hI2 e1 e2 hs.2 (fun o ho => hlim o (by simp [ho])) g2 hq1 hq2

/-! ## The rendering -/

/-- The IVs that show: none where the IV is zeros. -/
def ivsOf (C : FullCfg) (p : Parts) (k : Nat) : Option Bytes := if allZeros (C.iv p (some k)) then none else some (C.iv p (some k))

theorem cut_agree {f g : Bytes} (h : Agree C.shows f g) {off n : Nat} (hs : ∀ i, i < n → C.shows (off + i)) : (f.drop off).take n = (g.drop off).take n := by
  apply List.ext_getElem?
  intro i
  rw [List.getElem?_take, List.getElem?_take, List.getElem?_drop, List.getElem?_drop]
  split
  · rename_i hi; exact h.2 _ (hs i hi)
  · rfl

theorem payload_drop (st : FullSt) (k n : Nat) : (((C.payload st).drop C.encHeaderSize).drop k).take n = (st.metaS.file.drop (32 + C.encHeaderSize + k)).take n := by
  have : (C.payload st).drop C.encHeaderSize = st.metaS.file.drop (32 + C.encHeaderSize) := by
    unfold payload
    rw [List.drop_append]
    unfold zeros
    rw [List.drop_replicate, List.drop_drop]
    rw [show C.encHeaderSize - (st.metaS.file.drop 32).length - (C.encHeaderSize - (st.metaS.file.drop 32).length) = 0 by omega, List.replicate_zero, List.append_nil]
  rw [this, List.drop_drop]

theorem ivsOf_twin {a b : FullSt} (h : Twin C a b) : C.ivsOf (C.parts a) = C.ivsOf (C.parts b) := by
  have key : ∀ k, C.iv (C.parts a) (some k) = C.iv (C.parts b) (some k) := by
    intro k
    unfold iv parts
    dsimp only
    rw [payload_drop, payload_drop]
    refine cut_agree h.shown fun i hi => ⟨by omega, Or.inr ⟨by omega, ?_⟩⟩
    have hms : C.metaSize = C.ivSize + 16 := rfl
    rw [show 32 + C.encHeaderSize + k * C.metaSize + i - 32 - C.encHeaderSize = i + k * C.metaSize by omega, Nat.add_mul_mod_self_right, Nat.mod_eq_of_lt (by omega)]
    exact hi
  funext k
  unfold ivsOf
  rw [key]

theorem hdr_twin {a b : FullSt} (h : Twin C a b) : (a.metaS.file.drop 32).take C.ivSize = (b.metaS.file.drop 32).take C.ivSize :=
  cut_agree h.shown fun i hi => ⟨by omega, Or.inl (by omega)⟩

/-- The two files are the rendering of the contents and the header with the IVs that show. -/
theorem render_of_repr (hC : C.WF) {st : FullSt} {f : Spec.HFile} (h : SHRepr C st f) (hI : IvInv C (C.parts st)) :
    st.data = Spec.render C.bs 0 (fun _ iv pt => (C.gcm.enc iv C.id pt).1) [] (C.ivsOf (C.parts st)) f.content ∧
    ((st.metaS.file.drop 32 = [] ∧ f = ⟨[], none⟩) ∨
      st.metaS.file.drop 32 = (match f.header with
        | none => List.replicate C.encHeaderSize 0
        | some x => C.sealHeader ((st.metaS.file.drop 32).take C.ivSize) x) ++
        Spec.entries C.bs C.metaSize (fun iv pt => (C.gcm.enc iv C.id pt).2) (C.ivsOf (C.parts st)) f.content) ∧
    Spec.HolesZero C.bs (C.ivsOf (C.parts st)) f.content := by
  have hb := hC.bs_pos
  obtain ⟨H, hR, hn, hh⟩ := h
  obtain ⟨m, hp, hE⟩ := hR.enc
  have e0 := parts_eq hR hp
  have hHl : H.length = C.encHeaderSize := hR.hlen
  have hdl : st.data.length = f.content.length := hE.dlen
  have hml : m.length = nblk C.bs f.content.length * C.metaSize := hE.mlen
  have hms : C.metaSize = C.ivSize + 16 := rfl
  -- one block
  have hblk : ∀ k, k * C.bs < f.content.length →
      (C.ivsOf (C.parts st) k = none ∧ (m.drop (k * C.metaSize)).take C.metaSize = zeros C.metaSize ∧
        (st.data.drop (k * C.bs)).take C.bs = zeros (Spec.chunk C.bs f.content k).length ∧ Spec.chunk C.bs f.content k = zeros (Spec.chunk C.bs f.content k).length) ∨
      (∃ iv, C.ivsOf (C.parts st) k = some iv ∧ (m.drop (k * C.metaSize)).take C.metaSize = iv ++ (C.gcm.enc iv C.id (Spec.chunk C.bs f.content k)).2 ∧
        (st.data.drop (k * C.bs)).take C.bs = (C.gcm.enc iv C.id (Spec.chunk C.bs f.content k)).1) := by
    intro k hk
    have hd := hE.blk k hk
    change C.strict.decodeBlock ((st.data.drop (k * C.bs)).take C.bs) ((m.drop (k * C.metaSize)).take C.metaSize) = .ok (Spec.chunk C.bs f.content k) at hd
    have hlenm : ((m.drop (k * C.metaSize)).take C.metaSize).length = C.metaSize := by
      rw [List.length_take, List.length_drop, hml]
      have h1 : k + 1 ≤ nblk C.bs f.content.length := by
        have := nblk_mono (bs := C.bs) (show k * C.bs + 1 ≤ f.content.length by omega)
        rw [nblk_add hb, nblk_small hb (by omega) (by omega)] at this
        exact this
      have h2 := Nat.mul_le_mul_right C.metaSize h1
      rw [Nat.add_mul, Nat.one_mul] at h2
      omega
    have hiv : C.iv (C.parts st) (some k) = ((m.drop (k * C.metaSize)).take C.metaSize).take C.ivSize := by
      rw [e0]
      unfold iv
      dsimp only
      rw [List.take_take, Nat.min_eq_left (by omega)]
    rcases strict_decode hd with ⟨z1, z2, hp⟩ | ⟨hz, hp⟩
    · left
      refine ⟨?_, ?_, ?_, ?_⟩
      · unfold ivsOf
        rw [hiv, if_pos (LiteCfg.allZeros_take _ z1)]
      · conv_lhs => rw [(allZeros_iff _).mp z1, hlenm]
      · conv_lhs => rw [(allZeros_iff _).mp z2]
        rw [hp, zeros_length]
      · rw [hp, zeros_length]
    · right
      have hs : allZeros (C.slot (C.parts st) (some k)) = false := by
        rw [e0]
        unfold slot
        dsimp only
        rw [allZeros_append]
        rw [Bool.and_eq_false_iff]
        by_cases h1 : allZeros ((m.drop (k * C.metaSize)).take C.metaSize) = true
        · right
          simpa using fun h2 => hz ⟨h1, h2⟩
        · left
          simpa using h1
      have hnz := hI.nonzero k hs
      refine ⟨C.iv (C.parts st) (some k), ?_, ?_, ?_⟩
      · unfold ivsOf
        rw [if_neg (by rw [hnz]; decide)]
      · rw [hiv, hp]
        dsimp only
        conv_lhs => rw [← List.take_append_drop C.ivSize ((m.drop (k * C.metaSize)).take C.metaSize)]
        rw [List.take_of_length_le (l := List.drop C.ivSize _) (by rw [List.length_drop, hlenm]; omega)]
      · rw [hiv, hp]
  have hnb : Spec.blocks C.bs f.content.length = nblk C.bs f.content.length := rfl
  have hcov : f.content.length ≤ Spec.blocks C.bs f.content.length * C.bs := by
    by_contra hx
    have := (lt_blocks (n := f.content.length) (k := Spec.blocks C.bs f.content.length) hb).mpr (by omega)
    omega
  have hdata : st.data = Spec.render C.bs 0 (fun _ iv pt => (C.gcm.enc iv C.id pt).1) [] (C.ivsOf (C.parts st)) f.content := by
    unfold Spec.render
    rw [List.nil_append]
    conv_lhs => rw [← List.take_of_length_le (l := st.data) (i := Spec.blocks C.bs f.content.length * C.bs) (by omega)]
    rw [take_pieces]
    apply flatMap_range_congr
    intro k hk
    rcases hblk k ((lt_blocks hb).mp hk) with ⟨h1, _, h3, _⟩ | ⟨iv, h1, _, h3⟩
    · rw [h1, h3]; rfl
    · rw [h1, h3]
  have hent : m = Spec.entries C.bs C.metaSize (fun iv pt => (C.gcm.enc iv C.id pt).2) (C.ivsOf (C.parts st)) f.content := by
    unfold Spec.entries
    conv_lhs => rw [← List.take_of_length_le (l := m) (i := Spec.blocks C.bs f.content.length * C.metaSize) (by rw [hml, hnb])]
    rw [take_pieces]
    apply flatMap_range_congr
    intro k hk
    rcases hblk k ((lt_blocks hb).mp hk) with ⟨h1, h2, _⟩ | ⟨iv, h1, h2, _⟩
    · rw [h1, h2]; rfl
    · rw [h1, h2]
  refine ⟨hdata, ?_, ?_⟩
  · rcases hR.pl with ⟨h1, h2⟩ | h2
    · left
      refine ⟨h2, ?_⟩
      have h3 : C.payload st = zeros C.encHeaderSize := by unfold payload; rw [h2]; simp
      have hp' : C.payload st = H ++ m := hp
      rw [h3] at hp'
      have h4 := congrArg List.length hp'
      rw [zeros_length, List.length_append, hHl, hml] at h4
      have h5 : f.content.length = 0 := by
        by_contra hx
        have := nblk_pos (bs := C.bs) hb (show 0 < f.content.length by omega)
        have := Nat.mul_pos this (show 0 < C.metaSize by omega)
        omega
      obtain ⟨c, hd⟩ := f
      simp only [Option.isSome_eq_false_iff, Option.isNone_iff_eq_none] at h1
      simp only [Spec.HFile.mk.injEq]
      exact ⟨List.eq_nil_of_length_eq_zero h5, h1⟩
    · right
      have hp' : C.payload st = H ++ m := hp
      rw [payload_of_le (C := C) h2] at hp'
      rw [hp', ← hent]
      congr 1
      cases hx : f.header with
      | none => exact hn hx
      | some x =>
        dsimp only
        rw [List.take_append_of_le_length (by rw [hHl, encHeaderSize]; omega)]
        exact (hh x hx).2
  · intro k hk
    by_cases hlt : k * C.bs < f.content.length
    · rcases hblk k hlt with ⟨_, _, _, h4⟩ | ⟨iv, h1, _⟩
      · exact h4
      · rw [h1] at hk; cases hk
    · have : Spec.chunk C.bs f.content k = [] := by
        unfold Spec.chunk
        rw [List.drop_eq_nil_of_le (by omega), List.take_nil]
      rw [this]; rfl

end Securefs.FullCfg

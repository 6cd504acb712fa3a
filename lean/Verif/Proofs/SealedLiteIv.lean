import Verif.Proofs.SealedLiteRun
/-! The IVs of a lite file through whole calls and histories. -/

namespace Securefs.LiteCfg
variable {C : LiteCfg} {o : LiteObj}

theorem repr_len_strict {st : LiteSt} {c : Bytes} (h : Repr C.strict o st c) :
    st.file.length = o.headerSize + encLen C.bs (C.ivSize + 16) c.length := h.len

theorem repr_fit (hC : C.WF) {st : LiteSt} {c : Bytes} (h : Repr C.strict o st c) {s : Nat} (hs : s * C.bs ≤ c.length) :
    o.headerSize + s * C.ubs ≤ st.file.length := by
  have hb : 0 < C.bs := by have := hC.bs_ge; omega
  have h1 := repr_len_strict h
  have h3 := encLen_mono (ov := C.ivSize + 16) hb hs
  rw [encLen_mul hb, ← ubs_eq] at h3
  omega

/-- Cutting a file: the blocks before the cut stay, the block that is cut keeps its IV, the others go. -/
theorem blockAt_cut (hC : C.WF) {f : Bytes} {n k : Nat} (hn : C.underlyingSize o n ≤ f.length) :
    (k < n / C.bs → C.blockAt o (ufResize f (C.underlyingSize o n)) k = C.blockAt o f k) ∧
    (n / C.bs < k → C.blockAt o (ufResize f (C.underlyingSize o n)) k = []) ∧
    (n % C.bs = 0 → n / C.bs ≤ k → C.blockAt o (ufResize f (C.underlyingSize o n)) k = []) ∧
    (0 < n % C.bs → C.ivAt o (ufResize f (C.underlyingSize o n)) (n / C.bs) = C.ivAt o f (n / C.bs)) ∧
    ∃ m, C.blockAt o (ufResize f (C.underlyingSize o n)) k = (C.blockAt o f k).take m := by
  have hb : 0 < C.bs := by have := hC.bs_ge; omega
  have hu : C.underlyingSize o n = o.headerSize + n / C.bs * C.ubs + (if n % C.bs > 0 then n % C.bs + (C.ivSize + 16) else 0) := by
    rw [underlyingSize_eq, encLen, ubs_eq]; omega
  have hcut : ufResize f (C.underlyingSize o n) = f.take (C.underlyingSize o n) := by
    unfold ufResize
    rw [Nat.sub_eq_zero_of_le hn]
    simp [zeros]
  have hml := Nat.mod_lt n hb
  rw [hcut]
  have hubs := @ubs_eq C
  refine ⟨fun hk => ?_, fun hk => ?_, fun h0 hk => ?_, fun h0 => ?_, ?_⟩
  · have h1 : (k + 1) * C.ubs ≤ n / C.bs * C.ubs := Nat.mul_le_mul_right _ hk
    rw [Nat.add_mul, Nat.one_mul] at h1
    unfold blockAt
    rw [List.drop_take, List.take_take, Nat.min_eq_left (by omega)]
  · have h1 : (n / C.bs + 1) * C.ubs ≤ k * C.ubs := Nat.mul_le_mul_right _ hk
    rw [Nat.add_mul, Nat.one_mul] at h1
    unfold blockAt
    rw [List.drop_eq_nil_of_le, List.take_nil]
    rw [List.length_take]
    split at hu <;> omega
  · have h1 : n / C.bs * C.ubs ≤ k * C.ubs := Nat.mul_le_mul_right _ hk
    unfold blockAt
    rw [List.drop_eq_nil_of_le, List.take_nil]
    rw [List.length_take]
    rw [if_neg (by omega)] at hu
    omega
  · rw [if_pos h0] at hu
    unfold ivAt blockAt
    rw [List.take_take, List.take_take, List.drop_take, List.take_take, Nat.min_eq_left (by omega)]
  · unfold blockAt
    rw [List.drop_take, List.take_take]
    exact ⟨C.underlyingSize o n - (o.headerSize + k * C.ubs), by rw [List.take_take, Nat.min_comm]⟩

/-- A file to which zeros are appended at the end of a block. -/
theorem blockAt_grow {f : Bytes} {K n k : Nat} (hf : f.length = o.headerSize + K * C.ubs) :
    (k < K → C.blockAt o (f ++ zeros n) k = C.blockAt o f k) ∧ (K ≤ k → allZeros (C.blockAt o (f ++ zeros n) k) = true) := by
  refine ⟨fun hk => ?_, fun hk => ?_⟩
  · have h1 : (k + 1) * C.ubs ≤ K * C.ubs := Nat.mul_le_mul_right _ hk
    rw [Nat.add_mul, Nat.one_mul] at h1
    unfold blockAt
    rw [List.drop_append_of_le_length (by omega), List.take_append_of_le_length (by rw [List.length_drop]; omega)]
  · have h1 : K * C.ubs ≤ k * C.ubs := Nat.mul_le_mul_right _ hk
    unfold blockAt
    rw [List.drop_append, List.drop_eq_nil_of_le (by omega), List.nil_append]
    unfold zeros
    rw [List.drop_replicate, List.take_replicate]
    exact allZeros_zeros _

theorem allZeros_nil : allZeros [] = true := rfl

theorem resize_cut_ivs (hC : C.WF) {a st : LiteSt} {n : Nat} (hn : C.underlyingSize o n ≤ st.file.length) (hI : IvInv C o st) (hL : IvLink C o a st)
    (hnew : 0 < n % C.bs → C.Drawn a.rng st.rng (C.ivAt o st.file (n / C.bs))) :
    IvInv C o { st with file := ufResize st.file (C.underlyingSize o n) } ∧ IvLink C o a { st with file := ufResize st.file (C.underlyingSize o n) } := by
  have hcut := fun k => blockAt_cut (o := o) hC (k := k) hn
  -- an encrypted block of the cut file was encrypted before and has the same IV
  have hkeep : ∀ k, allZeros (C.blockAt o (ufResize st.file (C.underlyingSize o n)) k) = false →
      allZeros (C.blockAt o st.file k) = false ∧ C.ivAt o (ufResize st.file (C.underlyingSize o n)) k = C.ivAt o st.file k ∧
      (C.blockAt o (ufResize st.file (C.underlyingSize o n)) k = C.blockAt o st.file k ∨ (k = n / C.bs ∧ 0 < n % C.bs)) := by
    intro k hk
    obtain ⟨h1, h2, h3, h4, m, h5⟩ := hcut k
    refine ⟨?_, ?_⟩
    · cases hz : allZeros (C.blockAt o st.file k) with
      | false => rfl
      | true => rw [h5, allZeros_take _ hz] at hk; cases hk
    rcases Nat.lt_trichotomy k (n / C.bs) with h | h | h
    · refine ⟨?_, Or.inl (h1 h)⟩
      unfold ivAt
      rw [h1 h]
    · rcases Nat.eq_zero_or_pos (n % C.bs) with h0 | h0
      · rw [h3 h0 (by omega)] at hk; cases hk
      · refine ⟨?_, Or.inr ⟨h, h0⟩⟩
        rw [h]
        exact h4 h0
    · rw [h2 h] at hk; cases hk
  refine ⟨⟨fun k hk => ?_, fun k hk => ?_, fun hd k k' hk hk' he => ?_⟩, hL.rng, fun k hk => ?_⟩
  · obtain ⟨e1, e2, _⟩ := hkeep k hk
    dsimp only at *
    rw [e2]
    exact hI.drawn k e1
  · obtain ⟨e1, e2, _⟩ := hkeep k hk
    rw [e2]
    exact hI.nonzero k e1
  · obtain ⟨e1, e2, _⟩ := hkeep k hk
    obtain ⟨f1, f2, _⟩ := hkeep k' hk'
    dsimp only at he
    rw [e2, f2] at he
    exact hI.once hd k k' e1 f1 he
  · obtain ⟨e1, e2, e3⟩ := hkeep k hk
    dsimp only
    rcases e3 with e3 | ⟨rfl, h0⟩
    · rw [e3, e2]
      exact hL.blk k e1
    · rw [e2]
      exact Or.inr (hnew h0)

theorem resize_grow_ivs {st : LiteSt} {K n : Nat} (hf : st.file.length = o.headerSize + K * C.ubs) (hI : IvInv C o st) :
    IvInv C o { st with file := st.file ++ zeros n } ∧ IvLink C o st { st with file := st.file ++ zeros n } := by
  have hg := fun k => blockAt_grow (C := C) (o := o) (n := n) (k := k) hf
  have hkeep : ∀ k, allZeros (C.blockAt o (st.file ++ zeros n) k) = false → C.blockAt o (st.file ++ zeros n) k = C.blockAt o st.file k := by
    intro k hk
    rcases Nat.lt_or_ge k K with h | h
    · exact (hg k).1 h
    · rw [(hg k).2 h] at hk; cases hk
  have hiv : ∀ k, allZeros (C.blockAt o (st.file ++ zeros n) k) = false → C.ivAt o (st.file ++ zeros n) k = C.ivAt o st.file k := by
    intro k hk
    unfold ivAt
    rw [hkeep k hk]
  refine ⟨⟨fun k hk => ?_, fun k hk => ?_, fun hd k k' hk hk' he => ?_⟩, Nat.le_refl _, fun k hk => Or.inl (hkeep k hk)⟩
  · dsimp only at *
    rw [hiv k hk]
    rw [hkeep k hk] at hk
    exact hI.drawn k hk
  · rw [hiv k hk]
    rw [hkeep k hk] at hk
    exact hI.nonzero k hk
  · dsimp only at *
    rw [hiv k hk, hiv k' hk'] at he
    rw [hkeep k hk] at hk
    rw [hkeep k' hk'] at hk'
    exact hI.once hd k k' hk hk' he

theorem uncheckedWrite_ivs (hC : C.WF) {st st' : LiteSt} {c : Bytes} (hR : Repr C.strict o st c) (hI : IvInv C o st) {inp : WInput} {off len : Nat}
    (hoff : off ≤ c.length) (hlim : off + len ≤ liteMaxBlocks * C.bs) (h : (C.dev o).uncheckedWrite st inp off len = .ok st') :
    IvInv C o st' ∧ IvLink C o st st' := by
  have hb : 0 < C.bs := by have := hC.bs_ge; omega
  have hp := BlockDev.uncheckedWrite_plan (refines_strict hC) hR hlim h
  unfold BlockDev.writePlan at hp
  split at hp
  · cases hp
    exact ⟨hI, .refl _⟩
  · obtain ⟨st1, ⟨buf, hw⟩, hx⟩ := hp
    cases hx
    change C.writeMulti o st (off / C.bs) ((off + len) / C.bs) (if (off + len) % C.bs = 0 then 0 else
      max ((off + len) % C.bs) (min C.bs (c.length - (off + len) / C.bs * C.bs))) buf = .ok st' at hw
    have hml := Nat.mod_lt (off + len) hb
    have hdm := Nat.div_mul_le_self off C.bs
    obtain ⟨h1, h2, _, _⟩ := writeMulti_ivs hC (Nat.div_le_div_right (Nat.le_add_right _ _)) (by split <;> omega) (repr_fit hC hR (by omega)) hI hw
    exact ⟨h1, h2⟩

theorem uncheckedResize_ivs (hC : C.WF) {st st' : LiteSt} {c : Bytes} (hR : Repr C.strict o st c) (hI : IvInv C o st) {n : Nat}
    (hlim : n ≤ liteMaxBlocks * C.bs) (h : (C.dev o).uncheckedResize st c.length n = .ok st') :
    IvInv C o st' ∧ IvLink C o st st' := by
  have hb : 0 < C.bs := by have := hC.bs_ge; omega
  rcases Nat.lt_trichotomy n c.length with hn | hn | hn
  · have hp := BlockDev.uncheckedResize_plan (refines_strict hC) hR hlim h
    unfold BlockDev.resizePlan at hp
    rw [if_neg (by omega), if_pos hn] at hp
    have hlen := repr_len_strict hR
    have hmono := encLen_mono (ov := C.ivSize + 16) hb (Nat.le_of_lt hn)
    have hus := underlyingSize_eq (C := C) (o := o) n
    change BlockDev.DoesAll (C.dev o) st ((if n % C.bs > 0 then [.blocks (n / C.bs) (n / C.bs) (n % C.bs)] else []) ++ [.adjust n]) st' at hp
    by_cases h0 : n % C.bs > 0
    · rw [if_pos h0] at hp
      obtain ⟨st1, ⟨buf, hw⟩, st2, ha, hx⟩ := hp
      cases hx
      have e : st' = { st1 with file := ufResize st1.file (C.underlyingSize o n) } := (Except.ok.inj ha).symm
      have hml := Nat.mod_lt n hb
      have hdm := Nat.div_add_mod' n C.bs
      change C.writeMulti o st (n / C.bs) (n / C.bs) (n % C.bs) buf = .ok st1 at hw
      obtain ⟨h1, h2, h3, h4⟩ := writeMulti_ivs hC (Nat.le_refl _) (by omega) (repr_fit hC hR (by omega)) hI hw
      rw [e]
      exact resize_cut_ivs hC (by omega) h1 h2 fun _ => h3 _ (Nat.le_refl _) (by omega)
    · rw [if_neg h0] at hp
      obtain ⟨st2, ha, hx⟩ := hp
      cases hx
      have e : st' = { st with file := ufResize st.file (C.underlyingSize o n) } := (Except.ok.inj ha).symm
      rw [e]
      exact resize_cut_ivs hC (by omega) hI (.refl _) fun h => absurd h (by omega)
  · unfold BlockDev.uncheckedResize at h
    rw [if_pos hn] at h
    cases h
    exact ⟨hI, .refl _⟩
  · unfold BlockDev.uncheckedResize at h
    rw [if_neg (by omega), if_neg (by omega)] at h
    simp only [bind, Except.bind] at h
    split at h
    · cases h
    rename_i st1 hg
    have e : st' = { st1 with file := ufResize st1.file (C.underlyingSize o n) } := (Except.ok.inj h).symm
    -- the length after the zero filling
    obtain ⟨fin, hf1, hf2, hf3, hf4⟩ : ∃ fin, c.length ≤ fin ∧ fin ≤ n ∧ (fin = n ∨ fin % C.bs = 0) ∧ (C.dev o).zeroFillTo st c.length fin = .ok st1 := by
      unfold BlockDev.growPrep at hg
      change (if C.sparse = false ∨ c.length / C.bs = n / C.bs then _ else (C.dev o).zeroFillTo st c.length (c.length / C.bs * C.bs + C.bs)) = _ at hg
      by_cases hs : C.sparse = false ∨ c.length / C.bs = n / C.bs
      · rw [if_pos hs] at hg
        exact ⟨n, by omega, Nat.le_refl _, Or.inl rfl, hg⟩
      · rw [if_neg hs] at hg
        have h3 : c.length / C.bs < n / C.bs := by
          have := Nat.div_le_div_right (c := C.bs) (show c.length ≤ n by omega)
          rcases Nat.lt_or_ge (c.length / C.bs) (n / C.bs) with h | h
          · exact h
          · exact absurd (Or.inr (by omega)) hs
        have h4 : (c.length / C.bs + 1) * C.bs ≤ n / C.bs * C.bs := Nat.mul_le_mul_right _ h3
        have h5 := Nat.div_mul_le_self n C.bs
        have h6 := Nat.div_add_mod' c.length C.bs
        have h7 := Nat.mod_lt c.length hb
        rw [Nat.add_mul, Nat.one_mul] at h4
        exact ⟨_, by omega, by omega, Or.inr (by rw [Nat.add_mod_right, Nat.mul_mod_left]), hg⟩
    obtain ⟨st1', hz1, hR1⟩ := (refines_strict hC).zeroFill_refines hR fin hf1 (by exact Nat.le_trans hf2 hlim)
    rw [hz1] at hf4
    cases hf4
    obtain ⟨h1, h2⟩ := uncheckedWrite_ivs hC hR hI (Nat.le_refl _) (by omega) hz1
    have hlen := repr_len_strict hR1
    have hcl : (c ++ zeros (fin - c.length)).length = fin := by rw [List.length_append, zeros_length]; omega
    rw [hcl] at hlen
    have hus := underlyingSize_eq (C := C) (o := o) n
    have hmono := encLen_mono (ov := C.ivSize + 16) hb hf2
    have hfile : ufResize st1.file (C.underlyingSize o n) = st1.file ++ zeros (C.underlyingSize o n - st1.file.length) := by
      unfold ufResize
      rw [List.take_of_length_le (by omega)]
    rw [hfile] at e
    rw [e]
    rcases hf3 with hf3 | hf3
    · have : C.underlyingSize o n - st1.file.length = 0 := by rw [hus, hlen, hf3]; omega
      rw [this]
      simp only [zeros, List.replicate_zero, List.append_nil]
      exact ⟨h1, h2⟩
    · have hal : st1.file.length = o.headerSize + fin / C.bs * C.ubs := by
        have hdm := Nat.div_add_mod' fin C.bs
        rw [hlen, encLen, hf3, ubs_eq]
        simp
      obtain ⟨k1, k2⟩ := resize_grow_ivs (n := C.underlyingSize o n - st1.file.length) hal h1
      exact ⟨k1, h2.trans k2⟩

theorem write_ivs (hC : C.WF) {st st' : LiteSt} {c : Bytes} (hR : Repr C.strict o st c) (hI : IvInv C o st) {off : Nat} {d : Bytes}
    (hlim : off + d.length ≤ liteMaxBlocks * C.bs) (h : (C.dev o).write st off d = .ok st') :
    IvInv C o st' ∧ IvLink C o st st' := by
  unfold BlockDev.write at h
  by_cases h0 : d.length = 0
  · rw [if_pos h0] at h
    cases h
    exact ⟨hI, .refl _⟩
  rw [if_neg h0, (refines_strict hC).size_eq hR] at h
  by_cases h1 : off > c.length
  · rw [if_pos h1] at h
    obtain ⟨st1, hr, hR1⟩ := (refines_strict hC).uncheckedResize_refines hR off (by exact Nat.le_trans (Nat.le_add_right _ _) hlim)
    simp only [bind, Except.bind, hr] at h
    have hl : off ≤ (Spec.resize c off).length := by
      simp only [Spec.resize, List.length_append, List.length_take, List.length_replicate]; omega
    obtain ⟨a1, a2⟩ := uncheckedResize_ivs hC hR hI (by omega) hr
    obtain ⟨b1, b2⟩ := uncheckedWrite_ivs hC hR1 a1 hl hlim h
    exact ⟨b1, a2.trans b2⟩
  · rw [if_neg h1] at h
    exact uncheckedWrite_ivs hC hR hI (by omega) hlim h

/-- One call keeps the invariant of the IVs. -/
theorem step_ivs (hC : C.WF) {a : LiteSt} {c : Bytes} (hR : SRepr C.strict (o, a) c) (hI : IvInv C o a) {op : Spec.Op}
    (hlim : op.extent ≤ liteMaxBlocks * C.bs) {o' : LiteObj} {a' : LiteSt} {x : Spec.Out} (h : C.stream.step (o, a) op = .ok ((o', a'), x)) :
    o' = o ∧ IvInv C o a' ∧ IvLink C o a a' := by
  cases op with
  | read off len =>
    simp only [Stream.step, bind, Except.bind] at h
    split at h
    · cases h
    cases h
    exact ⟨rfl, hI, .refl _⟩
  | size =>
    cases h
    exact ⟨rfl, hI, .refl _⟩
  | reopen =>
    simp only [Stream.step, stream, openFile_existing hC (hR.1.of_strict hC) hR.2, bind, Except.bind, Except.ok.injEq, Prod.mk.injEq] at h
    obtain ⟨⟨rfl, rfl⟩, _⟩ := h
    exact ⟨rfl, hI, .refl _⟩
  | write off d =>
    simp only [Stream.step, stream, bind, Except.bind] at h
    split at h
    · cases h
    rename_i w hw
    split at hw
    · cases hw
    rename_i v hv
    cases hw; cases h
    exact ⟨rfl, write_ivs hC hR.1 hI hlim hv⟩
  | resize n =>
    simp only [Stream.step, stream, bind, Except.bind] at h
    split at h
    · cases h
    rename_i w hw
    split at hw
    · cases hw
    rename_i v hv
    cases hw; cases h
    have hv' : (C.dev o).uncheckedResize a c.length n = .ok a' := by
      unfold BlockDev.resize at hv
      rwa [(refines_strict hC).size_eq hR.1] at hv
    exact ⟨rfl, uncheckedResize_ivs hC hR.1 hI hlim hv'⟩

/-- A new file has no blocks. -/
theorem ivInv_new {st : LiteSt} (h : Repr C.strict o st []) : IvInv C o st := by
  have hz : ∀ k, C.blockAt o st.file k = [] := by
    intro k
    have := repr_len_strict h
    have h0 : encLen C.bs (C.ivSize + 16) 0 = 0 := by unfold encLen; simp
    rw [List.length_nil, h0] at this
    unfold blockAt
    rw [List.drop_eq_nil_of_le (by omega), List.take_nil]
  refine ⟨fun k hk => ?_, fun k hk => ?_, fun _ k _ hk => ?_⟩ <;> (rw [hz] at hk; cases hk)

/-- A history keeps the invariant of the IVs. -/
theorem run_ivs (hC : C.WF) : ∀ (ops : List Spec.Op) {o : LiteObj} {a : LiteSt} {c : Bytes}, SRepr C.strict (o, a) c → IvInv C o a →
    (∀ op ∈ ops, op.extent ≤ liteMaxBlocks * C.bs) →
    ∃ a', C.stream.run (o, a) ops = .ok ((o, a'), (Spec.run c ops).2) ∧ SRepr C.strict (o, a') (Spec.run c ops).1 ∧ IvInv C o a' ∧ IvLink C o a a'
  | [], o, a, c, hR, hI, _ => ⟨a, rfl, hR, hI, .refl _⟩
  | op :: ops, o, a, c, hR, hI, hlim => by
    obtain ⟨⟨o', a'⟩, h1, hR'⟩ := (stream_refines_strict hC).run_ok [op] hR (fun x hx => hlim x (by simp only [List.mem_singleton] at hx; simp [hx]))
    simp only [Stream.run, bind, Except.bind] at h1
    split at h1
    · cases h1
    rename_i p hp
    simp only [Spec.run, Except.ok.injEq, Prod.mk.injEq, List.cons.injEq, and_true] at h1 hR'
    obtain ⟨p1, x⟩ := p
    simp only at h1
    obtain ⟨rfl, hx⟩ := h1
    obtain ⟨e, hI', hL⟩ := step_ivs hC hR hI (hlim op (by simp)) hp
    subst e
    obtain ⟨a2, h2, hR2, hI2, hL2⟩ := run_ivs hC ops hR' hI' fun x hx => hlim x (by simp [hx])
    refine ⟨a2, ?_, hR2, hI2, hL.trans hL2⟩
    simp only [Stream.run, hp, h2, bind, Except.bind, Spec.run, hx]

/-- Histories of one shape leave twins. -/
theorem run_twin (hC : C.WF) : ∀ (ops1 ops2 : List Spec.Op) {o : LiteObj} {a b a' b' : LiteSt} {c d : Bytes} {x1 x2 : List Spec.Out}, Twin C o a b →
    SRepr C.strict (o, a) c → SRepr C.strict (o, b) d → c.length = d.length → ops1.map Spec.Op.shape = ops2.map Spec.Op.shape →
    (∀ op ∈ ops1, op.extent ≤ liteMaxBlocks * C.bs) →
    C.stream.run (o, a) ops1 = .ok ((o, a'), x1) → C.stream.run (o, b) ops2 = .ok ((o, b'), x2) → Twin C o a' b'
  | [], [], o, a, b, a', b', c, d, x1, x2, hT, _, _, _, _, _, h1, h2 => by cases h1; cases h2; exact hT
  | [], _ :: _, _, _, _, _, _, _, _, _, _, _, _, _, _, hs, _, _, _ => by cases hs
  | _ :: _, [], _, _, _, _, _, _, _, _, _, _, _, _, _, hs, _, _, _ => by cases hs
  | op1 :: ops1, op2 :: ops2, o, a, b, a', b', c, d, x1, x2, hT, ha, hb, hl, hs, hlim, h1, h2 => by
    simp only [List.map_cons, List.cons.injEq] at hs
    have hl1 := hlim op1 (by simp)
    have hone : ∀ {st : LiteSt} {c : Bytes} {op : Spec.Op} {p : (LiteObj × LiteSt) × Spec.Out}, SRepr C.strict (o, st) c → op.extent ≤ liteMaxBlocks * C.bs →
        C.stream.step (o, st) op = .ok p → SRepr C.strict p.1 (Spec.step c op).1 := by
      intro st c op p hR hlim hp
      obtain ⟨q, h1, hR'⟩ := (stream_refines_strict hC).run_ok [op] hR (fun x hx => by simp only [List.mem_singleton] at hx; rw [hx]; exact hlim)
      simp only [Stream.run, bind, Except.bind, hp, Spec.run, Except.ok.injEq, Prod.mk.injEq] at h1 hR'
      rw [h1.1]
      exact hR'
    simp only [Stream.run, bind, Except.bind] at h1 h2
    split at h1
    · cases h1
    rename_i p1 hp1
    split at h2
    · cases h2
    rename_i p2 hp2
    obtain ⟨⟨o1, s1⟩, y1⟩ := p1
    obtain ⟨⟨o2, s2⟩, y2⟩ := p2
    obtain ⟨rfl, rfl, hT'⟩ := twin_step hC hT ha hb hl hs.1 hl1 hp1 hp2
    split at h1
    · cases h1
    rename_i q1 hq1
    split at h2
    · cases h2
    rename_i q2 hq2
    obtain ⟨⟨o1, t1⟩, z1⟩ := q1
    obtain ⟨⟨o2, t2⟩, z2⟩ := q2
    simp only [Except.ok.injEq, Prod.mk.injEq] at h1 h2
    obtain ⟨⟨rfl, rfl⟩, _⟩ := h1
    obtain ⟨⟨rfl, rfl⟩, _⟩ := h2
    exact run_twin hC ops1 ops2 hT' (hone ha hl1 hp1) (hone hb (by rw [← shape_extent hs.1]; exact hl1) hp2) (spec_step_length hl hs.1) hs.2
      (fun x hx => hlim x (by simp [hx])) hq1 hq2

theorem openFile_empty_strict (hC : C.WF) (n : Nat) : ∃ p, C.openFile ⟨[], n⟩ = .ok p ∧ SRepr C.strict p [] := openFile_empty hC.strict ⟨[], n⟩ rfl

end Securefs.LiteCfg

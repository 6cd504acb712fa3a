import Verif.Proofs.StreamFacts
/-! Operations that cross the limit on the number of blocks. -/

namespace Securefs

/-- The device refuses blocks beyond `maxB`. -/
structure BlockDev.Limited {σ : Type} (D : BlockDev σ) (maxB : Nat) : Prop where
  read : ∀ st s e, s < e → maxB < e → D.readMulti st s e = .error .tooLong
  write : ∀ st s e r inp, maxB < e → D.writeMulti st s e r inp = .error .tooLong

namespace BlockDev
variable {σ : Type} {D : BlockDev σ} {R : σ → Bytes → Prop} {maxB : Nat}

theorem uncheckedResizeS_eq (D : BlockDev σ) (st : σ) (cur new : Nat) :
    D.uncheckedResize st cur new = match D.uncheckedResizeS st cur new with
      | (st', none) => .ok st'
      | (_, some e) => .error e := by
  unfold uncheckedResize uncheckedResizeS
  by_cases h1 : new = cur
  · rw [if_pos h1, if_pos h1]
  · rw [if_neg h1, if_neg h1]
    by_cases h2 : new < cur
    · rw [if_pos h2, if_pos h2]
      cases h : D.shrinkPrep st new with
      | error e => simp [bind, Except.bind]
      | ok st1 =>
        simp only [bind, Except.bind]
        cases D.adjust st1 new <;> rfl
    · rw [if_neg h2, if_neg h2]
      cases h : D.growPrep st cur new with
      | error e => simp [bind, Except.bind]
      | ok st1 =>
        simp only [bind, Except.bind]
        cases D.adjust st1 new <;> rfl

/-- The state-returning variant agrees with `resize`. -/
theorem resizeS_eq (D : BlockDev σ) (st : σ) (new : Nat) :
    D.resize st new = match D.resizeS st new with
      | (st', none) => .ok st'
      | (_, some e) => .error e := uncheckedResizeS_eq D st _ new

/-- The state-returning variant agrees with `write`. -/
theorem writeS_eq (D : BlockDev σ) (st : σ) (off : Nat) (d : Bytes) :
    D.write st off d = match D.writeS st off d with
      | (st', none) => .ok st'
      | (_, some e) => .error e := by
  unfold write writeS
  by_cases h1 : d.length = 0
  · rw [if_pos h1, if_pos h1]
  · rw [if_neg h1, if_neg h1]
    by_cases h2 : off > D.size st
    · rw [if_pos h2, if_pos h2, uncheckedResizeS_eq]
      rcases h : D.uncheckedResizeS st (D.size st) off with ⟨st1, _ | e⟩
      · simp only [bind, Except.bind]
        cases D.uncheckedWrite st1 (.data d) off d.length <;> rfl
      · simp [bind, Except.bind]
    · rw [if_neg h2, if_neg h2]
      dsimp only
      cases D.uncheckedWrite st (.data d) off d.length <;> rfl

/-- A write ending beyond the limit is refused. -/
theorem uncheckedWrite_over (H : D.Refines R maxB) (L : D.Limited maxB) {st : σ} {c : Bytes} (hR : R st c)
    (inp : WInput) (off len : Nat) (hin : ∀ d, inp = .data d → d.length = len) (hc : off ≤ maxB * D.bs)
    (hover : maxB * D.bs < off + len) :
    D.uncheckedWrite st inp off len = .error .tooLong := by
  have hb := H.bs_pos
  have hm := Nat.div_add_mod' (off + len) D.bs
  have hml := Nat.mod_lt (off + len) hb
  have ho := Nat.div_add_mod' off D.bs
  have hol := Nat.mod_lt off hb
  have hq : maxB ≤ (off + len) / D.bs := (Nat.le_div_iff_mul_le hb).mpr (by omega)
  have hsb : off / D.bs ≤ maxB := (Nat.div_le_iff_le_mul_add_pred hb).mpr (by
    rw [Nat.mul_comm] at hc; omega)
  unfold uncheckedWrite
  rw [if_neg (by omega)]
  dsimp only
  by_cases h0 : off % D.bs = 0 ∧ (off + len) % D.bs = 0
  · rw [if_pos h0]
    have : maxB < (off + len) / D.bs := by
      by_contra hn
      have : (off + len) / D.bs = maxB := by omega
      rw [this] at hm; omega
    cases inp with
    | zeroFill => exact L.write _ _ _ _ _ this
    | data d => exact L.write _ _ _ _ _ this
  · rw [if_neg h0]
    have hhead : ∃ buf1, D.rmwHead st (off / D.bs) (off % D.bs) ((off + len) / D.bs)
        (zeros (((off + len) / D.bs - off / D.bs + (if (off + len) % D.bs > 0 then 1 else 0)) * D.bs))
          = .ok buf1 := by
      unfold rmwHead
      split
      · rename_i h
        have hsl : off / D.bs + 1 ≤ maxB := by
          by_contra hn
          have : off / D.bs = maxB := by omega
          rw [this] at ho; omega
        rw [H.read_eq hR (by omega) hsl]
        simp only [bind, Except.bind]
        rw [memcpyAt_ok]
        · exact ⟨_, rfl⟩
        · rw [zeros_length, List.length_take]
          have : 1 * D.bs ≤ ((off + len) / D.bs - off / D.bs + (if (off + len) % D.bs > 0 then 1 else 0)) * D.bs :=
            Nat.mul_le_mul_right _ (by omega)
          rw [Nat.add_sub_cancel_left]
          omega
      · exact ⟨_, rfl⟩
    obtain ⟨buf1, hbuf⟩ := hhead
    rw [hbuf]
    simp only [bind, Except.bind]
    by_cases her : (off + len) % D.bs > 0
    · have : D.rmwTail st (off / D.bs) ((off + len) / D.bs) ((off + len) % D.bs) buf1 = .error .tooLong := by
        unfold rmwTail
        rw [if_pos her, L.read _ _ _ (by omega) (by omega)]
        rfl
      rw [this]
    · have hgt : maxB < (off + len) / D.bs := by
        by_contra hn
        have : (off + len) / D.bs = maxB := by omega
        rw [this] at hm; omega
      have : D.rmwTail st (off / D.bs) ((off + len) / D.bs) ((off + len) % D.bs) buf1 = .ok (buf1, 0) := by
        unfold rmwTail
        rw [if_neg her]
      rw [this]
      dsimp only
      have hbl : buf1.length = ((off + len) / D.bs - off / D.bs) * D.bs := by
        unfold rmwHead at hbuf
        split at hbuf
        · simp only [bind, Except.bind] at hbuf
          split at hbuf
          · cases hbuf
          · rw [(memcpyAt_inv hbuf).2, zeros_length, Nat.add_zero]
        · simp only [Except.ok.injEq] at hbuf
          rw [← hbuf, zeros_length, Nat.add_zero]
      cases inp with
      | zeroFill =>
        simp only [rmwBody]
        exact L.write _ _ _ _ _ hgt
      | data d =>
        simp only [rmwBody]
        rw [memcpyAt_ok]
        · exact L.write _ _ _ _ _ hgt
        · rw [hbl, hin d rfl, Nat.sub_mul]
          omega

/-- A write that starts inside the file and crosses the limit fails and changes nothing. -/
theorem writeS_over (H : D.Refines R maxB) (L : D.Limited maxB) {st : σ} {c : Bytes} (hR : R st c)
    (hlen : c.length ≤ maxB * D.bs) (off : Nat) (d : Bytes) (hoff : off ≤ c.length)
    (hover : maxB * D.bs < off + d.length) : D.writeS st off d = (st, some .tooLong) := by
  unfold writeS
  rw [if_neg (by omega), H.size_eq hR, if_neg (by omega)]
  dsimp only
  rw [uncheckedWrite_over H L hR (.data d) off d.length (by intro d' h; cases h; rfl) (by omega) hover]

/-- A write that starts beyond the end of the file, below the limit, and crosses the limit, fails and
    leaves the file extended to its start. -/
theorem writeS_gap (H : D.Refines R maxB) (L : D.Limited maxB) {st : σ} {c : Bytes} (hR : R st c)
    (off : Nat) (d : Bytes) (hoff : c.length < off) (hle : off ≤ maxB * D.bs)
    (hover : maxB * D.bs < off + d.length) :
    ∃ st', D.writeS st off d = (st', some .tooLong) ∧ R st' (Spec.resize c off) := by
  obtain ⟨st1, h1, hR1⟩ := H.uncheckedResize_refines hR off hle
  rw [uncheckedResizeS_eq] at h1
  refine ⟨st1, ?_, hR1⟩
  unfold writeS
  rw [if_neg (by omega), H.size_eq hR, if_pos (by omega)]
  rcases h : D.uncheckedResizeS st c.length off with ⟨s, _ | e⟩
  · rw [h] at h1
    simp only [Except.ok.injEq] at h1
    subst h1
    dsimp only
    rw [uncheckedWrite_over H L hR1 (.data d) off d.length (by intro d' h; cases h; rfl) (by omega) hover]
  · rw [h] at h1; cases h1

/-- An extension beyond the limit of a file that is not sparse fails and changes nothing. -/
theorem resizeS_over (H : D.Refines R maxB) (L : D.Limited maxB) {st : σ} {c : Bytes} (hR : R st c)
    (hlen : c.length ≤ maxB * D.bs) (n : Nat) (hover : maxB * D.bs < n)
    (hsp : D.sparse = false ∨ c.length = maxB * D.bs) : D.resizeS st n = (st, some .tooLong) := by
  have hb := H.bs_pos
  unfold resizeS uncheckedResizeS
  rw [H.size_eq hR, if_neg (by omega), if_neg (by omega)]
  have : D.growPrep st c.length n = .error .tooLong := by
    unfold growPrep
    by_cases h : D.sparse = false ∨ c.length / D.bs = n / D.bs
    · rw [if_pos h]
      exact uncheckedWrite_over H L hR .zeroFill _ _ (by intro d h; cases h) hlen (by omega)
    · rw [if_neg h]
      have hc : c.length = maxB * D.bs := by
        rcases hsp with h1 | h1
        · exact absurd (Or.inl h1) h
        · exact h1
      refine uncheckedWrite_over H L hR .zeroFill _ _ (by intro d h; cases h) hlen ?_
      rw [hc, Nat.mul_div_cancel _ hb]
      omega
  rw [this]

/-- An extension beyond the limit of a sparse file is accepted. -/
theorem resizeS_sparse (H : D.Refines R maxB) {st : σ} {c : Bytes} (hR : R st c)
    (hsp : D.sparse = true) (hlen : c.length < maxB * D.bs) (n : Nat) (hover : maxB * D.bs < n) :
    ∃ st', D.resizeS st n = (st', none) ∧ R st' (Spec.resize c n) := by
  have hb := H.bs_pos
  have hdc := Nat.div_add_mod' c.length D.bs
  have hmc := Nat.mod_lt c.length hb
  have hlt : c.length / D.bs < maxB := (Nat.div_lt_iff_lt_mul hb).mpr hlen
  have hge : maxB ≤ n / D.bs := (Nat.le_div_iff_mul_le hb).mpr (by omega)
  have hmul : (c.length / D.bs + 1) * D.bs ≤ maxB * D.bs := Nat.mul_le_mul_right _ hlt
  rw [Nat.add_mul, Nat.one_mul] at hmul
  obtain ⟨st1, h1, hR1⟩ := H.zeroFill_refines hR (c.length / D.bs * D.bs + D.bs) (by omega) hmul
  set m := c.length / D.bs * D.bs + D.bs with hm
  have hl : (c ++ zeros (m - c.length)).length = m := by simp; omega
  obtain ⟨st2, h2, hR2⟩ := H.grow_ok (n := n) hR1 (by rw [hl]; omega)
    (Or.inl (by rw [hl, hm, Nat.add_mod_right, Nat.mul_mod_left]))
  refine ⟨st2, ?_, ?_⟩
  · unfold resizeS uncheckedResizeS
    rw [H.size_eq hR, if_neg (by omega), if_neg (by omega)]
    have : D.growPrep st c.length n = .ok st1 := by
      unfold growPrep
      rw [if_neg (by rw [hsp]; simp; omega), ← hm, h1]
    rw [this]
    dsimp only
    rw [h2]
  · rw [hl, List.append_assoc, ← zeros_add] at hR2
    unfold Spec.resize
    rw [List.take_of_length_le (by omega)]
    rw [show m - c.length + (n - m) = n - c.length by omega] at hR2
    exact hR2

/-- Reading beyond the limit is an error, never the end of the file. -/
theorem read_over (L : D.Limited maxB) (hb : 0 < D.bs) (st : σ) (off len : Nat) (hl : 0 < len)
    (hover : maxB * D.bs < off + len) : D.read st off len = .error .tooLong := by
  have hm := Nat.div_add_mod' (off + len) D.bs
  have hml := Nat.mod_lt (off + len) hb
  have ho := Nat.div_add_mod' off D.bs
  have hol := Nat.mod_lt off hb
  have hq : maxB ≤ (off + len) / D.bs := (Nat.le_div_iff_mul_le hb).mpr (by omega)
  have hle : off / D.bs ≤ (off + len) / D.bs := Nat.div_le_div_right (by omega)
  unfold read
  rw [if_neg (by omega)]
  dsimp only
  by_cases h0 : (off + len) % D.bs = 0
  · have hgt : maxB < (off + len) / D.bs := by
      by_contra hn
      have : (off + len) / D.bs = maxB := by omega
      rw [this] at hm; omega
    have hlt : off / D.bs < (off + len) / D.bs := by
      rcases Nat.lt_or_ge (off / D.bs) ((off + len) / D.bs) with h | h
      · exact h
      · have : off / D.bs = (off + len) / D.bs := by omega
        rw [this] at ho; omega
    by_cases h1 : off % D.bs = 0
    · rw [if_pos ⟨h1, h0⟩, L.read _ _ _ hlt hgt]
    · rw [if_neg (fun h => h1 h.1), L.read _ _ _ (by omega) (by omega)]
      rfl
  · rw [if_neg (fun h => h0 h.2), if_pos (by omega), L.read _ _ _ (by omega) (by omega)]
    rfl

end BlockDev

theorem LiteCfg.limited (C : LiteCfg) (o : LiteObj) : (C.dev o).Limited liteMaxBlocks := by
  refine ⟨?_, ?_⟩
  · intro st s e _ h
    show C.readMulti o st s e = _
    unfold LiteCfg.readMulti
    rw [if_pos h]
  · intro st s e r inp h
    show C.writeMulti o st s e r inp = _
    unfold LiteCfg.writeMulti
    rw [if_pos h]

theorem FullCfg.limited (C : FullCfg) : C.dev.Limited fullMaxBlocks := by
  refine ⟨?_, ?_⟩
  · intro st s e h1 h
    show C.readMulti st s e = _
    unfold FullCfg.readMulti
    rw [if_neg (by omega), if_pos h]
  · intro st s e r inp h
    show C.writeMulti st s e r inp = _
    unfold FullCfg.writeMulti
    rw [if_pos h]

theorem spec_step_le {lim : Nat} {c : Bytes} (hc : c.length ≤ lim) (op : Spec.Op) (h : op.extent ≤ lim) :
    (Spec.step c op).1.length ≤ lim := by
  cases op with
  | read => exact hc
  | write off d =>
    simp only [Spec.step, Spec.write, Spec.Op.extent] at *
    split
    · exact hc
    · simp only [List.length_append, List.length_take, List.length_replicate, List.length_drop]; omega
  | resize n =>
    simp only [Spec.step, Spec.resize, Spec.Op.extent] at *
    simp only [List.length_append, List.length_take, List.length_replicate]; omega
  | size => exact hc
  | reopen => exact hc

theorem spec_run_le {lim : Nat} : ∀ (ops : List Spec.Op) {c : Bytes}, c.length ≤ lim →
    (∀ op ∈ ops, op.extent ≤ lim) → (Spec.run c ops).1.length ≤ lim := by
  intro ops
  induction ops with
  | nil => intro c hc _; exact hc
  | cons op ops ih =>
    intro c hc h
    exact ih (spec_step_le hc op (h op (by simp))) (fun o ho => h o (by simp [ho]))

end Securefs

import Verif.Proofs.FaultsFull
/-! Streams over a system that works again: the calls that succeed. -/

namespace Securefs

theorem FIO.bind_eq {σ α β : Type} {m : FIO σ α} {f : α → FIO σ β} {F : Faulty σ} {a : α} {F' : Faulty σ} (h : m F = (.ok a, F')) :
    (m.bind f) F = f a F' := by
  unfold FIO.bind; rw [h]

theorem FIO.bind_err {σ α β : Type} {m : FIO σ α} {f : α → FIO σ β} {F : Faulty σ} {e : Err} (h : (m F).1 = .error e) :
    ((m.bind f) F).1 = .error e := by
  unfold FIO.bind
  rcases hm : m F with ⟨r, F'⟩
  rw [hm] at h
  dsimp only at h
  subst h
  rfl

/-- The outcome of a computation whose system calls all succeed. -/
def FaultAgrees {σ : Type} (r : Res σ) (q : Res Unit × Faulty σ) : Prop :=
  match r with
  | .ok st => q = (.ok (), ⟨st, []⟩)
  | .error e => q.1 = .error e

theorem FaultAgrees.ok {σ : Type} {r : Res σ} {q} (h : FaultAgrees r q) {st : σ} (hr : r = .ok st) : q = (.ok (), ⟨st, []⟩) := by
  subst hr; exact h

theorem FaultAgrees.bind {σ : Type} {st : σ} {m : FIO σ Unit} {f : Unit → FIO σ Unit} {r : Res σ} {g : σ → Res σ}
    (h : FaultAgrees r (m ⟨st, []⟩)) (hf : ∀ st', FaultAgrees (g st') (f () ⟨st', []⟩)) : FaultAgrees (r.bind g) ((m.bind f) ⟨st, []⟩) := by
  cases r with
  | ok st' =>
    rw [FIO.bind_eq h]
    exact hf st'
  | error e => exact FIO.bind_err h

/-- A device that does what the pure one does if no call fails. -/
structure FaultCalm {σ : Type} (D : FaultDev σ) (P : BlockDev σ) : Prop where
  bs_eq : D.bs = P.bs
  sparse_eq : D.sparse = P.sparse
  size : ∀ st, D.size ⟨st, []⟩ = (.ok (P.size st), ⟨st, []⟩)
  read : ∀ st s e, D.readMulti s e ⟨st, []⟩ = (P.readMulti st s e, ⟨st, []⟩)
  write : ∀ st s e r inp, FaultAgrees (P.writeMulti st s e r inp) (D.writeMulti s e r inp ⟨st, []⟩)
  adjust : ∀ st n, FaultAgrees (P.adjust st n) (D.adjust n ⟨st, []⟩)

namespace FaultCalm
variable {σ : Type} {D : FaultDev σ} {P : BlockDev σ} (K : FaultCalm D P)
include K

theorem reads (st : σ) (off len : Nat) : D.read off len ⟨st, []⟩ = (P.read st off len, ⟨st, []⟩) := by
  unfold FaultDev.read BlockDev.read
  rw [K.bs_eq]
  split
  · rfl
  dsimp only
  split
  · exact K.read _ _ _
  · have h := K.read st (off / P.bs) ((off + len) / P.bs + (if (off + len) % P.bs > 0 then 1 else 0))
    cases hr : P.readMulti st (off / P.bs) ((off + len) / P.bs + (if (off + len) % P.bs > 0 then 1 else 0)) with
    | ok b =>
      rw [hr] at h
      rw [FIO.bind_eq h]; rfl
    | error e =>
      rw [hr] at h
      unfold FIO.bind; rw [h]; rfl

theorem head (st : σ) (sb sr eb : Nat) (b : Bytes) : D.rmwHead sb sr eb b ⟨st, []⟩ = (P.rmwHead st sb sr eb b, ⟨st, []⟩) := by
  unfold FaultDev.rmwHead BlockDev.rmwHead
  split
  · have h := K.read st sb (sb + 1)
    cases hr : P.readMulti st sb (sb + 1) with
    | ok b => rw [hr] at h; rw [FIO.bind_eq h]; rfl
    | error e => rw [hr] at h; unfold FIO.bind; rw [h]; rfl
  · rfl

theorem tail (st : σ) (sb eb er : Nat) (b : Bytes) : D.rmwTail sb eb er b ⟨st, []⟩ = (P.rmwTail st sb eb er b, ⟨st, []⟩) := by
  unfold FaultDev.rmwTail BlockDev.rmwTail
  split
  · have h := K.read st eb (eb + 1)
    rw [K.bs_eq]
    cases hr : P.readMulti st eb (eb + 1) with
    | ok r =>
      rw [hr] at h
      rw [FIO.bind_eq h]
      simp only [FIO.lift, bind, Except.bind]
      cases memcpyAt b ((eb - sb) * P.bs) r <;> rfl
    | error e => rw [hr] at h; unfold FIO.bind; rw [h]; rfl
  · rfl

theorem unchecked (st : σ) (inp : WInput) (off len : Nat) : FaultAgrees (P.uncheckedWrite st inp off len) (D.uncheckedWrite inp off len ⟨st, []⟩) := by
  unfold FaultDev.uncheckedWrite BlockDev.uncheckedWrite
  rw [K.bs_eq]
  split
  · rfl
  dsimp only
  split
  · cases inp with
    | zeroFill => exact K.write _ _ _ _ _
    | data d => exact K.write _ _ _ _ _
  · simp only [bind]
    have h1 := K.head st (off / P.bs) (off % P.bs) ((off + len) / P.bs)
      (zeros (((off + len) / P.bs - off / P.bs + (if (off + len) % P.bs > 0 then 1 else 0)) * P.bs))
    cases hr : P.rmwHead st (off / P.bs) (off % P.bs) ((off + len) / P.bs)
      (zeros (((off + len) / P.bs - off / P.bs + (if (off + len) % P.bs > 0 then 1 else 0)) * P.bs)) with
    | error e => exact FIO.bind_err (by rw [h1, hr])
    | ok b1 =>
      rw [hr] at h1
      rw [FIO.bind_eq h1]
      have h2 := K.tail st (off / P.bs) ((off + len) / P.bs) ((off + len) % P.bs) b1
      simp only [Except.bind]
      cases hr2 : P.rmwTail st (off / P.bs) ((off + len) / P.bs) ((off + len) % P.bs) b1 with
      | error e => exact FIO.bind_err (by rw [h2, hr2])
      | ok p =>
        rw [hr2] at h2
        rw [FIO.bind_eq h2]
        dsimp only
        cases hr3 : BlockDev.rmwBody inp (off % P.bs) p.1 with
        | error e => exact FIO.bind_err rfl
        | ok b3 =>
          have h3 : FIO.lift (.ok b3) (⟨st, []⟩ : Faulty σ) = (.ok b3, (⟨st, []⟩ : Faulty σ)) := rfl
          rw [FIO.bind_eq h3]
          exact K.write _ _ _ _ _

theorem shrinks (st : σ) (n : Nat) : FaultAgrees (P.shrinkPrep st n) (D.shrinkPrep n ⟨st, []⟩) := by
  unfold FaultDev.shrinkPrep BlockDev.shrinkPrep
  rw [K.bs_eq]
  split
  · simp only [bind]
    have h1 := K.read st (n / P.bs) (n / P.bs + 1)
    cases hr : P.readMulti st (n / P.bs) (n / P.bs + 1) with
    | error e => exact FIO.bind_err (by rw [h1, hr])
    | ok q =>
      rw [hr] at h1
      rw [FIO.bind_eq h1]
      simp only [Except.bind]
      cases hr2 : memcpyAt (zeros P.bs) 0 q with
      | error e => exact FIO.bind_err (by simp [FIO.lift])
      | ok b =>
        have h3 : FIO.lift (.ok b) (⟨st, []⟩ : Faulty σ) = (.ok b, (⟨st, []⟩ : Faulty σ)) := rfl
        rw [FIO.bind_eq h3]
        exact K.write _ _ _ _ _
  · rfl

theorem grows (st : σ) (cur n : Nat) : FaultAgrees (P.growPrep st cur n) (D.growPrep cur n ⟨st, []⟩) := by
  unfold FaultDev.growPrep BlockDev.growPrep FaultDev.zeroFillTo BlockDev.zeroFillTo
  rw [K.bs_eq, K.sparse_eq]
  split
  · exact K.unchecked _ _ _ _
  · exact K.unchecked _ _ _ _

theorem resizes (st : σ) (cur n : Nat) : FaultAgrees (P.uncheckedResize st cur n) (D.uncheckedResize cur n ⟨st, []⟩) := by
  unfold FaultDev.uncheckedResize BlockDev.uncheckedResize
  split
  · rfl
  split
  · exact (K.shrinks st n).bind fun st' => K.adjust st' n
  · exact (K.grows st cur n).bind fun st' => K.adjust st' n

theorem resize (st : σ) (n : Nat) : FaultAgrees (P.resize st n) (D.resize n ⟨st, []⟩) := by
  unfold FaultDev.resize BlockDev.resize
  rw [FIO.bind_eq (K.size st)]
  exact K.resizes st _ n

theorem writes (st : σ) (off : Nat) (d : Bytes) : FaultAgrees (P.write st off d) (D.write off d ⟨st, []⟩) := by
  unfold FaultDev.write BlockDev.write
  split
  · rfl
  rw [FIO.bind_eq (K.size st)]
  split
  · exact (K.resizes st _ off).bind fun st' => K.unchecked st' _ _ _
  · exact K.unchecked st _ _ _

end FaultCalm

/-- A device whose writes within the limit succeed. -/
structure FaultLively {σ : Type} (P : BlockDev σ) (maxB : Nat) : Prop where
  write : ∀ st s e r inp, e ≤ maxB → r ≤ P.bs → (e - s) * P.bs + r ≤ inp.length → ∃ st', P.writeMulti st s e r inp = .ok st'
  adjust : ∀ st n, ∃ st', P.adjust st n = .ok st'

namespace FaultFrame
variable {σ : Type} {D : FaultDev σ} {P : BlockDev σ} {Inv : σ → Prop} {Good : σ → Nat → Bytes → Prop} {maxB : Nat}
  (H : FaultFrame D P Inv Good maxB) (K : FaultCalm D P) (L : FaultLively P maxB)
include H

theorem block_reads {st : σ} {c : Bytes} {k : Nat} (hI : Inv st) (hsz : P.size st = c.length) (hk : k < maxB) (hg : Good st k (Spec.block P.bs c k)) :
    ∃ q, P.readMulti st k (k + 1) = .ok q ∧ q.length ≤ P.bs := by
  obtain ⟨q, hq⟩ := H.good_reads hI (show k ≤ k + 1 by omega) (by omega) hsz (fun i h1 h2 => by
    rw [show i = k by omega]; exact hg)
  exact ⟨q, hq, by rw [H.read_len hI hq]; omega⟩

include L

theorem uw_live {st : σ} {c : Bytes} {inp : WInput} {off len : Nat} (hl : 0 < len) (hinp : ∀ d, inp = .data d → d.length = len) (hI : Inv st)
    (hsz : P.size st = c.length) (hx : off + len ≤ maxB * P.bs) (h1 : 0 < off % P.bs → Good st (off / P.bs) (Spec.block P.bs c (off / P.bs)))
    (h2 : 0 < (off + len) % P.bs → Good st ((off + len) / P.bs) (Spec.block P.bs c ((off + len) / P.bs))) :
    ∃ st', P.uncheckedWrite st inp off len = .ok st' := by
  have hb := H.bs_pos
  have d1 := Nat.div_add_mod' off P.bs
  have d2 := Nat.div_add_mod' (off + len) P.bs
  have d3 := Nat.mod_lt off hb
  have d4 := Nat.mod_lt (off + len) hb
  have hle : off / P.bs ≤ (off + len) / P.bs := Nat.div_le_div_right (by omega)
  have hmax : (off + len) / P.bs ≤ maxB := by
    have := Nat.div_le_div_right (c := P.bs) hx
    rwa [Nat.mul_div_cancel _ hb] at this
  have hmax' : 0 < (off + len) % P.bs → (off + len) / P.bs < maxB := by
    intro h
    exact Nat.lt_of_mul_lt_mul_right (a := P.bs) (by omega)
  have hes : (off + len) / P.bs * P.bs = off / P.bs * P.bs + ((off + len) / P.bs - off / P.bs) * P.bs := by
    rw [← Nat.add_mul]; congr 1; omega
  unfold BlockDev.uncheckedWrite
  rw [if_neg (by omega)]
  dsimp only
  generalize hsb : off / P.bs = sb at *
  generalize heb : (off + len) / P.bs = eb at *
  generalize hsr : off % P.bs = sr at *
  generalize her : (off + len) % P.bs = er at *
  split
  · rename_i hal
    cases inp with
    | zeroFill => exact L.write _ _ _ _ _ hmax (by omega) (by rw [zeros_length]; omega)
    | data d => exact L.write _ _ _ _ _ hmax (by omega) (by rw [hinp d rfl]; omega)
  · have hN : (eb - sb + (if er > 0 then 1 else 0)) * P.bs = (eb - sb) * P.bs + (if er > 0 then P.bs else 0) := by
      rw [Nat.add_mul]; split <;> simp
    have hhead : ∃ b1, P.rmwHead st sb sr eb (zeros ((eb - sb + (if er > 0 then 1 else 0)) * P.bs)) = .ok b1 ∧
        b1.length = (eb - sb + (if er > 0 then 1 else 0)) * P.bs := by
      unfold BlockDev.rmwHead
      split
      · rename_i hc
        obtain ⟨q, hq, hql⟩ := H.block_reads hI hsz (show sb < maxB by omega) (h1 hc.1)
        have hfit : q.length ≤ (eb - sb + (if er > 0 then 1 else 0)) * P.bs := by
          have := Nat.mul_le_mul_right P.bs (show 1 ≤ eb - sb by omega)
          rw [hN]; omega
        refine ⟨_, by simp only [hq, bind, Except.bind]; exact memcpyAt_ok _ _ _ (by rw [zeros_length]; omega), ?_⟩
        rw [splice_length _ _ _ (by omega), zeros_length]; omega
      · exact ⟨_, rfl, by rw [zeros_length]⟩
    obtain ⟨b1, hb1, hl1⟩ := hhead
    have htail : ∃ b2 r, P.rmwTail st sb eb er b1 = .ok (b2, r) ∧ b2.length = (eb - sb + (if er > 0 then 1 else 0)) * P.bs ∧
        (eb - sb) * P.bs + r ≤ b2.length ∧ r ≤ P.bs := by
      unfold BlockDev.rmwTail
      split
      · rename_i hc
        obtain ⟨q, hq, hql⟩ := H.block_reads hI hsz (hmax' hc) (h2 hc)
        simp only [if_pos hc] at hN hl1 ⊢
        refine ⟨_, _, by simp only [hq, bind, Except.bind]; rw [memcpyAt_ok _ _ _ (by omega)], ?_, ?_, by omega⟩
        · rw [splice_length _ _ _ (by omega), hl1]; omega
        · rw [splice_length _ _ _ (by omega), hl1]; omega
      · rename_i hc
        simp only [if_neg hc] at hN hl1 ⊢
        exact ⟨_, _, rfl, hl1, by rw [hl1]; omega, by omega⟩
    obtain ⟨b2, r, hb2, hl2, hr1, hr2⟩ := htail
    have hbody : ∃ b3, BlockDev.rmwBody inp sr b2 = .ok b3 ∧ b3.length = b2.length := by
      unfold BlockDev.rmwBody
      cases inp with
      | zeroFill => exact ⟨_, rfl, rfl⟩
      | data d =>
        have hd := hinp d rfl
        have hfit : sr + d.length ≤ b2.length := by
          rw [hl2, hN, hd]; split <;> omega
        exact ⟨_, memcpyAt_ok _ _ _ hfit, by rw [splice_length _ _ _ (by omega)]; omega⟩
    obtain ⟨b3, hb3, hl3⟩ := hbody
    simp only [hb1, hb2, hb3, bind, Except.bind]
    exact L.write _ _ _ _ _ hmax hr2 (by omega)

theorem rs_live {st : σ} {c : Bytes} {n : Nat} (hI : Inv st) (hsz : P.size st = c.length) (hx : n ≤ maxB * P.bs)
    (hg : ∀ i, n ≠ c.length → min n c.length / P.bs ≤ i → i * P.bs < max n c.length → i * P.bs < n → Good st i (Spec.block P.bs c i)) :
    ∃ st', P.uncheckedResize st c.length n = .ok st' := by
  have hb := H.bs_pos
  unfold BlockDev.uncheckedResize
  split
  · exact ⟨_, rfl⟩
  rename_i hne
  split
  · rename_i hlt
    have hprep : ∃ st1, P.shrinkPrep st n = .ok st1 := by
      unfold BlockDev.shrinkPrep
      have d1 := Nat.div_add_mod' n P.bs
      have d3 := Nat.mod_lt n hb
      split
      · rename_i hr
        obtain ⟨q, hq, hql⟩ := H.block_reads hI hsz (show n / P.bs < maxB from Nat.lt_of_mul_lt_mul_right (a := P.bs) (by omega))
          (hg (n / P.bs) hne (by rw [Nat.min_eq_left (by omega)]) (by omega) (by omega))
        simp only [hq, bind, Except.bind]
        rw [memcpyAt_ok _ _ _ (by rw [zeros_length]; omega)]
        have hmax : n / P.bs ≤ maxB := by
          have := Nat.div_le_div_right (c := P.bs) hx
          rwa [Nat.mul_div_cancel _ hb] at this
        exact L.write _ _ _ _ _ hmax (by omega) (by rw [splice_length _ _ _ (by omega), zeros_length, Nat.sub_self]; omega)
      · exact ⟨_, rfl⟩
    obtain ⟨st1, h1⟩ := hprep
    obtain ⟨st2, h2⟩ := L.adjust st1 n
    exact ⟨st2, by simp only [h1, bind, Except.bind]; exact h2⟩
  · rename_i hge
    have hcn : c.length < n := by omega
    have dc := Nat.div_add_mod' c.length P.bs
    have hprep : ∃ st1, P.growPrep st c.length n = .ok st1 := by
      have fin : ∀ fin, c.length < fin → fin ≤ n → (fin = n ∨ fin % P.bs = 0) → ∃ st1, P.uncheckedWrite st .zeroFill c.length (fin - c.length) = .ok st1 := by
        intro fin hf1 hf2 hf3
        have df := Nat.div_add_mod' fin P.bs
        refine H.uw_live L (by omega) (fun d h => by cases h) hI hsz (by omega) (fun h => ?_) (fun h => ?_)
        · exact hg _ hne (by rw [Nat.min_eq_right (by omega)]) (by omega) (by omega)
        · rw [show c.length + (fin - c.length) = fin by omega] at h ⊢
          exact hg _ hne (by rw [Nat.min_eq_right (by omega)]; exact Nat.div_le_div_right (by omega)) (by omega) (by omega)
      unfold BlockDev.growPrep BlockDev.zeroFillTo
      split
      · exact fin n hcn (by omega) (.inl rfl)
      · rename_i hc
        have d3 := Nat.mod_lt c.length hb
        refine fin _ (by omega) ?_ (.inr ?_)
        · have : c.length / P.bs + 1 ≤ n / P.bs := by
            have : c.length / P.bs ≤ n / P.bs := Nat.div_le_div_right (by omega)
            have : c.length / P.bs ≠ n / P.bs := fun h => hc (.inr h)
            omega
          have h5 := Nat.mul_le_mul_right P.bs this
          have := Nat.div_mul_le_self n P.bs
          rw [Nat.add_mul] at h5
          omega
        · rw [show c.length / P.bs * P.bs + P.bs = (c.length / P.bs + 1) * P.bs by rw [Nat.add_mul, Nat.one_mul]]
          exact Nat.mul_mod_left _ _
    obtain ⟨st1, h1⟩ := hprep
    obtain ⟨st2, h2⟩ := L.adjust st1 n
    exact ⟨st2, by simp only [h1, bind, Except.bind]; exact h2⟩

include K in
/-- When the system works again, every call within the limit succeeds that neither reads a spoilt block nor changes one in part. -/
theorem live {st : σ} {f : Spec.Frail} (hR : Rel P Inv Good st f) (call : Spec.FileCall) (hx : call.op.extent ≤ maxB * P.bs)
    (hd : f.determined P.bs call) (hc : ∀ i, call.covers P.bs f.content.length i → ¬ call.renews P.bs f.content.length i → f.intact i) :
    ∃ out st', D.call call ⟨st, []⟩ = (.ok out, ⟨st', []⟩) := by
  obtain ⟨hI, hsz, hG⟩ := hR
  have hb := H.bs_pos
  cases call with
  | size =>
    exact ⟨_, st, FIO.bind_eq (K.size st)⟩
  | read off len =>
    have hrd : ∃ b, P.read st off len = .ok b := by
      unfold BlockDev.read
      split
      · exact ⟨_, rfl⟩
      rename_i hl
      have hx' : off + len ≤ maxB * P.bs := hx
      have d2 := Nat.div_add_mod' (off + len) P.bs
      have hle : off / P.bs ≤ (off + len) / P.bs := Nat.div_le_div_right (by omega)
      have hmax : (off + len) / P.bs ≤ maxB := by
        have := Nat.div_le_div_right (c := P.bs) hx'
        rwa [Nat.mul_div_cancel _ hb] at this
      have hmax' : 0 < (off + len) % P.bs → (off + len) / P.bs < maxB := by
        intro h
        exact Nat.lt_of_mul_lt_mul_right (a := P.bs) (by omega)
      dsimp only
      have hgood : ∀ i, off / P.bs ≤ i → i < (off + len) / P.bs + (if (off + len) % P.bs > 0 then 1 else 0) → Good st i (Spec.block P.bs f.content i) := by
        intro i h1 h2
        refine hG i (hd i h1 ?_)
        rcases Nat.lt_or_ge i ((off + len) / P.bs) with h3 | h3
        · have := Nat.mul_le_mul_right P.bs (show i + 1 ≤ (off + len) / P.bs from h3)
          rw [Nat.add_mul] at this; omega
        · by_cases h4 : (off + len) % P.bs > 0
          · rw [if_pos h4] at h2
            rw [show i = (off + len) / P.bs by omega]; omega
          · rw [if_neg h4] at h2; omega
      split
      · rename_i hal
        exact H.good_reads hI hle hmax hsz (fun i h1 h2 => hgood i h1 (by omega))
      · obtain ⟨b, hb'⟩ := H.good_reads hI (s := off / P.bs) (e := (off + len) / P.bs + (if (off + len) % P.bs > 0 then 1 else 0))
          (by omega) (by split <;> omega) hsz hgood
        have hl := H.good_read hI (by omega) hsz hgood hb'
        simp only [hb', bind, Except.bind]
        have hbl : b.length ≤ ((off + len) / P.bs - off / P.bs + (if (off + len) % P.bs > 0 then 1 else 0)) * P.bs := by
          rw [hl, List.length_take]
          have : (off + len) / P.bs + (if (off + len) % P.bs > 0 then 1 else 0) - off / P.bs =
            (off + len) / P.bs - off / P.bs + (if (off + len) % P.bs > 0 then 1 else 0) := by omega
          rw [this]; omega
        rw [if_neg (by omega)]
        split
        · exact ⟨_, rfl⟩
        · exact ⟨_, rfl⟩
    obtain ⟨b, hb'⟩ := hrd
    have := K.reads st off len
    rw [hb'] at this
    exact ⟨_, st, FIO.bind_eq this⟩
  | resize n =>
    obtain ⟨st', h⟩ := H.rs_live L (n := n) hI hsz hx (fun i h1 h2 h3 h4 => hG i (hc i ⟨h1, h2, h3⟩ (fun h => absurd h.2 (by omega))))
    have h2 := (K.resize st n).ok (st := st') (by unfold BlockDev.resize; rw [hsz]; exact h)
    exact ⟨_, st', FIO.bind_eq h2⟩
  | write off d =>
    have hw : ∃ st', P.write st off d = .ok st' := by
      unfold BlockDev.write
      split
      · exact ⟨_, rfl⟩
      rename_i hl
      have hd0 : d ≠ [] := by intro h; rw [h] at hl; exact hl rfl
      have hx' : off + d.length ≤ maxB * P.bs := hx
      have d1 := Nat.div_add_mod' off P.bs
      have d2 := Nat.div_add_mod' (off + d.length) P.bs
      have d4 := Nat.mod_lt (off + d.length) hb
      have hle : off / P.bs ≤ (off + d.length) / P.bs := Nat.div_le_div_right (by omega)
      have hmin : min off f.content.length / P.bs ≤ off / P.bs := Nat.div_le_div_right (by omega)
      have h1 : 0 < off % P.bs → f.intact (off / P.bs) := fun h =>
        hc _ ⟨hd0, hmin, by omega⟩ (fun h' => by have := h'.1; omega)
      have h2 : 0 < (off + d.length) % P.bs → f.intact ((off + d.length) / P.bs) := fun h =>
        hc _ ⟨hd0, by omega, by omega⟩ (fun h' => by have := h'.2; omega)
      split
      · rename_i hgt
        rw [hsz] at hgt
        obtain ⟨st1, h3⟩ := H.rs_live L (n := off) hI hsz (by omega) (fun i g1 g2 g3 g4 =>
          hG i (hc i ⟨hd0, g2, by omega⟩ (fun h' => by have := h'.1; omega)))
        have hA := (K.resizes st f.content.length off).ok h3
        have hk := (H.rs_keep (n := off) (F := ⟨st, []⟩) hI hsz).1
        have hgd := H.rs_good (n := off) (c := f.content) (F := ⟨st, []⟩) hI hsz (by rw [hA])
        rw [hA] at hk hgd
        obtain ⟨hs1, hg1⟩ := hgd
        obtain ⟨st2, h4⟩ := H.uw_live L (c := Spec.resize f.content off) (inp := .data d) (off := off) (len := d.length) (by omega)
          (fun d' h => by cases h; rfl) hk (by rw [resize_length]; exact hs1) hx' (fun h => hg1 _ (.inl (hG _ (h1 h))))
          (fun h => hg1 _ (.inl (hG _ (h2 h))))
        exact ⟨st2, by rw [hsz]; simp only [h3, bind, Except.bind]; exact h4⟩
      · exact H.uw_live L (by omega) (fun d' h => by cases h; rfl) hI hsz hx' (fun h => hG _ (h1 h)) (fun h => hG _ (h2 h))
    obtain ⟨st', h⟩ := hw
    exact ⟨_, st', FIO.bind_eq ((K.writes st off d).ok h)⟩

end FaultFrame

namespace LiteCfg
variable {C : LiteCfg} {o : LiteObj}

theorem calm : FaultCalm (C.faultDev o) (C.dev o) where
  bs_eq := rfl
  sparse_eq := rfl
  size _ := rfl
  read st s e := by
    show C.readMultiF o s e ⟨st, []⟩ = (C.readMulti o st s e, _)
    unfold readMultiF readMulti
    split
    · rfl
    · rfl
  write st s e r inp := by
    show FaultAgrees (C.writeMulti o st s e r inp) (C.writeMultiF o s e r inp ⟨st, []⟩)
    unfold writeMultiF writeMulti
    split
    · rfl
    · simp only [bind]
      cases C.writeLoop o (e - s + 1) s ((e - s) * C.ubs + (if r ≤ 0 then 0 else r + C.ivSize + 16)) st.rng inp with
      | error e => rfl
      | ok q => rfl
  adjust st n := rfl

theorem lively (hC : C.WF) : FaultLively (C.dev o) liteMaxBlocks where
  write st s e r inp he hr hin := by
    have hb : 0 < C.bs := by have := hC.bs_ge; omega
    show ∃ st', C.writeMulti o st s e r inp = .ok st'
    unfold writeMulti
    rw [if_neg (by omega), encLen_cond hb (e - s) r hr]
    obtain ⟨out, rng', h1, h2⟩ := writeLoop_ok (o := o) hC (e - s + 1) s ((e - s) * C.bs + r) st.rng inp hin
      (by rw [Nat.add_mul, Nat.one_mul]; have : r ≤ C.bs := hr; omega)
    exact ⟨_, by simp only [h1, bind, Except.bind]; rfl⟩
  adjust st n := ⟨_, rfl⟩

end LiteCfg

namespace FullCfg
variable {C : FullCfg}

theorem calm : FaultCalm C.faultDev C.dev where
  bs_eq := rfl
  sparse_eq := rfl
  size _ := rfl
  read st s e := by
    show C.readMultiF s e ⟨st, []⟩ = (C.readMulti st s e, _)
    unfold readMultiF readMulti
    split
    · rfl
    split
    · rfl
    · rfl
  write st s e r inp := by
    show FaultAgrees (C.writeMulti st s e r inp) (C.writeMultiF s e r inp ⟨st, []⟩)
    unfold writeMultiF writeMulti
    split
    · rfl
    · simp only [bind]
      cases C.writeLoop (e - s + 1) (C.bs * (e - s) + r) st.rng inp with
      | error e => rfl
      | ok q => rfl
  adjust st n := rfl

theorem lively (hC : C.WF) : FaultLively C.dev fullMaxBlocks where
  write st s e r inp he hr hin := by
    show ∃ st', C.writeMulti st s e r inp = .ok st'
    unfold writeMulti
    rw [if_neg (by omega), Nat.mul_comm C.bs]
    obtain ⟨d, m, rng', h1, h2⟩ := writeLoop_ok hC (e - s + 1) ((e - s) * C.bs + r) st.rng inp hin
      (by rw [Nat.add_mul, Nat.one_mul]; have : r ≤ C.bs := hr; omega)
    exact ⟨_, by simp only [h1, bind, Except.bind]; rfl⟩
  adjust st n := ⟨_, rfl⟩

end FullCfg
end Securefs

import Verif.Spec.Sealed
import Verif.Proofs.StreamFacts
/-! Two runs of a block device on calls of the same shape, and canonical ciphertexts. -/

namespace Securefs

/-! ## A cipher that accepts only what it has made -/

open Classical in
/-- Decryption that accepts exactly the outputs of `enc` (only used in proofs). -/
noncomputable def Gcm.strict (G : Gcm) : Gcm where
  enc := G.enc
  dec iv aad ct mac := if h : ∃ pt, G.enc iv aad pt = (ct, mac) then (true, Classical.choose h) else (false, zeros ct.length)

theorem Gcm.Lawful.enc_inj {G : Gcm} (hG : G.Lawful) {iv aad p q : Bytes} (h : G.enc iv aad p = G.enc iv aad q) : p = q := by
  have h1 := hG.dec_enc iv aad p
  rw [h, hG.dec_enc] at h1
  exact (Prod.mk.inj h1).2.symm

theorem Gcm.strict_inv {G : Gcm} {iv aad ct mac : Bytes} (h : (G.strict.dec iv aad ct mac).1 = true) :
    G.enc iv aad (G.strict.dec iv aad ct mac).2 = (ct, mac) := by
  unfold Gcm.strict at h ⊢
  dsimp only at h ⊢
  split
  · rename_i hx; exact Classical.choose_spec hx
  · rename_i hx; rw [dif_neg hx] at h; cases h

theorem Gcm.Lawful.strict {G : Gcm} (hG : G.Lawful) : G.strict.Lawful where
  ct_len := hG.ct_len
  mac_len := hG.mac_len
  dec_len iv aad ct mac := by
    unfold Gcm.strict
    dsimp only
    split
    · rename_i hx
      have := Classical.choose_spec hx
      rw [← hG.ct_len iv aad, this]
    · exact zeros_length _
  dec_enc iv aad pt := by
    have hx : ∃ q, G.enc iv aad q = ((G.enc iv aad pt).1, (G.enc iv aad pt).2) := ⟨pt, rfl⟩
    unfold Gcm.strict
    dsimp only
    rw [dif_pos hx]
    congr 1
    exact hG.enc_inj (Classical.choose_spec hx)

/-! ## What a call does to the device depends on lengths only -/

/-- A change of a block device. -/
inductive Prim where
  | blocks (s e r : Nat)
  | adjust (n : Nat)

namespace BlockDev
variable {σ : Type} {D : BlockDev σ} {R : σ → Bytes → Prop} {maxB : Nat}

/-- One change, with some bytes. -/
def Does (D : BlockDev σ) (st : σ) : Prim → σ → Prop
  | .blocks s e r, st' => ∃ buf, D.writeMulti st s e r buf = .ok st'
  | .adjust n, st' => D.adjust st n = .ok st'

/-- Changes one after the other. -/
def DoesAll (D : BlockDev σ) : σ → List Prim → σ → Prop
  | st, [], st' => st = st'
  | st, p :: ps, st' => ∃ st1, D.Does st p st1 ∧ D.DoesAll st1 ps st'

theorem DoesAll.append : ∀ {ps qs : List Prim} {a b c : σ}, D.DoesAll a ps b → D.DoesAll b qs c → D.DoesAll a (ps ++ qs) c
  | [], _, _, _, _, h, h' => by cases h; exact h'
  | _ :: _, _, _, _, _, ⟨s, h1, h2⟩, h' => ⟨s, h1, h2.append h'⟩

/-- The changes of `uncheckedWrite` on contents of length `size`. -/
def writePlan (bs size off len : Nat) : List Prim :=
  if len = 0 then []
  else [.blocks (off / bs) ((off + len) / bs)
    (if (off + len) % bs = 0 then 0 else max ((off + len) % bs) (min bs (size - (off + len) / bs * bs)))]

/-- The changes of `uncheckedResize`. -/
def resizePlan (bs : Nat) (sparse : Bool) (cur new : Nat) : List Prim :=
  if new = cur then []
  else if new < cur then (if new % bs > 0 then [.blocks (new / bs) (new / bs) (new % bs)] else []) ++ [.adjust new]
  else writePlan bs cur cur ((if sparse = false ∨ cur / bs = new / bs then new else cur / bs * bs + bs) - cur) ++ [.adjust new]

/-- The changes of `write`. -/
def callPlan (bs : Nat) (sparse : Bool) (size off len : Nat) : List Prim :=
  if len = 0 then []
  else if off > size then resizePlan bs sparse size off ++ writePlan bs off off len
  else writePlan bs size off len

theorem uncheckedWrite_plan (H : D.Refines R maxB) {st st' : σ} {c : Bytes} (hR : R st c) {inp : WInput} {off len : Nat}
    (hlim : off + len ≤ maxB * D.bs) (h : D.uncheckedWrite st inp off len = .ok st') :
    D.DoesAll st (writePlan D.bs c.length off len) st' := by
  unfold writePlan
  by_cases hl : len = 0
  · rw [if_pos hl]
    unfold uncheckedWrite at h
    rw [if_pos hl] at h
    exact Except.ok.inj h
  · rw [if_neg hl]
    obtain ⟨r, buf, hw, _, _, h0, hq⟩ := uncheckedWrite_inv H.bs_pos (by omega) h
    have hr : r = if (off + len) % D.bs = 0 then 0
        else max ((off + len) % D.bs) (min D.bs (c.length - (off + len) / D.bs * D.bs)) := by
      by_cases hm : (off + len) % D.bs = 0
      · rw [if_pos hm]; exact h0 hm
      · rw [if_neg hm]
        obtain ⟨q, hq1, hq2⟩ := hq (by omega)
        have hb := Refines.lt_of_mod_pos hlim (by omega : 0 < (off + len) % D.bs)
        rw [H.read_eq hR (by omega) (by omega), Nat.add_sub_cancel_left, Nat.one_mul] at hq1
        rw [hq2, ← Except.ok.inj hq1, List.length_take, List.length_drop]
    rw [← hr]
    exact ⟨st', ⟨buf, hw⟩, rfl⟩

theorem uncheckedResize_plan (H : D.Refines R maxB) {st st' : σ} {c : Bytes} (hR : R st c) {n : Nat}
    (hlim : n ≤ maxB * D.bs) (h : D.uncheckedResize st c.length n = .ok st') :
    D.DoesAll st (resizePlan D.bs D.sparse c.length n) st' := by
  unfold resizePlan
  unfold uncheckedResize at h
  by_cases h1 : n = c.length
  · rw [if_pos h1] at h ⊢; exact Except.ok.inj h
  rw [if_neg h1] at h ⊢
  by_cases h2 : n < c.length
  · rw [if_pos h2] at h ⊢
    unfold shrinkPrep at h
    by_cases h3 : n % D.bs > 0
    · rw [if_pos h3] at h ⊢
      simp only [bind, Except.bind] at h
      split at h
      · cases h
      rename_i st1 hp
      split at hp
      · cases hp
      split at hp
      · cases hp
      exact ⟨st1, ⟨_, hp⟩, st', h, rfl⟩
    · rw [if_neg h3] at h ⊢
      exact ⟨st', h, rfl⟩
  · rw [if_neg h2] at h ⊢
    simp only [bind, Except.bind] at h
    split at h
    · cases h
    rename_i st1 hp
    refine DoesAll.append (b := st1) ?_ ⟨st', h, rfl⟩
    unfold growPrep zeroFillTo at hp
    have hb := H.bs_pos
    by_cases hs : D.sparse = false ∨ c.length / D.bs = n / D.bs
    · rw [if_pos hs] at hp ⊢
      exact uncheckedWrite_plan H hR (by omega) hp
    · rw [if_neg hs] at hp ⊢
      refine uncheckedWrite_plan H hR ?_ hp
      have h3 : c.length / D.bs < n / D.bs := by
        have := Nat.div_le_div_right (c := D.bs) (show c.length ≤ n by omega)
        rcases Nat.lt_or_ge (c.length / D.bs) (n / D.bs) with h | h
        · exact h
        · exact absurd (Or.inr (by omega)) hs
      have h4 : (c.length / D.bs + 1) * D.bs ≤ n / D.bs * D.bs := Nat.mul_le_mul_right _ h3
      have h5 := Nat.div_mul_le_self n D.bs
      have h6 := Nat.div_add_mod' c.length D.bs
      have h7 := Nat.mod_lt c.length hb
      rw [Nat.add_mul, Nat.one_mul] at h4
      omega

theorem resize_plan (H : D.Refines R maxB) {st st' : σ} {c : Bytes} (hR : R st c) {n : Nat}
    (hlim : n ≤ maxB * D.bs) (h : D.resize st n = .ok st') :
    D.DoesAll st (resizePlan D.bs D.sparse c.length n) st' := by
  unfold resize at h
  rw [H.size_eq hR] at h
  exact uncheckedResize_plan H hR hlim h

theorem write_plan (H : D.Refines R maxB) {st st' : σ} {c : Bytes} (hR : R st c) {off : Nat} {d : Bytes}
    (hlim : off + d.length ≤ maxB * D.bs) (h : D.write st off d = .ok st') :
    D.DoesAll st (callPlan D.bs D.sparse c.length off d.length) st' := by
  unfold callPlan
  unfold write at h
  by_cases h0 : d.length = 0
  · rw [if_pos h0] at h ⊢; exact Except.ok.inj h
  rw [if_neg h0] at h ⊢
  rw [H.size_eq hR] at h
  by_cases h1 : off > c.length
  · rw [if_pos h1] at h ⊢
    obtain ⟨st1, hr, hR1⟩ := H.uncheckedResize_refines hR off (by omega)
    simp only [bind, Except.bind, hr] at h
    refine DoesAll.append (uncheckedResize_plan H hR (by omega) hr) ?_
    have := uncheckedWrite_plan H hR1 hlim h
    have hl : (Spec.resize c off).length = off := by
      simp only [Spec.resize, List.length_append, List.length_take, List.length_replicate]; omega
    rwa [hl] at this
  · rw [if_neg h1] at h ⊢
    exact uncheckedWrite_plan H hR hlim h

/-- A relation between two states that is kept by equal changes with whatever bytes. -/
theorem DoesAll.keeps {A : σ → σ → Prop} (hw : ∀ {a b a' b' p}, A a b → D.Does a p a' → D.Does b p b' → A a' b') :
    ∀ {ps : List Prim} {a b a' b' : σ}, A a b → D.DoesAll a ps a' → D.DoesAll b ps b' → A a' b'
  | [], _, _, _, _, h, h1, h2 => by cases h1; cases h2; exact h
  | _ :: _, _, _, _, _, h, ⟨_, h1, h1'⟩, ⟨_, h2, h2'⟩ => DoesAll.keeps hw (hw h h1 h2) h1' h2'

end BlockDev

/-! ## Bytes that show -/

/-- Two files of one length that agree at the positions `vis`. -/
def Agree (vis : Nat → Prop) (f g : Bytes) : Prop := f.length = g.length ∧ ∀ p, vis p → f[p]? = g[p]?

theorem Agree.resize {vis : Nat → Prop} {f g : Bytes} (h : Agree vis f g) (n : Nat) : Agree vis (ufResize f n) (ufResize g n) := by
  refine ⟨by simp only [ufResize, List.length_append, List.length_take, zeros_length, h.1], fun p hp => ?_⟩
  unfold ufResize
  simp only [List.getElem?_append, List.length_take, List.getElem?_take, h.1, h.2 p hp]

theorem Agree.write {vis : Nat → Prop} {f g : Bytes} (h : Agree vis f g) {off : Nat} {d e : Bytes} (hl : d.length = e.length)
    (hd : ∀ q, vis (off + q) → d[q]? = e[q]?) : Agree vis (ufWrite f off d) (ufWrite g off e) := by
  unfold ufWrite
  have he : d.isEmpty = e.isEmpty := by
    cases d <;> cases e <;> simp_all
  rw [he]
  split
  · exact h
  · refine ⟨by simp only [List.length_append, List.length_take, zeros_length, List.length_drop, h.1, hl], fun p hp => ?_⟩
    simp only [List.getElem?_append, List.length_append, List.length_take, List.getElem?_take, List.getElem?_drop, zeros_length, h.1, hl]
    split_ifs with h1 h2 h3
    · exact h.2 p hp
    · rfl
    · rfl
    · have h4 : min off g.length + (off - g.length) = off := by omega
      rw [h4] at h1 ⊢
      exact hd _ (by rw [Nat.add_sub_cancel' (by omega)]; exact hp)
    · have h4 : min off g.length + (off - g.length) = off := by omega
      rw [h4] at h1 ⊢
      rw [show off + e.length + (p - (off + e.length)) = p by omega]
      exact h.2 p hp

end Securefs

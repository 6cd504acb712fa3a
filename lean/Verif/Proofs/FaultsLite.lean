import Verif.Proofs.Faults
import Verif.Proofs.LiteStream
/-! The lite stream over failing system calls. -/

namespace Securefs
namespace LiteCfg
variable {C : LiteCfg} {o : LiteObj}

/-- A successful loop had enough input. -/
theorem writeLoop_len (hb : 0 < C.bs) : ∀ (fuel blk m rng : Nat) (input : Bytes) {q},
    C.writeLoop o fuel blk (encLen C.bs (C.ivSize + 16) m) rng input = .ok q → m ≤ input.length := by
  intro fuel
  induction fuel with
  | zero =>
    intro blk m rng input q h
    unfold writeLoop at h
    split at h
    · rename_i h0
      by_contra hc
      have := encLen_inj_lt (bs := C.bs) (ov := C.ivSize + 16) hb (show 0 < m by omega)
      omega
    · cases h
  | succ fuel ih =>
    intro blk m rng input q h
    rcases Nat.eq_zero_or_pos m with rfl | hm
    · omega
    have hmin : min C.ubs (encLen C.bs (C.ivSize + 16) m) = min C.bs m + (C.ivSize + 16) := by
      rw [ubs_eq, ← encLen_bs (ov := C.ivSize + 16) hb, ← encLen_min hb,
        encLen_le_small hb (by omega) (by omega)]
    have hpos : encLen C.bs (C.ivSize + 16) m ≠ 0 := by
      have := encLen_inj_lt (ov := C.ivSize + 16) hb hm
      omega
    unfold writeLoop at h
    rw [if_neg hpos] at h
    simp only [hmin] at h
    have hv : min C.bs m + (C.ivSize + 16) - 16 - C.ivSize = min C.bs m := by omega
    rw [if_neg (by omega), hv, if_pos (by omega)] at h
    split at h
    · cases h
    have hrem : encLen C.bs (C.ivSize + 16) m - (min C.bs m + (C.ivSize + 16))
        = encLen C.bs (C.ivSize + 16) (m - C.bs) := by
      have := encLen_sub (ov := C.ivSize + 16) hb 1 m
      rw [Nat.one_mul, Nat.one_mul] at this
      rw [this]
      rcases Nat.le_total C.bs m with h | h
      · rw [Nat.min_eq_left h]
      · rw [encLen_le_small hb hm h, Nat.min_eq_right h]; omega
    rw [hrem] at h
    cases hq : drawIv C.rng C.ivSize C.ivFuel rng with
    | error e => simp only [hq, bind, Except.bind] at h; cases h
    | ok iv =>
      simp only [hq, bind, Except.bind] at h
      cases hw : C.writeLoop o fuel (blk + 1) (encLen C.bs (C.ivSize + 16) (m - C.bs)) iv.2 (input.drop (min C.bs m)) with
      | error e => simp only [hw] at h; cases h
      | ok rest =>
        have := ih _ _ _ _ hw
        rw [List.length_drop] at this
        omega

/-- What is written. -/
theorem writeLoop_enc (hC : C.WF) {s e r rng : Nat} {input : Bytes} {q : Bytes × Nat} (hr : r ≤ C.bs)
    (h : C.writeLoop o (e - s + 1) s ((e - s) * C.ubs + (if r ≤ 0 then 0 else r + C.ivSize + 16)) rng input = .ok q) :
    (e - s) * C.bs + r ≤ input.length ∧ EncL C o s q.1 (input.take ((e - s) * C.bs + r)) := by
  have hb : 0 < C.bs := by have := hC.bs_ge; omega
  rw [encLen_cond hb (e - s) r hr] at h
  have hl := writeLoop_len hb _ _ _ _ _ h
  refine ⟨hl, ?_⟩
  obtain ⟨out, rng', h1, h2⟩ := writeLoop_ok (o := o) hC (e - s + 1) s ((e - s) * C.bs + r) rng
    input hl (by rw [Nat.add_mul, Nat.one_mul]; omega)
  rw [h1] at h
  cases h
  exact h2

/-- The bytes of the underlying file for one block. -/
def region (C : LiteCfg) (o : LiteObj) (f : Bytes) (i : Nat) : Bytes := ufRead f (o.headerSize + C.ubs * i) C.ubs

theorem region_length (f : Bytes) (i : Nat) : (region C o f i).length = min C.ubs (f.length - o.headerSize - C.ubs * i) := by
  unfold region ufRead; rw [List.length_take, List.length_drop]; omega

theorem region_get (f : Bytes) (i t : Nat) : (region C o f i)[t]? = if t < C.ubs then f[o.headerSize + C.ubs * i + t]? else none := by
  unfold region ufRead; rw [List.getElem?_take, List.getElem?_drop]

/-- The content of a block that is stored as `rg`. -/
def Good1 (C : LiteCfg) (o : LiteObj) (i : Nat) (rg p : Bytes) : Prop :=
  (p = [] ∧ rg = []) ∨ (p ≠ [] ∧ rg.length = p.length + (C.ivSize + 16) ∧ C.decodeBlock o i rg = .ok p)

/-- Block `i` is intact. -/
def GoodL (C : LiteCfg) (o : LiteObj) (st : LiteSt) (i : Nat) (p : Bytes) : Prop := Good1 C o i (region C o st.file i) p

/-- The header is there. -/
def InvL (o : LiteObj) (st : LiteSt) : Prop := o.headerSize ≤ st.file.length

/-- The size of the content as a function of the body. -/
def bodySize (C : LiteCfg) (L : Nat) : Nat := L / C.ubs * C.bs + (L % C.ubs - (C.ivSize + 16))

theorem size_body (hC : C.WF) {st : LiteSt} (hI : InvL o st) : C.size o st = bodySize C (st.file.length - o.headerSize) := by
  unfold InvL at hI
  unfold size bodySize
  split
  · rw [show st.file.length - o.headerSize = 0 by omega]; simp
  · unfold realSize
    have : st.file.length - o.pad.length - 16 = st.file.length - o.headerSize := by unfold LiteObj.headerSize; omega
    rw [if_neg (by unfold LiteObj.headerSize at *; omega), this]
    show _ / C.ubs * _ + (if _ % C.ubs > _ then _ % C.ubs - _ - _ else 0) = _
    split <;> omega

theorem bodySize_enc (hC : C.WF) (n : Nat) : bodySize C (encLen C.bs (C.ivSize + 16) n) = n := by
  have hb : 0 < C.bs := by have := hC.bs_ge; omega
  have h := realSize_encLen (C := C) hb n
  unfold realSize at h
  unfold bodySize
  split at h
  · rename_i h0
    rw [show encLen C.bs (C.ivSize + 16) n = 0 by omega]
    simpa using h
  · rw [Nat.add_sub_cancel_left] at h
    change _ / C.ubs * _ + (if _ % C.ubs > _ then _ % C.ubs - _ - _ else 0) = _ at h
    split at h <;> omega

theorem ubs_pos (hC : C.WF) : 0 < C.ubs := by have := hC.bs_ge; unfold ubs; omega

theorem div_unique {L U q t : Nat} (ht : t < U) (hL : L = q * U + t) : L / U = q ∧ L % U = t := by
  have hU : 0 < U := by omega
  subst hL
  rw [Nat.add_comm, Nat.add_mul_div_right _ _ hU, Nat.add_mul_mod_self_right, Nat.div_eq_of_lt ht, Nat.mod_eq_of_lt ht]
  omega

theorem bodySize_mono (hC : C.WF) {L M : Nat} (h : L ≤ M) : bodySize C L ≤ bodySize C M := by
  have hU := ubs_pos hC
  have e := @ubs_eq C
  have h1 := Nat.div_add_mod' L C.ubs
  have h2 := Nat.div_add_mod' M C.ubs
  have h3 := Nat.mod_lt L hU
  have h4 := Nat.mod_lt M hU
  have hq : L / C.ubs ≤ M / C.ubs := Nat.div_le_div_right h
  unfold bodySize
  rcases Nat.lt_or_ge (L / C.ubs) (M / C.ubs) with h5 | h5
  · have := Nat.mul_le_mul_right C.bs (show L / C.ubs + 1 ≤ M / C.ubs from h5)
    rw [Nat.add_mul] at this
    omega
  · have : L / C.ubs = M / C.ubs := by omega
    rw [this] at h1 ⊢
    omega

theorem bodySize_max (hC : C.WF) (L M : Nat) : bodySize C (max L M) = max (bodySize C L) (bodySize C M) := by
  rcases Nat.le_total L M with h | h
  · rw [Nat.max_eq_right h, Nat.max_eq_right (bodySize_mono hC h)]
  · rw [Nat.max_eq_left h, Nat.max_eq_left (bodySize_mono hC h)]

/-- The length of a block and of the bytes that store it. -/
theorem block_region (hC : C.WF) (L i : Nat) : min C.bs (bodySize C L - i * C.bs) = min C.ubs (L - C.ubs * i) - (C.ivSize + 16) := by
  have hU := ubs_pos hC
  have e := @ubs_eq C
  have h1 := Nat.div_add_mod' L C.ubs
  have h3 := Nat.mod_lt L hU
  unfold bodySize
  rw [Nat.mul_comm C.ubs i]
  rcases Nat.lt_trichotomy i (L / C.ubs) with h | h | h
  · have a1 := Nat.mul_le_mul_right C.bs (show i + 1 ≤ L / C.ubs from h)
    have a2 := Nat.mul_le_mul_right C.ubs (show i + 1 ≤ L / C.ubs from h)
    rw [Nat.add_mul] at a1 a2
    omega
  · rw [← h] at h1 ⊢
    omega
  · have a1 := Nat.mul_le_mul_right C.bs (show L / C.ubs + 1 ≤ i from h)
    have a2 := Nat.mul_le_mul_right C.ubs (show L / C.ubs + 1 ≤ i from h)
    rw [Nat.add_mul] at a1 a2
    omega

/-- A block that starts within the content starts within the file. -/
theorem start_le (hC : C.WF) {L s : Nat} (h : s * C.bs ≤ bodySize C L) : C.ubs * s ≤ L := by
  have hU := ubs_pos hC
  have e := @ubs_eq C
  have h1 := Nat.div_add_mod' L C.ubs
  have h3 := Nat.mod_lt L hU
  have hs : s ≤ L / C.ubs := by
    by_contra hc
    have := Nat.mul_le_mul_right C.bs (show L / C.ubs + 1 ≤ s by omega)
    rw [Nat.add_mul] at this
    unfold bodySize at h
    have := hC.bs_ge
    omega
  have := Nat.mul_le_mul_right C.ubs hs
  rw [Nat.mul_comm]
  omega

theorem decode_len (hC : C.WF) {i : Nat} {rg p : Bytes} (hl : C.ivSize + 16 ≤ rg.length) (h : C.decodeBlock o i rg = .ok p) :
    p.length = rg.length - (C.ivSize + 16) := by
  unfold decodeBlock at h
  split at h
  · cases h; rw [zeros_length]; omega
  · dsimp only at h
    split at h
    · cases h
    · cases h
      rw [(hC.gcm o.id).dec_len, List.length_take, List.length_drop]
      omega

/-- Reading intact blocks. -/
theorem readLoop_good (hC : C.WF) : ∀ (fuel blk : Nat) (buf x : Bytes), buf.length ≤ fuel * C.ubs →
    (∀ j, j < fuel → Good1 C o (blk + j) ((buf.drop (C.ubs * j)).take C.ubs) (Spec.block C.bs x j)) →
    C.readLoop o fuel blk buf = .ok (x.take (fuel * C.bs)) := by
  have hb : 0 < C.bs := by have := hC.bs_ge; omega
  intro fuel
  induction fuel with
  | zero =>
    intro blk buf x hl _
    have : buf = [] := List.eq_nil_of_length_eq_zero (by omega)
    subst this
    simp [readLoop]
  | succ fuel ih =>
    intro blk buf x hl hG
    have h0 := hG 0 (by omega)
    unfold Spec.block at h0
    simp only [Nat.mul_zero, Nat.zero_mul, List.drop_zero, Nat.add_zero] at h0
    have hU := ubs_pos hC
    rcases h0 with ⟨h1, h2⟩ | ⟨h1, h2, h3⟩
    · have hbuf : buf = [] := by
        cases buf with
        | nil => rfl
        | cons a l => rw [show C.ubs = (C.ubs - 1) + 1 by omega] at h2; simp at h2
      have hx : x = [] := by
        cases x with
        | nil => rfl
        | cons a l => rw [show C.bs = (C.bs - 1) + 1 by omega] at h1; simp at h1
      subst hbuf hx
      simp [readLoop]
    · have hp : 0 < (x.take C.bs).length := List.length_pos_iff.2 h1
      have hne : buf.isEmpty = false := by
        cases buf with
        | nil => simp at h2
        | cons => rfl
      unfold readLoop
      rw [hne, h2]
      simp only [Bool.false_eq_true, ↓reduceIte]
      rw [if_neg (by omega)]
      have h4 := ih (blk + 1) (buf.drop C.ubs) (x.drop C.bs) (by rw [List.length_drop, Nat.add_mul] at *; omega) (fun j hj => by
        have := hG (j + 1) (by omega)
        unfold Spec.block at this ⊢
        rw [List.drop_drop, List.drop_drop]
        rw [show C.ubs + C.ubs * j = C.ubs * (j + 1) by rw [Nat.mul_add]; omega, show C.bs + j * C.bs = (j + 1) * C.bs by rw [Nat.add_mul]; omega,
          show blk + 1 + j = blk + (j + 1) by omega]
        exact this)
      simp only [bind, Except.bind, h3, h4]
      rw [Nat.add_mul, Nat.one_mul, Nat.add_comm, List.take_add]

theorem sys_ok {σ α : Type} {w : σ → α × σ} {g : Nat → σ → σ} {F : Faulty σ} {a : α} (h : (FIO.sys w g F).1 = .ok a) :
    a = (w F.st).1 ∧ (FIO.sys w g F).2.st = (w F.st).2 := by
  unfold FIO.sys at h ⊢
  split at h
  · cases h
  · cases h; exact ⟨rfl, rfl⟩
  · cases h; exact ⟨rfl, rfl⟩

theorem sys_st {σ α : Type} {w : σ → α × σ} {g : Nat → σ → σ} {F : Faulty σ} :
    (FIO.sys w g F).2.st = (w F.st).2 ∨ ∃ k, (FIO.sys w g F).2.st = g k F.st := by
  unfold FIO.sys
  split
  · exact .inr ⟨_, rfl⟩
  · exact .inl rfl
  · exact .inl rfl

theorem ufWrite_ge (f : Bytes) (off : Nat) (d : Bytes) : f.length ≤ (ufWrite f off d).length := by
  unfold ufWrite
  split
  · exact le_rfl
  · simp only [List.length_append, List.length_take, zeros_length, List.length_drop]; omega

/-- What a call of `write_multi_blocks` may leave behind. -/
theorem writeMultiF_st (hC : C.WF) {s e r : Nat} {inp : Bytes} {F : Faulty LiteSt} (hI : InvL o F.st) (hs : s * C.bs ≤ C.size o F.st) (hr : r ≤ C.bs) :
    ((C.writeMultiF o s e r inp F).2.st.file = F.st.file) ∨
    ∃ out, out.length ≤ (e - s) * C.ubs + (if r ≤ 0 then 0 else r + C.ivSize + 16) ∧
      (C.writeMultiF o s e r inp F).2.st.file = splice F.st.file (o.headerSize + C.ubs * s) out := by
  have hb : 0 < C.bs := by have := hC.bs_ge; omega
  have hst : C.ubs * s + o.headerSize ≤ F.st.file.length := by
    rw [size_body hC hI] at hs
    have := start_le hC hs
    unfold InvL at hI; omega
  unfold writeMultiF
  split
  · exact .inl rfl
  split
  · exact .inl rfl
  · rename_i q hq
    obtain ⟨hl, hE⟩ := writeLoop_enc hC hr hq
    have hol : q.1.length = (e - s) * C.ubs + (if r ≤ 0 then 0 else r + C.ivSize + 16) := by
      rw [hE.len, List.length_take, Nat.min_eq_left hl, encLen_cond hb _ _ hr]
    right
    rcases sys_st (w := fun st : LiteSt => ((), { st with file := ufWrite st.file (s * C.ubs + o.headerSize) q.1 }))
        (g := fun k st => { st with file := ufWrite st.file (s * C.ubs + o.headerSize) (q.1.take k) }) (F := ⟨{ F.st with rng := q.2 }, F.plan⟩) with h | ⟨k, h⟩
    · refine ⟨q.1, hol.le, ?_⟩
      rw [h]; dsimp only
      rw [ufWrite_splice _ _ _ (by rw [Nat.mul_comm]; exact hst), Nat.mul_comm, Nat.add_comm]
    · refine ⟨q.1.take k, by rw [List.length_take]; omega, ?_⟩
      rw [h]; dsimp only
      rw [ufWrite_splice _ _ _ (by rw [Nat.mul_comm]; exact hst), Nat.mul_comm, Nat.add_comm]

/-- A successful `write_multi_blocks`. -/
theorem writeMulti_inv (hC : C.WF) {st st' : LiteSt} {s e r : Nat} {inp : Bytes} (hI : InvL o st) (hs : s * C.bs ≤ C.size o st) (hr : r ≤ C.bs)
    (h : C.writeMulti o st s e r inp = .ok st') :
    ∃ out, out.length = encLen C.bs (C.ivSize + 16) ((e - s) * C.bs + r) ∧ EncL C o s out (inp.take ((e - s) * C.bs + r)) ∧ (e - s) * C.bs + r ≤ inp.length ∧
      st'.file = splice st.file (o.headerSize + C.ubs * s) out ∧ o.headerSize + C.ubs * s ≤ st.file.length := by
  have hb : 0 < C.bs := by have := hC.bs_ge; omega
  have hst : C.ubs * s + o.headerSize ≤ st.file.length := by
    rw [size_body hC hI] at hs
    have := start_le hC hs
    unfold InvL at hI; omega
  unfold writeMulti at h
  split at h
  · cases h
  simp only [bind, Except.bind] at h
  split at h
  · cases h
  rename_i q hq
  obtain ⟨hl, hE⟩ := writeLoop_enc hC hr hq
  cases h
  refine ⟨q.1, by rw [hE.len, List.length_take, Nat.min_eq_left hl], hE, hl, ?_, by omega⟩
  dsimp only
  rw [ufWrite_splice _ _ _ (by rw [Nat.mul_comm]; exact hst), Nat.mul_comm, Nat.add_comm]

/-- A block that lies within the written bytes. -/
theorem region_written {f out : Bytes} {s j : Nat} (hs : o.headerSize + C.ubs * s ≤ f.length)
    (h : C.ubs * j + C.ubs ≤ out.length ∨ f.length ≤ o.headerSize + C.ubs * s + out.length) :
    region C o (splice f (o.headerSize + C.ubs * s) out) (s + j) = (out.drop (C.ubs * j)).take C.ubs := by
  apply List.ext_getElem?
  intro t
  rw [region_get, List.getElem?_take, List.getElem?_drop]
  split
  · rw [getElem?_splice _ _ _ _ hs, Nat.mul_add]
    rw [if_neg (by omega)]
    split
    · congr 1; omega
    · rename_i hc
      rw [List.getElem?_eq_none_iff.2 (by omega), List.getElem?_eq_none_iff.2 (by omega)]
  · rfl

theorem resize_get (f : Bytes) (n i : Nat) : (ufResize f n)[i]? = if i < n then (if i < f.length then f[i]? else some 0) else none :=
  FaultFrame.resize_get f n i

theorem resize_length (f : Bytes) (n : Nat) : (ufResize f n).length = n := FaultFrame.resize_length f n

/-- The stored bytes of a block after `adjust_logical_size`. -/
theorem region_resize_length (hC : C.WF) (f : Bytes) (n i : Nat) :
    (region C o (ufResize f (C.underlyingSize o n)) i).length = encLen C.bs (C.ivSize + 16) (min C.bs (n - i * C.bs)) := by
  have hb : 0 < C.bs := by have := hC.bs_ge; omega
  rw [region_length, resize_length, underlyingSize_eq, Nat.add_sub_cancel_left, encLen_min hb, encLen_bs hb, encLen_sub hb, ← ubs_eq, Nat.mul_comm]

theorem encLen_sized (hb : 0 < C.bs) {m : Nat} (h : m ≤ C.bs) :
    encLen C.bs (C.ivSize + 16) m = if m = 0 then 0 else m + (C.ivSize + 16) := by
  split
  · rename_i h0; rw [h0, encLen_zero hb]
  · exact encLen_le_small hb (by omega) h

theorem adjust_keeps (hC : C.WF) {st : LiteSt} {n i : Nat} {p : Bytes} (hI : InvL o st) (hg : GoodL C o st i p)
    (hp : p.length = min C.bs (n - i * C.bs)) : GoodL C o ⟨ufResize st.file (C.underlyingSize o n), st.rng⟩ i p := by
  have hb : 0 < C.bs := by have := hC.bs_ge; omega
  have hl := region_resize_length (o := o) hC st.file n i
  rw [← hp, encLen_sized hb (by omega)] at hl
  unfold InvL at hI
  unfold GoodL at hg ⊢
  dsimp only
  rcases hg with ⟨h1, h2⟩ | ⟨h1, h2, h3⟩
  · left
    refine ⟨h1, ?_⟩
    apply List.eq_nil_of_length_eq_zero
    rw [hl, if_pos (by rw [h1]; rfl)]
  · right
    have hp0 : 0 < p.length := List.length_pos_iff.2 h1
    rw [if_neg (by omega)] at hl
    have : region C o (ufResize st.file (C.underlyingSize o n)) i = region C o st.file i := by
      apply List.ext_getElem?
      intro t
      by_cases ht : t < p.length + (C.ivSize + 16)
      · have e1 := region_length (C := C) (o := o) st.file i
        have e2 := region_length (C := C) (o := o) (ufResize st.file (C.underlyingSize o n)) i
        rw [hl, resize_length] at e2
        rw [h2] at e1
        rw [region_get, region_get, if_pos (by omega), if_pos (by omega), resize_get, if_pos (by omega), if_pos (by omega)]
      · rw [List.getElem?_eq_none_iff.2 (by omega), List.getElem?_eq_none_iff.2 (by omega)]
    rw [this]
    exact ⟨h1, h2, h3⟩

/-- The laws of the block layer hold for the lite stream over failing calls. -/
theorem frame (hC : C.WF) : FaultFrame (C.faultDev o) (C.dev o) (InvL o) (GoodL C o) liteMaxBlocks := by
  have hb : 0 < C.bs := by have := hC.bs_ge; omega
  have hbs : (C.dev o).bs = C.bs := rfl
  have hU := ubs_pos hC
  have hue := @ubs_eq C
  have hread : ∀ {st c s e}, InvL o st → s ≤ e → e ≤ liteMaxBlocks → (∀ i, s ≤ i → i < e → GoodL C o st i (Spec.block C.bs c i)) →
      C.readMulti o st s e = .ok ((c.drop (s * C.bs)).take ((e - s) * C.bs)) := by
    intro st c s e hI hse he hG
    unfold readMulti
    rw [if_neg (by omega)]
    refine readLoop_good hC _ _ _ _ (by unfold ufRead; rw [List.length_take]; omega) fun j hj => ?_
    have := hG (s + j) (by omega) (by omega)
    unfold GoodL region at this
    have e1 : ((ufRead st.file (o.headerSize + C.ubs * s) ((e - s) * C.ubs)).drop (C.ubs * j)).take C.ubs =
        ufRead st.file (o.headerSize + C.ubs * (s + j)) C.ubs := by
      unfold ufRead
      have := Nat.mul_le_mul_right C.ubs (show j + 1 ≤ e - s by omega)
      rw [Nat.add_mul, Nat.mul_comm j] at this
      rw [List.drop_take, List.take_take, List.drop_drop, Nat.min_eq_left (by omega), Nat.mul_add, Nat.add_assoc]
    have e2 : Spec.block C.bs (c.drop (s * C.bs)) j = Spec.block C.bs c (s + j) := by
      unfold Spec.block
      rw [List.drop_drop, Nat.add_mul]
    rw [e1, e2]; exact this
  constructor
  · exact hb
  · rfl
  · rfl
  · intro F
    refine ⟨?_, fun n h => (sys_ok h).1⟩
    rcases sys_st (w := fun st => (C.size o st, st)) (g := fun _ st => st) (F := F) with h | ⟨_, h⟩ <;> exact h
  · intro s e F
    show (C.readMultiF o s e F).2.st = F.st ∧ ∀ b, (C.readMultiF o s e F).1 = .ok b → C.readMulti o F.st s e = .ok b
    unfold readMultiF readMulti
    split
    · exact ⟨rfl, fun b h => by cases h⟩
    · rcases FIO.bind_cases (FIO.sys (fun st => (ufRead st.file (o.headerSize + C.ubs * s) ((e - s) * C.ubs), st)) (fun _ st => st)) (fun b =>
        FIO.lift (C.readLoop o (e - s) s b)) F with ⟨a, h1, h2⟩ | ⟨er, h1, h2⟩
      · rw [h2]
        have := sys_ok h1
        refine ⟨this.2, fun b hbb => ?_⟩
        have e1 : a = ufRead F.st.file (o.headerSize + C.ubs * s) ((e - s) * C.ubs) := this.1
        rw [← e1]
        exact hbb
      · rw [h2]
        refine ⟨?_, fun b h => by cases h⟩
        rcases sys_st (w := fun st : LiteSt => (ufRead st.file (o.headerSize + C.ubs * s) ((e - s) * C.ubs), st)) (g := fun _ st => st) (F := F)
          with h | ⟨_, h⟩ <;> exact h
  · intro s e r inp F h
    change (C.writeMultiF o s e r inp F).1 = .ok () at h
    show C.writeMulti o F.st s e r inp = .ok (C.writeMultiF o s e r inp F).2.st
    unfold writeMultiF at h ⊢
    unfold writeMulti
    split at h
    · cases h
    · rename_i he
      rw [if_neg he, if_neg he]
      split at h
      · cases h
      · rename_i q hq
        simp only [bind, Except.bind, hq]
        rw [(sys_ok h).2]
  · intro n F h
    change (C.adjustF o n F).1 = .ok () at h
    show C.adjust o F.st n = .ok (C.adjustF o n F).2.st
    unfold adjustF at h ⊢
    rw [(sys_ok h).2]; rfl
  · intro s e r inp F hI hs
    change s * C.bs ≤ C.size o F.st at hs
    show InvL o (C.writeMultiF o s e r inp F).2.st
    unfold InvL at hI ⊢
    unfold writeMultiF
    split
    · exact hI
    split
    · exact hI
    · rename_i q hq
      rcases sys_st (w := fun st : LiteSt => ((), { st with file := ufWrite st.file (s * C.ubs + o.headerSize) q.1 }))
          (g := fun k st => { st with file := ufWrite st.file (s * C.ubs + o.headerSize) (q.1.take k) }) (F := ⟨{ F.st with rng := q.2 }, F.plan⟩) with h | ⟨k, h⟩
      · rw [h]; exact hI.trans (ufWrite_ge _ _ _)
      · rw [h]; exact hI.trans (ufWrite_ge _ _ _)
  · intro n F hI
    show InvL o (C.adjustF o n F).2.st
    unfold adjustF
    rcases sys_st (w := fun st : LiteSt => ((), { st with file := ufResize st.file (C.underlyingSize o n) })) (g := fun _ st => st) (F := F) with h | ⟨_, h⟩
    · rw [h]; unfold InvL; dsimp only; rw [resize_length, underlyingSize_eq]; omega
    · rw [h]; exact hI
  · intro st k q hI h
    change C.readMulti o st k (k + 1) = .ok q at h
    show q.length = min C.bs (C.size o st - k * C.bs)
    rw [size_body hC hI, block_region hC]
    unfold readMulti at h
    split at h
    · cases h
    rw [Nat.add_sub_cancel_left, Nat.one_mul] at h
    change C.readLoop o 1 k (region C o st.file k) = .ok q at h
    have hl := region_length (C := C) (o := o) st.file k
    rw [← hl]
    unfold readLoop at h
    split at h
    · cases h
      rename_i he
      rw [List.isEmpty_iff.1 he]; simp
    · have ht : (region C o st.file k).take C.ubs = region C o st.file k := List.take_of_length_le (by omega)
      rw [ht] at h
      split at h
      · cases h; simp; omega
      · rename_i hgt
        have hd : (region C o st.file k).drop C.ubs = [] := List.drop_eq_nil_of_le (by omega)
        rw [hd] at h
        simp only [bind, Except.bind, readLoop, List.isEmpty_nil, if_true] at h
        split at h
        · cases h
        · rename_i p hp
          cases h
          rw [List.append_nil]
          exact decode_len hC (by omega) hp
  · intro st i p hI hg
    show p.length = min C.bs (C.size o st - i * C.bs)
    rw [size_body hC hI, block_region hC, ← region_length]
    rcases hg with ⟨h1, h2⟩ | ⟨h1, h2, h3⟩
    · rw [h1, h2]; simp
    · rw [h2]; omega
  · intro st c s e b hI hse hsz hG h
    change C.readMulti o st s e = .ok b at h
    rw [hread hI hse (by
      unfold readMulti at h
      split at h
      · cases h
      · omega) hG] at h
    cases h; rfl
  · intro st c s e hI hse he hsz hG
    exact ⟨_, hread hI hse he hG⟩
  · intro s e r inp F i p hI hse hs hr hi hg
    change s * C.bs ≤ C.size o F.st at hs
    show GoodL C o (C.writeMultiF o s e r inp F).2.st i p
    unfold GoodL at hg ⊢
    rcases writeMultiF_st (e := e) (inp := inp) hC hI hs hr with h | ⟨out, h1, h2⟩
    · rw [h]; exact hg
    · have hst : C.ubs * s + o.headerSize ≤ F.st.file.length := by
        rw [size_body hC hI] at hs
        have := start_le hC hs
        unfold InvL at hI; omega
      have : region C o (splice F.st.file (o.headerSize + C.ubs * s) out) i = region C o F.st.file i := by
        apply List.ext_getElem?
        intro t
        rw [region_get, region_get]
        split
        · rw [getElem?_splice _ _ _ _ (by omega)]
          rcases hi with hi | hi
          · have := Nat.mul_le_mul_left C.ubs (show i + 1 ≤ s from hi)
            rw [Nat.mul_add] at this
            rw [if_pos (by omega)]
          · have a1 := Nat.mul_le_mul_left C.ubs hi
            rw [Nat.mul_add] at a1
            have a2 : C.ubs * e = C.ubs * s + (e - s) * C.ubs := by
              rw [Nat.mul_comm (e - s), ← Nat.mul_add]; congr 1; omega
            change r ≤ C.bs at hr
            rw [if_neg (by split at h1 <;> split at a1 <;> omega), if_neg (by split at h1 <;> split at a1 <;> omega)]
        · rfl
      rw [h2, this]; exact hg
  · intro st s e r inp st' hI hse hs hr h0 h
    change s * C.bs ≤ C.size o st at hs
    obtain ⟨out, h1, h2, h3, h4, h5⟩ := writeMulti_inv hC hI hs hr h
    show C.size o st' = max (C.size o st) (e * C.bs + r)
    have hI' : InvL o st' := by unfold InvL at hI ⊢; rw [h4, splice_length _ _ _ h5]; omega
    rw [size_body hC hI', size_body hC hI, h4, splice_length _ _ _ h5]
    have : max st.file.length (o.headerSize + C.ubs * s + out.length) - o.headerSize =
        max (st.file.length - o.headerSize) (encLen C.bs (C.ivSize + 16) (e * C.bs + r)) := by
      have e1 : e * C.bs + r = s * C.bs + ((e - s) * C.bs + r) := by
        rw [← Nat.add_assoc, ← Nat.add_mul]; congr 2; omega
      rw [e1, encLen_add hb, ← hue, h1, Nat.mul_comm s]
      omega
    rw [this, bodySize_max hC, bodySize_enc hC]
  · intro st s e r inp st' i hI hse hs hr h hsi hie
    change s * C.bs ≤ C.size o st at hs
    obtain ⟨out, h1, h2, h3, h4, h5⟩ := writeMulti_inv hC hI hs hr h
    show Good1 C o i (region C o st'.file i) (Spec.block C.bs inp (i - s))
    obtain ⟨j, rfl⟩ := Nat.exists_eq_add_of_le hsi
    have hj := Nat.mul_le_mul_right C.bs (show j + 1 ≤ e - s by omega)
    have hj2 := Nat.mul_le_mul_right C.ubs (show j + 1 ≤ e - s by omega)
    rw [Nat.add_mul] at hj hj2
    have hol : (e - s) * C.ubs ≤ out.length := by rw [h1, encLen_add hb, ← hue]; omega
    rw [h4, region_written h5 (.inl (by rw [Nat.mul_comm]; omega)), Nat.add_sub_cancel_left]
    have hd := h2.blk j (by rw [List.length_take]; omega)
    rw [← hue, Nat.mul_comm] at hd
    have hblk : Spec.block C.bs inp j = ((inp.take ((e - s) * C.bs + r)).drop (j * C.bs)).take C.bs := by
      unfold Spec.block
      rw [List.drop_take, List.take_take, Nat.min_eq_left (by omega)]
    have hbl : (Spec.block C.bs inp j).length = C.bs := by rw [FaultFrame.block_length]; omega
    rw [← hblk] at hd
    right
    refine ⟨fun h => by rw [h] at hbl; simp at hbl; omega, ?_, hd⟩
    rw [hbl, List.length_take, List.length_drop, Nat.mul_comm]; omega
  · intro st s e r inp st' hI hse hs hr h hr0 hcase
    change s * C.bs ≤ C.size o st at hs
    change r ≤ C.bs at hr
    change C.size o st ≤ e * C.bs + r ∨ r = C.bs at hcase
    obtain ⟨out, h1, h2, h3, h4, h5⟩ := writeMulti_inv hC hI hs hr h
    show Good1 C o e (region C o st'.file e) ((inp.drop ((e - s) * C.bs)).take r)
    have hol : out.length = (e - s) * C.ubs + r + (C.ivSize + 16) := by rw [h1, encLen_add hb, ← hue, encLen_le_small hb hr0 hr]; omega
    have hes : C.ubs * e = C.ubs * s + (e - s) * C.ubs := by
      rw [Nat.mul_comm (e - s), ← Nat.mul_add]; congr 1; omega
    have hcov : C.ubs * (e - s) + C.ubs ≤ out.length ∨ st.file.length ≤ o.headerSize + C.ubs * s + out.length := by
      by_cases hrb : r = C.bs
      · left; rw [hol, Nat.mul_comm]; omega
      · right
        have hsz : C.size o st ≤ e * C.bs + r := hcase.resolve_right hrb
        rw [size_body hC hI] at hsz
        have hbr := block_region hC (st.file.length - o.headerSize) e
        unfold InvL at hI
        omega
    have hreg := region_written (C := C) (o := o) (j := e - s) h5 hcov
    rw [show s + (e - s) = e by omega] at hreg
    rw [h4, hreg]
    have hd := h2.blk (e - s) (by rw [List.length_take]; omega)
    rw [← hue, show s + (e - s) = e by omega] at hd
    have hblk : (inp.drop ((e - s) * C.bs)).take r = ((inp.take ((e - s) * C.bs + r)).drop ((e - s) * C.bs)).take C.bs := by
      rw [List.drop_take, List.take_take]; congr 1; omega
    have hbl : ((inp.drop ((e - s) * C.bs)).take r).length = r := by rw [List.length_take, List.length_drop]; omega
    rw [← hblk] at hd
    right
    refine ⟨fun h => by rw [h] at hbl; simp at hbl; omega, ?_, ?_⟩
    · rw [hbl, List.length_take, List.length_drop, Nat.mul_comm]; omega
    · rw [Nat.mul_comm C.ubs]; exact hd
  · intro st n inp st1 st2 hI hn hr0 h ha
    change n % C.bs > 0 at hr0
    change C.adjust o st1 n = .ok st2 at ha
    change C.writeMulti o st (n / C.bs) (n / C.bs) (n % C.bs) inp = .ok st1 at h
    change n < C.size o st at hn
    have hm := Nat.mod_lt n hb
    have hdm := Nat.div_add_mod' n C.bs
    obtain ⟨out, h1, h2, h3, h4, h5⟩ := writeMulti_inv hC hI (by omega) hm.le h
    rw [Nat.sub_self, Nat.zero_mul, Nat.zero_add] at h1 h2 h3
    rw [encLen_le_small hb hr0 hm.le] at h1
    cases ha
    show Good1 C o (n / C.bs) (region C o (ufResize st1.file (C.underlyingSize o n)) (n / C.bs)) (inp.take (n % C.bs))
    have hu : C.underlyingSize o n = o.headerSize + C.ubs * (n / C.bs) + out.length := by
      rw [underlyingSize_eq, h1, encLen, if_pos hr0, ← hue, Nat.mul_comm]; omega
    have hreg : region C o (ufResize st1.file (C.underlyingSize o n)) (n / C.bs) = out := by
      apply List.ext_getElem?
      intro t
      rw [region_get, resize_get, hu, h4, splice_length _ _ _ h5]
      by_cases ht : t < out.length
      · rw [if_pos (by omega), if_pos (by omega), if_pos (by omega), getElem?_splice _ _ _ _ h5, if_neg (by omega), if_pos (by omega)]
        congr 1; omega
      · rw [List.getElem?_eq_none_iff.2 (by omega : out.length ≤ t)]
        split
        · rw [if_neg (by omega)]
        · rfl
    rw [hreg]
    have hd := h2.blk 0 (by rw [List.length_take]; omega)
    rw [Nat.zero_mul, Nat.zero_mul, List.drop_zero, List.drop_zero, List.take_of_length_le (l := out) (by omega), List.take_take, Nat.min_eq_right (by omega), Nat.add_zero] at hd
    have hbl : (inp.take (n % C.bs)).length = n % C.bs := by rw [List.length_take]; omega
    right
    exact ⟨fun h => by rw [h] at hbl; simp at hbl; omega, by rw [hbl, h1], hd⟩
  · intro n F i p hI hi hg
    show GoodL C o (C.adjustF o n F).2.st i p
    unfold adjustF
    rcases sys_st (w := fun st : LiteSt => ((), { st with file := ufResize st.file (C.underlyingSize o n) })) (g := fun _ st => st) (F := F) with h | ⟨_, h⟩
    · rw [h]
      refine adjust_keeps hC hI hg ?_
      rcases hi with ⟨h1, h2⟩ | ⟨h1, h2⟩
      · rw [hbs] at h1 h2; omega
      · rw [hbs] at h2; rw [h1]; simp; omega
    · rw [h]; exact hg
  · intro st n st' hI ha
    change C.adjust o st n = .ok st' at ha
    show C.size o st' = n
    have hI' : InvL o st' := by
      cases ha
      unfold InvL; dsimp only; rw [resize_length, underlyingSize_eq]; omega
    rw [size_body hC hI']
    cases ha
    dsimp only
    rw [resize_length, underlyingSize_eq, Nat.add_sub_cancel_left, bodySize_enc hC]
  · intro st n st' i hI ha hi
    cases ha
    change n ≤ i * C.bs at hi
    left
    refine ⟨rfl, ?_⟩
    apply List.eq_nil_of_length_eq_zero
    rw [region_resize_length hC, show n - i * C.bs = 0 by omega, Nat.min_zero, encLen_zero hb]
  · intro st n st' i hI ha hg
    cases ha
    show Good1 C o i (region C o (ufResize st.file (C.underlyingSize o n)) i) (zeros (min C.bs (n - i * C.bs)))
    have hl := region_resize_length (o := o) hC st.file n i
    rw [encLen_sized hb (by omega)] at hl
    rcases hg with ⟨_, h2⟩ | ⟨h1, _⟩
    · by_cases h0 : min C.bs (n - i * C.bs) = 0
      · rw [h0]
        rw [if_pos h0] at hl
        exact .inl ⟨rfl, List.eq_nil_of_length_eq_zero hl⟩
      · rw [if_neg h0] at hl
        have hr := region_length (C := C) (o := o) st.file i
        rw [h2] at hr
        have hz : region C o (ufResize st.file (C.underlyingSize o n)) i = zeros (min C.bs (n - i * C.bs) + (C.ivSize + 16)) := by
          apply List.ext_getElem?
          intro t
          rw [zeros_getElem?]
          split
          · rename_i ht
            have e2 := region_length (C := C) (o := o) (ufResize st.file (C.underlyingSize o n)) i
            rw [hl, resize_length] at e2
            unfold InvL at hI
            simp only [List.length_nil] at hr
            rw [region_get, if_pos (by omega), resize_get, if_pos (by omega), if_neg (by omega)]
          · rw [List.getElem?_eq_none_iff]; omega
        right
        rw [hz]
        refine ⟨?_, by simp, ?_⟩
        · intro h
          have := congrArg List.length h
          simp at this; omega
        · unfold decodeBlock
          rw [allZeros_zeros, if_pos rfl, zeros_length]
          congr 2; omega
    · exact absurd rfl h1
  · intro st n st' i p hI ha hg hp
    cases ha
    exact adjust_keeps hC hI hg hp

end LiteCfg
end Securefs

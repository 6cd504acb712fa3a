import Verif.Proofs.FaultsLite
import Verif.Proofs.FullStream
/-! The full-format stream over failing system calls. -/

namespace Securefs
namespace FullCfg
variable {C : FullCfg}

/-- A successful loop had enough input. -/
theorem writeLoop_len (hb : 0 < C.bs) : ∀ (fuel n rng : Nat) (input : Bytes) {q},
    C.writeLoop fuel n rng input = .ok q → n ≤ input.length := by
  intro fuel
  induction fuel with
  | zero =>
    intro n rng input q h
    unfold writeLoop at h
    split at h
    · omega
    · cases h
  | succ fuel ih =>
    intro n rng input q h
    rcases Nat.eq_zero_or_pos n with rfl | hm
    · omega
    unfold writeLoop at h
    rw [if_neg (by omega)] at h
    cases hq : drawIv C.rng C.ivSize C.ivFuel rng with
    | error e => simp only [hq, bind, Except.bind] at h; cases h
    | ok iv =>
      simp only [hq, bind, Except.bind] at h
      split at h
      · cases h
      rename_i hl
      split at h
      · cases h
      rename_i rest hrest
      have := ih _ _ _ hrest
      rw [List.length_drop] at this
      omega

/-- What is written. -/
theorem writeLoop_enc (hC : C.WF) {s e r rng : Nat} {input : Bytes} {q : Bytes × Bytes × Nat} (hr : r ≤ C.bs)
    (h : C.writeLoop (e - s + 1) (C.bs * (e - s) + r) rng input = .ok q) :
    (e - s) * C.bs + r ≤ input.length ∧ FEncC C q.1 q.2.1 (input.take ((e - s) * C.bs + r)) := by
  rw [Nat.mul_comm C.bs] at h
  have hl := writeLoop_len hC.bs_pos _ _ _ _ h
  refine ⟨hl, ?_⟩
  obtain ⟨d, m, rng', h1, h2⟩ := writeLoop_ok hC (e - s + 1) ((e - s) * C.bs + r) rng
    input hl (by rw [Nat.add_mul, Nat.one_mul]; omega)
  rw [h1] at h
  cases h
  exact h2

theorem ms_pos : 0 < C.metaSize := by unfold metaSize; omega

/-- The bytes of the data file for one block. -/
def dreg (C : FullCfg) (f : Bytes) (i : Nat) : Bytes := ufRead f (i * C.bs) C.bs

/-- The bytes of the meta file for one block. -/
def mreg (C : FullCfg) (f : Bytes) (i : Nat) : Bytes := ufRead f (C.metaPos i + 32) C.metaSize

theorem dreg_length (f : Bytes) (i : Nat) : (dreg C f i).length = min C.bs (f.length - i * C.bs) := by
  unfold dreg ufRead; rw [List.length_take, List.length_drop]

theorem dreg_get (f : Bytes) (i t : Nat) : (dreg C f i)[t]? = if t < C.bs then f[i * C.bs + t]? else none := by
  unfold dreg ufRead; rw [List.getElem?_take, List.getElem?_drop]

theorem mreg_length (f : Bytes) (i : Nat) : (mreg C f i).length = min C.metaSize (f.length - (C.metaPos i + 32)) := by
  unfold mreg ufRead; rw [List.length_take, List.length_drop]

theorem mreg_get (f : Bytes) (i t : Nat) : (mreg C f i)[t]? = if t < C.metaSize then f[C.metaPos i + 32 + t]? else none := by
  unfold mreg ufRead; rw [List.getElem?_take, List.getElem?_drop]

theorem metaPos_lt {i s : Nat} (h : i < s) : C.metaPos i + C.metaSize ≤ C.metaPos s := by
  unfold metaPos
  have := Nat.mul_le_mul_left C.metaSize (show i + 1 ≤ s from h)
  rw [Nat.mul_add] at this
  omega

theorem metaPos_add (s j : Nat) : C.metaPos (s + j) = C.metaPos s + j * C.metaSize := by
  unfold metaPos; rw [Nat.mul_add, Nat.mul_comm C.metaSize j]; omega

/-- Missing entries are read as zeros. -/
def pad (C : FullCfg) (m : Bytes) : Bytes := m ++ zeros (C.metaSize - m.length)

/-- Block `i` is intact. -/
def GoodF (C : FullCfg) (st : FullSt) (i : Nat) (p : Bytes) : Prop :=
  ((mreg C st.metaS.file i).length = 0 ∨ (mreg C st.metaS.file i).length = C.metaSize) ∧
  ((p = [] ∧ dreg C st.data i = [] ∧ pad C (mreg C st.metaS.file i) = zeros C.metaSize) ∨
   (p ≠ [] ∧ (dreg C st.data i).length = p.length ∧ C.decodeBlock (dreg C st.data i) (pad C (mreg C st.metaS.file i)) = .ok p))

theorem pad_nil : pad C [] = zeros C.metaSize := by simp [pad]

theorem pad_full {m : Bytes} (h : m.length = C.metaSize) : pad C m = m := by
  unfold pad; rw [h, Nat.sub_self]; simp [zeros]

theorem GoodF.of {st st' : FullSt} {i : Nat} {p : Bytes} (hg : GoodF C st i p) (hd : dreg C st'.data i = dreg C st.data i)
    (hm : mreg C st'.metaS.file i = mreg C st.metaS.file i ∨ (mreg C st.metaS.file i = [] ∧ mreg C st'.metaS.file i = zeros C.metaSize)) :
    GoodF C st' i p := by
  obtain ⟨h1, h2⟩ := hg
  unfold GoodF
  rcases hm with hm | ⟨e1, e2⟩
  · rw [hd, hm]; exact ⟨h1, h2⟩
  · refine ⟨.inr (by rw [e2, zeros_length]), ?_⟩
    rw [e1, pad_nil] at h2
    rw [hd, e2, pad_full (by rw [zeros_length])]
    exact h2

theorem uw_get (f : Bytes) (off : Nat) (d : Bytes) (x : Nat) : (ufWrite f off d)[x]? =
    if d = [] then f[x]? else if x < off then (if x < f.length then f[x]? else some 0) else if x < off + d.length then d[x - off]? else f[x]? := by
  unfold ufWrite
  by_cases hd : d = []
  · rw [if_pos hd, hd]; rfl
  · rw [if_neg hd, if_neg (by cases d <;> simp_all)]
    simp only [List.getElem?_append, List.length_append, List.length_take, List.getElem?_drop,
      List.getElem?_take, zeros_getElem?, zeros_length]
    list_cases

/-- Entries before the written ones. -/
theorem mreg_before (f : Bytes) {i s : Nat} (h : i < s) (d : Bytes) (hl : (mreg C f i).length = 0 ∨ (mreg C f i).length = C.metaSize) :
    mreg C (ufWrite f (C.metaPos s + 32) d) i = mreg C f i ∨ (mreg C f i = [] ∧ mreg C (ufWrite f (C.metaPos s + 32) d) i = zeros C.metaSize) := by
  have hp := metaPos_lt (C := C) h
  have hms := ms_pos (C := C)
  by_cases hd : d = []
  · left; subst hd; rfl
  have hl' := mreg_length (C := C) f i
  rcases hl with hl | hl
  · right
    refine ⟨List.eq_nil_of_length_eq_zero hl, ?_⟩
    apply List.ext_getElem?
    intro t
    rw [mreg_get, zeros_getElem?]
    split
    · rw [uw_get, if_neg hd, if_pos (by omega), if_neg (by omega)]
    · rfl
  · left
    apply List.ext_getElem?
    intro t
    rw [mreg_get, mreg_get]
    split
    · rw [uw_get, if_neg hd, if_pos (by omega), if_pos (by omega)]
    · rfl

/-- Entries behind the written ones. -/
theorem mreg_after (f : Bytes) {i s : Nat} (d : Bytes) (h : C.metaPos s + d.length ≤ C.metaPos i) :
    mreg C (ufWrite f (C.metaPos s + 32) d) i = mreg C f i := by
  apply List.ext_getElem?
  intro t
  rw [mreg_get, mreg_get]
  split
  · rw [uw_get]
    split
    · rfl
    · rw [if_neg (by omega), if_neg (by omega)]
  · rfl

/-- Written entries. -/
theorem mreg_written (f : Bytes) {s j : Nat} (d : Bytes) (h : j * C.metaSize + C.metaSize ≤ d.length) :
    mreg C (ufWrite f (C.metaPos s + 32) d) (s + j) = (d.drop (j * C.metaSize)).take C.metaSize := by
  have hms := ms_pos (C := C)
  have hd : d ≠ [] := by intro h0; rw [h0] at h; simp at h; omega
  apply List.ext_getElem?
  intro t
  rw [mreg_get, List.getElem?_take, List.getElem?_drop, metaPos_add]
  split
  · rw [uw_get, if_neg hd, if_neg (by omega), if_pos (by omega)]
    congr 1; omega
  · rfl

/-- Data before or behind the written bytes. -/
theorem dreg_frame (hb : 0 < C.bs) (f : Bytes) {i s : Nat} (d : Bytes) (hs : s * C.bs ≤ f.length) (h : i < s ∨ s * C.bs + d.length ≤ i * C.bs) :
    dreg C (ufWrite f (s * C.bs) d) i = dreg C f i := by
  apply List.ext_getElem?
  intro t
  rw [dreg_get, dreg_get]
  split
  · rw [uw_get]
    split
    · rfl
    · rcases h with h | h
      · have := Nat.mul_le_mul_right C.bs (show i + 1 ≤ s from h)
        rw [Nat.add_mul] at this
        rw [if_pos (by omega), if_pos (by omega)]
      · rw [if_neg (by omega), if_neg (by omega)]
  · rfl

theorem dreg_written (f : Bytes) {s j : Nat} (d : Bytes) (hs : s * C.bs ≤ f.length) (hd : d ≠ [])
    (h : j * C.bs + C.bs ≤ d.length ∨ f.length ≤ s * C.bs + d.length) :
    dreg C (ufWrite f (s * C.bs) d) (s + j) = (d.drop (j * C.bs)).take C.bs := by
  apply List.ext_getElem?
  intro t
  rw [dreg_get, List.getElem?_take, List.getElem?_drop, Nat.add_mul]
  split
  · rw [uw_get, if_neg hd, if_neg (by omega)]
    split
    · congr 1; omega
    · rw [List.getElem?_eq_none_iff.2 (by omega), List.getElem?_eq_none_iff.2 (by omega)]
  · rfl

theorem uw_length (f : Bytes) (off : Nat) (d : Bytes) (hs : off ≤ f.length) : (ufWrite f off d).length = max f.length (off + d.length) := by
  unfold ufWrite
  split
  · rename_i h
    have : d = [] := by cases d <;> simp_all
    subst this; simp; omega
  · simp only [List.length_append, List.length_take, zeros_length, List.length_drop]; omega

theorem decode_len (hC : C.WF) {d m p : Bytes} (h : C.decodeBlock d m = .ok p) : p.length = d.length := by
  unfold decodeBlock at h
  split at h
  · cases h; rw [zeros_length]
  · dsimp only at h
    split at h
    · cases h
    · cases h
      rw [hC.gcm.dec_len]

/-- Reading intact blocks. -/
theorem readLoop_good (hC : C.WF) : ∀ (fuel : Nat) (d m x : Bytes), d.length ≤ fuel * C.bs →
    (∀ j, j < fuel → (Spec.block C.bs x j = [] ∧ (d.drop (j * C.bs)).take C.bs = []) ∨
      (Spec.block C.bs x j ≠ [] ∧ ((d.drop (j * C.bs)).take C.bs).length = (Spec.block C.bs x j).length ∧
        C.decodeBlock ((d.drop (j * C.bs)).take C.bs) ((m.drop (j * C.metaSize)).take C.metaSize) = .ok (Spec.block C.bs x j))) →
    C.readLoop fuel d m = .ok (x.take (fuel * C.bs)) := by
  have hb := hC.bs_pos
  intro fuel
  induction fuel with
  | zero =>
    intro d m x hl _
    have : d = [] := List.eq_nil_of_length_eq_zero (by omega)
    subst this
    simp [readLoop]
  | succ fuel ih =>
    intro d m x hl hG
    have h0 := hG 0 (by omega)
    unfold Spec.block at h0
    simp only [Nat.zero_mul, List.drop_zero] at h0
    rcases h0 with ⟨h1, h2⟩ | ⟨h1, h2, h3⟩
    · have hbuf : d = [] := by
        cases d with
        | nil => rfl
        | cons a l => rw [show C.bs = (C.bs - 1) + 1 by omega] at h2; simp at h2
      have hx : x = [] := by
        cases x with
        | nil => rfl
        | cons a l => rw [show C.bs = (C.bs - 1) + 1 by omega] at h1; simp at h1
      subst hbuf hx
      simp [readLoop]
    · have hp : 0 < (x.take C.bs).length := List.length_pos_iff.2 h1
      have hne : d.isEmpty = false := by
        cases d with
        | nil => rw [← h2] at hp; simp at hp
        | cons => rfl
      unfold readLoop
      rw [hne]
      simp only [Bool.false_eq_true, ↓reduceIte]
      have h4 := ih (d.drop C.bs) (m.drop C.metaSize) (x.drop C.bs) (by rw [List.length_drop, Nat.add_mul] at *; omega) (fun j hj => by
        have := hG (j + 1) (by omega)
        unfold Spec.block at this ⊢
        rw [List.drop_drop, List.drop_drop, List.drop_drop]
        rw [show C.metaSize + j * C.metaSize = (j + 1) * C.metaSize by rw [Nat.add_mul]; omega, show C.bs + j * C.bs = (j + 1) * C.bs by rw [Nat.add_mul]; omega]
        exact this)
      simp only [bind, Except.bind, h3, h4]
      rw [Nat.add_mul, Nat.one_mul, Nat.add_comm, List.take_add]

/-- What a call of `write_multi_blocks` may leave behind. -/
theorem writeMultiF_st (hC : C.WF) {s e r : Nat} {inp : Bytes} {F : Faulty FullSt} (hr : r ≤ C.bs) :
    ∃ d m, d.length ≤ (e - s) * C.bs + r ∧ m.length ≤ (e - s + (if r > 0 then 1 else 0)) * C.metaSize ∧
      (C.writeMultiF s e r inp F).2.st.data = ufWrite F.st.data (s * C.bs) d ∧
      (C.writeMultiF s e r inp F).2.st.metaS.file = ufWrite F.st.metaS.file (C.metaPos s + 32) m := by
  have hb := hC.bs_pos
  unfold writeMultiF
  by_cases he : e > fullMaxBlocks
  · rw [if_pos he]; exact ⟨[], [], by simp, by simp, rfl, rfl⟩
  rw [if_neg he]
  rcases hq : C.writeLoop (e - s + 1) (C.bs * (e - s) + r) F.st.rng inp with er | q
  · exact ⟨[], [], by simp, by simp, rfl, rfl⟩
  · dsimp only
    obtain ⟨hl, hE⟩ := writeLoop_enc hC hr hq
    have hdl : q.1.length = (e - s) * C.bs + r := by rw [hE.dlen, List.length_take, Nat.min_eq_left hl]
    have hml : q.2.1.length = (e - s + (if r > 0 then 1 else 0)) * C.metaSize := by
      rw [hE.mlen, List.length_take, Nat.min_eq_left hl, nblk_add hb]
      split
      · rw [nblk_small hb (by omega) hr]
      · rw [show r = 0 by omega, nblk_zero hb]
    rcases FIO.bind_cases (FIO.sys (fun st : FullSt => ((), { st with data := ufWrite st.data (s * C.bs) q.1 }))
        (fun k st => { st with data := ufWrite st.data (s * C.bs) (q.1.take k) })) (fun _ => metaWriteF (C.metaPos s) q.2.1)
        ⟨{ F.st with rng := q.2.2 }, F.plan⟩ with ⟨a, h1, h2⟩ | ⟨er, h1, h2⟩
    · rw [h2]
      have h3 := (LiteCfg.sys_ok h1).2
      unfold metaWriteF
      generalize hG : (FIO.sys _ _ _ : Res Unit × Faulty FullSt).2 = G at h3 ⊢
      rcases LiteCfg.sys_st (w := fun st : FullSt => ((), { st with metaS := hmacWrite st.metaS (C.metaPos s) q.2.1 }))
        (g := fun k st => { st with metaS := { st.metaS with file := ufWrite st.metaS.file (C.metaPos s + 32) (q.2.1.take k) } }) (F := G) with h | ⟨k, h⟩
      · rw [h, h3]
        exact ⟨q.1, q.2.1, hdl.le, hml.le, rfl, rfl⟩
      · rw [h, h3]
        exact ⟨q.1, q.2.1.take k, hdl.le, by rw [List.length_take]; omega, rfl, rfl⟩
    · rw [h2]
      rcases LiteCfg.sys_st (w := fun st : FullSt => ((), { st with data := ufWrite st.data (s * C.bs) q.1 }))
        (g := fun k st => { st with data := ufWrite st.data (s * C.bs) (q.1.take k) }) (F := ⟨{ F.st with rng := q.2.2 }, F.plan⟩) with h | ⟨k, h⟩
      · rw [h]
        exact ⟨q.1, [], hdl.le, by simp, rfl, rfl⟩
      · rw [h]
        exact ⟨q.1.take k, [], by rw [List.length_take]; omega, by simp, rfl, rfl⟩

/-- A successful `write_multi_blocks`. -/
theorem writeMulti_inv (hC : C.WF) {st st' : FullSt} {s e r : Nat} {inp : Bytes} (hr : r ≤ C.bs)
    (h : C.writeMulti st s e r inp = .ok st') :
    ∃ d m, d.length = (e - s) * C.bs + r ∧ m.length = (e - s + (if r > 0 then 1 else 0)) * C.metaSize ∧
      FEncC C d m (inp.take ((e - s) * C.bs + r)) ∧ (e - s) * C.bs + r ≤ inp.length ∧
      st'.data = ufWrite st.data (s * C.bs) d ∧ st'.metaS.file = ufWrite st.metaS.file (C.metaPos s + 32) m := by
  have hb := hC.bs_pos
  unfold writeMulti at h
  split at h
  · cases h
  simp only [bind, Except.bind] at h
  split at h
  · cases h
  rename_i q hq
  obtain ⟨hl, hE⟩ := writeLoop_enc hC hr hq
  cases h
  refine ⟨q.1, q.2.1, by rw [hE.dlen, List.length_take, Nat.min_eq_left hl], ?_, hE, hl, rfl, rfl⟩
  rw [hE.mlen, List.length_take, Nat.min_eq_left hl, nblk_add hb]
  split
  · rw [nblk_small hb (by omega) hr]
  · rw [show r = 0 by omega, nblk_zero hb]

/-- A block that was written is intact. -/
theorem good_written (hC : C.WF) {st : FullSt} {df mf d m w : Bytes} {s j : Nat} (hs : s * C.bs ≤ df.length) (hE : FEncC C d m w) (hj : j * C.bs < w.length)
    (h : j * C.bs + C.bs ≤ w.length ∨ df.length ≤ s * C.bs + w.length)
    (h1 : st.data = ufWrite df (s * C.bs) d) (h2 : st.metaS.file = ufWrite mf (C.metaPos s + 32) m) :
    GoodF C st (s + j) (Spec.block C.bs w j) := by
  have hb := hC.bs_pos
  have hdl := hE.dlen
  have hjm : j * C.metaSize + C.metaSize ≤ m.length := by
    rw [hE.mlen]
    have a1 := nblk_sub hb j w.length
    have a2 := nblk_pos hb (show 0 < w.length - j * C.bs by omega)
    have := Nat.mul_le_mul_right C.metaSize (show j + 1 ≤ nblk C.bs w.length by omega)
    rw [Nat.add_mul] at this; omega
  have e1 := mreg_written mf (s := s) m hjm
  have e2 := dreg_written (C := C) df (s := s) (j := j) d hs (by intro h0; rw [h0] at hdl; simp at hdl; omega) (by rw [hdl]; exact h)
  unfold GoodF
  rw [h1, h2, e1, e2]
  have hl : ((m.drop (j * C.metaSize)).take C.metaSize).length = C.metaSize := by
    rw [List.length_take, List.length_drop]; omega
  refine ⟨.inr hl, .inr ⟨?_, ?_, ?_⟩⟩
  · intro h0
    have := congrArg List.length h0
    rw [FaultFrame.block_length] at this
    simp at this; omega
  · rw [FaultFrame.block_length, List.length_take, List.length_drop, hdl]
  · rw [pad_full hl]
    exact hE.blk j hj

/-- What a call of `adjust_logical_size` may leave behind. -/
theorem adjustF_st {n : Nat} {F : Faulty FullSt} :
    (C.adjustF n F).2.st = F.st ∨ (C.adjustF n F).2.st = { F.st with data := ufResize F.st.data n } ∨
    C.adjust F.st n = .ok (C.adjustF n F).2.st := by
  unfold adjustF
  rcases FIO.bind_cases (FIO.sys (fun st : FullSt => ((), { st with data := ufResize st.data n })) (fun _ st => st))
      (fun _ => metaResizeF (C.metaPos ((n + C.bs - 1) / C.bs))) F with ⟨a, h1, h2⟩ | ⟨er, h1, h2⟩
  · rw [h2]
    have h3 := (LiteCfg.sys_ok h1).2
    unfold metaResizeF
    generalize hG : (FIO.sys _ _ _ : Res Unit × Faulty FullSt).2 = G at h3 ⊢
    rcases LiteCfg.sys_st (w := fun st : FullSt => ((), { st with metaS := hmacResize st.metaS (C.metaPos ((n + C.bs - 1) / C.bs)) }))
        (g := fun _ st => st) (F := G) with h | ⟨k, h⟩
    · rw [h, h3]; right; right; rfl
    · rw [h, h3]; right; left; rfl
  · rw [h2]
    rcases LiteCfg.sys_st (w := fun st : FullSt => ((), { st with data := ufResize st.data n }))
        (g := fun _ st => st) (F := F) with h | ⟨k, h⟩
    · rw [h]; right; left; rfl
    · rw [h]; left; rfl

theorem resize_get (f : Bytes) (n i : Nat) : (ufResize f n)[i]? = if i < n then (if i < f.length then f[i]? else some 0) else none :=
  FaultFrame.resize_get f n i

theorem resize_length (f : Bytes) (n : Nat) : (ufResize f n).length = n := FaultFrame.resize_length f n

/-- Entries of the blocks that remain. -/
theorem mreg_kept (f : Bytes) {i k : Nat} (h : i < k) (hl : (mreg C f i).length = 0 ∨ (mreg C f i).length = C.metaSize) :
    mreg C (ufResize f (C.metaPos k + 32)) i = mreg C f i ∨ (mreg C f i = [] ∧ mreg C (ufResize f (C.metaPos k + 32)) i = zeros C.metaSize) := by
  have hp := metaPos_lt (C := C) h
  have hms := ms_pos (C := C)
  have hl' := mreg_length (C := C) f i
  rcases hl with hl | hl
  · right
    refine ⟨List.eq_nil_of_length_eq_zero hl, ?_⟩
    apply List.ext_getElem?
    intro t
    rw [mreg_get, zeros_getElem?]
    split
    · rw [resize_get, if_pos (by omega), if_neg (by omega)]
    · rfl
  · left
    apply List.ext_getElem?
    intro t
    rw [mreg_get, mreg_get]
    split
    · rw [resize_get, if_pos (by omega), if_pos (by omega)]
    · rfl

theorem mreg_cut (f : Bytes) {i k : Nat} (h : k ≤ i) : mreg C (ufResize f (C.metaPos k + 32)) i = [] := by
  apply List.eq_nil_of_length_eq_zero
  rw [mreg_length, resize_length]
  have : C.metaPos k ≤ C.metaPos i := by
    rcases Nat.lt_or_ge k i with h1 | h1
    · have := metaPos_lt (C := C) h1; omega
    · rw [show k = i by omega]
  omega

theorem nblk_lt (hb : 0 < C.bs) {n i : Nat} (h : i * C.bs < n) : i < nblk C.bs n := by
  have a1 := nblk_sub hb i n
  have a2 := nblk_pos hb (show 0 < n - i * C.bs by omega)
  omega

theorem dreg_resize (f : Bytes) {i n : Nat} (h : (dreg C f i).length = min C.bs (n - i * C.bs)) : dreg C (ufResize f n) i = dreg C f i := by
  rw [dreg_length] at h
  apply List.ext_getElem?
  intro t
  rw [dreg_get, dreg_get]
  split
  · rw [resize_get]
    by_cases ht : t < min C.bs (n - i * C.bs)
    · rw [if_pos (by omega), if_pos (by omega)]
    · rw [if_neg (by omega), List.getElem?_eq_none_iff.2 (by omega)]
  · rfl

theorem adjust_gone (hC : C.WF) {st st' : FullSt} {n i : Nat} (h : C.adjust st n = .ok st') (hi : n ≤ i * C.bs) : GoodF C st' i [] := by
  cases h
  have e1 : mreg C (hmacResize st.metaS (C.metaPos ((n + C.bs - 1) / C.bs))).file i = [] :=
    mreg_cut st.metaS.file (nblk_le_iff hC.bs_pos hi)
  unfold GoodF
  dsimp only
  rw [e1, pad_nil]
  refine ⟨.inl rfl, .inl ⟨rfl, ?_, rfl⟩⟩
  apply List.eq_nil_of_length_eq_zero
  rw [dreg_length, resize_length]; omega

theorem adjust_keeps (hC : C.WF) {st st' : FullSt} {n i : Nat} {p : Bytes} (h : C.adjust st n = .ok st') (hg : GoodF C st i p)
    (hp : p.length = min C.bs (n - i * C.bs)) : GoodF C st' i p := by
  have hb := hC.bs_pos
  by_cases hn : n ≤ i * C.bs
  · have : p = [] := List.eq_nil_of_length_eq_zero (by omega)
    rw [this]
    exact adjust_gone hC h hn
  · cases h
    have hdl : (dreg C st.data i).length = p.length := by
      rcases hg.2 with ⟨h1, h2, _⟩ | ⟨_, h2, _⟩
      · rw [h1, h2]
      · exact h2
    exact hg.of (dreg_resize _ (by rw [hdl, hp])) (mreg_kept st.metaS.file (nblk_lt hb (by omega)) hg.1)

/-- The laws of the block layer hold for the full-format stream over failing calls. -/
theorem frame (hC : C.WF) : FaultFrame C.faultDev C.dev (fun _ => True) (GoodF C) fullMaxBlocks := by
  have hb := hC.bs_pos
  have hbs : C.dev.bs = C.bs := rfl
  have hsz : ∀ st, C.dev.size st = st.data.length := fun _ => rfl
  have hms := ms_pos (C := C)
  have hgl : ∀ {st i p}, GoodF C st i p → p.length = (dreg C st.data i).length := by
    intro st i p hg
    rcases hg.2 with ⟨h1, h2, _⟩ | ⟨_, h2, _⟩
    · rw [h1, h2]
    · exact h2.symm
  have hread : ∀ {st c s e}, s ≤ e → e ≤ fullMaxBlocks → (∀ i, s ≤ i → i < e → GoodF C st i (Spec.block C.bs c i)) →
      C.readMulti st s e = .ok ((c.drop (s * C.bs)).take ((e - s) * C.bs)) := by
    intro st c s e hse he hG
    unfold readMulti
    by_cases h0 : s = e
    · rw [if_pos h0, h0]; simp
    rw [if_neg h0, if_neg (by omega)]
    dsimp only
    have hdl : (ufRead st.data (s * C.bs) ((e - s) * C.bs)).length = min ((e - s) * C.bs) (st.data.length - s * C.bs) := by
      unfold ufRead; rw [List.length_take, List.length_drop]
    have hml : (hmacRead st.metaS (C.metaPos s) ((e - s) * C.metaSize)).length
        = min ((e - s) * C.metaSize) (st.metaS.file.length - (C.metaPos s + 32)) := by
      unfold hmacRead ufRead; rw [List.length_take, List.length_drop]
    have e2 : ∀ j, Spec.block C.bs (c.drop (s * C.bs)) j = Spec.block C.bs c (s + j) := by
      intro j; unfold Spec.block
      rw [List.drop_drop, Nat.add_mul]
    have e1 : ∀ j, j < e - s → ((ufRead st.data (s * C.bs) ((e - s) * C.bs)).drop (j * C.bs)).take C.bs = dreg C st.data (s + j) := by
      intro j hj
      unfold dreg ufRead
      have := Nat.mul_le_mul_right C.bs (show j + 1 ≤ e - s by omega)
      rw [Nat.add_mul] at this
      rw [List.drop_take, List.take_take, List.drop_drop, Nat.min_eq_left (by omega), Nat.add_mul]
    have e3 : ∀ j, j < e - s → (((hmacRead st.metaS (C.metaPos s) ((e - s) * C.metaSize)) ++
        zeros ((e - s) * C.metaSize - (hmacRead st.metaS (C.metaPos s) ((e - s) * C.metaSize)).length)).drop (j * C.metaSize)).take C.metaSize
        = pad C (mreg C st.metaS.file (s + j)) := by
      intro j hj
      have := Nat.mul_le_mul_right C.metaSize (show j + 1 ≤ e - s by omega)
      rw [Nat.add_mul] at this
      rw [hml]
      unfold pad
      rw [mreg_length, metaPos_add]
      apply List.ext_getElem?
      intro t
      rw [List.getElem?_take, List.getElem?_drop, List.getElem?_append, List.getElem?_append, hml, mreg_get, mreg_length, metaPos_add,
        zeros_getElem?, zeros_getElem?]
      unfold hmacRead ufRead
      rw [List.getElem?_take, List.getElem?_drop]
      generalize (e - s) * C.metaSize = A at *
      generalize j * C.metaSize = B at *
      generalize C.metaPos s = P at *
      by_cases ht : t < C.metaSize
      · rw [if_pos ht, if_pos ht]
        by_cases hl : B + t < st.metaS.file.length - (P + 32)
        · rw [if_pos (show B + t < min A _ by omega), if_pos (show B + t < A by omega), if_pos (show t < min _ _ by omega)]
          congr 1; omega
        · rw [if_neg (show ¬ B + t < min A _ by omega), if_neg (show ¬ t < min _ _ by omega), if_pos (by omega), if_pos (by omega)]
      · rw [if_neg ht, if_neg (show ¬ t < min _ _ by omega), if_neg (by omega)]
    have hl : C.readLoop (e - s) (ufRead st.data (s * C.bs) ((e - s) * C.bs)) ((hmacRead st.metaS (C.metaPos s) ((e - s) * C.metaSize)) ++
        zeros ((e - s) * C.metaSize - (hmacRead st.metaS (C.metaPos s) ((e - s) * C.metaSize)).length)) = .ok ((c.drop (s * C.bs)).take ((e - s) * C.bs)) := by
      refine readLoop_good hC _ _ _ _ (by rw [hdl]; omega) fun j hj => ?_
      rw [e1 j hj, e2, e3 j hj]
      rcases (hG (s + j) (by omega) (by omega)).2 with ⟨h1, h2, _⟩ | h
      · exact .inl ⟨h1, h2⟩
      · exact .inr h
    split
    · rename_i hz
      rw [List.eq_nil_of_length_eq_zero hz] at hl
      have : C.readLoop (e - s) [] ((hmacRead st.metaS (C.metaPos s) ((e - s) * C.metaSize)) ++
        zeros ((e - s) * C.metaSize - (hmacRead st.metaS (C.metaPos s) ((e - s) * C.metaSize)).length)) = .ok [] := by
        cases (e - s) <;> simp [readLoop]
      rw [← this]; exact hl
    · rw [if_neg]
      · exact hl
      · rw [ne_eq, not_not, hml]
        by_contra hc
        have hq := Nat.div_add_mod' (st.metaS.file.length - (C.metaPos s + 32)) C.metaSize
        have hr := Nat.mod_lt (st.metaS.file.length - (C.metaPos s + 32)) hms
        generalize hQ : (st.metaS.file.length - (C.metaPos s + 32)) / C.metaSize = Q at hq
        generalize hR : (st.metaS.file.length - (C.metaPos s + 32)) % C.metaSize = R at hq hr
        rcases Nat.lt_or_ge Q (e - s) with h1 | h1
        · have h2 := (hG (s + Q) (by omega) (by omega)).1
          have h3 := Nat.mul_le_mul_right C.metaSize (show Q + 1 ≤ e - s from h1)
          rw [Nat.add_mul] at h3
          rw [Nat.min_eq_right (by omega), hR] at hc
          rw [mreg_length, metaPos_add] at h2
          omega
        · have h3 := Nat.mul_le_mul_right C.metaSize h1
          rw [Nat.min_eq_left (by omega)] at hc
          exact hc (Nat.mul_mod_left _ _)
  constructor
  · exact hb
  · rfl
  · rfl
  · intro F
    refine ⟨?_, fun n h => (LiteCfg.sys_ok h).1⟩
    rcases LiteCfg.sys_st (w := fun st : FullSt => (st.data.length, st)) (g := fun _ st => st) (F := F) with h | ⟨_, h⟩ <;> exact h
  · intro s e F
    show (C.readMultiF s e F).2.st = F.st ∧ ∀ b, (C.readMultiF s e F).1 = .ok b → C.readMulti F.st s e = .ok b
    unfold readMultiF readMulti
    split
    · exact ⟨rfl, fun b h => h⟩
    split
    · exact ⟨rfl, fun b h => by cases h⟩
    · have hs1 : ∀ {α : Type} (w : FullSt → α) (F : Faulty FullSt), (FIO.sys (fun st => (w st, st)) (fun _ st => st) F).2.st = F.st := by
        intro α w F
        rcases LiteCfg.sys_st (w := fun st => (w st, st)) (g := fun _ st => st) (F := F) with h | ⟨_, h⟩ <;> exact h
      rcases FIO.bind_cases (FIO.sys (fun st => (ufRead st.data (s * C.bs) ((e - s) * C.bs), st)) (fun _ st => st)) (fun d =>
        (FIO.sys (fun st => (hmacRead st.metaS (C.metaPos s) ((e - s) * C.metaSize), st)) (fun _ st => st)).bind fun m =>
          FIO.lift (if d.length = 0 then .ok [] else if m.length % C.metaSize ≠ 0 then .error .verify
            else C.readLoop (e - s) d (m ++ zeros ((e - s) * C.metaSize - m.length)))) F with ⟨d, h1, h2⟩ | ⟨er, h1, h2⟩
      · rw [h2]
        have h3 := hs1 (fun st => ufRead st.data (s * C.bs) ((e - s) * C.bs)) F
        have h4 := (LiteCfg.sys_ok h1).1
        generalize hG : (FIO.sys (fun st : FullSt => (ufRead st.data (s * C.bs) ((e - s) * C.bs), st)) (fun _ st => st) F).2 = G at *
        rcases FIO.bind_cases (FIO.sys (fun st => (hmacRead st.metaS (C.metaPos s) ((e - s) * C.metaSize), st)) (fun _ st => st)) (fun m =>
          FIO.lift (if d.length = 0 then .ok [] else if m.length % C.metaSize ≠ 0 then .error .verify
            else C.readLoop (e - s) d (m ++ zeros ((e - s) * C.metaSize - m.length)))) G with ⟨m, h5, h6⟩ | ⟨er, h5, h6⟩
        · rw [h6]
          have h7 := hs1 (fun st => hmacRead st.metaS (C.metaPos s) ((e - s) * C.metaSize)) G
          have h8 := (LiteCfg.sys_ok h5).1
          refine ⟨by show (FIO.sys _ _ G).2.st = _; rw [h7, h3], fun b hb' => ?_⟩
          rw [h3] at h8
          rw [h4, h8] at hb'
          exact hb'
        · rw [h6]
          exact ⟨by rw [hs1 (fun st => hmacRead st.metaS (C.metaPos s) ((e - s) * C.metaSize)) G, h3], fun b hb' => by cases hb'⟩
      · rw [h2]
        exact ⟨hs1 (fun st => ufRead st.data (s * C.bs) ((e - s) * C.bs)) F, fun b hb' => by cases hb'⟩
  · intro s e r inp F h
    change (C.writeMultiF s e r inp F).1 = .ok () at h
    show C.writeMulti F.st s e r inp = .ok (C.writeMultiF s e r inp F).2.st
    unfold writeMultiF at h ⊢
    unfold writeMulti
    by_cases he : e > fullMaxBlocks
    · rw [if_pos he] at h; cases h
    rw [if_neg he] at h ⊢
    rw [if_neg he]
    cases hq : C.writeLoop (e - s + 1) (C.bs * (e - s) + r) F.st.rng inp with
    | error er => rw [hq] at h; cases h
    | ok q =>
      rw [hq] at h
      dsimp only at h ⊢
      obtain ⟨a, h1, h2⟩ := FIO.bind_ok h
      have h3 := (LiteCfg.sys_ok h1).2
      rw [h2] at h ⊢
      unfold metaWriteF at h ⊢
      have h4 := (LiteCfg.sys_ok h).2
      rw [h4, h3]
      rfl
  · intro n F h
    change (C.adjustF n F).1 = .ok () at h
    show C.adjust F.st n = .ok (C.adjustF n F).2.st
    unfold adjustF at h ⊢
    obtain ⟨a, h1, h2⟩ := FIO.bind_ok h
    have h3 := (LiteCfg.sys_ok h1).2
    rw [h2] at h ⊢
    unfold metaResizeF at h ⊢
    have h4 := (LiteCfg.sys_ok h).2
    rw [h4, h3]
    rfl
  · intros; trivial
  · intros; trivial
  · intro st k q _ h
    change C.readMulti st k (k + 1) = .ok q at h
    show q.length = min C.bs (st.data.length - k * C.bs)
    unfold readMulti at h
    rw [if_neg (by omega)] at h
    split at h
    · cases h
    have hd : (ufRead st.data (k * C.bs) ((k + 1 - k) * C.bs)).length = min C.bs (st.data.length - k * C.bs) := by
      unfold ufRead; rw [List.length_take, List.length_drop, show k + 1 - k = 1 by omega, Nat.one_mul]
    dsimp only at h
    by_cases hz : (ufRead st.data (k * C.bs) ((k + 1 - k) * C.bs)).length = 0
    · rw [if_pos hz] at h
      cases h
      simp only [List.length_nil]; omega
    · rw [if_neg hz] at h
      split at h
      · cases h
      rw [← hd]
      generalize ufRead st.data (k * C.bs) ((k + 1 - k) * C.bs) = d at *
      rw [show k + 1 - k = 1 by omega] at h
      unfold readLoop at h
      have hne : d.isEmpty = false := by cases d <;> simp_all
      rw [hne] at h
      simp only [Bool.false_eq_true, ↓reduceIte, bind, Except.bind] at h
      split at h
      · cases h
      rename_i p hp
      have h9 := decode_len hC hp
      rw [List.take_of_length_le (by omega)] at h9
      rw [List.drop_eq_nil_of_le (as := d) (by omega)] at h
      simp [readLoop] at h
      rw [← h]; exact h9
  · intro st i p _ hg
    rw [hgl hg, dreg_length]; rfl
  · intro st c s e b _ hse hc hG h
    by_cases he : e ≤ fullMaxBlocks
    · have := hread hse he hG
      rw [show C.dev.readMulti st s e = C.readMulti st s e from rfl, this] at h
      cases h; rfl
    · change C.readMulti st s e = .ok b at h
      unfold readMulti at h
      by_cases h0 : s = e
      · rw [if_pos h0] at h
        cases h
        rw [h0]; simp
      · rw [if_neg h0, if_pos (by omega)] at h; cases h
  · intro st c s e _ hse he hc hG
    exact ⟨_, hread hse he hG⟩
  · intro s e r inp F i p _ hse hs hr hi hg
    obtain ⟨d, m, hd, hm, h1, h2⟩ := writeMultiF_st hC (s := s) (e := e) (inp := inp) (F := F) hr
    refine hg.of ?_ ?_
    · show dreg C (C.writeMultiF s e r inp F).2.st.data i = _
      rw [h1]
      apply dreg_frame hb _ _ hs
      rcases hi with hi | hi
      · exact .inl hi
      · right
        have a1 := Nat.mul_le_mul_right C.bs hi
        have a2 : e * C.bs = s * C.bs + (e - s) * C.bs := by rw [← Nat.add_mul]; congr 1; omega
        rw [Nat.add_mul] at a1
        rw [hbs] at hr
        split at a1 <;> omega
    · show mreg C (C.writeMultiF s e r inp F).2.st.metaS.file i = _ ∨ _ ∧ mreg C (C.writeMultiF s e r inp F).2.st.metaS.file i = _
      rw [h2]
      rcases hi with hi | hi
      · exact mreg_before _ hi _ hg.1
      · left
        apply mreg_after
        obtain ⟨j, rfl⟩ := Nat.exists_eq_add_of_le (show s ≤ i by omega)
        rw [metaPos_add]
        have := Nat.mul_le_mul_right C.metaSize (show e - s + (if r > 0 then 1 else 0) ≤ j by omega)
        omega
  · intro st s e r inp st' _ hse hs hr _ h
    obtain ⟨d, m, hd, hm, hE, hl, h1, h2⟩ := writeMulti_inv hC hr h
    have a2 : e * C.bs = s * C.bs + (e - s) * C.bs := by rw [← Nat.add_mul]; congr 1; omega
    rw [hsz, hbs] at hs
    rw [hsz, hsz, h1, uw_length _ _ _ hs, hd, hbs, a2]
    omega
  · intro st s e r inp st' i _ hse hs hr h hsi hie
    obtain ⟨d, m, hd, hm, hE, hl, h1, h2⟩ := writeMulti_inv hC hr h
    obtain ⟨j, rfl⟩ := Nat.exists_eq_add_of_le hsi
    have hj := Nat.mul_le_mul_right C.bs (show j + 1 ≤ e - s by omega)
    rw [Nat.add_mul] at hj
    have hwl : (inp.take ((e - s) * C.bs + r)).length = (e - s) * C.bs + r := by rw [List.length_take]; omega
    have := good_written hC (st := st') (j := j) hs hE (by rw [hwl]; omega) (.inl (by rw [hwl]; omega)) h1 h2
    rw [Nat.add_sub_cancel_left]
    have e1 : Spec.block C.bs inp j = Spec.block C.bs (inp.take ((e - s) * C.bs + r)) j := by
      unfold Spec.block
      rw [List.drop_take, List.take_take, Nat.min_eq_left (by omega)]
    rw [hbs, e1]; exact this
  · intro st s e r inp st' _ hse hs hr h hr0 hcov
    obtain ⟨d, m, hd, hm, hE, hl, h1, h2⟩ := writeMulti_inv hC hr h
    have a2 : e * C.bs = s * C.bs + (e - s) * C.bs := by rw [← Nat.add_mul]; congr 1; omega
    have hwl : (inp.take ((e - s) * C.bs + r)).length = (e - s) * C.bs + r := by rw [List.length_take]; omega
    have := good_written hC (st := st') (j := e - s) hs hE (by rw [hwl]; omega)
      (by
        rw [hwl, hbs] at *
        rw [hsz] at hcov
        omega) h1 h2
    rw [show s + (e - s) = e by omega] at this
    have e1 : Spec.block C.bs (inp.take ((e - s) * C.bs + r)) (e - s) = (inp.drop ((e - s) * C.bs)).take r := by
      unfold Spec.block
      rw [List.drop_take, List.take_take, Nat.add_sub_cancel_left, Nat.min_eq_right (show r ≤ C.bs from hr)]
    rw [e1] at this; exact this
  · intro st n inp st1 st2 _ hn hn0 h h'
    rw [hbs] at *
    rw [hsz] at hn
    have hmod := Nat.mod_lt n hb
    have hdm := Nat.div_add_mod' n C.bs
    obtain ⟨d, m, hd, hm, hE, hl, h1, h2⟩ := writeMulti_inv hC (by omega) h
    rw [Nat.sub_self, Nat.zero_mul, Nat.zero_add] at *
    rw [if_pos hn0] at hm
    cases h'
    have hjm : 0 * C.metaSize + C.metaSize ≤ m.length := by rw [hm]; omega
    have e1 := mreg_written st.metaS.file (s := n / C.bs) m hjm
    have hlt : n / C.bs < nblk C.bs n := nblk_lt hb (by omega)
    have e4 : (mreg C st1.metaS.file (n / C.bs)).length = C.metaSize := by
      rw [h2]
      refine (congrArg List.length e1).trans ?_
      simp only [Nat.zero_mul, List.drop_zero, List.length_take]; omega
    have e2 := mreg_kept st1.metaS.file hlt (.inr e4)
    have e3 : mreg C (ufResize st1.metaS.file (C.metaPos (nblk C.bs n) + 32)) (n / C.bs) = m := by
      rcases e2 with e2 | ⟨e2, _⟩
      · rw [e2, h2]
        have := e1
        rw [Nat.add_zero, Nat.zero_mul, List.drop_zero, List.take_of_length_le (by omega)] at this
        exact this
      · rw [e2] at e4; simp at e4; omega
    have e5 : dreg C (ufResize st1.data n) (n / C.bs) = d := by
      apply List.ext_getElem?
      intro t
      rw [dreg_get, h1]
      by_cases ht : t < n % C.bs
      · rw [if_pos (by omega), resize_get, if_pos (by omega), uw_length _ _ _ (by omega), if_pos (by omega), uw_get,
          if_neg (by intro h0; rw [h0] at hd; simp at hd; omega), if_neg (by omega), if_pos (by omega)]
        congr 1; omega
      · rw [List.getElem?_eq_none_iff.2 (show d.length ≤ t by omega)]
        split
        · rw [resize_get, if_neg (by omega)]
        · rfl
    unfold GoodF
    show ((mreg C (ufResize st1.metaS.file (C.metaPos (nblk C.bs n) + 32)) (n / C.bs)).length = 0 ∨ (mreg C (ufResize st1.metaS.file (C.metaPos (nblk C.bs n) + 32)) (n / C.bs)).length = C.metaSize) ∧
      ((inp.take (n % C.bs) = [] ∧ dreg C (ufResize st1.data n) (n / C.bs) = [] ∧ pad C (mreg C (ufResize st1.metaS.file (C.metaPos (nblk C.bs n) + 32)) (n / C.bs)) = zeros C.metaSize) ∨
      (inp.take (n % C.bs) ≠ [] ∧ (dreg C (ufResize st1.data n) (n / C.bs)).length = (inp.take (n % C.bs)).length ∧
        C.decodeBlock (dreg C (ufResize st1.data n) (n / C.bs)) (pad C (mreg C (ufResize st1.metaS.file (C.metaPos (nblk C.bs n) + 32)) (n / C.bs))) = .ok (inp.take (n % C.bs))))
    rw [e3, e5]
    have hlen : (inp.take (n % C.bs)).length = n % C.bs := by rw [List.length_take]; omega
    refine ⟨.inr (by rw [hm]; omega), .inr ⟨by intro h0; rw [h0] at hlen; simp at hlen; omega, by rw [hd, hlen], ?_⟩⟩
    rw [pad_full (by rw [hm]; omega)]
    have := hE.blk 0 (by omega)
    rw [Nat.zero_mul, Nat.zero_mul, List.drop_zero, List.drop_zero, List.drop_zero, List.take_of_length_le (l := d) (by omega),
      List.take_of_length_le (l := m) (by omega), List.take_of_length_le (l := inp.take _) (by omega)] at this
    exact this
  · intro n F i p _ hc hg
    rw [hbs] at hc
    have hpl : p.length = min C.bs (n - i * C.bs) := by
      rcases hc with ⟨h1, h2⟩ | ⟨h1, h2⟩
      · omega
      · rw [h1, List.length_nil]; omega
    rcases adjustF_st (C := C) (n := n) (F := F) with h | h | h
    · show GoodF C (C.adjustF n F).2.st i p
      rw [h]; exact hg
    · show GoodF C (C.adjustF n F).2.st i p
      rw [h]
      exact hg.of (dreg_resize _ (by rw [← hgl hg, hpl])) (.inl rfl)
    · exact adjust_keeps hC h hg hpl
  · intro st n st' _ h
    cases h
    exact resize_length _ _
  · intro st n st' i _ h hn
    exact adjust_gone hC h hn
  · intro st n st' i _ h hg
    rw [hbs] at *
    by_cases hn : n ≤ i * C.bs
    · rw [show min C.bs (n - i * C.bs) = 0 by omega]
      exact adjust_gone hC h hn
    · have hd0 : dreg C st.data i = [] := by
        apply List.eq_nil_of_length_eq_zero
        rw [← hgl hg]; rfl
      have hdl := dreg_length (C := C) st.data i
      rw [hd0, List.length_nil] at hdl
      have hm0 : pad C (mreg C st.metaS.file i) = zeros C.metaSize := by
        rcases hg.2 with ⟨_, _, h3⟩ | ⟨h3, _⟩
        · exact h3
        · exact absurd rfl h3
      cases h
      have e1 : mreg C (ufResize st.metaS.file (C.metaPos (nblk C.bs n) + 32)) i = zeros C.metaSize := by
        rcases mreg_kept (C := C) st.metaS.file (nblk_lt hb (show i * C.bs < n by omega)) hg.1 with h | ⟨_, h⟩
        · rcases hg.1 with h5 | h5
          · exfalso
            have h7 := congrArg List.length h
            rw [h5, mreg_length, resize_length] at h7
            have := metaPos_lt (C := C) (nblk_lt hb (show i * C.bs < n by omega))
            omega
          · rw [h, ← hm0, pad_full h5]
        · exact h
      have e2 : dreg C (ufResize st.data n) i = zeros (min C.bs (n - i * C.bs)) := by
        apply List.ext_getElem?
        intro t
        rw [dreg_get, resize_get, zeros_getElem?]
        by_cases ht : t < min C.bs (n - i * C.bs)
        · rw [if_pos (by omega), if_pos (by omega), if_neg (by omega), if_pos ht]
        · rw [if_neg ht]
          split
          · rw [if_neg (by omega)]
          · rfl
      unfold GoodF
      show ((mreg C (ufResize st.metaS.file (C.metaPos (nblk C.bs n) + 32)) i).length = 0 ∨ (mreg C (ufResize st.metaS.file (C.metaPos (nblk C.bs n) + 32)) i).length = C.metaSize) ∧
        ((zeros (min C.bs (n - i * C.bs)) = [] ∧ dreg C (ufResize st.data n) i = [] ∧ pad C (mreg C (ufResize st.metaS.file (C.metaPos (nblk C.bs n) + 32)) i) = zeros C.metaSize) ∨
        (zeros (min C.bs (n - i * C.bs)) ≠ [] ∧ (dreg C (ufResize st.data n) i).length = (zeros (min C.bs (n - i * C.bs))).length ∧
        C.decodeBlock (dreg C (ufResize st.data n) i) (pad C (mreg C (ufResize st.metaS.file (C.metaPos (nblk C.bs n) + 32)) i)) = .ok (zeros (min C.bs (n - i * C.bs)))))
      rw [e1, e2, pad_full (by rw [zeros_length])]
      refine ⟨.inr (by rw [zeros_length]), .inr ⟨?_, rfl, decode_zeros _⟩⟩
      intro h0
      have := congrArg List.length h0
      rw [zeros_length, List.length_nil] at this
      omega
  · intro st n st' i p _ h hg hp
    exact adjust_keeps hC h hg hp

end FullCfg
end Securefs

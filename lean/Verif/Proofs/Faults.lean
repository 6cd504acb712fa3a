import Verif.Model.Faults
import Verif.Proofs.Stream
import Verif.Proofs.StreamFacts
/-! Block-based streams whose system calls fail: which blocks stay intact. -/

namespace Securefs

namespace FIO
variable {σ α β : Type}

theorem bind_cases (m : FIO σ α) (f : α → FIO σ β) (F : Faulty σ) :
    (∃ a, (m F).1 = .ok a ∧ (m.bind f) F = f a (m F).2) ∨
    (∃ e, (m F).1 = .error e ∧ (m.bind f) F = (.error e, (m F).2)) := by
  unfold FIO.bind
  rcases h : m F with ⟨r, F'⟩
  cases r with
  | ok a => exact .inl ⟨a, rfl, rfl⟩
  | error e => exact .inr ⟨e, rfl, rfl⟩

theorem bind_ok {m : FIO σ α} {f : α → FIO σ β} {F : Faulty σ} {b : β} (h : ((m.bind f) F).1 = .ok b) :
    ∃ a, (m F).1 = .ok a ∧ (m.bind f) F = f a (m F).2 := by
  rcases bind_cases m f F with h1 | ⟨e, _, h2⟩
  · exact h1
  · rw [h2] at h; cases h

end FIO

/-- What the block layer may assume about a device with failing system calls: `Good st i p` says that block `i` of `st` is intact
    and has the content `p`. -/
structure FaultFrame {σ : Type} (D : FaultDev σ) (P : BlockDev σ) (Inv : σ → Prop) (Good : σ → Nat → Bytes → Prop) (maxB : Nat) : Prop where
  bs_pos : 0 < P.bs
  bs_eq : D.bs = P.bs
  sparse_eq : D.sparse = P.sparse
  size_sim : ∀ F, (D.size F).2.st = F.st ∧ ∀ n, (D.size F).1 = .ok n → n = P.size F.st
  read_sim : ∀ s e F, (D.readMulti s e F).2.st = F.st ∧ ∀ b, (D.readMulti s e F).1 = .ok b → P.readMulti F.st s e = .ok b
  write_sim : ∀ {s e r inp F}, (D.writeMulti s e r inp F).1 = .ok () → P.writeMulti F.st s e r inp = .ok (D.writeMulti s e r inp F).2.st
  adjust_sim : ∀ {n F}, (D.adjust n F).1 = .ok () → P.adjust F.st n = .ok (D.adjust n F).2.st
  write_inv : ∀ {s e r inp F}, Inv F.st → s * P.bs ≤ P.size F.st → Inv (D.writeMulti s e r inp F).2.st
  adjust_inv : ∀ {n F}, Inv F.st → Inv (D.adjust n F).2.st
  read_len : ∀ {st k q}, Inv st → P.readMulti st k (k + 1) = .ok q → q.length = min P.bs (P.size st - k * P.bs)
  good_len : ∀ {st i p}, Inv st → Good st i p → p.length = min P.bs (P.size st - i * P.bs)
  good_read : ∀ {st c s e b}, Inv st → s ≤ e → P.size st = c.length → (∀ i, s ≤ i → i < e → Good st i (Spec.block P.bs c i)) →
    P.readMulti st s e = .ok b → b = (c.drop (s * P.bs)).take ((e - s) * P.bs)
  good_reads : ∀ {st c s e}, Inv st → s ≤ e → e ≤ maxB → P.size st = c.length →
    (∀ i, s ≤ i → i < e → Good st i (Spec.block P.bs c i)) → ∃ b, P.readMulti st s e = .ok b
  write_frame : ∀ {s e r inp F i p}, Inv F.st → s ≤ e → s * P.bs ≤ P.size F.st → r ≤ P.bs →
    (i < s ∨ e + (if r > 0 then 1 else 0) ≤ i) → Good F.st i p → Good (D.writeMulti s e r inp F).2.st i p
  write_size : ∀ {st s e r inp st'}, Inv st → s ≤ e → s * P.bs ≤ P.size st → r ≤ P.bs → 0 < (e - s) * P.bs + r →
    P.writeMulti st s e r inp = .ok st' → P.size st' = max (P.size st) (e * P.bs + r)
  write_full : ∀ {st s e r inp st' i}, Inv st → s ≤ e → s * P.bs ≤ P.size st → r ≤ P.bs → P.writeMulti st s e r inp = .ok st' →
    s ≤ i → i < e → Good st' i (Spec.block P.bs inp (i - s))
  write_last : ∀ {st s e r inp st'}, Inv st → s ≤ e → s * P.bs ≤ P.size st → r ≤ P.bs → P.writeMulti st s e r inp = .ok st' →
    0 < r → (P.size st ≤ e * P.bs + r ∨ r = P.bs) → Good st' e ((inp.drop ((e - s) * P.bs)).take r)
  shrink_last : ∀ {st n inp st1 st2}, Inv st → n < P.size st → 0 < n % P.bs → P.writeMulti st (n / P.bs) (n / P.bs) (n % P.bs) inp = .ok st1 →
    P.adjust st1 n = .ok st2 → Good st2 (n / P.bs) (inp.take (n % P.bs))
  adjust_frame : ∀ {n F i p}, Inv F.st → ((p.length = P.bs ∧ i * P.bs + P.bs ≤ n) ∨ (p = [] ∧ n ≤ i * P.bs)) → Good F.st i p →
    Good (D.adjust n F).2.st i p
  adjust_size : ∀ {st n st'}, Inv st → P.adjust st n = .ok st' → P.size st' = n
  adjust_gone : ∀ {st n st' i}, Inv st → P.adjust st n = .ok st' → n ≤ i * P.bs → Good st' i []
  adjust_zero : ∀ {st n st' i}, Inv st → P.adjust st n = .ok st' → Good st i [] → Good st' i (zeros (min P.bs (n - i * P.bs)))
  adjust_keep : ∀ {st n st' i p}, Inv st → P.adjust st n = .ok st' → Good st i p → p.length = min P.bs (n - i * P.bs) → Good st' i p

namespace FaultFrame
variable {σ : Type} {D : FaultDev σ} {P : BlockDev σ} {Inv : σ → Prop} {Good : σ → Nat → Bytes → Prop} {maxB : Nat}

theorem block_length (bs : Nat) (c : Bytes) (i : Nat) : (Spec.block bs c i).length = min bs (c.length - i * bs) := by
  unfold Spec.block; rw [List.length_take, List.length_drop]

theorem block_get (bs : Nat) (c : Bytes) (i t : Nat) :
    (Spec.block bs c i)[t]? = if t < bs then c[i * bs + t]? else none := by
  unfold Spec.block; rw [List.getElem?_take, List.getElem?_drop]

/-- What the buffer of `unchecked_write` has before the bytes of the caller are copied: head `h`, tail `q`. -/
def rmwBuf (bs sb eb er : Nat) (h q : Bytes) : Bytes :=
  splice (splice (zeros ((eb - sb + (if er > 0 then 1 else 0)) * bs)) 0 h) ((eb - sb) * bs) q

/-- The buffer that is written. -/
def finBuf (inp : WInput) (sr : Nat) (b : Bytes) : Bytes :=
  match inp with
  | .zeroFill => b
  | .data d => splice b sr d

/-- The pure part of `unchecked_write`: what is read and what is written. -/
structure Shape (P : BlockDev σ) (st : σ) (inp : WInput) (off len r : Nat) (buf h q : Bytes) : Prop where
  head : if off % P.bs > 0 ∧ off / P.bs < (off + len) / P.bs then P.readMulti st (off / P.bs) (off / P.bs + 1) = .ok h else h = []
  tail : if (off + len) % P.bs > 0 then P.readMulti st ((off + len) / P.bs) ((off + len) / P.bs + 1) = .ok q else q = []
  res : r = if (off + len) % P.bs > 0 then max ((off + len) % P.bs) q.length else 0
  hlen : h.length ≤ ((off + len) / P.bs - off / P.bs + (if (off + len) % P.bs > 0 then 1 else 0)) * P.bs
  qlen : q.length ≤ P.bs
  buf : buf = finBuf inp (off % P.bs) (rmwBuf P.bs (off / P.bs) ((off + len) / P.bs) ((off + len) % P.bs) h q)

theorem memcpyAt_eq {buf src b : Bytes} {pos : Nat} (h : memcpyAt buf pos src = .ok b) : b = splice buf pos src ∧ pos + src.length ≤ buf.length := by
  have hl := (BlockDev.memcpyAt_inv h).1
  rw [memcpyAt_ok _ _ _ hl] at h
  cases h
  exact ⟨rfl, hl⟩

theorem rmw_get (n b er : Nat) (h q : Bytes) (j : Nat) (hj : j < n + if er > 0 then b else 0) (hh : h.length ≤ n + if er > 0 then b else 0) :
    (splice (splice (zeros (n + if er > 0 then b else 0)) 0 h) n q)[j]? =
      if n ≤ j ∧ j < n + q.length then q[j - n]? else if j < h.length then h[j]? else some 0 := by
  have hl : (splice (zeros (n + if er > 0 then b else 0)) 0 h).length = n + if er > 0 then b else 0 := by
    rw [splice_length _ _ _ (by simp), zeros_length]; omega
  have hz : (zeros (n + if er > 0 then b else 0))[j]? = some 0 := by rw [zeros_getElem?, if_pos hj]
  rw [getElem?_splice _ _ _ _ (by omega), getElem?_splice _ _ _ _ (by simp), hz]
  simp only [Nat.not_lt_zero, if_false, Nat.zero_add, Nat.sub_zero]
  split_ifs <;> first | rfl | omega

/-- The bytes of the written buffer are those of the new content. -/
theorem buf_get {inp : WInput} {off b A n sr er k t : Nat} {h q c d : Bytes}
    (hinp : inp = .data d ∨ (inp = .zeroFill ∧ d = zeros d.length ∧ off = c.length))
    (ht : t < b) (h1 : off = A + sr) (h2 : off + d.length = A + n + er) (hsr : sr < b) (her : er < b)
    (hn : n = 0 ∨ b ≤ n) (hk : k + b ≤ n ∨ (k = n ∧ 0 < er)) (hk0 : k = 0 ∨ b ≤ k) (hhb : h.length ≤ b) (hqb : q.length ≤ b)
    (hH : (h = [] ∧ ¬ (0 < sr ∧ 0 < n)) ∨ ((0 < sr ∧ 0 < n) ∧ (k = 0 → h = (c.drop A).take b)))
    (hQ : (q = [] ∧ er = 0) ∨ (0 < er ∧ (k = n → q = (c.drop (A + n)).take b)))
    (hc : off ≤ c.length) (hlast : k < n ∨ t < max er q.length) :
    (finBuf inp sr (splice (splice (zeros (n + if er > 0 then b else 0)) 0 h) n q))[k + t]? = (splice c off d)[A + k + t]? := by
  have hj : k + t < n + if er > 0 then b else 0 := by split <;> omega
  have hN : h.length ≤ n + if er > 0 then b else 0 := by
    rcases hH with ⟨h0, _⟩ | ⟨h0, _⟩
    · simp [h0]
    · omega
  have hnN : n + q.length ≤ n + if er > 0 then b else 0 := by
    rcases hQ with ⟨h0, _⟩ | ⟨h0, _⟩
    · simp [h0]
    · rw [if_pos h0]; omega
  have hr := rmw_get n b er h q (k + t) hj hN
  have hl : (splice (splice (zeros (n + if er > 0 then b else 0)) 0 h) n q).length = n + if er > 0 then b else 0 := by
    have e1 : (splice (zeros (n + if er > 0 then b else 0)) 0 h).length = n + if er > 0 then b else 0 := by
      rw [splice_length _ _ _ (by simp), zeros_length]; omega
    rw [splice_length _ _ _ (by omega), e1]; omega
  have hsrN : sr ≤ n + if er > 0 then b else 0 := by
    rcases hn with h0 | h0
    · have : 0 < er := by omega
      rw [if_pos this]; omega
    · omega
  have hql : k = n → 0 < er → q.length = min b (c.length - (A + n)) ∧ q[t]? = c[A + k + t]? := by
    intro e1 e2
    rcases hQ with ⟨_, h0⟩ | ⟨_, h0⟩
    · omega
    · have hq := h0 e1
      refine ⟨by rw [hq, List.length_take, List.length_drop], ?_⟩
      rw [hq, List.getElem?_take, if_pos ht, List.getElem?_drop, e1]
  have hhl : k = 0 → (0 < sr ∧ 0 < n) → h.length = min b (c.length - A) ∧ h[t]? = c[A + k + t]? := by
    intro e1 e2
    rcases hH with ⟨_, h0⟩ | ⟨_, h0⟩
    · exact absurd e2 h0
    · have hq := h0 e1
      refine ⟨by rw [hq, List.length_take, List.length_drop], ?_⟩
      rw [hq, List.getElem?_take, if_pos ht, List.getElem?_drop, e1, Nat.add_zero]
  have hh0 : ¬ (0 < sr ∧ 0 < n) → h.length = 0 := by
    intro h0
    rcases hH with ⟨e, _⟩ | ⟨e, _⟩
    · simp [e]
    · exact absurd e h0
  have hq0 : er = 0 → q.length = 0 := by
    intro h0
    rcases hQ with ⟨e, _⟩ | ⟨e, _⟩
    · simp [e]
    · omega
  clear hQ hH
  generalize (splice (splice (zeros (n + if er > 0 then b else 0)) 0 h) n q) = B at *
  generalize (n + if er > 0 then b else 0) = N at *
  rw [getElem?_splice _ _ _ _ hc]
  by_cases c1 : A + k + t < off
  · rw [if_pos c1]
    have hk00 : k = 0 := by omega
    have hfin : (finBuf inp sr B)[k + t]? =
        B[k + t]? := by
      rcases hinp with rfl | ⟨rfl, _⟩
      · show (splice _ sr d)[k + t]? = _
        rw [getElem?_splice _ _ _ _ (by omega), if_pos (by omega)]
      · rfl
    rw [hfin, hr]
    rcases hn with h0 | h0
    · have h3 : 0 < er := by omega
      obtain ⟨e1, e2⟩ := hql (by omega) h3
      rw [if_pos ⟨by omega, by omega⟩, show k + t - n = t by omega, e2]
    · obtain ⟨e1, e2⟩ := hhl hk00 ⟨by omega, by omega⟩
      rw [if_neg (by omega), if_pos (by omega), show k + t = t by omega, e2]
  · rw [if_neg c1]
    by_cases c2 : A + k + t < off + d.length
    · rw [if_pos c2]
      rcases hinp with rfl | ⟨rfl, hd, ho⟩
      · show (splice _ sr d)[k + t]? = _
        rw [getElem?_splice _ _ _ _ (by omega), if_neg (by omega), if_pos (by omega)]
        congr 1; omega
      · show B[k + t]? = _
        have hd0 : d[A + k + t - off]? = some 0 := by rw [hd, zeros_getElem?, if_pos (by omega)]
        rw [hr, hd0]
        by_cases c3 : n ≤ k + t ∧ k + t < n + q.length
        · have hkn : k = n := by omega
          have h3 : 0 < er := by omega
          obtain ⟨e1, _⟩ := hql hkn h3
          omega
        · rw [if_neg c3]
          by_cases c4 : k + t < h.length
          · exfalso
            have hk00 : k = 0 := by omega
            by_cases c5 : 0 < sr ∧ 0 < n
            · obtain ⟨e1, _⟩ := hhl hk00 c5
              omega
            · have := hh0 c5; omega
          · rw [if_neg c4]
    · rw [if_neg c2]
      have hkn : k = n := by omega
      have h3 : 0 < er := by omega
      obtain ⟨e1, e2⟩ := hql hkn h3
      have hfin : (finBuf inp sr B)[k + t]? =
          B[k + t]? := by
        rcases hinp with rfl | ⟨rfl, _⟩
        · show (splice _ sr d)[k + t]? = _
          rw [getElem?_splice _ _ _ _ (by omega), if_neg (by omega), if_neg (by omega)]
        · rfl
      rw [hfin, hr, if_pos ⟨by omega, by omega⟩, show k + t - n = t by omega, e2]

variable (H : FaultFrame D P Inv Good maxB)
include H

/-- `unchecked_write` fails without changing anything, or ends in one `write_multi_blocks`. -/
theorem uw_shape (inp : WInput) (off len : Nat) (hl : 0 < len) (hinp : ∀ d, inp = .data d → d.length = len) (F : Faulty σ) :
    (∃ e F1, D.uncheckedWrite inp off len F = (.error e, F1) ∧ F1.st = F.st) ∨
    ∃ r buf h q F1, F1.st = F.st ∧ D.uncheckedWrite inp off len F = D.writeMulti (off / P.bs) ((off + len) / P.bs) r buf F1 ∧
      Shape P F.st inp off len r buf h q := by
  have hb := H.bs_pos
  have hle : off / P.bs ≤ (off + len) / P.bs := Nat.div_le_div_right (by omega)
  unfold FaultDev.uncheckedWrite
  rw [if_neg (by omega), H.bs_eq]
  split
  · rename_i hal
    have hN : ((off + len) / P.bs - off / P.bs) * P.bs = len := by
      have e1 := Nat.div_add_mod' off P.bs
      have e2 := Nat.div_add_mod' (off + len) P.bs
      rw [Nat.sub_mul]; omega
    have her : ¬ (off + len) % P.bs > 0 := by omega
    right
    cases inp with
    | zeroFill =>
      refine ⟨0, zeros (((off + len) / P.bs - off / P.bs) * P.bs), [], [], F, rfl, rfl, ?_⟩
      refine ⟨?_, ?_, ?_, by simp, by simp, ?_⟩
      · rw [if_neg (by omega)]
      · rw [if_neg her]
      · rw [if_neg her]
      · simp [finBuf, rmwBuf, splice_nil, her]
    | data d =>
      refine ⟨0, d, [], [], F, rfl, rfl, ?_⟩
      refine ⟨?_, ?_, ?_, by simp, by simp, ?_⟩
      · rw [if_neg (by omega)]
      · rw [if_neg her]
      · rw [if_neg her]
      · simp only [finBuf, rmwBuf, splice_nil, her, if_false, Nat.add_zero, hal.1]
        have := hinp d rfl
        rw [hN]
        simp [splice, this, zeros]
  · rename_i hal
    -- head
    unfold FaultDev.rmwHead
    have hhead : ∀ buf0 : Bytes, ∀ F : Faulty σ, ∃ F1 : Faulty σ, F1.st = F.st ∧
        ((∃ e, (if off % P.bs > 0 ∧ off / P.bs < (off + len) / P.bs then
          (D.readMulti (off / P.bs) (off / P.bs + 1)).bind fun r => FIO.lift (memcpyAt buf0 0 r)
          else FIO.ret buf0) F = (.error e, F1)) ∨
        (∃ h, (if off % P.bs > 0 ∧ off / P.bs < (off + len) / P.bs then
          (D.readMulti (off / P.bs) (off / P.bs + 1)).bind fun r => FIO.lift (memcpyAt buf0 0 r)
          else FIO.ret buf0) F = (.ok (splice buf0 0 h), F1) ∧ h.length ≤ buf0.length ∧
          (if off % P.bs > 0 ∧ off / P.bs < (off + len) / P.bs then P.readMulti F.st (off / P.bs) (off / P.bs + 1) = .ok h else h = []))) := by
      intro buf0 F
      split
      · obtain ⟨hs, hv⟩ := H.read_sim (off / P.bs) (off / P.bs + 1) F
        refine ⟨(D.readMulti (off / P.bs) (off / P.bs + 1) F).2, hs, ?_⟩
        rcases FIO.bind_cases (D.readMulti (off / P.bs) (off / P.bs + 1)) (fun r => FIO.lift (memcpyAt buf0 0 r)) F with ⟨a, h1, h2⟩ | ⟨e, h1, h2⟩
        · rw [h2]
          unfold FIO.lift
          cases hm : memcpyAt buf0 0 a with
          | error e => exact .inl ⟨e, rfl⟩
          | ok b =>
            obtain ⟨rfl, hl⟩ := memcpyAt_eq hm
            exact .inr ⟨a, rfl, by omega, hv a h1⟩
        · exact .inl ⟨e, h2⟩
      · exact ⟨F, rfl, .inr ⟨[], by rw [splice_nil]; rfl, by simp, rfl⟩⟩
    obtain ⟨F1, hF1, ⟨e, h1⟩ | ⟨h, h1, hhl, hhd⟩⟩ := hhead (zeros (((off + len) / P.bs - off / P.bs + if (off + len) % P.bs > 0 then 1 else 0) * P.bs)) F
    · left
      refine ⟨e, F1, ?_, hF1⟩
      rw [FIO.bind, h1]
    have htail : ∀ buf1 : Bytes, ∀ F : Faulty σ, ∃ F1 : Faulty σ, F1.st = F.st ∧
        ((∃ e, D.rmwTail (off / P.bs) ((off + len) / P.bs) ((off + len) % P.bs) buf1 F = (.error e, F1)) ∨
        (∃ q, D.rmwTail (off / P.bs) ((off + len) / P.bs) ((off + len) % P.bs) buf1 F =
            (.ok (splice buf1 (((off + len) / P.bs - off / P.bs) * P.bs) q, if (off + len) % P.bs > 0 then max ((off + len) % P.bs) q.length else 0), F1) ∧
          (0 < q.length → ((off + len) / P.bs - off / P.bs) * P.bs + q.length ≤ buf1.length) ∧
          (if (off + len) % P.bs > 0 then P.readMulti F.st ((off + len) / P.bs) ((off + len) / P.bs + 1) = .ok q else q = []))) := by
      intro buf1 F
      unfold FaultDev.rmwTail
      rw [H.bs_eq]
      split
      · rename_i her
        obtain ⟨hs, hv⟩ := H.read_sim ((off + len) / P.bs) ((off + len) / P.bs + 1) F
        refine ⟨(D.readMulti ((off + len) / P.bs) ((off + len) / P.bs + 1) F).2, hs, ?_⟩
        rcases FIO.bind_cases (D.readMulti ((off + len) / P.bs) ((off + len) / P.bs + 1))
          (fun r => FIO.lift ((memcpyAt buf1 (((off + len) / P.bs - off / P.bs) * P.bs) r).map fun b => (b, max ((off + len) % P.bs) r.length))) F
          with ⟨a, h1, h2⟩ | ⟨e, h1, h2⟩
        · rw [h2]
          unfold FIO.lift
          cases hm : memcpyAt buf1 (((off + len) / P.bs - off / P.bs) * P.bs) a with
          | error e => exact .inl ⟨e, rfl⟩
          | ok b =>
            obtain ⟨rfl, hl⟩ := memcpyAt_eq hm
            exact .inr ⟨a, rfl, fun _ => hl, hv a h1⟩
        · exact .inl ⟨e, h2⟩
      · exact ⟨F, rfl, .inr ⟨[], by rw [splice_nil]; rfl, by simp, rfl⟩⟩
    obtain ⟨F2, hF2, ⟨e, h2⟩ | ⟨q, h2, hql, hqd⟩⟩ := htail (splice (zeros (((off + len) / P.bs - off / P.bs + if (off + len) % P.bs > 0 then 1 else 0) * P.bs)) 0 h) F1
    · left
      refine ⟨e, F2, ?_, hF2.trans hF1⟩
      rw [FIO.bind, h1]
      show FIO.bind _ _ F1 = _
      rw [FIO.bind, h2]
    rw [hF1] at hqd
    rw [zeros_length] at hhl
    have hql' : q.length ≤ P.bs := by
      rcases Nat.eq_zero_or_pos q.length with h0 | h0
      · omega
      · have h3 := hql h0
        rw [splice_length _ _ _ (by simp), zeros_length] at h3
        have her : (off + len) % P.bs > 0 := by
          by_contra hn
          rw [if_neg hn] at hqd
          rw [hqd] at h0; simp at h0
        rw [if_pos her, Nat.add_mul] at h3
        rw [if_pos her, Nat.add_mul] at hhl
        omega
    have hrest : (FIO.bind (D.rmwTail (off / P.bs) ((off + len) / P.bs) ((off + len) % P.bs)
          (splice (zeros (((off + len) / P.bs - off / P.bs + if (off + len) % P.bs > 0 then 1 else 0) * P.bs)) 0 h)) fun p =>
          (FIO.lift (BlockDev.rmwBody inp (off % P.bs) p.1)).bind fun buf3 =>
            D.writeMulti (off / P.bs) ((off + len) / P.bs) p.2 buf3) F1 =
        ((FIO.lift (BlockDev.rmwBody inp (off % P.bs) (rmwBuf P.bs (off / P.bs) ((off + len) / P.bs) ((off + len) % P.bs) h q))).bind fun buf3 =>
            D.writeMulti (off / P.bs) ((off + len) / P.bs) (if (off + len) % P.bs > 0 then max ((off + len) % P.bs) q.length else 0) buf3) F2 := by
      rw [FIO.bind, h2]; rfl
    have hwhole : (FIO.bind (if off % P.bs > 0 ∧ off / P.bs < (off + len) / P.bs then
          (D.readMulti (off / P.bs) (off / P.bs + 1)).bind fun r => FIO.lift (memcpyAt (zeros (((off + len) / P.bs - off / P.bs + if (off + len) % P.bs > 0 then 1 else 0) * P.bs)) 0 r)
          else FIO.ret (zeros (((off + len) / P.bs - off / P.bs + if (off + len) % P.bs > 0 then 1 else 0) * P.bs))) fun buf1 =>
          (D.rmwTail (off / P.bs) ((off + len) / P.bs) ((off + len) % P.bs) buf1).bind fun p =>
          (FIO.lift (BlockDev.rmwBody inp (off % P.bs) p.1)).bind fun buf3 =>
            D.writeMulti (off / P.bs) ((off + len) / P.bs) p.2 buf3) F =
        ((FIO.lift (BlockDev.rmwBody inp (off % P.bs) (rmwBuf P.bs (off / P.bs) ((off + len) / P.bs) ((off + len) % P.bs) h q))).bind fun buf3 =>
            D.writeMulti (off / P.bs) ((off + len) / P.bs) (if (off + len) % P.bs > 0 then max ((off + len) % P.bs) q.length else 0) buf3) F2 := by
      rw [FIO.bind, h1]
      exact hrest
    rw [hwhole]
    have hbody : (∃ e, BlockDev.rmwBody inp (off % P.bs) (rmwBuf P.bs (off / P.bs) ((off + len) / P.bs) ((off + len) % P.bs) h q) = .error e) ∨
        BlockDev.rmwBody inp (off % P.bs) (rmwBuf P.bs (off / P.bs) ((off + len) / P.bs) ((off + len) % P.bs) h q) =
          .ok (finBuf inp (off % P.bs) (rmwBuf P.bs (off / P.bs) ((off + len) / P.bs) ((off + len) % P.bs) h q)) := by
      cases inp with
      | zeroFill => exact .inr rfl
      | data d =>
        unfold BlockDev.rmwBody
        cases hm : memcpyAt (rmwBuf P.bs (off / P.bs) ((off + len) / P.bs) ((off + len) % P.bs) h q) (off % P.bs) d with
        | error e => exact .inl ⟨e, by simp only [hm]⟩
        | ok b =>
          obtain ⟨rfl, _⟩ := memcpyAt_eq hm
          exact .inr (by simp only [hm]; rfl)
    rcases hbody with ⟨e, hbd⟩ | hbd
    · left
      refine ⟨e, F2, ?_, hF2.trans hF1⟩
      rw [FIO.bind, FIO.lift, hbd]
    · right
      refine ⟨_, _, h, q, F2, hF2.trans hF1, ?_, ⟨hhd, hqd, rfl, hhl, hql', rfl⟩⟩
      rw [FIO.bind, FIO.lift, hbd]

/-- `unchecked_write` keeps the blocks that it does not cover, whether it succeeds or fails. -/
theorem uw_keep {inp : WInput} {off len : Nat} (hl : 0 < len) (hinp : ∀ d, inp = .data d → d.length = len) {F : Faulty σ} (hI : Inv F.st)
    (ho : off ≤ P.size F.st) :
    Inv (D.uncheckedWrite inp off len F).2.st ∧
    ∀ i p, (i < off / P.bs ∨ off + len ≤ i * P.bs) → Good F.st i p → Good (D.uncheckedWrite inp off len F).2.st i p := by
  have hb := H.bs_pos
  have hss : off / P.bs * P.bs ≤ P.size F.st := by have := Nat.div_mul_le_self off P.bs; omega
  rcases H.uw_shape inp off len hl hinp F with ⟨e, F1, h1, h2⟩ | ⟨r, buf, h, q, F1, h1, h2, hS⟩
  · rw [h1]; dsimp only; rw [h2]
    exact ⟨hI, fun _ _ _ hg => hg⟩
  · rw [h2]
    refine ⟨H.write_inv (by rw [h1]; exact hI) (by rw [h1]; exact hss), fun i p hi hg => ?_⟩
    have hr := hS.res
    have hq := hS.qlen
    have her := Nat.mod_lt (off + len) hb
    refine H.write_frame (by rw [h1]; exact hI) (Nat.div_le_div_right (by omega)) (by rw [h1]; exact hss) (by rw [hr]; split <;> omega) ?_ (by rw [h1]; exact hg)
    rcases hi with hi | hi
    · exact .inl hi
    · right
      rw [hr]
      by_cases h3 : (off + len) % P.bs > 0
      · rw [if_pos h3, if_pos (by omega)]
        exact BlockDev.Refines.lt_of_mod_pos hi h3
      · rw [if_neg h3]
        exact BlockDev.Refines.div_le_of_le hb hi

/-- A successful `unchecked_write`: the size, the intact blocks, and the blocks that are replaced. -/
theorem uw_good {inp : WInput} {off : Nat} {d c : Bytes} (hl : d ≠ []) {F : Faulty σ}
    (hinp : inp = .data d ∨ (inp = .zeroFill ∧ d = zeros d.length ∧ off = c.length)) (hI : Inv F.st) (hsz : P.size F.st = c.length)
    (ho : off ≤ c.length) (hok : (D.uncheckedWrite inp off d.length F).1 = .ok ()) :
    P.size (D.uncheckedWrite inp off d.length F).2.st = (splice c off d).length ∧
    ∀ i, (Good F.st i (Spec.block P.bs c i) ∨ (off ≤ i * P.bs ∧ i * P.bs + P.bs ≤ off + d.length)) →
      Good (D.uncheckedWrite inp off d.length F).2.st i (Spec.block P.bs (splice c off d) i) := by
  have hb := H.bs_pos
  have hl' : 0 < d.length := List.length_pos_iff.2 hl
  have hss : off / P.bs * P.bs ≤ P.size F.st := by have := Nat.div_mul_le_self off P.bs; omega
  have hinp' : ∀ d', inp = .data d' → d'.length = d.length := by
    intro d' h; rcases hinp with h' | ⟨h', _⟩
    · rw [h'] at h; cases h; rfl
    · rw [h'] at h; cases h
  have hkeep := (H.uw_keep hl' hinp' hI (hsz ▸ ho)).2
  rcases H.uw_shape inp off d.length hl' hinp' F with ⟨e, F1, h1, h2⟩ | ⟨r, buf, h, q, F1, h1, h2, hS⟩
  · rw [h1] at hok; cases hok
  rw [h2] at hok hkeep ⊢
  have hw := H.write_sim hok
  rw [h1] at hw
  obtain ⟨hhd, htl, hr, hhN, hqb, hbuf⟩ := hS
  obtain ⟨A, n, eA, en, eB, e1, e2, e3, e4, e5⟩ := BlockDev.Refines.div_facts P.bs off d.length hb
  generalize hs : off / P.bs = s at *
  generalize he : (off + d.length) / P.bs = e at *
  generalize hsr : off % P.bs = sr at *
  generalize her : (off + d.length) % P.bs = er at *
  have hrb : r ≤ P.bs := by rw [hr]; split <;> omega
  have hql : 0 < er → q.length = min P.bs (c.length - (A + n)) := by
    intro h3
    rw [if_pos h3] at htl
    rw [H.read_len hI htl, hsz, eB]
  have hsize := H.write_size hI e5 hss hrb (by rw [en, hr]; split <;> omega) hw
  refine ⟨?_, fun i hi => ?_⟩
  · rw [hsize, splice_length _ _ _ ho, hsz, eB, hr]
    by_cases h3 : er > 0
    · rw [if_pos h3]; have := hql h3; omega
    · rw [if_neg h3]; omega
  -- blocks outside
  by_cases hin : s ≤ i ∧ (i < e ∨ (i = e ∧ 0 < er))
  · obtain ⟨hsi, hie⟩ := hin
    have hA : i * P.bs = A + (i - s) * P.bs := by rw [← eA, ← Nat.add_mul]; congr 1; omega
    have hk0 : (i - s) * P.bs = 0 ∨ P.bs ≤ (i - s) * P.bs := by
      rcases Nat.eq_zero_or_pos (i - s) with h0 | h0
      · left; rw [h0, Nat.zero_mul]
      · right; exact Nat.le_mul_of_pos_left _ h0
    have hk : (i < e ∧ (i - s) * P.bs + P.bs ≤ n) ∨ (i = e ∧ (i - s) * P.bs = n ∧ 0 < er) := by
      rcases hie with h0 | ⟨h0, h3⟩
      · left
        refine ⟨h0, ?_⟩
        have := Nat.mul_le_mul_right P.bs (show i - s + 1 ≤ e - s by omega)
        rw [Nat.add_mul, Nat.one_mul, en] at this
        exact this
      · right; exact ⟨h0, by rw [h0, en], h3⟩
    have hn0 : n = 0 ∨ P.bs ≤ n := by
      rcases Nat.eq_zero_or_pos (e - s) with h0 | h0
      · left; rw [← en, h0, Nat.zero_mul]
      · right; rw [← en]; exact Nat.le_mul_of_pos_left _ h0
    generalize hkk : (i - s) * P.bs = k at *
    have hhead : (h = [] ∧ ¬ (0 < sr ∧ 0 < n)) ∨ ((0 < sr ∧ 0 < n) ∧ (k = 0 → h = (c.drop A).take P.bs)) := by
      have hne : (sr > 0 ∧ s < e) ↔ (0 < sr ∧ 0 < n) := by
        constructor
        · rintro ⟨a, b⟩
          refine ⟨a, ?_⟩
          rw [← en]; exact Nat.mul_pos (by omega) hb
        · rintro ⟨a, b⟩
          refine ⟨a, ?_⟩
          by_contra hc
          rw [show e - s = 0 by omega, Nat.zero_mul] at en
          omega
      by_cases h3 : sr > 0 ∧ s < e
      · rw [if_pos h3] at hhd
        right
        refine ⟨hne.1 h3, fun hk00 => ?_⟩
        have his : i = s := by
          rcases Nat.eq_zero_or_pos (i - s) with h0 | h0
          · omega
          · have := Nat.mul_pos h0 hb; omega
        rcases hi with hi | hi
        · have := H.good_read hI (Nat.le_succ s) hsz (fun j hj1 hj2 => by
            have : j = i := by omega
            rw [this]; exact hi) hhd
          rw [this, eA]; simp
        · omega
      · rw [if_neg h3] at hhd
        exact .inl ⟨hhd, fun hc => h3 (hne.2 hc)⟩
    have htail : (q = [] ∧ er = 0) ∨ (0 < er ∧ (k = n → q = (c.drop (A + n)).take P.bs)) := by
      by_cases h3 : er > 0
      · rw [if_pos h3] at htl
        right
        refine ⟨h3, fun hkn => ?_⟩
        have hie' : i = e := by
          rcases hk with hk | hk
          · omega
          · exact hk.1
        rcases hi with hi | hi
        · have := H.good_read hI (Nat.le_succ e) hsz (fun j hj1 hj2 => by
            have : j = i := by omega
            rw [this]; exact hi) htl
          rw [this, eB]; simp
        · omega
      · rw [if_neg h3] at htl
        exact .inl ⟨htl, by omega⟩
    have hhb : h.length ≤ P.bs := by
      by_cases h3 : sr > 0 ∧ s < e
      · rw [if_pos h3] at hhd
        have := H.read_len hI hhd; omega
      · rw [if_neg h3] at hhd; simp [hhd]
    have hN : (e - s + (if er > 0 then 1 else 0)) * P.bs = n + if er > 0 then P.bs else 0 := by
      rw [Nat.add_mul, en]; split <;> simp
    have hget : ∀ t, t < P.bs → (k < n ∨ t < max er q.length) → buf[k + t]? = (splice c off d)[A + k + t]? := by
      intro t ht hlast
      rw [hbuf]
      unfold rmwBuf
      rw [hN, en]
      exact buf_get hinp ht e1 e2 e3 e4 hn0 (hk.imp (·.2) (·.2)) hk0 hhb hqb hhead htail ho hlast
    rcases hk with ⟨hie', hk⟩ | ⟨rfl, hkn, her0⟩
    · have hg := H.write_full hI e5 hss hrb hw hsi hie'
      have : Spec.block P.bs buf (i - s) = Spec.block P.bs (splice c off d) i := by
        apply List.ext_getElem?
        intro t
        rw [block_get, block_get]
        split
        · rename_i ht
          rw [hkk, hA, hget t ht (.inl (by omega))]
        · rfl
      rw [← this]; exact hg
    · have hr' : r = max er q.length := by rw [hr, if_pos her0]
      have hql' := hql her0
      have hg := H.write_last hI e5 hss hrb hw (by omega) (by rw [eB, hsz]; omega)
      have : (buf.drop ((i - s) * P.bs)).take r = Spec.block P.bs (splice c off d) i := by
        apply List.ext_getElem?
        intro t
        rw [block_get, List.getElem?_take, List.getElem?_drop]
        by_cases ht : t < r
        · rw [if_pos ht, if_pos (by omega), hkk, hA, hget t (by omega) (.inr (by omega))]
        · rw [if_neg ht]
          split
          · rw [eq_comm, List.getElem?_eq_none_iff, splice_length _ _ _ ho]
            omega
          · rfl
      rw [← this]; exact hg
  · -- not covered
    have hout : i < s ∨ off + d.length ≤ i * P.bs := by
      by_cases h0 : i < s
      · exact .inl h0
      · right
        by_cases h3 : er = 0
        · have : e ≤ i := by omega
          have := Nat.mul_le_mul_right P.bs this
          omega
        · have : e + 1 ≤ i := by omega
          have := Nat.mul_le_mul_right P.bs this
          rw [Nat.add_mul] at this
          omega
    have hnr : ¬ (off ≤ i * P.bs ∧ i * P.bs + P.bs ≤ off + d.length) := by
      rintro ⟨a, b⟩
      rcases hout with h0 | h0
      · have := Nat.mul_le_mul_right P.bs (show i + 1 ≤ s from h0)
        rw [Nat.add_mul] at this
        omega
      · omega
    have hg : Good F.st i (Spec.block P.bs c i) := hi.resolve_right hnr
    have : Spec.block P.bs (splice c off d) i = Spec.block P.bs c i := by
      apply List.ext_getElem?
      intro t
      rw [block_get, block_get]
      split
      · rename_i ht
        rw [getElem?_splice _ _ _ _ ho]
        rcases hout with h0 | h0
        · have := Nat.mul_le_mul_right P.bs (show i + 1 ≤ s from h0)
          rw [Nat.add_mul] at this
          rw [if_pos (by omega)]
        · rw [if_neg (by omega), if_neg (by omega)]
      · rfl
    rw [this]
    exact hkeep i _ hout hg

omit H in
theorem resize_length (c : Bytes) (n : Nat) : (Spec.resize c n).length = n := by
  unfold Spec.resize; rw [List.length_append, List.length_take, List.length_replicate]; omega

omit H in
theorem resize_get (c : Bytes) (n i : Nat) : (Spec.resize c n)[i]? = if i < n then (if i < c.length then c[i]? else some 0) else none := by
  unfold Spec.resize
  rw [List.getElem?_append, List.length_take, List.getElem?_take, List.getElem?_replicate]
  list_cases

/-- `unchecked_resize` before the size is adjusted. -/
theorem shrink_shape (n : Nat) (F : Faulty σ) :
    (∃ e F1, D.shrinkPrep n F = (.error e, F1) ∧ F1.st = F.st) ∨
    (n % P.bs = 0 ∧ D.shrinkPrep n F = (.ok (), F)) ∨
    (0 < n % P.bs ∧ ∃ q F1, F1.st = F.st ∧ P.readMulti F.st (n / P.bs) (n / P.bs + 1) = .ok q ∧ q.length ≤ P.bs ∧
      D.shrinkPrep n F = D.writeMulti (n / P.bs) (n / P.bs) (n % P.bs) (splice (zeros P.bs) 0 q) F1) := by
  unfold FaultDev.shrinkPrep
  rw [H.bs_eq]
  split
  · rename_i hr
    obtain ⟨hs, hv⟩ := H.read_sim (n / P.bs) (n / P.bs + 1) F
    rcases FIO.bind_cases (D.readMulti (n / P.bs) (n / P.bs + 1)) (fun r =>
      (FIO.lift (memcpyAt (zeros P.bs) 0 r)).bind fun buf => D.writeMulti (n / P.bs) (n / P.bs) (n % P.bs) buf) F with ⟨a, h1, h2⟩ | ⟨e, h1, h2⟩
    · rw [h2]
      cases hm : memcpyAt (zeros P.bs) 0 a with
      | error e =>
        left
        exact ⟨e, _, by simp only [FIO.lift, FIO.bind], hs⟩
      | ok b =>
        obtain ⟨rfl, hl⟩ := memcpyAt_eq hm
        rw [zeros_length] at hl
        right; right
        refine ⟨hr, a, _, hs, hv a h1, by omega, ?_⟩
        simp only [FIO.lift, FIO.bind]
    · exact .inl ⟨e, _, h2, hs⟩
  · exact .inr (.inl ⟨by omega, rfl⟩)

/-- The frame of `adjust_logical_size` in terms of the size before. -/
theorem adjust_keeps {n cur : Nat} {F : Faulty σ} (hI : Inv F.st) {i : Nat} {p : Bytes}
    (hp : p.length = min P.bs (cur - i * P.bs)) (hi : i < min n cur / P.bs ∨ max n cur ≤ i * P.bs) (hg : Good F.st i p) :
    Good (D.adjust n F).2.st i p := by
  have hb := H.bs_pos
  refine H.adjust_frame hI ?_ hg
  rcases hi with hi | hi
  · left
    have h1 := Nat.mul_le_mul_right P.bs (show i + 1 ≤ min n cur / P.bs from hi)
    have h2 := Nat.div_mul_le_self (min n cur) P.bs
    rw [Nat.add_mul] at h1
    omega
  · right
    refine ⟨List.eq_nil_of_length_eq_zero (by omega), by omega⟩

theorem grow_fin (cur n : Nat) (h : cur < n) : ∃ fin, D.growPrep cur n = D.uncheckedWrite .zeroFill cur (fin - cur) ∧ cur < fin ∧ fin ≤ n ∧
    (fin = n ∨ fin = cur / P.bs * P.bs + P.bs) := by
  have hb := H.bs_pos
  unfold FaultDev.growPrep FaultDev.zeroFillTo
  rw [H.bs_eq]
  split
  · exact ⟨n, rfl, h, le_rfl, .inl rfl⟩
  · rename_i hc
    refine ⟨_, rfl, ?_, ?_, .inr rfl⟩
    · have := Nat.div_add_mod' cur P.bs
      have := Nat.mod_lt cur hb
      omega
    · have h1 : cur / P.bs ≤ n / P.bs := Nat.div_le_div_right (by omega)
      have h2 : cur / P.bs + 1 ≤ n / P.bs := by
        have : ¬ cur / P.bs = n / P.bs := fun h => hc (.inr h)
        omega
      have h3 := Nat.mul_le_mul_right P.bs h2
      rw [Nat.add_mul] at h3
      have := Nat.div_mul_le_self n P.bs
      omega

/-- `unchecked_resize` keeps the blocks outside of the part between the old and the new end. -/
theorem rs_keep {n cur : Nat} {F : Faulty σ} (hI : Inv F.st) (hsz : P.size F.st = cur) :
    Inv (D.uncheckedResize cur n F).2.st ∧
    ∀ i p, (i < min n cur / P.bs ∨ max n cur ≤ i * P.bs) → Good F.st i p → Good (D.uncheckedResize cur n F).2.st i p := by
  have hb := H.bs_pos
  unfold FaultDev.uncheckedResize
  split
  · exact ⟨hI, fun _ _ _ h => h⟩
  split
  · rename_i hne hlt
    have key : Inv (D.shrinkPrep n F).2.st ∧ ∀ i p, (i < min n cur / P.bs ∨ max n cur ≤ i * P.bs) → Good F.st i p →
        Good (D.shrinkPrep n F).2.st i p := by
      rcases H.shrink_shape n F with ⟨e, F1, h1, h2⟩ | ⟨_, h1⟩ | ⟨hr, q, F1, h1, h2, h3, h4⟩
      · rw [h1]; dsimp only; rw [h2]; exact ⟨hI, fun _ _ _ h => h⟩
      · rw [h1]; exact ⟨hI, fun _ _ _ h => h⟩
      · have hss : n / P.bs * P.bs ≤ P.size F1.st := by rw [h1, hsz]; have := Nat.div_mul_le_self n P.bs; omega
        rw [h4]
        refine ⟨H.write_inv (by rw [h1]; exact hI) hss, fun i p hi hg => ?_⟩
        refine H.write_frame (by rw [h1]; exact hI) le_rfl hss (Nat.mod_lt _ hb).le ?_ (by rw [h1]; exact hg)
        rw [if_pos hr]
        rcases hi with hi | hi
        · left; rwa [Nat.min_eq_left (by omega)] at hi
        · right; exact BlockDev.Refines.lt_of_mod_pos (by omega) hr
    rcases FIO.bind_cases (D.shrinkPrep n) (fun _ => D.adjust n) F with ⟨_, h1, h2⟩ | ⟨e, h1, h2⟩
    · rw [h2]
      refine ⟨H.adjust_inv key.1, fun i p hi hg => ?_⟩
      exact H.adjust_keeps key.1 (hsz ▸ H.good_len hI hg) hi (key.2 i p hi hg)
    · rw [h2]; exact key
  · rename_i hne hlt
    obtain ⟨fin, hg, hf1, hf2, -⟩ := H.grow_fin cur n (by omega)
    have key : Inv (D.growPrep cur n F).2.st ∧ ∀ i p, (i < min n cur / P.bs ∨ max n cur ≤ i * P.bs) → Good F.st i p →
        Good (D.growPrep cur n F).2.st i p := by
      rw [hg]
      obtain ⟨k1, k2⟩ := H.uw_keep (inp := .zeroFill) (off := cur) (len := fin - cur) (by omega) (by intro d h; cases h) hI (by omega)
      refine ⟨k1, fun i p hi => k2 i p ?_⟩
      rcases hi with hi | hi
      · left; rwa [Nat.min_eq_right (by omega)] at hi
      · right; omega
    rcases FIO.bind_cases (D.growPrep cur n) (fun _ => D.adjust n) F with ⟨_, h1, h2⟩ | ⟨e, h1, h2⟩
    · rw [h2]
      refine ⟨H.adjust_inv key.1, fun i p hi hg => ?_⟩
      exact H.adjust_keeps key.1 (hsz ▸ H.good_len hI hg) hi (key.2 i p hi hg)
    · rw [h2]; exact key

/-- A successful `unchecked_resize`. -/
theorem rs_good {n : Nat} {c : Bytes} {F : Faulty σ} (hI : Inv F.st) (hsz : P.size F.st = c.length)
    (hok : (D.uncheckedResize c.length n F).1 = .ok ()) :
    P.size (D.uncheckedResize c.length n F).2.st = n ∧
    ∀ i, (Good F.st i (Spec.block P.bs c i) ∨ (n ≠ c.length ∧ n ≤ i * P.bs)) →
      Good (D.uncheckedResize c.length n F).2.st i (Spec.block P.bs (Spec.resize c n) i) := by
  have hb := H.bs_pos
  unfold FaultDev.uncheckedResize at hok ⊢
  by_cases hnc : n = c.length
  · rw [if_pos hnc]
    refine ⟨hsz.trans hnc.symm, fun i hi => ?_⟩
    have : Spec.resize c n = c := by
      rw [hnc]; unfold Spec.resize; simp
    rw [this]
    rcases hi with hi | hi
    · exact hi
    · exact absurd hnc hi.1
  rw [if_neg hnc] at hok ⊢
  by_cases hlt : n < c.length
  · rw [if_pos hlt] at hok ⊢
    obtain ⟨_, h1, h2⟩ := FIO.bind_ok hok
    rw [h2] at hok ⊢
    have hadj := H.adjust_sim hok
    have hgone : ∀ i, n ≤ i * P.bs → Spec.block P.bs (Spec.resize c n) i = [] := by
      intro i hi
      apply List.eq_nil_of_length_eq_zero
      rw [block_length, resize_length]; omega
    have hlow : ∀ i, i * P.bs + P.bs ≤ n → Spec.block P.bs (Spec.resize c n) i = Spec.block P.bs c i := by
      intro i hi
      apply List.ext_getElem?
      intro t
      rw [block_get, block_get]
      split
      · rw [resize_get, if_pos (by omega), if_pos (by omega)]
      · rfl
    have hdm := Nat.div_add_mod' n P.bs
    rcases H.shrink_shape n F with ⟨e, F1, h3, _⟩ | ⟨hr, h3⟩ | ⟨hr, q, F1, h3, h4, h5, h6⟩
    · rw [h3] at h1; cases h1
    · rw [h3] at hadj ⊢
      refine ⟨H.adjust_size hI hadj, fun i hi => ?_⟩
      by_cases hni : n ≤ i * P.bs
      · rw [hgone i hni]; exact H.adjust_gone hI hadj hni
      · have hfull : i * P.bs + P.bs ≤ n := by
          have h8 : i < n / P.bs := by
            by_contra hc
            have := Nat.mul_le_mul_right P.bs (show n / P.bs ≤ i by omega)
            omega
          have := Nat.mul_le_mul_right P.bs (show i + 1 ≤ n / P.bs from h8)
          rw [Nat.add_mul] at this
          omega
        rw [hlow i hfull]
        rcases hi with hi | hi
        · refine H.adjust_keep hI hadj hi ?_
          rw [block_length]; omega
        · exact absurd hi.2 hni
    · rw [h6] at h1 hadj ⊢
      have hw := H.write_sim h1
      rw [h3] at hw
      have hss : n / P.bs * P.bs ≤ P.size F1.st := by rw [h3, hsz]; omega
      have hI1 : Inv (D.writeMulti (n / P.bs) (n / P.bs) (n % P.bs) (splice (zeros P.bs) 0 q) F1).2.st :=
        H.write_inv (by rw [h3]; exact hI) hss
      refine ⟨H.adjust_size hI1 hadj, fun i hi => ?_⟩
      by_cases hni : n ≤ i * P.bs
      · rw [hgone i hni]; exact H.adjust_gone hI1 hadj hni
      · have hi : Good F.st i (Spec.block P.bs c i) := hi.resolve_right fun h => hni h.2
        by_cases h8 : i < n / P.bs
        · have h9 := Nat.mul_le_mul_right P.bs (show i + 1 ≤ n / P.bs from h8)
          rw [Nat.add_mul] at h9
          rw [hlow i (by omega)]
          refine H.adjust_keep hI1 hadj (H.write_frame (by rw [h3]; exact hI) le_rfl hss (Nat.mod_lt _ hb).le (.inl h8) (by rw [h3]; exact hi)) ?_
          rw [block_length]; omega
        · have hik : i = n / P.bs := by
            by_contra hc
            have := Nat.mul_le_mul_right P.bs (show n / P.bs + 1 ≤ i by omega)
            rw [Nat.add_mul] at this
            have := Nat.mod_lt n hb
            omega
          have hq := H.good_read hI (Nat.le_succ _) hsz (fun j hj1 hj2 => by
            have : j = i := by omega
            rw [this]; exact hi) h4
          have hg := H.shrink_last hI (by omega) hr hw hadj
          have : (splice (zeros P.bs) 0 q).take (n % P.bs) = Spec.block P.bs (Spec.resize c n) i := by
            apply List.ext_getElem?
            intro t
            have hm := Nat.mod_lt n hb
            rw [block_get, List.getElem?_take, resize_get, hik]
            have hql : q.length = min P.bs (c.length - n / P.bs * P.bs) := by
              rw [hq, List.length_take, List.length_drop]; simp
            by_cases ht : t < n % P.bs
            · rw [if_pos ht, if_pos (by omega), if_pos (by omega), if_pos (by omega), getElem?_splice _ _ _ _ (by simp),
                if_neg (by omega), if_pos (by omega), hq, List.getElem?_take, if_pos (by simp; omega), List.getElem?_drop]
              simp
            · rw [if_neg ht]
              split
              · rw [if_neg (by omega)]
              · rfl
          rw [← this, hik]; exact hg
  · rw [if_neg hlt] at hok ⊢
    obtain ⟨_, h1, h2⟩ := FIO.bind_ok hok
    rw [h2] at hok ⊢
    have hadj := H.adjust_sim hok
    obtain ⟨fin, hgr, hf1, hf2, hf3⟩ := H.grow_fin c.length n (by omega)
    rw [hgr] at h1 hadj ⊢
    have hzl : (zeros (fin - c.length)).length = fin - c.length := zeros_length _
    have hz0 : zeros (fin - c.length) ≠ [] := by
      intro h; rw [h] at hzl; simp at hzl; omega
    have hk := H.uw_keep (inp := .zeroFill) (off := c.length) (len := fin - c.length) (by omega) (by intro d h; cases h) hI (by omega)
    have hgd := H.uw_good (inp := .zeroFill) (off := c.length) (d := zeros (fin - c.length)) (c := c) hz0 (.inr ⟨rfl, by rw [hzl], rfl⟩) hI hsz le_rfl
      (by rw [hzl]; exact h1)
    rw [hzl] at hgd
    refine ⟨H.adjust_size hk.1 hadj, fun i hi => ?_⟩
    have hlen : (Spec.block P.bs (Spec.resize c n) i).length = min P.bs (n - i * P.bs) := by rw [block_length, resize_length]
    by_cases hni : n ≤ i * P.bs
    · rw [List.eq_nil_of_length_eq_zero (by omega : (Spec.block P.bs (Spec.resize c n) i).length = 0)]
      exact H.adjust_gone hk.1 hadj hni
    have hi : Good F.st i (Spec.block P.bs c i) := hi.resolve_right fun h => hni h.2
    have hg1 := hgd.2 i (.inl hi)
    have hspl : ∀ j, (splice c c.length (zeros (fin - c.length)))[j]? = if j < fin then (if j < c.length then c[j]? else some 0) else none := by
      intro j
      rw [getElem?_splice _ _ _ _ le_rfl, zeros_getElem?, zeros_length]
      list_cases
    have hsame : i * P.bs + P.bs ≤ fin ∨ fin = n → Good (D.adjust n (D.uncheckedWrite .zeroFill c.length (fin - c.length) F).2).2.st i
        (Spec.block P.bs (Spec.resize c n) i) := by
      intro hcase
      have : Spec.block P.bs (splice c c.length (zeros (fin - c.length))) i = Spec.block P.bs (Spec.resize c n) i := by
        apply List.ext_getElem?
        intro t
        rw [block_get, block_get]
        split
        · rw [hspl, resize_get]
          rcases hcase with h | h
          · rw [if_pos (show i * P.bs + t < fin by omega), if_pos (show i * P.bs + t < n by omega)]
          · rw [h]
        · rfl
      rw [this] at hg1
      exact H.adjust_keep hk.1 hadj hg1 hlen
    rcases hf3 with hf3 | hf3
    · exact hsame (.inr hf3)
    · by_cases hic : i ≤ c.length / P.bs
      · exact hsame (.inl (by have := Nat.mul_le_mul_right P.bs hic; omega))
      · have h9 := Nat.mul_le_mul_right P.bs (show c.length / P.bs + 1 ≤ i by omega)
        rw [Nat.add_mul] at h9
        have h10 : Spec.block P.bs (splice c c.length (zeros (fin - c.length))) i = [] := by
          apply List.eq_nil_of_length_eq_zero
          rw [block_length, splice_length _ _ _ le_rfl, zeros_length]; omega
        rw [h10] at hg1
        have h11 := H.adjust_zero hk.1 hadj hg1
        have : zeros (min P.bs (n - i * P.bs)) = Spec.block P.bs (Spec.resize c n) i := by
          apply List.ext_getElem?
          intro t
          rw [block_get, zeros_getElem?, resize_get]
          list_cases
        rw [← this]; exact h11

/-- A failing or succeeding `write` keeps the blocks that it does not cover. -/
theorem write_keep {off : Nat} {d c : Bytes} (hd : d ≠ []) {F : Faulty σ} (hI : Inv F.st) (hsz : P.size F.st = c.length) :
    Inv (D.write off d F).2.st ∧
    ∀ i p, ¬ (Spec.FileCall.write off d).covers P.bs c.length i → Good F.st i p → Good (D.write off d F).2.st i p := by
  have hb := H.bs_pos
  have hd' : 0 < d.length := List.length_pos_iff.2 hd
  unfold FaultDev.write
  rw [if_neg (by omega)]
  obtain ⟨hs1, hs2⟩ := H.size_sim F
  have hcov : ∀ i, ¬ (Spec.FileCall.write off d).covers P.bs c.length i → i < min off c.length / P.bs ∨ off + d.length ≤ i * P.bs := by
    intro i hi
    unfold Spec.FileCall.covers at hi
    by_contra hc
    exact hi ⟨hd, by omega, by omega⟩
  rcases FIO.bind_cases D.size (fun cur => (if off > cur then D.uncheckedResize cur off else FIO.ret ()).bind fun _ =>
    D.uncheckedWrite (.data d) off d.length) F with ⟨cur, h1, h2⟩ | ⟨e, h1, h2⟩
  · rw [h2]
    have hcur : cur = c.length := (hs2 cur h1).trans hsz
    subst hcur
    clear h2
    generalize (D.size F).2 = F1 at *
    have hI1 : Inv F1.st := by rw [hs1]; exact hI
    rw [← hs1] at hsz
    rw [← hs1]
    by_cases hgap : off > c.length
    · rw [if_pos hgap]
      have hk := H.rs_keep (n := off) hI1 hsz
      have hk' : ∀ i p, ¬ (Spec.FileCall.write off d).covers P.bs c.length i → Good F1.st i p → Good (D.uncheckedResize c.length off F1).2.st i p := by
        intro i p hi
        refine hk.2 i p ?_
        rcases hcov i hi with h | h
        · exact .inl h
        · right; omega
      rcases FIO.bind_cases (D.uncheckedResize c.length off) (fun _ => D.uncheckedWrite (.data d) off d.length) F1 with ⟨_, h3, h4⟩ | ⟨e, h3, h4⟩
      · rw [h4]
        have hgd := H.rs_good hI1 hsz h3
        obtain ⟨k1, k2⟩ := H.uw_keep (inp := .data d) hd' (by intro d' h; cases h; rfl) hk.1 hgd.1.ge
        refine ⟨k1, fun i p hi hg => k2 i p ?_ (hk' i p hi hg)⟩
        rcases hcov i hi with h | h
        · left; exact lt_of_lt_of_le h (Nat.div_le_div_right (Nat.min_le_left _ _))
        · exact .inr h
      · rw [h4]; exact ⟨hk.1, hk'⟩
    · rw [if_neg hgap]
      obtain ⟨k1, k2⟩ := H.uw_keep (inp := .data d) (off := off) hd' (by intro d' h; cases h; rfl) hI1 (by omega)
      refine ⟨k1, fun i p hi hg => k2 i p ?_ hg⟩
      rcases hcov i hi with h | h
      · left; exact lt_of_lt_of_le h (Nat.div_le_div_right (Nat.min_le_left _ _))
      · exact .inr h
  · rw [h2]; dsimp only; rw [hs1]
    exact ⟨hI, fun _ _ _ h => h⟩

/-- A successful `write`. -/
theorem write_good {off : Nat} {d c : Bytes} (hd : d ≠ []) {F : Faulty σ} (hI : Inv F.st) (hsz : P.size F.st = c.length)
    (hok : (D.write off d F).1 = .ok ()) :
    P.size (D.write off d F).2.st = (Spec.write c off d).length ∧
    ∀ i, (Good F.st i (Spec.block P.bs c i) ∨ (Spec.FileCall.write off d).renews P.bs c.length i) →
      Good (D.write off d F).2.st i (Spec.block P.bs (Spec.write c off d) i) := by
  have hb := H.bs_pos
  have hd' : 0 < d.length := List.length_pos_iff.2 hd
  unfold FaultDev.write at hok ⊢
  rw [if_neg (by omega)] at hok ⊢
  obtain ⟨hs1, hs2⟩ := H.size_sim F
  obtain ⟨cur, h1, h2⟩ := FIO.bind_ok hok
  rw [h2] at hok ⊢
  have hcur : cur = c.length := (hs2 cur h1).trans hsz
  subst hcur
  clear h2
  generalize (D.size F).2 = F1 at *
  have hI1 : Inv F1.st := by rw [hs1]; exact hI
  rw [← hs1] at hsz
  rw [← hs1]
  by_cases hgap : off > c.length
  · rw [if_pos hgap] at hok ⊢
    obtain ⟨_, h3, h4⟩ := FIO.bind_ok hok
    rw [h4] at hok ⊢
    have hk := H.rs_keep (n := off) hI1 hsz
    have hgd := H.rs_good hI1 hsz h3
    have hw : Spec.write c off d = splice (Spec.resize c off) off d := by
      rw [← spec_write_splice _ _ _ (by rw [resize_length])]
      unfold Spec.write Spec.resize
      rw [if_neg hd, if_neg hd, List.take_of_length_le (show c.length ≤ off by omega)]
      congr 1
      · simp [show off - (c.length + (off - c.length)) = 0 by omega]
      · rw [List.drop_eq_nil_of_le (by omega), List.drop_eq_nil_of_le (by simp; omega)]
    obtain ⟨k1, k2⟩ := H.uw_good (inp := .data d) (c := Spec.resize c off) hd (.inl rfl) hk.1 (by rw [hgd.1, resize_length])
      (by rw [resize_length]) hok
    rw [hw]
    refine ⟨k1, fun i hi => k2 i ?_⟩
    rcases hi with hi | hi
    · exact .inl (hgd.2 i (.inl hi))
    · exact .inr hi
  · rw [if_neg hgap] at hok ⊢
    obtain ⟨k1, k2⟩ := H.uw_good (inp := .data d) (off := off) (c := c) hd (.inl rfl) hI1 hsz (by omega) hok
    rw [spec_write_splice _ _ _ (by omega)]
    exact ⟨k1, fun i hi => k2 i hi⟩

/-- A read of intact blocks that succeeds returns the content. -/
theorem read_good {off len : Nat} {c : Bytes} {F : Faulty σ} (hI : Inv F.st) (hsz : P.size F.st = c.length)
    (hg : ∀ i, off / P.bs ≤ i → i * P.bs < off + len → Good F.st i (Spec.block P.bs c i)) :
    (D.read off len F).2.st = F.st ∧ ∀ b, (D.read off len F).1 = .ok b → b = Spec.read c off len := by
  have hb := H.bs_pos
  unfold FaultDev.read Spec.read
  by_cases hl : len = 0
  · rw [if_pos hl]
    refine ⟨rfl, ?_⟩
    intro b hbb
    cases hbb
    rw [hl]; simp
  rw [if_neg hl, H.bs_eq]
  obtain ⟨A, n, eA, en, eB, e1, e2, e3, e4, e5⟩ := BlockDev.Refines.div_facts P.bs off len hb
  have hblk : ∀ i, i < (off + len) / P.bs + (if (off + len) % P.bs > 0 then 1 else 0) → i * P.bs < off + len := by
    intro i hi
    have := Nat.mul_le_mul_right P.bs (show i + 1 ≤ (off + len) / P.bs + (if (off + len) % P.bs > 0 then 1 else 0) by omega)
    rw [Nat.add_mul, Nat.add_mul, eB] at this
    split at this <;> omega
  by_cases hal : off % P.bs = 0 ∧ (off + len) % P.bs = 0
  · rw [if_pos hal]
    obtain ⟨hs, hv⟩ := H.read_sim (off / P.bs) ((off + len) / P.bs) F
    refine ⟨hs, fun b hbb => ?_⟩
    have := H.good_read hI e5 hsz (fun i h1 h2 => hg i h1 (hblk i (by omega))) (hv b hbb)
    rw [this, eA, en]
    have h3 : A = off := by omega
    have h4 : n = len := by omega
    rw [h3, h4]
  · rw [if_neg hal]
    obtain ⟨hs, hv⟩ := H.read_sim (off / P.bs) ((off + len) / P.bs + (if (off + len) % P.bs > 0 then 1 else 0)) F
    rcases FIO.bind_cases (D.readMulti (off / P.bs) ((off + len) / P.bs + (if (off + len) % P.bs > 0 then 1 else 0))) (fun buf =>
        .lift (if buf.length > ((off + len) / P.bs - off / P.bs + (if (off + len) % P.bs > 0 then 1 else 0)) * P.bs then .error .outOfBounds
          else if buf.length ≤ off % P.bs then .ok []
          else .ok ((buf.drop (off % P.bs)).take (min (buf.length - off % P.bs) len)))) F with ⟨buf, h1, h2⟩ | ⟨e, h1, h2⟩
    · rw [h2]
      refine ⟨hs, fun b hbb => ?_⟩
      have hbuf := H.good_read hI (by omega) hsz (fun i h1 h2 => hg i h1 (hblk i h2)) (hv buf h1)
      have hN : ((off + len) / P.bs + (if (off + len) % P.bs > 0 then 1 else 0) - off / P.bs) * P.bs = n + if (off + len) % P.bs > 0 then P.bs else 0 := by
        rw [show (off + len) / P.bs + (if (off + len) % P.bs > 0 then 1 else 0) - off / P.bs =
          ((off + len) / P.bs - off / P.bs) + (if (off + len) % P.bs > 0 then 1 else 0) by omega, Nat.add_mul, en]
        split <;> simp
      rw [hN, eA] at hbuf
      have hend : off + len ≤ A + (n + if (off + len) % P.bs > 0 then P.bs else 0) := by split <;> omega
      generalize (n + if (off + len) % P.bs > 0 then P.bs else 0) = N at *
      have hbl : buf.length = min N (c.length - A) := by rw [hbuf, List.length_take, List.length_drop]
      rw [FIO.lift] at hbb
      dsimp only at hbb
      by_cases c1 : buf.length > ((off + len) / P.bs - off / P.bs + (if (off + len) % P.bs > 0 then 1 else 0)) * P.bs
      · rw [if_pos c1] at hbb; cases hbb
      rw [if_neg c1] at hbb
      by_cases c2 : buf.length ≤ off % P.bs
      · rw [if_pos c2] at hbb
        cases hbb
        rw [eq_comm]
        apply List.eq_nil_of_length_eq_zero
        rw [List.length_take, List.length_drop]
        omega
      · rw [if_neg c2] at hbb
        cases hbb
        apply List.ext_getElem?
        intro t
        rw [List.getElem?_take, List.getElem?_take, List.getElem?_drop, List.getElem?_drop]
        by_cases ht : t < len
        · rw [if_pos ht]
          split
          · rename_i h5
            rw [hbuf, List.getElem?_take, if_pos (by omega), List.getElem?_drop]
            congr 1; omega
          · rw [eq_comm, List.getElem?_eq_none_iff]; omega
        · rw [if_neg ht, if_neg (by omega)]
    · rw [h2]
      exact ⟨hs, fun b hbb => by cases hbb⟩

/-- Reads never change anything. -/
theorem read_quiet {off len : Nat} {F : Faulty σ} : (D.read off len F).2.st = F.st := by
  unfold FaultDev.read
  split
  · rfl
  rw [H.bs_eq]
  by_cases hal : off % P.bs = 0 ∧ (off + len) % P.bs = 0
  · rw [if_pos hal]; exact (H.read_sim _ _ F).1
  · rw [if_neg hal]
    rcases FIO.bind_cases (D.readMulti (off / P.bs) ((off + len) / P.bs + (if (off + len) % P.bs > 0 then 1 else 0))) (fun buf =>
        .lift (if buf.length > ((off + len) / P.bs - off / P.bs + (if (off + len) % P.bs > 0 then 1 else 0)) * P.bs then .error .outOfBounds
          else if buf.length ≤ off % P.bs then .ok []
          else .ok ((buf.drop (off % P.bs)).take (min (buf.length - off % P.bs) len)))) F with ⟨buf, h1, h2⟩ | ⟨e, h1, h2⟩
    · rw [h2]; exact (H.read_sim _ _ F).1
    · rw [h2]; exact (H.read_sim _ _ F).1

omit H in
/-- The stored file is `f`, and its intact blocks are intact. -/
def Rel (P : BlockDev σ) (Inv : σ → Prop) (Good : σ → Nat → Bytes → Prop) (st : σ) (f : Spec.Frail) : Prop :=
  Inv st ∧ P.size st = f.content.length ∧ ∀ i, f.intact i → Good st i (Spec.block P.bs f.content i)

omit H in
theorem block_resize {bs : Nat} {c : Bytes} {m i : Nat} (h : (Spec.block bs c i).length = min bs (m - i * bs)) :
    Spec.block bs (Spec.resize c m) i = Spec.block bs c i := by
  rw [block_length] at h
  apply List.ext_getElem?
  intro t
  rw [block_get, block_get]
  split
  · rw [resize_get]
    list_cases
  · rfl

/-- One call. -/
theorem step {F : Faulty σ} {f : Spec.Frail} (hR : Rel P Inv Good F.st f) (call : Spec.FileCall) :
    ∃ f', f.Step P.bs call (D.call call F).1 f' ∧ Rel P Inv Good (D.call call F).2.st f' := by
  obtain ⟨hI, hsz, hG⟩ := hR
  have hb := H.bs_pos
  -- a failing call
  have fail : ∀ (st' : σ), Inv st' → (∀ i p, ¬ call.covers P.bs f.content.length i → Good F.st i p → Good st' i p) →
      ((∀ i, ¬ call.covers P.bs f.content.length i) → P.size st' = f.content.length) → ∀ e,
      ∃ f', f.Step P.bs call (.error e) f' ∧ Rel P Inv Good st' f' := by
    intro st' hI' hK hsame e
    have hB : ∀ i, f.intact i → ¬ call.covers P.bs f.content.length i →
        Spec.block P.bs (Spec.resize f.content (P.size st')) i = Spec.block P.bs f.content i :=
      fun i h1 h2 => block_resize (H.good_len hI' (hK i _ h2 (hG i h1)))
    refine ⟨⟨Spec.resize f.content (P.size st'), fun i => f.intact i ∧ ¬ call.covers P.bs f.content.length i⟩, ⟨fun _ => Iff.rfl, ?_, ?_⟩, hI', ?_, ?_⟩
    · exact fun i h => hB i h.1 h.2
    · intro h
      show Spec.resize _ _ = _
      rw [hsame h]; unfold Spec.resize; simp
    · rw [resize_length]
    · intro i h
      show Good st' i (Spec.block _ (Spec.resize _ _) i)
      rw [hB i h.1 h.2]; exact hK i _ h.2 (hG i h.1)
  cases call with
  | read off len =>
    rw [show D.call (.read off len) = (D.read off len).bind fun b => FIO.ret (Spec.Out.bytes b) from rfl]
    have hq := H.read_quiet (off := off) (len := len) (F := F)
    rcases FIO.bind_cases (D.read off len) (fun b => FIO.ret (Spec.Out.bytes b)) F with ⟨b, h1, h2⟩ | ⟨e, h1, h2⟩
    · rw [h2]
      refine ⟨f, ⟨rfl, fun i => by simp [Spec.FileCall.renews], fun hd => ?_⟩, ?_⟩
      · have := (H.read_good hI hsz (fun i h3 h4 => hG i (hd i h3 h4))).2 b h1
        show Spec.Out.bytes b = .bytes _
        rw [this]
      · show Rel P Inv Good (D.read off len F).2.st f
        rw [hq]; exact ⟨hI, hsz, hG⟩
    · rw [h2]; dsimp only
      rw [hq]
      exact fail F.st hI (fun _ _ _ h => h) (fun _ => hsz) e
  | write off d =>
    rw [show D.call (.write off d) = (D.write off d).bind fun _ => FIO.ret Spec.Out.done from rfl]
    by_cases hd : d = []
    · subst hd
      refine ⟨f, ⟨?_, ?_, ?_⟩, hI, hsz, hG⟩
      · rw [show (Spec.step f.content (Spec.FileCall.write off []).op).1 = Spec.write f.content off [] from rfl]
        unfold Spec.write; simp
      · intro i
        unfold Spec.FileCall.renews
        constructor
        · exact .inl
        · rintro (h | ⟨h3, h4⟩)
          · exact h
          · simp only [List.length_nil] at h4; omega
      · intro _; rfl
    · have hk := H.write_keep (off := off) hd hI hsz
      rcases FIO.bind_cases (D.write off d) (fun _ => FIO.ret Spec.Out.done) F with ⟨_, h1, h2⟩ | ⟨e, h1, h2⟩
      · rw [h2]
        have hgd := H.write_good hd hI hsz h1
        refine ⟨⟨Spec.write f.content off d, fun i => f.intact i ∨ (Spec.FileCall.write off d).renews P.bs f.content.length i⟩,
          ⟨rfl, fun _ => Iff.rfl, fun _ => rfl⟩, hk.1, hgd.1, fun i hi => hgd.2 i (hi.imp (hG i) id)⟩
      · rw [h2]
        refine fail _ hk.1 hk.2 (fun h => ?_) e
        exfalso
        refine h (min off f.content.length / P.bs) ⟨hd, le_rfl, ?_⟩
        have := Nat.div_mul_le_self (min off f.content.length) P.bs
        have := List.length_pos_iff.2 hd
        omega
  | resize n =>
    rw [show D.call (.resize n) = (D.size.bind fun cur => D.uncheckedResize cur n).bind fun _ => FIO.ret Spec.Out.done from rfl]
    obtain ⟨hs1, hs2⟩ := H.size_sim F
    rcases FIO.bind_cases D.size (fun cur => D.uncheckedResize cur n) F with ⟨cur, h1, h2⟩ | ⟨e, h1, h2⟩
    · have hcur : cur = f.content.length := (hs2 cur h1).trans hsz
      subst hcur
      have hk := H.rs_keep (n := n) (cur := f.content.length) (F := (D.size F).2) (by rw [hs1]; exact hI) (by rw [hs1]; exact hsz)
      rcases FIO.bind_cases (D.size.bind fun cur => D.uncheckedResize cur n) (fun _ => FIO.ret Spec.Out.done) F with ⟨_, h3, h4⟩ | ⟨e, h3, h4⟩
      · rw [h4]
        rw [h2] at h3
        have hgd := H.rs_good (by rw [hs1]; exact hI) (by rw [hs1]; exact hsz) h3
        refine ⟨⟨Spec.resize f.content n, fun i => f.intact i ∨ (Spec.FileCall.resize n).renews P.bs f.content.length i⟩,
          ⟨rfl, fun _ => Iff.rfl, fun _ => rfl⟩, ?_⟩
        show Rel P Inv Good ((D.size.bind fun cur => D.uncheckedResize cur n) F).2.st _
        rw [h2]
        refine ⟨hk.1, ?_, fun i hi => hgd.2 i ?_⟩
        · rw [hgd.1, resize_length]
        · rw [hs1]; exact hi.imp (hG i) id
      · rw [h4]; dsimp only
        rw [h2]
        rw [h2] at h3
        refine fail _ hk.1 (fun i p hi hg => hk.2 i p ?_ (by rw [hs1]; exact hg)) (fun h => ?_) e
        · unfold Spec.FileCall.covers at hi
          by_contra hc
          have hnl : n ≠ f.content.length := by
            intro h
            rw [h, FaultDev.uncheckedResize, if_pos rfl] at h3
            cases h3
          exact hi ⟨hnl, by omega, by omega⟩
        · have hnl : n ≠ f.content.length := by
            intro h
            rw [h, FaultDev.uncheckedResize, if_pos rfl] at h3
            cases h3
          exfalso
          refine h (min n f.content.length / P.bs) ⟨hnl, le_rfl, ?_⟩
          have := Nat.div_mul_le_self (min n f.content.length) P.bs
          omega
    · rcases FIO.bind_cases (D.size.bind fun cur => D.uncheckedResize cur n) (fun _ => FIO.ret Spec.Out.done) F with ⟨_, h3, h4⟩ | ⟨e, h3, h4⟩
      · rw [h2] at h3; cases h3
      · rw [h4]; dsimp only
        rw [h2]; dsimp only
        rw [hs1]
        exact fail F.st hI (fun _ _ _ h => h) (fun _ => hsz) _
  | size =>
    rw [show D.call .size = D.size.bind fun n => FIO.ret (Spec.Out.size n) from rfl]
    obtain ⟨hs1, hs2⟩ := H.size_sim F
    rcases FIO.bind_cases D.size (fun n => FIO.ret (Spec.Out.size n)) F with ⟨cur, h1, h2⟩ | ⟨e, h1, h2⟩
    · rw [h2]
      have hcur : cur = f.content.length := (hs2 cur h1).trans hsz
      refine ⟨f, ⟨rfl, fun i => by simp [Spec.FileCall.renews], fun _ => ?_⟩, ?_⟩
      · show Spec.Out.size cur = .size _
        rw [hcur]
      · show Rel P Inv Good (D.size F).2.st f
        rw [hs1]; exact ⟨hI, hsz, hG⟩
    · rw [h2]; dsimp only
      rw [hs1]
      exact fail F.st hI (fun _ _ _ h => h) (fun _ => hsz) e

/-- Histories. -/
theorem run : ∀ (calls : List Spec.FileCall) {F : Faulty σ} {f : Spec.Frail}, Rel P Inv Good F.st f →
    ∃ f', Spec.Frail.Run P.bs f (D.run F calls).1 f' ∧ Rel P Inv Good (D.run F calls).2.st f' := by
  intro calls
  induction calls with
  | nil => intro F f hR; exact ⟨f, .nil f, hR⟩
  | cons c rest ih =>
    intro F f hR
    obtain ⟨f1, h1, h2⟩ := H.step hR c
    obtain ⟨f2, h3, h4⟩ := ih h2
    exact ⟨f2, .cons h1 h3, h4⟩

end FaultFrame
end Securefs

import Verif.Spec.FileAttr
import Verif.Proofs.Encoding
/-!
# Attributes: the header round trip and the refinement
-/

namespace Securefs

open Spec

/-- Reading where a buffer was just written. -/
theorem drop_memcpyAt_same {buf src out : Bytes} {pos : Nat} (h : memcpyAt buf pos src = .ok out) :
    ∃ rest, out.drop pos = src ++ rest := by
  unfold memcpyAt at h
  split at h
  · rename_i hl
    cases h
    refine ⟨buf.drop (pos + src.length), ?_⟩
    rw [List.append_assoc, List.drop_append_of_le_length (by rw [List.length_take]; omega), List.drop_take_self, List.nil_append]
  · cases h

theorem length_memcpyAt {buf src out : Bytes} {pos : Nat} (h : memcpyAt buf pos src = .ok out) : out.length = buf.length := by
  unfold memcpyAt at h
  split at h
  · cases h
    simp only [List.length_append, List.length_take, List.length_drop]; omega
  · cases h

theorem memcpyAt_fits {buf src : Bytes} {pos : Nat} (h : pos + src.length ≤ buf.length) : ∃ out, memcpyAt buf pos src = .ok out := by
  unfold memcpyAt; rw [if_pos h]; exact ⟨_, rfl⟩

theorem getElem?_memcpyAt_other {buf src out : Bytes} {pos i : Nat} (h : memcpyAt buf pos src = .ok out)
    (hi : i < pos ∨ pos + src.length ≤ i) : out[i]? = buf[i]? := by
  unfold memcpyAt at h
  split at h
  · rename_i hl
    cases h
    rcases hi with hi | hi
    · rw [List.append_assoc, List.getElem?_append_left (by rw [List.length_take]; omega), List.getElem?_take, if_pos hi]
    · rw [List.getElem?_append_right (by simp only [List.length_append, List.length_take]; omega), List.getElem?_drop]
      congr 1
      simp only [List.length_append, List.length_take]; omega
  · cases h

/-- `fromLE` looks at `w` bytes only. -/
theorem fromLE_congr (w : Nat) (a b : Bytes) (hl : w ≤ a.length) (hl' : w ≤ b.length) (h : ∀ i, i < w → a[i]? = b[i]?) : fromLE w a = fromLE w b := by
  unfold fromLE
  rw [if_neg (by omega), if_neg (by omega)]
  congr 1
  have key : ∀ (l : List Nat) (v : Nat), (∀ i ∈ l, i < w) →
      l.foldl (fun v i => v ||| (((a[i]?.map UInt8.toNat).getD 0) <<< (8 * i))) v =
      l.foldl (fun v i => v ||| (((b[i]?.map UInt8.toNat).getD 0) <<< (8 * i))) v := by
    intro l
    induction l with
    | nil => intro v _; rfl
    | cons x l ih =>
      intro v hx
      simp only [List.foldl_cons]
      rw [h x (hx x (by simp))]
      exact ih _ fun i hi => hx i (List.mem_cons_of_mem _ hi)
  exact key _ _ fun i hi => List.mem_range.mp hi

namespace FileAttr

/-- Two fields do not overlap. -/
def Apart (x y : Nat × Nat × Nat) : Prop := x.1 + x.2.1 ≤ y.1 ∨ y.1 + y.2.1 ≤ x.1

theorem writeFields_spec (fs : List (Nat × Nat × Nat)) : ∀ (buf : Bytes), (∀ f ∈ fs, f.1 + f.2.1 ≤ buf.length) → fs.Pairwise Apart →
    ∃ out, writeFields buf fs = .ok out ∧ out.length = buf.length ∧
      (∀ i, (∀ f ∈ fs, i < f.1 ∨ f.1 + f.2.1 ≤ i) → out[i]? = buf[i]?) ∧
      ∀ f ∈ fs, f.2.2 < 2 ^ (8 * f.2.1) → fromLE f.2.1 (out.drop f.1) = .ok f.2.2 := by
  induction fs with
  | nil => intro buf _ _; exact ⟨buf, rfl, rfl, fun _ _ => rfl, by simp⟩
  | cons f fs ih =>
    intro buf hb hp
    obtain ⟨off, w, v⟩ := f
    have hb0 : off + w ≤ buf.length := hb (off, w, v) (by simp)
    obtain ⟨b1, h1⟩ := memcpyAt_fits (buf := buf) (src := toLE w v) (pos := off) (by rw [toLE_length]; exact hb0)
    have hl1 := length_memcpyAt h1
    rw [List.pairwise_cons] at hp
    obtain ⟨out, g1, g2, g3, g4⟩ := ih b1 (by intro x hx; rw [hl1]; exact hb x (List.mem_cons_of_mem _ hx)) hp.2
    refine ⟨out, ?_, by rw [g2, hl1], ?_, ?_⟩
    · simp only [writeFields, h1]; exact g1
    · intro i hi
      rw [g3 i fun x hx => hi x (List.mem_cons_of_mem _ hx), getElem?_memcpyAt_other h1]
      rw [toLE_length]; exact hi (off, w, v) (by simp)
    · intro x hx hv
      rcases List.mem_cons.mp hx with rfl | hx
      · obtain ⟨rest, hr⟩ := drop_memcpyAt_same h1
        have e1 : fromLE w (b1.drop off) = .ok v := by rw [hr]; exact fromLE_toLE w v hv rest
        rw [← e1]
        refine fromLE_congr w _ _ (by rw [List.length_drop, g2, hl1]; omega) (by rw [List.length_drop, hl1]; omega) ?_
        intro i hi
        rw [List.getElem?_drop, List.getElem?_drop]
        refine g3 _ ?_
        intro y hy
        have := hp.1 y hy
        unfold Apart at this
        dsimp only at this
        omega
      · exact g4 x hx hv

instance (x y : Nat × Nat × Nat) : Decidable (Apart x y) := by unfold Apart; infer_instance

theorem headerFields_apart (st : Bool) (a : FileAttr) : (headerFields st a).Pairwise Apart := by
  cases st <;> simp [headerFields, Apart, atimeOffset, mtimeOffset, ctimeOffset, btimeOffset, numFlags]

theorem headerFields_fit (st : Bool) (a : FileAttr) : ∀ f ∈ headerFields st a, f.1 + f.2.1 ≤ (zeros (headerSize st)).length ∧ f.2.2 < 2 ^ (8 * f.2.1) := by
  have hz : (zeros (headerSize st)).length = headerSize st := by simp [zeros]
  rw [hz]
  have h32 : ∀ v : UInt32, v.toNat < 2 ^ (8 * 4) := fun v => v.toNat_lt
  have h64 : ∀ v : UInt64, v.toNat < 2 ^ (8 * 8) := fun v => v.toNat_lt
  intro f hf
  unfold headerFields at hf
  rcases List.mem_append.mp hf with hf | hf
  · have hs : 32 ≤ headerSize st := by cases st <;> decide
    simp only [List.mem_cons, List.not_mem_nil, or_false] at hf
    rcases hf with rfl | rfl | rfl | rfl | rfl | rfl | rfl <;> exact ⟨Nat.le_trans (Nat.le_of_ble_eq_true rfl) hs, h32 _⟩
  · cases st with
    | false => cases hf
    | true =>
      simp only [if_true, List.mem_append, List.mem_cons, List.not_mem_nil, or_false] at hf
      rcases hf with ((hf | hf) | hf) | hf <;> rcases hf with rfl | rfl <;>
        first | exact ⟨Nat.le_of_ble_eq_true rfl, h64 _⟩ | exact ⟨Nat.le_of_ble_eq_true rfl, h32 _⟩

theorem encodeHeader_ok (st : Bool) (a : FileAttr) : ∃ h, encodeHeader st a = .ok h ∧ h.length = headerSize st ∧
    ∀ f ∈ headerFields st a, fromLE f.2.1 (h.drop f.1) = .ok f.2.2 := by
  obtain ⟨h, h1, h2, _, h4⟩ := writeFields_spec (headerFields st a) (zeros (headerSize st)) (fun f hf => (headerFields_fit st a f hf).1) (headerFields_apart st a)
  exact ⟨h, h1, by rw [h2]; simp [zeros], fun f hf => h4 f hf (headerFields_fit st a f hf).2⟩

theorem nsec_roundtrip {t : TimeSpec} (h : ValidTime t) : (UInt64.ofNat t.nsec.toUInt64.toUInt32.toNat).toInt64 = t.nsec := by
  obtain ⟨h1, h2⟩ := h
  have h0 : (0 : Int64) ≤ t.nsec := by rw [Int64.le_iff_toInt_le]; exact h1
  have e1 : t.nsec.toUInt64.toNat = t.nsec.toInt.toNat := Int64.toNat_toUInt64_of_le h0
  have e2 : t.nsec.toUInt64.toUInt32.toNat = t.nsec.toUInt64.toNat := by
    rw [UInt64.toNat_toUInt32]
    refine Nat.mod_eq_of_lt ?_
    rw [e1]; omega
  rw [e2, UInt64.ofNat_toNat, Int64.toInt64_toUInt64]

/-- The times can be stored, or are not there. -/
def TimesOk (st : Bool) (a : FileAttr) : Prop :=
  if st then ValidTime a.atime ∧ ValidTime a.mtime ∧ ValidTime a.ctime ∧ ValidTime a.btime
  else a.atime = .zero ∧ a.mtime = .zero ∧ a.ctime = .zero ∧ a.btime = .zero

theorem field32_of {h : Bytes} {off : Nat} {v : UInt32} (e : fromLE 4 (h.drop off) = .ok v.toNat) : field32 h off = .ok v := by
  unfold field32
  rw [e]
  simp [Except.map]

theorem fieldTime_of {h : Bytes} {off : Nat} {t : TimeSpec} (hv : ValidTime t) (e : fromLE 8 (h.drop off) = .ok t.sec.toUInt64.toNat)
    (e' : fromLE 4 (h.drop (off + 8)) = .ok t.nsec.toUInt64.toUInt32.toNat) : fieldTime h off = .ok t := by
  unfold fieldTime
  rw [e, e']
  show Except.ok (TimeSpec.mk _ _) = _
  rw [UInt64.ofNat_toNat, Int64.toInt64_toUInt64, nsec_roundtrip hv]

/-- What `flush` writes reads back. -/
theorem header_roundtrip (st : Bool) (a : FileAttr) (ht : TimesOk st a) : ∃ h, encodeHeader st a = .ok h ∧ h.length = headerSize st ∧
    readHeader st (some h) = .ok { a with dirty := false } := by
  obtain ⟨h, h1, h2, h3⟩ := encodeHeader_ok st a
  refine ⟨h, h1, h2, ?_⟩
  have f0 := field32_of (h3 (0, 4, a.mode.toNat) (by simp [headerFields]))
  have f1 := field32_of (h3 (4, 4, a.uid.toNat) (by simp [headerFields]))
  have f2 := field32_of (h3 (8, 4, a.gid.toNat) (by simp [headerFields]))
  have f3 := field32_of (h3 (12, 4, a.nlink.toNat) (by simp [headerFields]))
  have f4 := field32_of (h3 (16, 4, a.rootPage.toNat) (by simp [headerFields]))
  have f5 := field32_of (h3 (20, 4, a.startFree.toNat) (by simp [headerFields]))
  have f6 := field32_of (h3 (24, 4, a.numFree.toNat) (by simp [headerFields]))
  dsimp only at f0 f1 f2 f3 f4 f5 f6
  unfold readHeader
  simp only [f0, f1, f2, f3, f4, f5, f6]
  cases st with
  | false =>
    obtain ⟨t1, t2, t3, t4⟩ := ht
    show Except.ok _ = _
    simp only [blank, ← t1]
    rw [t1, ← t2]
    obtain ⟨mode, uid, gid, nlink, rp, sf, nf, at', mt, ct, bt, d⟩ := a
    dsimp only at t1 t2 t3 t4 ⊢
    subst t1 t2 t3 t4
    rfl
  | true =>
    obtain ⟨t1, t2, t3, t4⟩ := ht
    have hm : ∀ f, f ∈ [(atimeOffset, 8, a.atime.sec.toUInt64.toNat), (atimeOffset + 8, 4, a.atime.nsec.toUInt64.toUInt32.toNat),
        (mtimeOffset, 8, a.mtime.sec.toUInt64.toNat), (mtimeOffset + 8, 4, a.mtime.nsec.toUInt64.toUInt32.toNat),
        (ctimeOffset, 8, a.ctime.sec.toUInt64.toNat), (ctimeOffset + 8, 4, a.ctime.nsec.toUInt64.toUInt32.toNat),
        (btimeOffset, 8, a.btime.sec.toUInt64.toNat), (btimeOffset + 8, 4, a.btime.nsec.toUInt64.toUInt32.toNat)] → f ∈ headerFields true a :=
      fun f hf => List.mem_append_right _ hf
    have g0 := fieldTime_of t1 (h3 (atimeOffset, 8, a.atime.sec.toUInt64.toNat) (hm _ (by simp))) (h3 (atimeOffset + 8, 4, a.atime.nsec.toUInt64.toUInt32.toNat) (hm _ (by simp)))
    have g1 := fieldTime_of t2 (h3 (mtimeOffset, 8, a.mtime.sec.toUInt64.toNat) (hm _ (by simp))) (h3 (mtimeOffset + 8, 4, a.mtime.nsec.toUInt64.toUInt32.toNat) (hm _ (by simp)))
    have g2 := fieldTime_of t3 (h3 (ctimeOffset, 8, a.ctime.sec.toUInt64.toNat) (hm _ (by simp))) (h3 (ctimeOffset + 8, 4, a.ctime.nsec.toUInt64.toUInt32.toNat) (hm _ (by simp)))
    have g3 := fieldTime_of t4 (h3 (btimeOffset, 8, a.btime.sec.toUInt64.toNat) (hm _ (by simp))) (h3 (btimeOffset + 8, 4, a.btime.nsec.toUInt64.toUInt32.toNat) (hm _ (by simp)))
    dsimp only at g0 g1 g2 g3
    simp only [g0, g1, g2, g3]
    rfl

/-! ## The events -/

/-- An event leaves the attributes alone or sets the dirty mark, and keeps the times storable. -/
def Keeps (st : Bool) (a a' : FileAttr) : Prop := (a' = a ∨ a'.dirty = true) ∧ TimesOk st a'

theorem keeps_refl {st : Bool} {a : FileAttr} (h : TimesOk st a) : Keeps st a a := ⟨Or.inl rfl, h⟩

theorem touchCtime_ok {st : Bool} {now : TimeSpec} {a : FileAttr} (hn : ValidTime now) (h : TimesOk st a) : TimesOk st (touchCtime st now a) := by
  cases st with
  | false => exact h
  | true => exact ⟨h.1, h.2.1, hn, h.2.2.2⟩

theorem keeps_touchMtime {st : Bool} {now : TimeSpec} {a : FileAttr} (hn : ValidTime now) (h : TimesOk st a) : Keeps st a (touchMtime st now a) := by
  cases st with
  | false => exact keeps_refl h
  | true => exact ⟨Or.inr rfl, h.1, hn, hn, h.2.2.2⟩

theorem keeps_touchAtime {st : Bool} {now : TimeSpec} {a : FileAttr} (hn : ValidTime now) (h : TimesOk st a) : Keeps st a (touchAtime st now a) := by
  unfold touchAtime
  split
  · rename_i hc
    cases st with
    | false => simp at hc
    | true => exact ⟨Or.inr rfl, hn, h.2⟩
  · exact keeps_refl h

theorem keeps_setMode {st : Bool} {now : TimeSpec} {a : FileAttr} (v : UInt32) (hn : ValidTime now) (h : TimesOk st a) : Keeps st a (setMode st now v a) := by
  unfold setMode
  split
  · exact keeps_refl h
  · exact ⟨Or.inr rfl, touchCtime_ok (a := { a with mode := v }) hn h⟩

theorem keeps_setUid {st : Bool} {now : TimeSpec} {a : FileAttr} (v : UInt32) (hn : ValidTime now) (h : TimesOk st a) : Keeps st a (setUid st now v a) := by
  unfold setUid
  split
  · exact keeps_refl h
  · exact ⟨Or.inr rfl, touchCtime_ok (a := { a with uid := v }) hn h⟩

theorem keeps_setGid {st : Bool} {now : TimeSpec} {a : FileAttr} (v : UInt32) (hn : ValidTime now) (h : TimesOk st a) : Keeps st a (setGid st now v a) := by
  unfold setGid
  split
  · exact keeps_refl h
  · exact ⟨Or.inr rfl, touchCtime_ok (a := { a with gid := v }) hn h⟩

theorem keeps_setNlink {st : Bool} {now : TimeSpec} {a : FileAttr} (v : UInt32) (hn : ValidTime now) (h : TimesOk st a) : Keeps st a (setNlink st now v a) := by
  unfold setNlink
  split
  · exact keeps_refl h
  · exact ⟨Or.inr rfl, touchCtime_ok (a := { a with nlink := v }) hn h⟩

theorem keeps_trans {st : Bool} {a b c : FileAttr} (h : Keeps st a b) (h' : Keeps st b c) (hd : c = b ∨ c.dirty = true) : Keeps st a c := by
  refine ⟨?_, h'.2⟩
  rcases hd with rfl | hd
  · exact h.1
  · exact Or.inr hd

theorem keeps_chown {st : Bool} {now : TimeSpec} {a : FileAttr} (u g : UInt32) (hn : ValidTime now) (h : TimesOk st a) : Keeps st a (chown st now u g a) := by
  unfold chown
  dsimp only
  have h1 : Keeps st a (if u ≠ 0xffffffff then setUid st now u a else a) := by
    split
    · exact keeps_setUid u hn h
    · exact keeps_refl h
  split
  · have h2 := keeps_setGid (st := st) (now := now) g hn h1.2
    exact keeps_trans h1 h2 h2.1
  · exact h1

theorem keeps_utimens {st : Bool} {g : TimeSpec} {a : FileAttr} (ts : Option (TimeSpec × TimeSpec)) (hv : AttrOpValid (.utimens g ts)) (h : TimesOk st a) :
    Keeps st a (utimens st g ts a) := by
  cases st with
  | false => exact keeps_refl h
  | true =>
    cases ts with
    | none => exact ⟨Or.inr rfl, hv, hv, hv, h.2.2.2⟩
    | some p =>
      obtain ⟨x, y⟩ := p
      exact ⟨Or.inr rfl, hv.2.1, hv.2.2, hv.1, h.2.2.2⟩

end FileAttr

namespace AttrFile

open FileAttr

/-- What is stored is what is shown, unless the dirty mark is set. -/
def Inv (st : Bool) (f : AttrFile) : Prop :=
  TimesOk st f.attr ∧ (f.attr.dirty = false → ∃ h, f.stored = some h ∧ readHeader st (some h) = .ok f.attr)

theorem inv_of_keeps {st : Bool} {f : AttrFile} {a' : FileAttr} (hi : Inv st f) (hk : Keeps st f.attr a') : Inv st { f with attr := a' } := by
  refine ⟨hk.2, ?_⟩
  intro hd
  rcases hk.1 with h | h
  · dsimp only at hd ⊢
    subst h
    exact hi.2 hd
  · dsimp only at hd
    rw [h] at hd; cases hd

theorem flush_ok {st : Bool} {f : AttrFile} (hi : Inv st f) : ∃ h, f.attr.flush st f.stored = .ok ({ f.attr with dirty := false }, some h) ∧
    readHeader st (some h) = .ok { f.attr with dirty := false } := by
  unfold FileAttr.flush
  by_cases hd : f.attr.dirty = true
  · obtain ⟨h, h1, _, h2⟩ := header_roundtrip st f.attr hi.1
    rw [if_pos hd, h1]
    exact ⟨h, rfl, h2⟩
  · have hd' : f.attr.dirty = false := by simpa using hd
    obtain ⟨h, h1, h2⟩ := hi.2 hd'
    rw [if_neg hd, h1]
    have e : ({ f.attr with dirty := false } : FileAttr) = f.attr := by
      obtain ⟨a, s⟩ := f
      obtain ⟨⟩ := a
      dsimp only at hd' ⊢
      rw [hd']
    rw [e]
    exact ⟨h, rfl, h2⟩

theorem uint32_eq_iff (a b : UInt32) : a = b ↔ a.toNat = b.toNat := UInt32.toNat_inj.symm

theorem and_high (x : Nat) (hx : x < 2 ^ 32) : x &&& 4294966784 = x / 512 * 512 := by
  apply Nat.eq_of_testBit_eq
  intro i
  have hc : (4294966784 : Nat) = 8388607 * 2 ^ 9 := by decide
  have hs : (8388607 : Nat) = 2 ^ 23 - 1 := by decide
  rw [Nat.testBit_and, hc, Nat.testBit_mul_two_pow, hs, Nat.testBit_two_pow_sub_one, show (512 : Nat) = 2 ^ 9 from rfl, Nat.testBit_mul_two_pow,
    Nat.testBit_div_two_pow]
  by_cases h9 : 9 ≤ i
  · rw [show i - 9 + 9 = i by omega]
    by_cases h32 : i < 32
    · simp [h9, show i - 9 < 23 by omega]
    · have : x.testBit i = false := Nat.testBit_lt_two_pow (Nat.lt_of_lt_of_le hx (Nat.pow_le_pow_right (by decide) (by omega)))
      simp [this]
  · simp [h9]

theorem chmod_bits (a m : UInt32) : ((a &&& ~~~0x1ff) ||| (m &&& 0x1ff)).toNat = a.toNat / 512 * 512 + m.toNat % 512 := by
  have h1 : (m &&& (0x1ff : UInt32)).toNat = m.toNat % 512 := by
    rw [UInt32.toNat_and]
    exact Nat.and_two_pow_sub_one_eq_mod m.toNat 9
  have h2 : (a &&& ~~~(0x1ff : UInt32)).toNat = a.toNat / 512 * 512 := by
    rw [UInt32.toNat_and]
    exact and_high a.toNat a.toNat_lt
  rw [UInt32.toNat_or, h1, h2]
  have := Nat.two_pow_add_eq_or_of_lt (i := 9) (b := m.toNat % 512) (by omega) (a.toNat / 512)
  rw [Nat.mul_comm, ← this]

theorem attrs_changed {st : Bool} {now : TimeSpec} {a : FileAttr} :
    attrsOf st { touchCtime st now a with dirty := true } = Attrs.changed (stamp now) (attrsOf st a) := by
  cases st <;> rfl

theorem attrs_dirty (st : Bool) (a : FileAttr) (b : Bool) : attrsOf st { a with dirty := b } = attrsOf st a := rfl

theorem changed_twice (now : Int × Int) (a : Attrs) : Attrs.changed now (Attrs.changed now a) = Attrs.changed now a := by
  unfold Attrs.changed
  cases a.times <;> rfl

theorem chown_view (st : Bool) (now : TimeSpec) (u g : UInt32) (a : FileAttr) :
    attrsOf st (chown st now u g a) = attrStep (attrsOf st a) (stamp now) (.chown u g) := by
  have hu : (u.toNat = keepOwner) ↔ u = 0xffffffff := by
    rw [uint32_eq_iff]; rfl
  have hg : (g.toNat = keepOwner) ↔ g = 0xffffffff := by
    rw [uint32_eq_iff]; rfl
  -- the values asked for
  let u' := if u = 0xffffffff then a.uid else u
  let g' := if g = 0xffffffff then a.gid else g
  have e : chown st now u g a = setGid st now g' (setUid st now u' a) := by
    unfold chown
    dsimp only
    have e1 : (if u ≠ 0xffffffff then setUid st now u a else a) = setUid st now u' a := by
      by_cases h : u = 0xffffffff
      · rw [if_neg (by simpa using h)]
        simp only [u', if_pos h, setUid, if_true]
      · rw [if_pos h]; simp only [u', if_neg h]
    have hgid : (setUid st now u' a).gid = a.gid := by
      unfold setUid; split
      · rfl
      · cases st <;> rfl
    rw [e1]
    by_cases h : g = 0xffffffff
    · rw [if_neg (by simpa using h)]
      simp only [g', if_pos h, setGid]
      rw [if_pos hgid]
    · rw [if_pos h]; simp only [g', if_neg h]
  rw [e]
  have hspec : attrStep (attrsOf st a) (stamp now) (.chown u g) =
      (if u' = a.uid ∧ g' = a.gid then attrsOf st a else Attrs.changed (stamp now) { attrsOf st a with uid := u'.toNat, gid := g'.toNat }) := by
    have e1 : (if u.toNat = keepOwner then (attrsOf st a).uid else u.toNat) = u'.toNat := by
      by_cases h : u = 0xffffffff
      · rw [if_pos (hu.mpr h)]; simp only [u', if_pos h]; rfl
      · rw [if_neg (fun x => h (hu.mp x))]; simp only [u', if_neg h]
    have e2 : (if g.toNat = keepOwner then (attrsOf st a).gid else g.toNat) = g'.toNat := by
      by_cases h : g = 0xffffffff
      · rw [if_pos (hg.mpr h)]; simp only [g', if_pos h]; rfl
      · rw [if_neg (fun x => h (hg.mp x))]; simp only [g', if_neg h]
    unfold attrStep
    dsimp only
    rw [e1, e2]
    have e3 : ({ attrsOf st a with uid := u'.toNat, gid := g'.toNat } = attrsOf st a) ↔ (u' = a.uid ∧ g' = a.gid) := by
      constructor
      · intro h
        have h1 := congrArg Attrs.uid h
        have h2 := congrArg Attrs.gid h
        exact ⟨UInt32.toNat_inj.mp h1, UInt32.toNat_inj.mp h2⟩
      · rintro ⟨h1, h2⟩
        rw [h1, h2]; rfl
    by_cases h : u' = a.uid ∧ g' = a.gid
    · rw [if_pos (e3.mpr h), if_pos h]
    · rw [if_neg (fun x => h (e3.mp x)), if_neg h]
  rw [hspec]
  by_cases h1 : a.uid = u'
  · have e1 : setUid st now u' a = a := by unfold setUid; rw [if_pos h1]
    rw [e1]
    by_cases h2 : a.gid = g'
    · unfold setGid
      rw [if_pos h2, if_pos ⟨h1.symm, h2.symm⟩]
    · rw [if_neg (fun x => h2 x.2.symm)]
      unfold setGid
      rw [if_neg h2, attrs_changed, ← h1]
      rfl
  · rw [if_neg (fun x => h1 x.1.symm)]
    have e1 : setUid st now u' a = { touchCtime st now { a with uid := u' } with dirty := true } := by unfold setUid; rw [if_neg h1]
    have hgid : (setUid st now u' a).gid = a.gid := by rw [e1]; cases st <;> rfl
    have e2 : attrsOf st (setUid st now u' a) = Attrs.changed (stamp now) { attrsOf st a with uid := u'.toNat } := by
      rw [e1, attrs_changed]; rfl
    by_cases h2 : a.gid = g'
    · unfold setGid
      rw [if_pos (hgid.trans h2), e2, ← h2]
      rfl
    · unfold setGid
      rw [if_neg (fun x => h2 (hgid.symm.trans x)), attrs_changed]
      have e3 : attrsOf st { setUid st now u' a with gid := g' } = { attrsOf st (setUid st now u' a) with gid := g'.toNat } := rfl
      rw [e3, e2]
      exact changed_twice (stamp now) { attrsOf st a with uid := u'.toNat, gid := g'.toNat }

/-- One event on the real file is the event on the ideal one. -/
theorem step_ok {st : Bool} {f : AttrFile} (hi : Inv st f) (now : TimeSpec) (hn : ValidTime now) (op : AttrOp) (hv : AttrOpValid op) :
    ∃ f', step st f now op = .ok f' ∧ Inv st f' ∧ attrsOf st f'.attr = attrStep (attrsOf st f.attr) (stamp now) op := by
  cases op with
  | read =>
    refine ⟨_, rfl, inv_of_keeps hi (keeps_touchAtime hn hi.1), ?_⟩
    cases st with
    | false => rfl
    | true =>
      show attrsOf true (touchAtime true now f.attr) = _
      unfold touchAtime
      simp only [attrStep, attrsOf, Option.map_some, if_true, stamp, Bool.true_and, Bool.or_eq_true, decide_eq_true_eq, Int64.lt_iff_toInt_lt]
      split <;> rfl
  | write =>
    refine ⟨_, rfl, inv_of_keeps hi (keeps_touchMtime hn hi.1), ?_⟩
    cases st <;> rfl
  | chmod m =>
    refine ⟨_, rfl, inv_of_keeps hi (keeps_setMode _ hn hi.1), ?_⟩
    show attrsOf st (setMode st now _ f.attr) = _
    unfold setMode attrStep
    dsimp only
    rw [show (attrsOf st f.attr).mode = f.attr.mode.toNat from rfl, ← chmod_bits]
    by_cases h : f.attr.mode = (f.attr.mode &&& ~~~0x1ff) ||| (m &&& 0x1ff)
    · rw [if_pos h, if_pos (by rw [← h])]
    · rw [if_neg h, if_neg (fun hx => h ((uint32_eq_iff _ _).mpr hx.symm)), attrs_changed]
      rfl
  | chown u g =>
    refine ⟨_, rfl, inv_of_keeps hi (keeps_chown u g hn hi.1), ?_⟩
    exact chown_view st now u g f.attr
  | setNlink v =>
    refine ⟨_, rfl, inv_of_keeps hi (keeps_setNlink v hn hi.1), ?_⟩
    show attrsOf st (setNlink st now v f.attr) = _
    unfold setNlink attrStep
    dsimp only
    by_cases h : f.attr.nlink = v
    · rw [if_pos h, if_pos (by rw [← h]; rfl)]
    · rw [if_neg h, if_neg (fun hx => h ((uint32_eq_iff _ _).mpr hx.symm)), attrs_changed]
      rfl
  | unlink =>
    refine ⟨_, rfl, inv_of_keeps hi ⟨Or.inr rfl, hi.1⟩, ?_⟩
    show attrsOf st (unlink f.attr) = _
    unfold unlink attrStep
    have : (f.attr.nlink - 1).toNat = (f.attr.nlink.toNat + (2 ^ 32 - 1)) % 2 ^ 32 := by
      rw [UInt32.toNat_sub]
      congr 1
      rw [Nat.add_comm]; rfl
    simp only [attrsOf, this]
  | setRootPage v => exact ⟨_, rfl, inv_of_keeps hi ⟨Or.inr rfl, hi.1⟩, rfl⟩
  | setStartFree v => exact ⟨_, rfl, inv_of_keeps hi ⟨Or.inr rfl, hi.1⟩, rfl⟩
  | setNumFree v => exact ⟨_, rfl, inv_of_keeps hi ⟨Or.inr rfl, hi.1⟩, rfl⟩
  | utimens g ts =>
    refine ⟨_, rfl, inv_of_keeps hi (keeps_utimens ts hv hi.1), ?_⟩
    cases st with
    | false => cases ts <;> rfl
    | true => cases ts <;> rfl
  | flush =>
    obtain ⟨h, h1, h2⟩ := flush_ok hi
    refine ⟨{ attr := { f.attr with dirty := false }, stored := some h }, ?_, ⟨hi.1, fun _ => ⟨h, rfl, h2⟩⟩, rfl⟩
    simp only [step, h1]
  | reload =>
    obtain ⟨h, h1, h2⟩ := flush_ok hi
    refine ⟨{ attr := { f.attr with dirty := false }, stored := some h }, ?_, ⟨hi.1, fun _ => ⟨h, rfl, h2⟩⟩, rfl⟩
    simp only [step, h1, h2]

theorem run_ok {st : Bool} (ops : List (TimeSpec × AttrOp)) : ∀ {f : AttrFile}, Inv st f → (∀ p ∈ ops, ValidTime p.1 ∧ AttrOpValid p.2) →
    ∃ f', run st f ops = .ok f' ∧ Inv st f' ∧ attrsOf st f'.attr = attrRun (attrsOf st f.attr) ops := by
  induction ops with
  | nil => intro f hi _; exact ⟨f, rfl, hi, rfl⟩
  | cons p ops ih =>
    intro f hi hv
    obtain ⟨now, op⟩ := p
    obtain ⟨f1, h1, h2, h3⟩ := step_ok hi now (hv (now, op) (by simp)).1 op (hv (now, op) (by simp)).2
    obtain ⟨f2, g1, g2, g3⟩ := ih h2 fun q hq => hv q (List.mem_cons_of_mem _ hq)
    refine ⟨f2, ?_, g2, ?_⟩
    · simp only [run, h1]; exact g1
    · rw [g3, h3]; rfl

theorem created_ok (st : Bool) (now : TimeSpec) (hn : ValidTime now) (osUid osGid mode uid gid : UInt32) :
    ∃ f, created st now osUid osGid mode uid gid = .ok f ∧ Inv st f := by
  refine ⟨_, rfl, ?_, ?_⟩
  · cases st with
    | false => exact ⟨rfl, rfl, rfl, rfl⟩
    | true => exact ⟨hn, hn, hn, hn⟩
  · intro h; cases h

end AttrFile
end Securefs

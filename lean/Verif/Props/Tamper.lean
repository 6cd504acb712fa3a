import Verif.Props.Toy
import Verif.Proofs.Tamper
/-!
# Properties C04, C05, C06: what an attacker who writes the backing files can achieve

Cryptographic strength is not assumed.  The theorems name, in the attacker's own file, the bytes that
would be a forgery.
-/

namespace Securefs.Props

/-! ## C04 -/

/-- One block that the file system encrypted at some time: the file (id and padding), the block index,
    the IV and the plaintext. -/
structure LiteEvent where
  o : LiteObj
  blk : Nat
  iv : Bytes
  pt : Bytes

/-- The bytes stored for block `k` of the file `o` in the backing file `f`. -/
def liteStored (C : LiteCfg) (o : LiteObj) (f : Bytes) (k : Nat) : Bytes :=
  ufRead f (o.headerSize + C.ubs * k) C.ubs

/-- The bytes stored for block `k` are a forgery: they carry a tag that verifies, but no event of `E`
    encrypted under this file's key, with these additional data, gives these bytes. -/
def LiteForgedAt (C : LiteCfg) (E : Set LiteEvent) (o : LiteObj) (f : Bytes) (k : Nat) : Prop :=
  let cur := liteStored C o f k
  let ct := (cur.drop C.ivSize).take (cur.length - 16 - C.ivSize)
  let mac := cur.drop (cur.length - 16)
  ((C.gcm o.id).dec (cur.take C.ivSize) (o.aad k) ct mac).1 = true ∧
  ¬ ∃ ev ∈ E, ev.o.id = o.id ∧ ev.o.aad ev.blk = o.aad k ∧ ev.iv = cur.take C.ivSize ∧
    (C.gcm o.id).enc ev.iv (ev.o.aad ev.blk) ev.pt = (ct, mac)

/-- **C04.**  `E` is the set of blocks encrypted by the file system (block numbers below `2^32`).  If a
    verified read of a file `o` over an attacker-chosen backing file `f` returns `b`, then each byte of `b`
    is zero in an all-zero stored block, or belongs to a plaintext encrypted for the same file at the same
    block index, or lies in a block that is a forgery. -/
theorem C04_lite_tamper_evident (C : LiteCfg) (hg : ∀ id, (C.gcm id).Lawful) (hb : 0 < C.bs)
    (hcheck : C.check = true) (E : Set LiteEvent) (hE : ∀ ev ∈ E, ev.blk < 2 ^ 32)
    (o : LiteObj) (st : LiteSt) (off len : Nat) (b : Bytes)
    (h : C.stream.read (o, st) off len = .ok b) (i : Nat) (hi : i < b.length) :
    (allZeros (liteStored C o st.file ((off + i) / C.bs)) = true ∧ b[i]? = some 0) ∨
    (∃ ev ∈ E, ev.o = o ∧ ev.blk = (off + i) / C.bs ∧ b[i]? = ev.pt[(off + i) % C.bs]? ∧
      (off + i) % C.bs < ev.pt.length) ∨
    LiteForgedAt C E o st.file ((off + i) / C.bs) := by
  change (C.dev o).read st off len = .ok b at h
  obtain ⟨p, h1, h2, h3, h4, h5⟩ := LiteCfg.read_inv (hg o.id) hb h i hi
  set k := (off + i) / C.bs with hk
  unfold LiteForgedAt
  change C.decodeBlock o k (liteStored C o st.file k) = .ok p at h1
  unfold LiteCfg.decodeBlock at h1
  by_cases hz : allZeros (liteStored C o st.file k) = true
  · left
    rw [if_pos hz] at h1
    simp only [Except.ok.injEq] at h1
    refine ⟨hz, ?_⟩
    rw [h2, ← h1, zeros_getElem?, if_pos]
    rw [← h1, zeros_length] at h3
    exact h3
  · right
    rw [if_neg hz, hcheck] at h1
    dsimp only at h1 ⊢
    set cur := liteStored C o st.file k with hcur
    split at h1
    · cases h1
    rename_i hok
    simp only [Except.ok.injEq] at h1
    have hacc : ((C.gcm o.id).dec (cur.take C.ivSize) (o.aad k)
        ((cur.drop C.ivSize).take (cur.length - 16 - C.ivSize)) (cur.drop (cur.length - 16))).1 = true := by
      simpa using hok
    by_cases hev : ∃ ev ∈ E, ev.o.id = o.id ∧ ev.o.aad ev.blk = o.aad k ∧ ev.iv = cur.take C.ivSize ∧
        (C.gcm o.id).enc ev.iv (ev.o.aad ev.blk) ev.pt
          = ((cur.drop C.ivSize).take (cur.length - 16 - C.ivSize), cur.drop (cur.length - 16))
    · left
      obtain ⟨ev, hmem, hid, haad, hiv, henc⟩ := hev
      have haad' := haad
      unfold LiteObj.aad at haad'
      have hblk := le32_inj (hE ev hmem) (by unfold liteMaxBlocks at h4; omega)
        (List.append_inj_left haad' rfl)
      have hpad := List.append_inj_right haad' rfl
      have hdec := (hg o.id).dec_enc ev.iv (ev.o.aad ev.blk) ev.pt
      rw [henc, hiv, haad] at hdec
      dsimp only at hdec
      rw [hdec] at h1
      dsimp only at h1
      refine ⟨ev, hmem, ?_, hblk, ?_, ?_⟩
      · cases ev with | mk o' blk iv pt => cases o'; cases o; simp_all
      · rw [h2, h1]
      · rw [h1]; exact h3
    · right
      exact ⟨hacc, hev⟩

/-- Non-trivial case: a file with one block, the event that produced it, a read that succeeds, and no
    forgery; so the second alternative of C04 is the one that holds. -/
example :
    let C := Toy.lite false 0
    let o : LiteObj := ⟨zeros 16, []⟩
    let f := zeros 16 ++ C.encodeBlock o 0 (List.replicate 12 5) [1, 2, 3]
    C.stream.read (o, ⟨f, 0⟩) 0 3 = .ok [1, 2, 3] ∧
      ¬ LiteForgedAt C {⟨o, 0, List.replicate 12 5, [1, 2, 3]⟩} o f 0 := by
  refine ⟨by decide, ?_⟩
  rintro ⟨_, h⟩
  exact h ⟨_, rfl, rfl, rfl, by decide, by decide⟩

/-- **C04, moving a block is detected.**  If the bytes stored at index `j` are those the file system wrote
    for another file or another index (`ev`), and no block encrypted for this file at index `j` has these
    bytes, then a verified read of any byte of block `j` fails, unless those old bytes verify in their new
    place, which is a forgery. -/
theorem C04_moved_block_detected (C : LiteCfg) (hg : ∀ id, (C.gcm id).Lawful) (hb : 0 < C.bs)
    (hcheck : C.check = true) (E : Set LiteEvent) (hE : ∀ ev ∈ E, ev.blk < 2 ^ 32)
    (o : LiteObj) (st : LiteSt) (off len : Nat) (b : Bytes)
    (i : Nat) (hi : i < b.length) (hnz : allZeros (liteStored C o st.file ((off + i) / C.bs)) = false)
    (hforeign : ∀ ev ∈ E, ev.o = o → ev.blk = (off + i) / C.bs → b[i]? ≠ ev.pt[(off + i) % C.bs]?)
    (hf : ¬ LiteForgedAt C E o st.file ((off + i) / C.bs)) :
    C.stream.read (o, st) off len ≠ .ok b := by
  intro h
  rcases C04_lite_tamper_evident C hg hb hcheck E hE o st off len b h i hi with h | h | h
  · rw [h.1] at hnz; cases hnz
  · obtain ⟨ev, h1, h2, h3, h4, _⟩ := h
    exact hforeign ev h1 h2 h3 h4
  · exact hf h

set_option maxRecDepth 100000 in
/-- The hypotheses are met: two blocks of a file are swapped; the first read byte is detected. -/
example :
    let C := Toy.lite false 0
    let o : LiteObj := ⟨zeros 16, []⟩
    let e0 := C.encodeBlock o 0 (List.replicate 12 5) (List.replicate 32 1)
    let e1 := C.encodeBlock o 1 (List.replicate 12 5) (List.replicate 32 2)
    C.stream.read (o, ⟨zeros 16 ++ e0 ++ e1, 0⟩) 0 1 = .ok [1] ∧
    C.stream.read (o, ⟨zeros 16 ++ e1 ++ e0, 0⟩) 0 1 = .error .verify := by
  exact ⟨by rfl, by rfl⟩

/-! ## C05 -/

/-- One call of AES-GCM encryption under the data key: IV, additional data and plaintext. -/
structure FullEvent where
  iv : Bytes
  aad : Bytes
  pt : Bytes

/-- The metadata entry (IV and tag) of block `k` in the metadata file `m`, zeros where it is too short. -/
def fullEntry (C : FullCfg) (m : Bytes) (k : Nat) : Bytes :=
  ufRead m (32 + (C.headerSize + C.ivSize + 16) + (C.ivSize + 16) * k) (C.ivSize + 16) ++
    zeros (C.ivSize + 16 - (ufRead m (32 + (C.headerSize + C.ivSize + 16) + (C.ivSize + 16) * k) (C.ivSize + 16)).length)

/-- The data stored for block `k`. -/
def fullData (C : FullCfg) (data : Bytes) (k : Nat) : Bytes := ufRead data (k * C.bs) C.bs

/-- Block `k` of the files is a forgery: the entry's tag verifies for the data, but was never produced. -/
def FullForgedAt (C : FullCfg) (E : Set FullEvent) (data m : Bytes) (k : Nat) : Prop :=
  (C.gcm.dec ((fullEntry C m k).take C.ivSize) C.id (fullData C data k)
    (((fullEntry C m k).drop C.ivSize).take 16)).1 = true ∧
  ¬ ∃ ev ∈ E, ev.aad = C.id ∧ ev.iv = (fullEntry C m k).take C.ivSize ∧
    C.gcm.enc ev.iv ev.aad ev.pt = (fullData C data k, ((fullEntry C m k).drop C.ivSize).take 16)

/-- **C05, partial.**  `V` is the set of HMAC messages (id and metadata) the file system authenticated,
    `E` the set of blocks it encrypted.  If a full-format file opens over attacker-chosen files and a read
    returns `b`, then the metadata is a version in `V` for this id, or is a forgery, **or is empty**; and each
    byte of `b` is in a hole recorded by the metadata entry at its index, or belongs to a plaintext encrypted
    for this id under exactly the IV and tag of the entry at its index, or lies in a forged block.
    Missing with respect to C05: the empty metadata file is accepted although it was never authenticated
    (`C05_empty_metadata_accepted`). -/
theorem C05_full_tamper_evident_partial (C : FullCfg) (hg : C.gcm.Lawful) (hb : 0 < C.bs)
    (hcheck : C.check = true) (V : Set Bytes) (E : Set FullEvent) (data m : Bytes) (n : Nat) (st : FullSt)
    (hopen : C.openFile data m n = .ok st) (off len : Nat) (b : Bytes)
    (h : C.stream.read st off len = .ok b) :
    (m = [] ∨ C.id ++ m.drop 32 ∈ V ∨ (C.id ++ m.drop 32 ∉ V ∧ m.take 32 = C.hm (C.id ++ m.drop 32))) ∧
    ∀ i, i < b.length →
      (allZeros (fullData C data ((off + i) / C.bs)) = true ∧
        allZeros (fullEntry C m ((off + i) / C.bs)) = true ∧ b[i]? = some 0) ∨
      (∃ ev ∈ E, ev.aad = C.id ∧ ev.iv = (fullEntry C m ((off + i) / C.bs)).take C.ivSize ∧
        C.gcm.enc ev.iv ev.aad ev.pt = (fullData C data ((off + i) / C.bs),
          ((fullEntry C m ((off + i) / C.bs)).drop C.ivSize).take 16) ∧
        b[i]? = ev.pt[(off + i) % C.bs]? ∧ (off + i) % C.bs < ev.pt.length) ∨
      FullForgedAt C E data m ((off + i) / C.bs) := by
  unfold FullCfg.openFile at hopen
  rw [hcheck] at hopen
  simp only [bind, Except.bind] at hopen
  split at hopen
  · cases hopen
  rename_i ms hms
  simp only [Except.ok.injEq] at hopen
  obtain ⟨hv, hmsEq⟩ := hmacOpen_inv hms
  refine ⟨?_, ?_⟩
  · rcases hv with hv | hv
    · exact Or.inl (by simpa using hv)
    · by_cases hm : C.id ++ m.drop 32 ∈ V
      · exact Or.inr (Or.inl hm)
      · exact Or.inr (Or.inr ⟨hm, hv.2⟩)
  · intro i hi
    change C.dev.read st off len = .ok b at h
    obtain ⟨p, h1, h2, h3, h4⟩ := FullCfg.read_inv hg hb h i hi
    set k := (off + i) / C.bs with hk
    have hent : C.entry st k = fullEntry C m k := by
      unfold FullCfg.entry fullEntry hmacRead FullCfg.metaPos FullCfg.metaSize FullCfg.encHeaderSize
      rw [← hopen, hmsEq]
      dsimp only
      rw [show ∀ a b : Nat, a + b + 32 = 32 + a + b by intros; omega]
    have hdat : ufRead st.data (k * C.bs) C.bs = fullData C data k := by
      rw [← hopen]; rfl
    rw [hent, hdat] at h1
    unfold FullCfg.decodeBlock at h1
    by_cases hz : (allZeros (fullEntry C m k) && allZeros (fullData C data k)) = true
    · left
      rw [if_pos hz] at h1
      simp only [Except.ok.injEq] at h1
      rw [Bool.and_eq_true] at hz
      refine ⟨hz.2, hz.1, ?_⟩
      rw [h2, ← h1, zeros_getElem?, if_pos]
      rw [← h1, zeros_length] at h3
      exact h3
    · right
      rw [if_neg hz, hcheck] at h1
      dsimp only at h1
      split at h1
      · cases h1
      rename_i hok
      simp only [Except.ok.injEq] at h1
      have hacc : (C.gcm.dec ((fullEntry C m k).take C.ivSize) C.id (fullData C data k)
          (((fullEntry C m k).drop C.ivSize).take 16)).1 = true := by simpa using hok
      by_cases hev : ∃ ev ∈ E, ev.aad = C.id ∧ ev.iv = (fullEntry C m k).take C.ivSize ∧
          C.gcm.enc ev.iv ev.aad ev.pt = (fullData C data k, ((fullEntry C m k).drop C.ivSize).take 16)
      · left
        obtain ⟨ev, hmem, haad, hiv, henc⟩ := hev
        have hdec := hg.dec_enc ev.iv ev.aad ev.pt
        rw [henc, hiv, haad] at hdec
        dsimp only at hdec
        rw [hdec] at h1
        dsimp only at h1
        exact ⟨ev, hmem, haad, hiv, henc, by rw [h2, h1], by rw [h1]; exact h3⟩
      · exact Or.inr ⟨hacc, hev⟩

set_option maxRecDepth 100000 in
/-- The hypotheses of C05 are met by a genuine file with one block. -/
example :
    let C := Toy.full false
    let e := C.gcm.enc (List.replicate 12 5) C.id [1, 2, 3]
    let payload := zeros 36 ++ List.replicate 12 5 ++ e.2
    let m := C.hm (C.id ++ payload) ++ payload
    C.openFile e.1 m 0 = .ok ⟨e.1, ⟨m, false⟩, 0⟩ ∧
    C.stream.read ⟨e.1, ⟨m, false⟩, 0⟩ 1 5 = .ok [2, 3] := by
  exact ⟨by rfl, by rfl⟩

/-- **C05 fails for empty metadata.**  Whatever was authenticated before, an attacker who replaces the
    metadata file by an empty one and the data file by any number of zero bytes gets a file that opens with
    verification on and reads as zeros. -/
theorem C05_empty_metadata_accepted (C : FullCfg) (hC : C.WF) (size n off len : Nat)
    (hlim : off + len ≤ fullMaxBlocks * C.bs) :
    ∃ st, C.openFile (zeros size) [] n = .ok st ∧
      C.stream.read st off len = .ok (Spec.read (zeros size) off len) := by
  refine ⟨⟨zeros size, ⟨[], false⟩, n⟩, ?_, ?_⟩
  · simp only [FullCfg.openFile, hmacOpen_ok C.check (show HmacValid C.hm C.id [] from Or.inl rfl), bind,
      Except.bind]
  · apply BlockDev.Refines.read_of_readMulti (D := C.dev) (maxB := fullMaxBlocks) hC.bs_pos ?_ off len hlim
    intro s e hse he
    show C.readMulti _ s e = _
    have hb := hC.bs_pos
    unfold FullCfg.readMulti
    have hms : ∀ x y, hmacRead ⟨[], false⟩ x y = [] := by intro x y; simp [hmacRead, ufRead]
    simp only [hms, List.length_nil, Nat.zero_mod, List.nil_append, Nat.sub_zero]
    by_cases heq : s = e
    · rw [if_pos heq, heq]; simp
    · rw [if_neg heq, if_neg (by omega)]
      have hE := ((FEnc.zeros (bs := C.bs) (ms := C.metaSize) (dec := C.decodeBlock) hb size
        (fun k => FullCfg.decode_zeros k)).drop hb s).take hb (e - s)
      by_cases hz : (ufRead (zeros size) (s * C.bs) ((e - s) * C.bs)).length = 0
      · rw [if_pos hz]
        have := List.eq_nil_of_length_eq_zero hz
        unfold ufRead at this
        change Except.ok [] = Except.ok ((List.drop (s * C.bs) (zeros size)).take ((e - s) * C.bs))
        rw [this]
      · rw [if_neg hz, if_neg (by simp)]
        have hml := hE.mlen
        have hpad : zeros ((e - s) * C.metaSize)
            = ((zeros (nblk C.bs size * C.metaSize)).drop (s * C.metaSize)).take ((e - s) * C.metaSize)
              ++ zeros ((e - s) * C.metaSize
                - (((zeros (nblk C.bs size * C.metaSize)).drop (s * C.metaSize)).take
                    ((e - s) * C.metaSize)).length) := by
          unfold zeros
          simp only [List.drop_replicate, List.take_replicate, List.length_replicate,
            List.replicate_append_replicate]
          congr 1; omega
        rw [hpad]
        exact FullCfg.readLoop_ok hC (e - s) _ _ _ _ hE (by
          rw [List.length_take]; exact Nat.min_le_left _ _)

example : (Toy.full false).WF ∧ 3 + 500 ≤ fullMaxBlocks * (Toy.full false).bs :=
  ⟨Toy.full_wf false, by decide⟩

/-! ## C06 -/

/-- **C06 fails (lite, truncation).**  Take any lite file after any history.  If an attacker cuts the
    backing file at any block boundary, the file opens and behaves, with verification on, exactly as the
    correspondingly shorter file: no error is reported, for any later history. -/
theorem C06_lite_truncation_undetected (C : LiteCfg) (hC : C.WF) (n : Nat) (ops : List Spec.Op)
    (hlim : ∀ op ∈ ops, op.extent ≤ liteMaxBlocks * C.bs)
    {p p'} (h1 : C.openFile ⟨[], n⟩ = .ok p) {outs} (h2 : C.stream.run p ops = .ok (p', outs))
    (k n' : Nat) (ops2 : List Spec.Op) (hlim2 : ∀ op ∈ ops2, op.extent ≤ liteMaxBlocks * C.bs) :
    ∃ q q', C.openFile ⟨p'.2.file.take (p'.1.headerSize + k * C.ubs), n'⟩ = .ok q ∧
      C.stream.run q ops2 = .ok (q', (Spec.run ((Spec.run [] ops).1.take (k * C.bs)) ops2).2) := by
  obtain ⟨p0, h1', hR⟩ := LiteCfg.openFile_empty hC ⟨[], n⟩ rfl
  rw [h1] at h1'; cases h1'
  obtain ⟨p1, h2', hR'⟩ := (LiteCfg.stream_refines hC).run_ok ops hR hlim
  rw [h2] at h2'; cases h2'
  have hb : 0 < C.bs := by have := hC.bs_ge; omega
  have hle := hR'.1.hdr_le
  have hR2 : LiteCfg.Repr C p'.1 ⟨p'.2.file.take (p'.1.headerSize + k * C.ubs), n'⟩
      ((Spec.run [] ops).1.take (k * C.bs)) := by
    refine ⟨?_, hR'.1.idLen, ?_⟩
    · dsimp only
      rw [List.take_take, Nat.min_eq_left (by omega)]
      exact hR'.1.header
    · dsimp only
      rw [List.drop_take, Nat.add_sub_cancel_left]
      have := hR'.1.enc.take hb k
      rwa [← LiteCfg.ubs_eq] at this
  have ho := LiteCfg.openFile_existing hC hR2 hR'.2
  obtain ⟨q', h3, _⟩ := (LiteCfg.stream_refines hC).run_ok ops2
    (st := (p'.1, ⟨_, n'⟩)) ⟨hR2, hR'.2⟩ hlim2
  exact ⟨_, q', ho, h3⟩

/-- **C06 fails (lite, erasing).**  Zeroing the stored bytes of whole blocks `k ..< k+m` is not detected
    either: the file behaves as if zeros had been written there. -/
theorem C06_lite_zeroing_undetected (C : LiteCfg) (hC : C.WF) (n : Nat) (ops : List Spec.Op)
    (hlim : ∀ op ∈ ops, op.extent ≤ liteMaxBlocks * C.bs)
    {p p'} (h1 : C.openFile ⟨[], n⟩ = .ok p) {outs} (h2 : C.stream.run p ops = .ok (p', outs))
    (k m n' : Nat) (hkm : (k + m) * C.bs ≤ (Spec.run [] ops).1.length)
    (ops2 : List Spec.Op) (hlim2 : ∀ op ∈ ops2, op.extent ≤ liteMaxBlocks * C.bs) :
    ∃ q q', C.openFile ⟨ufWrite p'.2.file (p'.1.headerSize + k * C.ubs) (zeros (m * C.ubs)), n'⟩ = .ok q ∧
      C.stream.run q ops2
        = .ok (q', (Spec.run (Spec.write (Spec.run [] ops).1 (k * C.bs) (zeros (m * C.bs))) ops2).2) := by
  obtain ⟨p0, h1', hR⟩ := LiteCfg.openFile_empty hC ⟨[], n⟩ rfl
  rw [h1] at h1'; cases h1'
  obtain ⟨p1, h2', hR'⟩ := (LiteCfg.stream_refines hC).run_ok ops hR hlim
  rw [h2] at h2'; cases h2'
  have hb : 0 < C.bs := by have := hC.bs_ge; omega
  have hle := hR'.1.hdr_le
  have hk : k * C.bs ≤ (Spec.run [] ops).1.length := by
    refine le_trans (Nat.mul_le_mul_right _ ?_) hkm; omega
  have hpos : p'.1.headerSize + k * C.ubs ≤ p'.2.file.length := by
    rw [hR'.1.len]
    have := encLen_mono (bs := C.bs) (ov := C.ivSize + 16) hb hk
    rw [encLen_mul hb, ← LiteCfg.ubs_eq] at this
    omega
  have hR2 : LiteCfg.Repr C p'.1
      ⟨ufWrite p'.2.file (p'.1.headerSize + k * C.ubs) (zeros (m * C.ubs)), n'⟩
      (Spec.write (Spec.run [] ops).1 (k * C.bs) (zeros (m * C.bs))) := by
    rw [LiteCfg.ufWrite_splice _ _ _ hpos, spec_write_splice _ _ _ hk]
    refine ⟨?_, hR'.1.idLen, ?_⟩
    · dsimp only
      rw [LiteCfg.take_splice _ _ _ _ hpos]
      exact hR'.1.header
    · dsimp only
      rw [LiteCfg.drop_splice _ _ _ _ hpos]
      have hz : Enc C.bs (C.ivSize + 16) (C.decodeBlock p'.1) k (zeros (m * C.ubs)) (zeros (m * C.bs)) := by
        have := Enc.zeros (bs := C.bs) (ov := C.ivSize + 16) (dec := C.decodeBlock p'.1) hb k (m * C.bs) (by
          intro j l hl
          unfold LiteCfg.decodeBlock
          rw [if_pos (by simp [allZeros, zeros]), zeros_length]
          congr 2; omega)
        rwa [encLen_mul hb, ← LiteCfg.ubs_eq] at this
      have := hR'.1.enc.overwrite hb (s := k) (m := m) hk hz (Or.inl (by simp))
      rwa [← LiteCfg.ubs_eq] at this
  have ho := LiteCfg.openFile_existing hC hR2 hR'.2
  obtain ⟨q', h3, _⟩ := (LiteCfg.stream_refines hC).run_ok ops2
    (st := (p'.1, ⟨_, n'⟩)) ⟨hR2, hR'.2⟩ hlim2
  exact ⟨_, q', ho, h3⟩

/-- **C06 fails (full, truncation).**  After any history and a flush, an attacker who cuts the data file
    of a full-format file at any block boundary, leaving the metadata alone, is not detected: the file opens,
    and every read answers as on the shorter file. -/
theorem C06_full_truncation_undetected (C : FullCfg) (hC : C.WF) (n : Nat) (ops : List Spec.HOp)
    (hlim : ∀ op ∈ ops, op.within (fullMaxBlocks * C.bs) C.headerSize)
    (hhd : Spec.headerFirst false ops)
    {st st' st''} (h1 : C.openFile [] [] n = .ok st) {outs} (h2 : C.hrun st ops = .ok (st', outs))
    (h3 : C.flush st' = .ok st'') (k n' off len : Nat) (hr : off + len ≤ fullMaxBlocks * C.bs) :
    ∃ q, C.openFile (st''.data.take (k * C.bs)) st''.metaS.file n' = .ok q ∧
      C.stream.size q = min (k * C.bs) (Spec.hrun C.headerSize ⟨[], none⟩ ops).1.content.length ∧
      C.stream.read q off len
        = .ok (Spec.read ((Spec.hrun C.headerSize ⟨[], none⟩ ops).1.content.take (k * C.bs)) off len) := by
  obtain ⟨st0, h1', hR⟩ := FullCfg.openFile_empty n hC
  rw [h1] at h1'; cases h1'
  obtain ⟨st1, h2', H, hR', hH⟩ := FullCfg.hrun_ok hC ops (st := st) (f := ⟨[], none⟩)
    ⟨_, hR, by intro h hh; cases hh⟩ hlim hhd
  rw [h2] at h2'; cases h2'
  obtain ⟨st2, h3', hR'', hd, _⟩ := FullCfg.flush_ok hC hR'
  rw [h3] at h3'; cases h3'
  have hv := hR''.valid hd
  obtain ⟨m, hp, hE⟩ := hR''.enc
  have hb := hC.bs_pos
  refine ⟨⟨st''.data.take (k * C.bs), ⟨st''.metaS.file, false⟩, n'⟩, ?_, ?_, ?_⟩
  · simp only [FullCfg.openFile, hmacOpen_ok C.check hv, bind, Except.bind]
  · simp only [FullCfg.stream, List.length_take, hE.dlen]
  · apply BlockDev.Refines.read_of_readMulti (D := C.dev) (maxB := fullMaxBlocks) hb ?_ off len hr
    intro s e hse he
    refine FullCfg.readMulti_ok hC (m := m.take (k * C.metaSize)) (x := m.drop (k * C.metaSize)) hR''.hlen
      ?_ (hE.take hb k) ?_ hse he
    · rw [List.take_append_drop]; exact hp
    · rw [List.length_drop, hE.mlen, ← Nat.sub_mul]; simp

set_option maxRecDepth 100000 in
/-- The hypotheses of the C06 theorems are met by files with content in several blocks. -/
example : (∃ p p' outs, (Toy.lite false 3).openFile ⟨[], 0⟩ = .ok p ∧
    (Toy.lite false 3).stream.run p [.write 0 (List.replicate 100 7)] = .ok (p', outs)) ∧
    (1 + 2) * 32 ≤ (Spec.run [] [.write 0 (List.replicate 100 7)]).1.length := by
  refine ⟨?_, by decide⟩
  obtain ⟨p, h1, hR⟩ := LiteCfg.openFile_empty (Toy.lite_wf false 3) ⟨[], 0⟩ rfl
  obtain ⟨p', h2, _⟩ := (LiteCfg.stream_refines (Toy.lite_wf false 3)).run_ok
    [.write 0 (List.replicate 100 7)] hR
    (by simp [Spec.Op.extent, Toy.lite, liteMaxBlocks])
  exact ⟨p, p', _, h1, h2⟩

example : ∃ st st' st'' outs, (Toy.full true).openFile [] [] 0 = .ok st ∧
    (Toy.full true).hrun st [.writeHeader [5], .file (.write 3 (List.replicate 100 7))] = .ok (st', outs) ∧
    (Toy.full true).flush st' = .ok st'' := by
  obtain ⟨st, h1, hR⟩ := FullCfg.openFile_empty 0 (Toy.full_wf true)
  obtain ⟨st', h2, H, hR', _⟩ := FullCfg.hrun_ok (Toy.full_wf true)
    [.writeHeader [5], .file (.write 3 (List.replicate 100 7))] (st := st) (f := ⟨[], none⟩)
    ⟨_, hR, by intro h hh; cases hh⟩
    (by simp [Spec.HOp.within, Spec.Op.extent, Toy.full, fullMaxBlocks])
    (by simp [Spec.headerFirst])
  obtain ⟨st'', h3, _⟩ := FullCfg.flush_ok (Toy.full_wf true) hR'
  exact ⟨st, st', st'', _, h1, h2, h3⟩

end Securefs.Props

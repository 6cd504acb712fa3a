import Verif.Props.Toy
import Verif.Proofs.StreamFacts
/-!
# Properties C01, C02, C03, C07, C09, C12, C13, C55: encrypted streams are byte arrays
-/

namespace Securefs.Props

/-! ## C01 -/

/-- **C01.**  A lite file created on an empty backing file answers every history of reads, writes,
    truncations, size queries and reopenings exactly as a byte array does (`Spec.run`), for every
    block size, IV size, padding, key schedule, random stream and either kind of storage. -/
theorem C01_lite_file_is_byte_array (C : LiteCfg) (hC : C.WF) (n : Nat) (ops : List Spec.Op)
    (hlim : ∀ op ∈ ops, op.extent ≤ liteMaxBlocks * C.bs) :
    ∃ p p', C.openFile ⟨[], n⟩ = .ok p ∧ C.stream.run p ops = .ok (p', (Spec.run [] ops).2) := by
  obtain ⟨p, h1, hR⟩ := LiteCfg.openFile_empty hC ⟨[], n⟩ rfl
  obtain ⟨p', h2, _⟩ := (LiteCfg.stream_refines hC).run_ok ops hR hlim
  exact ⟨p, p', h1, h2⟩

/-- C01's hypotheses are met by a history with a gap, an overwrite, a cut inside a block and a growth. -/
example : (Toy.lite true 5).WF ∧ (∀ op ∈ ([.write 40 [1, 2, 3], .write 41 [9], .resize 42, .resize 100,
    .read 30 80, .reopen, .size] : List Spec.Op), op.extent ≤ liteMaxBlocks * (Toy.lite true 5).bs) :=
  ⟨Toy.lite_wf true 5, by decide⟩

/-- The same history, evaluated on the ideal: what C01 says the encrypted file answers. -/
example : (Spec.run [] [.write 40 [1, 2, 3], .write 41 [9], .resize 42, .resize 44, .read 38 80, .size]).2
    = [.done, .done, .done, .done, .bytes [0, 0, 1, 9, 0, 0], .size 44] := by decide

/-! ## C02 -/

/-- **C02.**  A full-format file created on empty data and metadata files answers every history of
    reads, writes, truncations, size queries, header reads and writes, flushes and reopenings exactly as
    a byte array with a separate header buffer does (`Spec.hrun`).  The header is read only after it was
    written; C55 is about the other case. -/
theorem C02_full_file_is_byte_array (C : FullCfg) (hC : C.WF) (n : Nat) (ops : List Spec.HOp)
    (hlim : ∀ op ∈ ops, op.within (fullMaxBlocks * C.bs) C.headerSize)
    (hhd : Spec.headerFirst false ops) :
    ∃ st st', C.openFile [] [] n = .ok st ∧
      C.hrun st ops = .ok (st', (Spec.hrun C.headerSize ⟨[], none⟩ ops).2) := by
  obtain ⟨st, h1, hR⟩ := FullCfg.openFile_empty n hC
  obtain ⟨st', h2, _⟩ := FullCfg.hrun_ok hC ops (st := st) (f := ⟨[], none⟩)
    ⟨_, hR, by intro h hh; cases hh⟩ hlim hhd
  exact ⟨st, st', h1, h2⟩

/-- C02's hypotheses are met by a history mixing header and content. -/
example : (Toy.full false).WF ∧
    (∀ op ∈ ([.file (.write 100 [7]), .writeHeader [1, 2], .readHeader 4, .file (.resize 64), .file .reopen,
      .readHeader 8, .flush, .file (.read 0 200)] : List Spec.HOp),
        op.within (fullMaxBlocks * (Toy.full false).bs) (Toy.full false).headerSize) ∧
    Spec.headerFirst false [.file (.write 100 [7]), .writeHeader [1, 2], .readHeader 4, .file (.resize 64),
      .file .reopen, .readHeader 8, .flush, .file (.read 0 200)] := by
  refine ⟨Toy.full_wf false, ?_, ?_⟩
  · simp [Spec.HOp.within, Spec.Op.extent, Toy.full, fullMaxBlocks]
  · simp [Spec.headerFirst]

/-! ## C03 -/

/-- **C03 (lite).**  After any history, a new process that opens the backing file again (with its own
    random stream position `n'`) gets the same file identity and content: every further history answers
    as if the file had never been closed. -/
theorem C03_lite_reopen (C : LiteCfg) (hC : C.WF) (n n' : Nat) (ops ops2 : List Spec.Op)
    (hlim : ∀ op ∈ ops, op.extent ≤ liteMaxBlocks * C.bs)
    (hlim2 : ∀ op ∈ ops2, op.extent ≤ liteMaxBlocks * C.bs)
    {p p'} (h1 : C.openFile ⟨[], n⟩ = .ok p) {outs} (h2 : C.stream.run p ops = .ok (p', outs)) :
    ∃ q q', C.openFile ⟨p'.2.file, n'⟩ = .ok q ∧ q.1 = p'.1 ∧ q.2.file = p'.2.file ∧
      C.stream.run q ops2 = .ok (q', (Spec.run (Spec.run [] ops).1 ops2).2) := by
  obtain ⟨p0, h1', hR⟩ := LiteCfg.openFile_empty hC ⟨[], n⟩ rfl
  rw [h1] at h1'; cases h1'
  obtain ⟨p1, h2', hR'⟩ := (LiteCfg.stream_refines hC).run_ok ops hR hlim
  rw [h2] at h2'; cases h2'
  have hR2 : LiteCfg.Repr C p'.1 ⟨p'.2.file, n'⟩ (Spec.run [] ops).1 :=
    ⟨hR'.1.header, hR'.1.idLen, hR'.1.enc⟩
  have ho := LiteCfg.openFile_existing hC hR2 hR'.2
  obtain ⟨q', h3, _⟩ := (LiteCfg.stream_refines hC).run_ok ops2
    (st := (p'.1, ⟨p'.2.file, n'⟩)) ⟨hR2, hR'.2⟩ hlim2
  exact ⟨_, q', ho, rfl, rfl, h3⟩

/-- **C03 (full).**  After any history and a flush, a new process that opens the data and metadata
    files again passes the integrity check and finds the same content and header: every further history
    answers as if the file had never been closed. -/
theorem C03_full_reopen (C : FullCfg) (hC : C.WF) (n n' : Nat) (ops ops2 : List Spec.HOp)
    (hlim : ∀ op ∈ ops, op.within (fullMaxBlocks * C.bs) C.headerSize)
    (hlim2 : ∀ op ∈ ops2, op.within (fullMaxBlocks * C.bs) C.headerSize)
    (hhd : Spec.headerFirst false (ops ++ ops2))
    {st st' st''} (h1 : C.openFile [] [] n = .ok st) {outs} (h2 : C.hrun st ops = .ok (st', outs))
    (h3 : C.flush st' = .ok st'') :
    ∃ q q', C.openFile st''.data st''.metaS.file n' = .ok q ∧
      C.hrun q ops2 = .ok (q', (Spec.hrun C.headerSize (Spec.hrun C.headerSize ⟨[], none⟩ ops).1 ops2).2) := by
  have hhd' : ∀ (b : Bool) (l : List Spec.HOp) (c : Bytes) (hh : Option Bytes), hh.isSome = b →
      Spec.headerFirst b (l ++ ops2) → Spec.headerFirst b l ∧
      Spec.headerFirst (Spec.hrun C.headerSize ⟨c, hh⟩ l).1.header.isSome ops2 := by
    intro b l
    induction l generalizing b with
    | nil => intro c hh hb h; exact ⟨trivial, by subst hb; exact h⟩
    | cons op l ih =>
      intro c hh hb h
      cases op with
      | file op => exact ih b _ hh hb h
      | writeHeader x => exact ih true c _ rfl h
      | readHeader len => exact ⟨⟨h.1, (ih b c hh hb h.2).1⟩, (ih b c hh hb h.2).2⟩
      | flush => exact ih b c hh hb h
  obtain ⟨hA, hB⟩ := hhd' false ops [] none rfl hhd
  obtain ⟨st0, h1', hR⟩ := FullCfg.openFile_empty n hC
  rw [h1] at h1'; cases h1'
  obtain ⟨st1, h2', H, hR', hH⟩ := FullCfg.hrun_ok hC ops (st := st) (f := ⟨[], none⟩)
    ⟨_, hR, by intro h hh; cases hh⟩ hlim hA
  rw [h2] at h2'; cases h2'
  obtain ⟨st2, h3', hR'', hd, _⟩ := FullCfg.flush_ok hC hR'
  rw [h3] at h3'; cases h3'
  have hv := hR''.valid hd
  have ho : C.openFile st''.data st''.metaS.file n' = .ok ⟨st''.data, ⟨st''.metaS.file, false⟩, n'⟩ := by
    simp only [FullCfg.openFile, hmacOpen_ok C.check hv, bind, Except.bind]
  obtain ⟨q', h4, _⟩ := FullCfg.hrun_ok hC ops2
    (st := ⟨st''.data, ⟨st''.metaS.file, false⟩, n'⟩) (f := (Spec.hrun C.headerSize ⟨[], none⟩ ops).1)
    ⟨H, ⟨hR''.hlen, hR''.pl, hR''.enc, fun _ => hv⟩, hH⟩ hlim2 hB
  exact ⟨_, q', ho, h4⟩

/-- The hypotheses of `C03_lite_reopen` are met (C01 provides the run). -/
example : ∃ p p' outs, (Toy.lite false 3).openFile ⟨[], 0⟩ = .ok p ∧
    (Toy.lite false 3).stream.run p [.write 50 [1, 2, 3]] = .ok (p', outs) := by
  obtain ⟨p, p', h1, h2⟩ := C01_lite_file_is_byte_array _ (Toy.lite_wf false 3) 0 [.write 50 [1, 2, 3]]
    (by decide)
  exact ⟨p, p', _, h1, h2⟩

/-- The hypotheses of `C03_full_reopen` are met. -/
example : ∃ st st' st'' outs, (Toy.full true).openFile [] [] 0 = .ok st ∧
    (Toy.full true).hrun st [.writeHeader [5], .file (.write 3 [1, 2])] = .ok (st', outs) ∧
    (Toy.full true).flush st' = .ok st'' := by
  obtain ⟨st, h1, hR⟩ := FullCfg.openFile_empty 0 (Toy.full_wf true)
  obtain ⟨st', h2, H, hR', _⟩ := FullCfg.hrun_ok (Toy.full_wf true)
    [.writeHeader [5], .file (.write 3 [1, 2])] (st := st) (f := ⟨[], none⟩)
    ⟨_, hR, by intro h hh; cases hh⟩
    (by simp [Spec.HOp.within, Spec.Op.extent, Toy.full, fullMaxBlocks])
    (by simp [Spec.headerFirst])
  obtain ⟨st'', h3, _⟩ := FullCfg.flush_ok (Toy.full_wf true) hR'
  exact ⟨st, st', st'', _, h1, h2, h3⟩

/-! ## C07 -/

/-- **C07.**  Whatever the history of a lite file, and whether or not size padding is enabled, the size
    reported by `stat` is the length of the content.  Without padding it is computed from the size of the
    backing file alone. -/
theorem C07_stat_size (C : LiteCfg) (hC : C.WF) (maxPad : Nat) (aes : Bytes → Bytes)
    (hpad : C.padding = LiteCfg.computePadding maxPad aes) (n : Nat) (ops : List Spec.Op)
    (hlim : ∀ op ∈ ops, op.extent ≤ liteMaxBlocks * C.bs)
    {p p'} (h1 : C.openFile ⟨[], n⟩ = .ok p) {outs} (h2 : C.stream.run p ops = .ok (p', outs)) :
    C.statSize maxPad p'.2 = .ok (Spec.run [] ops).1.length ∧
    (maxPad = 0 → LiteCfg.realSize C.bs C.ivSize p'.2.file.length = (Spec.run [] ops).1.length) := by
  obtain ⟨p0, h1', hR⟩ := LiteCfg.openFile_empty hC ⟨[], n⟩ rfl
  rw [h1] at h1'; cases h1'
  obtain ⟨p1, h2', hR'⟩ := (LiteCfg.stream_refines hC).run_ok ops hR hlim
  rw [h2] at h2'; cases h2'
  have hlen := hR'.1.len
  have hb : 0 < C.bs := by have := hC.bs_ge; omega
  have hreal : maxPad = 0 →
      LiteCfg.realSize C.bs C.ivSize p'.2.file.length = (Spec.run [] ops).1.length := by
    intro h0
    have hp0 : p'.1.pad.length = 0 := by
      rw [hR'.2, hpad]; simp [LiteCfg.computePadding, h0]
    rw [hlen, show p'.1.headerSize = 16 by unfold LiteObj.headerSize; omega,
      LiteCfg.realSize_encLen hb]
  refine ⟨?_, hreal⟩
  unfold LiteCfg.statSize
  rw [if_neg (by rw [hlen]; unfold LiteObj.headerSize; omega)]
  by_cases h0 : maxPad = 0
  · rw [if_pos h0, hreal h0]
  · rw [if_neg h0]
    simp only [LiteCfg.openFile_existing hC hR'.1 hR'.2, bind, Except.bind, LiteCfg.dev_size hC hR'.1]

/-- **C07, resizing.**  Growing or shrinking to `m` and then asking for the size gives `m`. -/
theorem C07_size_after_resize (C : LiteCfg) (hC : C.WF) (n m : Nat) (ops : List Spec.Op)
    (hlim : ∀ op ∈ ops, op.extent ≤ liteMaxBlocks * C.bs) (hm : m ≤ liteMaxBlocks * C.bs) :
    ∃ p p' outs, C.openFile ⟨[], n⟩ = .ok p ∧
      C.stream.run p (ops ++ [.resize m, .size]) = .ok (p', outs ++ [.done, .size m]) := by
  obtain ⟨p, p', h1, h2⟩ := C01_lite_file_is_byte_array C hC n (ops ++ [.resize m, .size]) (by
    intro op hop
    rcases List.mem_append.mp hop with h | h
    · exact hlim op h
    · simp only [List.mem_cons, List.not_mem_nil, or_false] at h
      rcases h with rfl | rfl
      · exact hm
      · exact Nat.zero_le _)
  refine ⟨p, p', (Spec.run [] ops).2, h1, ?_⟩
  rw [h2]
  have key : ∀ (l l2 : List Spec.Op) (c : Bytes), (Spec.run c (l ++ l2)).2
      = (Spec.run c l).2 ++ (Spec.run (Spec.run c l).1 l2).2 := by
    intro l l2
    induction l with
    | nil => intro c; rfl
    | cons op l ih => intro c; simp only [List.cons_append, Spec.run, ih]
  rw [key]
  simp only [Spec.run, Spec.step, Spec.resize, List.length_append, List.length_take,
    List.length_replicate]
  congr 6
  omega

/-- The padding computed for a file never exceeds the configured maximum. -/
theorem C07_padding_bound (maxPad : Nat) (aes : Bytes → Bytes) (id : Bytes) :
    LiteCfg.computePadding maxPad aes id ≤ maxPad := by
  unfold LiteCfg.computePadding
  split
  · omega
  · have := Nat.mod_lt ((aes id).foldl (fun n b => n * 256 + b.toNat) 0) (show 0 < maxPad + 1 by omega)
    omega

/-- Meeting the hypotheses of `C07_stat_size`, with padding: the padding of a real configuration. -/
example : ∃ C : LiteCfg, C.WF ∧ C.padding = LiteCfg.computePadding 9 id ∧
    C.padding [1, 2, 3] = 1 ∧ ∃ p p' outs, C.openFile ⟨[], 0⟩ = .ok p ∧
      C.stream.run p [.write 70 [1], .resize 33] = .ok (p', outs) := by
  have hC : LiteCfg.WF { Toy.lite true 0 with padding := LiteCfg.computePadding 9 id } :=
    ⟨by simp [Toy.lite], by simp [Toy.lite], by simp [Toy.lite], fun _ => Toy.gcm_lawful, Toy.rng_fair⟩
  refine ⟨_, hC, rfl, by decide, ?_⟩
  obtain ⟨p, p', h1, h2⟩ := C01_lite_file_is_byte_array _ hC 0 [.write 70 [1], .resize 33] (by decide)
  exact ⟨p, p', _, h1, h2⟩

/-! ## C09 -/

/-- **C09 (lite).**  After a write succeeded on any backing file whatsoever, every block it touched is
    stored with a non-zero IV, so the whole stored block is not the all-zero pattern that means "hole".
    Nothing is assumed of the random generator except that it fills its buffer. -/
theorem C09_lite_write_never_hole (C : LiteCfg) (o : LiteObj) (hbs : 0 < C.bs) (hiv : 0 < C.ivSize)
    (hlen : ∀ n, (C.rng.draw n C.ivSize).length = C.ivSize) (hg : (C.gcm o.id).Lawful)
    {st st' : LiteSt} {off : Nat} {d : Bytes} (h : (C.dev o).write st off d = .ok st')
    (i : Nat) (h1 : off ≤ i) (h2 : i < off + d.length) :
    allZeros (ufRead st'.file (o.headerSize + C.ubs * (i / C.bs)) C.ivSize) = false ∧
    allZeros (ufRead st'.file (o.headerSize + C.ubs * (i / C.bs)) C.ubs) = false := by
  have hd : d ≠ [] := by rintro rfl; simp at h2; omega
  obtain ⟨st1, r, buf, hw, hr, hres, _⟩ := BlockDev.write_inv (D := C.dev o) hbs hd h
  obtain ⟨c1, c2⟩ := BlockDev.covered (bs := C.bs) hbs h1 h2 hres
  have key := LiteCfg.writeMulti_iv hlen hbs hiv hg hr hw (i / C.bs) c1 c2
    (Nat.div_le_div_right (by omega))
  refine ⟨key, allZeros_false_of_sublist ?_ key⟩
  unfold ufRead
  have : C.ivSize ≤ C.ubs := by unfold LiteCfg.ubs; omega
  exact (List.take_prefix_take_left this).sublist

/-- **C09 (full).**  The same for the full format: the metadata entry of every block touched by a
    successful write has a non-zero IV. -/
theorem C09_full_write_never_hole (C : FullCfg) (hbs : 0 < C.bs) (hiv : 0 < C.ivSize)
    (hlen : ∀ n, (C.rng.draw n C.ivSize).length = C.ivSize) (hg : C.gcm.Lawful)
    {st st' : FullSt} {off : Nat} {d : Bytes} (h : C.dev.write st off d = .ok st')
    (i : Nat) (h1 : off ≤ i) (h2 : i < off + d.length) :
    allZeros (hmacRead st'.metaS (C.metaPos (i / C.bs)) C.metaSize) = false := by
  have hd : d ≠ [] := by rintro rfl; simp at h2; omega
  obtain ⟨st1, r, buf, hw, hr, hres, _⟩ := BlockDev.write_inv (D := C.dev) hbs hd h
  obtain ⟨c1, c2⟩ := BlockDev.covered (bs := C.bs) hbs h1 h2 hres
  have key := FullCfg.writeMulti_iv hlen hbs hiv hg hw (i / C.bs) c1 c2
    (Nat.div_le_div_right (by omega))
  refine allZeros_false_of_sublist ?_ key
  unfold hmacRead ufRead
  have : C.ivSize ≤ C.metaSize := by unfold FullCfg.metaSize; omega
  exact (List.take_prefix_take_left this).sublist

/-- C09's hypotheses are met: all-zero plaintext written to a lite file, and to a full-format file. -/
example : ∃ st', ((Toy.lite true 0).dev ⟨zeros 16, []⟩).write ⟨zeros 16, 0⟩ 3 (zeros 5) = .ok st' ∧
    ufRead st'.file 16 60 ≠ zeros 36 := by
  obtain ⟨st', h, _⟩ := (LiteCfg.refines (o := ⟨zeros 16, []⟩) (Toy.lite_wf true 0)).write_refines
    (st := ⟨zeros 16, 0⟩) (c := []) ⟨rfl, rfl, by
      exact Enc.nil (bs := 32) (ov := 28) (dec := (Toy.lite true 0).decodeBlock ⟨zeros 16, []⟩)
        (by omega)⟩ 3 (zeros 5) (by decide)
  refine ⟨st', h, ?_⟩
  have := (C09_lite_write_never_hole _ _ (by decide) (by decide) (fun n => Toy.rng_fair.len _ _)
    Toy.gcm_lawful h 3 (by omega) (by simp)).2
  intro h0
  have h1 : allZeros (ufRead st'.file 16 60) = false := this
  rw [h0] at h1
  simp [allZeros, zeros] at h1

/-! ## C12 -/

/-- **C12.**  A full-format file wrapped in size padding of any size answers every history exactly as a
    byte array, that is, as it would without padding (C02). -/
theorem C12_padding_invisible (C : FullCfg) (hC : C.WF) (n pad : Nat) (rnd : Bytes)
    (hr : rnd.length = pad) (hpad : pad ≤ fullMaxBlocks * C.bs) (ops : List Spec.Op)
    (hlim : ∀ op ∈ ops, op.extent ≤ fullMaxBlocks * C.bs - pad) :
    ∃ st st1 st2, C.openFile [] [] n = .ok st ∧ paddedOpen C.stream pad rnd st = .ok st1 ∧
      (paddedStream C.stream pad rnd).run st1 ops = .ok (st2, (Spec.run [] ops).2) := by
  obtain ⟨st, h1, hR⟩ := FullCfg.openFile_empty n hC
  have href := FullCfg.stream_refines hC false (zeros C.encHeaderSize)
  obtain ⟨st1, h2, hR1⟩ := paddedOpen_empty href pad hpad rnd hr hR
  obtain ⟨st2, h3, _⟩ := (padded_refines href pad hpad rnd).run_ok ops hR1 hlim
  exact ⟨st, st1, st2, h1, h2, h3⟩

/-- **C12, any delegate.**  The same over any stream that behaves as a byte array. -/
theorem C12_padding_invisible_any {σ : Type} (S : Stream σ) (R : σ → Bytes → Prop) (lim : Nat)
    (H : S.Refines R lim) (pad : Nat) (hpad : pad ≤ lim) (rnd : Bytes) (hr : rnd.length = pad)
    (st : σ) (hR : R st []) (ops : List Spec.Op) (hlim : ∀ op ∈ ops, op.extent ≤ lim - pad) :
    ∃ st1 st2 st3, paddedOpen S pad rnd st = .ok st1 ∧
      (paddedStream S pad rnd).run st1 ops = .ok (st2, (Spec.run [] ops).2) ∧
      S.run st ops = .ok (st3, (Spec.run [] ops).2) := by
  obtain ⟨st1, h2, hR1⟩ := paddedOpen_empty H pad hpad rnd hr hR
  obtain ⟨st2, h3, _⟩ := (padded_refines H pad hpad rnd).run_ok ops hR1 hlim
  obtain ⟨st3, h4, _⟩ := H.run_ok ops hR (fun o ho => le_trans (hlim o ho) (Nat.sub_le _ _))
  exact ⟨st1, st2, st3, h2, h3, h4⟩

/-- C12's hypotheses are met. -/
example : (Toy.full true).WF ∧ ([4, 5, 6] : Bytes).length = 3 ∧ 3 ≤ fullMaxBlocks * (Toy.full true).bs ∧
    ∀ op ∈ ([.write 61 [1, 2], .resize 10, .read 0 99] : List Spec.Op),
      op.extent ≤ fullMaxBlocks * (Toy.full true).bs - 3 :=
  ⟨Toy.full_wf true, rfl, by decide, by decide⟩

/-! ## C13 -/

/-- **C13, behaviour.**  A metadata stream over an empty file answers every history, including closing
    (flush) and reopening with the check enabled, exactly as a byte array. -/
theorem C13_hmac_stream_is_byte_array (hm : Bytes → Bytes) (hl : ∀ m, (hm m).length = 32) (id : Bytes)
    (check : Bool) (ops : List Spec.Op) :
    ∃ st st', hmacOpen hm id check [] = .ok st ∧
      (hmacStream hm id check).run st ops = .ok (st', (Spec.run [] ops).2) := by
  have hv : HmacValid hm id [] := Or.inl rfl
  obtain ⟨lim, hlim⟩ : ∃ lim, ∀ op ∈ ops, Spec.Op.extent op ≤ lim := by
    induction ops with
    | nil => exact ⟨0, by simp⟩
    | cons op ops ih =>
      obtain ⟨l, hl⟩ := ih
      refine ⟨max l op.extent, ?_⟩
      intro o ho
      rcases List.mem_cons.mp ho with rfl | h
      · omega
      · have := hl o h; omega
  obtain ⟨st', h, _⟩ := (hmac_refines hl id check lim).run_ok ops (st := ⟨[], false⟩) (c := [])
    ⟨rfl, fun _ => hv⟩ hlim
  exact ⟨_, st', hmacOpen_ok check hv, h⟩

/-- **C13, acceptance.**  With checking enabled a backing file is accepted exactly when it is empty or
    its first 32 bytes are the HMAC of the file's id followed by all the rest. -/
theorem C13_hmac_accepts_iff (hm : Bytes → Bytes) (id f : Bytes) :
    (∃ st, hmacOpen hm id true f = .ok st) ↔
      f = [] ∨ (32 ≤ f.length ∧ hm (id ++ f.drop 32) = f.take 32) := by
  constructor
  · rintro ⟨st, h⟩
    exact (hmacOpen_inv h).1.imp (fun h => by simpa using h) (fun h => ⟨h.1, h.2.symm⟩)
  · intro h
    exact ⟨_, hmacOpen_ok true (h.imp (fun h => by simpa using h) (fun h => ⟨h.1, h.2.symm⟩))⟩

/-- **C13, tampering.**  `V` is the set of messages (id and payload) whose HMAC was ever computed by the
    file system.  A backing file that is accepted is empty, or carries a payload from `V` for this very id,
    or is itself a forgery: its tag is valid for its content, which was never authenticated. -/
theorem C13_hmac_tamper (hm : Bytes → Bytes) (V : Set Bytes) (id f : Bytes) {st : HmacSt}
    (h : hmacOpen hm id true f = .ok st) :
    f = [] ∨ id ++ f.drop 32 ∈ V ∨ (id ++ f.drop 32 ∉ V ∧ f.take 32 = hm (id ++ f.drop 32)) := by
  rcases (hmacOpen_inv h).1 with h | h
  · exact Or.inl (by simpa using h)
  · by_cases hv : id ++ f.drop 32 ∈ V
    · exact Or.inr (Or.inl hv)
    · exact Or.inr (Or.inr ⟨hv, h.2⟩)

/-- **C13, identity.**  A non-empty metadata file flushed for `id'` and accepted for a different id of the
    same length exhibits an HMAC collision between two explicit messages. -/
theorem C13_hmac_binds_id (hm : Bytes → Bytes) (id id' f : Bytes) (hlen : id.length = id'.length)
    (hne : id ≠ id') (hf : f ≠ []) {st st' : HmacSt}
    (h' : hmacOpen hm id' true f = .ok st') (h : hmacOpen hm id true f = .ok st) :
    id ++ f.drop 32 ≠ id' ++ f.drop 32 ∧ hm (id ++ f.drop 32) = hm (id' ++ f.drop 32) := by
  have e1 := (C13_hmac_accepts_iff hm id f).mp ⟨_, h⟩
  have e2 := (C13_hmac_accepts_iff hm id' f).mp ⟨_, h'⟩
  rcases e1 with e1 | e1
  · exact absurd e1 hf
  rcases e2 with e2 | e2
  · exact absurd e2 hf
  refine ⟨?_, e1.2.trans e2.2.symm⟩
  intro heq
  exact hne (List.append_inj_left heq hlen)

/-- Non-trivial cases: an accepted file, and a changed file that is rejected. -/
example : (∃ st, hmacOpen Toy.hm [1] true (Toy.hm [1, 5, 6] ++ [5, 6]) = .ok st) ∧
    ¬ (∃ st, hmacOpen Toy.hm [1] true (Toy.hm [1, 5, 6] ++ [5, 7]) = .ok st) := by
  rw [C13_hmac_accepts_iff, C13_hmac_accepts_iff]
  decide

/-! ## C55 -/

/-- **C55 fails.**  On a new full-format file to which content but no header was written, reading the
    header reports that there is one (with arbitrary bytes) instead of "no header". -/
theorem C55_header_reported_without_one :
    ∃ (C : FullCfg) (st st' : FullSt) (h : Bytes), C.WF ∧ C.openFile [] [] 0 = .ok st ∧
      C.stream.write st 0 [1] = .ok st' ∧ C.readHeader st' 8 = .ok (some h) := by
  refine ⟨Toy.full true, ⟨[], ⟨[], false⟩, 0⟩, ⟨[1], ⟨zeros 32 ++ zeros 36 ++ List.replicate 12 1
    ++ List.replicate 16 (Toy.sum (List.replicate 12 1 ++ [1, 2, 3] ++ [1])), true⟩, 1⟩, zeros 8,
    Toy.full_wf true, rfl, ?_, ?_⟩
  · rfl
  · rfl

/-- Calls that write neither header nor content. -/
def quiet : Spec.HOp → Prop
  | .file (.read _ _) | .file .size | .file .reopen | .readHeader _ | .flush => True
  | _ => False

/-- **C55, partial.**  What holds: while neither header nor content was written (only reads, size queries,
    header reads, flushes and reopenings happened), the header is reported absent.  Missing: the case
    of content written first, which fails (above). -/
theorem C55_header_absent_partial (C : FullCfg) (hb : 0 < C.bs) (n : Nat) (ops : List Spec.HOp)
    (hlim : ∀ op ∈ ops, op.within (fullMaxBlocks * C.bs) C.headerSize) (hq : ∀ op ∈ ops, quiet op)
    (len : Nat) (hl : len ≤ C.headerSize) :
    ∃ st st' outs, C.openFile [] [] n = .ok st ∧ C.hrun st ops = .ok (st', outs) ∧
      C.readHeader st' len = .ok none := by
  have hv : HmacValid C.hm C.id [] := Or.inl rfl
  have ho : C.openFile [] [] n = .ok ⟨[], ⟨[], false⟩, n⟩ := by
    simp only [FullCfg.openFile, hmacOpen_ok C.check hv, bind, Except.bind]
  have hr : ∀ len ≤ C.headerSize, C.readHeader ⟨[], ⟨[], false⟩, n⟩ len = .ok none := by
    intro len hl
    unfold FullCfg.readHeader FullCfg.uncheckedReadHeader hmacRead ufRead
    rw [if_neg (by omega)]
    simp [bind, Except.bind]
  have hrm : ∀ s e, e ≤ fullMaxBlocks → C.dev.readMulti ⟨[], ⟨[], false⟩, n⟩ s e = .ok [] := by
    intro s e he
    show C.readMulti _ s e = _
    unfold FullCfg.readMulti
    split
    · rfl
    · rw [if_neg (by omega)]
      simp [ufRead]
  have hrun : ∃ outs, C.hrun ⟨[], ⟨[], false⟩, n⟩ ops = .ok (⟨[], ⟨[], false⟩, n⟩, outs) := by
    induction ops with
    | nil => exact ⟨[], rfl⟩
    | cons op ops ih =>
      obtain ⟨outs, ih⟩ := ih (fun o h => hlim o (by simp [h])) (fun o h => hq o (by simp [h]))
      have h1 := hq op (by simp)
      have h2 := hlim op (by simp)
      have : ∃ o, C.hstep ⟨[], ⟨[], false⟩, n⟩ op = .ok (⟨[], ⟨[], false⟩, n⟩, o) := by
        match op, h1, h2 with
        | .file (.read off l), _, h2 =>
          obtain ⟨b, hb⟩ : ∃ b, C.dev.read ⟨[], ⟨[], false⟩, n⟩ off l = .ok b := by
            have h3 : off + l ≤ fullMaxBlocks * C.bs := h2
            unfold BlockDev.read
            split
            · exact ⟨_, rfl⟩
            · dsimp only
              split
              · exact ⟨_, hrm _ _ (by
                  show (off + l) / C.bs ≤ _
                  exact Nat.div_le_of_le_mul (by rw [Nat.mul_comm]; exact h3))⟩
              · rw [hrm _ _ (by
                  show (off + l) / C.bs + (if (off + l) % C.bs > 0 then 1 else 0) ≤ _
                  have h4 := Nat.div_add_mod' (off + l) C.bs
                  split
                  · have : (off + l) / C.bs < fullMaxBlocks := by
                      by_contra hc
                      have := Nat.mul_le_mul_right C.bs (Nat.le_of_not_lt hc)
                      omega
                    omega
                  · exact Nat.div_le_of_le_mul (by rw [Nat.mul_comm]; exact h3))]
                simp [bind, Except.bind]
          exact ⟨_, by simp only [FullCfg.hstep, Stream.step, FullCfg.stream, hb, bind, Except.bind]; rfl⟩
        | .file .size, _, _ => exact ⟨_, rfl⟩
        | .file .reopen, _, _ =>
          refine ⟨.file .done, ?_⟩
          simp only [FullCfg.hstep, Stream.step, FullCfg.stream, FullCfg.flush, hmacFlush, bind,
            Except.bind, Bool.false_eq_true, if_false, ho]
        | .readHeader l, _, h2 =>
          exact ⟨.header none, by simp only [FullCfg.hstep, hr l h2, bind, Except.bind]⟩
        | .flush, _, _ =>
          refine ⟨.file .done, ?_⟩
          simp only [FullCfg.hstep, FullCfg.flush, hmacFlush, bind, Except.bind, Bool.false_eq_true,
            if_false]
      obtain ⟨o, ho⟩ := this
      exact ⟨o :: outs, by simp only [FullCfg.hrun, ho, ih, bind, Except.bind]⟩
  obtain ⟨outs, h2⟩ := hrun
  exact ⟨_, _, outs, ho, h2, hr len hl⟩

example : (∀ op ∈ ([.file (.read 3 100), .readHeader 2, .flush, .file .reopen] : List Spec.HOp), quiet op) ∧
    8 ≤ (Toy.full false).headerSize := ⟨by simp [quiet], by decide⟩

end Securefs.Props

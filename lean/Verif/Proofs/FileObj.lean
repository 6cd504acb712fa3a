import Verif.Proofs.FullStream
import Verif.Proofs.FileAttr
import Verif.Proofs.Siv
import Verif.Spec.FileObj
/-!
# Lemmas about open files of the full format
-/

namespace Securefs.FileEnv

open Securefs Spec FullCfg

variable {E : FileEnv}

/-! ## Keys -/

/-- Cutting a concatenation of pieces of 32 bytes. -/
theorem cut_at {x y : Bytes} (h : x.length = 32) (n : Nat) : (x ++ y).drop (32 + n) = y.drop n ∧ (x ++ y).take 32 = x := by
  constructor
  · rw [← h, List.drop_length_add_append]
  · rw [← h, List.take_left]

theorem quarters {a b c d : Bytes} (l1 : a.length = 32) (l2 : b.length = 32) (l3 : c.length = 32) (l4 : d.length = 32) {g : Bytes}
    (hg : g = a ++ (b ++ (c ++ d))) :
    g.take 32 = a ∧ (g.drop 32).take 32 = b ∧ (g.drop (2 * 32)).take 32 = c ∧ (g.drop (3 * 32)).take 32 = d := by
  subst hg
  have c1 : (a ++ (b ++ (c ++ d))).drop 32 = b ++ (c ++ d) := (cut_at l1 0).1
  have c2 : (a ++ (b ++ (c ++ d))).drop 64 = c ++ d := ((cut_at l1 32).1).trans (cut_at l2 0).1
  have c3 : (a ++ (b ++ (c ++ d))).drop 96 = d := ((cut_at l1 64).1).trans (((cut_at l2 32).1).trans (cut_at l3 0).1)
  refine ⟨(cut_at l1 0).2, ?_, ?_, ?_⟩
  · rw [c1]; exact (cut_at l2 0).2
  · rw [show 2 * 32 = 64 from rfl, c2]; exact (cut_at l3 0).2
  · rw [show 3 * 32 = 96 from rfl, c3, ← l4, List.take_length]

theorem keys_ok (hH : ∀ k m, (E.hmac k m).length = 32) (id : Bytes) :
    E.keys id = .ok { data := fileSecret E id 1, «meta» := fileSecret E id 2, xattrValue := fileSecret E id 3, xattrName := fileSecret E id 3,
                      padding := if E.maxPadding > 0 then fileSecret E id 4 else zeros 32 } := by
  have l : ∀ k, (fileSecret E id (k + 1)).length = 32 := fun k => hH _ _
  unfold keys
  by_cases h : E.maxPadding > 0
  · rw [if_pos h, if_pos h]
    have e : hkdf E.hmac E.master [] id (4 * 32) = .ok (fileSecret E id 1 ++ (fileSecret E id 2 ++ (fileSecret E id 3 ++ fileSecret E id 4))) := by
      rw [hkdf, if_neg (by simp), hkdfExpand_spec hH _ _ _ (by omega), Spec.hkdfExpand]
      have hal := hkdfAll_length hH E.master id 4
      rw [List.take_of_length_le (by rw [show (4 * 32 + 31) / 32 = 4 from rfl]; omega)]
      simp only [show (4 * 32 + 31) / 32 = 4 from rfl, hkdfAll, fileSecret, List.nil_append, List.append_assoc]
    rw [e]
    have l1 := l 0
    have l2 := l 1
    have l3 := l 2
    have l4 := l 3
    simp only [Nat.zero_add, Nat.reduceAdd] at l1 l2 l3 l4
    generalize fileSecret E id 1 = a at *
    generalize fileSecret E id 2 = b at *
    generalize fileSecret E id 3 = c at *
    generalize fileSecret E id 4 = d at *
    have hlen : (a ++ (b ++ (c ++ d))).length = 128 := by simp only [List.length_append]; omega
    obtain ⟨q1, q2, q3, q4⟩ := quarters l1 l2 l3 l4 (g := (a ++ (b ++ (c ++ d))) ++ zeros (4 * 32 - (a ++ (b ++ (c ++ d))).length))
      (by rw [hlen]; simp [zeros])
    dsimp only
    rw [q1, q2, q3, q4]
  · rw [if_neg h, if_neg h]
    have e : hkdf E.hmac E.master [] id (3 * 32) = .ok (fileSecret E id 1 ++ (fileSecret E id 2 ++ fileSecret E id 3)) := by
      rw [hkdf, if_neg (by simp), hkdfExpand_spec hH _ _ _ (by omega), Spec.hkdfExpand]
      have hal := hkdfAll_length hH E.master id 3
      rw [List.take_of_length_le (by rw [show (3 * 32 + 31) / 32 = 3 from rfl]; omega)]
      simp only [show (3 * 32 + 31) / 32 = 3 from rfl, hkdfAll, fileSecret, List.nil_append, List.append_assoc]
    rw [e]
    have l1 := l 0
    have l2 := l 1
    have l3 := l 2
    simp only [Nat.zero_add, Nat.reduceAdd] at l1 l2 l3
    generalize fileSecret E id 1 = a at *
    generalize fileSecret E id 2 = b at *
    generalize fileSecret E id 3 = c at *
    have hlen : (a ++ (b ++ c)).length = 96 := by simp only [List.length_append]; omega
    obtain ⟨q1, q2, q3, q4⟩ := quarters l1 l2 l3 (show (zeros 32).length = 32 by simp [zeros])
      (g := (a ++ (b ++ c)) ++ zeros (4 * 32 - (a ++ (b ++ c)).length)) (by rw [hlen]; simp)
    dsimp only
    rw [q1, q2, q3, q4]

/-- The number of padding bytes. -/
def padLen : Option Nat → Nat
  | none => 0
  | some p => p

theorem padding_ok (hE : E.maxPadding.toNat + 1 < 2 ^ 32) (K : FileKeys) : ∃ pad, E.padding K = .ok pad ∧ padLen pad ≤ E.maxPadding.toNat := by
  unfold padding
  by_cases h : E.maxPadding > 0
  · have e : (E.maxPadding + 1).toNat = E.maxPadding.toNat + 1 := by
      rw [UInt32.toNat_add]
      exact Nat.mod_eq_of_lt hE
    have hne : ¬ E.maxPadding + 1 = 0 := by
      intro hc
      rw [hc] at e
      exact absurd e (by simp)
    rw [if_pos h, if_neg hne]
    refine ⟨_, rfl, ?_⟩
    show _ % _ ≤ _
    rw [e]
    exact Nat.le_of_lt_succ (Nat.mod_lt _ (by omega))
  · rw [if_neg h]
    exact ⟨none, rfl, Nat.zero_le _⟩

theorem full_wf (hE : FileEnvOk E) (id : Bytes) (K : FileKeys) : (E.full id K).WF where
  bs_pos := hE.bs_pos
  iv_ge := hE.iv_ge
  gcm := hE.gcm _
  rng := hE.rng
  hm_len := hE.hmac_len _

/-! ## The relation to the ideal file -/

theorem stream_ok (hE : FileEnvOk E) (id : Bytes) (f : OpenFile) (hp : padLen f.pad ≤ fullMaxBlocks * E.blockSize) (hd : Bool) (H : Bytes) :
    (E.stream id f).Refines (PaddedRepr (FullCfg.Repr (E.full id f.keys) hd H) (padLen f.pad)) (fullMaxBlocks * E.blockSize - padLen f.pad) := by
  have hr := stream_refines (full_wf hE id f.keys) hd H
  obtain ⟨K, pad, attr, st⟩ := f
  cases pad with
  | some p => exact padded_refines hr p hp []
  | none =>
    have hs : E.stream id ⟨K, none, attr, st⟩ = (E.full id K).stream := rfl
    rw [hs]
    refine ⟨?_, ?_, ?_, ?_, ?_⟩
    · rintro st c off len ⟨p, h0, hR⟩ hl
      rw [List.length_eq_zero_iff.mp h0] at hR
      exact hr.read_ok off len hR hl
    · rintro st c off d ⟨p, h0, hR⟩ hl
      rw [List.length_eq_zero_iff.mp h0] at hR
      obtain ⟨st', h1, h2⟩ := hr.write_ok off d hR hl
      exact ⟨st', h1, [], rfl, h2⟩
    · rintro st c n ⟨p, h0, hR⟩ hl
      rw [List.length_eq_zero_iff.mp h0] at hR
      obtain ⟨st', h1, h2⟩ := hr.resize_ok n hR hl
      exact ⟨st', h1, [], rfl, h2⟩
    · rintro st c ⟨p, h0, hR⟩
      rw [List.length_eq_zero_iff.mp h0] at hR
      exact hr.size_ok hR
    · rintro st c ⟨p, h0, hR⟩
      rw [List.length_eq_zero_iff.mp h0] at hR
      obtain ⟨st', h1, h2⟩ := hr.reopen_ok hR
      exact ⟨st', h1, [], rfl, h2⟩

/-- The object has the contents `c`; `stored` is the header in the backing file. -/
structure ObjRepr (E : FileEnv) (id : Bytes) (f : OpenFile) (c : Bytes) (stored : Option Bytes) (H : Bytes) : Prop where
  keys : E.keys id = .ok f.keys
  pad : E.padding f.keys = .ok f.pad
  padle : padLen f.pad ≤ E.maxPadding.toNat
  repr : PaddedRepr (FullCfg.Repr (E.full id f.keys) stored.isSome H) (padLen f.pad) f.st c
  hdr : ∀ h, stored = some h → HeaderIs (E.full id f.keys) H h
  inv : AttrFile.Inv E.storeTime ⟨f.attr, stored⟩

/-- The object is the ideal file. -/
def ObjIs (E : FileEnv) (id : Bytes) (f : OpenFile) (p : PlainFile) : Prop :=
  ∃ stored H, ObjRepr E id f p.content stored H ∧ attrsOf E.storeTime f.attr = p.attrs

theorem ObjRepr.room (hE : FileEnvOk E) {id f c stored H} (hR : ObjRepr E id f c stored H) : padLen f.pad ≤ fullMaxBlocks * E.blockSize :=
  Nat.le_trans hR.padle hE.room

/-- Changing the attributes. -/
theorem ObjRepr.setAttr {id f c stored H} (hR : ObjRepr E id f c stored H) {a : FileAttr} (hi : AttrFile.Inv E.storeTime ⟨a, stored⟩) :
    ObjRepr E id { f with attr := a } c stored H :=
  ⟨hR.keys, hR.pad, hR.padle, hR.repr, hR.hdr, hi⟩

theorem flushObj_ok (hE : FileEnvOk E) {id f c stored H} (hR : ObjRepr E id f c stored H) :
    ∃ f' h H', E.flushObj id f = .ok f' ∧ ObjRepr E id f' c (some h) H' ∧ f'.attr = { f.attr with dirty := false } ∧ f'.st.metaS.dirty = false := by
  have hC := full_wf hE id f.keys
  obtain ⟨p, hp, hr⟩ := hR.repr
  have key : ∃ f1 h H1, E.writeAttr id f = .ok f1 ∧
      ObjRepr E id f1 c (some h) H1 ∧ f1.attr = { f.attr with dirty := false } ∧ f1.keys = f.keys ∧ f1.pad = f.pad := by
    by_cases hd : f.attr.dirty = true
    · obtain ⟨h, h1, h2, h3⟩ := FileAttr.header_roundtrip E.storeTime f.attr hR.inv.1
      obtain ⟨st', H', g1, g2, g3⟩ := writeHeader_ok hC hr h (by rw [h2]; exact Nat.le_refl _)
      have ez : h ++ zeros ((E.full id f.keys).headerSize - h.length) = h := by
        rw [h2, show (E.full id f.keys).headerSize = FileAttr.headerSize E.storeTime from rfl, Nat.sub_self]
        simp [zeros]
      refine ⟨{ f with st := st', attr := { f.attr with dirty := false } }, h, H', ?_, ⟨hR.keys, hR.pad, hR.padle, ⟨p, hp, g2⟩, ?_, ?_⟩, rfl, rfl, rfl⟩
      · unfold writeAttr
        rw [if_pos hd, h1]
        simp only [bind, Except.bind, g1]
      · rintro h' e
        cases e
        rw [ez] at g3
        exact g3
      · exact ⟨hR.inv.1, fun _ => ⟨h, rfl, h3⟩⟩
    · have hd' : f.attr.dirty = false := by simpa using hd
      obtain ⟨h, h1, h2⟩ := hR.inv.2 hd'
      dsimp only at h1
      subst h1
      refine ⟨f, h, H, by unfold writeAttr; rw [if_neg hd], hR, ?_, rfl, rfl⟩
      obtain ⟨K, pad, attr, st⟩ := f
      obtain ⟨⟩ := attr
      dsimp only at hd' ⊢
      rw [hd']
  obtain ⟨f1, h, H1, e1, R1, ea, ek, ep⟩ := key
  obtain ⟨p1, hp1, hr1⟩ := R1.repr
  have hC1 := full_wf hE id f1.keys
  obtain ⟨st2, g1, g2, g3, g4⟩ := flush_ok hC1 hr1
  obtain ⟨st3, k1, k2, k3, k4⟩ := flush_ok hC1 g2
  refine ⟨{ f1 with st := st3 }, h, H1, ?_, ⟨R1.keys, R1.pad, R1.padle, ⟨p1, hp1, k2⟩, R1.hdr, R1.inv⟩, ea, k3⟩
  unfold flushObj
  simp only [bind, Except.bind, e1, g1, k1]

/-- Opening the backing files of a flushed file. -/
theorem openObj_ok (hE : FileEnvOk E) {id f c h H} (hR : ObjRepr E id f c (some h) H) (hd : f.st.metaS.dirty = false) (ha : f.attr.dirty = false)
    (rng : Nat) : ∃ st, E.openObj id f.st.data f.st.metaS.file rng = .ok { f with st := st } ∧ ObjRepr E id { f with st := st } c (some h) H := by
  obtain ⟨p, hp, hr⟩ := hR.repr
  have hC := full_wf hE id f.keys
  have hv := hr.valid hd
  let st : FullSt := ⟨f.st.data, ⟨f.st.metaS.file, false⟩, rng⟩
  have hop : (E.full id f.keys).openFile f.st.data f.st.metaS.file rng = .ok st := by
    simp only [openFile, hmacOpen_ok (E.full id f.keys).check hv, bind, Except.bind]
    rfl
  have hr' : FullCfg.Repr (E.full id f.keys) true H st (p ++ c) := ⟨hr.hlen, hr.pl, hr.enc, fun _ => hv⟩
  have hh := hR.hdr h rfl
  have hrd : (E.full id f.keys).readHeader st (FileAttr.headerSize E.storeTime) = .ok (some h) := by
    have e := readHeader_ok hr' hh (by unfold encHeaderSize; omega) (FileAttr.headerSize E.storeTime) (Nat.le_refl _)
    rw [e, List.take_of_length_le (show h.length ≤ FileAttr.headerSize E.storeTime from Nat.le_of_eq hh.1)]
  obtain ⟨h', e1, e2⟩ := hR.inv.2 ha
  cases e1
  refine ⟨st, ?_, hR.keys, hR.pad, hR.padle, ⟨p, hp, hr'⟩, hR.hdr, hR.inv⟩
  unfold openObj
  simp only [bind, Except.bind, hR.keys, hop, hrd, e2, hR.pad]
  have hsz : f.st.data.length = (p ++ c).length := (stream_refines hC true H).size_ok (st := st) hr'
  obtain ⟨K, pad, attr, s0⟩ := f
  cases pad with
  | none => rfl
  | some q =>
    dsimp only [padLen] at hp hsz ⊢
    rw [if_neg (show ¬ st.data.length < q by rw [show st.data = s0.data from rfl, hsz, List.length_append]; omega)]

theorem reopenObj_ok (hE : FileEnvOk E) {id f c stored H} (hR : ObjRepr E id f c stored H) (rng : Nat) :
    ∃ f' h H', E.reopenObj id rng f = .ok f' ∧ ObjRepr E id f' c (some h) H' ∧ f'.attr = { f.attr with dirty := false } := by
  obtain ⟨f1, h, H1, e1, R1, ea, hd⟩ := flushObj_ok hE hR
  obtain ⟨st, e2, R2⟩ := openObj_ok hE R1 hd (by rw [ea]) rng
  refine ⟨{ f1 with st := st }, h, H1, ?_, R2, ea⟩
  unfold reopenObj
  simp only [bind, Except.bind, e1, e2]

/-- The constructor over empty backing files. -/
theorem openObj_new (hE : FileEnvOk E) (id : Bytes) (rng : Nat) :
    ∃ f H, E.openObj id [] [] rng = .ok f ∧ f.attr = FileAttr.setNumFree 0 FileAttr.blank ∧
      ObjRepr E id f [] none H := by
  have hk := keys_ok hE.hmac_len id
  generalize hK : (FileKeys.mk _ _ _ _ _) = K at hk
  obtain ⟨pad, hpad, hle⟩ := padding_ok hE.padding K
  have hC := full_wf hE id K
  obtain ⟨st, hop, hr⟩ := openFile_empty rng hC
  have hst : st = ⟨[], ⟨[], false⟩, rng⟩ := by
    have : (E.full id K).openFile [] [] rng = .ok ⟨[], ⟨[], false⟩, rng⟩ := by
      simp only [openFile, hmacOpen_ok (E.full id K).check (Or.inl rfl : HmacValid (E.full id K).hm (E.full id K).id []), bind, Except.bind]
    rw [this] at hop
    exact (Except.ok.inj hop).symm
  have hrd : (E.full id K).readHeader st (FileAttr.headerSize E.storeTime) = .ok none := by
    rw [hst]
    unfold FullCfg.readHeader uncheckedReadHeader
    rw [if_neg (show ¬ FileAttr.headerSize E.storeTime > (E.full id K).headerSize from Nat.lt_irrefl _)]
    have : hmacRead ⟨[], false⟩ 0 (E.full id K).encHeaderSize = [] := by simp [hmacRead, ufRead]
    simp only [this, List.length_nil, if_true, bind, Except.bind, Option.map]
  have inv : AttrFile.Inv E.storeTime ⟨FileAttr.setNumFree 0 FileAttr.blank, none⟩ := by
    refine ⟨?_, fun h => by cases h⟩
    cases E.storeTime with
    | false => exact ⟨rfl, rfl, rfl, rfl⟩
    | true => exact ⟨by decide, by decide, by decide, by decide⟩
  have hroom : padLen pad ≤ fullMaxBlocks * E.blockSize := Nat.le_trans hle hE.room
  cases pad with
  | none =>
    refine ⟨⟨K, none, FileAttr.setNumFree 0 FileAttr.blank, st⟩, _, ?_, rfl, hk, hpad, hle, ⟨[], rfl, hr⟩, (fun h e => by cases e), inv⟩
    unfold openObj
    simp only [bind, Except.bind, hk, hop, hrd, hpad, FileAttr.readHeader]
  | some p =>
    have hr2 : FullCfg.Repr (E.full id K) false (zeros (E.full id K).encHeaderSize) { st with rng := st.rng + 1 } [] := ⟨hr.hlen, hr.pl, hr.enc, hr.valid⟩
    by_cases hlt : st.data.length < p
    · obtain ⟨st', k1, k2⟩ := paddedOpen_empty (stream_refines hC false _) p hroom (E.rng.draw st.rng p) (hE.rng.len _ _) hr2
      refine ⟨⟨K, some p, FileAttr.setNumFree 0 FileAttr.blank, st'⟩, _, ?_, rfl, hk, hpad, hle, k2, (fun h e => by cases e), inv⟩
      unfold openObj
      simp only [bind, Except.bind, hk, hop, hrd, hpad, FileAttr.readHeader]
      rw [if_pos hlt, k1]
    · have hp0 : p = 0 := by
        rw [hst] at hlt
        exact Nat.le_zero.mp (Nat.not_lt.mp hlt)
      refine ⟨⟨K, some p, FileAttr.setNumFree 0 FileAttr.blank, st⟩, _, ?_, rfl, hk, hpad, hle, ⟨[], hp0.symm, hr⟩, (fun h e => by cases e), inv⟩
      unfold openObj
      simp only [bind, Except.bind, hk, hop, hrd, hpad, FileAttr.readHeader]
      rw [if_neg hlt]

/-! ## Calls -/

theorem attr_step {id f c stored H} (hR : ObjRepr E id f c stored H) (now : TimeSpec) (hn : ValidTime now) (op : AttrOp) (hv : AttrOpValid op) :
    ObjRepr E id { f with attr := E.attrCall now op f.attr } c stored H ∧
      attrsOf E.storeTime (E.attrCall now op f.attr) = attrStep (attrsOf E.storeTime f.attr) (stamp now) op := by
  by_cases hx : op = .flush ∨ op = .reload
  · rcases hx with rfl | rfl <;> exact ⟨hR, rfl⟩
  · obtain ⟨f', h1, h2, h3⟩ := AttrFile.step_ok hR.inv now hn op hv
    have : f' = ⟨E.attrCall now op f.attr, stored⟩ := by
      cases op <;> first | exact (Except.ok.inj h1).symm | exact absurd (by simp) hx
    rw [this] at h2 h3
    exact ⟨hR.setAttr h2, h3⟩

theorem callObj_ok (hE : FileEnvOk E) {id f p} (hR : ObjIs E id f p) (now : TimeSpec) (hn : ValidTime now) (c : FileCall)
    (hw : CallWithin (2 ^ 30 * E.blockSize - E.maxPadding.toNat) c) :
    ∃ f' a, E.callObj id now f c = .ok (f', a) ∧ ObjIs E id f' (plainStep (stamp now) p c).1 ∧ plainAnswer a = (plainStep (stamp now) p c).2 := by
  obtain ⟨stored, H, hR, ha⟩ := hR
  have hroom := hR.room hE
  have hle : 2 ^ 30 * E.blockSize - E.maxPadding.toNat ≤ fullMaxBlocks * E.blockSize - padLen f.pad := by
    have := hR.padle
    unfold fullMaxBlocks
    omega
  cases c with
  | read off len =>
    obtain ⟨R1, e1⟩ := attr_step hR now hn .read trivial
    have hs := (stream_ok hE id { f with attr := E.attrCall now .read f.attr } hroom stored.isSome H).read_ok off len R1.repr (Nat.le_trans hw hle)
    refine ⟨_, .bytes (Spec.read p.content off len), ?_, ⟨stored, H, R1, by rw [e1, ha]; rfl⟩, rfl⟩
    unfold callObj readObj
    dsimp only [attrCall] at hs ⊢
    rw [hs]
    rfl
  | write off d =>
    obtain ⟨R1, e1⟩ := attr_step hR now hn .write trivial
    obtain ⟨st', k1, k2⟩ := (stream_ok hE id { f with attr := E.attrCall now .write f.attr } hroom stored.isSome H).write_ok off d R1.repr (Nat.le_trans hw hle)
    refine ⟨{ f with attr := E.attrCall now .write f.attr, st := st' }, .done, ?_,
      ⟨stored, H, ⟨R1.keys, R1.pad, R1.padle, k2, R1.hdr, R1.inv⟩, by rw [e1, ha]; rfl⟩, rfl⟩
    unfold callObj writeObj
    dsimp only [attrCall] at k1 ⊢
    rw [k1]
    rfl
  | truncate n =>
    obtain ⟨R1, e1⟩ := attr_step hR now hn .write trivial
    obtain ⟨st', k1, k2⟩ := (stream_ok hE id { f with attr := E.attrCall now .write f.attr } hroom stored.isSome H).resize_ok n R1.repr (Nat.le_trans hw hle)
    refine ⟨{ f with attr := E.attrCall now .write f.attr, st := st' }, .done, ?_,
      ⟨stored, H, ⟨R1.keys, R1.pad, R1.padle, k2, R1.hdr, R1.inv⟩, by rw [e1, ha]; rfl⟩, rfl⟩
    unfold callObj truncateObj
    dsimp only [attrCall] at k1 ⊢
    rw [k1]
    rfl
  | attr op =>
    obtain ⟨R1, e1⟩ := attr_step hR now hn op hw
    exact ⟨_, .done, rfl, ⟨stored, H, R1, by rw [e1, ha]; rfl⟩, rfl⟩
  | stat =>
    refine ⟨f, _, rfl, ⟨stored, H, hR, ha⟩, ?_⟩
    have hs := (stream_ok hE id f hroom stored.isSome H).size_ok hR.repr
    show PlainAnswer.stat _ _ _ _ _ _ = PlainAnswer.stat _ _ _ _ _ _
    rw [hs, ← ha]
    show PlainAnswer.stat _ _ _ _ _ (Option.map _ (if _ then _ else _)) = PlainAnswer.stat _ _ _ _ _ (if _ then _ else _)
    cases E.storeTime <;> rfl
  | flush =>
    obtain ⟨f1, h, H1, k1, R1, ea, _⟩ := flushObj_ok hE hR
    refine ⟨f1, .done, ?_, ⟨some h, H1, R1, by rw [ea]; exact ha⟩, rfl⟩
    unfold callObj
    simp only [bind, Except.bind, k1]
  | reopen rng =>
    obtain ⟨f1, h, H1, k1, R1, ea⟩ := reopenObj_ok hE hR rng
    refine ⟨f1, .done, ?_, ⟨some h, H1, R1, by rw [ea]; exact ha⟩, rfl⟩
    unfold callObj
    simp only [bind, Except.bind, k1]

theorem runObj_ok (hE : FileEnvOk E) {id : Bytes} (cs : List (TimeSpec × FileCall)) : ∀ {f p}, ObjIs E id f p →
    (∀ c ∈ cs, ValidTime c.1 ∧ CallWithin (2 ^ 30 * E.blockSize - E.maxPadding.toNat) c.2) →
    ∃ f' as, E.runObj id f cs = .ok (f', as) ∧ ObjIs E id f' (plainRun p cs).1 ∧ as.map plainAnswer = (plainRun p cs).2 := by
  induction cs with
  | nil => intro f p hR _; exact ⟨f, [], rfl, hR, rfl⟩
  | cons c cs ih =>
    intro f p hR hw
    obtain ⟨now, c⟩ := c
    have h0 := hw (now, c) (by simp)
    obtain ⟨f1, a, e1, R1, v1⟩ := callObj_ok hE hR now h0.1 c h0.2
    obtain ⟨f2, as, e2, R2, v2⟩ := ih R1 fun x hx => hw x (List.mem_cons_of_mem _ hx)
    refine ⟨f2, a :: as, ?_, R2, ?_⟩
    · unfold runObj
      simp only [bind, Except.bind, e1, e2]
    · rw [List.map_cons, v1, v2]; rfl

theorem createObj_ok (hE : FileEnvOk E) (id : Bytes) (now : TimeSpec) (hn : ValidTime now) (osUid osGid mode uid gid : UInt32) (rng : Nat) :
    ∃ f, E.createObj id now osUid osGid mode uid gid rng = .ok f ∧ ObjIs E id f (plainNew E.storeTime now osUid osGid mode uid gid) := by
  obtain ⟨f, H, e1, ea, R1⟩ := openObj_new hE id rng
  refine ⟨{ f with attr := f.attr.initializeEmpty E.storeTime now osUid osGid mode uid gid }, ?_, none, H, R1.setAttr ?_, ?_⟩
  · unfold createObj
    simp only [bind, Except.bind, e1]
  · rw [ea]
    refine ⟨?_, fun h => by cases h⟩
    cases E.storeTime with
    | false => exact ⟨rfl, rfl, rfl, rfl⟩
    | true => exact ⟨hn, hn, hn, hn⟩
  · have hu : ∀ u v : UInt32, (if u = 0xffffffff then v else u).toNat = if u.toNat = keepOwner then v.toNat else u.toNat := by
      intro u v
      by_cases h : u = 0xffffffff
      · rw [if_pos h, h, if_pos (show (0xffffffff : UInt32).toNat = keepOwner from rfl)]
      · rw [if_neg h, if_neg]
        intro hc
        exact h (UInt32.toNat_inj.mp hc)
    unfold attrsOf FileAttr.initializeEmpty plainNew
    dsimp only
    rw [hu, hu]
    cases E.storeTime <;> rfl

theorem openObj_parts {id data metaF : Bytes} {rng : Nat} {f : OpenFile} (h : E.openObj id data metaF rng = .ok f) :
    E.keys id = .ok f.keys ∧ E.padding f.keys = .ok f.pad := by
  unfold openObj at h
  cases hk : E.keys id with
  | error e => rw [hk] at h; cases h
  | ok K =>
    rw [hk] at h
    simp only [bind, Except.bind] at h
    cases ho : (E.full id K).openFile data metaF rng with
    | error e => rw [ho] at h; cases h
    | ok st =>
      rw [ho] at h
      dsimp only at h
      cases hr : (E.full id K).readHeader st (FileAttr.headerSize E.storeTime) with
      | error e => rw [hr] at h; cases h
      | ok b =>
        rw [hr] at h
        dsimp only at h
        cases ha : FileAttr.readHeader E.storeTime b with
        | error e => rw [ha] at h; cases h
        | ok a =>
          rw [ha] at h
          dsimp only at h
          cases hp : E.padding K with
          | error e => rw [hp] at h; cases h
          | ok pad =>
            rw [hp] at h
            cases pad with
            | none => rw [← Except.ok.inj h]; exact ⟨rfl, hp⟩
            | some p =>
              dsimp only at h
              split at h
              · cases hs : paddedOpen (E.full id K).stream p (E.rng.draw st.rng p) { st with rng := st.rng + 1 } with
                | error e => rw [hs] at h; cases h
                | ok st' => rw [hs] at h; rw [← Except.ok.inj h]; exact ⟨rfl, hp⟩
              · rw [← Except.ok.inj h]; exact ⟨rfl, hp⟩

theorem openObj_keys {id data metaF : Bytes} {rng : Nat} {f : OpenFile} (h : E.openObj id data metaF rng = .ok f) : E.keys id = .ok f.keys :=
  (openObj_parts h).1

theorem openObj_pad {id data metaF : Bytes} {rng : Nat} {f : OpenFile} (h : E.openObj id data metaF rng = .ok f) : E.padding f.keys = .ok f.pad :=
  (openObj_parts h).2

theorem bigEndian_eq (b : Bytes) : bigEndian b = numberOf b := by
  have key : ∀ (b : Bytes) (n : Nat), b.foldl (fun n x => n * 256 + x.toNat) n = n * 256 ^ b.length + numberOf b := by
    intro b
    induction b with
    | nil => intro n; simp [numberOf]
    | cons x b ih =>
      intro n
      rw [List.foldl_cons, ih, numberOf, List.length_cons, Nat.pow_succ, Nat.add_mul, Nat.mul_assoc, Nat.mul_comm 256, Nat.add_assoc]
  unfold bigEndian
  rw [key, Nat.zero_mul, Nat.zero_add]

end Securefs.FileEnv

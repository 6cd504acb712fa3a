import Verif.Proofs.Layout
import Verif.Props.Config
import Verif.Props.FileAttr
import Verif.Props.SimpleDir
import Verif.Props.Btree
import Verif.Props.FileTable
import Verif.Props.Names
import Verif.Props.LiteFs
import Verif.Props.FullXattr
import Verif.Model.LiteVolume
import Verif.Model.Suffix
/-!
# C118: what is stored has the layout that other versions and other implementations know
-/

namespace Securefs.Props

open Spec

/-! ### The configuration -/

theorem isEnc {e : EncParams} (he : e.Ok) :
    IsEncParams e.salt e.iv e.mac e.ciphertext (e.argon2.map fun a => (a.time, a.memory, a.parallelism)) e.serialize := by
  obtain ⟨salt, iv, mac, ct, argon⟩ := e
  obtain ⟨h1, h2, h3, h4, h5⟩ := he
  dsimp only at h1 h2 h3 h4 h5
  have h4' : ∀ f ∈ bytesField 1 salt ++ bytesField 2 iv ++ bytesField 3 mac ++ bytesField 4 ct, FieldOk f :=
    forall_append (forall_append (forall_append (bytesField_ok (by decide) h1) (bytesField_ok (by decide) h2)) (bytesField_ok (by decide) h3))
      (bytesField_ok (by decide) h4)
  unfold EncParams.serialize EncParams.fields
  dsimp only
  cases argon with
  | none =>
    show ProtoMessage _ (putFields (_ ++ []))
    rw [List.append_nil]
    exact Lay.message_of (Lay.four salt iv mac ct) h4'
  | some a =>
    have hs := a.length
    refine ⟨putFields a.fields, Lay.message_of (Lay.argon_fields a) (Argon2Params.fields_ok (h5 a rfl)), Lay.message_of ?_ ?_⟩
    · rw [List.map_append, ← Lay.four]; rfl
    · refine forall_append h4' fun f hf => ?_
      rw [List.mem_singleton.mp hf]
      exact ⟨show 0 < 5 by decide, show 5 < 2 ^ 29 by decide, show (putFields a.fields).length < _ by omega⟩

/-- C118: the configuration file is the message `EncryptedSecurefsParams` in the wire format of protocol buffers, with the numbers of
    `params.proto`; and whoever writes that message, it is read as what it says. -/
theorem C118_encrypted (e : EncParams) (he : e.Ok) (stored : Bytes) :
    (IsEncParams e.salt e.iv e.mac e.ciphertext (e.argon2.map fun a => (a.time, a.memory, a.parallelism)) stored ↔ stored = e.serialize) ∧
    (IsEncParams e.salt e.iv e.mac e.ciphertext (e.argon2.map fun a => (a.time, a.memory, a.parallelism)) stored → EncParams.parse stored = some e) := by
  have key : IsEncParams e.salt e.iv e.mac e.ciphertext (e.argon2.map fun a => (a.time, a.memory, a.parallelism)) stored → stored = e.serialize := by
    intro h
    have h' := isEnc he
    generalize e.serialize = x at h'
    cases ha : e.argon2 with
    | none =>
      rw [ha] at h h'
      exact Lay.message_unique h h'
    | some a =>
      rw [ha] at h h'
      obtain ⟨s, h1, h2⟩ := h
      obtain ⟨s', h1', h2'⟩ := h'
      rw [Lay.message_unique h1 h1'] at h2
      exact Lay.message_unique h2 h2'
  exact ⟨⟨key, fun h => h ▸ isEnc he⟩, fun h => by rw [key h]; exact C62_encrypted e he⟩

/- Salt `01 02`, no IV, a MAC, a ciphertext, and a cost of 300. -/
example : (EncParams.mk [1, 2] [] [4] [5, 6] (some ⟨300, 0, 4⟩)).Ok ∧
    (EncParams.mk [1, 2] [] [4] [5, 6] (some ⟨300, 0, 4⟩)).serialize = [10, 2, 1, 2, 26, 1, 4, 34, 2, 5, 6, 42, 5, 8, 172, 2, 24, 4] := by
  refine ⟨⟨by decide, by decide, by decide, by decide, fun a ha => ?_⟩, by decide +kernel⟩
  cases ha
  exact ⟨by decide, by decide, by decide⟩

theorem isSize {s : SizeParams} (h : s.Ok) : IsSizeParams s (putFields s.fields) := Lay.message_of (Lay.size_fields s) (SizeParams.fields_ok h)
theorem isLite {l : LiteParams} (h : l.Ok) : IsLiteParams l (putFields l.fields) := Lay.message_of (Lay.lite_fields l) (LiteParams.fields_ok h)
theorem isFull {f : FullParams} (h : f.Ok) : IsFullParams f (putFields f.fields) := Lay.message_of (Lay.full_fields f) (FullParams.fields_ok h)

theorem isDec {s : SizeParams} {fmt : FormatParams} (hd : (DecParams.mk (some s) fmt).Ok) : IsDecParams s fmt (DecParams.mk (some s) fmt).serialize := by
  have hs := hd.1 s rfl
  have hok := DecParams.fields_ok hd
  refine ⟨putFields s.fields, isSize hs, ?_⟩
  cases fmt with
  | none => exact Lay.message_of rfl hok
  | lite l => exact ⟨putFields l.fields, isLite (hd.2.1 l rfl), Lay.message_of rfl hok⟩
  | full f => exact ⟨putFields f.fields, isFull (hd.2.2 f rfl), Lay.message_of rfl hok⟩

/-- C118: what is encrypted in it is the message `DecryptedSecurefsParams`, with the numbers of `params.proto`; and whoever writes that message, it
    is read as what it says. -/
theorem C118_parameters (s : SizeParams) (fmt : FormatParams) (hd : (DecParams.mk (some s) fmt).Ok) (stored : Bytes) :
    (IsDecParams s fmt stored ↔ stored = (DecParams.mk (some s) fmt).serialize) ∧
    (IsDecParams s fmt stored → DecParams.parse stored = some ⟨some s, fmt⟩) := by
  have key : IsDecParams s fmt stored → stored = (DecParams.mk (some s) fmt).serialize := by
    intro h
    have h' := isDec hd
    generalize (DecParams.mk (some s) fmt).serialize = x at h'
    obtain ⟨a, h1, h2⟩ := h
    obtain ⟨a', h1', h2'⟩ := h'
    rw [Lay.message_unique h1 h1'] at h2
    cases fmt with
    | none => exact Lay.message_unique h2 h2'
    | lite l =>
      obtain ⟨b, h3, h4⟩ := h2
      obtain ⟨b', h3', h4'⟩ := h2'
      rw [Lay.message_unique h3 h3'] at h4
      exact Lay.message_unique h4 h4'
    | full f =>
      obtain ⟨b, h3, h4⟩ := h2
      obtain ⟨b', h3', h4'⟩ := h2'
      rw [Lay.message_unique h3 h3'] at h4
      exact Lay.message_unique h4 h4'
  exact ⟨⟨key, fun h => h ▸ isDec hd⟩, fun h => by rw [key h]; exact C62_parameters_partial _ hd⟩

/- A volume of the full format with stored times and names without case. -/
example : (DecParams.mk (some ⟨4096, 12, 0⟩) (.full ⟨[9, 9], true, false, true, false⟩)).Ok ∧
    (DecParams.mk (some ⟨4096, 12, 0⟩) (.full ⟨[9, 9], true, false, true, false⟩)).serialize =
      [10, 5, 8, 128, 32, 16, 12, 26, 8, 10, 2, 9, 9, 16, 1, 32, 1] := by
  refine ⟨⟨fun s hs => ?_, (fun _ h => nomatch h), fun f hf => ?_⟩, by decide +kernel⟩
  · cases hs; exact ⟨by decide, by decide, by decide⟩
  · cases hf; exact show 2 < 2 ^ 27 by decide

/-! ### The header of a file of the full format -/

theorem numberAt {h : Bytes} {off w v : Nat} (hl : off + w ≤ h.length) (e : fromLE w (h.drop off) = .ok v) : NumberAt h off w v :=
  ⟨hl, (C18_read_write w _ v e).2.1.symm⟩

theorem secs_toNat (x : Int64) : x.toUInt64.toNat = (x.toInt % 2 ^ 64).toNat := by
  show x.toBitVec.toNat = (x.toBitVec.toInt % 2 ^ 64).toNat
  rw [BitVec.toInt_eq_toNat_bmod, show ((2 : Int) ^ 64) = ((2 ^ 64 : Nat) : Int) from rfl, Int.bmod_emod, ← Int.natCast_mod, Int.toNat_natCast,
    Nat.mod_eq_of_lt x.toBitVec.isLt]

theorem nsecs_toNat {t : TimeSpec} (h : ValidTime t) : t.nsec.toUInt64.toUInt32.toNat = t.nsec.toInt.toNat := by
  obtain ⟨h1, h2⟩ := h
  have h0 : (0 : Int64) ≤ t.nsec := by rw [Int64.le_iff_toInt_le]; exact h1
  have e1 : t.nsec.toUInt64.toNat = t.nsec.toInt.toNat := Int64.toNat_toUInt64_of_le h0
  rw [UInt64.toNat_toUInt32, e1]
  exact Nat.mod_eq_of_lt (by omega)

/-- C118: the header of a file of the full format is 32 bytes long, or 80 if times are stored.  It holds seven numbers of four bytes, then the times
    of access, modification, change and birth. -/
theorem C118_header (st : Bool) (a : FileAttr) (ht : FileAttr.TimesOk st a) :
    ∃ h, FileAttr.encodeHeader st a = .ok h ∧ h.length = (if st then 80 else 32) ∧
      NumberAt h 0 4 a.mode.toNat ∧ NumberAt h 4 4 a.uid.toNat ∧ NumberAt h 8 4 a.gid.toNat ∧ NumberAt h 12 4 a.nlink.toNat ∧
      NumberAt h 16 4 a.rootPage.toNat ∧ NumberAt h 20 4 a.startFree.toNat ∧ NumberAt h 24 4 a.numFree.toNat ∧
      (st = true → TimeAt h 28 a.atime.sec.toInt a.atime.nsec.toInt ∧ TimeAt h 40 a.mtime.sec.toInt a.mtime.nsec.toInt ∧
        TimeAt h 52 a.ctime.sec.toInt a.ctime.nsec.toInt ∧ TimeAt h 64 a.btime.sec.toInt a.btime.nsec.toInt) := by
  obtain ⟨h, h1, h2, h3⟩ := FileAttr.encodeHeader_ok st a
  have hl : h.length = (if st then 80 else 32) := h2
  have hl32 : 32 ≤ h.length := by rw [hl]; cases st <;> decide
  have num : ∀ {off v : Nat}, (off, 4, v) ∈ FileAttr.headerFields st a → off ≤ 28 → NumberAt h off 4 v :=
    fun hm ho => numberAt (by omega) (h3 _ hm)
  refine ⟨h, h1, hl, num ?_ (by decide), num ?_ (by decide), num ?_ (by decide), num ?_ (by decide), num ?_ (by decide), num ?_ (by decide),
    num ?_ (by decide), ?_⟩
  all_goals try (simp [FileAttr.headerFields])
  rintro rfl
  have hl80 : h.length = 80 := hl
  obtain ⟨v1, v2, v3, v4⟩ : ValidTime a.atime ∧ ValidTime a.mtime ∧ ValidTime a.ctime ∧ ValidTime a.btime := ht
  have time : ∀ {off : Nat} {t : TimeSpec}, ValidTime t → (off, 8, t.sec.toUInt64.toNat) ∈ FileAttr.headerFields true a →
      (off + 8, 4, t.nsec.toUInt64.toUInt32.toNat) ∈ FileAttr.headerFields true a → off ≤ 64 → TimeAt h off t.sec.toInt t.nsec.toInt := by
    intro off t hv m1 m2 ho
    have n1 := numberAt (show off + 8 ≤ h.length by omega) (h3 _ m1)
    have n2 := numberAt (show off + 8 + 4 ≤ h.length by omega) (h3 _ m2)
    rw [secs_toNat] at n1
    rw [nsecs_toNat hv] at n2
    exact ⟨n1, n2⟩
  refine ⟨time v1 ?_ ?_ (by decide), time v2 ?_ ?_ (by decide), time v3 ?_ ?_ (by decide), time v4 ?_ ?_ (by decide)⟩ <;>
    simp [FileAttr.headerFields, FileAttr.atimeOffset, FileAttr.mtimeOffset, FileAttr.ctimeOffset, FileAttr.btimeOffset, FileAttr.numFlags]

/- A time before 1970. -/
example : FileAttr.TimesOk true { demoAttr with mtime := ⟨-2, 5⟩ } ∧
    (FileAttr.encodeHeader true { demoAttr with mtime := ⟨-2, 5⟩ }).map (fun h => (h.drop 40).take 12) =
      .ok [254, 255, 255, 255, 255, 255, 255, 255, 5, 0, 0, 0] := by
  refine ⟨⟨?_, ?_, ?_, ?_⟩, by decide +kernel⟩ <;> decide

/-! ### Directories -/

/-- C118: a flat directory is a sequence of records of 292 bytes in the order of its names: the name padded with zeros to 256 bytes, the identifier,
    and the type as a number of four bytes. -/
theorem C118_records (cmp : Bytes → Bytes → Int) (l : List DirEntry) (h : FlatMap cmp l) (old : Bytes) :
    sdFlush ⟨l, true, old⟩ = .ok ⟨l, false, (l.map fun e => e.name ++ List.replicate (256 - e.name.length) 0 ++ e.id ++ toLE 4 e.type).flatten⟩ := by
  unfold sdFlush
  rw [if_pos rfl]
  dsimp only
  rw [sdRecords_eq h.2, List.flatMap_def]
  rfl

example : FlatMap binaryCompare [⟨[97], List.replicate 32 5, 8⟩, ⟨[98, 99], List.replicate 32 6, 4⟩] := by
  refine ⟨by decide +kernel, by decide +kernel⟩

/-- C118: a page of the free list holds a zero, the numbers of the next and the previous free page, and zeros; where there is none, the number is
    `2 ^ 32 - 1`, and with that number as root a directory is empty. -/
theorem C118_free (num next prev : Nat) (s s' : BSt) (h : writeFreePage num next prev s = .ok ((), s')) :
    s'.data = Spec.write s.data (pageOff num) (toLE 4 0 ++ toLE 4 next ++ toLE 4 prev ++ List.replicate 4084 0) ∧
    (∀ s : BSt, s.root = 2 ^ 32 - 1 → getRootNode s = .ok (none, s)) ∧ (emptyDir.root = 2 ^ 32 - 1 ∧ emptyDir.start = 2 ^ 32 - 1) := by
  refine ⟨?_, fun s hs => ?_, by decide⟩
  · simp only [writeFreePage, writePage, Except.ok.injEq, Prod.mk.injEq, true_and] at h
    rw [← h]; rfl
  · have e : s.root = invalidPage := hs
    simp only [getRootNode, bind_run (show getSt s = .ok (s, s) from rfl), e, if_true]
    rfl

example : ∃ s', writeFreePage 0 1 (2 ^ 32 - 1) emptyDir = .ok ((), s') ∧ s'.data.take 12 = [0, 0, 0, 0, 1, 0, 0, 0, 255, 255, 255, 255] :=
  ⟨_, rfl, by decide +kernel⟩

/-! ### Names in the data directory -/

/-- C118: where the files of the full format are. -/
theorem C118_paths (id : Bytes) :
    (∃ d m, pathsV1 id = .ok (d, m) ∧ BackingPaths true id d m) ∧ (∃ d m, pathsV2 id = .ok (d, m) ∧ BackingPaths false id d m) := by
  have hx : ∀ b, hexify b = .ok (hexText b) := C14_hexify_exact
  have hm : metaSuffix = word ".meta" := by decide +kernel
  have hs : word "/" = [pathSlash] := by decide +kernel
  unfold pathsV1 pathsV2 BackingPaths
  simp only [hx, hm, hs, bind, Except.bind]
  exact ⟨⟨_, _, rfl, by simp, rfl⟩, ⟨_, _, rfl, by simp, rfl⟩⟩

example : pathsV1 ((List.range 32).map UInt8.ofNat) = .ok (word "00/0102030405/060708090a0b0c0d0e0f101112131415161718191a1b1c1d1e1f",
    word "00/0102030405/060708090a0b0c0d0e0f101112131415161718191a1b1c1d1e1f.meta") := by decide +kernel

/-- C118: the table of long names of the lite format is the file `.long_names.db`, for mounts and for migrations. -/
theorem C118_table : longTableName = word ".long_names.db" ∧ tableFileName = word ".long_names.db" := by decide +kernel

theorem isBase32 {b s : Bytes} (h : base32Encode b = .ok s) : IsBase32 b s := by
  obtain ⟨s', h1, h2, h3⟩ := C15_encode_exact b
  rw [h] at h1
  cases h1
  exact ⟨h2, h3⟩

theorem isSealed {S : Siv} (hS : S.WF) (name : Bytes) : ∃ s, encodeName S name = .ok s ∧ IsSealedText S.cmac S.ctr name s := by
  obtain ⟨c, v, h1, h2⟩ := C16_encrypt_rfc5297 S hS name []
  obtain ⟨s, g1, _⟩ := C15_encode_exact (v ++ c)
  exact ⟨s, by unfold encodeName; rw [h1]; exact g1, c, v, h2, isBase32 g1⟩

/-- C118: a name of the lite format is stored as base 32 of its encryption after RFC 5297; if it is longer than the threshold, its hash is
    stored in the same way, with the suffix, and the table holds the encrypted name. -/
theorem C118_names (T : NewStyle) (hS : T.siv.WF) (name : Bytes) (hn : name ≠ []) :
    (name.length ≤ T.threshold → ∃ s, T.encodeComponent name = .ok s ∧ IsSealedText T.siv.cmac T.siv.ctr name s) ∧
    (T.threshold < name.length → ∃ s, T.encodeComponent name = .ok (s ++ T.suffix) ∧ IsSealedText T.siv.cmac T.siv.ctr (T.hash name) s) ∧
    (T.threshold < name.length → (47 : UInt8) ∉ name → ∃ p s, T.encryptFullPath name = .ok (p, s) ∧ IsSealedText T.siv.cmac T.siv.ctr name s) := by
  obtain ⟨s, h1, h2⟩ := isSealed hS name
  obtain ⟨t, g1, g2⟩ := isSealed hS (T.hash name)
  have hlong : T.threshold < name.length → T.encodeComponent name = .ok (t ++ T.suffix) := by
    intro hl
    unfold NewStyle.encodeComponent
    rw [if_neg (by simpa using hn), if_neg (by omega), g1]
  refine ⟨fun hl => ⟨s, ?_, h2⟩, fun hl => ⟨t, hlong hl, g2⟩, fun hl h47 => ?_⟩
  · unfold NewStyle.encodeComponent
    rw [if_neg (by simpa using hn), if_pos hl, h1]
  · have hsplit : ∀ (l cur : Bytes), (47 : UInt8) ∉ l → splitSlash cur l = [cur ++ l] := by
      intro l
      induction l with
      | nil => intro cur _; simp [splitSlash]
      | cons c rest ih =>
        intro cur hc
        have hne : c ≠ slash := fun e => hc (by rw [e]; exact List.mem_cons_self)
        rw [splitSlash, if_neg hne, ih _ fun hm => hc (List.mem_cons_of_mem _ hm)]
        simp
    refine ⟨dot :: (slash :: (t ++ T.suffix) ++ []), s, ?_, h2⟩
    unfold NewStyle.encryptFullPath
    rw [hsplit name [] h47]
    simp only [List.nil_append, NewStyle.encodeParts, hlong hl, List.getLast?_singleton, if_pos hl, h1]

example : Toy.names.siv.WF ∧ ∃ s, Toy.names.encodeComponent [97] = .ok s ∧ IsSealedText Toy.names.siv.cmac Toy.names.siv.ctr [97] s :=
  ⟨Toy.siv_wf, (C118_names Toy.names Toy.siv_wf [97] (by decide)).1 (by decide)⟩

/-- C118: the target of a link of the lite format is stored in the same way, cut into as few pieces of up to 96 characters as there
    can be, each after a slash. -/
theorem C118_links (T : NewStyle) (hS : T.siv.WF) (target : Bytes) (ht : target ≠ []) :
    ∃ s l, T.encryptSymlink target = .ok (eachAfterSlash l) ∧ IsSealedText T.siv.cmac T.siv.ctr target s ∧
      (eachAfterSlash l).filter (· != 47) = s ∧ l.length = (s.length + 95) / 96 ∧ ∀ p ∈ l, p ≠ [] ∧ p.length ≤ 96 := by
  obtain ⟨c, v, h1, h2⟩ := C16_encrypt_rfc5297 T.siv hS target []
  obtain ⟨l, s, g1, g2, g3, g4, _, g6⟩ := symlinkChunks_spec (v ++ c).length (v ++ c) (Nat.le_refl _)
  have hb := isBase32 g3
  refine ⟨s, l, ?_, ⟨c, v, h2, hb⟩, g4, ?_, fun p hp => ⟨(g2 p hp).1, (g2 p hp).2.1⟩⟩
  · unfold NewStyle.encryptSymlink
    rw [if_neg (by simpa using ht), h1]
    exact g1
  · rw [hb.1, g6]
    omega

example : ∃ s l, Toy.names.encryptSymlink (List.replicate 70 97) = .ok (eachAfterSlash l) ∧ s.length = 138 ∧ l.length = 2 ∧
    (eachAfterSlash l).filter (· != 47) = s := by
  obtain ⟨s, l, h1, ⟨c, v, ⟨⟨t, _, hv⟩, q, _, _, hc, _⟩, hb⟩, h3, h4, _⟩ := C118_links Toy.names Toy.siv_wf (List.replicate 70 97) (by decide)
  have hv16 : v.length = 16 := by rw [hv]; exact Toy.siv_wf.cmac_len _
  have hs : s.length = 138 := by
    rw [hb.1, List.length_append, hc, hv16]
    rfl
  exact ⟨s, l, h1, hs, by rw [h4, hs], h3⟩

/-- C118: the value of an attribute of the lite format is stored as IV, ciphertext and tag. -/
theorem C118_values (C : XattrCfg) (old : Option Bytes) (iv v : Bytes) (hv : v ≠ []) :
    C.set old iv v = some (iv ++ (C.gcm.enc iv [] v).1 ++ (C.gcm.enc iv [] v).2) := by
  unfold XattrCfg.set
  rw [if_neg (by simpa using hv)]
  rfl

example : ∃ c t, Toy.xattr.set none [1, 2, 3, 4, 5, 6, 7, 8, 9, 10, 11, 12] [97, 98] =
    some ([1, 2, 3, 4, 5, 6, 7, 8, 9, 10, 11, 12] ++ c ++ t) :=
  ⟨_, _, C118_values Toy.xattr none _ [97, 98] (by decide)⟩

theorem xset_lookup {s s' : XStore} {name v : Bytes} {flags : BitVec 32} (h : s.set name v flags = .ok s') : s'.lookup name = some v := by
  have hm : XStore.maskOk flags := by
    unfold XStore.set at h
    split at h
    · cases h
    · rename_i hc
      exact Classical.not_not.mp hc
  by_cases h1 : flags &&& xattrCreate ≠ 0 ∧ s.lookup name ≠ none
  · obtain ⟨o, ho⟩ := Option.ne_none_iff_exists'.mp h1.2
    unfold XStore.set at h
    rw [if_neg (by rw [hm]; simp), ho] at h
    dsimp only at h
    rw [if_pos h1.1] at h
    cases h
  by_cases h2 : flags &&& xattrReplace ≠ 0 ∧ s.lookup name = none
  · unfold XStore.set at h
    rw [if_neg (by rw [hm]; simp), h2.2] at h
    dsimp only at h
    rw [if_pos h2.1] at h
    cases h
  obtain ⟨t, g1, g2, _⟩ := XStore.xs_set_spec s name v flags hm h1 h2
  rw [h] at g1
  cases g1
  rw [g2, if_pos rfl]

/-- C118: an attribute of the full format is stored under `user.` and base 64 of its encrypted name, with both backing files: its ciphertext with the
    file of the contents, its IV of 16 bytes and its tag with the other.  What is authenticated with it is the identifier and the stored name. -/
theorem C118_attributes (C : XCfg) (hS : C.siv.WF) (st st' : XSt) (name value : Bytes) (flags : BitVec 32)
    (h : C.setxattr st name value flags none none = (.ok (), st')) :
    ∃ w, IsSealedAttrName C.siv.cmac C.siv.ctr C.b64.escape name w ∧
      st'.data.lookup w = some (C.gcm.enc (C.rng.draw st.drawn 16) (C.id ++ w) value).1 ∧
      st'.meta.lookup w = some (C.rng.draw st.drawn 16 ++ (C.gcm.enc (C.rng.draw st.drawn 16) (C.id ++ w) value).2) := by
  obtain ⟨c, v, h1, h2⟩ := C16_encrypt_rfc5297 C.siv hS name []
  have hw : encryptXattrName C.siv C.b64 name = .ok (word "user." ++ C.b64.escape (v ++ c)) := by
    unfold encryptXattrName
    rw [h1, show userPrefix = word "user." by decide +kernel]
    rfl
  refine ⟨_, ⟨c, v, h2, rfl⟩, ?_⟩
  generalize hg : word "user." ++ C.b64.escape (v ++ c) = w at hw
  unfold XCfg.setxattr at h
  rw [hw] at h
  dsimp only at h
  split at h
  · cases h
  · rename_i d hd
    split at h
    · cases h
    · rename_i m hm
      cases h
      exact ⟨xset_lookup hd, xset_lookup hm⟩

example : ∃ st', Toy.xcfg.setxattr ⟨[], [], 0⟩ [97] [1, 2, 3] 0 none none = (.ok (), st') ∧
    ∃ w c, st'.data.lookup w = some c ∧ w.take 5 = word "user." := by
  obtain ⟨w, hw⟩ := enc_name_ok Toy.xcfg Toy.siv_wf [97]
  have h : ∃ st', Toy.xcfg.setxattr ⟨[], [], 0⟩ [97] [1, 2, 3] 0 none none = (.ok (), st') := by
    unfold XCfg.setxattr
    rw [hw]
    exact ⟨_, rfl⟩
  obtain ⟨st', h⟩ := h
  obtain ⟨w', ⟨c, v, _, e⟩, h1, _⟩ := C118_attributes Toy.xcfg Toy.siv_wf _ _ _ _ _ h
  exact ⟨_, h, w', _, h1, by rw [e]; rfl⟩

/-- C118: the types in directories are the upper four bits of the modes that POSIX systems use: directory, file and symbolic link. -/
theorem C118_types : modeForType typeDirectory = 0o040000 ∧ modeForType typeRegular = 0o100000 ∧ modeForType typeSymlink = 0o120000 ∧
    ∀ a : FileAttr, (a.realType = typeDirectory ↔ a.mode.toNat / 2 ^ 12 % 16 = 4) ∧ (a.realType = typeRegular ↔ a.mode.toNat / 2 ^ 12 % 16 = 8) ∧
      (a.realType = typeSymlink ↔ a.mode.toNat / 2 ^ 12 % 16 = 10) := by
  refine ⟨by decide, by decide, by decide, fun a => ?_⟩
  have h : a.realType = a.mode.toNat / 2 ^ 12 % 16 := by
    unfold FileAttr.realType sIfmt
    rw [UInt32.toNat_shiftRight, UInt32.toNat_and, show (12 : UInt32).toNat % 32 = 12 from rfl, Nat.shiftRight_and_distrib,
      Nat.shiftRight_eq_div_pow, show (61440 : UInt32).toNat >>> 12 = 2 ^ 4 - 1 from by decide, Nat.and_two_pow_sub_one_eq_mod]
  rw [h]
  exact ⟨Iff.rfl, Iff.rfl, Iff.rfl⟩

example : ({ demoAttr with mode := 0o100644 } : FileAttr).realType = typeRegular := by decide

end Securefs.Props

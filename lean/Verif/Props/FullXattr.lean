import Verif.Proofs.FullXattr
import Verif.Props.Toy
/-!
# Property C65: extended attributes of the full format
-/

namespace Securefs.Props

open Securefs Spec

/-- A file object for the examples. -/
def Toy.xcfg : XCfg := ⟨Toy.gcm, Toy.siv, Toy.base64, Toy.rng, List.replicate 32 5, true⟩

/-- Both backing files have no attributes of ours; the system may have some of its own (`security.selinux`, …). -/
structure XFresh (C : XCfg) (st : XSt) : Prop where
  nodup : (st.data.map Prod.fst).Nodup
  data : ∀ k ∈ st.data.map Prod.fst, XForeign C k
  «meta» : ∀ k ∈ st.meta.map Prod.fst, ∀ name, encryptXattrName C.siv C.b64 name ≠ .ok k

theorem xrel_fresh {C : XCfg} {st : XSt} (h : XFresh C st) : XRel C st (fun _ => none) where
  absent name w hw _ :=
    ⟨(XStore.xs_lookup_none _ _).mpr fun hc => (h.data w hc).2.2 name hw, (XStore.xs_lookup_none _ _).mpr fun hc => h.meta w hc name hw⟩
  present _ _ _ _ h0 := by cases h0
  nodup := h.nodup
  keys k hk := .inl (h.data k hk)

theorem Toy.x_fresh : XFresh Toy.xcfg ⟨[([115, 101, 99], [1])], [], 0⟩ where
  nodup := by decide
  data k hk := by
    have : k = [115, 101, 99] := by simpa using hk
    subst this
    refine ⟨by decide, by decide +kernel, fun name h => ?_⟩
    unfold encryptXattrName at h
    obtain ⟨c, v, e, _⟩ := C16_encrypt_rfc5297 Toy.siv Toy.siv_wf name []
    have e' : Toy.xcfg.siv.encrypt name [] = .ok (c, v) := e
    rw [e'] at h
    have h1 := Except.ok.inj h
    have h2 := congrArg List.head? h1
    simp [userPrefix] at h2
  «meta» k hk := by simp at hk

/-- **C65.**  The attributes of a file are a map from names to values: every history of calls gives the answers that the manual
    pages describe, for all names, all values (also the empty one), all flags, all buffers that are not empty, whatever foreign
    attributes the backing files have, with and without verification, and with refusals of the system when it is asked to change
    the first of the two backing files. -/
theorem C65_history (C : XCfg) (hg : C.gcm.Lawful) (hS : C.siv.WF) (hB : C.b64.Lawful)
    (hR : ∀ n, (C.rng.draw n 16).length = 16) (st : XSt) (h : XFresh C st) (ops : List XOp) (hf : ∀ op ∈ ops, XOp.Fit op) :
    (xRun C st ops).1 = (xattrRun (fun _ => none) ops).1 :=
  (xRun_spec hg hS hB hR ops (xrel_fresh h) hf).1

/-- A history with a foreign attribute, an empty value, flags, a refusal and a buffer that is too small. -/
example : (xRun Toy.xcfg ⟨[([115, 101, 99], [1])], [], 0⟩
      [.set [97] [1, 2, 3] 1 0 none, .get [97] (some [0, 0, 0, 9]) 0, .set [97] [] 1 0 none, .set [97] [] 2 0 (some 28),
        .set [97] [] 2 0 none, .get [97] none 0, .set [98] [7, 7] 0 0 none, .get [98] (some [0]) 0, .remove [98] none,
        .get [98] (some [0]) 0]).1 =
    [.ok (0, none), .ok (3, some [1, 2, 3, 9]), .error (.vfs 17), .error (.vfs 28), .ok (0, none), .ok (0, none), .ok (0, none),
      .error (.vfs 34), .ok (0, none), .error (.vfs 61)] := by
  rw [C65_history Toy.xcfg Toy.gcm_lawful Toy.siv_wf Toy.base64_lawful (fun n => Toy.rng_fair.len n 16) _ Toy.x_fresh _
    (by intro op h; simp only [List.mem_cons, List.not_mem_nil, or_false] at h; rcases h with rfl | rfl | rfl | rfl | rfl | rfl | rfl | rfl | rfl | rfl <;> simp [XOp.Fit])]
  decide +kernel

/-- **C65, listing.**  After any history the names of the attributes are listed, each once and nothing else (the empty name is
    never listed, see C19): the size without a buffer, `-ERANGE` for a buffer that is too small, and otherwise the names, each
    followed by a NUL.  (If the system has no names at all to list, the buffer is left alone.) -/
theorem C65_listing (C : XCfg) (hg : C.gcm.Lawful) (hS : C.siv.WF) (hB : C.b64.Lawful)
    (hR : ∀ n, (C.rng.draw n 16).length = 16) (st : XSt) (h : XFresh C st) (ops : List XOp) (hf : ∀ op ∈ ops, XOp.Fit op) :
    ∃ names : List Bytes, names.Nodup ∧ (∀ n, n ∈ names ↔ n ≠ [] ∧ (xattrRun (fun _ => none) ops).2 n ≠ none) ∧
      ((xRun C st ops).2.data = [] → names = [] ∧ ∀ buf size, C.listxattr (xRun C st ops).2 buf size = .ok (0, buf)) ∧
      ∀ text, text = (names.flatMap fun n => n ++ [0]) → text.length < 2 ^ 31 → (xRun C st ops).2.data ≠ [] →
        C.listxattr (xRun C st ops).2 none 0 = .ok ((text.length : Int), none) ∧
        ∀ buf : Bytes, C.listxattr (xRun C st ops).2 (some buf) buf.length =
          .ok (if buf.length = 0 then ((text.length : Int), some buf)
            else if buf.length < text.length then (-34, some buf)
            else ((text.length : Int), some (text ++ zeros (buf.length - text.length)))) := by
  have hrel := (xRun_spec hg hS hB hR ops (xrel_fresh h) hf).2
  obtain ⟨h1, h2⟩ := hrel.visible hS hB
  refine ⟨_, h1, h2, fun h0 => ⟨by rw [h0]; rfl, fun buf size => by unfold XCfg.listxattr; rw [h0]; rfl⟩, ?_⟩
  intro text ht hlen hne
  have hnul : ∀ n ∈ (xRun C st ops).2.data.map Prod.fst, 0 ∉ n := by
    intro k hk
    rcases hrel.keys k hk with hf | ⟨name, hn⟩
    · exact hf.1
    · unfold encryptXattrName at hn
      obtain ⟨c, v, e, _⟩ := C16_encrypt_rfc5297 C.siv hS name []
      rw [e] at hn
      cases hn
      intro hm
      rcases List.mem_append.mp hm with h | h
      · revert h; decide
      · exact hB.no_nul _ h
  have hraw : (xRun C st ops).2.data.list = ((xRun C st ops).2.data.map Prod.fst).flatMap fun n => n ++ [0] := by
    unfold XStore.list
    rw [List.flatMap_map]
  have hl := fun buf => C19_listing C.siv hS C.b64 _ (by simpa using hne) hnul buf _ text hraw ht hlen
  exact ⟨(hl []).1, fun buf => (hl buf).2⟩

/-- The hypotheses hold for a history that leaves one attribute of two, and a foreign one. -/
example : ∃ names : List Bytes, names.Nodup ∧ ([97] : Bytes) ∈ names ∧ ([98] : Bytes) ∉ names ∧
    (xRun Toy.xcfg ⟨[([115, 101, 99], [1])], [], 0⟩
      [.set [97] [1, 2, 3] 0 0 none, .set [98] [4] 0 0 none, .remove [98] none]).2.data ≠ [] := by
  obtain ⟨names, h1, h2, _⟩ := C65_listing Toy.xcfg Toy.gcm_lawful Toy.siv_wf Toy.base64_lawful (fun n => Toy.rng_fair.len n 16) _
    Toy.x_fresh [.set [97] [1, 2, 3] 0 0 none, .set [98] [4] 0 0 none, .remove [98] none]
    (by intro op h; simp only [List.mem_cons, List.not_mem_nil, or_false] at h; rcases h with rfl | rfl | rfl <;> simp [XOp.Fit])
  refine ⟨names, h1, ?_, ?_, by decide +kernel⟩
  · rw [h2]; decide +kernel
  · rw [h2]; decide +kernel

/-! ## Attackers -/

/-- An attribute that the file system encrypted at some time: for which file, its name, the IV and the value. -/
structure XEvent where
  id : Bytes
  name : Bytes
  iv : Bytes
  value : Bytes

/-- The attacker's ciphertext, IV and tag for the stored name `w` are a forgery: they verify, but none of the events has produced
    them with these additional data. -/
def XForged (C : XCfg) (E : Set XEvent) (w iv ct mac : Bytes) : Prop :=
  (C.gcm.dec iv (C.id ++ w) ct mac).1 = true ∧
  ¬ ∃ ev ∈ E, ∃ u, encryptXattrName C.siv C.b64 ev.name = .ok u ∧ ev.id ++ u = C.id ++ w ∧ ev.iv = iv ∧
    C.gcm.enc ev.iv (ev.id ++ u) ev.value = (ct, mac)

/-- **C65, tamper evidence.**  Over any attributes of the backing files, a verified read that returns a value returns one that was
    set at some time for the same name of the same file, or the attacker's bytes are a forgery. -/
theorem C65_tamper_evident (C : XCfg) (hg : C.gcm.Lawful) (hS : C.siv.WF) (hB : C.b64.Lawful) (hcheck : C.check = true)
    (E : Set XEvent) (hE : ∀ ev ∈ E, ev.id.length = C.id.length) (st : XSt) (name b out : Bytes) (n : Nat)
    (h : C.getxattr st name (some b) b.length = .ok (n, some out)) :
    (∃ ev ∈ E, ev.id = C.id ∧ ev.name = name ∧ ev.value.length = n ∧ out.take n = ev.value) ∨
    ∃ w iv ct mac, encryptXattrName C.siv C.b64 name = .ok w ∧ XForged C E w iv ct mac := by
  obtain ⟨w, hw⟩ := enc_name_ok C hS name
  unfold XCfg.getxattr at h
  rw [hw] at h
  dsimp only at h
  split at h
  · cases h
  · cases h
  · rename_i ts b' _
    split at h
    · cases h
    · cases h
    · rename_i ms mt _
      split at h
      · cases h
      · split at h
        · cases h
        · rename_i hts
          rw [hcheck, Bool.true_and] at h
          split at h
          · cases h
          · rename_i hok
            simp only [Except.ok.injEq, Prod.mk.injEq, Option.some.injEq] at h
            obtain ⟨rfl, hout⟩ := h
            have hver : (C.gcm.dec (mt.take 16) (C.header w) (b'.take ts) (mt.drop 16)).1 = true := by simpa using hok
            by_cases hev : ∃ ev ∈ E, ∃ u, encryptXattrName C.siv C.b64 ev.name = .ok u ∧ ev.id ++ u = C.id ++ w ∧
                ev.iv = mt.take 16 ∧ C.gcm.enc ev.iv (ev.id ++ u) ev.value = (b'.take ts, mt.drop 16)
            · left
              obtain ⟨ev, hmem, u, hu, haad, hiv, henc⟩ := hev
              have hid := List.append_inj_left haad (hE ev hmem)
              have hwu := List.append_inj_right haad (hE ev hmem)
              have hdec := hg.dec_enc ev.iv (ev.id ++ u) ev.value
              have hlen := hg.ct_len ev.iv (ev.id ++ u) ev.value
              rw [henc, haad] at hdec
              rw [henc] at hlen
              dsimp only at hdec hlen
              rw [hiv] at hdec
              rw [List.length_take, Nat.min_eq_left (by omega)] at hlen
              refine ⟨ev, hmem, hid, ?_, hlen.symm, ?_⟩
              · rw [hwu] at hu
                exact C19_injective C.siv hS C.b64 hB _ _ w hu hw
              · rw [← hout]
                unfold XCfg.header
                rw [hdec]
                exact List.take_left' hlen.symm
            · exact .inr ⟨w, mt.take 16, b'.take ts, mt.drop 16, hw, hver, hev⟩

/-- The hypotheses are met by a genuine value. -/
example : ∃ ev ∈ ({⟨List.replicate 32 5, [97], Toy.rng.draw 0 16, [1, 2, 3]⟩} : Set XEvent), ev.value = [1, 2, 3] ∧
    Toy.xcfg.getxattr (xStep Toy.xcfg ⟨[], [], 0⟩ (.set [97] [1, 2, 3] 0 0 none)).2 [97] (some [0, 0, 0]) 3 =
      .ok (3, some ev.value) := ⟨_, rfl, rfl, by decide +kernel⟩

/-- A value moved to another name is refused. -/
example : ∃ w w', encryptXattrName Toy.siv Toy.base64 [97] = .ok w ∧ encryptXattrName Toy.siv Toy.base64 [98] = .ok w' ∧
    Toy.xcfg.getxattr ⟨[(w', (Toy.gcm.enc (List.replicate 16 3) (Toy.xcfg.id ++ w) [1, 2, 3]).1)],
      [(w', List.replicate 16 3 ++ (Toy.gcm.enc (List.replicate 16 3) (Toy.xcfg.id ++ w) [1, 2, 3]).2)], 0⟩ [98]
      (some [0, 0, 0]) 3 = .error .verify :=
  ⟨_, _, rfl, rfl, by decide +kernel⟩

/-! ## Failure between the two backing files -/

/-- **C65, violation.**  "A call that fails changes nothing" is false: if the second backing file refuses the change (no space, or
    the machine stops there), then the old value is lost.  For every state, old value and new value: reading gives an error, unless
    the old tag happens to fit the new ciphertext; a name that had no value has one that cannot be read, and setting it with
    `XATTR_CREATE` fails because it exists. -/
theorem C65_interrupted_violated (C : XCfg) (hg : C.gcm.Lawful) (hS : C.siv.WF) (hcheck : C.check = true) (st : XSt) (m : AttrMap)
    (h : XRel C st m) (name value : Bytes) (e : Nat) :
    ∃ st', C.vsetxattr st name value 0 0 none (some e) = (.error (.vfs e), st') ∧
      (m name = none → ∀ b : Bytes, b ≠ [] → value.length ≤ b.length →
        C.getxattr st' name (some b) b.length = .error (.vfs 61) ∧
        ∀ v2, (C.vsetxattr st' name v2 1 0 none none).1 = .error (.vfs 17)) ∧
      (∀ v0, m name = some v0 → ∀ b : Bytes, b ≠ [] → value.length ≤ b.length →
        C.getxattr st' name (some b) b.length = .error .verify ∨
        ∃ w iv0, encryptXattrName C.siv C.b64 name = .ok w ∧ (C.gcm.dec iv0 (C.header w)
          (C.gcm.enc (C.rng.draw st.drawn 16) (C.header w) value).1 (C.gcm.enc iv0 (C.header w) v0).2).1 = true) := by
  obtain ⟨w, hw⟩ := enc_name_ok C hS name
  have hmask := XStore.xs_mask 0
  obtain ⟨hdn, hmn⟩ := h.dataNone hw
  obtain ⟨d, hd1, hd2, hd3⟩ := XStore.xs_set_spec st.data w (C.gcm.enc (C.rng.draw st.drawn 16) (C.header w) value).1 _ hmask
    (fun hh => absurd ((XStore.xs_flag_create 0).mp hh.1) (by decide))
    (fun hh => absurd ((XStore.xs_flag_replace 0).mp hh.1) (by decide))
  have hct := hg.ct_len (C.rng.draw st.drawn 16) (C.header w) value
  refine ⟨{ data := d, «meta» := st.meta, drawn := st.drawn + 1 }, ?_, ?_, ?_⟩
  · unfold XCfg.vsetxattr XCfg.setxattr
    rw [if_neg (by decide), hw]
    dsimp only
    rw [hd1]
  · intro h0 b hb hlen
    constructor
    · unfold XCfg.getxattr
      rw [hw]
      dsimp only
      rw [XStore.xs_get_fit d w _ b (by rw [hd2, if_pos rfl]) hb, hct, if_neg (by omega)]
      dsimp only
      unfold XStore.get
      rw [hmn.mpr h0]
    · intro v2
      unfold XCfg.vsetxattr XCfg.setxattr
      rw [if_neg (by decide), hw]
      dsimp only
      rw [xs_set_exists (XStore.xs_mask 1) ((XStore.xs_flag_create 1).mpr (by decide)) (by rw [hd2, if_pos rfl]; simp)]
  · intro v0 h0 b hb hlen
    obtain ⟨iv0, hiv, _, hm0⟩ := h.present name w v0 hw h0
    by_cases hcol : (C.gcm.dec iv0 (C.header w) (C.gcm.enc (C.rng.draw st.drawn 16) (C.header w) value).1
        (C.gcm.enc iv0 (C.header w) v0).2).1 = true
    · exact .inr ⟨w, iv0, hw, hcol⟩
    · left
      unfold XCfg.getxattr
      rw [hw]
      dsimp only
      rw [XStore.xs_get_fit d w _ b (by rw [hd2, if_pos rfl]) hb, hct, if_neg (by omega)]
      dsimp only
      have hml : (iv0 ++ (C.gcm.enc iv0 (C.header w) v0).2).length = 32 := by
        rw [List.length_append, hiv, hg.mac_len]
      have hz : (zeros 32).length = 32 := by simp [zeros]
      have := XStore.xs_get_fit st.meta w _ (zeros 32) hm0 (by decide)
      rw [hz, hml, if_neg (by omega)] at this
      rw [this]
      have hdz : (zeros 32).drop 32 = [] := by decide
      rw [hdz, List.append_nil]
      dsimp only
      rw [if_neg (by simp), if_neg (by rw [List.length_append, List.length_drop, hct]; omega)]
      rw [List.take_left' hiv, List.drop_left' hiv, List.take_left' hct, hcheck]
      simp only [Bool.true_and]
      rw [if_pos (by simpa using hcol)]

/-- The value `[1, 2, 3]` is lost when setting `[4, 4, 4]` is interrupted. -/
example : Toy.xcfg.getxattr
    (Toy.xcfg.vsetxattr (xStep Toy.xcfg ⟨[], [], 0⟩ (.set [97] [1, 2, 3] 0 0 none)).2 [97] [4, 4, 4] 0 0 none (some 28)).2
    [97] (some [0, 0, 0]) 3 = .error .verify := by decide +kernel

/-- **C65.**  Other names are not affected by such a failure, and setting the value again without flags repairs it: the attributes
    are then again a map. -/
theorem C65_repaired (C : XCfg) (hg : C.gcm.Lawful) (hS : C.siv.WF) (hB : C.b64.Lawful)
    (hR : ∀ n, (C.rng.draw n 16).length = 16) (st : XSt) (m : AttrMap) (h : XRel C st m) (name value v2 : Bytes) (e : Nat) :
    (∀ other, other ≠ name → ∀ b : Bytes, b ≠ [] →
      C.getxattr (C.vsetxattr st name value 0 0 none (some e)).2 other (some b) b.length =
        (xattrStep m (.get other (some b) 0)).1) ∧
    (C.vsetxattr (C.vsetxattr st name value 0 0 none (some e)).2 name v2 0 0 none none).1 = .ok () ∧
    XRel C (C.vsetxattr (C.vsetxattr st name value 0 0 none (some e)).2 name v2 0 0 none none).2
      (fun n => if n = name then some v2 else m n) := by
  obtain ⟨w, hw⟩ := enc_name_ok C hS name
  have hmask := XStore.xs_mask 0
  have hc0 : ∀ P : Prop, ¬ (0 &&& (xattrCreate ||| xattrReplace) &&& xattrCreate ≠ 0 ∧ P) :=
    fun P hh => absurd ((XStore.xs_flag_create 0).mp hh.1) (by decide)
  have hr0 : ∀ P : Prop, ¬ (0 &&& (xattrCreate ||| xattrReplace) &&& xattrReplace ≠ 0 ∧ P) :=
    fun P hh => absurd ((XStore.xs_flag_replace 0).mp hh.1) (by decide)
  obtain ⟨d, hd1, hd2, hd3⟩ := XStore.xs_set_spec st.data w (C.gcm.enc (C.rng.draw st.drawn 16) (C.header w) value).1 _ hmask
    (hc0 _) (hr0 _)
  obtain ⟨d', hd1', hd2', hd3'⟩ := XStore.xs_set_spec d w (C.gcm.enc (C.rng.draw (st.drawn + 1) 16) (C.header w) v2).1 _ hmask
    (hc0 _) (hr0 _)
  obtain ⟨e', he1', he2', _⟩ := XStore.xs_set_spec st.meta w
    (C.rng.draw (st.drawn + 1) 16 ++ (C.gcm.enc (C.rng.draw (st.drawn + 1) 16) (C.header w) v2).2) _ hmask (hc0 _) (hr0 _)
  have hst : (C.vsetxattr st name value 0 0 none (some e)).2 = { data := d, «meta» := st.meta, drawn := st.drawn + 1 } := by
    unfold XCfg.vsetxattr XCfg.setxattr
    rw [if_neg (by decide), hw]
    dsimp only
    rw [hd1]
  rw [hst]
  refine ⟨?_, ?_⟩
  · intro other hne b hb
    have hstep := xStep_get hg hS h other (some b) 0 hb
    rw [← hstep]
    unfold xStep XCfg.vgetxattr
    dsimp only
    rw [if_neg (by decide)]
    obtain ⟨u, hu⟩ := enc_name_ok C hS other
    have huw : u ≠ w := by
      rintro rfl
      exact hne (C19_injective C.siv hS C.b64 hB _ _ u hu hw)
    unfold XCfg.getxattr
    rw [hu]
    dsimp only
    have : d.get u (some b) b.length = st.data.get u (some b) b.length := by
      unfold XStore.get
      rw [hd2, if_neg huw]
    rw [this]
  · have hsecond : C.vsetxattr { data := d, «meta» := st.meta, drawn := st.drawn + 1 } name v2 0 0 none none =
        (.ok (), { data := d', «meta» := e', drawn := st.drawn + 1 + 1 }) := by
      unfold XCfg.vsetxattr XCfg.setxattr
      rw [if_neg (by decide), hw]
      dsimp only
      rw [hd1']
      dsimp only
      rw [he1']
    rw [hsecond]
    refine ⟨rfl, h.update hS hB hw (hR (st.drawn + 1)) (fun n => ?_) he2' ?_⟩
    · rw [hd2']
      by_cases hn : n = w
      · rw [if_pos hn, if_pos hn]
      · rw [if_neg hn, if_neg hn, hd2, if_neg hn]
    · rw [hd3', hd2, if_pos rfl, if_neg (by simp), hd3]

/-- After the repair the new value is read. -/
example : Toy.xcfg.getxattr (Toy.xcfg.vsetxattr
    (Toy.xcfg.vsetxattr (xStep Toy.xcfg ⟨[], [], 0⟩ (.set [97] [1, 2, 3] 0 0 none)).2 [97] [4, 4, 4] 0 0 none (some 28)).2
    [97] [5, 6] 0 0 none none).2 [97] (some [0, 0, 0]) 3 = .ok (2, some [5, 6, 0]) := by decide +kernel

/-- **C65, remark.**  A buffer that is not null but has no bytes would be overrun: the system takes the call for a question about the
    size, the code then decrypts into the buffer.  (libfuse passes a null pointer for such questions.) -/
theorem C65_empty_buffer (C : XCfg) (hg : C.gcm.Lawful) (hS : C.siv.WF) (st : XSt) (m : AttrMap) (h : XRel C st m)
    (name v : Bytes) (hv : m name = some v) (hne : v ≠ []) : C.getxattr st name (some []) 0 = .error .outOfBounds := by
  obtain ⟨w, hw⟩ := enc_name_ok C hS name
  obtain ⟨iv0, hiv, hd0, hm0⟩ := h.present name w v hw hv
  unfold XCfg.getxattr
  rw [hw]
  dsimp only
  have hd : st.data.get w (some []) 0 = .ok (v.length, some []) := by
    unfold XStore.get
    rw [hd0]
    dsimp only
    rw [if_pos rfl, hg.ct_len]
  rw [hd]
  dsimp only
  have hml : (iv0 ++ (C.gcm.enc iv0 (C.header w) v).2).length = 32 := by
    rw [List.length_append, hiv, hg.mac_len]
  have hz : (zeros 32).length = 32 := by simp [zeros]
  have := XStore.xs_get_fit st.meta w _ (zeros 32) hm0 (by decide)
  rw [hz, hml, if_neg (by omega)] at this
  rw [this]
  dsimp only
  rw [if_neg (by simp), if_pos (by simpa [List.length_pos_iff] using hne)]

example : Toy.xcfg.getxattr (xStep Toy.xcfg ⟨[], [], 0⟩ (.set [97] [1, 2, 3] 0 0 none)).2 [97] (some []) 0 =
    .error .outOfBounds := by decide +kernel

end Securefs.Props

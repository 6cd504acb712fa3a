import Verif.Model.FullXattr
import Verif.Spec.FullXattr
import Verif.Props.Siv
import Mathlib.Data.List.Nodup
/-!
# Lemmas on extended attributes of the full format
-/

namespace Securefs

open Spec Props

namespace XStore

theorem xs_lookup_map (s : XStore) (name v n : Bytes) :
    (s.map fun p => if p.1 = name then (name, v) else p).lookup n =
      if n = name then (s.lookup n).map fun _ => v else s.lookup n := by
  induction s with
  | nil => simp
  | cons p s ih =>
    obtain ⟨k, x⟩ := p
    rw [List.map_cons]
    by_cases hk : k = name
    · subst hk
      rw [if_pos rfl, List.lookup_cons, List.lookup_cons, ih]
      by_cases hn : n = k
      · subst hn; simp
      · have : (n == k) = false := by simpa using hn
        rw [this, if_neg hn]
    · rw [if_neg hk, List.lookup_cons, List.lookup_cons, ih]
      by_cases hn : n = k
      · subst hn; simp [hk]
      · have : (n == k) = false := by simpa using hn
        rw [this]

theorem xs_lookup_append (s t : XStore) (n : Bytes) : (s ++ t).lookup n = (s.lookup n).or (t.lookup n) := by
  induction s with
  | nil => simp
  | cons p s ih =>
    obtain ⟨k, x⟩ := p
    rw [List.cons_append, List.lookup_cons, List.lookup_cons, ih]
    cases n == k <;> simp

theorem xs_lookup_filter (s : XStore) (name n : Bytes) :
    (s.filter fun p => decide (p.1 ≠ name)).lookup n = if n = name then none else s.lookup n := by
  induction s with
  | nil => simp
  | cons p s ih =>
    obtain ⟨k, x⟩ := p
    rw [List.filter_cons]
    by_cases hk : k = name
    · subst hk
      rw [if_neg (by simp), ih, List.lookup_cons]
      by_cases hn : n = k
      · subst hn; simp
      · have : (n == k) = false := by simpa using hn
        rw [this]
    · rw [if_pos (by simpa using hk), List.lookup_cons, List.lookup_cons, ih]
      by_cases hn : n = k
      · subst hn; simp [hk]
      · have : (n == k) = false := by simpa using hn
        rw [this]

theorem xs_lookup_none (s : XStore) (n : Bytes) : s.lookup n = none ↔ n ∉ s.map Prod.fst := by
  induction s with
  | nil => simp
  | cons p s ih =>
    obtain ⟨k, x⟩ := p
    rw [List.lookup_cons]
    by_cases hn : n = k
    · subst hn; simp
    · have : (n == k) = false := by simpa using hn
      rw [this, ih]
      simp [hn]

/-- The flags that pass the mask. -/
def maskOk (flags : BitVec 32) : Prop := flags &&& ~~~(xattrCreate ||| xattrReplace) = 0

theorem xs_mask (flags : BitVec 32) : maskOk (flags &&& (xattrCreate ||| xattrReplace)) := by
  unfold maskOk
  rw [BitVec.and_assoc, BitVec.and_not_self]
  exact BitVec.and_zero

/-- What a successful `set` does. -/
theorem xs_set_spec (s : XStore) (name v : Bytes) (flags : BitVec 32) (h : maskOk flags)
    (h1 : ¬ (flags &&& xattrCreate ≠ 0 ∧ s.lookup name ≠ none))
    (h2 : ¬ (flags &&& xattrReplace ≠ 0 ∧ s.lookup name = none)) :
    ∃ s', s.set name v flags = .ok s' ∧ (∀ n, s'.lookup n = if n = name then some v else s.lookup n) ∧
      s'.map Prod.fst = if s.lookup name = none then s.map Prod.fst ++ [name] else s.map Prod.fst := by
  unfold set
  rw [if_neg (by rw [h]; simp)]
  cases hl : s.lookup name with
  | none =>
    dsimp only
    rw [if_neg (fun hc => h2 ⟨hc, hl⟩)]
    refine ⟨_, rfl, fun n => ?_, ?_⟩
    · rw [xs_lookup_append]
      by_cases hn : n = name
      · subst hn
        rw [hl, if_pos rfl]
        simp
      · have : (n == name) = false := by simpa using hn
        rw [if_neg hn]
        simp [List.lookup_cons, this]
    · rw [if_pos rfl]; simp
  | some o =>
    dsimp only
    rw [if_neg (fun hc => h1 ⟨hc, by simp [hl]⟩)]
    refine ⟨_, rfl, fun n => ?_, ?_⟩
    · rw [xs_lookup_map]
      by_cases hn : n = name
      · subst hn; rw [if_pos rfl, if_pos rfl, hl]; rfl
      · rw [if_neg hn, if_neg hn]
    · rw [if_neg (by simp), List.map_map]
      apply List.map_congr_left
      intro p _
      dsimp only [Function.comp_apply]
      split
      · rename_i hp; exact hp.symm
      · rfl

theorem xs_flag_create (flags : BitVec 32) :
    flags &&& (xattrCreate ||| xattrReplace) &&& xattrCreate ≠ 0 ↔ flags.getLsbD 0 = true := by
  have h : (xattrCreate ||| xattrReplace) &&& xattrCreate = BitVec.twoPow 32 0 := by decide
  rw [BitVec.and_assoc, h, BitVec.and_twoPow]
  cases flags.getLsbD 0
  · simp
  · simp only [if_true, iff_true]; decide

theorem xs_flag_replace (flags : BitVec 32) :
    flags &&& (xattrCreate ||| xattrReplace) &&& xattrReplace ≠ 0 ↔ flags.getLsbD 1 = true := by
  have h : (xattrCreate ||| xattrReplace) &&& xattrReplace = BitVec.twoPow 32 1 := by decide
  rw [BitVec.and_assoc, h, BitVec.and_twoPow]
  cases flags.getLsbD 1
  · simp
  · simp only [if_true, iff_true]; decide

theorem xs_remove_spec (s : XStore) (name : Bytes) (h : s.lookup name ≠ none) :
    ∃ s', s.remove name = .ok s' ∧ (∀ n, s'.lookup n = if n = name then none else s.lookup n) ∧
      s'.map Prod.fst = (s.map Prod.fst).filter fun k => decide (k ≠ name) := by
  unfold remove
  cases hl : s.lookup name with
  | none => exact absurd hl h
  | some v =>
    refine ⟨_, rfl, fun n => xs_lookup_filter s name n, ?_⟩
    rw [List.filter_map]
    rfl

theorem xs_get_fit (s : XStore) (name v b : Bytes) (h : s.lookup name = some v) (hb : b ≠ []) :
    s.get name (some b) b.length =
      if b.length < v.length then .error (.vfs 34) else .ok (v.length, some (v ++ b.drop v.length)) := by
  unfold get
  rw [h]
  dsimp only
  rw [if_neg (by simpa using hb)]
  by_cases hl : b.length < v.length
  · rw [if_pos hl, if_pos hl]
  · rw [if_neg hl, if_neg hl]
    unfold memcpyAt
    rw [if_pos (by omega)]
    simp

end XStore

theorem enc_name_ok (C : XCfg) (hS : C.siv.WF) (name : Bytes) : ∃ w, encryptXattrName C.siv C.b64 name = .ok w := by
  obtain ⟨c, v, h, _⟩ := C16_encrypt_rfc5297 C.siv hS name []
  refine ⟨userPrefix ++ C.b64.escape (v ++ c), ?_⟩
  unfold encryptXattrName
  rw [h]
  rfl

/-- A stored name that is none of ours. -/
def XForeign (C : XCfg) (k : Bytes) : Prop :=
  0 ∉ k ∧ decryptXattrName C.siv C.b64 k = .ok none ∧ ∀ name, encryptXattrName C.siv C.b64 name ≠ .ok k

/-- The stored attribute of the name with stored form `w` is `v`. -/
def XHas (C : XCfg) (st : XSt) (w v : Bytes) : Prop :=
  ∃ iv, iv.length = 16 ∧ st.data.lookup w = some (C.gcm.enc iv (C.header w) v).1 ∧
    st.meta.lookup w = some (iv ++ (C.gcm.enc iv (C.header w) v).2)

/-- The stored attributes are the map `m`. -/
structure XRel (C : XCfg) (st : XSt) (m : AttrMap) : Prop where
  absent : ∀ name w, encryptXattrName C.siv C.b64 name = .ok w → m name = none → st.data.lookup w = none ∧ st.meta.lookup w = none
  present : ∀ name w v, encryptXattrName C.siv C.b64 name = .ok w → m name = some v → XHas C st w v
  nodup : (st.data.map Prod.fst).Nodup
  keys : ∀ k ∈ st.data.map Prod.fst, XForeign C k ∨ ∃ name, encryptXattrName C.siv C.b64 name = .ok k

/-- One call on the model. -/
def xStep (C : XCfg) (st : XSt) : XOp → Res (Nat × Option Bytes) × XSt
  | .get name buf position => (C.vgetxattr st name buf (match buf with | none => 0 | some b => b.length) position, st)
  | .set name value flags position refused =>
    match C.vsetxattr st name value flags position refused none with
    | (.ok _, st') => (.ok (0, none), st')
    | (.error e, st') => (.error e, st')
  | .remove name refused =>
    match C.removexattr st name refused none with
    | (.ok _, st') => (.ok (0, none), st')
    | (.error e, st') => (.error e, st')

/-- A history on the model. -/
def xRun (C : XCfg) (st : XSt) : List XOp → List (Res (Nat × Option Bytes)) × XSt
  | [] => ([], st)
  | op :: rest =>
    let r := xStep C st op
    let q := xRun C r.2 rest
    (r.1 :: q.1, q.2)

/-- Callers never pass a buffer of no bytes: a query for the size has no buffer. -/
def XOp.Fit : XOp → Prop
  | .get _ (some b) _ => b ≠ []
  | _ => True

theorem getxattr_has {C : XCfg} (hg : C.gcm.Lawful) {st : XSt} {name w v : Bytes}
    (hw : encryptXattrName C.siv C.b64 name = .ok w) (h : XHas C st w v) (b : Bytes) (hb : b ≠ []) :
    C.getxattr st name (some b) b.length =
      if b.length < v.length then .error (.vfs 34) else .ok (v.length, some (v ++ b.drop v.length)) := by
  obtain ⟨iv, hiv, hd, hm⟩ := h
  have hct := hg.ct_len iv (C.header w) v
  unfold XCfg.getxattr
  rw [hw]
  dsimp only
  rw [XStore.xs_get_fit _ _ _ _ hd hb, hct]
  by_cases hl : b.length < v.length
  · rw [if_pos hl, if_pos hl]
  · rw [if_neg hl, if_neg hl]
    dsimp only
    have hml : (iv ++ (C.gcm.enc iv (C.header w) v).2).length = 32 := by
      rw [List.length_append, hiv, hg.mac_len]
    have hz : (zeros 32).length = 32 := by simp [zeros]
    have := XStore.xs_get_fit st.meta w _ (zeros 32) hm (by decide)
    rw [hz, hml, if_neg (by omega)] at this
    rw [this]
    have hdz : (zeros 32).drop 32 = [] := by decide
    rw [hdz, List.append_nil]
    dsimp only
    rw [if_neg (by simp), if_neg (by rw [List.length_append, List.length_drop, hct]; omega)]
    have e1 : (iv ++ (C.gcm.enc iv (C.header w) v).2).take 16 = iv := List.take_left' hiv
    have e2 : (iv ++ (C.gcm.enc iv (C.header w) v).2).drop 16 = (C.gcm.enc iv (C.header w) v).2 := List.drop_left' hiv
    have e3 : ((C.gcm.enc iv (C.header w) v).1 ++ b.drop v.length).take v.length = (C.gcm.enc iv (C.header w) v).1 :=
      List.take_left' hct
    have e4 : ((C.gcm.enc iv (C.header w) v).1 ++ b.drop v.length).drop v.length = b.drop v.length := List.drop_left' hct
    rw [e1, e2, e3, e4, hg.dec_enc]
    simp

theorem xStep_get {C : XCfg} (hg : C.gcm.Lawful) (hS : C.siv.WF) {st : XSt} {m : AttrMap} (h : XRel C st m)
    (name : Bytes) (buf : Option Bytes) (position : Nat) (hf : XOp.Fit (.get name buf position)) :
    (xStep C st (.get name buf position)).1 = (xattrStep m (.get name buf position)).1 := by
  obtain ⟨w, hw⟩ := enc_name_ok C hS name
  unfold xStep xattrStep XCfg.vgetxattr
  dsimp only
  by_cases hp : position ≠ 0
  · rw [if_pos hp, if_pos hp]
  rw [if_neg hp, if_neg hp]
  cases hm : m name with
  | none =>
    obtain ⟨h1, _⟩ := h.absent name w hw hm
    unfold XCfg.getxattr
    rw [hw]
    dsimp only
    unfold XStore.get
    rw [h1]
  | some v =>
    have hh := h.present name w v hw hm
    cases buf with
    | none =>
      obtain ⟨iv, _, hd, _⟩ := hh
      unfold XCfg.getxattr
      rw [hw]
      dsimp only
      unfold XStore.get
      rw [hd]
      dsimp only
      rw [if_pos rfl, hg.ct_len]
    | some b =>
      dsimp only
      rw [getxattr_has hg hw hh b hf]
      split <;> rfl

theorem xs_set_exists {s : XStore} {name v : Bytes} {flags : BitVec 32} (h : XStore.maskOk flags)
    (h1 : flags &&& xattrCreate ≠ 0) (h2 : s.lookup name ≠ none) : s.set name v flags = .error (.vfs 17) := by
  unfold XStore.set
  rw [if_neg (by rw [h]; simp)]
  cases hl : s.lookup name with
  | none => exact absurd hl h2
  | some o => dsimp only; rw [if_pos h1]

theorem xs_set_missing {s : XStore} {name v : Bytes} {flags : BitVec 32} (h : XStore.maskOk flags)
    (h1 : flags &&& xattrReplace ≠ 0) (h2 : s.lookup name = none) : s.set name v flags = .error (.vfs 61) := by
  unfold XStore.set
  rw [if_neg (by rw [h]; simp), h2]
  dsimp only
  rw [if_pos h1]

/-- Changing the attribute `name` in both files keeps the relation. -/
theorem XRel.update {C : XCfg} (hS : C.siv.WF) (hB : C.b64.Lawful) {st : XSt} {m : AttrMap} (h : XRel C st m)
    {name w v iv : Bytes} (hw : encryptXattrName C.siv C.b64 name = .ok w) (hiv : iv.length = 16) {st' : XSt}
    (hd : ∀ n, st'.data.lookup n = if n = w then some (C.gcm.enc iv (C.header w) v).1 else st.data.lookup n)
    (hm : ∀ n, st'.meta.lookup n = if n = w then some (iv ++ (C.gcm.enc iv (C.header w) v).2) else st.meta.lookup n)
    (hk : st'.data.map Prod.fst =
      if st.data.lookup w = none then st.data.map Prod.fst ++ [w] else st.data.map Prod.fst) :
    XRel C st' (fun n => if n = name then some v else m n) := by
  have key : ∀ n k, encryptXattrName C.siv C.b64 n = .ok k → n ≠ name → k ≠ w := by
    intro n k hn hne hc
    subst hc
    exact hne (C19_injective C.siv hS C.b64 hB n name k hn hw)
  refine ⟨fun n k hn h0 => ?_, fun n k x hn h0 => ?_, ?_, ?_⟩
  · by_cases he : n = name
    · rw [if_pos he] at h0; cases h0
    · rw [if_neg he] at h0
      rw [hd, hm, if_neg (key n k hn he), if_neg (key n k hn he)]
      exact h.absent n k hn h0
  · by_cases he : n = name
    · rw [if_pos he] at h0
      cases h0
      subst he
      rw [hn] at hw
      cases hw
      exact ⟨iv, hiv, by rw [hd, if_pos rfl], by rw [hm, if_pos rfl]⟩
    · rw [if_neg he] at h0
      obtain ⟨i, hi, a, b⟩ := h.present n k x hn h0
      exact ⟨i, hi, by rw [hd, if_neg (key n k hn he), a], by rw [hm, if_neg (key n k hn he), b]⟩
  · rw [hk]
    split
    · rename_i hnone
      have := (XStore.xs_lookup_none st.data w).mp hnone
      exact List.nodup_append.mpr ⟨h.nodup, by simp, fun a ha b hb => by
        rw [List.mem_singleton] at hb
        rintro rfl
        exact this (hb ▸ ha)⟩
    · exact h.nodup
  · intro k hkm
    rw [hk] at hkm
    split at hkm
    · rcases List.mem_append.mp hkm with h1 | h1
      · exact h.keys k h1
      · rw [List.mem_singleton] at h1
        exact .inr ⟨name, h1 ▸ hw⟩
    · exact h.keys k hkm

theorem XRel.erase {C : XCfg} (hS : C.siv.WF) (hB : C.b64.Lawful) {st : XSt} {m : AttrMap} (h : XRel C st m)
    {name w : Bytes} (hw : encryptXattrName C.siv C.b64 name = .ok w) {st' : XSt}
    (hd : ∀ n, st'.data.lookup n = if n = w then none else st.data.lookup n)
    (hm : ∀ n, st'.meta.lookup n = if n = w then none else st.meta.lookup n)
    (hk : st'.data.map Prod.fst = (st.data.map Prod.fst).filter fun k => decide (k ≠ w)) :
    XRel C st' (fun n => if n = name then none else m n) := by
  have key : ∀ n k, encryptXattrName C.siv C.b64 n = .ok k → n ≠ name → k ≠ w := by
    intro n k hn hne hc
    subst hc
    exact hne (C19_injective C.siv hS C.b64 hB n name k hn hw)
  refine ⟨fun n k hn h0 => ?_, fun n k x hn h0 => ?_, ?_, ?_⟩
  · by_cases he : n = name
    · subst he
      rw [hn] at hw
      cases hw
      rw [hd, hm, if_pos rfl, if_pos rfl]
      exact ⟨rfl, rfl⟩
    · rw [if_neg he] at h0
      rw [hd, hm, if_neg (key n k hn he), if_neg (key n k hn he)]
      exact h.absent n k hn h0
  · by_cases he : n = name
    · rw [if_pos he] at h0; cases h0
    · rw [if_neg he] at h0
      obtain ⟨i, hi, a, b⟩ := h.present n k x hn h0
      exact ⟨i, hi, by rw [hd, if_neg (key n k hn he), a], by rw [hm, if_neg (key n k hn he), b]⟩
  · rw [hk]
    exact h.nodup.filter _
  · intro k hkm
    rw [hk] at hkm
    exact h.keys k (List.mem_of_mem_filter hkm)

theorem XRel.drawn {C : XCfg} {st : XSt} {m : AttrMap} (h : XRel C st m) (n : Nat) : XRel C { st with drawn := n } m :=
  ⟨h.absent, h.present, h.nodup, h.keys⟩

theorem XRel.dataNone {C : XCfg} {st : XSt} {m : AttrMap} (h : XRel C st m) {name w : Bytes}
    (hw : encryptXattrName C.siv C.b64 name = .ok w) : (st.data.lookup w = none ↔ m name = none) ∧
      (st.meta.lookup w = none ↔ m name = none) := by
  cases hm : m name with
  | none => simp [h.absent name w hw hm]
  | some v =>
    obtain ⟨iv, _, a, b⟩ := h.present name w v hw hm
    simp [a, b]

theorem xStep_set {C : XCfg} (hS : C.siv.WF) (hB : C.b64.Lawful) (hR : ∀ n, (C.rng.draw n 16).length = 16) {st : XSt}
    {m : AttrMap} (h : XRel C st m) (name value : Bytes) (flags : BitVec 32) (position : Nat) (refused : Option Nat) :
    (xStep C st (.set name value flags position refused)).1 = (xattrStep m (.set name value flags position refused)).1 ∧
      XRel C (xStep C st (.set name value flags position refused)).2 (xattrStep m (.set name value flags position refused)).2 := by
  obtain ⟨w, hw⟩ := enc_name_ok C hS name
  obtain ⟨hdn, hmn⟩ := h.dataNone hw
  unfold xStep xattrStep XCfg.vsetxattr
  dsimp only
  by_cases hp : position ≠ 0
  · rw [if_pos hp, if_pos hp]
    exact ⟨rfl, h⟩
  rw [if_neg hp, if_neg hp]
  unfold XCfg.setxattr
  rw [hw]
  dsimp only
  cases refused with
  | some n => exact ⟨rfl, h.drawn _⟩
  | none =>
    dsimp only
    have hmask := XStore.xs_mask flags
    by_cases hc : flags.getLsbD 0 = true ∧ m name ≠ none
    · rw [if_pos hc, xs_set_exists hmask ((XStore.xs_flag_create flags).mpr hc.1) (fun h0 => hc.2 (hdn.mp h0))]
      exact ⟨rfl, h.drawn _⟩
    rw [if_neg hc]
    by_cases hr : flags.getLsbD 1 = true ∧ m name = none
    · rw [if_pos hr, xs_set_missing hmask ((XStore.xs_flag_replace flags).mpr hr.1) (hdn.mpr hr.2)]
      exact ⟨rfl, h.drawn _⟩
    rw [if_neg hr]
    obtain ⟨d, hd1, hd2, hd3⟩ := XStore.xs_set_spec st.data w (C.gcm.enc (C.rng.draw st.drawn 16) (C.header w) value).1 _ hmask
      (fun hh => hc ⟨(XStore.xs_flag_create flags).mp hh.1, fun h0 => hh.2 (hdn.mpr h0)⟩)
      (fun hh => hr ⟨(XStore.xs_flag_replace flags).mp hh.1, hdn.mp hh.2⟩)
    obtain ⟨e, he1, he2, _⟩ := XStore.xs_set_spec st.meta w
      (C.rng.draw st.drawn 16 ++ (C.gcm.enc (C.rng.draw st.drawn 16) (C.header w) value).2) _ hmask
      (fun hh => hc ⟨(XStore.xs_flag_create flags).mp hh.1, fun h0 => hh.2 (hmn.mpr h0)⟩)
      (fun hh => hr ⟨(XStore.xs_flag_replace flags).mp hh.1, hmn.mp hh.2⟩)
    rw [hd1]
    dsimp only
    rw [he1]
    exact ⟨rfl, h.update hS hB hw (hR st.drawn) hd2 he2 hd3⟩

theorem xStep_remove {C : XCfg} (hS : C.siv.WF) (hB : C.b64.Lawful) {st : XSt}
    {m : AttrMap} (h : XRel C st m) (name : Bytes) (refused : Option Nat) :
    (xStep C st (.remove name refused)).1 = (xattrStep m (.remove name refused)).1 ∧
      XRel C (xStep C st (.remove name refused)).2 (xattrStep m (.remove name refused)).2 := by
  obtain ⟨w, hw⟩ := enc_name_ok C hS name
  obtain ⟨hdn, hmn⟩ := h.dataNone hw
  unfold xStep xattrStep XCfg.removexattr
  dsimp only
  rw [hw]
  dsimp only
  cases refused with
  | some n => exact ⟨rfl, h⟩
  | none =>
    dsimp only
    by_cases hc : m name = none
    · rw [if_pos hc]
      have : st.data.remove w = .error (.vfs 61) := by unfold XStore.remove; rw [hdn.mpr hc]
      rw [this]
      exact ⟨rfl, h⟩
    · rw [if_neg hc]
      obtain ⟨d, hd1, hd2, hd3⟩ := XStore.xs_remove_spec st.data w (fun h0 => hc (hdn.mp h0))
      obtain ⟨e, he1, he2, _⟩ := XStore.xs_remove_spec st.meta w (fun h0 => hc (hmn.mp h0))
      rw [hd1]
      dsimp only
      rw [he1]
      exact ⟨rfl, h.erase hS hB hw hd2 he2 hd3⟩

theorem xStep_spec {C : XCfg} (hg : C.gcm.Lawful) (hS : C.siv.WF) (hB : C.b64.Lawful)
    (hR : ∀ n, (C.rng.draw n 16).length = 16) {st : XSt} {m : AttrMap} (h : XRel C st m) (op : XOp) (hf : XOp.Fit op) :
    (xStep C st op).1 = (xattrStep m op).1 ∧ XRel C (xStep C st op).2 (xattrStep m op).2 := by
  cases op with
  | get name buf position =>
    refine ⟨xStep_get hg hS h name buf position hf, ?_⟩
    have h1 : (xStep C st (.get name buf position)).2 = st := rfl
    have h2 : (xattrStep m (.get name buf position)).2 = m := by
      show (if position ≠ 0 then ((.error (.vfs 22) : Res (Nat × Option Bytes)), m) else _).2 = m
      split
      · rfl
      · split
        · rfl
        · rfl
        · split <;> rfl
    rw [h1, h2]
    exact h
  | set name value flags position refused => exact xStep_set hS hB hR h name value flags position refused
  | remove name refused => exact xStep_remove hS hB h name refused

theorem xRun_spec {C : XCfg} (hg : C.gcm.Lawful) (hS : C.siv.WF) (hB : C.b64.Lawful)
    (hR : ∀ n, (C.rng.draw n 16).length = 16) (ops : List XOp) : ∀ {st : XSt} {m : AttrMap}, XRel C st m →
    (∀ op ∈ ops, XOp.Fit op) → (xRun C st ops).1 = (xattrRun m ops).1 ∧ XRel C (xRun C st ops).2 (xattrRun m ops).2 := by
  induction ops with
  | nil => intro st m h _; exact ⟨rfl, h⟩
  | cons op rest ih =>
    intro st m h hf
    obtain ⟨h1, h2⟩ := xStep_spec hg hS hB hR h op (hf op (by simp))
    obtain ⟨h3, h4⟩ := ih h2 (fun o ho => hf o (by simp [ho]))
    refine ⟨?_, h4⟩
    show (xStep C st op).1 :: (xRun C (xStep C st op).2 rest).1 = (xattrStep m op).1 :: (xattrRun (xattrStep m op).2 rest).1
    rw [h1, h3]

/-- The names shown for the stored names. -/
theorem XRel.visible {C : XCfg} (hS : C.siv.WF) (hB : C.b64.Lawful) {st : XSt} {m : AttrMap} (h : XRel C st m) :
    (visibleNames C.siv C.b64 (st.data.map Prod.fst)).Nodup ∧
      ∀ n, n ∈ visibleNames C.siv C.b64 (st.data.map Prod.fst) ↔ n ≠ [] ∧ m n ≠ none := by
  have hdec : ∀ k ∈ st.data.map Prod.fst, ∀ n, decryptXattrName C.siv C.b64 k = .ok (some n) →
      n ≠ [] ∧ encryptXattrName C.siv C.b64 n = .ok k := by
    intro k hk n hn
    rcases h.keys k hk with hf | ⟨u, hu⟩
    · rw [hf.2.1] at hn; cases hn
    · by_cases hu0 : u = []
      · subst hu0
        obtain ⟨w, hw, hw2⟩ := C19_empty_name C.siv hS C.b64 hB
        rw [hw] at hu
        cases hu
        rw [hw2] at hn
        cases hn
      · obtain ⟨w, hw, hw2⟩ := C19_round_trip_partial C.siv hS C.b64 hB u hu0
        rw [hw] at hu
        cases hu
        rw [hw2] at hn
        cases hn
        exact ⟨hu0, hw⟩
  have hmem : ∀ n k, (match decryptXattrName C.siv C.b64 k with | .ok r => r | .error _ => none) = some n ↔
      decryptXattrName C.siv C.b64 k = .ok (some n) := by
    intro n k
    cases decryptXattrName C.siv C.b64 k with
    | error e => simp
    | ok r => simp
  refine ⟨?_, fun n => ?_⟩
  · unfold visibleNames
    have hnd := h.nodup
    revert hnd hdec
    generalize st.data.map Prod.fst = ks
    intro hdec hnd
    induction ks with
    | nil => simp
    | cons k ks ih =>
      have ih' := ih (fun k' hk' => hdec k' (by simp [hk'])) (List.nodup_cons.mp hnd).2
      rw [List.filterMap_cons]
      split
      · exact ih'
      · rename_i n hn
        refine List.nodup_cons.mpr ⟨fun hc => ?_, ih'⟩
        obtain ⟨k', hk', hn'⟩ := List.mem_filterMap.mp hc
        obtain ⟨_, e1⟩ := hdec k (by simp) n ((hmem n k).mp hn)
        obtain ⟨_, e2⟩ := hdec k' (by simp [hk']) n ((hmem n k').mp hn')
        rw [e1] at e2
        cases e2
        exact (List.nodup_cons.mp hnd).1 hk'
  · unfold visibleNames
    rw [List.mem_filterMap]
    constructor
    · rintro ⟨k, hk, hn⟩
      obtain ⟨h1, h2⟩ := hdec k hk n ((hmem n k).mp hn)
      exact ⟨h1, fun h0 => (XStore.xs_lookup_none st.data k).mp (h.absent n k h2 h0).1 hk⟩
    · rintro ⟨h1, h2⟩
      obtain ⟨w, hw, hw2⟩ := C19_round_trip_partial C.siv hS C.b64 hB n h1
      refine ⟨w, ?_, (hmem n w).mpr hw2⟩
      by_contra hc
      exact h2 ((h.dataNone hw).1.mp ((XStore.xs_lookup_none st.data w).mpr hc))

end Securefs
